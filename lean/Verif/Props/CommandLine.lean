import Verif.Spec.CommandLine
import Verif.Props.ExamplesProduce
/-!
Property C101: the command lines of the example programs.
-/
namespace PSync
open Spec

/-! ### Numbers -/

theorem textValue_append (a : Bytes) (d : Byte) : textValue (a ++ [d]) = 10 * textValue a + (d.toNat - 48) := by
  induction a with
  | nil => simp [textValue]
  | cons x r ih =>
    simp only [List.cons_append, textValue, ih, List.length_append, List.length_cons, List.length_nil, Nat.zero_add, Nat.pow_succ]
    rw [Nat.mul_add, Nat.add_assoc, ← Nat.mul_assoc, Nat.mul_comm ((x.toNat - 48) * 10 ^ r.length) 10, ← Nat.mul_assoc]

theorem digitsValue_eq (t : Bytes) : digitsValue t = textValue t := by
  induction t using List.reverseRecOn with
  | nil => rfl
  | append_singleton a d ih =>
    rw [textValue_append, ← ih]
    simp [digitsValue, List.foldl_append]

theorem digit_toNat {n : Nat} (h : n < 10) : (BitVec.ofNat 8 (48 + n)).toNat = 48 + n := by
  rw [BitVec.toNat_ofNat, Nat.mod_eq_of_lt (by omega)]

theorem decimalFuel_number : ∀ fuel n, n < fuel → IsNumber (decimalFuel fuel n) n := by
  intro fuel
  induction fuel with
  | zero => intro n h; omega
  | succ fuel ih =>
    intro n h
    unfold decimalFuel
    split
    · rename_i h9
      refine ⟨by simp, ?_, ?_⟩
      · intro d hd
        rw [List.mem_singleton] at hd
        subst hd
        rw [digit_toNat h9]
        omega
      · simp only [textValue, digit_toNat h9, List.length_nil]
        omega
    · rename_i h9
      obtain ⟨h1, h2, h3⟩ := ih (n / 10) (by omega)
      have h4 : n % 10 < 10 := Nat.mod_lt _ (by omega)
      refine ⟨by simp, ?_, ?_⟩
      · intro d hd
        rcases List.mem_append.1 hd with hd | hd
        · exact h2 d hd
        · rw [List.mem_singleton] at hd
          subst hd
          rw [digit_toNat h4]
          omega
      · rw [textValue_append, h3, digit_toNat h4]
        omega

theorem decimal_number (n : Nat) : IsNumber (decimal n) n := decimalFuel_number _ _ (by omega)

theorem takeWhile_all {α : Type} {p : α → Bool} : ∀ {l : List α}, (∀ a ∈ l, p a = true) → l.takeWhile p = l
  | [], _ => rfl
  | a :: l, h => by
    rw [List.takeWhile_cons, if_pos (h a (by simp)), takeWhile_all fun b hb => h b (by simp [hb])]

/-- A text of digits is read as its number. -/
theorem stoi_number {t : Bytes} {n : Nat} (h : IsNumber t n) : stoi t = if n < 2147483648 then some (n : Int) else none := by
  obtain ⟨h1, h2, h3⟩ := h
  match t, h1 with
  | d :: r, _ =>
    have hd := h2 d (by simp)
    have hs : isSpace d = false := by
      unfold isSpace
      rw [decide_eq_false_iff_not]
      omega
    have ha : ∀ c : Byte, c.toNat < 48 → (some d == some c) = false := by
      intro c hc
      rw [beq_eq_false_iff_ne]
      intro h
      cases h
      omega
    have h45 : (some d == some 45#8) = false := ha _ (by decide)
    have h43 : (some d == some 43#8) = false := ha _ (by decide)
    have hw : (d :: r).takeWhile isDigit = d :: r := takeWhile_all fun b hb => by
      unfold isDigit
      rw [decide_eq_true_eq]
      exact h2 b hb
    unfold stoi
    simp only [List.dropWhile_cons, hs, List.head?_cons, h45, h43, Bool.or_self, Bool.false_eq_true, if_false, hw,
      List.isEmpty_cons, digitsValue_eq, h3]
    by_cases hn : n < 2147483648
    · rw [if_pos hn, if_pos ⟨by omega, by omega⟩]
    · rw [if_neg hn, if_neg (by omega)]

/-! ### Names -/

/-- What is appended to the user prefix. -/
theorem suffix_no {n : Nat} {b : Byte} (hb : b.toNat < 45 ∨ (45 < b.toNat ∧ b.toNat < 48) ∨ 57 < b.toNat) : b ∉ 45#8 :: decimal n := by
  intro h
  rcases List.mem_cons.1 h with rfl | h
  · simp at hb
  · have := (decimal_number n).2.1 b h
    omega

theorem dropWhile_nil_iff {α : Type} {p : α → Bool} : ∀ {l : List α}, l.dropWhile p = [] ↔ ∀ a ∈ l, p a = true
  | [] => by simp
  | a :: l => by
    rw [List.dropWhile_cons]
    split
    · rename_i h
      rw [dropWhile_nil_iff]
      simp [h]
    · rename_i h
      simp [h]

theorem dropWhile_append_of {α : Type} {p : α → Bool} {l s : List α} (h : ∀ a ∈ s, p a = true) :
    (l ++ s).dropWhile p = (match l.dropWhile p with | [] => [] | c :: r => c :: r ++ s) := by
  induction l with
  | nil =>
    simp only [List.nil_append, List.dropWhile_nil]
    rw [dropWhile_nil_iff]
    exact h
  | cons a l ih =>
    simp only [List.cons_append, List.dropWhile_cons]
    split
    · exact ih
    · rfl

theorem afterScheme_append {u s : Bytes} (h1 : 58#8 ∉ s) (h2 : 47#8 ∉ s) : afterScheme (u ++ s) = afterScheme u ++ s := by
  unfold afterScheme
  rw [dropWhile_append_of (fun a ha => by
    simp only [Bool.and_eq_true, bne_iff_ne, ne_eq]
    exact ⟨fun h => h1 (h ▸ ha), fun h => h2 (h ▸ ha)⟩)]
  cases hu : u.dropWhile (fun c => c != 58#8 && c != 47#8) with
  | nil => rfl
  | cons c r =>
    simp only [List.cons_append]
    split <;> rfl

theorem afterAuthority_append {v s : Bytes} (h2 : 47#8 ∉ s) (hs : s ≠ []) :
    (¬ HostOnly v ∧ afterAuthority (v ++ s) = afterAuthority v ++ s) ∨ (HostOnly v ∧ afterAuthority (v ++ s) = []) := by
  obtain ⟨x, s', rfl⟩ := List.exists_cons_of_ne_nil hs
  have hx : x ≠ 47#8 := fun h => h2 (by simp [h])
  match v with
  | [] =>
    refine .inl ⟨(by rintro ⟨r, h, _⟩; cases h), ?_⟩
    simp [afterAuthority, hx]
  | [a] =>
    refine .inl ⟨(by rintro ⟨r, h, _⟩; cases h), ?_⟩
    by_cases ha : a = 47#8
    · simp [afterAuthority, ha, hx]
    · simp [afterAuthority, ha]
  | a :: b :: r =>
    by_cases ha : a = 47#8
    · by_cases hb : b = 47#8
      · subst ha hb
        by_cases hr : 47#8 ∈ r
        · refine .inl ⟨?_, ?_⟩
          · rintro ⟨r', h, h'⟩
            cases h
            exact h' hr
          · simp only [List.cons_append, afterAuthority, if_true]
            rw [dropWhile_append_of (fun a ha => by
              simp only [bne_iff_ne, ne_eq]
              exact fun h => h2 (h ▸ ha))]
            cases hd : r.dropWhile (fun c => c != 47#8) with
            | nil =>
              rw [dropWhile_nil_iff] at hd
              have := hd _ hr
              simp at this
            | cons c r' => simp
        · refine .inr ⟨⟨r, rfl, hr⟩, ?_⟩
          simp only [List.cons_append, afterAuthority, if_true]
          rw [dropWhile_nil_iff.2]
          · rfl
          · intro c hc
            simp only [bne_iff_ne, ne_eq]
            rintro rfl
            rcases List.mem_append.1 hc with h | h
            · exact hr h
            · exact h2 h
      · refine .inl ⟨?_, ?_⟩
        · rintro ⟨r', h, _⟩
          cases h
          exact hb rfl
        · simp [afterAuthority, ha, hb]
    · refine .inl ⟨?_, ?_⟩
      · rintro ⟨r', h, _⟩
        cases h
        exact ha rfl
      · simp [afterAuthority, ha]

theorem textParts_plain : ∀ (s acc : Bytes), 47#8 ∉ s → acc ++ s ≠ [] → textParts acc s = [acc ++ s]
  | [], acc, _, h => by
    unfold textParts
    rw [if_neg]
    · simp
    · simpa using h
  | c :: r, acc, h, _ => by
    unfold textParts
    rw [if_neg (fun hc => h (by simp [hc])), textParts_plain r _ (fun hr => h (by simp [hr])) (by simp)]
    simp

/-- What follows the last slash belongs to one part; the parts before it do not depend on it. -/
theorem textParts_append (v : Bytes) : ∀ acc : Bytes, ∃ front w, (∀ b ∈ w, b ∈ acc ∨ b ∈ v) ∧
    ∀ s, 47#8 ∉ s → s ≠ [] → textParts acc (v ++ s) = front ++ [w ++ s] := by
  induction v with
  | nil =>
    intro acc
    refine ⟨[], acc, fun b hb => .inl hb, fun s h1 h2 => ?_⟩
    rw [List.nil_append, textParts_plain s acc h1 (by simp [h2])]
    rfl
  | cons c r ih =>
    intro acc
    by_cases hc : c = 47#8
    · obtain ⟨front, w, h1, h2⟩ := ih []
      refine ⟨acc :: front, w, fun b hb => .inr ?_, fun s h3 h4 => ?_⟩
      · rcases h1 b hb with h | h
        · cases h
        · simp [h]
      · rw [List.cons_append, textParts, if_pos hc, h2 s h3 h4]
        rfl
    · obtain ⟨front, w, h1, h2⟩ := ih (acc ++ [c])
      refine ⟨front, w, fun b hb => ?_, fun s h3 h4 => ?_⟩
      · rcases h1 b hb with h | h
        · rcases List.mem_append.1 h with h | h
          · exact .inl h
          · rw [List.mem_singleton] at h
            exact .inr (by simp [h])
        · exact .inr (by simp [h])
      · rw [List.cons_append, textParts, if_neg hc, h2 s h3 h4]

theorem unescape_plain : ∀ (s : Bytes), 37#8 ∉ s → unescape s = s
  | [], _ => rfl
  | [_], _ => rfl
  | [_, _], _ => rfl
  | a :: b :: c :: r, h => by
    unfold unescape
    rw [if_neg (fun ha => h (by simp [ha])), unescape_plain (b :: c :: r) (fun hr => h (List.mem_cons_of_mem _ hr))]

theorem hexDigit_dash : hexDigit 45#8 = none := by decide

/-- An escape sequence does not reach into what is appended. -/
theorem unescape_append : ∀ (w t : Bytes), 37#8 ∉ t → t ≠ [] → unescape (w ++ 45#8 :: t) = unescape w ++ 45#8 :: t
  | [], t, h, _ => by
    have h2 : 37#8 ∉ 45#8 :: t := by
      rw [List.mem_cons, not_or]
      exact ⟨by decide, h⟩
    rw [List.nil_append, unescape_plain _ h2]
    rfl
  | [a], t, h, ht => by
    obtain ⟨d, r, rfl⟩ := List.exists_cons_of_ne_nil ht
    simp only [List.cons_append, List.nil_append, unescape, hexDigit_dash]
    have h1 : unescape r = r := unescape_plain r (fun hr => h (List.mem_cons_of_mem _ hr))
    have h2 : unescape (45#8 :: d :: r) = 45#8 :: d :: r :=
      unescape_plain _ (by simp only [List.mem_cons, not_or] at h ⊢; exact ⟨by decide, h.1, h.2⟩)
    rw [h1, h2]
    simp
  | [a, b], t, h, ht => by
    have h1 : unescape t = t := unescape_plain t h
    have h2 := unescape_append [b] t h ht
    simp only [List.cons_append, List.nil_append] at h2 ⊢
    rw [unescape, hexDigit_dash, h1, h2]
    by_cases ha : a = 37#8
    · rw [if_pos ha]
      cases hexDigit b <;> rfl
    · rw [if_neg ha]
      rfl
  | a :: b :: c :: r, t, h, ht => by
    have h1 := unescape_append r t h ht
    have h2 := unescape_append (b :: c :: r) t h ht
    simp only [List.cons_append] at h2 ⊢
    rw [unescape, unescape, h1, h2]
    split
    · cases hexDigit b <;> cases hexDigit c <;> rfl
    · rfl

theorem componentsOf_append (typed : Bytes → Option Component) (x : Bytes) : ∀ front : List Bytes,
    componentsOf typed (front ++ [x]) =
      (match componentsOf typed front, componentOfText typed x with
        | some f, some c => some (f ++ [c])
        | _, _ => none)
  | [] => by
    simp only [List.nil_append, componentsOf]
    cases componentOfText typed x <;> rfl
  | p :: ps => by
    simp only [List.cons_append, componentsOf, componentsOf_append typed x ps]
    cases componentOfText typed p <;> cases componentsOf typed ps <;> cases componentOfText typed x <;> rfl

theorem componentOfText_stream {typed : Bytes → Option Component} {w : Bytes} (h : 61#8 ∉ w) (i : Nat) :
    componentOfText typed (w ++ 45#8 :: decimal i) = some ⟨TlvType.generic, unescape w ++ 45#8 :: decimal i⟩ := by
  unfold componentOfText
  rw [if_neg, unescape_append w _ (fun hm => suffix_no (n := i) (b := 37#8) (by decide) (List.mem_cons_of_mem _ hm))
    (decimal_number i).1]
  · rw [if_neg]
    simp
  · rw [List.mem_append, not_or]
    exact ⟨h, suffix_no (by decide)⟩

/-- The names of the streams, for a user prefix without an equal sign: none can be made, all are empty, or all are the same but for the
number at the end of the last component. -/
theorem stream_names (typed : Bytes → Option Component) (u : Bytes) (h : 61#8 ∉ u) :
    (HostOnly (afterScheme u) ∧ ∀ i, nameOfText typed (streamText u i) = some []) ∨
    (¬ HostOnly (afterScheme u) ∧ ((∀ i, nameOfText typed (streamText u i) = none) ∨
      ∃ front x, ∀ i, nameOfText typed (streamText u i) = some (front ++ [⟨TlvType.generic, x ++ 45#8 :: decimal i⟩]))) := by
  have hsub : ∀ b ∈ afterAuthority (afterScheme u), b ∈ u := by
    intro b hb
    have h1 : b ∈ afterScheme u := by
      unfold afterAuthority at hb
      split at hb
      · exact absurd hb (by simp)
      · rename_i a r heq
        rw [heq]
        split at hb
        · split at hb
          · cases hb
          · split at hb
            · exact List.mem_cons_of_mem _ (List.mem_cons_of_mem _ ((List.dropWhile_sublist _).subset (List.mem_of_mem_tail hb)))
            · exact List.mem_cons_of_mem _ hb
        · exact hb
    unfold afterScheme at h1
    split at h1
    · rename_i c r heq
      split at h1
      · have : b ∈ u.dropWhile (fun c => c != 58#8 && c != 47#8) := by rw [heq]; exact List.mem_cons_of_mem _ h1
        exact (List.dropWhile_sublist _).subset this
      · exact h1
    · exact h1
  have key : ∀ i, (¬ HostOnly (afterScheme u) ∧ afterAuthority (afterScheme (streamText u i)) =
        afterAuthority (afterScheme u) ++ 45#8 :: decimal i) ∨
      (HostOnly (afterScheme u) ∧ afterAuthority (afterScheme (streamText u i)) = []) := by
    intro i
    unfold streamText
    rw [afterScheme_append (suffix_no (by decide)) (suffix_no (by decide))]
    exact afterAuthority_append (suffix_no (by decide)) (by simp)
  by_cases hh : HostOnly (afterScheme u)
  · refine .inl ⟨hh, fun i => ?_⟩
    rcases key i with ⟨h1, _⟩ | ⟨_, h1⟩
    · exact absurd hh h1
    · unfold nameOfText
      rw [h1]
      rfl
  · refine .inr ⟨hh, ?_⟩
    obtain ⟨front, w, hw, hp⟩ := textParts_append (afterAuthority (afterScheme u)) []
    have hw61 : 61#8 ∉ w := fun hm => h (hsub _ ((hw _ hm).resolve_left (by simp)))
    have hn : ∀ i, nameOfText typed (streamText u i) = (match componentsOf typed front with
        | some f => some (f ++ [⟨TlvType.generic, unescape w ++ 45#8 :: decimal i⟩])
        | none => none) := by
      intro i
      rcases key i with ⟨_, h1⟩ | ⟨h1, _⟩
      · unfold nameOfText
        rw [h1, hp _ (suffix_no (by decide)) (by simp), componentsOf_append, componentOfText_stream hw61]
        cases componentsOf typed front <;> rfl
      · exact absurd h1 hh
    cases hf : componentsOf typed front with
    | none => exact .inl fun i => by rw [hn, hf]
    | some f => exact .inr ⟨f, unescape w, fun i => by rw [hn, hf]⟩

/-! ### C101 -/

theorem pubMain_running {typed : Bytes → Option Component} {env cfg : PubAppCfg} {args : List Bytes}
    (h : pubMain typed env args = .running cfg) :
    ∃ a0 sp u tn tm p n m, args = [a0, sp, u, tn, tm] ∧ nameOfText typed sp = some p ∧ stoi tn = some n ∧ stoi tm = some m ∧
      (∀ i < n.toNat, (nameOfText typed (streamText u i)).isSome = true) ∧
      cfg = { env with pc := { env.pc with syncPrefix := p }, stream := fun i => (nameOfText typed (streamText u i)).getD [],
                       num := n, maxPublish := m } := by
  match args, h with
  | [a0, sp, u, tn, tm], h =>
    simp only [pubMain] at h
    cases h1 : nameOfText typed sp with
    | none => rw [h1] at h; cases h
    | some p =>
      cases h2 : stoi tn with
      | none => rw [h1, h2] at h; cases h
      | some n =>
        cases h3 : stoi tm with
        | none => rw [h1, h2, h3] at h; cases h
        | some m =>
          rw [h1, h2, h3] at h
          simp only at h
          split at h
          · rename_i hall
            cases h
            refine ⟨a0, sp, u, tn, tm, p, n, m, rfl, h1, h2, h3, fun i hi => ?_, rfl⟩
            rw [List.all_eq_true] at hall
            exact hall i (List.mem_range.2 hi)
          · cases h
  | [], h => cases h
  | [_], h => cases h
  | [_, _], h => cases h
  | [_, _, _], h => cases h
  | [_, _, _, _], h => cases h
  | _ :: _ :: _ :: _ :: _ :: _ :: _, h => cases h

/-- C101.  The streams of an example producer that was started with a user prefix without an equal sign: if the user prefix is
"//host", perhaps after a scheme, all have the empty name; otherwise their names are different, the same but for the last component,
and that ends with a dash and the number of the stream. -/
theorem c101_names_partial (typed : Bytes → Option Component) (env cfg : PubAppCfg) (args : List Bytes) (u : Bytes)
    (hu : args[2]? = some u) (he : 61#8 ∉ u) (h : pubMain typed env args = .running cfg) :
    (HostOnly (afterScheme u) ∧ ∀ p ∈ cfg.streams, p = []) ∨
    (¬ HostOnly (afterScheme u) ∧ cfg.streams.Nodup ∧ ∃ front x, ∀ i < cfg.num.toNat, ∃ t, IsNumber t i ∧
      cfg.stream i = front ++ [⟨TlvType.generic, x ++ 45#8 :: t⟩]) := by
  obtain ⟨a0, sp, u', tn, tm, p, n, m, rfl, _, _, _, hall, rfl⟩ := pubMain_running h
  simp only [List.getElem?_cons_succ, List.getElem?_cons_zero, Option.some.injEq] at hu
  subst hu
  simp only [PubAppCfg.streams]
  rcases stream_names typed u' he with ⟨h1, h2⟩ | ⟨h1, h2 | ⟨front, x, h2⟩⟩
  · refine .inl ⟨h1, fun q hq => ?_⟩
    obtain ⟨i, _, rfl⟩ := List.mem_map.1 hq
    simp [h2]
  · refine .inr ⟨h1, ?_⟩
    have hn : n.toNat = 0 := by
      by_contra hne
      have := hall 0 (by omega)
      rw [h2] at this
      cases this
    rw [hn]
    exact ⟨by simp, [], [], fun i hi => absurd hi (by omega)⟩
  · refine .inr ⟨h1, ?_, front, x, fun i _ => ⟨decimal i, decimal_number i, by simp [h2]⟩⟩
    refine List.Nodup.map ?_ List.nodup_range
    intro i j hij
    simp only [h2, Option.getD_some] at hij
    have h3 := List.append_cancel_left hij
    simp only [List.cons.injEq, and_true, Tlv.mk.injEq, true_and] at h3
    have h4 := List.append_cancel_left h3
    simp only [List.cons.injEq, true_and] at h4
    rw [← (decimal_number i).2.2, h4]
    exact (decimal_number j).2.2

/-- C101: as many streams as asked for, with different names, if the user prefix begins with one slash and has no equal sign.
(Missing: "//host", where it is false, and user prefixes with an equal sign, whose last component is of another type.) -/
theorem c101_distinct_partial (typed : Bytes → Option Component) (env cfg : PubAppCfg) (args : List Bytes) (u : Bytes)
    (hu : args[2]? = some u) (hp : PlainText u) (h : pubMain typed env args = .running cfg) :
    cfg.streams.Nodup ∧ cfg.streams.length = cfg.num.toNat := by
  obtain ⟨he, b, r, rfl, hb⟩ := hp
  refine ⟨?_, by simp [PubAppCfg.streams]⟩
  rcases c101_names_partial typed env cfg args _ hu he h with ⟨⟨r', h1, _⟩, _⟩ | ⟨_, h1, _⟩
  · have h2 : afterScheme (47#8 :: b :: r) = 47#8 :: b :: r := by
      simp [afterScheme]
    rw [h2] at h1
    cases h1
    exact absurd rfl hb
  · exact h1

/-- A command line with two numbers that fit into an int and names that can be made is accepted, and the numbers are those of the
application. -/
theorem c101_accepted (typed : Bytes → Option Component) (env : PubAppCfg) (a0 sp u tn tm : Bytes) (p : Name) (n m : Nat)
    (hsp : nameOfText typed sp = some p) (hn : IsNumber tn n) (hm : IsNumber tm m) (hn' : n < 2 ^ 31) (hm' : m < 2 ^ 31)
    (hu : 61#8 ∉ u) (h0 : (nameOfText typed (streamText u 0)).isSome = true) :
    ∃ cfg, pubMain typed env [a0, sp, u, tn, tm] = .running cfg ∧ cfg.pc.syncPrefix = p ∧ cfg.num = n ∧ cfg.maxPublish = m ∧
      cfg.streams.length = n := by
  have hall : (List.range (n : Int).toNat).all (fun i => (nameOfText typed (streamText u i)).isSome) = true := by
    rw [List.all_eq_true]
    intro i _
    rcases stream_names typed u hu with ⟨_, h2⟩ | ⟨_, h2 | ⟨front, x, h2⟩⟩
    · rw [h2]; rfl
    · rw [h2] at h0; cases h0
    · rw [h2]; rfl
  have h1 : stoi tn = some (n : Int) := by rw [stoi_number hn, if_pos (by omega)]
  have h2 : stoi tm = some (m : Int) := by rw [stoi_number hm, if_pos (by omega)]
  simp only [pubMain, hsp, h1, h2, hall, if_true]
  exact ⟨_, rfl, rfl, rfl, rfl, by simp [PubAppCfg.streams]⟩

/-- Another number of arguments is not accepted. -/
theorem c101_usage (typed : Bytes → Option Component) (env : PubAppCfg) (args : List Bytes) :
    pubMain typed env args = .usage ↔ args.length ≠ 5 := by
  constructor
  · intro h hl
    match args, hl with
    | [a0, sp, u, tn, tm], _ =>
      simp only [pubMain] at h
      cases h1 : nameOfText typed sp <;> cases h2 : stoi tn <;> cases h3 : stoi tm <;> rw [h1, h2, h3] at h
      all_goals first | (cases h) | (simp only at h; split at h <;> cases h)
  · intro hl
    unfold pubMain
    split
    · exact absurd rfl hl
    · rfl

/-- A number that does not fit into an int is not accepted. -/
theorem c101_too_large (typed : Bytes → Option Component) (env : PubAppCfg) (a0 sp u tn tm : Bytes) (n : Nat) (hn : 2 ^ 31 ≤ n)
    (h : IsNumber tn n ∨ IsNumber tm n) : pubMain typed env [a0, sp, u, tn, tm] = .failed := by
  have h1 : ∀ {t : Bytes}, IsNumber t n → stoi t = none := fun ht => by rw [stoi_number ht, if_neg (by omega)]
  simp only [pubMain]
  rcases h with h | h
  · rw [h1 h]
    cases nameOfText typed sp <;> rfl
  · rw [h1 h]
    cases nameOfText typed sp <;> cases stoi tn <;> rfl

/-- The example producer of partial sync, from the command line to what it publishes: with `n` streams and `m` updates each, all in
decimal, every stream has published 1, 2, …, k for some k and either k < m and one more update is scheduled, or k = m and none is. -/
theorem c101_published_partial (typed : Bytes → Option Component) (env : PubAppCfg) (a0 sp u tn tm : Bytes) (p : Name) (n m : Nat)
    (hsp : nameOfText typed sp = some p) (hn : IsNumber tn n) (hm : IsNumber tm m) (hn' : n < 2 ^ 31) (hm' : m < 2 ^ 31)
    (hm0 : 1 ≤ m) (hu : PlainText u) (h0 : (nameOfText typed (streamText u 0)).isSome = true) :
    ∃ cfg, pubMain typed env [a0, sp, u, tn, tm] = .running cfg ∧ cfg.streams.length = n ∧ cfg.streams.Nodup ∧
      ∀ a, PartAppReach cfg a → ∀ q ∈ cfg.streams, ∃ k, a.prod.base.getSeqNo q = some k ∧ printedFor q a.published = upTo 1 k ∧
        ((k < m ∧ scheduled q a.timers = 1) ∨ (k = m ∧ scheduled q a.timers = 0)) := by
  obtain ⟨cfg, h1, _, _, h4, h5⟩ := c101_accepted typed env a0 sp u tn tm p n m hsp hn hm hn' hm' hu.1 h0
  obtain ⟨h6, _⟩ := c101_distinct_partial typed env cfg _ u rfl hu h1
  refine ⟨cfg, h1, h5, h6, fun a ha q hq => ?_⟩
  have := c65_part_partial cfg a q h6 (by omega) (by omega) ha hq
  rw [h4, Int.toNat_natCast] at this
  exact this

/-- The example consumer: the number of subscriptions is the one on the command line. -/
theorem c101_consumer (typed : Bytes → Option Component) (env : ConsAppCfg) (a0 sp t : Bytes) (p : Name) (n : Nat)
    (hsp : nameOfText typed sp = some p) (hn : IsNumber t n) (hn' : n < 2 ^ 31) :
    ∃ cfg, consMain typed env [a0, sp, t] = .running cfg ∧ cfg.cc.syncPrefix = p ∧ cfg.nSub = n ∧ cfg.consumer.bfCount = n := by
  have h1 : stoi t = some (n : Int) := by rw [stoi_number hn, if_pos (by omega)]
  simp only [consMain, hsp, h1]
  refine ⟨_, rfl, rfl, rfl, ?_⟩
  simp only [ConsAppCfg.consumer]
  omega

/-- The command line `psync-producer /s //h 2 3`. -/
def hostArgs : List Bytes := [[112#8], [47#8, 115#8], [47#8, 47#8, 104#8], [50#8], [51#8]]

/-- C101 is false as stated: with the user prefix "//h" the two streams have the same, empty name. -/
theorem c101_false : ¬ StreamsDistinct := by
  intro h
  have h1 : ∃ cfg, pubMain (fun _ => none) (samplePub 1) hostArgs = .running cfg ∧ cfg.streams = [[], []] := ⟨_, rfl, rfl⟩
  obtain ⟨cfg, h2, h3⟩ := h1
  have := h _ _ _ _ h2
  rw [h3] at this
  simp at this

/-- Non-vacuity for C101: `psync-producer /s /a%41/b 12 3` runs; its last stream is /aA/b-11. -/
example : ∃ cfg, pubMain (fun _ => none) (samplePub 1)
      [[112#8], [47#8, 115#8], [47#8, 97#8, 37#8, 52#8, 49#8, 47#8, 98#8], [49#8, 50#8], [51#8]] = .running cfg ∧
    cfg.streams.length = 12 ∧ cfg.stream 11 = [⟨8, [97#8, 65#8]⟩, ⟨8, [98#8, 45#8, 49#8, 49#8]⟩] ∧ cfg.maxPublish = 3 ∧
    PlainText [47#8, 97#8, 37#8, 52#8, 49#8, 47#8, 98#8] ∧ IsNumber [49#8, 50#8] 12 :=
  ⟨_, rfl, rfl, by decide +kernel, rfl, ⟨by decide, _, _, rfl, by decide⟩, by decide, by decide, by decide⟩

/-- Non-vacuity for `c101_too_large`: 2147483648. -/
example : IsNumber [50#8, 49#8, 52#8, 55#8, 52#8, 56#8, 51#8, 54#8, 52#8, 56#8] (2 ^ 31) := ⟨by decide, by decide, by decide⟩

end PSync
