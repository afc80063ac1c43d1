import Verif.Proofs.Complete
import Verif.Proofs.Tiling
import Verif.Spec.Protocol
import Verif.Props.FullSync
/-!
Answering the sync Interest of a node of the same group.
-/
namespace PSync
open Spec

theorem syncName_congr {cfg cfg' : Cfg} (h : SameProtocol cfg cfg') (b : Base) :
    Full.syncName cfg' b = Full.syncName cfg b := by
  unfold Full.syncName
  rw [h.ibltCodec, h.syncPrefix]

theorem baseNew_congr {cfg cfg' : Cfg} (h : SameProtocol cfg cfg') : Base.new cfg' = Base.new cfg := by
  unfold Base.new
  rw [h.expected]

/-- `s` receives a sync Interest that carries the table `b` and has no stored reply for it: it sends no Data,
or it publishes a reply, with the names `b` lacks among its content, and sends its first packet. -/
theorem Full.answer {cfg : Cfg} (hwf : cfg.WF) (he : 0 < cfg.expected) {s s' : Full} (hs : Full.Reach cfg s) {b : Base}
    (hb : Base.Steps (fun _ => True) (Base.new cfg) b) (hcs : CollisionFree s.base.hist)
    (hcr : CollisionFree b.hist) (hnc : NoCollisions cfg.expected s.base.getSeqNo b.getSeqNo)
    {i : Interest} (hi : Full.syncName cfg b = .ok i.name) (hst : s.pub.replyFromStore i.name = none)
    (h : Full.step cfg s (.recvInterest i) = .ok s') :
    ∃ ext, s'.log = s.log ++ ext ∧
    (((∀ d, Out.data d ∉ ext) ∧
        ∀ df, Table.diff cfg.fuel s.base.iblt b.iblt = .ok df → df.canDecode = true →
          Covers s.base.getSeqNo b.getSeqNo) ∨
      ∃ content buf fr d, content ≠ [] ∧ (∀ n ∈ content, IsLive s.base.getSeqNo n) ∧
        cfg.contentCodec.compress (encodeNames content) = some buf ∧
        s'.replies = s.replies ++ [(i.name, buf, fr)] ∧
        (segmentData (i.name.appendVersion (cfg.version s.replies.length)) buf fr)[0]? = some d ∧
        (∀ d', Out.data d' ∈ ext ↔ d' = d) ∧
        ∀ p x, s.base.getSeqNo p = some x → x ≠ 0 →
          (∃ y, b.getSeqNo p = some y ∧ x ≤ y) ∨ Name.appendNumber p x ∈ content) := by
  have hsi := Full.reach_inv hs
  have hri := hb.inv (Base.inv_new cfg)
  have hsx := Full.reach_exact hs hcs
  have hrx := hb.exact (Base.inv_new cfg) hcr (Base.exact_new cfg)
  have hrr : b.Ranged cfg.expected := hb.ranged he (Base.ranged_new cfg)
  obtain ⟨c, hname, _, _⟩ := honest_name hrr hwf.iblt_lossless hri.ownLt
  rw [hi, Res.ok.injEq] at hname
  have none : ∀ is, Full.OwnInterest cfg s.base is → ∀ d, Out.data d ∉ is := by
    rintro is (rfl | ⟨n, _, rfl⟩) d hd <;> simp at hd
  have hstep : Full.onSyncInterest cfg s i false = .ok s' := by
    simp only [Full.step] at h
    rw [if_pos] at h
    · exact h
    · rw [hname]; simp [List.isPrefixOf_iff_prefix]
  rw [Full.onSyncInterest_honest hrr hwf.iblt_lossless hri.ownLt hi hst, Res.bind_eq_ok] at hstep
  obtain ⟨df, hdf, hstep⟩ := hstep
  -- a published reply
  have ans : ∀ content fr, Full.Replied cfg s s' i.name content fr → content ≠ [] →
      (∀ n ∈ content, IsLive s.base.getSeqNo n) →
      (∀ p x, s.base.getSeqNo p = some x → x ≠ 0 →
        (∃ y, b.getSeqNo p = some y ∧ x ≤ y) ∨ Name.appendNumber p x ∈ content) →
      ∃ ext, s'.log = s.log ++ ext ∧
      ∃ content buf fr d, content ≠ [] ∧ (∀ n ∈ content, IsLive s.base.getSeqNo n) ∧
        cfg.contentCodec.compress (encodeNames content) = some buf ∧
        s'.replies = s.replies ++ [(i.name, buf, fr)] ∧
        (segmentData (i.name.appendVersion (cfg.version s.replies.length)) buf fr)[0]? = some d ∧
        (∀ d', Out.data d' ∈ ext ↔ d' = d) ∧
        ∀ p x, s.base.getSeqNo p = some x → x ≠ 0 →
          (∃ y, b.getSeqNo p = some y ∧ x ≤ y) ∨ Name.appendNumber p x ∈ content := by
    rintro content fr ⟨buf, rr, is, h1, h2, h3, h4, h5, h6⟩ hne hlive hmiss
    have h2' := h2
    rw [hname, show cfg.syncPrefix ++ [c, ⟨8, nniBytes b.numOwn⟩]
      = (cfg.syncPrefix ++ [c]) ++ [⟨8, nniBytes b.numOwn⟩] by simp] at h2'
    obtain ⟨d, hd0, hd⟩ := publish_first (c := ⟨8, nniBytes b.numOwn⟩) (show (8 : Nat) ≠ 50 by decide) h2'
    rw [show (cfg.syncPrefix ++ [c]) ++ [⟨8, nniBytes b.numOwn⟩] = i.name by rw [hname]; simp] at hd0
    refine ⟨_, by rw [h4, List.append_assoc], content, buf, fr, d, hne, hlive, h1, h6, hd0, ?_, hmiss⟩
    intro d'
    rw [List.mem_append, hd]
    simp only [List.map_cons, List.map_nil, List.mem_singleton, Out.data.injEq]
    exact ⟨fun h => h.elim id (fun h => absurd h (none is h5 d')), Or.inl⟩
  split at hstep
  · rename_i hdec
    have hdec' : df.canDecode = false := by simpa using hdec
    rcases Full.onUndecodable_reply hstep with ⟨_, is, h2, h3⟩ | ⟨h2, hne⟩
    · refine ⟨is, h2, Or.inl ⟨none is h3, ?_⟩⟩
      intro df' h' hd'
      rw [hdf, Res.ok.injEq] at h'
      subst h'
      rw [hdec'] at hd'
      simp at hd'
    · obtain ⟨ext, h5, h6⟩ := ans _ _ h2 hne (fun n hn => (Full.allContent_live hsi).mp hn)
        (fun p x hp hx0 => Or.inr ((Full.allContent_live hsi).mpr ⟨p, x, hp, hx0, rfl⟩))
      exact ⟨ext, h5, Or.inr h6⟩
  · rename_i hdec
    have hdec' : df.canDecode = true := by simpa using hdec
    have hall : ∀ content, Full.IsContentOf s.base df content → ∀ p x, s.base.getSeqNo p = some x → x ≠ 0 →
        (∃ y, b.getSeqNo p = some y ∧ x ≤ y) ∨ Name.appendNumber p x ∈ content :=
      fun content hcon p x hp hx0 => Full.content_complete he hsi hri hsx hrx hnc hdf hdec' hcon hp hx0
    rcases Full.onDecoded_quiet hsi hstep with ⟨h2, h3⟩ | ⟨content, h2, hne, h3⟩
    · refine ⟨[], by simp [h2], Or.inl ⟨by simp, ?_⟩⟩
      intro df' h' hd' p x hp hx0
      rcases hall [] h3 p x hp hx0 with h | h
      · exact h
      · simp at h
    · obtain ⟨ext, h5, h6⟩ := ans _ _ h2 hne (fun n hn => by
          obtain ⟨_, _, p, x, _, hp, hx, rfl, _⟩ := (h3 n).mp hn
          exact ⟨p, x, hp, hx, rfl⟩) (hall _ h3)
      exact ⟨ext, h5, Or.inr h6⟩

/-- A node that knows at least `b` and processes a reply with everything of `g` that `b` lacks ends with
everything of `g`. -/
theorem Full.learn {cfg : Cfg} (hl : cfg.contentCodec.Lossless) {r1 r2 : Full} (hr1 : r1.base.Inv)
    {content : List Name} {buf : Bytes} (hbuf : cfg.contentCodec.compress (encodeNames content) = some buf)
    (henc : Encodable content) {g gb : Name → Option Nat} (hlt : ∀ p x, g p = some x → x < U64)
    (hmiss : ∀ p x, g p = some x → x ≠ 0 → (∃ y, gb p = some y ∧ x ≤ y) ∨ Name.appendNumber p x ∈ content)
    (hcov : Covers gb r1.base.getSeqNo) {f : Fetcher} (hf : r1.fetcher = some f) (hfa : f.active = true)
    {acts : List Full.Call} (hacts : ∀ c ∈ acts, ∀ p, ¬ c.Removes p)
    (hst : Full.step cfg r1 (.complete buf acts) = .ok r2) : Covers g r2.base.getSeqNo := by
  have hdec := decodeReply_encode hl hbuf henc
  simp only [Full.step, hf, hfa, if_true] at hst
  have key : ∀ ps : List (Name × Nat), content.map announced = ps.map some → ∀ b : Base,
      (∀ p, b.prefixes.find p = best p (r1.base.prefixes.find p) ps) →
      Base.Steps (fun p => ∃ c ∈ acts, c.Removes p) b r2.base → Covers g r2.base.getSeqNo := by
    intro ps hps b hbest hsteps
    have h1 : Covers g b.getSeqNo := by
      refine Full.covers_of_best (g1 := r1.base.getSeqNo) hlt ?_ hps hbest
      intro p x hp hx0
      rcases hmiss p x hp hx0 with ⟨y, hy, hle⟩ | hm
      · obtain ⟨z, hz, hle'⟩ := hcov p y hy (by omega)
        exact Or.inl ⟨z, hz, by omega⟩
      · exact Or.inr hm
    intro p x hp hx0
    obtain ⟨y, hy, hle⟩ := h1 p x hp hx0
    obtain ⟨z, hz, hle'⟩ := hsteps.mono_seq (p := p) (by rintro ⟨c, hc, h⟩; exact hacts c hc p h) hy
    exact ⟨z, hz, by omega⟩
  rcases Full.onSyncData_cases (s := r1.stopFetcher) hr1 hst with ⟨h1, _⟩ | ⟨ns, r, h1, h2, _, h3⟩
  · rw [hdec] at h1; simp at h1
  · rw [hdec, Option.some.injEq] at h1
    subst h1
    obtain ⟨ps, h4, h5⟩ := Full.merge_best _ h2
    refine key ps h4 r.2 h5 ?_
    rcases h3 with ⟨_, hb, rfl⟩ | ⟨_, s1, h6, _, hb, _⟩
    · rw [hb]; exact Base.Steps.refl
    · rw [hb]; exact Full.calls_steps h6

end PSync
