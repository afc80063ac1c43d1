import Verif.Props.Malformed
/-!
Property C35, exact for full synchronisation.
-/
namespace PSync
open Spec

/-- C35, exact for full sync: at a node for whose answer nobody waits and that has made fewer than 2^30 updates, the handler
completes (no exception, nothing undefined) if and only if every name in the Data ends in a number.  (Data
that cannot be decompressed or decoded has no names.) -/
theorem c35_full_exact (cfg : Cfg) (he : 0 < cfg.expected) (s : Full) (hs : Full.Reach cfg s) (f : Fetcher)
    (hf : s.fetcher = some f) (ha : f.active = true) (buf : Bytes)
    (hh : s.base.hist.length + (namesIn cfg buf).length < 1073741823) (hw : s.waiting = []) :
    (∃ s', Full.step cfg s (.complete buf []) = .ok s') ↔ ∀ n ∈ namesIn cfg buf, (announced n).isSome = true := by
  constructor
  · rintro ⟨s', h⟩ n hn
    obtain ⟨ps, _, e, _⟩ := c26_merge_max cfg s s' hs f hf ha buf [] h
    have : announced n ∈ ps.map some := by rw [← e]; exact List.mem_map_of_mem hn
    obtain ⟨x, _, hx⟩ := List.mem_map.mp this
    rw [← hx]
    rfl
  · intro hp
    exact c35_full_total cfg he s hs buf hp hh hw

set_option maxRecDepth 100000 in
/-- Non-vacuity: of two contents, both well formed, the one whose second name has no number at the end is not survived. -/
example : ((Full.init sampleCfg).get?.map fun s => (s.waiting.isEmpty, s.fetcher.map Fetcher.active,
      (Full.step sampleCfg s (.complete (encodeNames [pA.appendNumber 1, pB.appendNumber 2]) [])).get?.isSome,
      (Full.step sampleCfg s (.complete (encodeNames [pA.appendNumber 1, nameOf [98, 99, 100]]) [])).get?.isSome,
      (Full.step sampleCfg s (.complete [1, 2, 3] [])).get?.isSome)) = some (true, some true, true, false, true) := by
  decide +kernel

end PSync
