import Verif.Proofs.Smc
import Verif.Props.Jglmb

/-!
# The joint filter without measurements
-/

set_option linter.unusedSectionVars false

namespace Gasur.Jglmb

open Gasur.Glmb

variable {K τ F S C Z : Type*} [Field K] [LinearOrder K] [IsStrictOrderedRing K] [FloorRing K]
  [DecidableEq τ]

/-- With suitable random numbers the hypothesis without tracks is among the results. -/
theorem corOne_dead {env : Env K τ F S C Z} (hexp : ∀ x, 0 < env.num.expNeg x) {jp : JParams K}
    {births : List (Birth K F S C)} {oldLen tabLen : ℕ}
    {blocks : List (List (Option (Entry K τ F S C) × K))} {ss : K} {h : Hyp K}
    (hr : ∀ t ∈ tinds births.length h, t < tabLen) {k : ℕ} (hk : share env jp.base.reqUpd h.prob ss = .ok k) (hk2 : 2 ≤ k)
    (hcl : 0 < jp.base.clutterRate * jp.base.clutterDen) :
    ∃ u : ℕ → ℕ → K, (∀ s v, 0 ≤ u s v ∧ u s v < 1) ∧
      ∀ out, corOne env jp births oldLen tabLen blocks ss u h = .ok out → ∃ x ∈ out, x.tracks = [] := by
  obtain ⟨u, hu, rows, g1, c, g2⟩ := Gasur.Props.C53_support
        (N := (tinds births.length h).length) (M := 2 * (tinds births.length h).length +
          numCols (tinds births.length h).length blocks.length) env.num.expNeg hexp
        (fun i j => env.num.negLog (costVal jp (avgSurv jp births oldLen) blocks
          (tinds births.length h) i.val j.val)) (by omega) (k + 1) (by omega)
        (fun i => ⟨i.val, by omega⟩) (by
          intro i j hij
          exact Fin.ext (Fin.mk.inj hij))
  refine ⟨fun s v => if h : v < (tinds births.length h).length then u s ⟨v, h⟩ else 0, ?_, ?_⟩
  · intro s v
    dsimp only
    split
    · exact hu _ _
    · exact ⟨le_rfl, zero_lt_one⟩
  · intro out hc
    unfold corOne at hc
    simp only at hc
    rw [if_neg, hk] at hc
    · simp only [Fin.is_lt, dite_true, Fin.eta] at hc
      rw [g1] at hc
      simp only at hc
      rw [if_neg (not_le.2 hcl), Except.ok.injEq] at hc
      rw [← hc]
      refine ⟨_, List.mem_map_of_mem g2, ?_⟩
      simp only
      unfold rowTracks
      rw [List.filterMap_eq_nil_iff]
      intro i _
      simp [decode]
    · rw [List.any_eq_true]
      rintro ⟨t, ht, h⟩
      exact absurd (hr t ht) (not_lt.2 (by simpa using h))

/-- A hypothesis of the update without detected tracks is kept. -/
theorem correct_kept {env : Env K τ F S C Z} {jp : JParams K}
    {births : List (Birth K F S C)} {draws : ℕ → ℕ → ℕ → K} {meas : List Z}
    {st st' : JSt K τ F S C} (h : correct env jp births draws meas st = .ok st') {p : Hyp K} {i : ℕ}
    (hi : st.g.hyps[i]? = some p)
    (hx : ∀ blocks out, corBlocks env jp.base st.g.tab meas = .ok blocks → corOne env jp births st.oldLen st.g.tab.length blocks (sumSqrt env st.g.hyps) (draws i) p = .ok out →
      ∃ x ∈ out, x.tracks = []) :
    ∃ h' ∈ st'.g.hyps, h'.tracks = [] := by
  obtain ⟨blocks, ls, hs, h1, _, h2, h3, h4, h5⟩ := correct_ok h
  obtain ⟨_, _, hidx, _, hh⟩ := cleanUpd_ok h4
  have hmem : (p, i) ∈ st.g.hyps.zipIdx := by
    apply List.mem_of_getElem? (i := i)
    rw [List.getElem?_zipIdx, hi]
    simp
  obtain ⟨out, hout, hc⟩ := forall₂_mem_left h2 hmem
  obtain ⟨x, hx, hxt⟩ := hx _ _ h1 hc
  have hxf : x ∈ ls.flatten := List.mem_flatten.2 ⟨_, hout, hx⟩
  have hx2 : (⟨x.prob / (ls.flatten.map fun h => h.prob).sum, x.tracks⟩ : Hyp K) ∈ hs := by
    rw [(normHyps_ok h3).2]
    exact List.mem_map.2 ⟨x, hxf, rfl⟩
  obtain ⟨y, hy, hyp⟩ := cleanPred_cover hs _ hx2
  simp only [hxt, List.perm_nil] at hyp
  refine ⟨⟨y.prob, y.tracks.map fun i => (usedInds (upTab st.g.tab blocks) (cleanPred hs)).idxOf i⟩, ?_, by rw [hyp]; rfl⟩
  rw [hh]
  exact List.mem_map.2 ⟨y, List.mem_filter.2 ⟨hy, by rw [hyp]; rfl⟩, rfl⟩

end Gasur.Jglmb
