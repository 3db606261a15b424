import Verif.Proofs.PhdMerge
import Mathlib.Data.Rat.Floor
import Mathlib.Algebra.Order.BigOperators.Ring.List

/-!
# Properties C27–C33: the PHD filter

`ofComps cs` is the mixture made of the list of components `cs = [(weight, mean, covariance), …]`;
`Aligned m` says that the three lists of `m` have equal lengths (`Verif/Spec/Phd.lean`).
-/

set_option linter.unusedSectionVars false
set_option linter.unusedSimpArgs false

namespace Gasur.Props

open Gasur.Phd Gasur.Spec

variable {K V P Z : Type*} [Field K] [LinearOrder K] [IsStrictOrderedRing K]

/-! ### C28 -/

/-- **C28.** For every mixture, birth model and inner filter: the total weight after `predict` is
`prob_survive` times the old total plus the total birth weight; the old components come first, in order,
with scaled weights and means/covariances predicted by the inner filter, followed by the birth
components, unchanged. -/
theorem C28_predict_mass (pr : Params K) (f : Filt K V P Z) (births : List (Mix K V P))
    (m : Mix K V P) :
    (predict pr f births m).ws.sum =
      pr.probSurvive * m.ws.sum + (births.map fun b => b.ws.sum).sum ∧
    (predict pr f births m).ws =
      (m.ws.map fun w => pr.probSurvive * w) ++ births.flatMap (fun b => b.ws) ∧
    (Aligned m →
      (predict pr f births m).ms =
        (List.zipWith (fun s p => (f.fpred s p).1) m.ms m.ps) ++ births.flatMap (fun b => b.ms) ∧
      (predict pr f births m).ps =
        (List.zipWith (fun s p => (f.fpred s p).2) m.ms m.ps) ++ births.flatMap (fun b => b.ps)) := by
  have h : ∀ (bs : List (Mix K V P)) (a : Mix K V P),
      (bs.foldl extend a).ws = a.ws ++ bs.flatMap (fun b => b.ws) ∧
      (bs.foldl extend a).ms = a.ms ++ bs.flatMap (fun b => b.ms) ∧
      (bs.foldl extend a).ps = a.ps ++ bs.flatMap (fun b => b.ps) := by
    intro bs
    induction bs with
    | nil => intro a; simp
    | cons b bs ih =>
      intro a
      rw [List.foldl_cons]
      obtain ⟨h1, h2, h3⟩ := ih (extend a b)
      refine ⟨?_, ?_, ?_⟩
      · rw [h1]; simp [extend]
      · rw [h2]; simp [extend]
      · rw [h3]; simp [extend]
  obtain ⟨h1, h2, h3⟩ := h births (predictDensity pr f m)
  refine ⟨?_, ?_, ?_⟩
  · unfold predict
    rw [h1, List.sum_append]
    simp only [predictDensity]
    congr 1
    · rw [List.sum_map_mul_left, List.map_id']
    · clear h1 h2 h3
      induction births with
      | nil => simp
      | cons b bs ih => simp [ih]
  · unfold predict
    rw [h1]
    rfl
  · intro _
    unfold predict
    rw [h2, h3]
    simp only [predictDensity]
    rw [List.map_zip_eq_zipWith, List.map_zip_eq_zipWith]
    exact ⟨rfl, rfl⟩

/-! ### C29 -/

/-- The total detected mass explained by measurement `z`:
`S(z) = ∑ⱼ q_z(j) · prob_detection · w_j`. -/
def detMass (pr : Params K) (f : Filt K V P Z) (cs : List (K × V × P)) (z : Z) : K :=
  (cs.map fun c => (f.fcor z c.2.1 c.2.2).2.1 * (pr.probDetection * c.1)).sum

/-- Clutter intensity. -/
def clutter (pr : Params K) : K := pr.clutterRate * pr.clutterDen

theorem detMass_nonneg (pr : Params K) (f : Filt K V P Z) (cs : List (K × V × P)) (z : Z)
    (hpd : 0 ≤ pr.probDetection) (hq : ∀ s p, 0 ≤ (f.fcor z s p).2.1) (hw : ∀ c ∈ cs, 0 ≤ c.1) :
    0 ≤ detMass pr f cs z := by
  unfold detMass
  apply List.sum_nonneg
  intro x hx
  obtain ⟨c, hc, rfl⟩ := List.mem_map.1 hx
  exact mul_nonneg (hq _ _) (mul_nonneg hpd (hw c hc))

/-- **C29.** With positive clutter intensity (and non-negative weights and likelihoods), `correct`
succeeds; the corrected mixture lists, for each measurement in order, one updated copy of every component
and finally one missed-detection copy of every component; its total weight is
`prob_miss_detection · (old total) + ∑_z S(z) / (clutter + S(z))`, where every term lies in `[0, 1)`. -/
theorem C29_correct_mass (pr : Params K) (f : Filt K V P Z) (cs : List (K × V × P)) (zs : List Z)
    (hpd : 0 ≤ pr.probDetection) (hκ : 0 < clutter pr)
    (hq : ∀ z s p, 0 ≤ (f.fcor z s p).2.1) (hw : ∀ c ∈ cs, 0 ≤ c.1) :
    ∃ cs', correct pr f zs (ofComps cs) = .ok (ofComps cs') ∧
      cs' = (zs.flatMap fun z => cs.map fun c =>
          ((f.fcor z c.2.1 c.2.2).2.1 * (pr.probDetection * c.1) / (clutter pr + detMass pr f cs z),
            (f.fcor z c.2.1 c.2.2).1, (f.fcor z c.2.1 c.2.2).2.2)) ++
        cs.map (fun c => (pr.probMiss * c.1, c.2)) ∧
      cs'.length = (zs.length + 1) * cs.length ∧
      mass cs' = pr.probMiss * mass cs +
        (zs.map fun z => detMass pr f cs z / (clutter pr + detMass pr f cs z)).sum ∧
      (∀ z, 0 ≤ detMass pr f cs z / (clutter pr + detMass pr f cs z) ∧
        detMass pr f cs z / (clutter pr + detMass pr f cs z) < 1) ∧
      pr.probMiss * mass cs ≤ mass cs' ∧ mass cs' ≤ pr.probMiss * mass cs + zs.length := by
  have hS : ∀ z, 0 ≤ detMass pr f cs z := fun z => detMass_nonneg pr f cs z hpd (hq z) hw
  have hden : ∀ z, denom pr f cs z = clutter pr + detMass pr f cs z := fun z => rfl
  have hpos : ∀ z, 0 < clutter pr + detMass pr f cs z := fun z => by have := hS z; linarith
  have hterm : ∀ z, 0 ≤ detMass pr f cs z / (clutter pr + detMass pr f cs z) ∧
      detMass pr f cs z / (clutter pr + detMass pr f cs z) < 1 := fun z =>
    ⟨div_nonneg (hS z) (hpos z).le, by rw [div_lt_one (hpos z)]; linarith⟩
  have hc := correct_ofComps pr f cs zs (fun z _ => .inr (by rw [hden]; exact (hpos z).ne'))
  have hmass : mass ((zs.flatMap fun z => cs.map (corComp pr f (denom pr f cs z) z)) ++
      cs.map fun c => (pr.probMiss * c.1, c.2)) = pr.probMiss * mass cs +
        (zs.map fun z => detMass pr f cs z / (clutter pr + detMass pr f cs z)).sum := by
    unfold mass
    rw [List.map_append, List.sum_append, add_comm]
    congr 1
    · rw [List.map_map]
      have : ((fun c : K × V × P => c.1) ∘ fun c : K × V × P => (pr.probMiss * c.1, c.2)) =
          fun c => pr.probMiss * c.1 := rfl
      rw [this, List.sum_map_mul_left]
    · clear hc
      induction zs with
      | nil => simp
      | cons z zs ih =>
        rw [List.flatMap_cons, List.map_append, List.sum_append, ih, List.map_cons, List.sum_cons]
        congr 1
        rw [List.map_map]
        have : ((fun c : K × V × P => c.1) ∘ corComp pr f (denom pr f cs z) z) =
            fun c => rawW pr f z c * (denom pr f cs z)⁻¹ := by
          funext c
          simp [corComp, div_eq_mul_inv]
        rw [this, List.sum_map_mul_right, ← div_eq_mul_inv]
        rfl
  refine ⟨_, hc, rfl, ?_, hmass, hterm, ?_, ?_⟩
  · rw [List.length_append, List.length_map]
    have : (zs.flatMap fun z => cs.map (corComp pr f (denom pr f cs z) z)).length =
        zs.length * cs.length := by
      clear hmass hc
      induction zs with
      | nil => simp
      | cons z zs ih =>
        rw [List.flatMap_cons, List.length_append, ih, List.length_map, List.length_cons]
        ring
    rw [this]
    ring
  · rw [hmass]
    have : 0 ≤ (zs.map fun z => detMass pr f cs z / (clutter pr + detMass pr f cs z)).sum := by
      apply List.sum_nonneg
      intro x hx
      obtain ⟨z, _, rfl⟩ := List.mem_map.1 hx
      exact (hterm z).1
    linarith
  · rw [hmass]
    have : (zs.map fun z => detMass pr f cs z / (clutter pr + detMass pr f cs z)).sum ≤
        (zs.length : K) := by
      clear hmass hc
      induction zs with
      | nil => simp
      | cons z zs ih =>
        rw [List.map_cons, List.sum_cons, List.length_cons, Nat.cast_succ]
        have := (hterm z).2
        linarith
    linarith

/-- **C29, no measurement.** Only the missed-detection copy of every component remains. -/
theorem C29_correct_no_meas (pr : Params K) (f : Filt K V P Z) (cs : List (K × V × P)) :
    correct pr f [] (ofComps cs) = .ok (ofComps (cs.map fun c => (pr.probMiss * c.1, c.2))) := by
  rw [correct_ofComps pr f cs [] (by simp)]
  simp

/-- **C29, role of the clutter.** Without clutter, a measurement that no component explains
(`S(z) = 0`) makes the update divide by zero; this is the only failure. -/
theorem C29_correct_failure (pr : Params K) (f : Filt K V P Z) (cs : List (K × V × P)) (zs : List Z) :
    correct pr f zs (ofComps cs) = .error .zeroDiv ↔
      cs ≠ [] ∧ ∃ z ∈ zs, clutter pr + detMass pr f cs z = 0 := by
  constructor
  · intro h
    by_contra hcon
    rw [correct_ofComps pr f cs zs] at h
    · simp at h
    · intro z hz
      by_contra hc
      push Not at hc
      exact hcon ⟨hc.1, z, hz, hc.2⟩
  · rintro ⟨hne, z, hz, h0⟩
    exact correct_zeroDiv pr f cs zs ⟨z, hz, hne, h0⟩

/-! ### C30 -/

/-- **C30.** Pruning an aligned mixture never fails, removes exactly the components whose weight is
below the threshold and keeps the others unchanged and in order. -/
theorem C30_prune (pr : Params K) (cs : List (K × V × P)) :
    ∃ cs', prune pr (ofComps cs) = .ok (ofComps cs') ∧
      cs' = cs.filter (fun c => decide (pr.pruneThreshold ≤ c.1)) ∧
      (∀ c ∈ cs', pr.pruneThreshold ≤ c.1) ∧ mass cs' + mass (cs.filter fun c =>
        decide (c.1 < pr.pruneThreshold)) = mass cs := by
  refine ⟨_, prune_ofComps pr cs, rfl, ?_, ?_⟩
  · intro c hc
    simpa using (List.mem_filter.1 hc).2
  · unfold mass
    induction cs with
    | nil => simp
    | cons c cs ih =>
      by_cases h : pr.pruneThreshold ≤ c.1
      · have h' : ¬ c.1 < pr.pruneThreshold := not_lt.2 h
        simp only [List.filter_cons, h, h', decide_true, decide_false, if_true, List.map_cons,
          List.sum_cons, Bool.false_eq_true, if_false]
        rw [← ih]; ring
      · have h' : c.1 < pr.pruneThreshold := not_le.1 h
        simp only [List.filter_cons, h, h', decide_true, decide_false, if_true, List.map_cons,
          List.sum_cons, Bool.false_eq_true, if_false]
        rw [← ih]; ring

/-! ### C31 -/

section merge
variable [AddCommGroup V] [Module K V] [AddCommGroup P] [Module K P]

/-- **C31.** For every mixture with positive weights, every non-negative merge threshold and every
distance that vanishes at zero difference, merging terminates without error, produces a greedy merge of
the mixture (`MergesTo`: heaviest component first, everything within the threshold of it is replaced by
the moment-matched component), does not increase the number of components, keeps all weights positive, and
preserves the total weight, the weighted mean and the weighted covariance sum. -/
theorem C31_merge (quad : P → V → K) (pr : Params K) (hthr : 0 ≤ pr.mergeThreshold)
    (hq : ∀ p, quad p 0 = 0) (cs : List (K × V × P)) (hw : ∀ c ∈ cs, 0 < c.1) :
    ∃ cs', merge quad pr (ofComps cs) = .ok (ofComps cs') ∧ MergesTo quad pr.mergeThreshold cs cs' ∧
      cs'.length ≤ cs.length ∧ (cs ≠ [] → cs' ≠ []) ∧ (∀ c ∈ cs', 0 < c.1) ∧
      mass cs' = mass cs ∧ moment cs' = moment cs ∧ covMass cs' = covMass cs := by
  obtain ⟨gs, hg, hm⟩ := merge_spec quad pr hthr hq cs (fun c hc => (hw c hc).le)
  have hlt : ∀ g ∈ gs, ∀ i ∈ g, i < cs.length := by
    intro g hg' i hi
    have : i ∈ gs.flatten := List.mem_flatten.2 ⟨g, hg', hi⟩
    exact List.mem_range.1 (hg.perm.mem_iff.1 this)
  have hpos : ∀ g ∈ gs, 0 < gw cs g := fun g hg' => gw_pos hw (hg.nonempty g hg') (hlt g hg')
  rw [if_neg (by rintro ⟨g, h1, h2⟩; exact (hpos g h1).ne' h2)] at hm
  refine ⟨gs.map (mergedComp cs), hm, by have h := hg.mergesTo; rwa [map_comp_range] at h, ?_, ?_, ?_,
    merged_mass cs hg.perm,
    merged_moment cs hg.perm (fun g h => (hpos g h).ne'),
    merged_covMass cs hg.perm (fun g h => (hpos g h).ne')⟩
  · rw [List.length_map]
    exact groups_length hg.perm hg.nonempty
  · intro hne hcon
    rw [List.map_eq_nil_iff] at hcon
    subst hcon
    have := hg.perm.length_eq
    simp only [List.flatten_nil, List.length_nil, List.length_range] at this
    exact hne (List.length_eq_zero_iff.1 this.symm)
  · intro c hc
    obtain ⟨g, hg', rfl⟩ := List.mem_map.1 hc
    exact hpos g hg'

/-- **C31, failure.** With a negative threshold and a distance that is never negative, the first round
finds no component to merge and divides by zero: merging a non-empty mixture always fails. -/
theorem C31_merge_negative_threshold (quad : P → V → K) (pr : Params K) (hthr : pr.mergeThreshold < 0)
    (hq : ∀ p v, 0 ≤ quad p v) (c : K × V × P) (cs : List (K × V × P)) :
    merge quad pr (ofComps (c :: cs)) = .error .zeroDiv := by
  obtain ⟨jj, w, h1, h2, _⟩ := argmax_some (ws := (ofComps (c :: cs)).ws) (by simp [ofComps])
  have hj : jj < (c :: cs).length := by
    by_contra hc
    rw [List.getElem?_eq_none (by simpa [ofComps] using hc)] at h2
    simp at h2
  obtain ⟨_, hm, hp⟩ := getElem?_lists hj
  unfold merge
  have hr : List.range (ofComps (c :: cs)).ms.length =
      0 :: (List.range cs.length).map Nat.succ := by
    simp [ofComps, List.range_succ_eq_map]
  have hl : (ofComps (c :: cs)).ms.length = cs.length + 1 := by simp [ofComps]
  rw [hr, hl]
  unfold mergeLoop
  rw [h1]
  simp only
  rw [hp, hm]
  simp only
  rw [compInds_eq]
  · have : ((0 :: (List.range cs.length).map Nat.succ).filter fun i =>
        decide (quad (cp (c :: cs) jj) (cm (c :: cs) i - cm (c :: cs) jj) ≤ pr.mergeThreshold)) =
        [] := by
      rw [List.filter_eq_nil_iff]
      intro i _
      simp only [decide_eq_true_eq, not_le]
      exact lt_of_lt_of_le hthr (hq _ _)
    rw [this]
    simp [wtot, wsum]
  · intro i hi
    have : i ∈ List.range (ofComps (c :: cs)).ms.length := by rw [hr]; exact hi
    rw [List.mem_range, hl] at this
    exact (getElem?_lists (by simpa using this)).2.1

end merge

/-! ### C32 -/

/-- **C32, partial (`max_gauss ≥ 1`).** Capping a mixture with non-negative, not all-zero weights to
`max_gauss ≥ 1`: a mixture that is not longer is unchanged; otherwise exactly `max_gauss` components
remain, namely those at the positions outside a set `S` such that no removed component is heavier than a
remaining one; they keep their order, mean and covariance, their weights are multiplied by a common
factor, and the total weight is unchanged. *Missing:* `max_gauss = 0`, see `C32_cap_zero`. -/
theorem C32_cap_partial (argsort : List K → List ℕ) (ha : ∀ ws, IsArgsort ws (argsort ws))
    (pr : Params K) (hmg : 1 ≤ pr.maxGauss) (cs : List (K × V × P)) (hw : ∀ c ∈ cs, 0 ≤ c.1)
    (hpos : 0 < mass cs) :
    (cs.length ≤ pr.maxGauss → cap argsort pr (ofComps cs) = .ok (ofComps cs)) ∧
    (pr.maxGauss < cs.length → ∃ (S : List ℕ) (kept : List (K × V × P)) (scale : K),
      kept = (cs.zipIdx.filter fun x => decide (x.2 ∉ S)).map Prod.fst ∧
      kept.length = pr.maxGauss ∧
      (∀ i j ci cj, i ∈ S → j ∉ S → cs[i]? = some ci → cs[j]? = some cj → ci.1 ≤ cj.1) ∧
      cap argsort pr (ofComps cs) = .ok (ofComps (kept.map fun c => (c.1 * scale, c.2))) ∧
      1 ≤ scale ∧
      mass (kept.map fun c => (c.1 * scale, c.2)) = mass cs) := by
  constructor
  · intro hle
    unfold cap
    rw [if_neg (by simpa [ofComps] using hle)]
  · intro hgt
    obtain ⟨S, h1, h2, h3, h4, h5⟩ := cap_ofComps pr cs (ha _) hgt hmg
    have hkw : ∀ c ∈ keep S cs, 0 ≤ c.1 := fun c hc => hw c ((keep_sublist S cs).subset hc)
    have hknn : 0 ≤ mass (keep S cs) := by
      unfold mass
      apply List.sum_nonneg
      intro x hx
      obtain ⟨c, hc, rfl⟩ := List.mem_map.1 hx
      exact hkw c hc
    have hkle : mass (keep S cs) ≤ mass cs := by
      unfold mass
      apply List.Sublist.sum_le_sum ((keep_sublist S cs).map _)
      intro x hx
      obtain ⟨c, hc, rfl⟩ := List.mem_map.1 hx
      exact hw c hc
    have hkpos : mass (keep S cs) ≠ 0 := by
      intro h0
      -- all kept weights vanish, so all removed ones do
      have hz : ∀ c ∈ keep S cs, c.1 = 0 := by
        intro c hc
        by_contra hne
        have hlt : 0 < c.1 := lt_of_le_of_ne (hkw c hc) (Ne.symm hne)
        have : c.1 ≤ mass (keep S cs) := by
          unfold mass
          apply List.single_le_sum
          · intro x hx
            obtain ⟨c', hc', rfl⟩ := List.mem_map.1 hx
            exact hkw c' hc'
          · exact List.mem_map.2 ⟨c, hc, rfl⟩
        rw [h0] at this
        exact absurd hlt (not_lt.2 this)
      have hkne : keep S cs ≠ [] := by
        intro h
        rw [h] at h3
        simp at h3
        omega
      obtain ⟨c0, hc0⟩ := List.exists_mem_of_ne_nil _ hkne
      obtain ⟨j, hj, hjS⟩ := mem_keep.1 hc0
      have hall : ∀ c ∈ cs, c.1 = 0 := by
        intro c hc
        obtain ⟨i, hi, rfl⟩ := List.mem_iff_getElem.1 hc
        have hci : cs[i]? = some cs[i] := List.getElem?_eq_getElem hi
        by_cases hiS : i ∈ S
        · have := h4 i j _ _ hiS hjS hci hj
          rw [hz c0 hc0] at this
          exact le_antisymm this (hw _ (List.getElem_mem _))
        · exact hz _ (mem_keep.2 ⟨i, hci, hiS⟩)
      have : mass cs = 0 := by
        unfold mass
        apply List.sum_eq_zero
        intro x hx
        obtain ⟨c, hc, rfl⟩ := List.mem_map.1 hx
        exact hall c hc
      rw [this] at hpos
      exact absurd hpos (lt_irrefl _)
    rw [if_neg hkpos] at h5
    refine ⟨S, keep S cs, mass cs / mass (keep S cs), rfl, h3, h4, h5, ?_, ?_⟩
    · rw [one_le_div (lt_of_le_of_ne hknn (Ne.symm hkpos))]
      exact hkle
    · unfold mass
      rw [List.map_map]
      have : ((fun c : K × V × P => c.1) ∘ fun c : K × V × P =>
          (c.1 * ((cs.map fun c => c.1).sum / ((keep S cs).map fun c => c.1).sum), c.2)) =
          fun c => c.1 * ((cs.map fun c => c.1).sum / ((keep S cs).map fun c => c.1).sum) := rfl
      rw [this, List.sum_map_mul_right]
      exact mul_div_cancel₀ _ hkpos

/-- **C32 is false for `max_gauss = 0`**: `idx[0:-0]` is empty, so nothing is removed and the mixture
stays as long as it was (tracker.py:866). -/
theorem C32_cap_zero (argsort : List K → List ℕ) (pr : Params K) (hmg : pr.maxGauss = 0)
    (cs : List (K × V × P)) (hpos : mass cs ≠ 0) :
    cap argsort pr (ofComps cs) = .ok (ofComps cs) ∧ pr.maxGauss < cs.length := by
  have hne : cs ≠ [] := by
    rintro rfl
    exact hpos rfl
  refine ⟨?_, by rw [hmg]; exact List.length_pos_iff.2 hne⟩
  rcases cap_zero (argsort := argsort) pr cs hmg with h | h
  · exact h
  · exfalso
    unfold cap at h
    split at h
    · have hd : delAll (ofComps cs) (sortDesc (dropEnd (argsort (ofComps cs).ws) pr.maxGauss)) =
          .ok (ofComps cs) := by
        unfold dropEnd
        rw [if_pos hmg]
        simp [sortDesc, delAll]
      rw [hd] at h
      simp only at h
      split at h
      · rename_i h0
        exact hpos h0.2
      · simp at h
    · simp at h

/-! ### C33 -/

/-- **C33.** `extract_states` appends, for every component with weight at least `extract_threshold` and
in order, `round(weight)` copies of its mean (and covariance), and nothing else. -/
theorem C33_extract [FloorRing K] (pr : Params K) (cs : List (K × V × P)) :
    extract pr (ofComps cs) = .ok
      ((cs.filter fun c => decide (pr.extractThreshold ≤ c.1)).flatMap
          (fun c => List.replicate (pyRound c.1).toNat c.2.1),
       (cs.filter fun c => decide (pr.extractThreshold ≤ c.1)).flatMap
          (fun c => List.replicate (pyRound c.1).toNat c.2.2)) :=
  extract_ofComps pr cs

/-- `pyRound` is rounding to the nearest integer, ties to even. -/
theorem C33_round [FloorRing K] (x : K) :
    |x - (pyRound x : K)| ≤ 1 / 2 ∧ (|x - (pyRound x : K)| = 1 / 2 → Even (pyRound x)) := by
  have h0 := Int.floor_le x
  have h1 := Int.lt_floor_add_one x
  have hcast : ((⌊x⌋ + 1 : ℤ) : K) = (⌊x⌋ : K) + 1 := by push_cast; rfl
  unfold pyRound
  split
  · rename_i h
    rw [abs_of_nonneg (by linarith)]
    exact ⟨h.le, fun h' => absurd h' h.ne⟩
  · rename_i h
    split
    · rename_i h'
      rw [hcast, abs_of_nonpos (by linarith)]
      refine ⟨by linarith, fun h'' => ?_⟩
      exfalso
      linarith
    · rename_i h'
      have he : x - (⌊x⌋ : K) = 1 / 2 := le_antisymm (not_lt.1 h') (not_lt.1 h)
      split
      · rename_i hev
        rw [he, abs_of_nonneg (by norm_num)]
        exact ⟨le_refl _, fun _ => hev⟩
      · rename_i hev
        rw [hcast]
        have : x - ((⌊x⌋ : K) + 1) = -(1 / 2) := by linarith
        rw [this, abs_neg, abs_of_nonneg (by norm_num)]
        exact ⟨le_refl _, fun _ => (Int.not_even_iff_odd.1 hev).add_one⟩

/-- **C33, consequence of ties-to-even.** A component with weight exactly 1/2 at the default threshold
1/2 passes the threshold but yields no state. -/
theorem C33_half (v : V) (p : P) (pr : Params ℚ) (h : pr.extractThreshold = 1 / 2) :
    extract pr (ofComps [((1 : ℚ) / 2, v, p)]) = .ok ([], []) := by
  rw [C33_extract]
  have : pyRound ((1 : ℚ) / 2) = 0 := by decide +kernel
  simp only [List.filter_cons, h, le_refl, decide_true, if_true, List.filter_nil,
    List.flatMap_cons, List.flatMap_nil, this]
  rfl

/-! ### C27 -/

section ops
variable [AddCommGroup V] [Module K V] [AddCommGroup P] [Module K P] [FloorRing K]

/-- Sensible parameters: probabilities and clutter not negative, merge threshold not negative. -/
structure OkParams (pr : Params K) : Prop where
  ps : 0 ≤ pr.probSurvive
  pd : 0 ≤ pr.probDetection
  pm : 0 ≤ pr.probMiss
  κ : 0 ≤ clutter pr
  thr : 0 ≤ pr.mergeThreshold

/-- What is assumed of the external pieces: the quadratic form vanishes at 0, `argsort` sorts. -/
structure OkEnv (env : Env K V P Z) : Prop where
  quad : ∀ p, env.quad p 0 = 0
  argsort : ∀ ws, IsArgsort ws (env.argsort ws)

/-- Well-formed calls: aligned birth terms with non-negative weights; non-negative likelihoods. -/
def OkOp : Op K V P Z → Prop
  | .predict _ births => ∀ b ∈ births, Aligned b ∧ ∀ w ∈ b.ws, 0 ≤ w
  | .correct f _ => ∀ z s p, 0 ≤ (f.fcor z s p).2.1
  | _ => True

/-- The invariant. -/
def Good (m : Mix K V P) : Prop := Aligned m ∧ ∀ w ∈ m.ws, 0 ≤ w

theorem good_iff (m : Mix K V P) : Good m ↔ ∃ cs, m = ofComps cs ∧ ∀ c ∈ cs, 0 ≤ c.1 := by
  unfold Good
  rw [aligned_iff]
  constructor
  · rintro ⟨⟨cs, rfl⟩, h⟩
    exact ⟨cs, rfl, fun c hc => h c.1 (List.mem_map.2 ⟨c, hc, rfl⟩)⟩
  · rintro ⟨cs, rfl, h⟩
    refine ⟨⟨cs, rfl⟩, ?_⟩
    intro w hw
    obtain ⟨c, hc, rfl⟩ := List.mem_map.1 hw
    exact h c hc

/-- A call either yields a good mixture or fails by a division by zero. -/
def GoodRes (r : Except PErr (Mix K V P)) : Prop :=
  (∃ m, r = .ok m ∧ Good m) ∨ r = .error .zeroDiv

theorem good_predict {pr : Params K} (hpr : OkParams pr) (f : Filt K V P Z) {births : List (Mix K V P)}
    (hb : ∀ b ∈ births, Aligned b ∧ ∀ w ∈ b.ws, 0 ≤ w) {m : Mix K V P} (hm : Good m) :
    Good (predict pr f births m) := by
  obtain ⟨cs, rfl, hw⟩ := (good_iff m).1 hm
  have : ∃ bs : List (List (K × V × P)), births = bs.map ofComps ∧
      ∀ c ∈ bs.flatten, 0 ≤ c.1 := by
    induction births with
    | nil => exact ⟨[], rfl, by simp⟩
    | cons b births ih =>
      obtain ⟨bs, h1, h2⟩ := ih (fun b' hb' => hb b' (List.mem_cons_of_mem _ hb'))
      obtain ⟨c, h3, h4⟩ := (good_iff b).1 (hb b List.mem_cons_self)
      refine ⟨c :: bs, by rw [h1, h3]; rfl, ?_⟩
      intro x hx
      rw [List.flatten_cons] at hx
      rcases List.mem_append.1 hx with hx | hx
      · exact h4 x hx
      · exact h2 x hx
  obtain ⟨bs, rfl, hbs⟩ := this
  rw [predict_ofComps, good_iff]
  refine ⟨_, rfl, ?_⟩
  intro c hc
  rcases List.mem_append.1 hc with hc | hc
  · obtain ⟨c', hc', rfl⟩ := List.mem_map.1 hc
    exact mul_nonneg hpr.ps (hw c' hc')
  · exact hbs c hc

theorem good_correct {pr : Params K} (hpr : OkParams pr) (f : Filt K V P Z)
    (hq : ∀ z s p, 0 ≤ (f.fcor z s p).2.1) (zs : List Z) {m : Mix K V P} (hm : Good m) :
    GoodRes (correct pr f zs m) := by
  obtain ⟨cs, rfl, hw⟩ := (good_iff m).1 hm
  by_cases hz : ∃ z ∈ zs, cs ≠ [] ∧ denom pr f cs z = 0
  · exact .inr (correct_zeroDiv pr f cs zs hz)
  · left
    push Not at hz
    refine ⟨_, correct_ofComps pr f cs zs (fun z hzm => ?_), ?_⟩
    · by_cases hn : cs = []
      · exact .inl hn
      · exact .inr (hz z hzm hn)
    · rw [good_iff]
      refine ⟨_, rfl, ?_⟩
      intro c hc
      rcases List.mem_append.1 hc with hc | hc
      · obtain ⟨z, hzm, hc⟩ := List.mem_flatMap.1 hc
        obtain ⟨c', hc', rfl⟩ := List.mem_map.1 hc
        apply div_nonneg
        · exact mul_nonneg (hq _ _ _) (mul_nonneg hpr.pd (hw c' hc'))
        · exact add_nonneg hpr.κ (detMass_nonneg pr f cs z hpr.pd (hq z) hw)
      · obtain ⟨c', hc', rfl⟩ := List.mem_map.1 hc
        exact mul_nonneg hpr.pm (hw c' hc')

theorem good_prune (pr : Params K) {m : Mix K V P} (hm : Good m) :
    ∃ m', prune pr m = .ok m' ∧ Good m' ∧ ∀ w ∈ m'.ws, pr.pruneThreshold ≤ w := by
  obtain ⟨cs, rfl, hw⟩ := (good_iff m).1 hm
  refine ⟨_, prune_ofComps pr cs, ?_, ?_⟩
  · rw [good_iff]
    exact ⟨_, rfl, fun c hc => hw c (List.mem_filter.1 hc).1⟩
  · intro w hw'
    obtain ⟨c, hc, rfl⟩ := List.mem_map.1 hw'
    simpa using (List.mem_filter.1 hc).2

theorem good_merge {pr : Params K} (hpr : OkParams pr) {env : Env K V P Z} (he : OkEnv env)
    {m : Mix K V P} (hm : Good m) : GoodRes (merge env.quad pr m) := by
  obtain ⟨cs, rfl, hw⟩ := (good_iff m).1 hm
  obtain ⟨gs, hg, h⟩ := merge_spec env.quad pr hpr.thr he.quad cs hw
  by_cases hz : ∃ g ∈ gs, gw cs g = 0
  · rw [if_pos hz] at h
    exact .inr h
  · rw [if_neg hz] at h
    refine .inl ⟨_, h, ?_⟩
    rw [good_iff]
    refine ⟨_, rfl, ?_⟩
    intro c hc
    obtain ⟨g, _, rfl⟩ := List.mem_map.1 hc
    exact gw_nonneg hw g

theorem good_cap (pr : Params K) {env : Env K V P Z} (he : OkEnv env)
    {m : Mix K V P} (hm : Good m) : GoodRes (cap env.argsort pr m) := by
  obtain ⟨cs, rfl, hw⟩ := (good_iff m).1 hm
  by_cases hmg : pr.maxGauss = 0
  · rcases cap_zero (argsort := env.argsort) pr cs hmg with h | h
    · exact .inl ⟨_, h, hm⟩
    · exact .inr h
  · by_cases hgt : pr.maxGauss < cs.length
    · obtain ⟨S, _, _, _, _, h5⟩ := cap_ofComps pr cs (he.argsort _) hgt (Nat.pos_of_ne_zero hmg)
      by_cases h0 : mass (keep S cs) = 0
      · rw [if_pos h0] at h5
        exact .inr h5
      · rw [if_neg h0] at h5
        refine .inl ⟨_, h5, ?_⟩
        rw [good_iff]
        refine ⟨_, rfl, ?_⟩
        intro c hc
        obtain ⟨c', hc', rfl⟩ := List.mem_map.1 hc
        have hk : ∀ c ∈ keep S cs, 0 ≤ c.1 := fun c hc => hw c ((keep_sublist S cs).subset hc)
        have hsum : ∀ l : List (K × V × P), (∀ c ∈ l, 0 ≤ c.1) → 0 ≤ mass l := by
          intro l hl
          unfold mass
          apply List.sum_nonneg
          intro x hx
          obtain ⟨c, hc, rfl⟩ := List.mem_map.1 hx
          exact hl c hc
        exact mul_nonneg (hk c' hc') (div_nonneg (hsum _ hw) (hsum _ hk))
    · left
      refine ⟨_, ?_, hm⟩
      unfold cap
      rw [if_neg (by simpa [ofComps] using hgt)]

theorem extract_ok (pr : Params K) {m : Mix K V P} (hm : Good m) : ∃ x, extract pr m = .ok x := by
  obtain ⟨cs, rfl, _⟩ := (good_iff m).1 hm
  exact ⟨_, extract_ofComps pr cs⟩

theorem step_good {env : Env K V P Z} (he : OkEnv env) {pr : Params K} (hpr : OkParams pr)
    {s : PState K V P} (hs : Good s.mix) (o : Op K V P Z) (ho : OkOp o) :
    (∃ s', step env pr s o = .ok s' ∧ Good s'.mix) ∨ step env pr s o = .error .zeroDiv := by
  have hex : ∀ s : PState K V P, Good s.mix → ∃ s', doExtract pr s = .ok s' ∧ Good s'.mix := by
    intro s hs
    obtain ⟨x, hx⟩ := extract_ok pr hs
    unfold doExtract
    rw [hx]
    exact ⟨_, rfl, hs⟩
  cases o with
  | predict f b => exact .inl ⟨_, rfl, good_predict hpr f ho hs⟩
  | correct f z =>
    unfold step
    rcases good_correct hpr f ho z hs with ⟨m, h1, h2⟩ | h
    · simp only [h1]
      exact .inl ⟨_, rfl, h2⟩
    · simp only [h]
      exact .inr trivial
  | extract => exact .inl (hex s hs)
  | cleanup bp bm bc be =>
    unfold step cleanup
    have h1 : GoodRes (optStep bp (prune pr) s.mix) := by
      unfold optStep
      cases bp
      · exact .inl ⟨_, rfl, hs⟩
      · obtain ⟨m', h1, h2, _⟩ := good_prune pr hs
        exact .inl ⟨m', h1, h2⟩
    rcases h1 with ⟨m1, h1, g1⟩ | h1
    swap
    · simp only [h1]; exact .inr trivial
    simp only [h1]
    have h2 : GoodRes (optStep bm (merge env.quad pr) m1) := by
      unfold optStep
      cases bm
      · exact .inl ⟨_, rfl, g1⟩
      · exact good_merge hpr he g1
    rcases h2 with ⟨m2, h2, g2⟩ | h2
    swap
    · simp only [h2]; exact .inr trivial
    simp only [h2]
    have h3 : GoodRes (optStep bc (cap env.argsort pr) m2) := by
      unfold optStep
      cases bc
      · exact .inl ⟨_, rfl, g2⟩
      · exact good_cap pr he g2
    rcases h3 with ⟨m3, h3, g3⟩ | h3
    swap
    · simp only [h3]; exact .inr trivial
    simp only [h3]
    cases be
    · exact .inl ⟨_, rfl, g3⟩
    · exact .inl (hex _ g3)

/-- **C27.** Starting from a new filter, after any sequence of well-formed `predict`, `correct`,
`cleanup` (with any flags) and `extract_states` calls, either the mixture has equally many weights, means
and covariances and no negative weight, or a division by zero occurred on the way; no index error and no
endless loop is possible. -/
theorem C27_aligned_nonneg {env : Env K V P Z} (he : OkEnv env) {pr : Params K} (hpr : OkParams pr)
    (ops : List (Op K V P Z)) (hops : ∀ o ∈ ops, OkOp o) :
    (∃ s, run env pr init ops = .ok s ∧ Aligned s.mix ∧ ∀ w ∈ s.mix.ws, 0 ≤ w) ∨
    run env pr (init : PState K V P) ops = .error .zeroDiv := by
  have key : ∀ (ops : List (Op K V P Z)) (s : PState K V P), (∀ o ∈ ops, OkOp o) → Good s.mix →
      (∃ s', run env pr s ops = .ok s' ∧ Good s'.mix) ∨ run env pr s ops = .error .zeroDiv := by
    intro ops
    induction ops with
    | nil => intro s _ hs; exact .inl ⟨s, rfl, hs⟩
    | cons o ops ih =>
      intro s ho hs
      unfold run
      rcases step_good he hpr hs o (ho o List.mem_cons_self) with ⟨s', h1, h2⟩ | h
      · simp only [h1]
        exact ih s' (fun o' ho' => ho o' (List.mem_cons_of_mem _ ho')) h2
      · simp only [h]
        exact .inr trivial
  rcases key ops init hops ⟨by simp [Aligned, init], by simp [init]⟩ with ⟨s, h1, h2⟩ | h
  · exact .inl ⟨s, h1, h2.1, h2.2⟩
  · exact .inr h

/-- A `cleanup` that merges or caps also prunes. -/
def PruneFirst : Op K V P Z → Prop
  | .cleanup bp bm bc _ => bp = true ∨ (bm = false ∧ bc = false)
  | _ => True

/-- **C27, no failure at all.** With positive clutter intensity, a positive prune threshold, and pruning
switched on whenever merging or capping is, no sequence of well-formed calls fails. -/
theorem C27_never_fails {env : Env K V P Z} (he : OkEnv env) {pr : Params K} (hpr : OkParams pr)
    (hκ : 0 < clutter pr) (hprune : 0 < pr.pruneThreshold)
    (ops : List (Op K V P Z)) (hops : ∀ o ∈ ops, OkOp o ∧ PruneFirst o) :
    ∃ s, run env pr (init : PState K V P) ops = .ok s ∧ Aligned s.mix ∧ ∀ w ∈ s.mix.ws, 0 ≤ w := by
  have hstep : ∀ (s : PState K V P) (o : Op K V P Z), Good s.mix → OkOp o → PruneFirst o →
      ∃ s', step env pr s o = .ok s' ∧ Good s'.mix := by
    intro s o hs ho hp
    rcases step_good he hpr hs o ho with h | h
    · exact h
    · exfalso
      cases o with
      | predict f b => simp [step] at h
      | correct f z =>
        unfold step at h
        obtain ⟨cs, hcs, hw⟩ := (good_iff s.mix).1 hs
        rw [hcs] at h
        obtain ⟨cs', h1, _⟩ := C29_correct_mass pr f cs z hpr.pd hκ ho hw
        simp [h1] at h
      | extract =>
        unfold step doExtract at h
        obtain ⟨x, hx⟩ := extract_ok pr hs
        simp [hx] at h
      | cleanup bp bm bc be =>
        have hex : ∀ m : Mix K V P, Good m → doExtract pr { s with mix := m } ≠ .error .zeroDiv := by
          intro m hm hcon
          unfold doExtract at hcon
          obtain ⟨x, hx⟩ := extract_ok pr hm
          simp only at hcon
          rw [hx] at hcon
          simp at hcon
        have hfin : ∀ m : Mix K V P, Good m → (if be = true then doExtract pr { s with mix := m }
            else .ok { s with mix := m }) ≠ .error .zeroDiv := by
          intro m hm
          cases be
          · simp
          · simpa using hex m hm
        unfold step cleanup at h
        rcases hp with hp | ⟨hm, hc⟩
        · subst hp
          obtain ⟨m1, h1, g1, w1⟩ := good_prune pr hs
          have h1' : optStep true (prune pr) s.mix = .ok m1 := by simpa [optStep] using h1
          simp only [h1'] at h
          obtain ⟨cs, rfl, hw⟩ := (good_iff m1).1 g1
          have hpos : ∀ c ∈ cs, 0 < c.1 := fun c hc =>
            lt_of_lt_of_le hprune (w1 c.1 (List.mem_map.2 ⟨c, hc, rfl⟩))
          have h2 : ∃ cs2, optStep bm (merge env.quad pr) (ofComps cs) = .ok (ofComps cs2) ∧
              ∀ c ∈ cs2, 0 < c.1 := by
            cases bm
            · exact ⟨cs, rfl, hpos⟩
            · obtain ⟨cs2, k1, _, _, _, k4, _⟩ := C31_merge env.quad pr hpr.thr he.quad cs hpos
              exact ⟨cs2, by simpa [optStep] using k1, k4⟩
          obtain ⟨cs2, h2, hpos2⟩ := h2
          simp only [h2] at h
          have h3 : ∃ m3, optStep bc (cap env.argsort pr) (ofComps cs2) = .ok m3 ∧ Good m3 := by
            have g2 : Good (ofComps cs2) := (good_iff _).2 ⟨cs2, rfl, fun c hc => (hpos2 c hc).le⟩
            cases bc
            · exact ⟨_, rfl, g2⟩
            · rcases good_cap pr he g2 with ⟨m3, k1, k2⟩ | k
              · exact ⟨m3, by simpa [optStep] using k1, k2⟩
              · exfalso
                have hne : cs2 ≠ [] := by
                  rintro rfl
                  unfold cap at k
                  rw [if_neg (by simp [ofComps])] at k
                  simp at k
                have hmpos : 0 < mass cs2 := by
                  unfold mass
                  cases cs2 with
                  | nil => exact absurd rfl hne
                  | cons a l =>
                    rw [List.map_cons, List.sum_cons]
                    have h1 := hpos2 a List.mem_cons_self
                    have h2 : 0 ≤ (l.map fun c => c.1).sum := by
                      apply List.sum_nonneg
                      intro x hx
                      obtain ⟨c, hc, rfl⟩ := List.mem_map.1 hx
                      exact (hpos2 c (List.mem_cons_of_mem _ hc)).le
                    linarith
                by_cases hmg : pr.maxGauss = 0
                · rw [(C32_cap_zero env.argsort pr hmg cs2 hmpos.ne').1] at k
                  simp at k
                · have hp := C32_cap_partial env.argsort he.argsort pr (Nat.pos_of_ne_zero hmg) cs2
                    (fun c hc => (hpos2 c hc).le) hmpos
                  by_cases hl : cs2.length ≤ pr.maxGauss
                  · rw [hp.1 hl] at k; simp at k
                  · obtain ⟨_, _, _, _, _, _, k', _⟩ := hp.2 (not_le.1 hl)
                    rw [k'] at k; simp at k
          obtain ⟨m3, h3, g3⟩ := h3
          simp only [h3] at h
          exact hfin m3 g3 h
        · subst hm hc
          have h1 : ∃ m1, optStep bp (prune pr) s.mix = .ok m1 ∧ Good m1 := by
            cases bp
            · exact ⟨_, rfl, hs⟩
            · obtain ⟨m1, k1, k2, _⟩ := good_prune pr hs
              exact ⟨m1, by simpa [optStep] using k1, k2⟩
          obtain ⟨m1, h1, g1⟩ := h1
          simp only [h1] at h
          have h2 : optStep false (merge env.quad pr) m1 = .ok m1 := rfl
          have h3 : optStep false (cap env.argsort pr) m1 = .ok m1 := rfl
          simp only [h2, h3] at h
          exact hfin m1 g1 h
  have key : ∀ (ops : List (Op K V P Z)) (s : PState K V P), (∀ o ∈ ops, OkOp o ∧ PruneFirst o) →
      Good s.mix → ∃ s', run env pr s ops = .ok s' ∧ Good s'.mix := by
    intro ops
    induction ops with
    | nil => intro s _ hs; exact ⟨s, rfl, hs⟩
    | cons o ops ih =>
      intro s ho hs
      unfold run
      obtain ⟨s', h1, h2⟩ := hstep s o hs (ho o List.mem_cons_self).1 (ho o List.mem_cons_self).2
      simp only [h1]
      exact ih s' (fun o' ho' => ho o' (List.mem_cons_of_mem _ ho')) h2
  obtain ⟨s, h1, h2⟩ := key ops init hops ⟨by simp [Aligned, init], by simp [init]⟩
  exact ⟨s, h1, h2.1, h2.2⟩

end ops

/-! ### Non-vacuity: a one-dimensional filter over the rationals -/

/-- example parameters -/
def exParams : Params ℚ :=
  { probSurvive := 9 / 10, probDetection := 4 / 5, probMiss := 1 / 5, clutterRate := 1,
    clutterDen := 1 / 10, extractThreshold := 1 / 2, pruneThreshold := 1 / 100, mergeThreshold := 4,
    maxGauss := 2 }

/-- example inner filter -/
def exFilt : Filt ℚ ℚ ℚ ℚ :=
  { fpred := fun m p => (m + 1, p + 1)
    fcor := fun z m p => ((m + z) / 2, 1 / (1 + (z - m) ^ 2), p / 2) }

/-- example external pieces: insertion sort of the positions as argsort -/
def exEnv : Env ℚ ℚ ℚ ℚ :=
  { quad := fun p d => d * d / p
    argsort := fun ws => (List.range ws.length).insertionSort fun i j => (ws[i]?).getD 0 ≤ (ws[j]?).getD 0 }

example : OkParams exParams :=
  ⟨by norm_num [exParams], by norm_num [exParams], by norm_num [exParams],
    by norm_num [clutter, exParams], by norm_num [exParams]⟩

theorem exEnv_ok : OkEnv exEnv := by
  refine ⟨fun p => by simp [exEnv], fun ws => ⟨List.perm_insertionSort _ _, ?_⟩⟩
  haveI : Std.Total (fun i j : ℕ => (ws[i]?).getD 0 ≤ (ws[j]?).getD 0) := ⟨fun a b => le_total _ _⟩
  haveI : IsTrans ℕ (fun i j : ℕ => (ws[i]?).getD 0 ≤ (ws[j]?).getD 0) :=
    ⟨fun a b c hab hbc => le_trans hab hbc⟩
  refine (List.pairwise_insertionSort (fun i j : ℕ => (ws[i]?).getD 0 ≤ (ws[j]?).getD 0) _).imp ?_
  intro i j hij a b ha hb
  rw [ha, hb] at hij
  simpa using hij

example : (run exEnv exParams init
    [.predict exFilt [⟨[1, 1 / 2], [0, 5], [1, 1]⟩], .correct exFilt [1, 7],
     .cleanup true true true true]).toOption.map
      (fun s => (s.mix.ws.length, s.mix.ms.length, s.states.length)) = some (2, 2, 1) := by
  decide +kernel

example : OkOp (.correct exFilt [1, 7] : Op ℚ ℚ ℚ ℚ) := fun z s p => by
  simp only [exFilt]
  positivity

end Gasur.Props
