import Verif.Props.Density
import Mathlib.Analysis.Matrix.Spectrum
import Mathlib.Data.Fin.Tuple.Sort
import Mathlib.Data.Fin.VecNotation
import Mathlib.LinearAlgebra.Matrix.Notation
import Mathlib.Tactic.NormNum
import Mathlib.Tactic.FinCases

/-!
# Properties C45, C70, C72: waypoints
-/

namespace Gasur.Props

open Matrix Gasur.Spec Gasur.Guidance

/-- A correct eigenvalue routine on all sample covariances. -/
def EigOk {n : ℕ} (pcs : Mat n → Mat n) : Prop := ∀ data : List (Vec n), IsEig (sampleCov data) (pcs (sampleCov data))

theorem sampleCov_symm {n : ℕ} (data : List (Vec n)) : (sampleCov data).IsHermitian := by
  ext i j
  rw [Matrix.conjTranspose_apply, star_trivial]
  unfold sampleCov
  congr 2
  exact List.map_congr_left fun x _ => by ring

/-- The spectral theorem: every symmetric matrix has orthonormal eigenvectors. -/
theorem exists_isEig {n : ℕ} (C : Mat n) (hC : C.IsHermitian) : ∃ V, IsEig C V := by
  let U : Mat n := (hC.eigenvectorUnitary : Mat n)
  have hU : Uᵀ * U = 1 := by
    have := Matrix.UnitaryGroup.star_mul_self hC.eigenvectorUnitary
    rwa [Matrix.star_eq_conjTranspose, Matrix.conjTranspose_eq_transpose_of_trivial] at this
  let σ := Tuple.sort fun i => - hC.eigenvalues i
  have hσ : Monotone ((fun i => - hC.eigenvalues i) ∘ σ) := Tuple.monotone_sort _
  refine ⟨U.submatrix id σ, ?_, fun i => hC.eigenvalues (σ i), fun i j hij => ?_, ?_⟩
  · ext i j
    have := congrFun (congrFun hU (σ i)) (σ j)
    rw [Matrix.mul_apply] at this ⊢
    simp only [Matrix.transpose_apply, Matrix.submatrix_apply, id_eq] at this ⊢
    rw [this, Matrix.one_apply, Matrix.one_apply]
    simp
  · have := hσ hij
    simp only [Function.comp_apply, neg_le_neg_iff] at this
    exact this
  · ext i j
    have := congrFun (hC.mulVec_eigenvectorBasis (σ j)) i
    rw [Matrix.mul_diagonal, Matrix.mul_apply]
    simp only [Matrix.submatrix_apply, id_eq]
    simp only [Matrix.mulVec, dotProduct, Pi.smul_apply, smul_eq_mul] at this
    have hu : ∀ r, U r (σ j) = hC.eigenvectorBasis (σ j) r := fun r => hC.eigenvectorUnitary_apply r (σ j)
    simp only [hu]
    rw [this]
    ring

/-- There is a correct eigenvalue routine. -/
theorem eigOk_exists (n : ℕ) : ∃ pcs : Mat n → Mat n, EigOk pcs := by
  classical
  refine ⟨fun C => if h : ∃ V, IsEig C V then h.choose else 1, fun data => ?_⟩
  have h := exists_isEig _ (sampleCov_symm data)
  simp only [dif_pos h]
  exact h.choose_spec

theorem wayCov_ok {n : ℕ} {pcs : Mat n → Mat n} (hn : n ≠ 1) (ws : List (Vec n)) (k : ℕ) (w : Vec n)
    (hV : (pcs (sampleCov ((ws ++ [wpCenter ws]).eraseIdx k)))ᵀ * pcs (sampleCov ((ws ++ [wpCenter ws]).eraseIdx k)) = 1) :
    wayCov pcs ws k w = .ok ((pcs (sampleCov ((ws ++ [wpCenter ws]).eraseIdx k)))ᵀ *
      Matrix.diagonal (largestProj (pcs (sampleCov ((ws ++ [wpCenter ws]).eraseIdx k)))ᵀ
        (((ws ++ [wpCenter ws]).map fun e => e - w).eraseIdx k)) *
      pcs (sampleCov ((ws ++ [wpCenter ws]).eraseIdx k))) := by
  set V := pcs (sampleCov ((ws ++ [wpCenter ws]).eraseIdx k)) with hVdef
  have hdet : IsUnit (Vᵀ).det := by
    have := congrArg Matrix.det hV
    rw [Matrix.det_mul, Matrix.det_one] at this
    exact IsUnit.of_mul_eq_one _ this
  have hinv : (Vᵀ)⁻¹ = V := Matrix.inv_eq_right_inv hV
  unfold wayCov
  dsimp only
  rw [if_neg hn]
  unfold principal
  rw [← hVdef, if_pos hdet, hinv]

theorem wayLoop_ok {n : ℕ} {pcs : Mat n → Mat n} (ws : List (Vec n)) (P : ℕ → Vec n → Mat n → Prop)
    (h : ∀ k w, ws[k]? = some w → ∃ c, wayCov pcs ws k w = .ok c ∧ P k w c) :
    ∀ (rest : List (Vec n)) (k : ℕ), ws.drop k = rest → ∃ r, wayLoop pcs ws k rest = .ok r ∧ r.map Comp.mean = rest ∧
      (∀ t ∈ r, t.weight = 1 / ws.length) ∧ ∀ i (t : Comp n), r[i]? = some t → P (k + i) t.mean t.cov
  | [], k, _ => ⟨[], rfl, rfl, by simp, by simp⟩
  | w :: rest, k, hk => by
    have hw : ws[k]? = some w := by
      have := congrArg List.head? hk
      rwa [List.head?_drop, List.head?_cons] at this
    have hd : ws.drop (k + 1) = rest := by
      rw [← List.tail_drop, hk, List.tail_cons]
    obtain ⟨c, e1, hc⟩ := h k w hw
    obtain ⟨r, e2, e3, e4, e5⟩ := wayLoop_ok ws P h rest (k + 1) hd
    refine ⟨⟨w, c, 1 / ws.length⟩ :: r, ?_, by rw [List.map_cons, e3], ?_, ?_⟩
    · unfold wayLoop
      rw [e1, e2]; rfl
    · intro t ht
      rcases List.mem_cons.1 ht with rfl | ht
      · rfl
      · exact e4 t ht
    · intro i t hi
      cases i with
      | zero =>
        simp only [List.getElem?_cons_zero, Option.some.injEq] at hi
        rw [← hi]; exact hc
      | succ i =>
        rw [List.getElem?_cons_succ] at hi
        have := e5 i t hi
        rwa [show k + 1 + i = k + (i + 1) by omega] at this

theorem convert_ok {n : ℕ} {pcs : Mat n → Mat n} (ws : List (Vec n)) (hne : ws ≠ []) (P : ℕ → Vec n → Mat n → Prop)
    (h : ∀ k w, ws[k]? = some w → ∃ c, wayCov pcs ws k w = .ok c ∧ P k w c) :
    ∃ ts, convertWaypoints pcs ws = .ok ts ∧ ts.map Comp.mean = ws ∧ (∀ t ∈ ts, t.weight = 1 / ws.length) ∧
      ∀ i (t : Comp n), ts[i]? = some t → P i t.mean t.cov := by
  obtain ⟨r, e1, e2, e3, e4⟩ := wayLoop_ok ws P h ws 0 rfl
  obtain ⟨w, rest, rfl⟩ := List.exists_cons_of_ne_nil hne
  refine ⟨r, e1, e2, e3, fun i t hi => ?_⟩
  have := e4 i t hi
  rwa [zero_add] at this

theorem maxDist_nonneg (ds : List ℝ) : 0 ≤ maxDist ds := by
  unfold maxDist
  rw [maxDist_aux]
  exact (foldl_max_spec ds 0).1

/-! ### C70 -/

/-- **C70, partial.** For all waypoints with at least two coordinates: the conversion succeeds, there is one area per
waypoint, centred at it, in the same order, with equal weights, and each covariance is symmetric and positive
semidefinite.
*Missing:* definiteness: see `C70_refuted`; states with one coordinate: see `C70_one_coordinate`. -/
theorem C70_valid_partial {n : ℕ} (hn : n ≠ 1) (pcs : Mat n → Mat n) (he : EigOk pcs) (ws : List (Vec n)) (hne : ws ≠ []) :
    ∃ ts, convertWaypoints pcs ws = .ok ts ∧ ts.map Comp.mean = ws ∧ (∀ t ∈ ts, t.weight = 1 / ws.length) ∧
      ∀ t ∈ ts, t.cov.PosSemidef := by
  obtain ⟨ts, e1, e2, e3, e4⟩ := convert_ok (pcs := pcs) ws hne (fun _ _ c => c.PosSemidef) (fun k w _ => by
    refine ⟨_, wayCov_ok hn ws k w (he _).1, ?_⟩
    set V := pcs (sampleCov ((ws ++ [wpCenter ws]).eraseIdx k))
    have hD : (Matrix.diagonal (largestProj Vᵀ (((ws ++ [wpCenter ws]).map fun e => e - w).eraseIdx k))).PosSemidef :=
      Matrix.PosSemidef.diagonal fun i => maxDist_nonneg _
    have := hD.conjTranspose_mul_mul_same V
    rwa [Matrix.conjTranspose_eq_transpose_of_trivial] at this)
  refine ⟨ts, e1, e2, e3, fun t ht => ?_⟩
  obtain ⟨i, hi⟩ := List.getElem?_of_mem ht
  exact e4 i t hi

/-- **C70 is false of this code**: the area around a single waypoint has covariance zero, and then the cost of all
well-formed objects fails with `LinAlgError`. -/
theorem C70_refuted {n : ℕ} (hn : 2 ≤ n) (pcs : Mat n → Mat n) (he : EigOk pcs) (w : Vec n) :
    convertWaypoints pcs [w] = .ok [⟨w, 0, 1⟩] ∧
    ∀ (safety yRef : ℝ) (objs : List (Comp n)), objs ≠ [] → (∀ o ∈ objs, o.cov.PosDef) → yRef ≠ 0 →
      densityCost ⟨[⟨w, 0, 1⟩], safety, yRef⟩ objs = .error .linalg := by
  constructor
  · have hc : wpCenter [w] = w := by
      funext i
      simp [wpCenter]
    have h1 := wayCov_ok (pcs := pcs) (by omega) [w] 0 w (he _).1
    have h2 : wayCov pcs [w] 0 w = .ok 0 := by
      rw [h1, hc]
      have : ∀ M : Mat n, largestProj M ((([w] ++ [w]).map fun e => e - w).eraseIdx 0) = 0 := by
        intro M
        funext i
        show maxDist _ = 0
        simp [maxDist]
      rw [this]
      simp
    show wayLoop pcs [w] 0 [w] = _
    unfold wayLoop
    rw [h2]
    show Except.ok [(⟨w, 0, 1 / (([w] : List (Vec n)).length : ℝ)⟩ : Comp n)] = _
    simp
  · intro safety yRef objs ho hoc hy
    obtain ⟨vo, eo, go⟩ := maxVar_ok (by omega) objs ho
    obtain ⟨vt, et, gt⟩ := maxVar_ok (by omega) [(⟨w, 0, 1⟩ : Comp n)] (by simp)
    have hnd : ¬ ((0 : Mat n) + 0).PosDef := by
      intro h
      have := h.diag_pos (i := ⟨0, by omega⟩)
      simp at this
    have e3 : pairSum [(⟨w, 0, 1⟩ : Comp n)] [⟨w, 0, 1⟩] = .error .linalg := by
      rw [pairSum_eq]
      have : term (⟨w, 0, 1⟩ : Comp n) ⟨w, 0, 1⟩ = .error .linalg := by
        unfold term mvnPdf
        rw [if_neg hnd]; rfl
      show sumE [term (⟨w, 0, 1⟩ : Comp n) ⟨w, 0, 1⟩] = _
      rw [this]; rfl
    have e1 := pairSum_ok objs objs fun a ha b hb => (hoc a ha).add (hoc b hb)
    have e2 := pairSum_ok objs [(⟨w, 0, 1⟩ : Comp n)] fun a ha b hb => by
      rw [List.mem_singleton.1 hb]
      simpa using hoc a ha
    unfold densityCost
    dsimp only
    rw [targetCenter_ok (by simp), eo, et, e1, e2, e3]
    show (if yRef = 0 then _ else _) = _
    rw [if_neg hy]
    rfl

/-- **C70, states with one coordinate**: the conversion always fails. -/
theorem C70_one_coordinate (pcs : Mat 1 → Mat 1) (w : Vec 1) (ws : List (Vec 1)) :
    convertWaypoints pcs (w :: ws) = .error .axis := by
  show wayLoop pcs (w :: ws) 0 (w :: ws) = _
  unfold wayLoop
  have : wayCov pcs (w :: ws) 0 w = .error .axis := by
    unfold wayCov
    dsimp only
    rw [if_pos rfl]
  rw [this]; rfl

/-! ### C72 -/

/-- The variance of the covariance `c` in direction `v`. -/
def varAlong {n : ℕ} (c : Mat n) (v : Vec n) : ℝ := v ⬝ᵥ c *ᵥ v

/-- What C72 says about the area `c` around waypoint number `k`: along the principal directions of the other waypoints
and the centre (the columns of `V`), the area extends as far as the largest projection of the way to one of them. -/
def AxesOk {n : ℕ} (ws : List (Vec n)) (k : ℕ) (w : Vec n) (V c : Mat n) : Prop :=
  ∀ i : Fin n, IsGreatest
    {x | ∃ p ∈ (ws ++ [wpCenter ws]).eraseIdx k, x = |(fun r => V r i) ⬝ᵥ (p - w)|} (varAlong c fun r => V r i)

theorem varAlong_col {n : ℕ} (V : Mat n) (hV : Vᵀ * V = 1) (D : Fin n → ℝ) (i : Fin n) :
    varAlong (V * Matrix.diagonal D * Vᵀ) (fun r => V r i) = D i := by
  have e : (fun r => V r i) = V *ᵥ Pi.single i 1 := by
    funext r; simp
  unfold varAlong
  rw [e, Matrix.mulVec_mulVec, Matrix.mul_assoc, Matrix.mul_assoc, hV, Matrix.mul_one, ← Matrix.mulVec_mulVec,
    Matrix.dotProduct_mulVec, Matrix.vecMul_mulVec, hV, Matrix.vecMul_one]
  simp [Matrix.mulVec_diagonal]

/-- **C72, partial.** If the matrix of the sorted eigenvectors happens to be symmetric for each waypoint (for example if
the principal directions are the coordinate axes in this order), the areas have the right axes.
*Missing:* all other cases: the code uses the rows instead of the columns of the matrix of eigenvectors
(`C72_refuted`). -/
theorem C72_axes_partial {n : ℕ} (hn : n ≠ 1) (pcs : Mat n → Mat n) (he : EigOk pcs) (ws : List (Vec n)) (hne : ws ≠ [])
    (hsym : ∀ k, (pcs (sampleCov ((ws ++ [wpCenter ws]).eraseIdx k)))ᵀ = pcs (sampleCov ((ws ++ [wpCenter ws]).eraseIdx k))) :
    ∃ ts, convertWaypoints pcs ws = .ok ts ∧ ∀ k (t : Comp n), ts[k]? = some t →
      AxesOk ws k t.mean (pcs (sampleCov ((ws ++ [wpCenter ws]).eraseIdx k))) t.cov := by
  obtain ⟨ts, e1, _, _, e4⟩ := convert_ok (pcs := pcs) ws hne (fun k w c =>
    AxesOk ws k w (pcs (sampleCov ((ws ++ [wpCenter ws]).eraseIdx k))) c) (fun k w hw => by
    refine ⟨_, wayCov_ok hn ws k w (he _).1, ?_⟩
    have hs := hsym k
    have hV := (he ((ws ++ [wpCenter ws]).eraseIdx k)).1
    set V := pcs (sampleCov ((ws ++ [wpCenter ws]).eraseIdx k))
    intro i
    have hk : k < ws.length := (List.getElem?_eq_some_iff.1 hw).1
    have e : Vᵀ * Matrix.diagonal (largestProj Vᵀ (((ws ++ [wpCenter ws]).map fun e => e - w).eraseIdx k)) * V =
        V * Matrix.diagonal (largestProj V (((ws ++ [wpCenter ws]).map fun e => e - w).eraseIdx k)) * Vᵀ := by
      rw [hs]
    rw [e, varAlong_col V hV]
    unfold largestProj
    have hmap : ((ws ++ [wpCenter ws]).map fun e => e - w).eraseIdx k = ((ws ++ [wpCenter ws]).eraseIdx k).map fun e => e - w := by
      rw [List.eraseIdx_map]
    rw [hmap, List.map_map]
    have hg := maxDist_spec (ds := ((ws ++ [wpCenter ws]).eraseIdx k).map
        ((fun d => |(fun r => V r i) ⬝ᵥ d|) ∘ fun e => e - w)) (by
      intro d hd
      obtain ⟨p, _, rfl⟩ := List.mem_map.1 hd
      exact abs_nonneg _) (by
      intro h0
      have := congrArg List.length h0
      rw [List.length_map, List.length_eraseIdx_of_lt (by simp; omega), List.length_append, List.length_singleton,
        List.length_nil] at this
      omega)
    have hset : {x | ∃ p ∈ (ws ++ [wpCenter ws]).eraseIdx k, x = |(fun r => V r i) ⬝ᵥ (p - w)|} =
        {x | x ∈ ((ws ++ [wpCenter ws]).eraseIdx k).map ((fun d => |(fun r => V r i) ⬝ᵥ d|) ∘ fun e => e - w)} := by
      ext x
      simp only [Set.mem_setOf_eq, List.mem_map, Function.comp_apply, eq_comm]
    rw [hset]
    exact hg)
  exact ⟨ts, e1, e4⟩

/-- Orthonormal eigenvectors for points on the line through (0, 0) and (3, 4). -/
noncomputable def rot : Mat 2 := !![3 / 5, -4 / 5; 4 / 5, 3 / 5]

theorem rot_orth : rotᵀ * rot = 1 := by
  unfold rot
  ext i j
  fin_cases i <;> fin_cases j <;> norm_num [Matrix.mul_apply, Fin.sum_univ_two]

theorem rot_eig : IsEig (sampleCov [![6, 8], ![3, 4]]) rot := by
  refine ⟨rot_orth, ![25 / 4, 0], ?_, ?_⟩
  · intro i j hij
    fin_cases i <;> fin_cases j <;> first | (norm_num; done) | (exact absurd hij (by decide))
  · unfold rot
    ext i j
    fin_cases i <;> fin_cases j <;>
      norm_num [Matrix.mul_apply, Fin.sum_univ_two, sampleCov, wpCenter, Matrix.diagonal]

/-- **C72 is false of this code**: for the waypoints (0, 0) and (6, 8) and a correct eigenvalue routine, the area around
the first waypoint does not have the right extension along the line through the waypoints (9.06688 in place of 10). -/
theorem C72_refuted : ∃ pcs : Mat 2 → Mat 2, EigOk pcs ∧
    ∃ ts, convertWaypoints pcs [![0, 0], ![6, 8]] = .ok ts ∧ ∃ t, ts[0]? = some t ∧
      ¬ AxesOk [![0, 0], ![6, 8]] 0 t.mean
        (pcs (sampleCov (([![0, 0], ![6, 8]] ++ [wpCenter [![0, 0], ![6, 8]]]).eraseIdx 0))) t.cov := by
  classical
  obtain ⟨p0, h0⟩ := eigOk_exists 2
  let pcs : Mat 2 → Mat 2 := fun C => if IsEig C rot then rot else p0 C
  have hp : EigOk pcs := by
    intro data
    by_cases h : IsEig (sampleCov data) rot
    · simp only [pcs, if_pos h]; exact h
    · simp only [pcs, if_neg h]; exact h0 data
  refine ⟨pcs, hp, ?_⟩
  have hc : wpCenter [![0, 0], ![6, 8]] = (![3, 4] : Vec 2) := by
    funext i
    fin_cases i <;> norm_num [wpCenter]
  have hV : pcs (sampleCov (([![0, 0], ![6, 8]] ++ [wpCenter [![0, 0], ![6, 8]]]).eraseIdx 0)) = rot := by
    rw [hc]
    exact if_pos rot_eig
  obtain ⟨ts, e1, e2, _, e4⟩ := convert_ok (pcs := pcs) [![0, 0], ![6, 8]] (by simp) (fun k w c => k = 0 →
      c = rotᵀ * Matrix.diagonal ![14 / 5, 48 / 5] * rot ∧ w = ![0, 0]) (fun k w hw => by
    refine ⟨_, wayCov_ok (by norm_num) _ k w (hp _).1, ?_⟩
    rintro rfl
    simp only [List.getElem?_cons_zero, Option.some.injEq] at hw
    subst hw
    refine ⟨?_, rfl⟩
    rw [hV, hc]
    congr 3
    funext i
    fin_cases i <;>
      norm_num [largestProj, maxDist, rot, dotProduct, Fin.sum_univ_two, abs_of_pos, abs_of_neg])
  have hlen : ts.length = 2 := by
    have := congrArg List.length e2
    simpa using this
  refine ⟨ts, e1, ts[0], List.getElem?_eq_getElem (by omega), ?_⟩
  obtain ⟨hcov, hm⟩ := e4 0 ts[0] (List.getElem?_eq_getElem (by omega)) rfl
  rw [hV, hcov, hm]
  intro hA
  have h10 := (hA 0).2 (show (10 : ℝ) ∈ _ from ⟨![6, 8], by simp, by
    norm_num [rot, dotProduct, Fin.sum_univ_two]⟩)
  have hval : varAlong (rotᵀ * Matrix.diagonal ![14 / 5, 48 / 5] * rot) (fun r => rot r 0) = 28334 / 3125 := by
    norm_num [varAlong, rot, dotProduct, Matrix.mulVec, Matrix.mul_apply, Fin.sum_univ_two, Matrix.diagonal]
  rw [hval] at h10
  norm_num at h10

/-- `C72_axes_partial` is about something: with the identity as matrix of eigenvectors. -/
example : ∃ pcs : Mat 2 → Mat 2, EigOk pcs ∧ ∀ k, (pcs (sampleCov (([![0, 0], ![6, 0]] ++
    [wpCenter [![0, 0], ![6, 0]]] : List (Vec 2)).eraseIdx k)))ᵀ = pcs (sampleCov (([![0, 0], ![6, 0]] ++
    [wpCenter [![0, 0], ![6, 0]]] : List (Vec 2)).eraseIdx k)) := by
  classical
  obtain ⟨p0, h0⟩ := eigOk_exists 2
  refine ⟨fun C => if IsEig C 1 then 1 else p0 C, ?_, ?_⟩
  · intro data
    by_cases h : IsEig (sampleCov data) 1
    · simp only [if_pos h]; exact h
    · simp only [if_neg h]; exact h0 data
  · intro k
    have hy : ∀ p ∈ (([![0, 0], ![6, 0]] ++ [wpCenter [![0, 0], ![6, 0]]] : List (Vec 2)).eraseIdx k), p 1 = 0 := by
      intro p hp
      have hp' := List.mem_of_mem_eraseIdx hp
      simp only [List.cons_append, List.nil_append, List.mem_cons, List.not_mem_nil, or_false] at hp'
      rcases hp' with rfl | rfl | rfl
      · rfl
      · rfl
      · norm_num [wpCenter]
    have hI : IsEig (sampleCov (([![0, 0], ![6, 0]] ++ [wpCenter [![0, 0], ![6, 0]]] : List (Vec 2)).eraseIdx k)) 1 := by
      set data := (([![0, 0], ![6, 0]] ++ [wpCenter [![0, 0], ![6, 0]]] : List (Vec 2)).eraseIdx k)
      have hc1 : wpCenter data 1 = 0 := by
        unfold wpCenter
        rw [List.sum_eq_zero, zero_div]
        intro x hx
        obtain ⟨p, hp, rfl⟩ := List.mem_map.1 hx
        exact hy p hp
      have h01 : ∀ i, sampleCov data i 1 = 0 := by
        intro i
        unfold sampleCov
        rw [List.sum_eq_zero, zero_div]
        intro x hx
        obtain ⟨p, hp, rfl⟩ := List.mem_map.1 hx
        show _ * (p 1 - _) = 0
        rw [hy p hp, hc1]; ring
      have h10 : sampleCov data 1 0 = 0 := by
        have := congrFun (congrFun (sampleCov_symm data) 1) 0
        rw [Matrix.conjTranspose_apply, star_trivial] at this
        rw [← this]; exact h01 0
      have h00 : 0 ≤ sampleCov data 0 0 := by
        unfold sampleCov
        apply div_nonneg _ (Nat.cast_nonneg _)
        apply List.sum_nonneg
        intro x hx
        obtain ⟨p, hp, rfl⟩ := List.mem_map.1 hx
        exact mul_self_nonneg _
      refine ⟨by simp, ![sampleCov data 0 0, 0], ?_, ?_⟩
      · intro i j hij
        fin_cases i <;> fin_cases j <;> first | exact le_refl _ | exact h00 | exact absurd hij (by decide)
      · rw [Matrix.mul_one, Matrix.one_mul]
        ext i j
        fin_cases i <;> fin_cases j
        · simp
        · simpa using h01 0
        · simpa using h10
        · simpa using h01 1
    simp only [if_pos hI, Matrix.transpose_one]

/-! ### C45 -/

/-- A sequence of updates; it stops at the first exception. -/
noncomputable def updates {n : ℕ} (pcs : Mat n → Mat n) : Density n → List (List (Vec n) × Bool) → Except GErr (Density n)
  | d, [] => .ok d
  | d, (new, reset) :: rest =>
    match (updateTargets pcs d new reset).err with
    | some e => .error e
    | none => updates pcs (updateTargets pcs d new reset).self rest

/-- One update. -/
theorem C45_one {n : ℕ} (hn : n ≠ 1) (pcs : Mat n → Mat n) (he : EigOk pcs) (d : Density n) (new : List (Vec n))
    (reset : Bool) (hne : (if reset then new else new ++ d.targets.map Comp.mean) ≠ []) :
    ∃ ts, updateTargets pcs d new reset =
        ⟨none, ⟨ts, d.safety, d.yRef⟩, if reset then new else new ++ d.targets.map Comp.mean⟩ ∧
      ts.map Comp.mean = (if reset then new else new ++ d.targets.map Comp.mean) ∧
      ∀ t ∈ ts, t.weight = 1 / ts.length := by
  obtain ⟨ts, e1, e2, e3, _⟩ := C70_valid_partial hn pcs he _ hne
  refine ⟨ts, ?_, e2, ?_⟩
  · unfold updateTargets
    dsimp only
    rw [e1]
  · intro t ht
    rw [e3 t ht, ← e2, List.length_map]

/-- **C45.** For all sequences of target batches and reset flags such that there is a target after each of them (states
with at least two coordinates): no update fails, and the target means are the newest batch followed by the older targets
(after a reset: only the newest batch), with equal weights that sum to one. -/
theorem C45_updates {n : ℕ} (hn : n ≠ 1) (pcs : Mat n → Mat n) (he : EigOk pcs) :
    ∀ (seq : List (List (Vec n) × Bool)) (d : Density n), (∀ t ∈ d.targets, t.weight = 1 / d.targets.length) →
      (∀ k, 0 < k → k ≤ seq.length → accumulate (d.targets.map Comp.mean) (seq.take k) ≠ []) →
      ∃ d', updates pcs d seq = .ok d' ∧ d'.targets.map Comp.mean = accumulate (d.targets.map Comp.mean) seq ∧
        (∀ t ∈ d'.targets, t.weight = 1 / d'.targets.length) ∧
        (d'.targets ≠ [] → (d'.targets.map Comp.weight).sum = 1) ∧ d'.safety = d.safety ∧ d'.yRef = d.yRef
  | [], d, hw, _ => by
    refine ⟨d, rfl, rfl, hw, ?_, rfl, rfl⟩
    intro hne
    have : d.targets.map Comp.weight = List.replicate d.targets.length (1 / (d.targets.length : ℝ)) := by
      rw [List.eq_replicate_iff]
      refine ⟨by simp, ?_⟩
      intro x hx
      obtain ⟨t, ht, rfl⟩ := List.mem_map.1 hx
      exact hw t ht
    rw [this, List.sum_replicate, nsmul_eq_mul]
    have : (d.targets.length : ℝ) ≠ 0 := by exact_mod_cast (List.length_pos_iff.2 hne).ne'
    field_simp
  | (new, reset) :: rest, d, hw, hne => by
    have h1 := hne 1 (by omega) (by simp)
    obtain ⟨ts, e1, e2, e3⟩ := C45_one hn pcs he d new reset (by simpa [accumulate] using h1)
    obtain ⟨d', f1, f2, f3, f4, f5, f6⟩ := C45_updates hn pcs he rest ⟨ts, d.safety, d.yRef⟩ e3 (by
      intro k hk hk'
      have := hne (k + 1) (by omega) (by simpa using hk')
      rw [List.take_succ_cons] at this
      dsimp only
      rw [e2]
      exact this)
    refine ⟨d', ?_, ?_, f3, f4, f5, f6⟩
    · unfold updates
      rw [e1]
      exact f1
    · rw [f2]
      dsimp only
      rw [e2]
      rfl

/-- **C45, side effects.** The caller's list is changed: it gets the older targets appended. If the resulting list is
empty, the update raises `IndexError`, and the object has no targets any more. -/
theorem C45_side_effects {n : ℕ} (pcs : Mat n → Mat n) (d : Density n) (new : List (Vec n)) :
    (updateTargets pcs d new false).caller = new ++ d.targets.map Comp.mean ∧
    (updateTargets pcs d new true).caller = new ∧
    (updateTargets pcs d [] true).err = some .index ∧ (updateTargets pcs d [] true).self.targets = [] := by
  have h : ∀ r, (updateTargets pcs d new r).caller = if r then new else new ++ d.targets.map Comp.mean := by
    intro r
    unfold updateTargets
    dsimp only
    cases convertWaypoints pcs (if r then new else new ++ d.targets.map Comp.mean) <;> rfl
  exact ⟨h false, h true, rfl, rfl⟩

/-- **C45, aliasing.** If the argument is the object's own list of target means (and not empty), the loop never ends:
it has not ended after any number of rounds. -/
theorem C45_own_list {n : ℕ} (ws : List (Vec n)) (h : ws ≠ []) : ∀ fuel, appendSelf fuel 0 ws = none := by
  have key : ∀ (fuel i : ℕ) (l : List (Vec n)), i < l.length → appendSelf fuel i l = none := by
    intro fuel
    induction fuel with
    | zero => intro i l _; rfl
    | succ t ih =>
      intro i l hi
      unfold appendSelf
      rw [List.getElem?_eq_getElem hi]
      exact ih (i + 1) _ (by simp; omega)
  exact fun fuel => key fuel 0 ws (List.length_pos_iff.2 h)

/-- C45 is about something: two batches, from an object without targets. -/
example : ∃ (pcs : Mat 2 → Mat 2) (d : Density 2) (seq : List (List (Vec 2) × Bool)), EigOk pcs ∧ seq.length = 2 ∧
    (∀ t ∈ d.targets, t.weight = 1 / d.targets.length) ∧
    ∀ k, 0 < k → k ≤ seq.length → accumulate (d.targets.map Comp.mean) (seq.take k) ≠ [] := by
  obtain ⟨pcs, h⟩ := eigOk_exists 2
  refine ⟨pcs, ⟨[], 1, 9 / 10⟩, [([0], false), ([1], false)], h, rfl, by simp, ?_⟩
  intro k hk hk'
  have : k = 1 ∨ k = 2 := by
    simp only [List.length_cons, List.length_nil] at hk'
    omega
  rcases this with rfl | rfl <;> simp [accumulate]

end Gasur.Props
