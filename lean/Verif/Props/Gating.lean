import Verif.Proofs.Gating
import Mathlib.Data.Matrix.Mul
import Mathlib.LinearAlgebra.Matrix.Notation
import Mathlib.LinearAlgebra.Matrix.PosDef
import Mathlib.Tactic.NormNum
import Mathlib.Tactic.FinCases

/-!
# Properties C34, C35: measurement gating
-/

set_option linter.unusedSectionVars false
set_option linter.unusedSimpArgs false

namespace Gasur.Props

open Gasur.Gating Matrix

variable {K Z : Type*} [Field K] [LinearOrder K]

/-- The squared Mahalanobis distance of an innovation `v` for the innovation covariance `S`. -/
noncomputable def mahalanobis {d : ℕ} (S : Matrix (Fin d) (Fin d) K) (v : Fin d → K) : K :=
  v ⬝ᵥ (S⁻¹ *ᵥ v)

/-- Innovation covariance of a component with covariance `p`. -/
def innovCov {d s : ℕ} (H : Matrix (Fin d) (Fin s) K) (p : Matrix (Fin s) (Fin s) K)
    (R : Matrix (Fin d) (Fin d) K) : Matrix (Fin d) (Fin d) K := H * p * Hᵀ + R

theorem codeDist_eq {d : ℕ} (L : Matrix (Fin d) (Fin d) K) (v : Fin d → K) :
    codeDist L v = mahalanobis (Lᵀ * L) v := by
  unfold codeDist mahalanobis
  rw [Matrix.mul_inv_rev, ← Matrix.mulVec_mulVec, Matrix.dotProduct_mulVec]
  rw [← Matrix.mulVec_transpose, ← Matrix.transpose_nonsing_inv]
  simp only [dotProduct, pow_two]

theorem symm_half {d : ℕ} [CharZero K] (S : Matrix (Fin d) (Fin d) K) (h : Sᵀ = S) :
    (1 / 2 : K) • (S + Sᵀ) = S := by
  rw [h, ← two_smul K S, smul_smul]
  norm_num

/-- **C34, partial.** The gate keeps, in order and without repetition, exactly the measurements whose
*computed* distance to some component is below the gate; for any factor `L` the computed distance is the
Mahalanobis distance for `LᵀL`. Hence, when the innovation covariances are symmetric and their Cholesky
factors (`L Lᵀ = S`) commute with their transposes (in particular for one-dimensional measurements and
for diagonal innovation covariances), the gate keeps exactly the measurements whose squared Mahalanobis
distance to some predicted component is below the gate.
*Missing:* other covariances, for which the claim is false (`C34_refuted`). -/
theorem C34_gate_partial [CharZero K] {d s : ℕ}
    (chol : Matrix (Fin d) (Fin d) K → Matrix (Fin d) (Fin d) K)
    (H : (Fin s → K) → Matrix (Fin d) (Fin s) K) (est : (Fin s → K) → Fin d → K)
    (R : Matrix (Fin d) (Fin d) K) (gate : K)
    (comps : List ((Fin s → K) × Matrix (Fin s) (Fin s) K)) (meas : List (Fin d → K))
    (hsym : ∀ c ∈ comps, (innovCov (H c.1) c.2 R)ᵀ = innovCov (H c.1) c.2 R)
    (hchol : ∀ c ∈ comps, chol (innovCov (H c.1) c.2 R) * (chol (innovCov (H c.1) c.2 R))ᵀ =
      innovCov (H c.1) c.2 R)
    (hnormal : ∀ c ∈ comps, (chol (innovCov (H c.1) c.2 R))ᵀ * chol (innovCov (H c.1) c.2 R) =
      chol (innovCov (H c.1) c.2 R) * (chol (innovCov (H c.1) c.2 R))ᵀ) :
    gateFull chol H est R gate (comps.map Prod.fst) (comps.map Prod.snd) meas =
      meas.filter fun z => comps.any fun c =>
        decide (mahalanobis (innovCov (H c.1) c.2 R) (z - est c.1) < gate) := by
  unfold gateFull
  rw [gateMeas_eq]
  have hz : (comps.map Prod.fst).zip (comps.map Prod.snd) = comps := by
    induction comps with
    | nil => rfl
    | cons c cs ih =>
      rw [List.map_cons, List.map_cons, List.zip_cons_cons, ih
        (fun x hx => hsym x (List.mem_cons_of_mem _ hx))
        (fun x hx => hchol x (List.mem_cons_of_mem _ hx))
        (fun x hx => hnormal x (List.mem_cons_of_mem _ hx))]
  rw [hz]
  apply List.filter_congr
  intro z _
  rw [List.any_map, Bool.eq_iff_iff, List.any_eq_true, List.any_eq_true]
  have hd : ∀ c ∈ comps, compDist chol H est R c z =
      mahalanobis (innovCov (H c.1) c.2 R) (z - est c.1) := by
    intro c hc
    unfold compDist measPredCov
    have h1 := hsym c hc
    unfold innovCov at h1
    rw [symm_half _ h1, h1, codeDist_eq]
    have h2 := hnormal c hc
    have h3 := hchol c hc
    unfold innovCov at h2 h3 ⊢
    rw [h2, h3]
  constructor
  · rintro ⟨c, hc, h⟩
    exact ⟨c, hc, by simpa [hd c hc] using h⟩
  · rintro ⟨c, hc, h⟩
    exact ⟨c, hc, by simpa [hd c hc] using h⟩

/-- The gate never invents, repeats or reorders measurements and, for every component list, does not
depend on the order of the components. -/
theorem C34_gate_sublist (gate : K) (dists dists' : List (Z → K)) (hp : dists.Perm dists')
    (meas : List Z) :
    (gateMeas gate dists meas).Sublist meas ∧
    gateMeas gate dists meas = gateMeas gate dists' meas := by
  rw [gateMeas_eq, gateMeas_eq]
  refine ⟨List.filter_sublist, ?_⟩
  apply List.filter_congr
  intro z _
  rw [Bool.eq_iff_iff, List.any_eq_true, List.any_eq_true]
  constructor
  · rintro ⟨c, hc, h⟩; exact ⟨c, hp.mem_iff.1 hc, h⟩
  · rintro ⟨c, hc, h⟩; exact ⟨c, hp.mem_iff.2 hc, h⟩

/-- witness covariance -/
def wS : Matrix (Fin 2) (Fin 2) ℚ := !![1, 1; 1, 2]
/-- its lower Cholesky factor -/
def wL : Matrix (Fin 2) (Fin 2) ℚ := !![1, 0; 1, 1]

/-- **C34 is false in general**: there is a correlated 2×2 innovation covariance `S` (with lower
triangular Cholesky factor `L`, positive diagonal) and a measurement whose squared Mahalanobis distance is
above the gate although the code keeps it; symmetrically one below the gate that the code drops. The code
multiplies by the transpose of the inverse factor (tracker.py:266). -/
theorem C34_refuted :
    wL * wLᵀ = wS ∧
    ∃ (gate : ℚ) (z z' : Fin 2 → ℚ),
      gate < mahalanobis wS z ∧
      gateFull (fun _ => wL) (fun _ => (1 : Matrix (Fin 2) (Fin 2) ℚ)) (fun m => m)
        0 gate [0] [wS] [z] = [z] ∧
      mahalanobis wS z' < gate ∧
      gateFull (fun _ => wL) (fun _ => (1 : Matrix (Fin 2) (Fin 2) ℚ)) (fun m => m)
        0 gate [0] [wS] [z'] = [] := by
  have hSinv : wS⁻¹ = !![2, -1; -1, 1] := by
    apply Matrix.inv_eq_left_inv
    decide +kernel
  have hLinv : wL⁻¹ = !![1, 0; -1, 1] := by
    apply Matrix.inv_eq_left_inv
    decide +kernel
  have hd : ∀ z : Fin 2 → ℚ, compDist (fun _ => wL)
      (fun _ => (1 : Matrix (Fin 2) (Fin 2) ℚ)) (fun m => m) 0 (0, wS) z =
      (z 0 - z 1) ^ 2 + z 1 ^ 2 := by
    intro z
    unfold compDist codeDist
    rw [hLinv]
    simp [Fin.sum_univ_two, Matrix.mulVec, dotProduct, Matrix.transpose]
    ring
  have hm : ∀ z : Fin 2 → ℚ, mahalanobis wS z = 2 * z 0 ^ 2 - 2 * z 0 * z 1 + z 1 ^ 2 := by
    intro z
    unfold mahalanobis
    rw [hSinv]
    simp [Fin.sum_univ_two, Matrix.mulVec, dotProduct]
    ring
  refine ⟨by decide +kernel, 3 / 2, ![1, 0], ![0, 1], ?_, ?_, ?_, ?_⟩
  · rw [hm]; norm_num
  · unfold gateFull
    rw [gateMeas_eq]
    simp [hd]
    norm_num
  · rw [hm]; norm_num
  · unfold gateFull
    rw [gateMeas_eq]
    simp [hd]
    norm_num

/-! ### C35 -/

/-- **C35, partial.** The constructor retains all its arguments except the gate. *Missing:* the gate, for
which the claim is false (`C35_refuted`). -/
theorem C35_constructor_partial (on : Bool) (g e p m : K) (n : ℕ) :
    (phdInit on g e p m n).gatingOn = on ∧ (phdInit on g e p m n).extractThreshold = e ∧
    (phdInit on g e p m n).pruneThreshold = p ∧ (phdInit on g e p m n).mergeThreshold = m ∧
    (phdInit on g e p m n).maxGauss = n := ⟨rfl, rfl, rfl, rfl, rfl⟩

/-- **C35 is false**: whatever gate is passed, the constructed filter's gate is 0; with gating on and
distances that are sums of squares, every measurement is dropped. -/
theorem C35_refuted [IsStrictOrderedRing K] (g e p m : K) (n : ℕ) :
    (phdInit true g e p m n).invChi2Gate = 0 ∧
    ∀ {d s : ℕ} (chol : Matrix (Fin d) (Fin d) K → Matrix (Fin d) (Fin d) K)
      (H : (Fin s → K) → Matrix (Fin d) (Fin s) K) (est : (Fin s → K) → Fin d → K)
      (R : Matrix (Fin d) (Fin d) K)
      (comps : List ((Fin s → K) × Matrix (Fin s) (Fin s) K)) (meas : List (Fin d → K)),
      usedMeas (phdInit true g e p m n) (comps.map (compDist chol H est R)) meas = [] := by
  refine ⟨rfl, ?_⟩
  intro d s chol H est R comps meas
  unfold usedMeas
  rw [if_pos (show (phdInit true g e p m n).gatingOn = true from rfl), gateMeas_eq,
    List.filter_eq_nil_iff]
  intro z _ h
  rw [List.any_eq_true] at h
  obtain ⟨f, hf, h⟩ := h
  obtain ⟨c, _, rfl⟩ := List.mem_map.1 hf
  have h0 : (phdInit true g e p m n).invChi2Gate = 0 := rfl
  rw [h0, decide_eq_true_eq] at h
  have : 0 ≤ compDist chol H est R c z := by
    unfold compDist codeDist
    exact Finset.sum_nonneg fun i _ => sq_nonneg _
  exact absurd h (not_lt.2 this)

/-! ### Non-vacuity of `C34_gate_partial` -/

/-- A diagonal example satisfies the hypotheses. -/
example : let chol : Matrix (Fin 2) (Fin 2) ℚ → Matrix (Fin 2) (Fin 2) ℚ := fun _ => !![2, 0; 0, 3]
    let H : (Fin 2 → ℚ) → Matrix (Fin 2) (Fin 2) ℚ := fun _ => 1
    let R : Matrix (Fin 2) (Fin 2) ℚ := !![1, 0; 0, 1]
    let c : (Fin 2 → ℚ) × Matrix (Fin 2) (Fin 2) ℚ := (0, !![3, 0; 0, 8])
    (innovCov (H c.1) c.2 R)ᵀ = innovCov (H c.1) c.2 R ∧
    chol (innovCov (H c.1) c.2 R) * (chol (innovCov (H c.1) c.2 R))ᵀ = innovCov (H c.1) c.2 R ∧
    (chol (innovCov (H c.1) c.2 R))ᵀ * chol (innovCov (H c.1) c.2 R) =
      chol (innovCov (H c.1) c.2 R) * (chol (innovCov (H c.1) c.2 R))ᵀ := by
  decide +kernel

end Gasur.Props
