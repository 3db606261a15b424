import Verif.Model.Ospa
import Mathlib.Analysis.Matrix.Order
import Mathlib.Analysis.Matrix.PosDef

/-! # The distance called Hellinger in the code is between 0 and 1 for positive definite covariances -/

namespace Gasur.Ospa

open Matrix
open scoped MatrixOrder

theorem det_one_add {s : ℕ} {C : Matrix (Fin s) (Fin s) ℝ} (hC : C.PosDef) :
    Real.sqrt C.det ≤ ((1 / 2 : ℝ) • (1 + C)).det := by
  have hH := hC.isHermitian
  have h1 : C.det = ∏ i, hH.eigenvalues i := by
    simpa using hH.det_eq_prod_eigenvalues
  have h2 : ((1 / 2 : ℝ) • (1 + C)).det = ∏ i, ((1 + hH.eigenvalues i) / 2) := by
    have h3 : (1 + C).det = ∏ i, (1 + hH.eigenvalues i) := by
      have := congrArg (Polynomial.eval (-1)) hH.charpoly_eq
      rw [Matrix.eval_charpoly, Polynomial.eval_prod] at this
      have e : (scalar (Fin s) (-1 : ℝ)) - C = -(1 + C) := by
        rw [map_neg, map_one]; abel
      rw [e, Matrix.det_neg] at this
      simp only [Polynomial.eval_sub, Polynomial.eval_X, Polynomial.eval_C] at this
      have e2 : ∏ i, (-1 - ((hH.eigenvalues i : ℝ) : ℝ)) = (-1) ^ s * ∏ i, (1 + hH.eigenvalues i) := by
        rw [show (-1 : ℝ) ^ s = ∏ _i : Fin s, (-1 : ℝ) by simp, ← Finset.prod_mul_distrib]
        exact Finset.prod_congr rfl fun i _ => by ring
      have e3 : (-1 : ℝ) ^ Fintype.card (Fin s) * (1 + C).det = (-1) ^ s * ∏ i, (1 + hH.eigenvalues i) := by
        rw [this]; exact e2
      rw [Fintype.card_fin] at e3
      exact mul_left_cancel₀ (by positivity) e3
    rw [Matrix.det_smul, h3, Fintype.card_fin,
      show (1 / 2 : ℝ) ^ s = ∏ _i : Fin s, (1 / 2 : ℝ) by simp, ← Finset.prod_mul_distrib]
    exact Finset.prod_congr rfl fun i _ => by ring
  rw [h1, h2, Real.sqrt_le_left (Finset.prod_nonneg fun i _ => by
    have := hC.eigenvalues_pos i
    have : (0 : ℝ) < hH.eigenvalues i := this
    linarith), ← Finset.prod_pow]
  refine Finset.prod_le_prod (fun i _ => (hC.eigenvalues_pos i).le) fun i _ => ?_
  nlinarith [sq_nonneg (1 - hH.eigenvalues i)]

/-- The determinant is log-concave (half of Minkowski's inequality). -/
theorem sqrt_det_mul_le {s : ℕ} {A B : Matrix (Fin s) (Fin s) ℝ} (hA : A.PosDef) (hB : B.PosDef) :
    Real.sqrt (A * B).det ≤ ((1 / 2 : ℝ) • (A + B)).det := by
  obtain ⟨P, hP⟩ := CStarAlgebra.nonneg_iff_eq_star_mul_self.mp hA.posSemidef.nonneg
  have hdet : P.det ≠ 0 := by
    intro h
    have := hA.det_pos
    rw [hP, Matrix.det_mul, h, mul_zero] at this
    exact absurd this (lt_irrefl _)
  have hu : IsUnit P := (Matrix.isUnit_iff_isUnit_det P).2 (isUnit_iff_ne_zero.2 hdet)
  have hPP : P⁻¹ * P = 1 := Matrix.nonsing_inv_mul _ (isUnit_iff_ne_zero.2 hdet)
  have hC : ((P⁻¹)ᴴ * B * P⁻¹).PosDef := by
    refine hB.conjTranspose_mul_mul_same ?_
    intro x y hxy
    have := congrArg (P *ᵥ ·) hxy
    simpa [Matrix.mulVec_mulVec, Matrix.mul_nonsing_inv _ (isUnit_iff_ne_zero.2 hdet)] using this
  have hPH : Pᴴ * (P⁻¹)ᴴ = 1 := by
    rw [← Matrix.conjTranspose_mul, hPP, Matrix.conjTranspose_one]
  have hB' : B = Pᴴ * ((P⁻¹)ᴴ * B * P⁻¹) * P := by
    have : Pᴴ * ((P⁻¹)ᴴ * B * P⁻¹) * P = (Pᴴ * (P⁻¹)ᴴ) * B * (P⁻¹ * P) := by
      simp only [Matrix.mul_assoc]
    rw [this, hPH, hPP, Matrix.one_mul, Matrix.mul_one]
  have hAs : A = Pᴴ * P := hP
  have key := det_one_add hC
  generalize (P⁻¹)ᴴ * B * P⁻¹ = C at *
  have hs : (A + B) = Pᴴ * (1 + C) * P := by
    rw [hAs, hB', Matrix.mul_add, Matrix.add_mul, Matrix.mul_one]
  have hd : Pᴴ.det = P.det := by
    rw [Matrix.det_conjTranspose]; simp
  have e1 : ((1 / 2 : ℝ) • (A + B)).det = P.det ^ 2 * ((1 / 2 : ℝ) • (1 + C)).det := by
    rw [hs, ← Matrix.smul_mul, ← Matrix.mul_smul, Matrix.det_mul, Matrix.det_mul, hd]; ring
  have e2 : (A * B).det = (P.det ^ 2) ^ 2 * C.det := by
    rw [Matrix.det_mul, hAs, hB', Matrix.det_mul, Matrix.det_mul, Matrix.det_mul, hd]; ring
  rw [e1, e2, Real.sqrt_mul (by positivity), Real.sqrt_sq (by positivity)]
  exact mul_le_mul_of_nonneg_left key (by positivity)

theorem coreDist_hellinger_bounds {s : ℕ} {e t : Obj s} (he : e.cov.PosDef) (ht : t.cov.PosDef) :
    0 ≤ coreDist .hellinger e t ∧ coreDist .hellinger e t ≤ 1 := by
  unfold coreDist
  have hdp : 0 < ((1 / 2 : ℝ) • (e.cov + t.cov)).det := by
    have := (he.add ht).smul (by norm_num : (0 : ℝ) < 1 / 2)
    exact this.det_pos
  have h1 : Real.sqrt (Real.sqrt (e.cov * t.cov).det / ((1 / 2 : ℝ) • (e.cov + t.cov)).det) ≤ 1 := by
    rw [Real.sqrt_le_one, div_le_one hdp]
    exact sqrt_det_mul_le he ht
  have h2 : Real.exp (-(1 / 4) * ((e.x - t.x) ⬝ᵥ ((e.cov + t.cov)⁻¹ *ᵥ (e.x - t.x)))) ≤ 1 := by
    rw [Real.exp_le_one_iff]
    have := (he.add ht).inv.posSemidef.dotProduct_mulVec_nonneg (e.x - t.x)
    simp only [star_trivial] at this
    linarith
  have h3 := Real.sqrt_nonneg (Real.sqrt (e.cov * t.cov).det / ((1 / 2 : ℝ) • (e.cov + t.cov)).det)
  have h4 := (Real.exp_pos (-(1 / 4) * ((e.x - t.x) ⬝ᵥ ((e.cov + t.cov)⁻¹ *ᵥ (e.x - t.x))))).le
  have h5 := mul_le_one₀ h1 h4 h2
  have h6 := mul_nonneg h3 h4
  constructor <;> linarith

theorem coreDist_nonneg {s : ℕ} (m : Method) (e t : Obj s)
    (h : m = .hellinger → e.cov.PosDef ∧ t.cov.PosDef) : 0 ≤ coreDist m e t := by
  cases m with
  | euclidean => exact Real.sqrt_nonneg _
  | manhattan => exact Finset.sum_nonneg fun k _ => abs_nonneg _
  | mahalanobis => exact Real.sqrt_nonneg _
  | hellinger => exact (coreDist_hellinger_bounds (h rfl).1 (h rfl).2).1

theorem coreDist_symm {s : ℕ} {m : Method} (hm : m ≠ .mahalanobis) (e t : Obj s) :
    coreDist m e t = coreDist m t e := by
  cases m with
  | euclidean =>
    unfold coreDist; dsimp only; congr 1; exact Finset.sum_congr rfl fun k _ => by ring
  | manhattan => exact Finset.sum_congr rfl fun k _ => abs_sub_comm _ _
  | mahalanobis => exact absurd rfl hm
  | hellinger =>
    unfold coreDist
    dsimp only
    have h1 : (e.cov * t.cov).det = (t.cov * e.cov).det := by rw [Matrix.det_mul, Matrix.det_mul, mul_comm]
    have h2 : t.x - e.x = -(e.x - t.x) := by abel
    rw [h1, add_comm t.cov, h2, Matrix.mulVec_neg, neg_dotProduct, dotProduct_neg, neg_neg]

theorem coreDist_eq_zero {s : ℕ} {m : Method} (hm : m = .euclidean ∨ m = .manhattan) (e t : Obj s) :
    coreDist m e t = 0 ↔ e.x = t.x := by
  rcases hm with rfl | rfl
  · unfold coreDist
    dsimp only
    rw [Real.sqrt_eq_zero (Finset.sum_nonneg fun k _ => sq_nonneg _),
      Finset.sum_eq_zero_iff_of_nonneg fun k _ => sq_nonneg _]
    constructor
    · intro h; funext k
      have := pow_eq_zero_iff (two_ne_zero) |>.1 (h k (Finset.mem_univ _))
      linarith
    · intro h k _; rw [h]; ring
  · unfold coreDist
    dsimp only
    rw [Finset.sum_eq_zero_iff_of_nonneg fun k _ => abs_nonneg _]
    constructor
    · intro h; funext k
      have := abs_eq_zero.1 (h k (Finset.mem_univ _))
      linarith
    · intro h k _; rw [h]; simp

end Gasur.Ospa
