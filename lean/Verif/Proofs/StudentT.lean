import Mathlib.Analysis.SpecialFunctions.ImproperIntegrals
import Verif.Spec.StudentT

/-!
# Moments of Student's t distribution
-/

namespace Gasur.Spec

open MeasureTheory ProbabilityTheory Real Set
open scoped ENNReal RealInnerProductSpace

/-- The expected value of the inverse of a gamma variable. -/
theorem lintegral_inv_gamma {a r : ℝ} (ha : 1 < a) (hr : 0 < r) :
    ∫⁻ l, ENNReal.ofReal l⁻¹ ∂gammaMeasure a r = ENNReal.ofReal (r / (a - 1)) := by
  have ha1 : 0 < a - 1 := by linarith
  have hmeas : Measurable (gammaPDF a r) := (measurable_gammaPDFReal a r).ennreal_ofReal
  rw [gammaMeasure, lintegral_withDensity_eq_lintegral_mul _ hmeas (by fun_prop)]
  have hae : ∀ᵐ x : ℝ ∂volume, (gammaPDF a r * fun l => ENNReal.ofReal l⁻¹) x = ENNReal.ofReal (r / (a - 1)) * gammaPDF (a - 1) r x := by
    have h0 : ∀ᵐ x : ℝ ∂volume, x ≠ 0 := by simp [ae_iff, measure_singleton]
    filter_upwards [h0] with x hx
    rw [Pi.mul_apply]
    rcases lt_or_gt_of_ne hx with h | h
    · rw [gammaPDF_of_neg h, gammaPDF_of_neg h, zero_mul, mul_zero]
    · rw [gammaPDF_of_nonneg h.le, gammaPDF_of_nonneg h.le, ← ENNReal.ofReal_mul (by positivity), ← ENNReal.ofReal_mul (by positivity)]
      congr 1
      have hG : Gamma a = (a - 1) * Gamma (a - 1) := by
        have := Real.Gamma_add_one ha1.ne'
        rwa [sub_add_cancel] at this
      have hra : r ^ a = r * r ^ (a - 1) := by
        rw [rpow_sub_one hr.ne']; field_simp
      have hxa : x ^ (a - 1) = x * x ^ (a - 1 - 1) := by
        rw [rpow_sub_one h.ne' (a - 1)]; field_simp
      rw [hG, hra, hxa]
      have := (Gamma_pos_of_pos ha1).ne'
      field_simp
  have hmeas' : Measurable (gammaPDF (a - 1) r) := (measurable_gammaPDFReal (a - 1) r).ennreal_ofReal
  rw [lintegral_congr_ae hae, lintegral_const_mul _ hmeas',
    lintegral_gammaPDF_eq_one ha1 hr, mul_one]

/-- It is infinite for a shape of at most one. -/
theorem lintegral_inv_gamma_top {a r : ℝ} (ha : 0 < a) (ha1 : a ≤ 1) (hr : 0 < r) :
    ∫⁻ l, ENNReal.ofReal l⁻¹ ∂gammaMeasure a r = ∞ := by
  have hmeas : Measurable (gammaPDF a r) := (measurable_gammaPDFReal a r).ennreal_ofReal
  rw [gammaMeasure, lintegral_withDensity_eq_lintegral_mul _ hmeas (by fun_prop)]
  have hG := Gamma_pos_of_pos ha
  set c : ℝ := r ^ a / Gamma a * exp (-r) with hc
  have hcpos : 0 < c := by positivity
  have hnot : ¬ IntegrableOn (fun x : ℝ => x ^ (a - 2)) (Ioo 0 1) := by
    rw [intervalIntegral.integrableOn_Ioo_rpow_iff zero_lt_one]
    linarith
  have htop : ∫⁻ x in Ioo (0 : ℝ) 1, ENNReal.ofReal (x ^ (a - 2)) = ∞ := by
    by_contra h
    refine hnot ((lintegral_ofReal_ne_top_iff_integrable (by fun_prop) ?_).1 h)
    rw [Filter.EventuallyLE, ae_restrict_iff' measurableSet_Ioo]
    exact ae_of_all _ fun x hx => rpow_nonneg hx.1.le _
  have hle : ∫⁻ x in Ioo (0 : ℝ) 1, ENNReal.ofReal c * ENNReal.ofReal (x ^ (a - 2)) ≤
      ∫⁻ x, (gammaPDF a r * fun l => ENNReal.ofReal l⁻¹) x := by
    refine (setLIntegral_mono' measurableSet_Ioo ?_).trans (setLIntegral_le_lintegral _ _)
    intro x hx
    rw [Pi.mul_apply, gammaPDF_of_nonneg hx.1.le, ← ENNReal.ofReal_mul hcpos.le, ← ENNReal.ofReal_mul (by have := hx.1; positivity)]
    apply ENNReal.ofReal_le_ofReal
    have hxa : x ^ (a - 1) * x⁻¹ = x ^ (a - 2) := by
      rw [show a - 2 = a - 1 - 1 by ring, rpow_sub_one hx.1.ne' (a - 1)]; rfl
    have hexp : exp (-r) ≤ exp (-(r * x)) := exp_le_exp.2 (by nlinarith [hx.2])
    have hx0 : 0 ≤ x ^ (a - 2) := rpow_nonneg hx.1.le _
    calc c * x ^ (a - 2) = r ^ a / Gamma a * x ^ (a - 2) * exp (-r) := by rw [hc]; ring
      _ ≤ r ^ a / Gamma a * x ^ (a - 2) * exp (-(r * x)) := by gcongr
      _ = r ^ a / Gamma a * x ^ (a - 1) * exp (-(r * x)) * x⁻¹ := by rw [← hxa]; ring
  rw [lintegral_const_mul _ (by fun_prop), htop, ENNReal.mul_top (by simpa using hcpos)] at hle
  exact top_le_iff.1 hle

/-- The second moments of a normal distribution with mean 0. -/
theorem lintegral_sq_gaussian {n : ℕ} {S : Matrix (Fin n) (Fin n) ℝ} (hS : S.PosSemidef) (v : EuclideanSpace ℝ (Fin n)) :
    ∫⁻ z, ENNReal.ofReal (⟪v, z⟫ ^ 2) ∂multivariateGaussian 0 S = ENNReal.ofReal (v ⬝ᵥ S.mulVec v) := by
  rw [← covarianceBilin_multivariateGaussian (μ := 0) hS v v, covarianceBilin_apply IsGaussian.memLp_two_id,
    integral_id_multivariateGaussian', ofReal_integral_eq_lintegral_ofReal]
  · congr 1; funext z; rw [sub_zero, sq]
  · simp only [sub_zero]
    have : MemLp (fun z : EuclideanSpace ℝ (Fin n) => ⟪v, z⟫) 2 (multivariateGaussian 0 S) :=
      (innerSL ℝ v).comp_memLp' IsGaussian.memLp_two_id
    exact this.integrable_mul this
  · exact ae_of_all _ fun z => mul_self_nonneg _

theorem studentT_sq {n : ℕ} {ν : ℝ} (m : EuclideanSpace ℝ (Fin n)) {S : Matrix (Fin n) (Fin n) ℝ} (hS : S.PosSemidef) (hν : 0 < ν)
    (v : EuclideanSpace ℝ (Fin n)) :
    ∫⁻ x, ENNReal.ofReal (⟪v, x - m⟫ ^ 2) ∂studentT ν m S =
      (∫⁻ l, ENNReal.ofReal l⁻¹ ∂gammaMeasure (ν / 2) (ν / 2)) * ENNReal.ofReal (v ⬝ᵥ S.mulVec v) := by
  have := isProbabilityMeasure_gammaMeasure (a := ν / 2) (r := ν / 2) (by linarith) (by linarith)
  rw [studentT, lintegral_map (by fun_prop) (by fun_prop), ← lintegral_sq_gaussian hS v, ← lintegral_prod_mul (by fun_prop) (by fun_prop)]
  congr 1
  funext p
  rw [add_sub_cancel_left, real_inner_smul_right, mul_pow, inv_pow]
  rcases le_or_gt 0 p.1 with h | h
  · rw [sq_sqrt h, ENNReal.ofReal_mul (by positivity)]
  · rw [sqrt_eq_zero_of_nonpos h.le, ENNReal.ofReal_of_nonpos (p := p.1⁻¹) (by rw [inv_nonpos]; exact h.le)]
    simp

theorem studentT_mean {n : ℕ} {ν : ℝ} (m : EuclideanSpace ℝ (Fin n)) (S : Matrix (Fin n) (Fin n) ℝ) (hν : 0 < ν) :
    ∫ x, (x - m) ∂studentT ν m S = 0 := by
  have := isProbabilityMeasure_gammaMeasure (a := ν / 2) (r := ν / 2) (by linarith) (by linarith)
  rw [studentT, integral_map (by fun_prop) (by fun_prop)]
  simp only [add_sub_cancel_left]
  rw [integral_prod_smul (f := fun l : ℝ => (√l)⁻¹) (g := fun z : EuclideanSpace ℝ (Fin n) => z), integral_id_multivariateGaussian, smul_zero]

end Gasur.Spec
