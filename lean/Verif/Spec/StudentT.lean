import Mathlib.Probability.Distributions.Gamma
import Mathlib.Probability.Distributions.Gaussian.Multivariate

/-!
# Specification: the multivariate Student's t distribution
-/

namespace Gasur.Spec

open MeasureTheory ProbabilityTheory

/-- Student's t distribution with `ν` degrees of freedom, location `m` and scaling matrix `S`: the distribution of
`m + z / √l`, where `z` is normal with mean 0 and covariance `S` and `l` is an independent gamma variable with shape and
rate `ν / 2`. -/
noncomputable def studentT {n : ℕ} (ν : ℝ) (m : EuclideanSpace ℝ (Fin n)) (S : Matrix (Fin n) (Fin n) ℝ) :
    Measure (EuclideanSpace ℝ (Fin n)) :=
  ((gammaMeasure (ν / 2) (ν / 2)).prod (multivariateGaussian 0 S)).map fun p => m + (√p.1)⁻¹ • p.2

end Gasur.Spec
