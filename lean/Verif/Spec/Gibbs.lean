import Mathlib.Probability.ProductMeasure
import Mathlib.MeasureTheory.Measure.Lebesgue.Basic
import Mathlib.Analysis.SpecialFunctions.Exp

/-!
# Specification: the distribution that Gibbs sampling is to produce

Nothing of the model is used here.
-/

namespace Gasur.Spec

open MeasureTheory

variable {N M : ℕ}

/-- A uniform random number in `[0, 1)`. -/
noncomputable def unif : Measure ℝ := volume.restrict (Set.Ico 0 1)

/-- The random numbers of one iteration: one for each row, independent and uniform. -/
noncomputable def draws (N : ℕ) : Measure (Fin N → ℝ) := Measure.pi fun _ => unif

instance : IsProbabilityMeasure unif := ⟨by simp [unif]⟩

instance (N : ℕ) : IsProbabilityMeasure (draws N) := by unfold draws; infer_instance

/-- The random numbers of all iterations, independent. -/
noncomputable def allDraws (N : ℕ) : Measure (ℕ → Fin N → ℝ) := Measure.infinitePi fun _ => draws N

instance (N : ℕ) : IsProbabilityMeasure (allDraws N) := by unfold allDraws; infer_instance

/-- The weight `exp (-(sum of the costs))` of an assignment of the rows to pairwise different columns, 0 for other
assignments. -/
noncomputable def gibbsWeight (costs : Fin N → Fin M → ℝ) (a : Fin N → Fin M) : ℝ :=
  open Classical in if Function.Injective a then Real.exp (-∑ i, costs i (a i)) else 0

/-- The target distribution: the weights, normalised. -/
noncomputable def gibbsTarget (costs : Fin N → Fin M → ℝ) (a : Fin N → Fin M) : ℝ :=
  gibbsWeight costs a / ∑ b, gibbsWeight costs b

end Gasur.Spec
