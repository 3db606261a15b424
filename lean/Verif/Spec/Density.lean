import Verif.Model.Density

/-!
# Specification vocabulary for the density based guidance
-/

namespace Gasur.Spec

open Matrix
open Gasur.Guidance (Vec Mat Comp)

/-- `v` is the largest variance in a list of components: the largest diagonal entry of their covariances. -/
def LargestVar {n : ℕ} (cs : List (Comp n)) (v : ℝ) : Prop := IsGreatest {x | ∃ c ∈ cs, ∃ i, x = c.cov i i} v

/-- `d` is the largest distance of a component from `x` (Euclidean). -/
def Furthest {n : ℕ} (cs : List (Comp n)) (x : Vec n) (d : ℝ) : Prop :=
  IsGreatest {r | ∃ c ∈ cs, r = Real.sqrt (∑ i, (c.mean i - x i) ^ 2)} d

/-- The density of the normal distribution. -/
noncomputable def normalDensity {n : ℕ} (x m : Vec n) (P : Mat n) : ℝ :=
  Real.exp (-(1 / 2) * ((x - m) ⬝ᵥ P⁻¹ *ᵥ (x - m))) / Real.sqrt ((2 * Real.pi) ^ n * P.det)

/-- `∑ⱼ ∑ᵢ wⱼ wᵢ f(j, i)`. -/
def doubleSum {n : ℕ} (as bs : List (Comp n)) (f : Comp n → Comp n → ℝ) : ℝ :=
  (as.map fun a => (bs.map fun b => a.weight * b.weight * f a b).sum).sum

/-- The cost of the documentation of `density_based_cost`, with the factor of the mixed term (20 in the documentation),
the largest variances and the weight `α` of the last term as parameters. -/
noncomputable def docCost {n : ℕ} (factor σg σd α : ℝ) (objs targets : List (Comp n)) : ℝ :=
  10 * objs.length * σg *
      (doubleSum objs objs (fun a b => normalDensity a.mean b.mean (a.cov + b.cov)) -
        factor * σd * targets.length * doubleSum objs targets (fun a b => normalDensity a.mean b.mean (a.cov + b.cov))) +
    doubleSum targets targets (fun a b => normalDensity a.mean b.mean (a.cov + b.cov)) +
    α * doubleSum objs targets (fun a b => Real.log (normalDensity a.mean b.mean (a.cov + b.cov)))

/-- The columns of `V` are orthonormal eigenvectors of `C` with decreasing eigenvalues: what a correct eigenvalue
routine returns for a symmetric matrix. -/
def IsEig {n : ℕ} (C V : Mat n) : Prop :=
  Vᵀ * V = 1 ∧ ∃ d : Fin n → ℝ, Antitone d ∧ C * V = V * Matrix.diagonal d

/-- The target list after a sequence of updates: a batch comes before the older targets, a reset drops them. -/
def accumulate {n : ℕ} : List (Vec n) → List (List (Vec n) × Bool) → List (Vec n)
  | ts, [] => ts
  | ts, (new, reset) :: rest => accumulate (if reset then new else new ++ ts) rest

end Gasur.Spec
