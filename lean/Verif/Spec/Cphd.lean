import Mathlib.Analysis.SpecialFunctions.Exp
import Mathlib.Analysis.SpecialFunctions.Sqrt
import Mathlib.Data.Nat.Choose.Basic
import Mathlib.RingTheory.Polynomial.Vieta

/-!
# Specification vocabulary for the CPHD filter
-/

namespace Gasur.Spec

/-- `c` is a probability distribution on the numbers `0 … N`. -/
structure IsDist (N : ℕ) (c : List ℝ) : Prop where
  length : c.length = N + 1
  nonneg : ∀ x ∈ c, 0 ≤ x
  sum : c.sum = 1

/-- `c` is proportional to the values `u 0, …, u N` and is a distribution. -/
def IsNormalised (N : ℕ) (u : ℕ → ℝ) (c : List ℝ) : Prop :=
  (∑ k ∈ Finset.range (N + 1), u k) ≠ 0 ∧
  c = (List.range (N + 1)).map fun n => u n / ∑ k ∈ Finset.range (N + 1), u k

/-- Probability that `j` objects survive, if each of a `c`-distributed number of objects survives independently with
probability `ps`. -/
noncomputable def thinned (N : ℕ) (ps : ℝ) (c : ℕ → ℝ) (j : ℕ) : ℝ :=
  ∑ i ∈ Finset.range (N + 1), (i.choose j : ℝ) * ps ^ j * (1 - ps) ^ (i - j) * c i

/-- Poisson probability. -/
noncomputable def poisson (b : ℝ) (k : ℕ) : ℝ := Real.exp (-b) * b ^ k / k.factorial

/-- Distribution of the number of survivors plus births. -/
noncomputable def predicted (N : ℕ) (ps b : ℝ) (c : ℕ → ℝ) (n : ℕ) : ℝ :=
  ∑ j ∈ Finset.range (n + 1), thinned N ps c j * poisson b (n - j)

/-- Mean of a distribution given as a list. -/
noncomputable def cardMean (c : List ℝ) : ℝ := ((c.zipIdx).map fun x => (x.2 : ℝ) * x.1).sum

/-- Standard deviation of a distribution given as a list. -/
noncomputable def cardStd (c : List ℝ) : ℝ := Real.sqrt ((c.zipIdx).map fun x => ((x.2 : ℝ) - cardMean c) ^ 2 * x.1).sum

/-- `n` is the smallest among the most probable numbers of the distribution `c`. -/
def IsMode (c : List ℝ) (n : ℕ) : Prop :=
  ∃ p, c[n]? = some p ∧ (∀ x ∈ c, x ≤ p) ∧ ∀ (k : ℕ) (x : ℝ), k < n → c[k]? = some x → x < p

/-- `esf` computes the elementary symmetric functions (contract of gncpy's `get_elem_sym_fnc`). -/
def IsEsf (esf : List ℝ → List ℝ) : Prop :=
  ∀ l : List ℝ, (esf l).length = l.length + 1 ∧
    ∀ j, j ≤ l.length → (esf l)[j]? = some ((l : Multiset ℝ).esymm j)

/-- Density of the measurement set `zs` if there are `n` objects: the clutter is Poisson with rate `lam` and density
`kap`; each object, independently, is missed with probability `q` or produces one measurement, of density `g`. The
objects are taken one after the other. -/
noncomputable def measDensity {Z : Type*} (lam kap q : ℝ) (g : Z → ℝ) : ℕ → List Z → ℝ
  | 0, zs => Real.exp (-lam) * (lam * kap) ^ zs.length
  | n + 1, zs => q * measDensity lam kap q g n zs +
      ((zs.zipIdx).map fun z => g z.1 * measDensity lam kap q g n (zs.eraseIdx z.2)).sum

end Gasur.Spec
