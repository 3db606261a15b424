import Mathlib.MeasureTheory.Measure.GiryMonad
import Mathlib.MeasureTheory.Constructions.Pi
import Verif.Model.Density

/-!
# Model of the mixtures

Source: `/repo/src/gasur/utilities/distributions.py`, `GaussianMixture` (16-76) and `StudentsTMixture` (79-164).

* Exact real arithmetic; states are vectors of a fixed length `n`.
* The densities of `scipy.stats` and the distributions from which they (and the random generator) draw are parameters.
* A random result is represented by its distribution. `rng.choice(arange(k), p)` is numpy's: it fails if `k = 0`, if `p` does
  not have `k` entries, if an entry is negative or if the sum is not one (numpy: up to rounding).
* `dof` is a number, as documented (`sample` also accepts a list).
-/

namespace Gasur.Mixture

open Matrix MeasureTheory Gasur.Guidance

/-- Failures: `ValueError`, `IndexError`, `RuntimeError`. -/
inductive MErr
  | value | index | runtime
  deriving DecidableEq

/-- `GaussianMixture` (distributions.py:29-38): three lists. -/
structure GMix (n : ℕ) where
  means : List (Vec n)
  covs : List (Mat n)
  weights : List ℝ

/-- `StudentsTMixture` (distributions.py:94-105). -/
structure TMix (n : ℕ) where
  means : List (Vec n)
  scalings : List (Mat n)
  weights : List ℝ
  dof : ℝ

/-- `StudentsTMixture.__init__` with its defaults (distributions.py:94-105). -/
noncomputable def newTMix {n : ℕ} (means : Option (List (Vec n))) (scalings : Option (List (Mat n))) (weights : Option (List ℝ))
    (dof : Option ℝ) : TMix n := ⟨means.getD [], scalings.getD [], weights.getD [], dof.getD 3⟩

/-- `StudentsTMixture.covariances` (distributions.py:107-114). -/
noncomputable def TMix.covariances {n : ℕ} (g : TMix n) : Except MErr (List (Mat n)) :=
  if g.dof ≤ 2 then .error .runtime
  else .ok (g.scalings.map fun x => (g.dof / (g.dof - 2)) • x)

/-- The sum over the zipped lists (distributions.py:71-76, 129-134): `f m s` is the density of one component. -/
def mixPdf {n : ℕ} (f : Vec n → Mat n → Vec n → ℝ) (means : List (Vec n)) (mats : List (Mat n)) (weights : List ℝ) (x : Vec n) : ℝ :=
  (means.zip (mats.zip weights)).foldl (fun p c => p + c.2.2 * f c.1 c.2.1 x) 0

/-- `GaussianMixture.pdf` (distributions.py:61-76). -/
def GMix.pdf {n : ℕ} (f : Vec n → Mat n → Vec n → ℝ) (g : GMix n) (x : Vec n) : ℝ := mixPdf f g.means g.covs g.weights x

/-- `StudentsTMixture.pdf` (distributions.py:116-134). -/
def TMix.pdf {n : ℕ} (f : ℝ → Vec n → Mat n → Vec n → ℝ) (g : TMix n) (x : Vec n) : ℝ :=
  mixPdf (f g.dof) g.means g.scalings g.weights x

/-- `rng.choice(np.arange(k), p=p)`: the distribution of the index. -/
noncomputable def choice (k : ℕ) (p : List ℝ) : Except MErr (Measure ℕ) :=
  if k = 0 ∨ p.length ≠ k ∨ (∃ w ∈ p, w < 0) ∨ p.sum ≠ 1 then .error .value
  else .ok (∑ i ∈ Finset.range k, ENNReal.ofReal (p.getD i 0) • Measure.dirac i)

/-- The parameters of component `i` (distributions.py:57-58, 161-162). -/
def component {n : ℕ} (means : List (Vec n)) (mats : List (Mat n)) (i : ℕ) : Except MErr (Vec n × Mat n) :=
  match means[i]?, mats[i]? with
  | some m, some s => .ok (m, s)
  | _, _ => .error .index

/-- The components of all indices in turn. -/
def components {n : ℕ} (means : List (Vec n)) (mats : List (Mat n)) : List ℕ → Except MErr (List (Vec n × Mat n))
  | [] => .ok []
  | i :: is => do
    let c ← component means mats i
    let cs ← components means mats is
    .ok (c :: cs)

/-- `sample` (distributions.py:40-59, 136-164): an index, then a draw from `D` for that component. A mixture with too few
matrices is rejected at once; the code fails only if it draws such a component. -/
noncomputable def mixSample {n : ℕ} (D : Vec n → Mat n → Measure (Vec n)) (means : List (Vec n)) (mats : List (Mat n))
    (weights : List ℝ) : Except MErr (Measure (Vec n)) := do
  let μ ← choice means.length weights
  let cs ← components means mats (List.range means.length)
  .ok (μ.bind fun i => ((cs[i]?).map fun c => D c.1 c.2).getD 0)

/-- `GaussianMixture.sample` (distributions.py:40-59). -/
noncomputable def GMix.sample {n : ℕ} (D : Vec n → Mat n → Measure (Vec n)) (g : GMix n) : Except MErr (Measure (Vec n)) :=
  mixSample D g.means g.covs g.weights

/-- `StudentsTMixture.sample` (distributions.py:136-164). -/
noncomputable def TMix.sample {n : ℕ} (D : ℝ → Vec n → Mat n → Measure (Vec n)) (g : TMix n) : Except MErr (Measure (Vec n)) :=
  mixSample (D g.dof) g.means g.scalings g.weights

end Gasur.Mixture
