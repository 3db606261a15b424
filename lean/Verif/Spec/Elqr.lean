import Verif.Model.Elqr

/-!
# Specification vocabulary for the extended LQR guidance
-/

namespace Gasur.Spec

open Matrix
open Gasur.Guidance (Vec Mat Comp)
open Gasur.Elqr (Plan Arr Tab)

/-- The squared Mahalanobis distance of a measured mean from the second state of a plan (the state the plan predicts for
now), with the covariance of the plan. -/
noncomputable def planDist {n : ℕ} (c : Comp n) (g : Plan n) : ℝ :=
  (c.mean - g.means.getD 1 0) ⬝ᵥ g.cov⁻¹ *ᵥ (c.mean - g.means.getD 1 0)

/-- Plan `j` has not been taken by one of the measurements before `k`. -/
def Free (a : List (Option ℕ)) (k j : ℕ) : Prop := ∀ i < k, a[i]? ≠ some (some j)

/-- `a` is the greedy matching of `m` measurements to `p` plans: each measurement in turn takes the closest plan that is
still free (the first one if there are several), if its distance is below the threshold, and none otherwise. -/
def Greedy (m p : ℕ) (D : ℕ → ℕ → ℝ) (thr : Option ℝ) (a : List (Option ℕ)) : Prop :=
  a.length = m ∧ ∀ k < m,
    (∀ j, a[k]? = some (some j) → j < p ∧ Free a k j ∧ (∃ t, thr = some t ∧ D k j < t) ∧
      ∀ j' < p, Free a k j' → D k j ≤ D k j' ∧ (j' < j → D k j < D k j')) ∧
    (a[k]? = some none → ∀ t, thr = some t → ∀ j' < p, Free a k j' → t ≤ D k j')

/-- `l'` is `l` moved by one step: entry `i` is the old entry `i + 1`, and the last one is `a`. -/
def Shifted {α : Type} (l l' : List α) (a : α) : Prop :=
  l'.length = l.length ∧ (∀ i, i + 1 < l.length → l'[i]? = l[i + 1]?) ∧ l'.getLast? = some a

/-- A complete plan for the horizon `h` with `m` control inputs: every list has one entry for each time step. -/
structure Complete {n : ℕ} (h m : ℕ) (g : Plan n) : Prop where
  means : g.means.length = h
  cols : g.ctrlInputs.cols = m
  rows : g.ctrlInputs.rows.length = h
  feedforward : g.feedforward.length = h
  feedback : g.feedback.length = h
  ctcMat : g.ctcMat.length = h
  ctcVec : g.ctcVec.length = h
  ctgMat : g.ctgMat.length = h
  ctgVec : g.ctgVec.length = h
  dyn : g.dyn.length = n

/-- `p` is the plan `g` moved on by one time step, starting from the measured component `c`: the means start with the measured
mean, then follow the old ones from the third on, and the last one is the old dynamics applied to the last but one mean and
the last old control input; the control inputs, the gains and the cost matrices and vectors are moved by one (the cost
terms repeat the last entry, the others end with zero). The cost-to-come vectors are not mentioned. -/
structure MovedOn {n : ℕ} (h m : ℕ) (c : Comp n) (g p : Plan n) : Prop where
  complete : Complete h m p
  first : p.means.head? = some c.mean
  means : ∀ i, 1 ≤ i → i + 1 < h → p.means[i]? = g.means[i + 1]?
  last : ∃ (x y : Vec n) (u : List ℝ), p.means[h - 2]? = some x ∧ g.ctrlInputs.rows.getLast? = some u ∧ p.means.getLast? = some y ∧
    ∀ (i : Fin n) (f : Vec n → List ℝ → ℝ), g.dyn[i.val]? = some f → y i = f x u
  ctrl : Shifted g.ctrlInputs.rows p.ctrlInputs.rows (List.replicate m 0)
  feedforward : ∃ a, Shifted g.feedforward p.feedforward a ∧ ∀ r s, a.val r s = 0
  feedback : ∃ a, Shifted g.feedback p.feedback a ∧ ∀ r s, a.val r s = 0
  ctcMat : ∃ a, g.ctcMat.getLast? = some a ∧ Shifted g.ctcMat p.ctcMat a
  ctgMat : ∃ a, g.ctgMat.getLast? = some a ∧ Shifted g.ctgMat p.ctgMat a
  ctgVec : ∃ a, g.ctgVec.getLast? = some a ∧ Shifted g.ctgVec p.ctgVec a
  dyn : p.dyn = g.dyn ∧ p.invDyn = g.invDyn ∧ p.nom = g.nom

/-- The control input of the feedback law with gains `K`, `l` at the state `x`, with `m` entries. -/
def law {n : ℕ} (m : ℕ) (K l : Arr) (x : Vec n) : List ℝ :=
  (List.range m).map fun r => (∑ j : Fin n, K.val r j * x j) + l.val r 0

/-- The plan at state `x` moves to `y` in step `k` under its feedback law with `m` inputs: each variable by its own function of
the old state and the control input; a variable without a function keeps its value. -/
def ClosedLoop {n : ℕ} (m k : ℕ) (g : Plan n) (x y : Vec n) : Prop :=
  ∃ (K l : Arr), g.feedback[k]? = some K ∧ g.feedforward[k]? = some l ∧
    (∀ (i : Fin n) (f : Vec n → List ℝ → ℝ), g.dyn[i.val]? = some f → y i = f x (law m K l x)) ∧
    ∀ i : Fin n, g.dyn[i.val]? = none → y i = x i

/-- The plans as objects at the given states. -/
def AtStates {n : ℕ} (gs : List (Plan n)) (xs : List (Vec n)) (os : List (Comp n)) : Prop :=
  os.length = gs.length ∧ ∀ (i : ℕ) (o : Comp n), os[i]? = some o → ∃ (g : Plan n), gs[i]? = some g ∧
    xs[i]? = some o.mean ∧ o.cov = g.cov ∧ g.weight = some o.weight

end Gasur.Spec
