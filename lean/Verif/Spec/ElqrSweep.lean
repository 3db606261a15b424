import Verif.Spec.Elqr

/-!
# Specification of the sweeps of the extended LQR guidance (C81, C82)
-/

namespace Gasur.Spec

open Matrix Gasur.Guidance Gasur.Elqr

/-- What a pass for step `k` of plan `g` (number `ii`) is told about the plan: the gains of the step, the cost-to-come of the
step, the cost-to-go of the next step, the start state of this plan, and its nominal control and dynamics. The control
input is the one of the feedback law at the state that is passed (if the law has as many entries as the table of
control inputs has columns). -/
structure Told {n : ℕ} (xs : List (Vec n)) (k ii : ℕ) (g : Plan n) (i : PassIn n) : Prop where
  feedback : g.feedback[k]? = some i.feedback
  feedforward : g.feedforward[k]? = some i.feedforward
  ctcMat : g.ctcMat[k]? = some i.ctcMat
  ctcVec : g.ctcVec[k]? = some i.ctcVec
  ctgMat : g.ctgMat[k + 1]? = some i.ctgMat
  ctgVec : g.ctgVec[k + 1]? = some i.ctgVec
  control : ∃ t : Tab, g.ctrlInput = some t ∧ (i.feedback.rows = t.cols → i.uHat = law t.cols i.feedback i.feedforward i.xHat)
  start : xs[ii]? = some i.xStart
  step : i.k = k
  object : i.objNum = ii
  dynamics : i.dyn = g.dyn ∧ i.invDyn = g.invDyn ∧ i.uNom = g.nom

/-- A step of the forward sweep: every plan gets the result of the forward pass for its state at step `k`, together with the
states of all plans at step `k` before the sweep step; the gains of step `k`, the control input of step `k`, and the
cost-to-come and the state of step `k + 1` are replaced, and nothing else. -/
def ForwardStep {n : ℕ} (ext : Ext n) (xs : List (Vec n)) (k : ℕ) (gs gs' : List (Plan n)) : Prop :=
  gs'.length = gs.length ∧ ∀ (ii : ℕ) (g g' : Plan n), gs[ii]? = some g → gs'[ii]? = some g' →
    ∃ (i : PassIn n) (o : PassOut n) (t : Tab), Told xs k ii g i ∧ g.means[k]? = some i.xHat ∧
      i.allStates.length = gs.length ∧ (∀ (j : ℕ) (p : Plan n), gs[j]? = some p → i.allStates[j]? = p.means[k]?) ∧
      ext.fwd i = .ok o ∧ g.ctrlInput = some t ∧ g' =
        { g with
          ctrlInput := some ⟨t.cols, t.rows.set k i.uHat⟩
          feedback := g.feedback.set k o.feedback
          feedforward := g.feedforward.set k o.feedforward
          ctcMat := g.ctcMat.set (k + 1) o.mat
          ctcVec := g.ctcVec.set (k + 1) o.vec
          means := g.means.set (k + 1) o.xHat }

/-- A step of the backward sweep: every plan gets the result of the backward pass for its state at step `k + 1`, together with
the states from which all plans come by the inverse dynamics; the gains of step `k`, the control input of step `k`, and
the cost-to-go and the state of step `k` are replaced, and nothing else. -/
def BackwardStep {n : ℕ} (ext : Ext n) (xs : List (Vec n)) (k : ℕ) (gs gs' : List (Plan n)) : Prop :=
  gs'.length = gs.length ∧ ∀ (ii : ℕ) (g g' : Plan n), gs[ii]? = some g → gs'[ii]? = some g' →
    ∃ (i : PassIn n) (o : PassOut n) (t : Tab), Told xs k ii g i ∧ g.means[k + 1]? = some i.xHat ∧
      i.allStates.length = gs.length ∧
      (∀ (j : ℕ) (p : Plan n) (x y : Vec n) (K l : Arr) (s : Tab), gs[j]? = some p → i.allStates[j]? = some x →
        p.means[k + 1]? = some y → p.feedback[k]? = some K → p.feedforward[k]? = some l → p.ctrlInput = some s →
        K.rows = s.cols → ∀ v : Fin n, (∀ f : Vec n → List ℝ → ℝ, p.invDyn[v.val]? = some f → x v = f y (law s.cols K l y)) ∧
          (p.invDyn[v.val]? = none → x v = 0)) ∧
      ext.bwd i = .ok o ∧ g.ctrlInput = some t ∧ g' =
        { g with
          ctrlInput := some ⟨t.cols, t.rows.set k i.uHat⟩
          feedback := g.feedback.set k o.feedback
          feedforward := g.feedforward.set k o.feedforward
          ctgMat := g.ctgMat.set k o.mat
          ctgVec := g.ctgVec.set k o.vec
          means := g.means.set k o.xHat }

/-- `v` as a value of the quadratic function with matrix `A` and vector `b` at `x`. -/
noncomputable def quadVal {n : ℕ} (A : Mat n) (b x : Vec n) : ℝ := (x ⬝ᵥ A *ᵥ x) / 2 + b ⬝ᵥ x

/-- The turning point of a plan: the final cost towards the nearest target is made quadratic around the last state and is the
cost-to-go of the last step; matrices and vectors have the shapes that belong to the state; the last state becomes the only stationary point of the sum of cost-to-come and cost-to-go. -/
def Turn {n : ℕ} (ext : Ext n) (ts : List (Comp n)) (g g' : Plan n) : Prop :=
  ∃ (x y : Vec n) (t : Tab) (u : List ℝ) (m v cm cv : Arr), g.means.getLast? = some x ∧ g.ctrlInput = some t ∧
    t.rows.getLast? = some u ∧ ext.quadFinal x u (nearestTarget ts x) = .ok (m, v) ∧
    g.ctcMat.getLast? = some cm ∧ g.ctcVec.getLast? = some cv ∧
    ((m.rows = n ∧ m.cols = n) ∧ (cm.rows = n ∧ cm.cols = n) ∧ (v.rows = n ∧ v.cols = 1) ∧ cv.rows = n ∧ cv.cols = 1) ∧
    (∀ z : Vec n, (∀ r : Fin n, (∑ j : Fin n, (m.val r j + cm.val r j) * z j) + (v.val r 0 + cv.val r 0) = 0) ↔ z = y) ∧
    g' = { g with
      ctgMat := g.ctgMat.set (g.ctgMat.length - 1) m
      ctgVec := g.ctgVec.set (g.ctgVec.length - 1) v
      means := g.means.set (g.means.length - 1) y }

end Gasur.Spec
