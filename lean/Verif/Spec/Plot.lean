import Verif.Model.Plot

/-!
# What is visible in a plot

Each function picks out the drawing calls of one kind.
-/

namespace Gasur.Spec

open Gasur.Plot

variable {K L : Type}

/-- A set of points for estimated states. -/
def pointsOf : Prim K L → Option (List (K × K))
  | .points p _ => some p
  | _ => none

/-- A set of points for measurements. -/
def measOf : Prim K L → Option (List (K × K))
  | .measPoints p _ => some p
  | _ => none

/-- An error ellipse: centre, matrix, bound. -/
def ellipseOf : Prim K L → Option (Option (K × K) × Block K × K)
  | .ellipse c s b _ => some (c, s, b)
  | _ => none

/-- The line of a label. -/
def trackOf : Prim K L → Option (List (Option (K × K)))
  | .track p _ => some p
  | _ => none

/-- The line of a true trajectory. -/
def truthOf : Prim K L → Option (List (Option (K × K)))
  | .truth p _ => some p
  | _ => none

/-- A text: position and label. -/
def textOf : Prim K L → Option ((K × K) × L)
  | .text p l => some (p, l)
  | _ => none

/-- The legend entry of a drawing call. -/
def legendOf : Prim K L → Option Legend
  | .points _ l => l
  | .measPoints _ l => l
  | .ellipse _ _ _ l => l
  | .track _ l => l
  | .truth _ l => l
  | .graph _ _ l => l
  | _ => none

/-- The lines through the true states: line `k` through the `k`-th state of each time, with gaps. -/
def trueLines {d : ℕ} (i j : Fin d) : Option (List (List (Fin d → K))) → List (List (Option (K × K)))
  | none => []
  | some t => (List.range ((t.map List.length).foldr max 0)).map fun k => t.map fun xs => (xs[k]?).map fun v => (v i, v j)

/-- The points of the measurements: transformed by the function if there is one, otherwise the two components. -/
def shownMeas {m : ℕ} (tab : List (List (Fin m → K))) (measInds : Option (Fin m × Fin m)) (tx : Option ((Fin m → K) → K × K)) : List (K × K) :=
  match tx, measInds with
  | some f, _ => tab.flatten.map f
  | none, some (a, b) => tab.flatten.map fun z => (z a, z b)
  | none, none => []

section labels
variable {d : ℕ} [DecidableEq L]

/-- The state with the label at a time step. -/
def stateOf (lbl : L) (xs : List (Fin d → K)) (ls : List L) : Option (Fin d → K) :=
  if lbl ∈ ls then xs[ls.idxOf lbl]? else none

/-- Its covariance. -/
def covOf {C : Type} (lbl : L) (cs : List (Option C)) (ls : List L) : Option C :=
  if lbl ∈ ls then (cs[ls.idxOf lbl]?).join else none

/-- The three lists agree. -/
def Agree {A B C : Type} (hist : List (List A)) (labels : List (List B)) (covs : List (List C)) : Prop :=
  hist.length = labels.length ∧ covs.length = labels.length ∧
  ∀ (t : ℕ) (xs : List A) (ls : List B) (cs : List C), hist[t]? = some xs → labels[t]? = some ls → covs[t]? = some cs →
    xs.length = ls.length ∧ cs.length = ls.length

end labels

end Gasur.Spec
