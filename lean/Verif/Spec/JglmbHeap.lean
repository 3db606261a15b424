import Verif.Model.JglmbHeap
import Verif.Spec.GlmbHeap

/-!
# Specification: programs that use a joint GLMB filter
-/

namespace Gasur.Spec

open Gasur.Glmb Gasur.Jglmb Gasur.GlmbHeap Gasur.JglmbHeap

variable {K τ F S C Z : Type*}

/-- The arrays that are given to a call exist. -/
def JArgsExist (m : Mem S C Z) : JHOp K τ F S C Z → Prop
  | .predict _ _ births => ∀ b ∈ births, (∀ a ∈ b.states, a < m.ns) ∧ ∀ a ∈ b.covs, a < m.nc
  | .correct _ births _ zs => (∀ b ∈ births, (∀ a ∈ b.states, a < m.ns) ∧ ∀ a ∈ b.covs, a < m.nc) ∧ ∀ a ∈ zs, a < m.nz
  | _ => True

/-- An action is fair if it changes only arrays that the program has made itself. -/
def JFairAct (m : Mem S C Z) (w : Own) : JAct K τ F S C Z → Prop
  | .mem (.setS a _) => a ∈ w.s
  | .mem (.setC a _) => a ∈ w.c
  | .mem (.setZ a _) => a ∈ w.z
  | .mem _ => True
  | .call o => JArgsExist m o

/-- The arrays of the program after an action. -/
def Own.afterJ (m : Mem S C Z) (w : Own) : JAct K τ F S C Z → Own
  | .mem (.newS _) => { w with s := m.ns :: w.s }
  | .mem (.newC _) => { w with c := m.nc :: w.c }
  | .mem (.newZ _) => { w with z := m.nz :: w.z }
  | _ => w

/-- The call made by an action, if it is one. -/
def jcallOf (m : Mem S C Z) : JAct K τ F S C Z → List (JOp K τ F S C Z)
  | .call o => [o.read m]
  | _ => []

section field
variable [Field K] [LinearOrder K] [FloorRing K] [DecidableEq τ]

/-- All actions of a program are fair. -/
def JFair (jp : JParams K) : JHF K τ F S C Z → Own → List (JAct K τ F S C Z) → Prop
  | _, _, [] => True
  | h, w, a :: l => JFairAct h.mem w a ∧ ∀ h', jact jp h a = .ok h' → JFair jp h' (w.afterJ h.mem a) l

/-- The arrays of the program at its end. -/
def jownAtEnd (jp : JParams K) : JHF K τ F S C Z → Own → List (JAct K τ F S C Z) → Own
  | _, w, [] => w
  | h, w, a :: l =>
    match jact jp h a with
    | .ok h' => jownAtEnd jp h' (w.afterJ h.mem a) l
    | .error _ => w

/-- The calls of a program, with the contents that the arrays have at the time of the call (up to the first call that raises). -/
def jcallsOf (jp : JParams K) : JHF K τ F S C Z → List (JAct K τ F S C Z) → List (JOp K τ F S C Z)
  | _, [] => []
  | h, a :: l => jcallOf h.mem a ++
    match jact jp h a with
    | .ok h' => jcallsOf jp h' l
    | .error _ => []

/-- The measurements given to the calls. -/
def jmeasGiven : List (JOp K τ F S C Z) → List (List Z)
  | [] => []
  | .correct _ _ _ meas :: l => meas :: jmeasGiven l
  | _ :: l => jmeasGiven l

end field

/-- A new filter with no arrays around. -/
def newJoint [Field K] (s : ℕ → S) (c : ℕ → C) (z : ℕ → Z) : JHF K τ F S C Z :=
  { mem := { s := s, c := c, z := z, ns := 0, nc := 0, nz := 0 }
    st := { g := ⟨[], [{ prob := 1, tracks := [] }], [], 0, [], [], [], []⟩, oldLen := 0 }
    meas := [] }

end Gasur.Spec
