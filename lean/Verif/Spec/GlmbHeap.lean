import Verif.Model.GlmbHeap

/-!
# Specification: programs that use a GLMB filter

Which arrays a program may change, and what the filter sees of it.
-/

namespace Gasur.Spec

open Gasur.Glmb Gasur.GlmbHeap

variable {K τ F S C Z : Type*}

/-- The arrays that the program has made itself: states, covariances, measurements. -/
structure Own where
  s : List ℕ
  c : List ℕ
  z : List ℕ

/-- The arrays that are given to a call exist. -/
def ArgsExist (m : Mem S C Z) : HOp K τ F S C Z → Prop
  | .predict _ _ births => ∀ b ∈ births, (∀ a ∈ b.states, a < m.ns) ∧ ∀ a ∈ b.covs, a < m.nc
  | .correct _ zs => ∀ a ∈ zs, a < m.nz
  | _ => True

/-- An action is fair if it changes only arrays that the program has made itself. -/
def FairAct (m : Mem S C Z) (w : Own) : Act K τ F S C Z → Prop
  | .setS a _ => a ∈ w.s
  | .setC a _ => a ∈ w.c
  | .setZ a _ => a ∈ w.z
  | .call o => ArgsExist m o
  | _ => True

/-- The arrays of the program after an action. -/
def Own.after (m : Mem S C Z) (w : Own) : Act K τ F S C Z → Own
  | .newS _ => { w with s := m.ns :: w.s }
  | .newC _ => { w with c := m.nc :: w.c }
  | .newZ _ => { w with z := m.nz :: w.z }
  | _ => w

/-- The call made by an action, if it is one. -/
def callOf (m : Mem S C Z) : Act K τ F S C Z → List (Op K τ F S C Z)
  | .call o => [o.read m]
  | _ => []

section field
variable [Field K] [LinearOrder K] [FloorRing K] [DecidableEq τ]

/-- All actions of a program are fair. -/
def Fair (pr : Params K) (saveMeas : Bool) : HF K τ F S C Z → Own → List (Act K τ F S C Z) → Prop
  | _, _, [] => True
  | h, w, a :: l => FairAct h.mem w a ∧ ∀ h', act pr saveMeas h a = .ok h' → Fair pr saveMeas h' (w.after h.mem a) l

/-- The arrays of the program at its end. -/
def ownAtEnd (pr : Params K) (saveMeas : Bool) : HF K τ F S C Z → Own → List (Act K τ F S C Z) → Own
  | _, w, [] => w
  | h, w, a :: l =>
    match act pr saveMeas h a with
    | .ok h' => ownAtEnd pr saveMeas h' (w.after h.mem a) l
    | .error _ => w

/-- The calls of a program, with the contents that the arrays have at the time of the call (up to the first call that raises). -/
def callsOf (pr : Params K) (saveMeas : Bool) : HF K τ F S C Z → List (Act K τ F S C Z) → List (Op K τ F S C Z)
  | _, [] => []
  | h, a :: l => callOf h.mem a ++
    match act pr saveMeas h a with
    | .ok h' => callsOf pr saveMeas h' l
    | .error _ => []

/-- The measurements given to the calls. -/
def measGiven : List (Op K τ F S C Z) → List (List Z)
  | [] => []
  | .correct _ meas :: l => meas :: measGiven l
  | _ :: l => measGiven l

end field

/-- A new filter with no arrays around (the contents of unused references do not matter). -/
def newFilter [Field K] (s : ℕ → S) (c : ℕ → C) (z : ℕ → Z) : HF K τ F S C Z :=
  { mem := { s := s, c := c, z := z, ns := 0, nc := 0, nz := 0 },
    st := ⟨[], [{ prob := 1, tracks := [] }], [], 0, [], [], [], []⟩,
    meas := [] }

end Gasur.Spec
