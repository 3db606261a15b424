import Verif.Model.CphdHeap
import Verif.Spec.GlmbHeap

/-!
# Specification: programs that use a cardinalized PHD filter
-/

namespace Gasur.Spec

open Gasur.Phd Gasur.Cphd Gasur.GlmbHeap Gasur.JglmbHeap Gasur.CphdHeap

variable {V P Z : Type*}

/-- An action is fair if it changes only arrays that the program has made itself; measurements given to a call exist. -/
def XFairAct (m : Mem V P Z) (w : Own) : XAct V P Z → Prop
  | .mem (.setS a _) => a ∈ w.s
  | .mem (.setC a _) => a ∈ w.c
  | .mem (.setZ a _) => a ∈ w.z
  | .mem _ => True
  | .call (.correct _ zs) => ∀ a ∈ zs, a < m.nz
  | .call _ => True

/-- The arrays of the program after an action. -/
def Own.afterX (m : Mem V P Z) (w : Own) : XAct V P Z → Own
  | .mem (.newS _) => { w with s := m.ns :: w.s }
  | .mem (.newC _) => { w with c := m.nc :: w.c }
  | .mem (.newZ _) => { w with z := m.nz :: w.z }
  | _ => w

/-- The call made by an action, if it is one, for a filter with birth terms `bs`: measurements with the contents that they have at
the time of the call. -/
def xcallOf (bs : List (Mix ℝ V P)) (m : Mem V P Z) : XAct V P Z → List (Cphd.Op V P Z)
  | .mem _ => []
  | .call (.predict f) => [.predict f bs]
  | .call (.correct f zs) => [.correct f (zs.map m.z)]
  | .call (.cleanup p g c e) => [.cleanup p g c e]
  | .call .extract => [.extract]
  | .call (.setMax n) => [.setMax n]

/-- The arrays of a mixture exist. -/
def ExistingMix (m : Mem V P Z) (b : Mix ℝ ℕ ℕ) : Prop := (∀ a ∈ b.ms, a < m.ns) ∧ ∀ a ∈ b.ps, a < m.nc

/-- The arrays of the program exist. -/
structure OwnExists (m : Mem V P Z) (w : Own) : Prop where
  s : ∀ a ∈ w.s, a < m.ns
  c : ∀ a ∈ w.c, a < m.nc
  z : ∀ a ∈ w.z, a < m.nz

/-- The measurements given to the calls. -/
def xmeasGiven : List (Cphd.Op V P Z) → List (List Z)
  | [] => []
  | .correct _ meas :: l => meas :: xmeasGiven l
  | _ :: l => xmeasGiven l

variable [AddCommGroup V] [Module ℝ V] [AddCommGroup P] [Module ℝ P]

/-- All actions of a program are fair. -/
def XFair (env : Env ℝ V P Z) (esf : List ℝ → List ℝ) (pr : Params ℝ) : HX V P Z → Own → List (XAct V P Z) → Prop
  | _, _, [] => True
  | h, w, a :: l => XFairAct h.mem w a ∧ ∀ h', xact env esf pr h a = .ok h' → XFair env esf pr h' (w.afterX h.mem a) l

/-- The arrays of the program at its end. -/
noncomputable def xownAtEnd (env : Env ℝ V P Z) (esf : List ℝ → List ℝ) (pr : Params ℝ) :
    HX V P Z → Own → List (XAct V P Z) → Own
  | _, w, [] => w
  | h, w, a :: l =>
    match xact env esf pr h a with
    | .ok h' => xownAtEnd env esf pr h' (w.afterX h.mem a) l
    | .error _ => w

/-- The calls of a program, with the contents that the measurements have at the time of the call (up to the first call that
raises). -/
noncomputable def xcallsOf (env : Env ℝ V P Z) (esf : List ℝ → List ℝ) (pr : Params ℝ) (bs : List (Mix ℝ V P)) :
    HX V P Z → List (XAct V P Z) → List (Cphd.Op V P Z)
  | _, [] => []
  | h, a :: l => xcallOf bs h.mem a ++
    match xact env esf pr h a with
    | .ok h' => xcallsOf env esf pr bs h' l
    | .error _ => []

end Gasur.Spec
