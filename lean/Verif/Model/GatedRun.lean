import Verif.Model.Gating
import Verif.Model.Cphd

/-!
# Whole runs of the PHD and CPHD filters with gating

Source: `/repo/src/gasur/swarm_estimator/tracker.py`: `correct` 746-765 (PHD) and 1421-1433 (CPHD), which gate the
measurements with the current mixture, record what is left, and update with it; `_gate_meas` 221-272.

A filter is a `Machine`: its update for the measurements that are used, its other calls, and the components of its mixture.
The attributes `gating_on` and `inv_chi2_gate` may be assigned at any time.
-/

namespace Gasur.Gated

open Gasur.Gating

/-- A filter without gating; `comps` is `zip(means, covs)` (tracker.py:253). -/
structure Machine (σ F O Z Er V P : Type*) where
  correct : F → List Z → σ → Except Er σ
  other : O → σ → Except Er σ
  comps : σ → List (V × P)

/-- The filter, `_meas_tab`, `gating_on` and `inv_chi2_gate`. -/
structure GState (σ Z K : Type*) where
  s : σ
  meas : List (List Z)
  on : Bool
  gate : K

/-- The calls. The distance of a measurement to a component depends on the inner filter and the arguments of the call. -/
inductive Op (F O Z V P K : Type*)
  | correct (f : F) (d : V → P → Z → K) (meas : List Z)
  | other (o : O)
  | setGate (on : Bool) (gate : K)

variable {σ F O Z Er V P K : Type*} [Field K] [LinearOrder K]

/-- The measurements that are used (tracker.py:749-752, 1424-1427). -/
def used (M : Machine σ F O Z Er V P) (st : GState σ Z K) (d : V → P → Z → K) (meas : List Z) : List Z :=
  if st.on then gateMeas st.gate ((M.comps st.s).map fun mp => d mp.1 mp.2) meas else meas

/-- One call. -/
def step (M : Machine σ F O Z Er V P) (st : GState σ Z K) : Op F O Z V P K → Except Er (GState σ Z K)
  | .correct f d meas =>
    match M.correct f (used M st d meas) st.s with
    | .error e => .error e
    | .ok s' => .ok { st with s := s', meas := st.meas ++ [used M st d meas] }
  | .other o =>
    match M.other o st.s with
    | .error e => .error e
    | .ok s' => .ok { st with s := s' }
  | .setGate on gate => .ok { st with on := on, gate := gate }

/-- A sequence of calls. -/
def run (M : Machine σ F O Z Er V P) (st : GState σ Z K) : List (Op F O Z V P K) → Except Er (GState σ Z K)
  | [] => .ok st
  | o :: os =>
    match step M st o with
    | .error e => .error e
    | .ok st' => run M st' os

/-! ### The two filters -/

section phd
open Gasur.Phd
variable [AddCommGroup V] [Module K V] [AddCommGroup P] [Module K P] [FloorRing K]

/-- The calls of the PHD filter other than `correct`. -/
inductive PhdOther (K V P Z : Type*)
  | predict (f : Filt K V P Z) (births : List (Mix K V P))
  | cleanup (prune merge cap extract : Bool)
  | extract

/-- As a call of `Model/Phd`. -/
def PhdOther.op : PhdOther K V P Z → Phd.Op K V P Z
  | .predict f b => .predict f b
  | .cleanup a b c d => .cleanup a b c d
  | .extract => .extract

/-- The PHD filter. -/
def phd (env : Env K V P Z) (pr : Params K) : Machine (PState K V P) (Filt K V P Z) (PhdOther K V P Z) Z PErr V P where
  correct f zs s := Phd.step env pr s (.correct f zs)
  other o s := Phd.step env pr s o.op
  comps s := s.mix.ms.zip s.mix.ps

/-- A new PHD filter: the constructor of Model/Gating (tracker.py:575-587). -/
def phdNew (o : Gating.Obj K) : GState (PState K V P) Z K := ⟨Phd.init, [], o.gatingOn, o.invChi2Gate⟩

end phd

section cphd
open Gasur.Phd Gasur.Cphd
variable [AddCommGroup V] [Module ℝ V] [AddCommGroup P] [Module ℝ P]

/-- The calls of the CPHD filter other than `correct`. -/
inductive CphdOther (V P Z : Type*)
  | predict (f : Filt ℝ V P Z) (births : List (Mix ℝ V P))
  | cleanup (prune merge cap extract : Bool)
  | extract
  | setMax (n : ℕ)

/-- As a call of `Model/Cphd`. -/
def CphdOther.op : CphdOther V P Z → Cphd.Op V P Z
  | .predict f b => .predict f b
  | .cleanup a b c d => .cleanup a b c d
  | .extract => .extract
  | .setMax n => .setMax n

/-- The CPHD filter. -/
noncomputable def cphd (env : Env ℝ V P Z) (esf : List ℝ → List ℝ) (pr : Params ℝ) :
    Machine (CState V P) (Filt ℝ V P Z) (CphdOther V P Z) Z CErr V P where
  correct f zs s := Cphd.step env esf pr s (.correct f zs)
  other o s := Cphd.step env esf pr s o.op
  comps s := s.mix.ms.zip s.mix.ps

/-- A new CPHD filter. -/
def cphdNew (o : Gating.Obj ℝ) (N : ℕ) : GState (CState V P) Z ℝ := ⟨Cphd.init N, [], o.gatingOn, o.invChi2Gate⟩

end cphd

end Gasur.Gated
