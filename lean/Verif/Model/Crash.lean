import Verif.Model.Phd

/-!
# The PHD filter when a call raises

Source: `/repo/src/gasur/swarm_estimator/tracker.py`, class `ProbabilityHypothesisDensity`, lines 651-929.

`Verif/Model/Phd.lean` stops at the first exception. Here the methods are modelled again, one assignment after the other,
so that the attributes of the filter object are known also after an exception that the caller catches.

* `M σ α`: a piece of code that changes the object `σ` and ends normally with a value, with an exception, or with a
  division by zero (which raises or gives NaN or infinities, depending on the number types; the object is not followed
  further then).
* The inner filter (gncpy, external) may raise at every call: `none`. So may `la.inv` in `_merge` (a singular covariance).
  It changes neither the mean nor the covariance it is given in place.
* Measurement gating (`Verif/Model/Gating.lean`) is off; `save_covs = True`.
-/

namespace Gasur.Crash

open Gasur.Phd

/-- How a piece of code ends: normally, with an exception, with a division by zero. -/
inductive Res (α : Type*)
  | ok (a : α)
  | raised
  | nan

/-- A piece of code that works on an object of type `σ`. -/
def M (σ α : Type*) := σ → σ × Res α

section code
variable {σ α β : Type*}

/-- No statement. -/
def done (a : α) : M σ α := fun s => (s, .ok a)

/-- `raise`. -/
def fail : M σ α := fun s => (s, .raised)

/-- One statement after the other. -/
def andThen (x : M σ α) (f : α → M σ β) : M σ β := fun s =>
  match x s with
  | (s', .ok a) => f a s'
  | (s', .raised) => (s', .raised)
  | (s', .nan) => (s', .nan)

/-- Reading attributes. -/
def look (g : σ → α) : M σ α := fun s => (s, .ok (g s))

/-- An assignment. -/
def assign (g : σ → σ) : M σ Unit := fun s => (g s, .ok ())

/-- Evaluating an expression that changes nothing. -/
def eval (r : Res α) : M σ α := fun s => (s, r)

/-- `if b: x`. -/
def when (b : Bool) (x : M σ Unit) : M σ Unit := if b then x else done ()

end code

variable {K V P Z : Type*}

/-- The filter object: `_gaussMix`, `_states` with `_covs`, `_meas_tab` (tracker.py:585, 64-66). -/
structure Obj (K V P Z : Type*) where
  mix : Mix K V P
  states : List (List V × List P)
  meas : List (List Z)

/-- The inner filter, which may raise. -/
structure PFilt (K V P Z : Type*) where
  fpred : V → P → Option (V × P)
  fcor : Z → V → P → Option (V × K × P)

/-- Changing the mixture. -/
def setMix (g : Mix K V P → Mix K V P) : M (Obj K V P Z) Unit := assign fun s => { s with mix := g s.mix }

section field
variable [Field K] [LinearOrder K]

/-- The loop of `_predict_prob_density` (tracker.py:705-709). -/
def predAll (f : PFilt K V P Z) : List (V × P) → Res (List (V × P))
  | [] => .ok []
  | mp :: l =>
    match f.fpred mp.1 mp.2 with
    | none => .raised
    | some x =>
      match predAll f l with
      | .ok r => .ok (x :: r)
      | .raised => .raised
      | .nan => .nan

/-- The loop over the birth terms (tracker.py:675-678), list by list. -/
def addBirths : List (Mix K V P) → M (Obj K V P Z) Unit
  | [] => done ()
  | b :: bs =>
    andThen (setMix fun m => { m with ws := m.ws ++ b.ws }) fun _ =>
    andThen (setMix fun m => { m with ms := m.ms ++ b.ms }) fun _ =>
    andThen (setMix fun m => { m with ps := m.ps ++ b.ps }) fun _ => addBirths bs

/-- `predict` (tracker.py:651-678). -/
def cPredict (pr : Params K) (f : PFilt K V P Z) (births : List (Mix K V P)) : M (Obj K V P Z) Unit :=
  andThen (look fun s => s.mix) fun m =>
  andThen (eval (predAll f (m.ms.zip m.ps))) fun l =>
  andThen (setMix fun _ => ⟨m.ws.map fun x => pr.probSurvive * x, l.map Prod.fst, l.map Prod.snd⟩) fun _ =>
  addBirths births

/-- Inner loop of `_correct_prob_density` for one measurement (tracker.py:791-800). -/
def corJ (f : PFilt K V P Z) (m : Mix K V P) (detW : List K) (z : Z) : List ℕ → Res (List V × List P × List K)
  | [] => .ok ([], [], [])
  | j :: js =>
    match m.ps[j]?, m.ms[j]?, detW[j]? with
    | some p, some s, some dw =>
      match f.fcor z s p with
      | none => .raised
      | some x =>
        match corJ f m detW z js with
        | .ok (vs, cs, ws) => .ok (x.1 :: vs, x.2.2 :: cs, (x.2.1 * dw) :: ws)
        | .raised => .raised
        | .nan => .nan
    | _, _, _ => .raised

/-- `_correct_prob_density` (tracker.py:767-804). -/
def corAll (pr : Params K) (f : PFilt K V P Z) (m : Mix K V P) : List Z → Res (Mix K V P)
  | [] => .ok ⟨[], [], []⟩
  | z :: zs =>
    match corJ f m (m.ws.map fun x => pr.probDetection * x) z (List.range m.ms.length) with
    | .raised => .raised
    | .nan => .nan
    | .ok (vs, cs, ws) =>
      match normalise pr ws with
      | .error _ => .nan
      | .ok ws' =>
        match corAll pr f m zs with
        | .ok g => .ok { ws := ws' ++ g.ws, ms := vs ++ g.ms, ps := cs ++ g.ps }
        | .raised => .raised
        | .nan => .nan

/-- `correct` (tracker.py:713-765): the measurements are recorded first (752), the three lists are assigned at the end
(758-765). -/
def cCorrect (pr : Params K) (f : PFilt K V P Z) (zs : List Z) : M (Obj K V P Z) Unit :=
  andThen (assign fun s => { s with meas := s.meas ++ [zs] }) fun _ =>
  andThen (look fun s => s.mix) fun m =>
  andThen (eval (corAll pr f m zs)) fun g =>
  andThen (setMix fun x => { x with ws := g.ws ++ m.ws.map fun x => pr.probMiss * x }) fun _ =>
  andThen (setMix fun x => { x with ms := g.ms ++ m.ms }) fun _ =>
  setMix fun x => { x with ps := g.ps ++ m.ps }

/-- `del l[i]` (tracker.py:816-818, 867-869) for one of the three lists. -/
def delOne {E : Type*} (get : Mix K V P → List E) (put : Mix K V P → List E → Mix K V P) (i : ℕ) :
    M (Obj K V P Z) Unit :=
  andThen (look fun s => get s.mix) fun l =>
  if i < l.length then setMix fun m => put m (l.eraseIdx i) else fail

/-- Deleting several components (tracker.py:815-818, 866-869). -/
def cDel : List ℕ → M (Obj K V P Z) Unit
  | [] => done ()
  | i :: is =>
    andThen (delOne (fun m => m.ms) (fun m l => { m with ms := l }) i) fun _ =>
    andThen (delOne (fun m => m.ws) (fun m l => { m with ws := l }) i) fun _ =>
    andThen (delOne (fun m => m.ps) (fun m l => { m with ps := l }) i) fun _ => cDel is

/-- `_prune` (tracker.py:806-818). -/
def cPrune (pr : Params K) : M (Obj K V P Z) Unit :=
  andThen (look fun s => s.mix.ws) fun ws =>
  cDel (sortDesc (whereIdx (fun w => decide (w < pr.pruneThreshold)) ws))

/-- `_cap` (tracker.py:856-870). -/
def cCap (argsort : List K → List ℕ) (pr : Params K) : M (Obj K V P Z) Unit :=
  andThen (look fun s => s.mix.ws) fun ws =>
  if pr.maxGauss < ws.length then
    andThen (cDel (sortDesc (dropEnd (argsort ws) pr.maxGauss))) fun _ =>
    andThen (look fun s => s.mix.ws) fun ws' =>
    if ws' ≠ [] ∧ ws'.sum = 0 then eval .nan
    else setMix fun m => { m with ws := ws'.map fun x => x * (ws.sum / ws'.sum) }
  else done ()

/-- `extract_states` (tracker.py:872-890): the two lists are appended at the end. -/
def cExtract [FloorRing K] (pr : Params K) : M (Obj K V P Z) Unit :=
  andThen (look fun s => s.mix) fun m =>
  match extract pr m with
  | .error _ => fail
  | .ok x => assign fun s => { s with states := s.states ++ [x] }

variable [AddCommGroup V] [Module K V] [AddCommGroup P] [Module K P]

/-- The `while` loop of `_merge` (tracker.py:827-850): the weights of the filter are overwritten in place (849-850), the
new lists are local. `inv p` is `none` if the covariance `p` has no inverse. -/
def cMergeLoop (inv : P → Option (V → K)) (thr : K) : ℕ → List ℕ → Mix K V P → M (Obj K V P Z) (Mix K V P)
  | _, [], acc => done acc
  | 0, _ :: _, _ => eval .nan
  | fuel + 1, i :: is, acc =>
    andThen (look fun s => s.mix) fun m =>
    match argmax m.ws with
    | none => fail
    | some jj =>
      match m.ps[jj]?, m.ms[jj]? with
      | some p, some mj =>
        match inv p with
        | none => fail
        | some q =>
          match compInds (fun _ d => q d) thr m.ms p mj (i :: is) with
          | none => fail
          | some comp =>
            match wtot m.ws comp, wsum m.ws m.ms comp, wsum m.ws m.ps comp with
            | some w, some sm, some sp =>
              if w = 0 then eval .nan
              else
                andThen (setMix fun x => { x with ws := mark x.ws comp }) fun _ =>
                cMergeLoop inv thr fuel ((i :: is).filter fun x => decide (x ∉ comp))
                  { ws := acc.ws ++ [w], ms := acc.ms ++ [w⁻¹ • sm], ps := acc.ps ++ [w⁻¹ • sp] }
            | _, _, _ => fail
      | _, _ => fail

/-- `_merge` (tracker.py:820-854). -/
def cMerge (inv : P → Option (V → K)) (pr : Params K) : M (Obj K V P Z) Unit :=
  andThen (look fun s => s.mix.ms.length) fun n =>
  andThen (cMergeLoop inv pr.mergeThreshold n (List.range n) ⟨[], [], []⟩) fun g =>
  setMix fun _ => g

/-- `cleanup` (tracker.py:892-929). -/
def cCleanup [FloorRing K] (inv : P → Option (V → K)) (argsort : List K → List ℕ) (pr : Params K)
    (bp bm bc be : Bool) : M (Obj K V P Z) Unit :=
  andThen (when bp (cPrune pr)) fun _ =>
  andThen (when bm (cMerge inv pr)) fun _ =>
  andThen (when bc (cCap argsort pr)) fun _ =>
  when be (cExtract pr)

/-- A call on the filter object (compare `Phd.Op`). -/
inductive COp (K V P Z : Type*)
  | predict (f : PFilt K V P Z) (births : List (Mix K V P))
  | correct (f : PFilt K V P Z) (meas : List Z)
  | cleanup (prune merge cap extract : Bool)
  | extract

/-- One call. -/
def call [FloorRing K] (inv : P → Option (V → K)) (argsort : List K → List ℕ) (pr : Params K) :
    COp K V P Z → M (Obj K V P Z) Unit
  | .predict f b => cPredict pr f b
  | .correct f z => cCorrect pr f z
  | .cleanup bp bm bc be => cCleanup inv argsort pr bp bm bc be
  | .extract => cExtract pr

/-- Calls one after the other, where the caller catches every exception and goes on: the object at the end and which
calls ended normally. `none`: there was a division by zero. -/
def play [FloorRing K] (inv : P → Option (V → K)) (argsort : List K → List ℕ) (pr : Params K) :
    Obj K V P Z → List (COp K V P Z) → Option (Obj K V P Z × List Bool)
  | s, [] => some (s, [])
  | s, o :: os =>
    match call inv argsort pr o s with
    | (_, .nan) => none
    | (s', .raised) => (play inv argsort pr s' os).map fun r => (r.1, false :: r.2)
    | (s', .ok _) => (play inv argsort pr s' os).map fun r => (r.1, true :: r.2)

/-- A new filter. -/
def fresh : Obj K V P Z := { mix := ⟨[], [], []⟩, states := [], meas := [] }

end field

end Gasur.Crash
