import Verif.Model.GlmbCrash
import Verif.Model.Jglmb

/-!
# The joint GLMB filter when a call raises

Source: `/repo/src/gasur/swarm_estimator/tracker.py`, class `JointGeneralizedLabeledMultiBernoulli`, lines 3445-3691.

`predict` and `correct` of `Verif/Model/Jglmb.lean` again, assignment by assignment, as `Verif/Model/GlmbCrash.lean` does for
the parent class, whose `cleanup` and `extract_states` are inherited. The inner filter may raise at every call.

* The measurements are recorded by every `correct`: this class does not look at `save_measurements` (tracker.py:3594).
* Arrays of different length: numpy raises, except if the track table has length one (then it broadcasts and goes on with a
  cost matrix of another size): `Res.nan`, the object is not followed further.
* The order in which the inner filter is called for pairs of a track and a measurement is that of the parent class; in this
  class the loops are exchanged (tracker.py:3530-3531). It only matters for which of several exceptions is raised.
-/

namespace Gasur.JglmbCrash

open Gasur.Crash Gasur.Glmb Gasur.GlmbCrash Gasur.Jglmb

variable {K τ F S C Z : Type*}

/-- The filter object: that of the parent class, and the length of `_old_track_tab` (tracker.py:3456). -/
structure JObj (K τ F S C Z : Type*) where
  o : GObj K τ F S C Z
  oldLen : ℕ

/-- Code of the parent class. -/
def onG {α : Type*} (x : M (GObj K τ F S C Z) α) : M (JObj K τ F S C Z) α := fun s => (⟨(x s.o).1, s.oldLen⟩, (x s.o).2)

/-- How an expression of `Verif/Model/Jglmb.lean` ends: `gibbs` and arrays of different length raise. -/
def ofJ {α : Type*} : Except JErr α → Res α
  | .ok a => .ok a
  | .error (.glmb .nan) => .nan
  | .error (.glmb .malformed) => .nan
  | .error (.glmb _) => .raised
  | .error (.gibbs _) => .raised
  | .error .shape => .raised

section field
variable [Field K] [LinearOrder K]

/-- `predict` (tracker.py:3483-3511): one assignment at the end. -/
def jPredict (env : Env K τ F S C Z) (fl : Faults K F S Z) (lab : τ) (births : List (Birth K F S C)) :
    M (JObj K τ F S C Z) Unit :=
  andThen (look fun s => s.o.st) fun st =>
  andThen (eval (if fl.init then .raised else if births.any (fun b => decide (b.prob = 1)) then .nan else .ok ())) fun _ =>
  andThen (eval (eachE (entPred env fl) st.tab)) fun survTab =>
  onG (setSt fun x => { x with tab := birthTab lab st.cntr births ++ survTab })

variable [FloorRing K]

/-- The lengths of `avg_surv` and `avg_detect` (tracker.py:3582-3593, 3603-3607). -/
def lengths (n t : ℕ) : Res Unit := if n = t then .ok () else if t = 1 then .nan else .raised

/-- `correct` (tracker.py:3542-3691): the measurements are recorded first (3594); table, hypotheses, distribution
(3685-3687); then the clean-ups of the parent class and the old table (3688-3690). -/
def jCorrect (env : Env K τ F S C Z) (fl : Faults K F S Z) (jp : JParams K) (births : List (Birth K F S C))
    (draws : ℕ → ℕ → ℕ → K) (meas : List Z) : M (JObj K τ F S C Z) Unit :=
  andThen (onG (assign fun s => { s with meas := s.meas ++ [meas] })) fun _ =>
  andThen (look fun s => s) fun s =>
  andThen (eval (eachE (blockCor env fl jp.base s.o.st.tab) meas.zipIdx)) fun blocks =>
  andThen (eval (lengths (births.length + s.oldLen) s.o.st.tab.length)) fun _ =>
  andThen (eval (ofJ (traverseE (fun (hn : Hyp K × ℕ) => corOne env jp births s.oldLen s.o.st.tab.length blocks
      (sumSqrt env s.o.st.hyps) (draws hn.2) hn.1) s.o.st.hyps.zipIdx))) fun ls =>
  andThen (eval (ofE (normHyps ls.flatten))) fun hs =>
  andThen (onG (assign fun x => { x with holes := some (upTab s.o.st.tab blocks) })) fun _ =>
  andThen (onG (setSt fun x => { x with hyps := hs })) fun _ =>
  andThen (onG (setSt fun x => { x with card := calcCard x.hyps })) fun _ =>
  andThen (onG (setSt fun x => { x with hyps := cleanPred x.hyps })) fun _ =>
  andThen (look fun x => x.o.st.hyps) fun hs' =>
  andThen (eval (ofE (cleanUpd (upTab s.o.st.tab blocks) hs'))) fun th =>
  andThen (onG (assign fun x => { x with st := { x.st with tab := th.1 }, holes := none })) fun _ =>
  andThen (onG (setSt fun x => { x with hyps := th.2 })) fun _ =>
  assign fun x => { x with oldLen := x.o.st.tab.length }

variable [DecidableEq τ]

/-- A call on the filter (compare `Jglmb.JOp`), with the faults of the inner filter. -/
inductive JCOp (K τ F S C Z : Type*)
  | predict (env : Env K τ F S C Z) (fl : Faults K F S Z) (lab : τ) (births : List (Birth K F S C))
  | correct (env : Env K τ F S C Z) (fl : Faults K F S Z) (births : List (Birth K F S C)) (draws : ℕ → ℕ → ℕ → K)
      (meas : List Z)
  | cleanup (env : Env K τ F S C Z) (bp bc be update calcS : Bool)
  | extract (update calcS : Bool)

/-- One call. -/
def jCall (jp : JParams K) : JCOp K τ F S C Z → M (JObj K τ F S C Z) Unit
  | .predict env fl lab b => jPredict env fl lab b
  | .correct env fl b d z => jCorrect env fl jp b d z
  | .cleanup env bp bc be u c => onG (gCleanup env jp.base bp bc be u c)
  | .extract u c => onG (gExtract u c)

/-- Calls one after the other, where the caller catches every exception and goes on: the object at the end and which
calls ended normally. `none`: the object is not followed to the end. -/
def jPlay (jp : JParams K) : JObj K τ F S C Z → List (JCOp K τ F S C Z) → Option (JObj K τ F S C Z × List Bool)
  | s, [] => some (s, [])
  | s, o :: os =>
    match jCall jp o s with
    | (_, .nan) => none
    | (s', .raised) => (jPlay jp s' os).map fun r => (r.1, false :: r.2)
    | (s', .ok _) => (jPlay jp s' os).map fun r => (r.1, true :: r.2)

/-- A new filter. -/
def jFresh : JObj K τ F S C Z := ⟨gFresh, 0⟩

end field

end Gasur.JglmbCrash
