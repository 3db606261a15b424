import Verif.Model.Crash
import Verif.Model.Glmb

/-!
# The GLMB filter when a call raises

Source: `/repo/src/gasur/swarm_estimator/tracker.py`, class `GeneralizedLabeledMultiBernoulli`, lines 2210-2749.

`Verif/Model/Glmb.lean` stops at the first exception. Here `predict`, `correct`, `cleanup` and `extract_states` are
modelled again as sequences of assignments to the filter object (`Verif/Model/Crash.lean`), so that its attributes are
known also after an exception that the caller catches. The functions that only compute (`_gen_birth_tab`,
`_gen_surv_hyps`, …) are those of `Verif/Model/Glmb.lean`.

* The inner filter (external) may raise at every call: `Faults`.
* A division by zero, NaN, and lists that should be parallel and are not (unreachable) are `Res.nan`: the object is not
  followed further.
* A hypothesis object that is overwritten in place is the value in the list (sharing: `Verif/Model/Snapshot.lean`).
-/

namespace Gasur.GlmbCrash

open Gasur.Crash Gasur.Glmb

variable {K τ F S C Z : Type*}

/-- When the inner filter raises: while the birth terms are set up (tracker.py:2025-2040), in `predict`
(2075-2084), in `correct` with an exception other than the three that are caught (2283-2286). -/
structure Faults (K F S Z : Type*) where
  init : Bool
  pred : F → S → Bool
  cor : Z → F → S → K → Bool

/-- The filter object: the attributes of `Glmb.St`, `_meas_tab`, and the table with holes that `correct` assigns before it
cleans up (tracker.py:2477; `none`: `_track_tab` is `st.tab`). -/
structure GObj (K τ F S C Z : Type*) where
  st : St K τ F S C
  meas : List (List Z)
  holes : Option (List (Option (Entry K τ F S C)))

/-- How an expression of `Verif/Model/Glmb.lean` ends. -/
def ofE {α : Type*} : Except GErr α → Res α
  | .ok a => .ok a
  | .error .nan => .nan
  | .error .malformed => .nan
  | .error _ => .raised

/-- An assignment to an attribute. -/
def setSt (g : St K τ F S C → St K τ F S C) : M (GObj K τ F S C Z) Unit := assign fun s => { s with st := g s.st }

/-- Running code over a list, left to right. -/
def eachE {α β : Type*} (f : α → Res β) : List α → Res (List β)
  | [] => .ok []
  | a :: l =>
    match f a with
    | .raised => .raised
    | .nan => .nan
    | .ok b =>
      match eachE f l with
      | .ok r => .ok (b :: r)
      | .raised => .raised
      | .nan => .nan

section field
variable [Field K] [LinearOrder K]

/-- `_predict_track_tab_entry` (tracker.py:2086-2100): the inner filter is called for every component. -/
def entPred (env : Env K τ F S C Z) (fl : Faults K F S Z) (e : Entry K τ F S C) : Res (Entry K τ F S C) :=
  if (e.fStates.zip (e.sHist.getLast?.getD [])).any (fun x => fl.pred x.1 x.2) then .raised
  else ofE (predictEntry env e)

/-- Whether the loop over the components reaches an exception that is not caught (tracker.py:2273-2286): it stops at
the first component that is depleted. -/
def faultAt (env : Env K τ F S C Z) (fl : Faults K F S Z) (z : Z) : List (F × S × K) → Bool
  | [] => false
  | x :: l =>
    if fl.cor z x.1 x.2.1 x.2.2 then true
    else if (env.corF z x.1 x.2.1 x.2.2).isNone then false
    else faultAt env fl z l

/-- `_correct_track_tab_entry` (tracker.py:2267-2297). -/
def entCor (env : Env K τ F S C Z) (fl : Faults K F S Z) (pr : Params K) (z : Z) (e : Entry K τ F S C) :
    Res (Option (Entry K τ F S C) × K) :=
  if faultAt env fl z (e.fStates.zip ((e.sHist.getLast?.getD []).zip (e.wHist.getLast?.getD []))) then .raised
  else ofE (correctEntry env pr z e)

/-- One block of `_gen_cor_tab` (tracker.py:2310-2318). -/
def blockCor (env : Env K τ F S C Z) (fl : Faults K F S Z) (pr : Params K) (tab : List (Entry K τ F S C)) (ze : Z × ℕ) :
    Res (List (Option (Entry K τ F S C) × K)) :=
  match eachE (entCor env fl pr ze.1) tab with
  | .ok l => .ok (l.map fun ec => (ec.1.map (addMeas (some ze.2)), ec.2))
  | .raised => .raised
  | .nan => .nan

variable [FloorRing K]

/-- `predict` (tracker.py:2210-2252). -/
def gPredict (env : Env K τ F S C Z) (fl : Faults K F S Z) (pr : Params K) (lab : τ) (births : List (Birth K F S C)) :
    M (GObj K τ F S C Z) Unit :=
  andThen (look fun s => s.st) fun st =>
  andThen (eval (if fl.init then .raised else ofE (traverseE (logOdds env) (births.map fun b => b.prob)))) fun costs =>
  andThen (eval (ofE (kList env pr costs pr.reqBirths))) fun paths =>
  andThen (eval (ofE (birthHyps env births paths))) fun bh =>
  andThen (eval (eachE (entPred env fl) st.tab)) fun survTab =>
  andThen (eval (ofE (survHyps env pr st.tab st.hyps))) fun sh =>
  andThen (setSt fun x => { x with card := calcCard sh }) fun _ =>
  andThen (setSt fun x => { x with tab := birthTab lab st.cntr births ++ survTab }) fun _ =>
  andThen (eval (ofE (setPredHyps births.length bh sh))) fun hs =>
  andThen (setSt fun x => { x with hyps := hs }) fun _ =>
  setSt fun x => { x with hyps := cleanPred x.hyps }

/-- `correct` (tracker.py:2426-2480); `save` is `save_measurements`. -/
def gCorrect (env : Env K τ F S C Z) (fl : Faults K F S Z) (pr : Params K) (save : Bool) (meas : List Z) :
    M (GObj K τ F S C Z) Unit :=
  andThen (when save (assign fun s => { s with meas := s.meas ++ [meas] })) fun _ =>
  andThen (look fun s => s.st) fun st =>
  andThen (eval (eachE (blockCor env fl pr st.tab) meas.zipIdx)) fun blocks =>
  andThen (eval (ofE (corHyps env pr st.tab blocks st.hyps))) fun hs =>
  andThen (assign fun s => { s with holes := some (upTab st.tab blocks) }) fun _ =>
  andThen (setSt fun x => { x with hyps := hs }) fun _ =>
  andThen (setSt fun x => { x with card := calcCard x.hyps }) fun _ =>
  andThen (eval (ofE (cleanUpd (upTab st.tab blocks) hs))) fun th =>
  andThen (assign fun s => { s with st := { s.st with tab := th.1 }, holes := none }) fun _ =>
  setSt fun x => { x with hyps := th.2 }

/-- `_prune` (tracker.py:2648-2669): hypotheses, then their weights, then the cardinality distribution. -/
def gPrune (pr : Params K) : M (GObj K τ F S C Z) Unit :=
  andThen (setSt fun x => { x with hyps := x.hyps.filter fun h => decide (pr.pruneThreshold < h.prob) }) fun _ =>
  andThen (look fun s => s.st.hyps) fun hyps =>
  andThen (eval (ofE (normHyps hyps))) fun hs =>
  andThen (setSt fun x => { x with hyps := hs }) fun _ =>
  setSt fun x => { x with card := calcCard x.hyps }

/-- `_cap` (tracker.py:2671-2706). -/
def gCap (env : Env K τ F S C Z) (pr : Params K) : M (GObj K τ F S C Z) Unit :=
  andThen (look fun s => s.st.hyps) fun hyps =>
  if pr.maxHyps < hyps.length then
    andThen (eval (ofE (traverseE (getE hyps) (((env.argsort (hyps.map fun h => h.prob)).reverse).take pr.maxHyps))))
      fun kept =>
    andThen (setSt fun x => { x with hyps := kept }) fun _ =>
    andThen (eval (ofE (normHyps kept))) fun hs =>
    andThen (setSt fun x => { x with hyps := hs }) fun _ =>
    setSt fun x => { x with card := calcCard x.hyps }
  else done ()

/-- Reporting one history (tracker.py:2572-2583): for every time the three lists are written one after the other; the
first access raises if the time is out of range. -/
def gReportOne (cntr : ℕ) (label : τ × ℕ) (tIdx : ℕ) : List ((S × C) × ℕ) → M (GObj K τ F S C Z) Unit
  | [] => done ()
  | ((x, c), k) :: l =>
    if tIdx + k < cntr then
      andThen (setSt fun st => { st with states := appendAt st.states (tIdx + k) x }) fun _ =>
      andThen (setSt fun st => { st with labels := appendAt st.labels (tIdx + k) label }) fun _ =>
      andThen (setSt fun st => { st with covs := appendAt st.covs (tIdx + k) c }) fun _ =>
      gReportOne cntr label tIdx l
    else fail

/-- Reporting all histories (tracker.py:2570-2583). -/
def gReport (cntr : ℕ) : List (Ext τ S C) → M (GObj K τ F S C Z) Unit
  | [] => done ()
  | e :: es => andThen (gReportOne cntr e.label e.tIdx (e.states.zip e.covs).zipIdx) fun _ => gReport cntr es

variable [DecidableEq τ]

/-- `extract_states` (tracker.py:2533-2590): the results are emptied first (2560-2562), then the label histories are
updated, then the results are filled in. -/
def gExtract (update calcS : Bool) : M (GObj K τ F S C Z) Unit :=
  andThen (look fun s => s.st) fun st =>
  andThen (eval (ofE (argmaxE st.card))) fun card =>
  andThen (setSt fun x => { x with states := List.replicate x.cntr [] }) fun _ =>
  andThen (setSt fun x => { x with labels := List.replicate x.cntr [] }) fun _ =>
  andThen (setSt fun x => { x with covs := List.replicate x.cntr [] }) fun _ =>
  if st.hyps = [] then done ()
  else
    andThen (eval (ofE (argmaxE (maskedWeights card st.hyps)))) fun idx =>
    andThen (when update (andThen (eval (ofE (updateExt st idx))) fun ext =>
      setSt fun x => { x with ext := ext })) fun _ =>
    andThen (look fun s => s.st.ext) fun ext =>
    when calcS (gReport st.cntr ext)

/-- `cleanup` (tracker.py:2708-2749): the counter is incremented first (2738). -/
def gCleanup (env : Env K τ F S C Z) (pr : Params K) (bp bc be update calcS : Bool) : M (GObj K τ F S C Z) Unit :=
  andThen (setSt fun x => { x with cntr := x.cntr + 1 }) fun _ =>
  andThen (when bp (gPrune pr)) fun _ =>
  andThen (when bc (gCap env pr)) fun _ =>
  when be (gExtract update calcS)

/-- A call on the filter (compare `Glmb.Op`), with the faults of the inner filter. -/
inductive GOp (K τ F S C Z : Type*)
  | predict (env : Env K τ F S C Z) (fl : Faults K F S Z) (lab : τ) (births : List (Birth K F S C))
  | correct (env : Env K τ F S C Z) (fl : Faults K F S Z) (meas : List Z)
  | cleanup (env : Env K τ F S C Z) (bp bc be update calcS : Bool)
  | extract (update calcS : Bool)

/-- One call. -/
def gCall (pr : Params K) (save : Bool) : GOp K τ F S C Z → M (GObj K τ F S C Z) Unit
  | .predict env fl lab b => gPredict env fl pr lab b
  | .correct env fl z => gCorrect env fl pr save z
  | .cleanup env bp bc be u c => gCleanup env pr bp bc be u c
  | .extract u c => gExtract u c

/-- Calls one after the other, where the caller catches every exception and goes on: the object at the end and which
calls ended normally. `none`: there was a division by zero. -/
def gPlay (pr : Params K) (save : Bool) :
    GObj K τ F S C Z → List (GOp K τ F S C Z) → Option (GObj K τ F S C Z × List Bool)
  | s, [] => some (s, [])
  | s, o :: os =>
    match gCall pr save o s with
    | (_, .nan) => none
    | (s', .raised) => (gPlay pr save s' os).map fun r => (r.1, false :: r.2)
    | (s', .ok _) => (gPlay pr save s' os).map fun r => (r.1, true :: r.2)

/-- A new filter. -/
def gFresh : GObj K τ F S C Z := { st := init, meas := [], holes := none }

end field

end Gasur.GlmbCrash
