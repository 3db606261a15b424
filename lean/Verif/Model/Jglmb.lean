import Verif.Model.Glmb
import Verif.Model.Gibbs

/-!
# Model of the joint GLMB filter

Source: `/repo/src/gasur/swarm_estimator/tracker.py`, class `JointGeneralizedLabeledMultiBernoulli`, lines
3445-3691. Everything else is inherited from the GLMB filter (`Verif/Model/Glmb.lean`), whose conventions
apply here too.

* `gating_on = False`. With gating on, `correct` only constructs the exception at tracker.py:3573 without
  raising it, and goes on to read a missing attribute.
* `_old_track_tab` is only used through its length (tracker.py:3582).
* The random numbers of `gibbs` are the parameter `draws`: hypothesis, iteration, row.
* The arrays `avg_surv` and `avg_detect` must have the same length (error `shape`); numpy's broadcasting of
  arrays of length one is not modelled.
* In the code the assignment array is overwritten in place (tracker.py:3652-3665): columns below
  `num_tracks` become `-inf`, the next `num_tracks` become `-1`, the others the measurement index. `decode`
  combines these steps with the selection of non-negative entries at tracker.py:3675.
-/

namespace Gasur.Jglmb

open Gasur.Glmb

/-- Failures: those of the GLMB filter, of `gibbs`, and arrays of different length. -/
inductive JErr
  | glmb (e : GErr)
  | gibbs (e : Gibbs.GibErr)
  | shape

/-- Parameters (tracker.py:59-75): the probabilities are constants in this class (tracker.py:3587, 3592). -/
structure JParams (K : Type*) where
  base : Params K
  probSurvive : K
  probDetect : K

/-- Filter state: `oldLen` is `len(self._old_track_tab)` (tracker.py:3456). -/
structure JSt (K τ F S C : Type*) where
  g : St K τ F S C
  oldLen : ℕ

variable {K τ F S C Z : Type*} [Field K] [LinearOrder K]

/-- `predict` (tracker.py:3483-3511). `_gen_birth_tab` divides by `1 - p` (tracker.py:2046). -/
def predict (env : Env K τ F S C Z) (lab : τ) (births : List (Birth K F S C)) (st : JSt K τ F S C) :
    Except JErr (JSt K τ F S C) :=
  if births.any (fun b => decide (b.prob = 1)) then .error (.glmb .nan)
  else
    match traverseE (predictEntry env) st.g.tab with
    | .error e => .error (.glmb e)
    | .ok survTab => .ok { st with g := { st.g with tab := birthTab lab st.g.cntr births ++ survTab } }

/-- `avg_surv` (tracker.py:3582-3588). -/
def avgSurv (jp : JParams K) (births : List (Birth K F S C)) (oldLen : ℕ) : List K :=
  (births.map fun b => b.prob) ++ List.replicate oldLen jp.probSurvive

/-- `tindices` (tracker.py:3626-3627): the new tracks, then the hypothesis's own tracks. -/
def tinds (nb : ℕ) (h : Hyp K) : List ℕ := List.range nb ++ h.tracks.map fun t => nb + t

/-- `joint_cost[row, col]` restricted to the rows and columns of one hypothesis (tracker.py:3603-3609,
3634-3639): `n` death columns (diagonal), `n` missed-detection columns (diagonal), then one column per
measurement. `ts` are the track indices of the rows, `sv` is `avg_surv`. -/
def jointCost (jp : JParams K) (sv : List K) (blocks : List (List (Option (Entry K τ F S C) × K)))
    (ts : List ℕ) (i j : ℕ) : K :=
  let t := (ts[i]?).getD 0
  let s := (sv[t]?).getD 0
  if j < ts.length then (if (ts[j]?).getD 0 = t then 1 - s else 0)
  else if j < 2 * ts.length then
    (if (ts[j - ts.length]?).getD 0 = t then s * (1 - jp.probDetect) else 0)
  else
    s * jp.probDetect * ((((blocks[j - 2 * ts.length]?).getD [])[t]?).map Prod.snd).getD 0 /
      (jp.base.clutterRate * jp.base.clutterDen)

/-- `cost_m` after the non-positive entries were replaced by `eps` (tracker.py:3641-3648). -/
def costVal (jp : JParams K) (sv : List K) (blocks : List (List (Option (Entry K τ F S C) × K)))
    (ts : List ℕ) (i j : ℕ) : K :=
  if jointCost jp sv blocks ts i j ≤ 0 then jp.base.eps else jointCost jp sv blocks ts i j

/-- The table index that row `i` (track `t`) gets from column `j` (tracker.py:3652-3668, 3675): `none` if the
track is dropped. `n` is the number of rows, `cpreds` the size of the track table. -/
def decode (cpreds n t j : ℕ) : Option ℕ :=
  if j < n then none
  else if j < 2 * n then some t
  else some (cpreds * (j - 2 * n + 1) + t)

/-- The track set made from one row of `assigns` (tracker.py:3666-3675). -/
def rowTracks (cpreds : ℕ) (ts : List ℕ) {m : ℕ} (a : Fin ts.length → Fin m) : List ℕ :=
  (List.finRange ts.length).filterMap fun i => decode cpreds ts.length ts[i] (a i).val

variable [FloorRing K]

/-- The number of columns for measurements: `len(mindices)` (tracker.py:3628-3632). -/
def numCols (n m : ℕ) : ℕ := if n = 0 then 0 else m

/-- The updated hypotheses made from one hypothesis, not normalised (tracker.py:3619-3676). -/
def corOne (env : Env K τ F S C Z) (jp : JParams K) (births : List (Birth K F S C)) (oldLen : ℕ)
    (tabLen : ℕ) (blocks : List (List (Option (Entry K τ F S C) × K))) (ssW : K)
    (u : ℕ → ℕ → K) (h : Hyp K) : Except JErr (List (Hyp K)) :=
  let ts := tinds births.length h
  let clutter := jp.base.clutterRate * jp.base.clutterDen
  if ts.any (fun t => decide (tabLen ≤ t)) then .error (.glmb .index)
  else
    match share env jp.base.reqUpd h.prob ssW with
    | .error e => .error (.glmb e)
    | .ok k =>
      match Gibbs.gibbs (N := ts.length) (M := 2 * ts.length + numCols ts.length blocks.length)
          env.num.expNeg
          (fun i j => env.num.negLog (costVal jp (avgSurv jp births oldLen) blocks ts i j)) (k + 1)
          (fun s v => u s v.val) with
      | .error e => .error (.gibbs e)
      | .ok rows =>
        if clutter ≤ 0 then .error (.glmb .nan)
        else .ok (rows.map fun ac =>
          { prob := env.num.expNeg jp.base.clutterRate * clutter ^ blocks.length * h.prob *
              env.num.expNeg ac.2
            tracks := rowTracks tabLen ts ac.1 })

/-- `correct` (tracker.py:3542-3691). -/
def correct (env : Env K τ F S C Z) (jp : JParams K) (births : List (Birth K F S C))
    (draws : ℕ → ℕ → ℕ → K) (meas : List Z) (st : JSt K τ F S C) : Except JErr (JSt K τ F S C) :=
  match corBlocks env jp.base st.g.tab meas with
  | .error e => .error (.glmb e)
  | .ok blocks =>
    if births.length + st.oldLen ≠ st.g.tab.length then .error .shape
    else
      match traverseE (fun (hn : Hyp K × ℕ) => corOne env jp births st.oldLen st.g.tab.length blocks
          (sumSqrt env st.g.hyps) (draws hn.2) hn.1) st.g.hyps.zipIdx with
      | .error e => .error e
      | .ok ls =>
        match normHyps ls.flatten with
        | .error e => .error (.glmb e)
        | .ok hs =>
          match cleanUpd (upTab st.g.tab blocks) (cleanPred hs) with
          | .error e => .error (.glmb e)
          | .ok (tab', hs') =>
            .ok { g := { st.g with tab := tab', hyps := hs', card := calcCard hs }
                  oldLen := tab'.length }

variable [DecidableEq τ]

/-- A call on the filter; `cleanup` and `extract_states` are inherited. `correct` reads the birth terms that
are set at that time (tracker.py:3582). -/
inductive JOp (K τ F S C Z : Type*)
  | predict (env : Env K τ F S C Z) (lab : τ) (births : List (Birth K F S C))
  | correct (env : Env K τ F S C Z) (births : List (Birth K F S C)) (draws : ℕ → ℕ → ℕ → K)
      (meas : List Z)
  | cleanup (env : Env K τ F S C Z) (bp bc be update calcS : Bool)
  | extract (update calcS : Bool)

/-- One call. -/
def step (jp : JParams K) (st : JSt K τ F S C) : JOp K τ F S C Z → Except JErr (JSt K τ F S C)
  | .predict env lab births => predict env lab births st
  | .correct env births draws meas => correct env jp births draws meas st
  | .cleanup env bp bc be u c =>
    match Glmb.cleanup env jp.base bp bc be u c st.g with
    | .error e => .error (.glmb e)
    | .ok g => .ok { st with g := g }
  | .extract u c =>
    match Glmb.extract u c st.g with
    | .error e => .error (.glmb e)
    | .ok (g, _) => .ok { st with g := g }

/-- A sequence of calls. -/
def run (jp : JParams K) (st : JSt K τ F S C) : List (JOp K τ F S C Z) → Except JErr (JSt K τ F S C)
  | [] => .ok st
  | o :: os =>
    match step jp st o with
    | .error e => .error e
    | .ok s => run jp s os

/-- A new filter (tracker.py:3455-3457). -/
def init : JSt K τ F S C := { g := Glmb.init, oldLen := 0 }

end Gasur.Jglmb
