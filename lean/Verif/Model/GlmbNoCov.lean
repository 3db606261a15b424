import Verif.Model.Glmb

/-!
# Model of the GLMB filter with `save_covs = False`

Source: `/repo/src/gasur/swarm_estimator/tracker.py`, class `GeneralizedLabeledMultiBernoulli`, lines 1776-2749.

`Verif/Model/Glmb.lean` models the filter with `save_covs = True`. The default is `False` (tracker.py:61). Then the list of
covariances of a birth term is empty (tracker.py:2030-2031), predict and correct store `None` instead of covariances
(tracker.py:2081-2082 and 2261-2262) and `_extract_helper` does not look at the covariances (tracker.py:2490). The type of
`None` is `Unit` here; `predict`, `correct`, `_prune` and `_cap` do not read covariances, so their model is the one in
`Verif/Model/Glmb.lean` with `C = Unit`, `covs = []` for birth terms, and inner filters with the result `()` for the
covariance. Only what calls `_extract_helper` is different.
-/

namespace Gasur.Glmb

variable {K τ F S Z : Type*}

/-- `_extract_helper` (tracker.py:2482-2493) for one time step without covariance: the state with the largest weight. -/
def bestOnly [LinearOrder K] (x : List K × List S) : Except GErr S :=
  match argmaxE x.1 with
  | .error e => .error e
  | .ok i => getE x.2 i

/-- The new `_ExtractHistHelper` of a track (tracker.py:2501-2507 and 2482-2493) without covariances; the list `covs` stays a
list of `None`. The `zip` of tracker.py:2485-2487 runs over weights, states and covariances of all time steps. -/
def mkExtNC [LinearOrder K] (e : Entry K τ F S Unit) : Except GErr (Ext τ S Unit) :=
  if e.wHist.length = e.sHist.length ∧ e.sHist.length = e.cHist.length then
    match traverseE bestOnly (e.wHist.zip e.sHist) with
    | .error e => .error e
    | .ok l => .ok { label := e.label, mHist := e.mHist, tIdx := e.tIdx, states := l, covs := l.map fun _ => () }
  else .error .malformed

variable [DecidableEq τ]

/-- `_update_extract_hist` (tracker.py:2495-2531) without covariances. -/
def updateExtNC [LinearOrder K] (st : St K τ F S Unit) (idx : ℕ) : Except GErr (List (Ext τ S Unit)) :=
  match getE st.hyps idx with
  | .error e => .error e
  | .ok h =>
    match traverseE (getE st.tab) h.tracks with
    | .error e => .error e
    | .ok ents =>
      match traverseE mkExtNC ents with
      | .error e => .error e
      | .ok news =>
        match allUsed st.cntr news [] with
        | .error e => .error e
        | .ok used =>
          match keepOld st.cntr (news.map fun e => e.label) used st.ext with
          | .error e => .error e
          | .ok old => .ok (old ++ news)

variable [Field K] [LinearOrder K]

/-- `extract_states` (tracker.py:2533-2590) without covariances. -/
def extractNC (update calcS : Bool) (st : St K τ F S Unit) : Except GErr (St K τ F S Unit × Option ℕ) :=
  match argmaxE st.card with
  | .error e => .error e
  | .ok card =>
    let blank : St K τ F S Unit := { st with
      states := List.replicate st.cntr [], labels := List.replicate st.cntr []
      covs := List.replicate st.cntr [] }
    if st.hyps = [] then .ok (blank, none)
    else
      match argmaxE (maskedWeights card st.hyps) with
      | .error e => .error e
      | .ok idx =>
        match (if update then updateExtNC blank idx else .ok blank.ext) with
        | .error e => .error e
        | .ok ext =>
          if calcS then
            match report st.cntr ext (blank.states, blank.labels, blank.covs) with
            | .error e => .error e
            | .ok r => .ok ({ blank with ext := ext, states := r.1, labels := r.2.1, covs := r.2.2 }, some idx)
          else .ok ({ blank with ext := ext }, some idx)

/-- `cleanup` (tracker.py:2708-2749) without covariances. -/
def cleanupNC (env : Env K τ F S Unit Z) (pr : Params K) (bp bc be update calcS : Bool)
    (st : St K τ F S Unit) : Except GErr (St K τ F S Unit) :=
  match (if bp then prune pr { st with cntr := st.cntr + 1 } else .ok { st with cntr := st.cntr + 1 }) with
  | .error e => .error e
  | .ok s1 =>
    match (if bc then cap env pr s1 else .ok s1) with
    | .error e => .error e
    | .ok s2 =>
      if be then
        match extractNC update calcS s2 with
        | .error e => .error e
        | .ok (s3, _) => .ok s3
      else .ok s2

variable [FloorRing K]

/-- One call, without covariances. -/
def stepNC (pr : Params K) (st : St K τ F S Unit) : Op K τ F S Unit Z → Except GErr (St K τ F S Unit)
  | .predict env lab births => predict env pr lab births st
  | .correct env meas => correct env pr meas st
  | .cleanup env bp bc be u c => cleanupNC env pr bp bc be u c st
  | .extract u c =>
    match extractNC u c st with
    | .error e => .error e
    | .ok (s, _) => .ok s

/-- A sequence of calls, without covariances. -/
def runNC (pr : Params K) (st : St K τ F S Unit) : List (Op K τ F S Unit Z) → Except GErr (St K τ F S Unit)
  | [] => .ok st
  | o :: os =>
    match stepNC pr st o with
    | .error e => .error e
    | .ok s => runNC pr s os

end Gasur.Glmb
