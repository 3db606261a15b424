import Verif.Model.GlmbNoCov
import Verif.Model.Jglmb

/-!
# Model of the joint GLMB filter with `save_covs = False`

Source: `/repo/src/gasur/swarm_estimator/tracker.py`, class `JointGeneralizedLabeledMultiBernoulli`, lines 3445-3691.

`predict` and `correct` of `Verif/Model/Jglmb.lean` do not read covariances; `cleanup` and `extract_states` are inherited from
the GLMB filter, see `Verif/Model/GlmbNoCov.lean`.
-/

namespace Gasur.Jglmb

variable {K τ F S Z : Type*} [Field K] [LinearOrder K] [FloorRing K] [DecidableEq τ]

/-- One call of the joint filter (tracker.py:3483-3691; `cleanup` and `extract_states` inherited, tracker.py:2533-2590 and
2708-2749), without covariances. -/
def stepNC (jp : JParams K) (st : JSt K τ F S Unit) : JOp K τ F S Unit Z → Except JErr (JSt K τ F S Unit)
  | .predict env lab births => predict env lab births st
  | .correct env births draws meas => correct env jp births draws meas st
  | .cleanup env bp bc be u c =>
    match Glmb.cleanupNC env jp.base bp bc be u c st.g with
    | .error e => .error (.glmb e)
    | .ok g => .ok { st with g := g }
  | .extract u c =>
    match Glmb.extractNC u c st.g with
    | .error e => .error (.glmb e)
    | .ok (g, _) => .ok { st with g := g }

/-- A sequence of calls, without covariances. -/
def runNC (jp : JParams K) (st : JSt K τ F S Unit) : List (JOp K τ F S Unit Z) → Except JErr (JSt K τ F S Unit)
  | [] => .ok st
  | o :: os =>
    match stepNC jp st o with
    | .error e => .error e
    | .ok s => runNC jp s os

end Gasur.Jglmb
