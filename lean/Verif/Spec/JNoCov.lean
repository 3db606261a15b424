import Verif.Spec.NoCov
import Verif.Model.Jglmb

/-!
# Specification: the same joint filter without covariances
-/

namespace Gasur.Spec

open Gasur.Glmb Gasur.Jglmb

variable {K τ F S C Z : Type*}

/-- The two joint filters agree in everything but the covariances. -/
structure JSameButCovs (st : JSt K τ F S C) (st' : JSt K τ F S Unit) : Prop where
  inner : SameButCovs st.g st'.g
  old : st'.oldLen = st.oldLen

/-- The same call of a joint filter that does not save covariances. -/
inductive JSameCallNC : JOp K τ F S C Z → JOp K τ F S Unit Z → Prop
  | predict {env env' lab births} (h : SameInner env env') (hb : ∀ b ∈ births, b.covs.length = b.states.length) :
      JSameCallNC (.predict env lab births) (.predict env' lab (births.map dropCovs))
  | correct {env env' births draws meas} (h : SameInner env env') :
      JSameCallNC (.correct env births draws meas) (.correct env' (births.map dropCovs) draws meas)
  | cleanup {env env'} (bp bc be u c : Bool) (h : SameInner env env') :
      JSameCallNC (.cleanup env bp bc be u c) (.cleanup env' bp bc be u c)
  | extract (u c : Bool) : JSameCallNC (.extract u c) (.extract u c)

end Gasur.Spec
