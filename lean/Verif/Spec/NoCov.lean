import Verif.Model.Glmb

/-!
# Specification: the same filter without covariances
-/

namespace Gasur.Spec

open Gasur.Glmb

variable {K τ F S C Z : Type*}

/-- The two records of a track agree in everything but the covariances, of which there is one list for each time step (and
one covariance for each state) in the first and anything in the second. -/
structure SameTrack (e : Entry K τ F S C) (e' : Entry K τ F S Unit) : Prop where
  label : e'.label = e.label
  weights : e'.wHist = e.wHist
  filters : e'.fStates = e.fStates
  assoc : e'.mHist = e.mHist
  states : e'.sHist = e.sHist
  birth : e'.tIdx = e.tIdx
  covs : e.cHist.map List.length = e.sHist.map List.length
  steps : e'.cHist.length = e.cHist.length

/-- The two histories agree in everything but the covariances. -/
structure SameHist (x : Ext τ S C) (x' : Ext τ S Unit) : Prop where
  label : x'.label = x.label
  assoc : x'.mHist = x.mHist
  birth : x'.tIdx = x.tIdx
  states : x'.states = x.states
  covs : x'.covs = x.covs.map fun _ => ()

/-- The two filters agree in everything but the covariances: equal hypotheses, probabilities, cardinality distribution and
reports. -/
structure SameButCovs (st : St K τ F S C) (st' : St K τ F S Unit) : Prop where
  table : List.Forall₂ SameTrack st.tab st'.tab
  hyps : st'.hyps = st.hyps
  card : st'.card = st.card
  time : st'.cntr = st.cntr
  hist : List.Forall₂ SameHist st.ext st'.ext
  states : st'.states = st.states
  labels : st'.labels = st.labels

/-- The same inner filter, used without looking at its covariance. Survival and detection probabilities of a track do not
depend on the recorded covariances. -/
structure SameInner (env : Env K τ F S C Z) (env' : Env K τ F S Unit Z) : Prop where
  num : env'.num = env.num
  sortInds : env'.sortInds = env.sortInds
  argsort : env'.argsort = env.argsort
  pred : ∀ f x, env'.predF f x = ((env.predF f x).1, (env.predF f x).2.1, ())
  cor : ∀ z f x w, env'.corF z f x w = (env.corF z f x w).map fun r => (r.1, r.2.1, (), r.2.2.2)
  psurv : ∀ e e', SameTrack e e' → env'.psurv e' = env.psurv e
  pdet : ∀ e e', SameTrack e e' → env'.pdet e' = env.pdet e

/-- A birth term without covariances: an empty list. -/
def dropCovs (b : Birth K F S C) : Birth K F S Unit := ⟨b.fStates, b.ws, b.states, [], b.prob⟩

/-- The same call of a filter that does not save covariances. -/
inductive SameCallNC : Op K τ F S C Z → Op K τ F S Unit Z → Prop
  | predict {env env' lab births} (h : SameInner env env') (hb : ∀ b ∈ births, b.covs.length = b.states.length) :
      SameCallNC (.predict env lab births) (.predict env' lab (births.map dropCovs))
  | correct {env env' meas} (h : SameInner env env') : SameCallNC (.correct env meas) (.correct env' meas)
  | cleanup {env env'} (bp bc be u c : Bool) (h : SameInner env env') :
      SameCallNC (.cleanup env bp bc be u c) (.cleanup env' bp bc be u c)
  | extract (u c : Bool) : SameCallNC (.extract u c) (.extract u c)

/-- The two calls fail with the same error, or both return and their results are related by `Q`. -/
inductive SameOutcome {ε α β : Type*} (Q : α → β → Prop) : Except ε α → Except ε β → Prop
  | error (e : ε) : SameOutcome Q (.error e) (.error e)
  | ok {a : α} {b : β} (h : Q a b) : SameOutcome Q (.ok a) (.ok b)

end Gasur.Spec
