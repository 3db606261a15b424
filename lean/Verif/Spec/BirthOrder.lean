import Verif.Model.Glmb

/-!
# Specification: the same birth terms in another order

A track is labelled by the time of its birth and the number of its birth term, so when the birth terms of time `t` are
given in another order, `π t`, the label `(t, i)` becomes `(t, π t i)`.
-/

namespace Gasur.Spec

open Gasur.Glmb

variable {K τ F S C Z : Type*}

/-- The label of a track if the birth terms of each time are numbered differently. -/
def relabel (π : τ → Equiv.Perm ℕ) (l : τ × ℕ) : τ × ℕ := (l.1, π l.1 l.2)

/-- A track whose birth term has another number. -/
def relabelTrack (π : τ → Equiv.Perm ℕ) (e : Entry K τ F S C) : Entry K τ F S C := { e with label := relabel π e.label }

/-- A reported track whose birth term has another number. -/
def relabelExt (π : τ → Equiv.Perm ℕ) (x : Ext τ S C) : Ext τ S C := { x with label := relabel π x.label }

/-- What the user provides with the calls: the costs are sorted in descending order (ties in any way), and survival
and detection probabilities of a track do not depend on its label. -/
structure GoodEnv [LinearOrder K] (env : Env K τ F S C Z) : Prop where
  sorts : ∀ (n : ℕ) (lc : Fin n → WithTop K) (i j : Fin n), i ≤ j → lc (env.sortInds n lc j) ≤ lc (env.sortInds n lc i)
  surv : ∀ (e : Entry K τ F S C) (l : τ × ℕ), env.psurv { e with label := l } = env.psurv e
  det : ∀ (e : Entry K τ F S C) (l : τ × ℕ), env.pdet { e with label := l } = env.pdet e

/-- The same call, with the birth terms in another order. The birth terms that are possible at all have different log
odds. -/
inductive SameButOrder [Field K] [LinearOrder K] (π : τ → Equiv.Perm ℕ) : Op K τ F S C Z → Op K τ F S C Z → Prop
  | predict {env lab births births'} (hg : GoodEnv env) (hget : ∀ i : ℕ, births'[π lab i]? = births[i]?)
      (hdist : ∀ (i j : ℕ) (b c : Birth K F S C), births[i]? = some b → births[j]? = some c → 0 < b.prob → 0 < c.prob →
        env.num.negLog (b.prob / (1 - b.prob)) = env.num.negLog (c.prob / (1 - c.prob)) → i = j) :
      SameButOrder π (.predict env lab births) (.predict env lab births')
  | correct {env} (meas : List Z) (hg : GoodEnv env) : SameButOrder π (.correct env meas) (.correct env meas)
  | cleanup {env} (bp bc be u c : Bool) : SameButOrder π (.cleanup env bp bc be u c) (.cleanup env bp bc be u c)
  | extract (u c : Bool) : SameButOrder π (.extract u c) (.extract u c)

/-- The same state of the filter, with renumbered birth terms: the hypotheses are the same, in the same order, with the
same probabilities, and contain the same tracks in the same order (relabelled; the track table may be in another order);
everything that is reported is the same (relabelled). -/
structure SameButLabels (π : τ → Equiv.Perm ℕ) (st st' : St K τ F S C) : Prop where
  table : st'.tab.Perm (st.tab.map (relabelTrack π))
  probs : (st'.hyps.map fun h => h.prob) = st.hyps.map fun h => h.prob
  tracks : (st'.hyps.map fun h => h.tracks.map fun t : ℕ => st'.tab[t]?) =
    st.hyps.map fun h => h.tracks.map fun t : ℕ => (st.tab[t]?).map (relabelTrack π)
  card : st'.card = st.card
  time : st'.cntr = st.cntr
  hist : st'.ext = st.ext.map (relabelExt π)
  states : st'.states = st.states
  covs : st'.covs = st.covs
  labels : st'.labels = st.labels.map (List.map (relabel π))

end Gasur.Spec
