import Verif.Model.Glmb

/-!
# Specification: the life of a single track

Only the data types of the GLMB model are used, none of its functions.

A track is born with one birth term of one `predict` call. From then on it is treated by every later call as
if it were alone: `predict` moves each of its components with the inner filter, `correct` either leaves it
alone (missed detection) or updates each of its components with *one* of the measurements, and no other call
changes it.
-/

namespace Gasur.Spec

open Gasur.Glmb

/-- One component of a track: inner filter state, state, covariance and weight. -/
structure Comp (K F S C : Type*) where
  filt : F
  state : S
  cov : C
  weight : K

/-- What there is to know about a track: its label, the time step of its birth, the measurement (or none) it was
given by each `correct` since, its components at the earlier time steps and now. -/
structure Life (K τ F S C : Type*) where
  label : τ × ℕ
  born : ℕ
  assoc : List (Option ℕ)
  past : List (List (Comp K F S C))
  now : List (Comp K F S C)

variable {K τ F S C Z : Type*} [Field K]

/-- The components of a birth term. -/
def birthComps (b : Birth K F S C) : List (Comp K F S C) :=
  (b.fStates.zip (b.states.zip (b.covs.zip b.ws))).map fun x => ⟨x.1, x.2.1, x.2.2.1, x.2.2.2⟩

/-- Prediction of a component: its weight stays. -/
def moveComp (pred : F → S → F × S × C) (x : Comp K F S C) : Comp K F S C :=
  ⟨(pred x.filt x.state).1, (pred x.filt x.state).2.1, (pred x.filt x.state).2.2, x.weight⟩

/-- `l'` is `l` updated with the measurement `z`: every component is updated by the inner filter, which also
gives its new weight `q` (weight times likelihood); the new weights are normalised after `eps` was added. -/
def Updated (cor : Z → F → S → K → Option (F × S × C × K)) (eps : K) (z : Z) (l l' : List (Comp K F S C)) :
    Prop :=
  ∃ q : List K, q.length = l.length ∧ l'.length = l.length ∧
    ∀ (i : ℕ) (x x' : Comp K F S C) (w : K), l[i]? = some x → l'[i]? = some x' → q[i]? = some w →
      cor z x.filt x.state x.weight = some (x'.filt, x'.state, x'.cov, w) ∧
      x'.weight = (w + eps) / (q.map fun v => v + eps).sum

/-- Calls that count as the end of a time step. -/
def endsStep : Op K τ F S C Z → Bool
  | .cleanup .. => true
  | _ => false

/-- `Lives pr ops l`: after the calls `ops` on a new filter, `l` may be one of the tracks. -/
inductive Lives (pr : Params K) : List (Op K τ F S C Z) → Life K τ F S C → Prop
  /-- birth in a `predict` call -/
  | born (ops : List (Op K τ F S C Z)) (env : Env K τ F S C Z) (t : τ) (births : List (Birth K F S C)) (i : ℕ)
      (b : Birth K F S C) (hb : births[i]? = some b) :
      Lives pr (ops ++ [.predict env t births])
        ⟨(t, i), ops.countP endsStep, [], [], birthComps b⟩
  /-- a later `predict` call -/
  | moved (ops : List (Op K τ F S C Z)) (l : Life K τ F S C) (h : Lives pr ops l) (env : Env K τ F S C Z) (t : τ)
      (births : List (Birth K F S C)) :
      Lives pr (ops ++ [.predict env t births])
        { l with past := l.past ++ [l.now], now := l.now.map (moveComp env.predF) }
  /-- a later `correct` call that gives it no measurement -/
  | missed (ops : List (Op K τ F S C Z)) (l : Life K τ F S C) (h : Lives pr ops l) (env : Env K τ F S C Z)
      (meas : List Z) :
      Lives pr (ops ++ [.correct env meas]) { l with assoc := l.assoc ++ [none] }
  /-- a later `correct` call that gives it measurement `j` -/
  | detected (ops : List (Op K τ F S C Z)) (l : Life K τ F S C) (h : Lives pr ops l) (env : Env K τ F S C Z)
      (meas : List Z) (j : ℕ) (z : Z) (hz : meas[j]? = some z) (now' : List (Comp K F S C))
      (hu : Updated env.corF pr.eps z l.now now') :
      Lives pr (ops ++ [.correct env meas]) { l with assoc := l.assoc ++ [some j], now := now' }
  /-- a later `cleanup` call -/
  | cleaned (ops : List (Op K τ F S C Z)) (l : Life K τ F S C) (h : Lives pr ops l) (env : Env K τ F S C Z)
      (bp bc be u c : Bool) : Lives pr (ops ++ [.cleanup env bp bc be u c]) l
  /-- a later `extract_states` call -/
  | extracted (ops : List (Op K τ F S C Z)) (l : Life K τ F S C) (h : Lives pr ops l) (u c : Bool) :
      Lives pr (ops ++ [.extract u c]) l

/-- The table entry `e` stores the track `l`. -/
structure Stores (e : Entry K τ F S C) (l : Life K τ F S C) : Prop where
  label : e.label = l.label
  born : e.tIdx = l.born
  assoc : e.mHist = l.assoc
  filts : e.fStates = l.now.map fun x => x.filt
  states : e.sHist = (l.past ++ [l.now]).map fun y => y.map fun x => x.state
  covs : e.cHist = (l.past ++ [l.now]).map fun y => y.map fun x => x.cov
  weights : e.wHist = (l.past ++ [l.now]).map fun y => y.map fun x => x.weight

end Gasur.Spec
