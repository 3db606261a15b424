import Verif.Model.Jglmb

/-!
# Specification: another representation of the same problem

The same scene described twice: times, states, covariances, inner filters and measurements are written in another
coordinate system (or another unit, or another data type). The two inner filters must describe the same filter: applying
the one and changing coordinates is changing coordinates and applying the other. Weights, labels' indices, association
histories and probabilities carry no coordinates.
-/

namespace Gasur.Spec

open Gasur.Glmb

/-- Change of coordinates of times, inner filter states, states, covariances and measurements. -/
structure Coords (τ F S C Z τ' F' S' C' Z' : Type*) where
  t : τ → τ'
  f : F → F'
  s : S → S'
  c : C → C'
  z : Z → Z'

variable {K τ F S C Z τ' F' S' C' Z' : Type*} (m : Coords τ F S C Z τ' F' S' C' Z')

/-- A track in the other coordinates. -/
def Coords.entry (e : Entry K τ F S C) : Entry K τ' F' S' C' :=
  { label := (m.t e.label.1, e.label.2), wHist := e.wHist, fStates := e.fStates.map m.f, mHist := e.mHist,
    sHist := e.sHist.map (List.map m.s), cHist := e.cHist.map (List.map m.c), tIdx := e.tIdx }

/-- A reported track in the other coordinates. -/
def Coords.ext (e : Ext τ S C) : Ext τ' S' C' :=
  { label := (m.t e.label.1, e.label.2), mHist := e.mHist, tIdx := e.tIdx, states := e.states.map m.s,
    covs := e.covs.map m.c }

/-- A birth term in the other coordinates. -/
def Coords.birth (b : Birth K F S C) : Birth K F' S' C' :=
  { fStates := b.fStates.map m.f, ws := b.ws, states := b.states.map m.s, covs := b.covs.map m.c, prob := b.prob }

/-- The state of the filter in the other coordinates: hypotheses and cardinality distribution are the same. -/
def Coords.st (s : St K τ F S C) : St K τ' F' S' C' :=
  { tab := s.tab.map m.entry, hyps := s.hyps, card := s.card, cntr := s.cntr, ext := s.ext.map m.ext,
    states := s.states.map (List.map m.s), labels := s.labels.map (List.map fun l => (m.t l.1, l.2)),
    covs := s.covs.map (List.map m.c) }

/-- The two inner filters (and survival and detection probabilities) are the same in the two coordinate systems. -/
structure Coords.SameFilter (e : Env K τ F S C Z) (e' : Env K τ' F' S' C' Z') : Prop where
  num : e'.num = e.num
  sortInds : e'.sortInds = e.sortInds
  argsort : e'.argsort = e.argsort
  pred : ∀ f x, e'.predF (m.f f) (m.s x) = (m.f (e.predF f x).1, m.s (e.predF f x).2.1, m.c (e.predF f x).2.2)
  cor : ∀ z f x w, e'.corF (m.z z) (m.f f) (m.s x) w =
    (e.corF z f x w).map fun r => (m.f r.1, m.s r.2.1, m.c r.2.2.1, r.2.2.2)
  psurv : ∀ t, e'.psurv (m.entry t) = e.psurv t
  pdet : ∀ t, e'.pdet (m.entry t) = e.pdet t

/-- The same call in the other coordinates. -/
inductive Coords.SameCall : Op K τ F S C Z → Op K τ' F' S' C' Z' → Prop
  | predict {e e' lab births} (h : m.SameFilter e e') :
      SameCall (.predict e lab births) (.predict e' (m.t lab) (births.map m.birth))
  | correct {e e' meas} (h : m.SameFilter e e') : SameCall (.correct e meas) (.correct e' (meas.map m.z))
  | cleanup {e e'} (bp bc be u c : Bool) (h : m.SameFilter e e') :
      SameCall (.cleanup e bp bc be u c) (.cleanup e' bp bc be u c)
  | extract (u c : Bool) : SameCall (.extract u c) (.extract u c)

/-- The same call of the joint filter in the other coordinates. -/
inductive Coords.SameJCall : Jglmb.JOp K τ F S C Z → Jglmb.JOp K τ' F' S' C' Z' → Prop
  | predict {e e' lab births} (h : m.SameFilter e e') :
      SameJCall (.predict e lab births) (.predict e' (m.t lab) (births.map m.birth))
  | correct {e e' births draws meas} (h : m.SameFilter e e') :
      SameJCall (.correct e births draws meas) (.correct e' (births.map m.birth) draws (meas.map m.z))
  | cleanup {e e'} (bp bc be u c : Bool) (h : m.SameFilter e e') :
      SameJCall (.cleanup e bp bc be u c) (.cleanup e' bp bc be u c)
  | extract (u c : Bool) : SameJCall (.extract u c) (.extract u c)

/-- The state of the joint filter in the other coordinates. -/
def Coords.jst (s : Jglmb.JSt K τ F S C) : Jglmb.JSt K τ' F' S' C' := { g := m.st s.g, oldLen := s.oldLen }

end Gasur.Spec
