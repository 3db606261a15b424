import Verif.Model.Glmb

/-!
# Sharing between a saved GLMB state and the running filter

Source: `/repo/src/gasur/swarm_estimator/tracker.py`: `save_filter_state` 1895-1931 stores references, so
the saved `_hypotheses` list holds the same hypothesis objects as the filter, and the saved `_meas_tab` is
the filter's own list. The methods of `Verif/Model/Glmb.lean` are modelled here again with an explicit store
for the objects that some method modifies in place:

* hypothesis objects (`_HypothesisHelper`): modified by `correct` without measurements (2325-2330, then
  2387-2388 and 2419) and by `_prune` (2664-2666) and `_cap` (2701-2703);
* the list `_meas_tab`: extended by `correct` when `save_measurements` is set (2464-2465).

All other lists (`_track_tab`, `_hypotheses`, `_card_dist`, `_extractable_hists`, `_states`, `_labels`,
`_covs`) are replaced by new lists and table entries are copied before they are changed
(`_TabEntry.setup`, 1825-1838), so they are values here. Objects that become unreachable within a call are
not allocated. After an exception the store is not followed further.
-/

namespace Gasur.Snapshot

open Gasur.Glmb

/-- Store and filter: `mem` holds the hypothesis objects below `next`, `lists` the list objects for
measurements; `refs` is `_hypotheses`, `measRef` is `_meas_tab`, `rest` all other attributes (its field
`hyps` is not used). -/
structure HSt (K τ F S C Z : Type*) where
  mem : ℕ → Hyp K
  next : ℕ
  refs : List ℕ
  lists : ℕ → List (List Z)
  measRef : ℕ
  rest : St K τ F S C

/-- What `save_filter_state` stores (tracker.py:1911-1924, 130-132): references for the mutable objects. -/
structure Saved (K τ F S C : Type*) where
  refs : List ℕ
  measRef : ℕ
  rest : St K τ F S C

variable {K τ F S C Z : Type*}

/-- The filter state seen through the store. -/
def HSt.read (s : HSt K τ F S C Z) : St K τ F S C := { s.rest with hyps := s.refs.map s.mem }

/-- The saved measurements. -/
def HSt.meas (s : HSt K τ F S C Z) : List (List Z) := s.lists s.measRef

/-- `save_filter_state`. -/
def HSt.save (s : HSt K τ F S C Z) : Saved K τ F S C := ⟨s.refs, s.measRef, s.rest⟩

/-- `load_filter_state` (tracker.py:1933-1970). -/
def HSt.load (s : HSt K τ F S C Z) (sv : Saved K τ F S C) : HSt K τ F S C Z :=
  { s with refs := sv.refs, measRef := sv.measRef, rest := sv.rest }

/-- New objects for a list of hypotheses, at addresses `next, next + 1, …`. -/
def alloc (s : HSt K τ F S C Z) (st : St K τ F S C) : HSt K τ F S C Z :=
  { s with
    mem := fun a => if s.next ≤ a then (st.hyps[a - s.next]?).getD (s.mem a) else s.mem a
    next := s.next + st.hyps.length
    refs := List.range' s.next st.hyps.length
    rest := st }

/-- Overwriting objects in place. -/
def store (mem : ℕ → Hyp K) : List ℕ → List (Hyp K) → ℕ → Hyp K
  | r :: rs, h :: hs => Function.update (store mem rs hs) r h
  | _, _ => mem

/-- The same objects `refs`, overwritten with the hypotheses of `st`. -/
def inPlace (s : HSt K τ F S C Z) (refs : List ℕ) (st : St K τ F S C) : HSt K τ F S C Z :=
  { s with mem := store s.mem refs st.hyps, refs := refs, rest := st }

section field
variable [Field K] [LinearOrder K] [FloorRing K]

/-- `predict`: all hypotheses are new objects (tracker.py:2117, 2133, 2160; the merging at 2206 changes only
new objects). -/
def hPredict (env : Env K τ F S C Z) (pr : Params K) (lab : τ) (births : List (Birth K F S C))
    (s : HSt K τ F S C Z) : Except GErr (HSt K τ F S C Z) :=
  match predict env pr lab births s.read with
  | .error e => .error e
  | .ok st => .ok (alloc s st)

/-- `correct`: with measurements all hypotheses are new objects (tracker.py:2341, 2379), without
measurements the same objects are overwritten (2325-2330, 2387-2388, 2419). -/
def hCorrect (env : Env K τ F S C Z) (pr : Params K) (saveMeas : Bool) (meas : List Z)
    (s : HSt K τ F S C Z) : Except GErr (HSt K τ F S C Z) :=
  let s1 : HSt K τ F S C Z :=
    if saveMeas then { s with lists := Function.update s.lists s.measRef (s.lists s.measRef ++ [meas]) }
    else s
  match correct env pr meas s1.read with
  | .error e => .error e
  | .ok st => .ok (if meas.isEmpty then inPlace s1 s1.refs st else alloc s1 st)

/-- `_prune`: the kept objects are overwritten (tracker.py:2663-2666). -/
def hPrune (pr : Params K) (s : HSt K τ F S C Z) : Except GErr (HSt K τ F S C Z) :=
  match prune pr s.read with
  | .error e => .error e
  | .ok st => .ok (inPlace s (s.refs.filter fun r => decide (pr.pruneThreshold < (s.mem r).prob)) st)

/-- `_cap`: the kept objects are overwritten (tracker.py:2693-2703). -/
def hCap (env : Env K τ F S C Z) (pr : Params K) (s : HSt K τ F S C Z) :
    Except GErr (HSt K τ F S C Z) :=
  if pr.maxHyps < s.refs.length then
    match traverseE (getE s.refs)
        (((env.argsort (s.refs.map fun r => (s.mem r).prob)).reverse).take pr.maxHyps) with
    | .error e => .error e
    | .ok kept =>
      match cap env pr s.read with
      | .error e => .error e
      | .ok st => .ok (inPlace s kept st)
  else .ok s

variable [DecidableEq τ]

/-- `extract_states`: no hypothesis object is changed. -/
def hExtract (update calcS : Bool) (s : HSt K τ F S C Z) : Except GErr (HSt K τ F S C Z) :=
  match extract update calcS s.read with
  | .error e => .error e
  | .ok (st, _) => .ok { s with rest := st }

/-- `cleanup` (tracker.py:2708-2749). -/
def hCleanup (env : Env K τ F S C Z) (pr : Params K) (bp bc be update calcS : Bool)
    (s : HSt K τ F S C Z) : Except GErr (HSt K τ F S C Z) :=
  let s0 : HSt K τ F S C Z := { s with rest := { s.rest with cntr := s.rest.cntr + 1 } }
  match (if bp then hPrune pr s0 else .ok s0) with
  | .error e => .error e
  | .ok s1 =>
    match (if bc then hCap env pr s1 else .ok s1) with
    | .error e => .error e
    | .ok s2 => if be then hExtract update calcS s2 else .ok s2

/-- One call. -/
def hStep (pr : Params K) (saveMeas : Bool) (s : HSt K τ F S C Z) :
    Op K τ F S C Z → Except GErr (HSt K τ F S C Z)
  | .predict env lab births => hPredict env pr lab births s
  | .correct env meas => hCorrect env pr saveMeas meas s
  | .cleanup env bp bc be u c => hCleanup env pr bp bc be u c s
  | .extract u c => hExtract u c s

/-- A sequence of calls. -/
def hRun (pr : Params K) (saveMeas : Bool) (s : HSt K τ F S C Z) :
    List (Op K τ F S C Z) → Except GErr (HSt K τ F S C Z)
  | [] => .ok s
  | o :: os =>
    match hStep pr saveMeas s o with
    | .error e => .error e
    | .ok s' => hRun pr saveMeas s' os

/-- A new filter. -/
def hInit : HSt K τ F S C Z :=
  { mem := fun _ => { prob := 1, tracks := [] }, next := 1, refs := [0], lists := fun _ => [],
    measRef := 0, rest := init }

end field

end Gasur.Snapshot
