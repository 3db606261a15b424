import Mathlib.Data.List.Basic

/-!
# Model of `save_filter_state` / `load_filter_state`

Source: `/repo/src/gasur/swarm_estimator/tracker.py`: lines 102-169 (all filters), 589-606 (PHD and CPHD),
1895-1970 and 2007-2015 (GLMB), 3459-3481 (joint GLMB), 3247-3257 (the SMC classes, which inherit them).

* A filter object is a map from attribute names to values, a saved state a map from keys to values.
  All attributes of an object exist; a key of a dictionary may be absent (`KeyError`).
* The inner (gncpy) filters are a parameter: their class, their own `save_filter_state`, and "make a new
  object of the class and call its `load_filter_state`".
* The property `filter` of the GLMB classes is the attribute `"filter"`; its setter also sets
  `"_baseFilter"` to a copy (tracker.py:2010-2013).
* Saving copies nothing, so values are compared at the time of loading; sharing of mutable objects
  between a saved state and the running filter is modelled in `Verif/Model/Snapshot.lean`.
-/

namespace Gasur.SaveLoad

/-- The inner filters: `T` their classes, `Φ` the objects, `P` their saved states. -/
structure Inner (T Φ P : Type*) where
  cls : Φ → T
  save : Φ → P
  /-- `cls_type()` followed by `load_filter_state` on the new object. -/
  load : T → P → Φ

/-- Python values: `None`, an inner filter, the tuple `(class or None, saved state or None)` that is stored
for an inner filter, any other object. -/
inductive Val (V T Φ P : Type*)
  | none
  | filt (f : Φ)
  | pair (t : Option T) (p : Option P)
  | obj (v : V)

/-- Exceptions. `type`: calling a method that the value does not have; `runtime`: the `RuntimeError`
raised by the PHD filters. -/
inductive Err
  | key
  | type
  | runtime
deriving DecidableEq

abbrev Obj (V T Φ P : Type*) := String → Val V T Φ P
abbrev Dict (V T Φ P : Type*) := String → Option (Val V T Φ P)

variable {V T Φ P : Type*}

/-- `d[k] = v`. -/
def Dict.set (d : Dict V T Φ P) (k : String) (v : Val V T Φ P) : Dict V T Φ P :=
  fun x => if x = k then some v else d x

/-- `setattr(o, a, v)`. -/
def Obj.set (o : Obj V T Φ P) (a : String) (v : Val V T Φ P) : Obj V T Φ P :=
  fun x => if x = a then v else o x

/-- Keys stored by lines 118-133 (the key is the attribute name). -/
def baseKeys : List String :=
  ["prob_detection", "prob_survive", "birth_terms", "clutter_rate", "clutter_den", "inv_chi2_gate",
   "save_covs", "debug_plots", "ospa", "ospa_localization", "ospa_cardinality", "_states", "_meas_tab",
   "_covs", "_ospa_params"]

/-- Pairs (key, attribute) stored by lines 1903-1914 and 1922-1929; note the last one. -/
def glmbPairs : List (String × String) :=
  [("req_births", "req_births"), ("req_surv", "req_surv"), ("req_upd", "req_upd"),
   ("gating_on", "gating_on"), ("prune_threshold", "prune_threshold"), ("max_hyps", "max_hyps"),
   ("decimal_places", "decimal_places"), ("save_measurements", "save_measurements"),
   ("_track_tab", "_track_tab"), ("_labels", "_labels"), ("_extractable_hists", "_extractable_hists"),
   ("_hypotheses", "_hypotheses"), ("_card_dist", "_card_dist"), ("_time_index_cntr", "_time_index_cntr"),
   ("ospa2", "ospa2"), ("ospa2_localization", "ospa2_localization"),
   ("ospa2_cardinality", "ospa2_cardinality"), ("_ospa2_params", "_ospa_params")]

/-- Keys read by lines 1943-1953 and 1963-1970, each into the attribute of the same name. -/
def glmbKeys : List String :=
  ["req_births", "req_surv", "req_upd", "gating_on", "prune_threshold", "max_hyps", "decimal_places",
   "save_measurements", "_track_tab", "_labels", "_extractable_hists", "_hypotheses", "_card_dist",
   "_time_index_cntr", "ospa2", "ospa2_localization", "ospa2_cardinality", "_ospa2_params"]

/-- `filt_state[k] = self.a` for a list of pairs. -/
def saveAll (o : Obj V T Φ P) (ps : List (String × String)) (d : Dict V T Φ P) : Dict V T Φ P :=
  ps.foldl (fun d p => d.set p.1 (o p.2)) d

/-- `self.k = filt_state[k]` for a list of keys. -/
def loadAll (d : Dict V T Φ P) : List String → Obj V T Φ P → Except Err (Obj V T Φ P)
  | [], o => .ok o
  | k :: ks, o =>
    match d k with
    | none => .error .key
    | some v => loadAll d ks (o.set k v)

/-- Storing an inner filter (tracker.py:112-116, 1916-1920). -/
def saveInner (inn : Inner T Φ P) : Val V T Φ P → Except Err (Val V T Φ P)
  | .none => .ok (.pair none none)
  | .filt f => .ok (.pair (some (inn.cls f)) (some (inn.save f)))
  | _ => .error .type

/-- `save_filter_state` of the base class (tracker.py:102-135). -/
def saveBase (inn : Inner T Φ P) (o : Obj V T Φ P) : Except Err (Dict V T Φ P) :=
  match saveInner inn (o "filter") with
  | .error e => .error e
  | .ok v => .ok (saveAll o (baseKeys.map fun k => (k, k)) (Dict.set (fun _ => none) "filter" v))

/-- `load_filter_state` of the base class (tracker.py:138-169); `setF` is the assignment to
`self.filter`. Line 152 stores the whole tuple when there is no class. -/
def loadBase (inn : Inner T Φ P) (setF : Obj V T Φ P → Val V T Φ P → Obj V T Φ P)
    (d : Dict V T Φ P) (o : Obj V T Φ P) : Except Err (Obj V T Φ P) :=
  match d "filter" with
  | none => .error .key
  | some (.pair (some t) (some p)) => loadAll d baseKeys (setF o (.filt (inn.load t p)))
  | some (.pair (some _) none) => .error .type
  | some (.pair none p) => loadAll d baseKeys (setF o (.pair none p))
  | some _ => .error .type

/-- Plain attribute assignment `self.filter = v` (PHD classes). -/
def setPlain (o : Obj V T Φ P) (v : Val V T Φ P) : Obj V T Φ P := o.set "filter" v

/-- The setter of `filter` in the GLMB classes (tracker.py:2010-2013). -/
def setGlmb (o : Obj V T Φ P) (v : Val V T Φ P) : Obj V T Φ P :=
  (o.set "_baseFilter" v).set "filter" v

/-- PHD and CPHD `save_filter_state` (tracker.py:589-594). -/
def savePhd (inn : Inner T Φ P) (o : Obj V T Φ P) : Except Err (Dict V T Φ P) :=
  match saveBase inn o with
  | .error e => .error e
  | .ok _ => .error .runtime

/-- PHD and CPHD `load_filter_state` (tracker.py:596-606). -/
def loadPhd (inn : Inner T Φ P) (d : Dict V T Φ P) (o : Obj V T Φ P) : Except Err (Obj V T Φ P) :=
  match loadBase inn setPlain d o with
  | .error e => .error e
  | .ok _ => .error .runtime

/-- GLMB `save_filter_state` (tracker.py:1895-1931). -/
def saveGlmb (inn : Inner T Φ P) (o : Obj V T Φ P) : Except Err (Dict V T Φ P) :=
  match saveBase inn o with
  | .error e => .error e
  | .ok d =>
    match saveInner inn (o "_baseFilter") with
    | .error e => .error e
    | .ok v => .ok (saveAll o glmbPairs (d.set "_baseFilter" v))

/-- GLMB `load_filter_state` (tracker.py:1933-1970). -/
def loadGlmb (inn : Inner T Φ P) (d : Dict V T Φ P) (o : Obj V T Φ P) : Except Err (Obj V T Φ P) :=
  match loadBase inn setGlmb d o with
  | .error e => .error e
  | .ok o1 =>
    match d "_baseFilter" with
    | none => .error .key
    | some (.pair (some t) (some p)) => loadAll d glmbKeys (o1.set "_baseFilter" (.filt (inn.load t p)))
    | some (.pair (some _) none) => .error .type
    | some (.pair none _) => loadAll d glmbKeys (o1.set "_baseFilter" .none)
    | some _ => .error .type

/-- Joint GLMB `save_filter_state` (tracker.py:3459-3469); the deep copy is a copy of the same value. -/
def saveJglmb (inn : Inner T Φ P) (o : Obj V T Φ P) : Except Err (Dict V T Φ P) :=
  match saveGlmb inn o with
  | .error e => .error e
  | .ok d => .ok (d.set "_old_track_tab" (o "_old_track_tab"))

/-- Joint GLMB `load_filter_state` (tracker.py:3471-3481). -/
def loadJglmb (inn : Inner T Φ P) (d : Dict V T Φ P) (o : Obj V T Φ P) : Except Err (Obj V T Φ P) :=
  match loadGlmb inn d o with
  | .error e => .error e
  | .ok o1 => loadAll d ["_old_track_tab"] o1

end Gasur.SaveLoad
