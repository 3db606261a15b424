import Verif.Model.Ospa

/-!
# What a filter keeps of its OSPA calculations

Source: `/repo/src/gasur/swarm_estimator/tracker.py`: 76-100 (the attributes and `ospa_method`), 344-422
(`_ospa_find_s_dim`, `calculate_ospa`), 479-545 (the title of `plot_ospa_history`), 1886-1891 (GLMB), 126-133, 162-169,
1926-1929, 1967-1970 (saving and restoring), 2789-2822 (`calculate_ospa2`), 3118-3185 (the title of `plot_ospa2_history`).

* `_ospa_params` and `_ospa2_params` are dictionaries, which are changed in place and which `save_filter_state` stores by
  reference; so they are addresses in a store here. The arrays are only ever replaced, so they are values.
* Several filters and several saved states live side by side; a history is any sequence of events.
* The extracted states are an arbitrary value `E` seen through a `View`; anything else that happens to a filter is the event
  `report`, which gives it new extracted states.
* `save_filter_state` and `load_filter_state` of the PHD filters always raise, so the events `save` and `load` are for the
  GLMB filters.
-/

namespace Gasur.OspaSession

open Gasur.Ospa

/-- How the extracted states of a filter are seen by the OSPA calculations. -/
structure View (E : Type*) (s : ℕ) where
  /-- `_ospa_setup_emat`. -/
  setup : E → Except OErr (List (Row (Obj s)))
  /-- `len(self._states)`. -/
  steps : E → ℕ
  /-- `self._states` contains a state. -/
  known : E → Bool
  /-- `save_covs`. -/
  saveCovs : E → Bool

/-- The PHD filters (tracker.py:301-326). -/
def phdView (s : ℕ) : View (List (List (Option (Obj s))) × Bool) s where
  setup e := setupMat e.1
  steps e := e.1.length
  known e := e.1.any fun l => l.any Option.isSome
  saveCovs e := e.2

/-- The GLMB filters (tracker.py:2751-2787). -/
def glmbView (s : ℕ) (L : Type*) [DecidableEq L] : View (List (List L) × List (List (Obj s)) × Bool) s where
  setup e := .ok (setupLabels e.1 e.2.1)
  steps e := e.2.1.length
  known e := e.2.1.any fun l => !l.isEmpty
  saveCovs e := e.2.2

/-- The arguments of `calculate_ospa` and `calculate_ospa2`; `trueCovs` says that `true_covs` is given. -/
structure Args (s : ℕ) where
  truth : List (List (Option (Obj s)))
  c : ℝ
  p : ℕ
  method : Option Method
  trueCovs : Bool

/-- `_ospa_params` and `_ospa2_params`; a key may be absent. -/
structure Params where
  core : Option Method := none
  cutoff : Option ℝ := none
  power : Option ℕ := none
  winLen : Option ℕ := none

/-- What a call returns: localisation and cardinality at each time step and the parameters that were used. -/
structure Res where
  vals : List (ℝ × ℝ)
  core : Method
  cutoff : ℝ
  power : ℕ

variable {E : Type*} {s : ℕ}

/-- `_ospa_find_s_dim` finds something (tracker.py:344-363). -/
def dimKnown (v : View E s) (e : E) (truth : List (List (Option (Obj s)))) : Bool :=
  (truth.any fun l => l.any Option.isSome) || v.known e

/-- The OSPA(2) calculation on the matrices that a filter passes (tracker.py:2814-2822, distributions.py:424-555); as in
`Ospa.callOspa`. An exception in one time step ends the call. -/
noncomputable def callOspa2 (lsa : Lsa) (em tm : List (Row (Obj s))) (c : ℝ) (p winLen : ℕ)
    (method : Option Method) (hasTrueCov hasEstCov : Bool) : Except OErr (List (ℝ × ℝ)) :=
  open Classical in
  if effMethod method hasTrueCov hasEstCov = .hellinger ∧ hasEstCov = false ∧ NanPair em tm then .error .invalid
  else
    match ospa2 lsa (effCut (effMethod method hasTrueCov hasEstCov) c) p winLen
      (coreDist (effMethod method hasTrueCov hasEstCov)) em tm with
    | .error e => .error e
    | .ok l => l.mapM id

/-- The matrices (tracker.py:410-412, 2809-2811), then a calculation on them. -/
def withMats (v : View E s) (e : E) (truth : List (List (Option (Obj s))))
    (f : List (Row (Obj s)) → List (Row (Obj s)) → Except OErr (List (ℝ × ℝ))) : Except OErr (List (ℝ × ℝ)) :=
  match setupMat truth with
  | .error e => .error e
  | .ok tm =>
    match v.setup e with
    | .error e => .error e
    | .ok em => f em tm

/-- The common part of `calculate_ospa` and `calculate_ospa2` (tracker.py:393-422, 2791-2822): the calculation is skipped if
the dimension of the states is not known; then the cut-off is recorded as it was given. -/
noncomputable def calcWith (v : View E s) (e : E) (a : Args s)
    (f : List (Row (Obj s)) → List (Row (Obj s)) → Except OErr (List (ℝ × ℝ))) : Except OErr Res :=
  if dimKnown v e a.truth then
    match withMats v e a.truth f with
    | .error x => .error x
    | .ok r => .ok ⟨r, effMethod a.method a.trueCovs (v.saveCovs e),
        effCut (effMethod a.method a.trueCovs (v.saveCovs e)) a.c, a.p⟩
  else .ok ⟨List.replicate (v.steps e) (0, 0), effMethod a.method a.trueCovs (v.saveCovs e), a.c, a.p⟩

/-- `calculate_ospa` (tracker.py:365-422) up to the assignment of the results. -/
noncomputable def calc1 (lsa : Lsa) (v : View E s) (e : E) (a : Args s) : Except OErr Res :=
  calcWith v e a fun em tm => callOspa lsa em tm a.c a.p a.method a.trueCovs (v.saveCovs e)

/-- `calculate_ospa2` (tracker.py:2789-2822) up to the assignment of the results. -/
noncomputable def calc2 (lsa : Lsa) (v : View E s) (e : E) (a : Args s) (winLen : ℕ) : Except OErr Res :=
  calcWith v e a fun em tm => callOspa2 lsa em tm a.c a.p winLen a.method a.trueCovs (v.saveCovs e)

/-- The attributes of a filter: the extracted states, `ospa` and its components (`None` at first), `ospa2` and its components,
and the addresses of `_ospa_params` and `_ospa2_params`. (The three arrays are always assigned together.) -/
structure Filt (E : Type*) where
  est : E
  ospa : Option (List (ℝ × ℝ))
  ospa2 : Option (List (ℝ × ℝ))
  params : ℕ
  params2 : ℕ

/-- Everything: the dictionaries in the store below `next`, the filters, the saved states. -/
structure World (E : Type*) where
  mem : ℕ → Params
  next : ℕ
  filts : ℕ → Option (Filt E)
  saved : ℕ → Option (Filt E)

/-- Nothing has been made yet. -/
def World.empty : World E := ⟨fun _ => {}, 0, fun _ => none, fun _ => none⟩

/-- What can happen. -/
inductive Event (E : Type*) (s : ℕ)
  /-- The constructor. -/
  | create (k : ℕ) (e : E)
  /-- The filter has other extracted states. -/
  | report (k : ℕ) (e : E)
  | ospa (k : ℕ) (a : Args s)
  | ospa2 (k : ℕ) (a : Args s) (winLen : ℕ)
  /-- `save_filter_state` of filter `k`, kept as `j`. -/
  | save (k j : ℕ)
  /-- `load_filter_state` of filter `k` with the saved state `j`. -/
  | load (k j : ℕ)

/-- Replacing one entry. -/
def upd {α : Type*} (f : ℕ → α) (k : ℕ) (x : α) : ℕ → α := fun i => if i = k then x else f i

/-- What is stored for a filter (tracker.py:126-133, 1926-1929): the key `_ospa2_params` gets `_ospa_params`. -/
def Filt.save (f : Filt E) : Filt E := { f with params2 := f.params }

/-- The effect of one event on the world. A call that raises changes nothing: the results are assigned after the right-hand
side has been evaluated (tracker.py:415-422, 2814-2822). -/
noncomputable def step (lsa : Lsa) (v : View E s) (w : World E) : Event E s → World E
  | .create k e =>
    { w with mem := upd (upd w.mem w.next {}) (w.next + 1) {}, next := w.next + 2,
             filts := upd w.filts k (some ⟨e, none, none, w.next, w.next + 1⟩) }
  | .report k e =>
    match w.filts k with
    | none => w
    | some f => { w with filts := upd w.filts k (some { f with est := e }) }
  | .ospa k a =>
    match w.filts k with
    | none => w
    | some f =>
      match calc1 lsa v f.est a with
      | .error _ => w
      | .ok r =>
        { w with filts := upd w.filts k (some { f with ospa := some r.vals }),
                 mem := upd w.mem f.params { w.mem f.params with core := some r.core, cutoff := some r.cutoff,
                                                                 power := some r.power } }
  | .ospa2 k a wl =>
    match w.filts k with
    | none => w
    | some f =>
      match calc2 lsa v f.est a wl with
      | .error _ => w
      | .ok r =>
        { w with filts := upd w.filts k (some { f with ospa2 := some r.vals }),
                 mem := upd w.mem f.params2 { core := some r.core, cutoff := some r.cutoff, power := some r.power,
                                              winLen := some wl } }
  | .save k j =>
    match w.filts k with
    | none => w
    | some f => { w with saved := upd w.saved j (some f.save) }
  | .load k j =>
    match w.filts k, w.saved j with
    | some _, some g => { w with filts := upd w.filts k (some g) }
    | _, _ => w

/-- A history. -/
noncomputable def run (lsa : Lsa) (v : View E s) (h : List (Event E s)) : World E := h.foldl (step lsa v) World.empty

/-- `KeyError`. -/
inductive KErr
  | key
deriving DecidableEq

/-- The parameters in the title of `plot_ospa_history` (tracker.py:513-526); `none`: there is nothing to plot. -/
def title (w : World E) (k : ℕ) : Option (Except KErr (Method × ℝ × ℕ)) :=
  match w.filts k with
  | none => none
  | some f =>
    match f.ospa with
    | none => none
    | some _ =>
      match (w.mem f.params).core, (w.mem f.params).cutoff, (w.mem f.params).power with
      | some m, some c, some p => some (.ok (m, c, p))
      | _, _, _ => some (.error .key)

/-- The parameters in the title of `plot_ospa2_history` (tracker.py:3152-3168). -/
def title2 (w : World E) (k : ℕ) : Option (Except KErr (Method × ℝ × ℕ × ℕ)) :=
  match w.filts k with
  | none => none
  | some f =>
    match f.ospa2 with
    | none => none
    | some _ =>
      match (w.mem f.params2).core, (w.mem f.params2).cutoff, (w.mem f.params2).power, (w.mem f.params2).winLen with
      | some m, some c, some p, some wl => some (.ok (m, c, p, wl))
      | _, _, _, _ => some (.error .key)

/-- The property `ospa_method` (tracker.py:89-95). -/
def ospaMethod (w : World E) (k : ℕ) : Option Method :=
  match w.filts k with
  | none => none
  | some f => (w.mem f.params).core

end Gasur.OspaSession
