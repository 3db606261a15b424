import Mathlib.Data.List.Basic
import Mathlib.Algebra.Field.Defs
import Verif.Model.Phd

/-!
# Model of the plots

Models tracker.py:424-545 (`_plt_ospa_hist`, `_plt_ospa_hist_subs`, `plot_ospa_history`), 609-650 (`states`, `covariances`,
`cardinality` of the PHD filter), 931-1293 (`plot_states`, `animate_state_plot`), 1595-1770 (`plot_card_dist`,
`plot_card_history`, `plot_number_states_per_time`), 2824-3185 (`plot_states_labels`, `plot_card_dist`, `plot_card_history`,
`plot_ospa2_history`) and the lines that record measurements (754, 1429, 2462-2463, 3594).

A plot is the list of the drawing calls made on the axes, with the data and the legend entry of each. Simplifications: colours,
markers, line styles, drawing order, titles and axis labels are left out; the size of an error ellipse
(`pltUtil.calc_error_ellipse`, external) is represented by the 2×2 matrix it is computed from and the requested bound; state
vectors are functions on `Fin d` and the plotted indices are two elements of `Fin d` (an index out of range is not modelled);
NaN, used for times without a state, is `none`. Matplotlib raises `ValueError` if the numbers of abscissae and ordinates
differ. -/

namespace Gasur.Plot

/-- The exceptions that occur. -/
inductive PlotErr
  | index
  | value
  | type
  | attribute
  | warning
  deriving DecidableEq, Repr

/-- The legend entries (tracker.py:1084, 1096, 1118, 1141 and so on). -/
inductive Legend
  | states
  | sigma
  | truth
  | measurements
  | cardinality
  | trueCardinality
  deriving DecidableEq, Repr

/-- The 2×2 matrix of an error ellipse, by rows. -/
structure Block (K : Type) where
  a : K
  b : K
  c : K
  d : K

/-- A drawing call. `line` has one entry for each time, `none` for a gap; `graph` is a curve given by abscissae and ordinates,
`lbl` the legend entry if there is one. -/
inductive Prim (K L : Type)
  | points (pts : List (K × K)) (lbl : Option Legend)
  | measPoints (pts : List (K × K)) (lbl : Option Legend)
  | ellipse (center : Option (K × K)) (sig : Block K) (bound : K) (lbl : Option Legend)
  | track (pts : List (Option (K × K))) (lbl : Option Legend)
  | truth (pts : List (Option (K × K))) (lbl : Option Legend)
  | text (pos : K × K) (lab : L)
  | bars (xs : List ℕ) (ys : List K)
  | graph (xs ys : List K) (lbl : Option Legend)
  | steps (xs : List K) (ys : List ℕ)

variable {K L : Type} {d m : ℕ}

/-- The two plotted components of a vector. -/
def proj (i j : Fin d) (x : Fin d → K) : K × K := (x i, x j)

/-- The 2×2 matrix of an error ellipse (tracker.py:1063-1067, 2923-2930). -/
def block (i j : Fin d) (P : Fin d → Fin d → K) : Block K := ⟨P i i, P i j, P j i, P j j⟩

/-- A legend entry is given to the first object only (`if not added_…_lbl`). -/
def once (added : Bool) (l : Legend) : Option Legend := if added then none else some l

/-! ### `plot_states` of the PHD filter -/

/-- The ellipses of one time step (tracker.py:1060-1088). More covariances than states is an `IndexError`; states without
covariance get no ellipse. `added` is `added_sig_lbl`. -/
def ellipses (i j : Fin d) (bound : K) : Bool → List ((Fin d → K) × (Fin d → Fin d → K)) → List (Prim K L)
  | _, [] => []
  | added, (x, P) :: l => .ellipse (some (proj i j x)) (block i j P) bound (once added .sigma) :: ellipses i j bound true l

/-- The loop over the time steps (tracker.py:1055-1098). `covs` is `self._covs`; `sb` is the bound if the ellipses are drawn. -/
def stateLoop (i j : Fin d) (sb : Option K) (covs : List (List (Fin d → Fin d → K))) :
    Bool → Bool → List (List (Fin d → K) × ℕ) → Except PlotErr (List (Prim K L))
  | _, _, [] => .ok []
  | sigAdded, stAdded, ([], _) :: l => stateLoop i j sb covs sigAdded stAdded l
  | sigAdded, stAdded, (x :: xs, tt) :: l =>
    match sb with
    | none =>
      match stateLoop i j sb covs sigAdded true l with
      | .error e => .error e
      | .ok r => .ok (.points ((x :: xs).map (proj i j)) (once stAdded .states) :: r)
    | some b =>
      match covs[tt]? with
      | none => .error .index
      | some cs =>
        if (x :: xs).length < cs.length then .error .index
        else
          match stateLoop i j sb covs (sigAdded || !cs.isEmpty) true l with
          | .error e => .error e
          | .ok r => .ok (ellipses i j b sigAdded ((x :: xs).zip cs) ++
              .points ((x :: xs).map (proj i j)) (once stAdded .states) :: r)

/-- The lines of the true states (tracker.py:1109-1123, 2980-2994): line `k` has the `k`-th true state of each time. -/
def truthLines (i j : Fin d) (truth : List (List (Fin d → K))) : List ℕ → Bool → List (Prim K L)
  | [], _ => []
  | k :: ks, added =>
    .truth (truth.map fun xs => (xs[k]?).map (proj i j)) (once added .truth) :: truthLines i j truth ks true

/-- The largest number of true states. -/
def maxTrue (truth : List (List (Fin d → K))) : ℕ := (truth.map List.length).foldr max 0

/-- Whether the dimension of the states is known (tracker.py:1035-1039, 1102-1106). -/
def hasState (h : List (List (Fin d → K))) : Bool := h.any fun x => !x.isEmpty

/-- The true states in `plot_states` (tracker.py:1100-1123): `max` of an empty list is a `ValueError`, an unknown dimension a
`TypeError`. -/
def truthPart (i j : Fin d) (hist : List (List (Fin d → K))) : Option (List (List (Fin d → K))) → Except PlotErr (List (Prim K L))
  | none => .ok []
  | some truth =>
    if truth = [] then .error .value
    else if hasState hist || hasState truth then .ok (truthLines i j truth (List.range (maxTrue truth)) false)
    else .error .type

/-- The measurements (tracker.py:1125-1146). -/
def measPart (tab : List (List (Fin m → K))) : Option (Fin m × Fin m) → List (Prim K L)
  | none => []
  | some (a, b) => [.measPoints (tab.flatten.map (proj a b)) (some .measurements)]

/-- `plot_states` (tracker.py:979-1150). `sigBnd` and `saveCovs` decide whether the ellipses are drawn (line 1025). -/
def plotStates (i j : Fin d) (sigBnd : Option K) (saveCovs : Bool) (truth : Option (List (List (Fin d → K))))
    (measInds : Option (Fin m × Fin m)) (hist : List (List (Fin d → K))) (covs : List (List (Fin d → Fin d → K)))
    (tab : List (List (Fin m → K))) : Except PlotErr (List (Prim K L)) :=
  match stateLoop i j (if saveCovs then sigBnd else none) covs false false hist.zipIdx with
  | .error e => .error e
  | .ok ps =>
    match truthPart i j hist truth with
    | .error e => .error e
    | .ok ts => .ok (ps ++ ts ++ measPart tab measInds)

/-- `animate_state_plot` before the first frame (tracker.py:1192-1230): without a figure, or without a random generator, there
is an `AttributeError`; neither is created here. -/
def animateSetup (fig rng : Option Unit) : Except PlotErr Unit :=
  match fig, rng with
  | none, _ => .error .attribute
  | some _, none => .error .attribute
  | some _, some _ => .ok ()

/-- Frame `tt` of `animate_state_plot` (tracker.py:931-977, 1249-1276): the offsets of the states (unchanged if there are none,
`old`), and those of the measurements. The frames are `0, …, len(self._states) - 1`. -/
def frame (i j : Fin d) (measInds : Option (Fin m × Fin m)) (hist : List (List (Fin d → K))) (tab : List (List (Fin m → K)))
    (old : List (K × K)) (tt : ℕ) : Except PlotErr (List (K × K) × List (K × K)) :=
  match hist[tt]? with
  | none => .error .index
  | some xs =>
    match measInds with
    | none => .ok (if xs = [] then old else xs.map (proj i j), [])
    | some (a, b) =>
      match tab[tt]? with
      | none => .error .index
      | some zs => .ok (if xs = [] then old else xs.map (proj i j), zs.map (proj a b))

/-- The frames shown one after the other: what is visible after the last one. Before the first frame nothing is. -/
def play (i j : Fin d) (measInds : Option (Fin m × Fin m)) (hist : List (List (Fin d → K))) (tab : List (List (Fin m → K))) :
    List (K × K) × List (K × K) → List ℕ → Except PlotErr (List (K × K) × List (K × K))
  | now, [] => .ok now
  | now, tt :: tts =>
    match frame i j measInds hist tab now.1 tt with
    | .error e => .error e
    | .ok next => play i j measInds hist tab next tts

/-! ### `plot_states_labels` -/

section labels
variable [DecidableEq L]

/-- The labels in the order of their first occurrence (tracker.py:2893-2899). -/
def uniqueLabels : List L → List L → List L
  | acc, [] => acc
  | acc, l :: ls => uniqueLabels (if l ∈ acc then acc else acc ++ [l]) ls

/-- The column of one time step for a label (tracker.py:2914-2936): the state with the label, and its covariance if the
ellipses are drawn. `st` and `cv` are `s_lst[tt]` and `self._covs[tt]`. -/
def column (lbl : L) (lbls : List L) (st : Option (List (Fin d → K))) (cv : Option (List (Option (Fin d → Fin d → K)))) (showSig : Bool) :
    Except PlotErr (Option (Fin d → K) × Option (Fin d → Fin d → K)) :=
  if lbl ∈ lbls then
    match st.bind (·[lbls.idxOf lbl]?) with
    | none => .error .index
    | some x =>
      if showSig then
        match cv.bind (·[lbls.idxOf lbl]?) with
        | none => .error .index
        | some P => .ok (some x, P)
      else .ok (some x, none)
  else .ok (none, none)

/-- All columns of a label, for the time steps `tt, tt + 1, …` of the label list. -/
def columns (lbl : L) (hist : List (List (Fin d → K))) (covs : List (List (Option (Fin d → Fin d → K)))) (showSig : Bool) :
    List (List L × ℕ) → Except PlotErr (List (Option (Fin d → K) × Option (Fin d → Fin d → K)))
  | [] => .ok []
  | (lbls, tt) :: r =>
    match column lbl lbls hist[tt]? covs[tt]? showSig with
    | .error e => .error e
    | .ok c =>
      match columns lbl hist covs showSig r with
      | .error e => .error e
      | .ok cs => .ok (c :: cs)

/-- The ellipses of a label (tracker.py:2941-2958). -/
def labelEllipses (i j : Fin d) (bound : K) : Bool → List (Option (Fin d → K) × Option (Fin d → Fin d → K)) → List (Prim K L)
  | _, [] => []
  | added, (_, none) :: l => labelEllipses i j bound added l
  | added, (x, some P) :: l => .ellipse (x.map (proj i j)) (block i j P) bound (once added .sigma) :: labelEllipses i j bound true l

/-- The ellipses of a label if there is a bound. -/
def sigPart (i j : Fin d) (sb : Option K) (sigAdded : Bool) (cols : List (Option (Fin d → K) × Option (Fin d → Fin d → K))) :
    List (Prim K L) :=
  match sb with
  | none => []
  | some b => labelEllipses i j b sigAdded cols

/-- The part of the plot for one label (tracker.py:2907-2976): ellipses, line, text at the first state. A label without any
state would be an `IndexError`. If there are more states than labels the line ends with gaps. -/
def labelPart (i j : Fin d) (sb : Option K) (n : ℕ) (sigAdded stAdded : Bool) (lbl : L)
    (cols : List (Option (Fin d → K) × Option (Fin d → Fin d → K))) : Except PlotErr (List (Prim K L)) :=
  match (cols.filterMap Prod.fst).head? with
  | none => .error .index
  | some x => .ok (sigPart i j sb sigAdded cols ++
      [.track ((cols.map fun c => c.1.map (proj i j)) ++ List.replicate (n - cols.length) none) (once stAdded .states),
       .text (proj i j x) lbl])

/-- The loop over the labels (tracker.py:2906-2976). -/
def labelLoop (i j : Fin d) (sb : Option K) (hist : List (List (Fin d → K))) (covs : List (List (Option (Fin d → Fin d → K))))
    (labels : List (List L)) : Bool → Bool → List L → Except PlotErr (List (Prim K L))
  | _, _, [] => .ok []
  | sigAdded, stAdded, l :: ls =>
    match columns l hist covs sb.isSome labels.zipIdx with
    | .error e => .error e
    | .ok cols =>
      match labelPart i j sb hist.length sigAdded stAdded l cols with
      | .error e => .error e
      | .ok ps =>
        match labelLoop i j sb hist covs labels (sigAdded || cols.any fun c => c.2.isSome) true ls with
        | .error e => .error e
        | .ok r => .ok (ps ++ r)

/-- The true states in `plot_states_labels` (tracker.py:2973-2994): skipped unless there is one. -/
def truthPartL (i j : Fin d) : Option (List (List (Fin d → K))) → List (Prim K L)
  | none => []
  | some truth => if hasState truth then truthLines i j truth (List.range (maxTrue truth)) false else []

/-- The measurements in `plot_states_labels` (tracker.py:2868-2870, 2997-3020): transformed by `meas_tx_fnc` if that is given,
by the two indices otherwise; only if the filter saves them and if there are any. -/
def measPartL (tab : List (List (Fin m → K))) (measInds : Option (Fin m × Fin m)) (tx : Option ((Fin m → K) → K × K)) (save : Bool) :
    List (Prim K L) :=
  match (match tx with | some f => some f | none => measInds.map fun a => proj a.1 a.2) with
  | none => []
  | some f => if save ∧ tab.flatten ≠ [] then [.measPoints (tab.flatten.map f) (some .measurements)] else []

/-- `plot_states_labels` (tracker.py:2824-3031). -/
def plotLabels (i j : Fin d) (sigBnd : Option K) (saveCovs : Bool) (truth : Option (List (List (Fin d → K))))
    (measInds : Option (Fin m × Fin m)) (tx : Option ((Fin m → K) → K × K)) (saveMeas : Bool) (hist : List (List (Fin d → K)))
    (labels : List (List L)) (covs : List (List (Option (Fin d → Fin d → K)))) (tab : List (List (Fin m → K))) :
    Except PlotErr (List (Prim K L)) :=
  match labelLoop i j (if saveCovs then sigBnd else none) hist covs labels false false (uniqueLabels [] labels.flatten) with
  | .error e => .error e
  | .ok ps => .ok (ps ++ truthPartL i j truth ++ measPartL tab measInds tx saveMeas)

end labels

/-! ### Cardinality plots -/

/-- `plot_card_dist` (tracker.py:1595-1639, 3033-3069): an empty distribution raises `RuntimeWarning`. -/
def plotCardDist (dist : List K) : Except PlotErr (List (Prim K L)) :=
  if dist = [] then .error .warning else .ok [.bars (List.range dist.length) dist]

/-- Drawing a curve. -/
def curve (xs ys : List K) (lbl : Option Legend) : Except PlotErr (Prim K L) :=
  if xs.length = ys.length then .ok (.graph xs ys lbl) else .error .value

/-- `plot_card_history` of the CPHD filter (tracker.py:1641-1723). The history holds mode and standard deviation; the result
tells whether there was a warning about the true cardinalities. -/
def plotCardHistory [Field K] (hist : List (ℕ × K)) (sigBnd : Option K) (timeVec : Option (List K)) (truth : Option (List K)) :
    Except PlotErr (List (Prim K L) × Bool) :=
  if hist = [] then .error .warning
  else
    let card : List K := hist.map fun x => (x.1 : K)
    let xs : List K := timeVec.getD ((List.range card.length).map fun k : ℕ => (k : K))
    let tr : List (Prim K L) × Bool := match truth with
      | none => ([], false)
      | some t => if t.length = xs.length then ([.graph xs t (some .trueCardinality)], false) else ([], true)
    match curve xs card (some .cardinality) with
    | .error e => .error e
    | .ok c =>
      match sigBnd with
      | none => .ok (tr.1 ++ [c], tr.2)
      | some b => .ok (tr.1 ++ [c, .graph xs (hist.map fun x => (x.1 : K) + b * x.2) (some .sigma),
          .graph xs (hist.map fun x => (x.1 : K) - b * x.2) none], tr.2)

/-- `plot_card_history` of the GLMB filters (tracker.py:3071-3116): without abscissae `self.card_history`, which does not exist,
is read. -/
def plotGlmbCard (states : List (List (Fin d → K))) (time : Option (List K)) : Except PlotErr (List (Prim K L)) :=
  match time with
  | none => .error .attribute
  | some t => if t.length = states.length then .ok [.steps t (states.map List.length)] else .error .value

/-- `plot_number_states_per_time` (tracker.py:1725-1773): only a warning unless `debug_plots` is set. -/
def plotNumStates [NatCast K] (debug : Bool) (counts : List ℕ) : List (Prim K L) :=
  if debug then [.graph ((List.range counts.length).map fun k : ℕ => (k : K)) (counts.map fun k : ℕ => (k : K)) none] else []

/-! ### OSPA plots -/

/-- A figure: an identity and, for each of its axes, the curves drawn on it. Figures that are created get the number `fresh`. -/
structure Fig (K : Type) where
  id : ℕ
  axes : List (List (List K × List K))

/-- Drawing a curve on axes number `k`. -/
def Fig.plot (f : Fig K) (k : ℕ) (xs ys : List K) : Except PlotErr (Fig K) :=
  match f.axes[k]? with
  | none => .error .index
  | some a => if xs.length = ys.length then .ok { f with axes := f.axes.set k (a ++ [(xs, ys)]) } else .error .value

/-- The abscissae (tracker.py:431-432, 471-472). -/
def abscissae [NatCast K] (time : Option (List K)) (ys : List K) : List K :=
  time.getD ((List.range ys.length).map fun k : ℕ => (k : K))

/-- `_plt_ospa_hist` (tracker.py:424-443). -/
def ospaMain [NatCast K] (fresh : ℕ) (given : Option (Fig K)) (time : Option (List K)) (ys : List K) : Except PlotErr (Fig K) :=
  (given.getD ⟨fresh, [[]]⟩).plot 0 (abscissae time ys) ys

/-- `_plt_ospa_hist_subs` (tracker.py:445-477) with the two components: once the abscissae have been made for the first one
they are used for the second one too. Setting titles and labels is assumed not to fail. -/
def ospaSubs [NatCast K] (fresh : ℕ) (given : Option (Fig K)) (time : Option (List K)) (y0 y1 : List K) : Except PlotErr (Fig K) :=
  match (given.getD ⟨fresh, [[], []]⟩).plot 0 (abscissae time y0) y0 with
  | .error e => .error e
  | .ok f => f.plot 1 (abscissae time y0) y1

/-- `plot_ospa_history` and `plot_ospa2_history` (tracker.py:479-545, 3118-3185): `none` is the warning that nothing has been
calculated; `mainFig` and `subFig` are the figures in `main_opts` and `sub_opts`. A given figure is changed in place, so the
second call finds what the first one has drawn (and the result holds the same figure twice); the options for the components are not used (lines 539-543, 3179-3183). -/
def plotOspa [NatCast K] (fresh : ℕ) (mainFig _subFig : Option (Fig K)) (time : Option (List K)) (plotSubs : Bool)
    (res : Option (List K × List K × List K)) : Except PlotErr (Option (Fig K × Option (Fig K))) :=
  match res with
  | none => .ok none
  | some (tot, loc, card) =>
    match ospaMain fresh mainFig time tot with
    | .error e => .error e
    | .ok f =>
      if plotSubs then
        match ospaSubs (fresh + 1) (mainFig.map fun _ => f) time loc card with
        | .error e => .error e
        | .ok g => .ok (some (if mainFig.isSome then g else f, some g))
      else .ok (some (f, none))

/-! ### What the PHD filter reports, and the table of measurements -/

/-- `states` of the PHD filters (tracker.py:609-620). -/
def latest {α : Type} (h : List (List α)) : List α := h.getLast?.getD []

/-- `cardinality` of the PHD filter (tracker.py:644-649). -/
def phdCardinality {α : Type} (h : List (List α)) : ℕ := (latest h).length

/-- `covariances` of the PHD filters (tracker.py:622-642). -/
def phdCovariances {α : Type} (saveCovs : Bool) (h : List (List α)) : List α := if saveCovs then latest h else []

/-- The filters with respect to the table of measurements. -/
inductive Kind
  | phd
  | glmb
  | joint
  deriving DecidableEq

/-- What `correct` records (tracker.py:754, 1429, 2462-2463, 3594). -/
def record {Z : Type} (k : Kind) (saveMeas : Bool) (tab : List (List Z)) (meas : List Z) : List (List Z) :=
  match k with
  | .phd => tab ++ [meas]
  | .glmb => if saveMeas then tab ++ [meas] else tab
  | .joint => tab ++ [meas]

/-- The table after a sequence of `correct` calls. -/
def recordAll {Z : Type} (k : Kind) (saveMeas : Bool) (calls : List (List Z)) : List (List Z) :=
  calls.foldl (record k saveMeas) []

end Gasur.Plot
