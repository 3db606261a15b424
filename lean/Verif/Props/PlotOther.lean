import Verif.Props.PlotMore
import Verif.Model.Ospa
import Mathlib.Data.Rat.Defs
import Mathlib.Algebra.Field.Rat
import Mathlib.Data.List.Count
import Mathlib.Data.Finset.Card

/-!
# Properties C107 to C111: cardinality plots, OSPA plots, animation, recorded measurements
-/

set_option linter.unusedSectionVars false

namespace Gasur.Props

open Gasur.Plot Gasur.Spec

variable {K L : Type} {d m : ℕ}

/-! ### C105, C106: nothing else is drawn -/

section nothing
variable (i j : Fin d)

/-- A drawing call of one of the kinds of `plot_states`. -/
def KnownP (q : Prim K L) : Prop := (pointsOf q).isSome ∨ (ellipseOf q).isSome ∨ (truthOf q).isSome ∨ (measOf q).isSome

/-- A drawing call of one of the kinds of `plot_states_labels`. -/
def KnownL (q : Prim K L) : Prop :=
  (trackOf q).isSome ∨ (textOf q).isSome ∨ (ellipseOf q).isSome ∨ (truthOf q).isSome ∨ (measOf q).isSome

theorem known_ellipses (b : K) : ∀ (a : Bool) (l : List ((Fin d → K) × (Fin d → Fin d → K))),
    ∀ q ∈ (ellipses i j b a l : List (Prim K L)), (ellipseOf q).isSome
  | _, [] => fun q hq => absurd hq (by simp [ellipses])
  | a, (x, P) :: l => by
    intro q hq
    rcases List.mem_cons.1 hq with rfl | hq
    · rfl
    · exact known_ellipses b true l q hq

theorem known_labelEllipses (b : K) : ∀ (a : Bool) (l : List (Option (Fin d → K) × Option (Fin d → Fin d → K))),
    ∀ q ∈ (labelEllipses i j b a l : List (Prim K L)), (ellipseOf q).isSome
  | _, [] => fun q hq => absurd hq (by simp [labelEllipses])
  | a, (x, none) :: l => by
    intro q hq
    exact known_labelEllipses b a l q hq
  | a, (x, some P) :: l => by
    intro q hq
    rcases List.mem_cons.1 hq with rfl | hq
    · rfl
    · exact known_labelEllipses b true l q hq

theorem known_truth (truth : List (List (Fin d → K))) : ∀ (ks : List ℕ) (a : Bool),
    ∀ q ∈ (truthLines i j truth ks a : List (Prim K L)), (truthOf q).isSome
  | [], _ => fun q hq => absurd hq (by simp [truthLines])
  | k :: ks, a => by
    intro q hq
    rcases List.mem_cons.1 hq with rfl | hq
    · rfl
    · exact known_truth truth ks true q hq

theorem known_stateLoop (sb : Option K) (covs : List (List (Fin d → Fin d → K))) : ∀ (l : List (List (Fin d → K) × ℕ)) (s t : Bool)
    (ps : List (Prim K L)), stateLoop i j sb covs s t l = .ok ps → ∀ q ∈ ps, KnownP q := by
  intro l
  induction l with
  | nil =>
    intro s t ps h
    obtain rfl := Except.ok.inj h
    simp
  | cons x l ih =>
    intro s t ps h
    obtain ⟨xs, n⟩ := x
    cases xs with
    | nil => exact ih s t ps h
    | cons x xs =>
      unfold stateLoop at h
      cases sb with
      | none =>
        dsimp only at h
        split at h
        · exact (nomatch h)
        rename_i r hr
        obtain rfl := Except.ok.inj h
        intro q hq
        rcases List.mem_cons.1 hq with rfl | hq
        · exact .inl rfl
        · exact ih _ _ r hr q hq
      | some b =>
        dsimp only at h
        split at h
        · exact (nomatch h)
        rename_i cs hcs
        by_cases hlen : (x :: xs).length < cs.length
        · rw [if_pos hlen] at h; exact (nomatch h)
        rw [if_neg hlen] at h
        split at h
        · exact (nomatch h)
        rename_i r hr
        obtain rfl := Except.ok.inj h
        intro q hq
        rcases List.mem_append.1 hq with hq | hq
        · exact .inr (.inl (known_ellipses i j b _ _ q hq))
        · rcases List.mem_cons.1 hq with rfl | hq
          · exact .inl rfl
          · exact ih _ _ r hr q hq

/-- **C105, nothing else.** Every drawing call of `plot_states` is one for states, ellipses, true states or measurements. -/
theorem C105_nothing_else (sigBnd : Option K) (saveCovs : Bool) (truth : Option (List (List (Fin d → K))))
    (measInds : Option (Fin m × Fin m)) (hist : List (List (Fin d → K))) (covs : List (List (Fin d → Fin d → K)))
    (tab : List (List (Fin m → K))) (ps : List (Prim K L))
    (h : plotStates i j sigBnd saveCovs truth measInds hist covs tab = .ok ps) : ∀ q ∈ ps, KnownP q := by
  unfold plotStates at h
  split at h
  · exact (nomatch h)
  rename_i qs hq
  split at h
  · exact (nomatch h)
  rename_i ts ht
  obtain rfl := Except.ok.inj h
  intro q hm
  rcases List.mem_append.1 hm with hm | hm
  · rcases List.mem_append.1 hm with hm | hm
    · exact known_stateLoop i j _ covs _ _ _ _ hq q hm
    · unfold truthPart at ht
      split at ht
      · obtain rfl := Except.ok.inj ht
        exact absurd hm (by simp)
      · split at ht
        · exact (nomatch ht)
        · split at ht
          · obtain rfl := Except.ok.inj ht
            exact .inr (.inr (.inl (known_truth i j _ _ _ q hm)))
          · exact (nomatch ht)
  · unfold measPart at hm
    split at hm
    · exact absurd hm (by simp)
    · rw [List.mem_singleton.1 hm]
      exact .inr (.inr (.inr rfl))

/-- **C106, nothing else.** Every drawing call of `plot_states_labels` is a line or text of a label or one for ellipses, true states
or measurements. -/
theorem C106_nothing_else [DecidableEq L] (sigBnd : Option K) (saveCovs : Bool) (truth : Option (List (List (Fin d → K))))
    (measInds : Option (Fin m × Fin m)) (tx : Option ((Fin m → K) → K × K)) (saveMeas : Bool) (hist : List (List (Fin d → K)))
    (labels : List (List L)) (covs : List (List (Option (Fin d → Fin d → K)))) (tab : List (List (Fin m → K))) (ps : List (Prim K L))
    (h : plotLabels i j sigBnd saveCovs truth measInds tx saveMeas hist labels covs tab = .ok ps) : ∀ q ∈ ps, KnownL q := by
  have key : ∀ (sb : Option K) (ls : List L) (s t : Bool) (ps : List (Prim K L)),
      labelLoop i j sb hist covs labels s t ls = .ok ps → ∀ q ∈ ps, KnownL q := by
    intro sb ls
    induction ls with
    | nil =>
      intro s t ps h
      obtain rfl := Except.ok.inj h
      simp
    | cons l ls ih =>
      intro s t ps h
      unfold labelLoop at h
      split at h
      · exact (nomatch h)
      rename_i cols _
      split at h
      · exact (nomatch h)
      rename_i part hpart
      split at h
      · exact (nomatch h)
      rename_i r hr
      obtain rfl := Except.ok.inj h
      intro q hq
      rcases List.mem_append.1 hq with hq | hq
      · unfold labelPart at hpart
        split at hpart
        · exact (nomatch hpart)
        · obtain rfl := Except.ok.inj hpart
          rcases List.mem_append.1 hq with hq | hq
          · unfold sigPart at hq
            split at hq
            · exact absurd hq (by simp)
            · exact .inr (.inr (.inl (known_labelEllipses i j _ _ _ q hq)))
          · rcases List.mem_cons.1 hq with rfl | hq
            · exact .inl rfl
            · rw [List.mem_singleton.1 hq]
              exact .inr (.inl rfl)
      · exact ih _ _ r hr q hq
  unfold plotLabels at h
  split at h
  · exact (nomatch h)
  rename_i qs hqs
  obtain rfl := Except.ok.inj h
  intro q hm
  rcases List.mem_append.1 hm with hm | hm
  · rcases List.mem_append.1 hm with hm | hm
    · exact key _ _ _ _ _ hqs q hm
    · unfold truthPartL at hm
      split at hm
      · exact absurd hm (by simp)
      · split at hm
        · exact .inr (.inr (.inr (.inl (known_truth i j _ _ _ q hm))))
        · exact absurd hm (by simp)
  · unfold measPartL at hm
    split at hm
    · exact absurd hm (by simp)
    · split at hm
      · rw [List.mem_singleton.1 hm]
        exact .inr (.inr (.inr (.inr rfl)))
      · exact absurd hm (by simp)

end nothing

/-! ### C107 -/

/-- **C107, partial.** If as many abscissae are given as there are time steps, `plot_card_history` of the GLMB filters draws one
step line with the number of reported states of each time step, and nothing else; with another number it raises `ValueError`.
*Missing:* the default, indices as abscissae, always fails (`C107_refuted`). -/
theorem C107_card_history_partial (states : List (List (Fin d → K))) (t : List K) :
    (t.length = states.length → (plotGlmbCard states (some t) : Except PlotErr (List (Prim K L))) =
      .ok [.steps t (states.map List.length)]) ∧
    (t.length ≠ states.length → (plotGlmbCard states (some t) : Except PlotErr (List (Prim K L))) = .error .value) := by
  unfold plotGlmbCard
  constructor
  · intro h
    dsimp only
    rw [if_pos h]
  · intro h
    dsimp only
    rw [if_neg h]

/-- **C107 is false of this code**: without abscissae the call always raises `AttributeError`, whatever has been estimated. -/
theorem C107_refuted (states : List (List (Fin d → K))) :
    (plotGlmbCard states none : Except PlotErr (List (Prim K L))) = .error .attribute := rfl

theorem countP_nodup {L : Type} [DecidableEq L] {U ls : List L} (hU : U.Nodup) (hls : ls.Nodup) (hs : ∀ l ∈ ls, l ∈ U) :
    U.countP (fun l => decide (l ∈ ls)) = ls.length := by
  rw [List.countP_eq_length_filter]
  apply List.Perm.length_eq
  rw [List.perm_ext_iff_of_nodup (hU.filter _) hls]
  intro l
  rw [List.mem_filter]
  constructor
  · rintro ⟨_, h⟩
    exact of_decide_eq_true h
  · exact fun h => ⟨hs l h, decide_eq_true h⟩

/-- **C107, both plots agree.** For every history as in C106, the height of the step line at time `t` is the number of lines of
`plot_states_labels` that have a point at `t`. -/
theorem C107_agrees_with_tracks [DecidableEq L] (i j : Fin d) (sigBnd : Option K) (saveCovs : Bool)
    (truth : Option (List (List (Fin d → K)))) (measInds : Option (Fin m × Fin m)) (tx : Option ((Fin m → K) → K × K))
    (saveMeas : Bool) (hist : List (List (Fin d → K))) (labels : List (List L)) (covs : List (List (Option (Fin d → Fin d → K))))
    (tab : List (List (Fin m → K))) (ha : Agree hist labels covs) (hn : ∀ ls ∈ labels, ls.Nodup)
    {ps : List (Prim K L)} (hp : plotLabels i j sigBnd saveCovs truth measInds tx saveMeas hist labels covs tab = .ok ps)
    (time : List K) {ys : List ℕ} (hc : (plotGlmbCard hist (some time) : Except PlotErr (List (Prim K L))) = .ok [.steps time ys])
    (t : ℕ) (ht : t < hist.length) :
    ys[t]? = some ((ps.filterMap trackOf).countP fun tr => (tr[t]?).join.isSome) := by
  obtain ⟨ps', U, p1, p2, p3, p4, p5, p6, _⟩ := C106_plot_labels i j sigBnd saveCovs truth measInds tx saveMeas hist labels covs tab ha hn
  rw [hp] at p1
  obtain rfl := Except.ok.inj p1
  have hys : ys = hist.map List.length := by
    unfold plotGlmbCard at hc
    dsimp only at hc
    split at hc
    · have := Except.ok.inj hc
      injection this with h1
      injection h1 with h1 h2
      exact h2.symm
    · exact (nomatch hc)
  have htl : t < labels.length := by rw [← ha.1]; exact ht
  have htc : t < covs.length := by rw [ha.2.1]; exact htl
  obtain ⟨l1, _⟩ := ha.2.2 t hist[t] labels[t] covs[t] (List.getElem?_eq_getElem ht) (List.getElem?_eq_getElem htl) (List.getElem?_eq_getElem htc)
  have hmap : (ps.filterMap trackOf).map (fun tr => (tr[t]?).join.isSome) = U.map fun l => decide (l ∈ labels[t]) := by
    apply List.ext_getElem?
    intro k
    rw [List.getElem?_map, List.getElem?_map]
    by_cases hk : k < U.length
    · have hk2 : k < (ps.filterMap trackOf).length := by rw [p5]; exact hk
      have hk3 : k < (ps.filterMap textOf).length := by
        have := congrArg List.length p4
        rw [List.length_map] at this
        omega
      have e2 : ((ps.filterMap textOf)[k]).2 = U[k] := by
        have := congrArg (fun l => l[k]?) p4
        rw [List.getElem?_map, List.getElem?_eq_getElem hk3, List.getElem?_eq_getElem hk] at this
        exact Option.some.inj this
      rw [List.getElem?_eq_getElem hk, List.getElem?_eq_getElem hk2, Option.map_some, Option.map_some]
      congr 1
      obtain ⟨q1, q2, q3⟩ := p6 k U[k] _ ((ps.filterMap textOf)[k]).1 (List.getElem?_eq_getElem hk) (List.getElem?_eq_getElem hk2)
        (by rw [List.getElem?_eq_getElem hk3, ← e2])
      rw [Bool.eq_iff_iff, Option.isSome_iff_exists]
      constructor
      · rintro ⟨p, hp'⟩
        have : ((ps.filterMap trackOf)[k])[t]? = some (some p) := by
          cases h : ((ps.filterMap trackOf)[k])[t]? with
          | none => rw [h] at hp'; exact (nomatch hp')
          | some o => rw [h] at hp'; exact congrArg some hp'
        obtain ⟨xs, ls, x, a1, a2, a3, _⟩ := (q3 t p).1 this
        rw [List.getElem?_eq_getElem htl] at a2
        obtain rfl := Option.some.inj a2
        exact decide_eq_true (List.of_mem_zip a3).2
      · intro hl
        obtain ⟨n, hn1, hn2⟩ := List.getElem_of_mem (of_decide_eq_true hl)
        have hn3 : n < (hist[t]).length := by rw [l1]; exact hn1
        have hz : ((hist[t])[n], U[k]) ∈ (hist[t]).zip labels[t] := by
          rw [List.mem_iff_getElem?]
          refine ⟨n, List.getElem?_zip_eq_some.2 ⟨List.getElem?_eq_getElem _, ?_⟩⟩
          rw [List.getElem?_eq_getElem hn1, hn2]
        refine ⟨((hist[t])[n] i, (hist[t])[n] j), ?_⟩
        rw [(q3 t _).2 ⟨hist[t], labels[t], _, List.getElem?_eq_getElem ht, List.getElem?_eq_getElem htl, hz, rfl⟩]
        rfl
    · rw [List.getElem?_eq_none (by omega), List.getElem?_eq_none (by omega)]
      rfl
  have hcount : (ps.filterMap trackOf).countP (fun tr => (tr[t]?).join.isSome) = U.countP fun l => decide (l ∈ labels[t]) := by
    have h1 := List.countP_map (p := id) (f := fun tr : List (Option (K × K)) => (tr[t]?).join.isSome) (l := ps.filterMap trackOf)
    have h2 := List.countP_map (p := id) (f := fun l => decide (l ∈ labels[t])) (l := U)
    rw [hmap] at h1
    exact h1.symm.trans h2
  rw [hcount, countP_nodup p2 (hn _ (List.getElem_mem htl)) (fun l hl => (p3 l).2 ⟨_, List.getElem_mem htl, hl⟩), hys,
    List.getElem?_map, List.getElem?_eq_getElem ht, Option.map_some, l1]

/-- A concrete figure: label 7 at the times 0 and 2, label 8 at time 0. -/
example : ∃ ps : List (Prim ℚ ℕ), plotLabels (d := 2) (m := 1) 0 1 none true none none none false
    [[![1, 2], ![3, 4]], [], [![5, 6]]] [[7, 8], [], [7]] [[none, none], [], [none]] [] = .ok ps ∧
    ps.filterMap trackOf = [[some (1, 2), none, some (5, 6)], [some (3, 4), none, none]] ∧
    ps.filterMap textOf = [((1, 2), 7), ((3, 4), 8)] ∧
    (plotGlmbCard [[![1, 2], ![3, 4]], [], [![5, 6]]] (some [0, 1, 2]) : Except PlotErr (List (Prim ℚ ℕ))) =
      .ok [.steps [0, 1, 2] [2, 0, 1]] := ⟨_, rfl, rfl, rfl, rfl⟩

/-! ### C108 -/

section ospa
variable [Field K]

/-- The abscissae the user expects: the given ones, otherwise the indices. -/
def axisOf (time : Option (List K)) (n : ℕ) : List K := time.getD ((List.range n).map fun k : ℕ => (k : K))

/-- **C108, partial.** Let `r` be the localisation and cardinality values of all time steps. Without figures in the options, and
with as many abscissae as values if abscissae are given, `plot_ospa_history` and `plot_ospa2_history` draw the sums on a new
figure and, if asked, the two components on the two axes of another new figure. If a figure is given and the components are
not asked for, the curve is added to its first axes and nothing else is changed. If nothing has been calculated there is no figure.
*Missing:* the figure and options for the components are not used, and a figure for the main plot is used for the components
too, which fails if it has one axes only (`C108_refuted`). -/
theorem C108_ospa_plot_partial (fresh : ℕ) (subFig : Option (Fig K)) (time : Option (List K)) (r : List (K × K))
    (ht : ∀ t, time = some t → t.length = r.length) :
    (∃ f g : Fig K, plotOspa fresh none subFig time true (some (r.map fun x => x.1 + x.2, r.map Prod.fst, r.map Prod.snd)) =
        .ok (some (f, some g)) ∧ f.id ≠ g.id ∧ f.axes = [[(axisOf time r.length, r.map fun x => x.1 + x.2)]] ∧
        g.axes = [[(axisOf time r.length, r.map Prod.fst)], [(axisOf time r.length, r.map Prod.snd)]]) ∧
    (∃ f : Fig K, plotOspa fresh none subFig time false (some (r.map fun x => x.1 + x.2, r.map Prod.fst, r.map Prod.snd)) =
        .ok (some (f, none)) ∧ f.axes = [[(axisOf time r.length, r.map fun x => x.1 + x.2)]]) ∧
    (∀ (F : Fig K) (a : List (List K × List K)) (as : List (List (List K × List K))), F.axes = a :: as →
      ∃ f : Fig K, plotOspa fresh (some F) subFig time false (some (r.map fun x => x.1 + x.2, r.map Prod.fst, r.map Prod.snd)) =
        .ok (some (f, none)) ∧ f.id = F.id ∧ f.axes = (a ++ [(axisOf time r.length, r.map fun x => x.1 + x.2)]) :: as) ∧
    (∀ mainFig b, plotOspa fresh mainFig subFig time b none = .ok none) := by
  have hax : ∀ ys : List K, ys.length = r.length → abscissae time ys = axisOf time r.length := by
    intro ys hy
    unfold abscissae axisOf
    rw [hy]
  have hlen : (axisOf time r.length).length = r.length := by
    cases time with
    | none => simp [axisOf]
    | some t => exact ht t rfl
  have h0 : (r.map fun x => x.1 + x.2).length = r.length := List.length_map ..
  have h1 : (r.map Prod.fst).length = r.length := List.length_map ..
  have h2 : (r.map Prod.snd).length = r.length := List.length_map ..
  have plot0 : ∀ (F : Fig K) (a : List (List K × List K)) (as : List (List (List K × List K))) (ys : List K), F.axes = a :: as →
      ys.length = r.length → F.plot 0 (axisOf time r.length) ys = .ok ⟨F.id, (a ++ [(axisOf time r.length, ys)]) :: as⟩ := by
    intro F a as ys hF hy
    unfold Fig.plot
    rw [hF]
    dsimp only [List.getElem?_cons_zero]
    rw [if_pos (by rw [hlen, hy])]
    rfl
  have plot1 : ∀ (F : Fig K) (a b : List (List K × List K)) (ys : List K), F.axes = [a, b] →
      ys.length = r.length → F.plot 1 (axisOf time r.length) ys = .ok ⟨F.id, [a, b ++ [(axisOf time r.length, ys)]]⟩ := by
    intro F a b ys hF hy
    unfold Fig.plot
    rw [hF]
    dsimp only [List.getElem?_cons_zero, List.getElem?_cons_succ]
    rw [if_pos (by rw [hlen, hy])]
    rfl
  refine ⟨?_, ?_, ?_, ?_⟩
  · refine ⟨⟨fresh, [[(axisOf time r.length, r.map fun x => x.1 + x.2)]]⟩,
      ⟨fresh + 1, [[(axisOf time r.length, r.map Prod.fst)], [(axisOf time r.length, r.map Prod.snd)]]⟩, ?_, ?_, rfl, rfl⟩
    · unfold plotOspa ospaMain ospaSubs
      dsimp only [Option.getD_none, Option.map_none]
      rw [hax _ h0, plot0 _ [] [] _ rfl h0]
      dsimp only
      rw [if_pos rfl, hax _ h1, plot0 _ [] [[]] _ rfl h1]
      dsimp only
      rw [plot1 _ _ _ _ rfl h2]
      rfl
    · show fresh ≠ fresh + 1
      omega
  · refine ⟨⟨fresh, [[(axisOf time r.length, r.map fun x => x.1 + x.2)]]⟩, ?_, rfl⟩
    unfold plotOspa ospaMain
    dsimp only [Option.getD_none]
    rw [hax _ h0, plot0 _ [] [] _ rfl h0]
    rfl
  · intro F a as hF
    refine ⟨⟨F.id, (a ++ [(axisOf time r.length, r.map fun x => x.1 + x.2)]) :: as⟩, ?_, rfl, rfl⟩
    unfold plotOspa ospaMain
    dsimp only [Option.getD_some]
    rw [hax _ h0, plot0 _ a as _ hF h0]
    rfl
  · intro mainFig b
    rfl

/-- **C108 is false of this code.** A figure with two axes given for the components is not used (the figure returned for them is
another one); and with a figure with one axes for the main plot the call raises `IndexError`. -/
theorem C108_refuted (loc card : K) (id fresh : ℕ) (hid : id < fresh) :
    (∃ f g : Fig K, plotOspa fresh none (some ⟨id, [[], []]⟩) none true (some ([loc + card], [loc], [card])) = .ok (some (f, some g)) ∧
      g.id ≠ id) ∧
    plotOspa fresh (some ⟨id, [[]]⟩) none none true (some ([loc + card], [loc], [card])) = .error .index := by
  constructor
  · refine ⟨_, _, rfl, ?_⟩
    show fresh + 1 ≠ id
    omega
  · rfl

end ospa

/-- The OSPA values of a filter are such lists: `C108_ospa_plot_partial` applies after every successful calculation of the OSPA
distance, with the truth's time steps as abscissae. -/
theorem C108_after_ospa {s : ℕ} (lsa : Ospa.Lsa) (est truth : List (List (Option (Ospa.Obj s)))) (c : ℝ) (p : ℕ)
    (method : Option Ospa.Method) (ht he : Bool) {r : List (ℝ × ℝ)} (_hr : Ospa.filterOspa lsa est truth c p method ht he = .ok r)
    (fresh : ℕ) (subFig : Option (Fig ℝ)) :
    ∃ f g : Fig ℝ, plotOspa fresh none subFig none true (some (r.map Ospa.total, r.map Prod.fst, r.map Prod.snd)) =
        .ok (some (f, some g)) ∧ f.id ≠ g.id ∧ f.axes = [[((List.range r.length).map fun k : ℕ => (k : ℝ), r.map Ospa.total)]] ∧
        g.axes = [[((List.range r.length).map fun k : ℕ => (k : ℝ), r.map Prod.fst)], [((List.range r.length).map fun k : ℕ => (k : ℝ), r.map Prod.snd)]] :=
  (C108_ospa_plot_partial fresh subFig none r (fun _ h => (nomatch h))).1

/-! ### C109 -/

section cphd
variable [Field K]

/-- The curve of the true cardinalities, if there are `n` of them. -/
def trueCurve (xs : List K) (n : ℕ) : Option (List K) → List (Prim K L)
  | some c => if c.length = n then [.graph xs c (some .trueCardinality)] else []
  | none => []

/-- The curves of the bounds: modes plus and minus the bound times the standard deviation. -/
def boundCurves (xs : List K) (hist : List (ℕ × K)) : Option K → List (Prim K L)
  | some b => [.graph xs (hist.map fun x => (x.1 : K) + b * x.2) (some .sigma), .graph xs (hist.map fun x => (x.1 : K) - b * x.2) none]
  | none => []

/-- **C109.** For every history of modes and standard deviations, bound, abscissae and true cardinalities: `plot_card_history` of
the CPHD filter raises `RuntimeWarning` if there is no history and `ValueError` if the number of abscissae is not that of the
history. Otherwise it draws exactly these curves: the true cardinalities if their number is right (if it is not they are left
out with a warning), the modes, and, if a bound is given, the modes plus and minus the bound times the standard deviation; and
no legend entry occurs twice. -/
theorem C109_card_history (hist : List (ℕ × K)) (sigBnd : Option K) (time : Option (List K)) (truth : Option (List K)) :
    (hist = [] → (plotCardHistory hist sigBnd time truth : Except PlotErr (List (Prim K L) × Bool)) = .error .warning) ∧
    (hist ≠ [] → (∃ t, time = some t ∧ t.length ≠ hist.length) →
      (plotCardHistory hist sigBnd time truth : Except PlotErr (List (Prim K L) × Bool)) = .error .value) ∧
    (hist ≠ [] → (∀ t, time = some t → t.length = hist.length) →
      ∃ (ps : List (Prim K L)) (warned : Bool), plotCardHistory hist sigBnd time truth = .ok (ps, warned) ∧
      (ps.filterMap legendOf).Nodup ∧
      (warned = true ↔ ∃ c, truth = some c ∧ c.length ≠ hist.length) ∧
      ps = trueCurve (axisOf time hist.length) hist.length truth ++
        .graph (axisOf time hist.length) (hist.map fun x => (x.1 : K)) (some .cardinality) ::
        boundCurves (axisOf time hist.length) hist sigBnd) := by
  refine ⟨?_, ?_, ?_⟩
  · intro h
    unfold plotCardHistory
    rw [if_pos h]
  · rintro h ⟨t, rfl, ht⟩
    unfold plotCardHistory
    rw [if_neg h]
    dsimp only
    unfold curve
    rw [Option.getD_some, List.length_map, if_neg ht]
  · intro h ht
    have hlen : (axisOf time hist.length).length = hist.length := by
      cases time with
      | none => simp [axisOf]
      | some t => exact ht t rfl
    have hax : time.getD ((List.range (hist.map fun x => (x.1 : K)).length).map fun k : ℕ => (k : K)) = axisOf time hist.length := by
      unfold axisOf
      rw [List.length_map]
    unfold plotCardHistory
    rw [if_neg h]
    dsimp only
    unfold curve
    rw [hax, hlen, List.length_map, if_pos rfl]
    dsimp only
    have leg : ∀ (tr : List (Prim K L)) (xs ys : List K), (tr = [] ∨ tr.filterMap legendOf = [.trueCardinality]) →
        ((tr ++ Prim.graph xs ys (some .cardinality) :: boundCurves xs hist sigBnd).filterMap legendOf).Nodup := by
      intro tr xs ys htr
      rw [List.filterMap_append, List.filterMap_cons_some (f := legendOf) (b := Legend.cardinality) rfl]
      have hb : (boundCurves xs hist sigBnd : List (Prim K L)).filterMap legendOf = [] ∨
          (boundCurves xs hist sigBnd : List (Prim K L)).filterMap legendOf = [.sigma] := by
        cases sigBnd with
        | none => exact .inl rfl
        | some b => exact .inr rfl
      rcases htr with rfl | htr
      · rcases hb with hb | hb <;> rw [hb] <;> simp
      · rcases hb with hb | hb <;> rw [hb, htr] <;> simp
    cases truth with
    | none =>
      refine ⟨_, false, ?_, leg [] _ _ (.inl rfl), by simp, rfl⟩
      cases sigBnd <;> rfl
    | some c =>
      by_cases hc : c.length = hist.length
      · have hT : (trueCurve (axisOf time hist.length) hist.length (some c) : List (Prim K L)) = [Prim.graph (axisOf time hist.length) c (some .trueCardinality)] := if_pos hc
        refine ⟨_, false, ?_, leg (trueCurve _ _ (some c)) _ _ (.inr ?_), by simp [hc], rfl⟩
        · rw [hT]
          dsimp only
          rw [if_pos hc]
          cases sigBnd <;> rfl
        · rw [hT]
          rfl
      · have hT : (trueCurve (axisOf time hist.length) hist.length (some c) : List (Prim K L)) = [] := if_neg hc
        refine ⟨_, true, ?_, leg (trueCurve _ _ (some c)) _ _ (.inl ?_), by simp [hc], rfl⟩
        · rw [hT]
          dsimp only
          rw [if_neg hc]
          cases sigBnd <;> rfl
        · rw [hT]

/-- **C109, the distribution.** `plot_card_dist` of the CPHD and GLMB filters draws one bar for each cardinality, its probability
as height; without a distribution it raises `RuntimeWarning`. -/
theorem C109_card_dist (dist : List K) :
    (dist = [] → (plotCardDist dist : Except PlotErr (List (Prim K L))) = .error .warning) ∧
    (dist ≠ [] → ∃ (xs : List ℕ) (ys : List K), (plotCardDist dist : Except PlotErr (List (Prim K L))) = .ok [.bars xs ys] ∧
      xs.length = ys.length ∧ ∀ (n : ℕ) (w : K), (∃ k : ℕ, xs[k]? = some n ∧ ys[k]? = some w) ↔ dist[n]? = some w) := by
  unfold plotCardDist
  refine ⟨fun h => if_pos h, fun h => ⟨List.range dist.length, dist, if_neg h, List.length_range, ?_⟩⟩
  intro n w
  constructor
  · rintro ⟨k, h1, h2⟩
    rw [List.getElem?_range (List.getElem?_eq_some_iff.1 h2).1] at h1
    rw [← Option.some.inj h1]
    exact h2
  · intro hw
    exact ⟨n, List.getElem?_range (List.getElem?_eq_some_iff.1 hw).1, hw⟩

/-- A concrete figure: two steps, bound 3, true cardinalities of the wrong number. -/
example : (plotCardHistory [(1, (1 / 2 : ℚ)), (2, 0)] (some 3) none (some [1]) : Except PlotErr (List (Prim ℚ Unit) × Bool)) =
    .ok ([.graph [0, 1] [1, 2] (some .cardinality), .graph [0, 1] [1 + 3 * (1 / 2), 2 + 3 * 0] (some .sigma),
      .graph [0, 1] [1 - 3 * (1 / 2), 2 - 3 * 0] none], true) := by
  obtain ⟨ps, w, h1, _, h3, h4⟩ := (C109_card_history (L := Unit) [(1, (1 / 2 : ℚ)), (2, 0)] (some 3) none (some [1])).2.2 (by simp) (by simp)
  have hw : w = true := h3.2 ⟨[1], rfl, by simp⟩
  rw [h1, h4, hw]
  norm_num [axisOf, List.range_succ, trueCurve, boundCurves]

end cphd

/-! ### C110 -/

/-- **C110, partial.** Given a figure, a random generator, and, if measurements are asked for, a recorded entry for each frame,
`animate_state_plot` raises no exception; after any sequence of frames that ends with time step `tt` the measurements of `tt`
are shown (if asked for), and if at least one state was extracted at `tt` exactly its states are shown.
*Missing:* at a time step without states the states of an earlier one stay visible, and without a figure the call fails
(`C110_refuted`). -/
theorem C110_animation_partial (i j : Fin d) (measInds : Option (Fin m × Fin m)) (hist : List (List (Fin d → K)))
    (tab : List (List (Fin m → K))) (frames : List ℕ) (tt : ℕ) (xs : List (Fin d → K)) (hx : hist[tt]? = some xs)
    (hf : ∀ k ∈ frames ++ [tt], k < hist.length) (hm : ∀ ab, measInds = some ab → ∀ k ∈ frames ++ [tt], k < tab.length) :
    animateSetup (some ()) (some ()) = .ok () ∧
    ∃ shown : List (K × K) × List (K × K), play i j measInds hist tab ([], []) (frames ++ [tt]) = .ok shown ∧
      (xs ≠ [] → shown.1 = xs.map fun v => (v i, v j)) ∧
      (measInds = none → shown.2 = []) ∧
      (∀ (a b : Fin m) (zs : List (Fin m → K)), measInds = some (a, b) → tab[tt]? = some zs → shown.2 = zs.map fun z => (z a, z b)) := by
  refine ⟨rfl, ?_⟩
  have one : ∀ (old : List (K × K)) (k : ℕ), k < hist.length → (∀ ab, measInds = some ab → k < tab.length) →
      ∃ r : List (K × K) × List (K × K), frame i j measInds hist tab old k = .ok r ∧
        (∀ ys, hist[k]? = some ys → ys ≠ [] → r.1 = ys.map fun v => (v i, v j)) ∧ (measInds = none → r.2 = []) ∧
        (∀ (a b : Fin m) (zs : List (Fin m → K)), measInds = some (a, b) → tab[k]? = some zs → r.2 = zs.map fun z => (z a, z b)) := by
    intro old k hk hkm
    unfold frame
    rw [List.getElem?_eq_getElem hk]
    dsimp only
    cases measInds with
    | none =>
      refine ⟨_, rfl, ?_, fun _ => rfl, fun _ _ _ h => (nomatch h)⟩
      intro ys hys hne
      obtain rfl := Option.some.inj hys
      dsimp only
      rw [if_neg hne]
      rfl
    | some ab =>
      obtain ⟨a, b⟩ := ab
      dsimp only
      rw [List.getElem?_eq_getElem (hkm _ rfl)]
      dsimp only
      refine ⟨_, rfl, ?_, fun h => (nomatch h), ?_⟩
      · intro ys hys hne
        obtain rfl := Option.some.inj hys
        dsimp only
        rw [if_neg hne]
        rfl
      · intro a' b' zs h1 h2
        obtain ⟨rfl, rfl⟩ := Prod.mk.inj (Option.some.inj h1)
        obtain rfl := Option.some.inj h2
        rfl
  have play_cons : ∀ (now : List (K × K) × List (K × K)) (k : ℕ) (ks : List ℕ) (r : List (K × K) × List (K × K)),
      frame i j measInds hist tab now.1 k = .ok r →
      play i j measInds hist tab now (k :: ks) = play i j measInds hist tab r ks := by
    intro now k ks r hr
    conv_lhs => unfold play
    rw [hr]
  have key : ∀ (frames : List ℕ) (now : List (K × K) × List (K × K)), (∀ k ∈ frames ++ [tt], k < hist.length) →
      (∀ ab, measInds = some ab → ∀ k ∈ frames ++ [tt], k < tab.length) →
      ∃ shown : List (K × K) × List (K × K), play i j measInds hist tab now (frames ++ [tt]) = .ok shown ∧
        (xs ≠ [] → shown.1 = xs.map fun v => (v i, v j)) ∧ (measInds = none → shown.2 = []) ∧
        (∀ (a b : Fin m) (zs : List (Fin m → K)), measInds = some (a, b) → tab[tt]? = some zs → shown.2 = zs.map fun z => (z a, z b)) := by
    intro frames
    induction frames with
    | nil =>
      intro now hf hm
      obtain ⟨r, r1, r2, r3, r4⟩ := one now.1 tt (hf tt (by simp)) (fun ab h => hm ab h tt (by simp))
      exact ⟨r, by rw [List.nil_append, play_cons now tt [] r r1]; rfl, r2 xs hx, r3, r4⟩
    | cons k ks ih =>
      intro now hf hm
      obtain ⟨r, r1, _⟩ := one now.1 k (hf k (by simp)) (fun ab h => hm ab h k (by simp))
      obtain ⟨shown, s1, s2⟩ := ih r (fun k' hk' => hf k' (List.mem_cons_of_mem _ hk'))
        (fun ab h k' hk' => hm ab h k' (List.mem_cons_of_mem _ hk'))
      exact ⟨shown, by rw [List.cons_append, play_cons now k _ r r1, s1], s2⟩
  exact key frames ([], []) hf hm

/-- **C110 is false of this code.** With one state at the first time step and none at the second one, the state of the first time
step is shown in the frame of the second one. And without a figure or without a random generator in the options (the
default) the call raises `AttributeError`. -/
theorem C110_refuted (x : Fin d → K) (i j : Fin d) :
    play (m := m) i j none [[x], []] [] ([], []) [0, 1] = .ok ([(x i, x j)], []) ∧
    (∀ rng, animateSetup none rng = .error .attribute) ∧ ∀ fig, animateSetup fig none = .error .attribute :=
  ⟨rfl, fun _ => rfl, fun fig => by cases fig <;> rfl⟩

/-! ### C111 -/

/-- **C111, partial.** After any number of `correct` calls the GLMB filter has recorded the measurements of every call, in order, if
`save_measurements` is set, and none otherwise.
*Missing:* the joint GLMB filter records them in any case (`C111_refuted`). -/
theorem C111_measurements_partial {Z : Type} (save : Bool) (calls : List (List Z)) :
    recordAll .glmb save calls = if save then calls else [] := by
  have key : ∀ (calls tab : List (List Z)), calls.foldl (record .glmb save) tab = if save then tab ++ calls else tab := by
    intro calls
    induction calls with
    | nil => intro tab; cases save <;> simp
    | cons c cs ih =>
      intro tab
      rw [List.foldl_cons, ih]
      cases save <;> simp [record]
  unfold recordAll
  rw [key]
  simp

/-- The joint filter, and the PHD filters (which have no such option), record all calls. -/
theorem C111_always {Z : Type} (k : Kind) (hk : k = .phd ∨ k = .joint) (save : Bool) (calls : List (List Z)) :
    recordAll k save calls = calls := by
  have key : ∀ (calls tab : List (List Z)), calls.foldl (record k save) tab = tab ++ calls := by
    intro calls
    induction calls with
    | nil => intro tab; simp
    | cons c cs ih =>
      intro tab
      rw [List.foldl_cons, ih]
      rcases hk with rfl | rfl <;> simp [record]
  unfold recordAll
  rw [key]
  simp

/-- **C111 is false of this code**: the joint filter records measurements with `save_measurements` not set. -/
theorem C111_refuted : ∃ calls : List (List ℕ), recordAll .joint false calls ≠ [] := ⟨[[1]], by decide⟩

end Gasur.Props
