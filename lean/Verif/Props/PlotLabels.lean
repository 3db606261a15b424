import Verif.Proofs.PlotLabels

/-!
# Property C106: the plot of the labelled states
-/

namespace Gasur.Props

open Gasur.Plot Gasur.Spec Gasur.Proofs

variable {K L : Type} {d m : ℕ} [DecidableEq L]

/-- With different labels, `stateOf` finds the state that carries the label. -/
theorem stateOf_iff {lbl : L} {xs : List (Fin d → K)} {ls : List L} (h : xs.length = ls.length) (hn : ls.Nodup) (x : Fin d → K) :
    stateOf lbl xs ls = some x ↔ (x, lbl) ∈ xs.zip ls := by
  unfold stateOf
  rw [List.mem_iff_getElem? (l := xs.zip ls)]
  constructor
  · intro hx
    by_cases hl : lbl ∈ ls
    · rw [if_pos hl] at hx
      refine ⟨ls.idxOf lbl, List.getElem?_zip_eq_some.2 ⟨hx, ?_⟩⟩
      rw [List.getElem?_eq_getElem (List.idxOf_lt_length_iff.2 hl), List.getElem_idxOf]
    · rw [if_neg hl] at hx
      exact (nomatch hx)
  · rintro ⟨k, hk⟩
    obtain ⟨h1, h2⟩ := List.getElem?_zip_eq_some.1 hk
    have hl : lbl ∈ ls := List.mem_of_getElem? h2
    rw [if_pos hl]
    obtain ⟨hk', rfl⟩ := List.getElem?_eq_some_iff.1 h2
    rw [hn.idxOf_getElem]
    exact h1

/-- **C106.** For every history whose lists agree (C24: the same numbers of time steps, at each time step equally many states,
labels and covariances, and different labels) and all options, `plot_states_labels` raises no exception, and the figure shows
exactly these things. There is one line and one text for each label that occurs; the line has at time `t` the state that
carries the label at `t` and a gap if there is none; the text is at the first point of the line. If a bound is given and
covariances are saved, there is one ellipse around each state with a covariance, made from that covariance. Then the true
states, one line for each position, and the measurements if they are saved and asked for. No legend entry occurs twice. -/
theorem C106_plot_labels (i j : Fin d) (sigBnd : Option K) (saveCovs : Bool) (truth : Option (List (List (Fin d → K))))
    (measInds : Option (Fin m × Fin m)) (tx : Option ((Fin m → K) → K × K)) (saveMeas : Bool) (hist : List (List (Fin d → K)))
    (labels : List (List L)) (covs : List (List (Option (Fin d → Fin d → K)))) (tab : List (List (Fin m → K)))
    (ha : Agree hist labels covs) (hn : ∀ ls ∈ labels, ls.Nodup) :
    ∃ (ps : List (Prim K L)) (U : List L),
      plotLabels i j sigBnd saveCovs truth measInds tx saveMeas hist labels covs tab = .ok ps ∧
      U.Nodup ∧ (∀ l, l ∈ U ↔ ∃ ls ∈ labels, l ∈ ls) ∧
      (ps.filterMap textOf).map Prod.snd = U ∧ (ps.filterMap trackOf).length = U.length ∧
      (∀ (k : ℕ) (l : L) (tr : List (Option (K × K))) (pos : K × K), U[k]? = some l → (ps.filterMap trackOf)[k]? = some tr →
        (ps.filterMap textOf)[k]? = some (pos, l) →
        tr.length = hist.length ∧ (tr.filterMap id).head? = some pos ∧
        ∀ (t : ℕ) (p : K × K), tr[t]? = some (some p) ↔ ∃ (xs : List (Fin d → K)) (ls : List L) (x : Fin d → K),
          hist[t]? = some xs ∧ labels[t]? = some ls ∧ (x, l) ∈ xs.zip ls ∧ p = (x i, x j)) ∧
      (∀ b, sigBnd = some b → saveCovs = true → ps.filterMap ellipseOf = U.flatMap fun l =>
        ((hist.zip covs).zip labels).filterMap fun x => (covOf l x.1.2 x.2).map fun P =>
          ((stateOf l x.1.1 x.2).map fun v => (v i, v j), ⟨P i i, P i j, P j i, P j j⟩, b)) ∧
      (sigBnd = none ∨ saveCovs = false → ps.filterMap ellipseOf = []) ∧
      (ps.filterMap truthOf = trueLines i j truth) ∧
      ((ps.filterMap measOf).flatten = if saveMeas = false then [] else shownMeas tab measInds tx) ∧
      (ps.filterMap legendOf).Nodup ∧
      (.states ∈ ps.filterMap legendOf ↔ U ≠ []) ∧ (.sigma ∈ ps.filterMap legendOf ↔ ps.filterMap ellipseOf ≠ []) := by
  obtain ⟨u1, u2⟩ := uniqueLabels_spec labels.flatten ([] : List L) List.nodup_nil
  set U := uniqueLabels [] labels.flatten with hU
  have u3 : ∀ l, l ∈ U ↔ l ∈ labels.flatten := fun l => by rw [u2]; simp
  obtain ⟨qs, q1, q2, q3, q4, q5, q6, q7, q8, q9, q10, q11, q12⟩ :=
    labelLoop_ok i j (if saveCovs then sigBnd else none) ha U false false (fun l hl => (u3 l).1 hl)
  set sb := (if saveCovs then sigBnd else none) with hsb
  -- the true states
  have tOther : ∀ {α : Type} (f : Prim K L → Option α), (∀ p l, f (.truth p l) = none) → (truthPartL i j truth : List (Prim K L)).filterMap f = [] := by
    intro α f hf
    unfold truthPartL
    split
    · rfl
    · split
      · exact other_truth i j f hf _ _ _
      · rfl
  have tLeg : ((truthPartL i j truth : List (Prim K L)).filterMap legendOf).Nodup ∧
      ∀ g ∈ (truthPartL i j truth : List (Prim K L)).filterMap legendOf, g = .truth := by
    unfold truthPartL
    split
    · simp
    · split
      · rw [legend_truth]
        split <;> simp
      · simp
  have tTruth : (truthPartL i j truth : List (Prim K L)).filterMap truthOf = trueLines i j truth := by
    unfold truthPartL
    cases truth with
    | none => rfl
    | some t =>
      dsimp only
      by_cases hs : hasState t = true
      · rw [if_pos hs, truth_lines]
        rfl
      · rw [if_neg hs]
        have h0 : maxTrue t = 0 := by
          unfold hasState at hs
          rw [List.any_eq_true] at hs
          push Not at hs
          have : ∀ l : List (List (Fin d → K)), (∀ x ∈ l, x = []) → (l.map List.length).foldr max 0 = 0 := by
            intro l
            induction l with
            | nil => intro _; rfl
            | cons a l ih =>
              intro hl
              rw [List.map_cons, List.foldr_cons, ih (fun x hx => hl x (List.mem_cons_of_mem _ hx)), hl a List.mem_cons_self]
              rfl
          apply this
          intro x hx
          have := hs x hx
          simpa using this
        show [] = (List.range (maxTrue t)).map _
        rw [h0]
        rfl
  -- the measurements
  have mShape : (measPartL tab measInds tx saveMeas : List (Prim K L)) = [] ∨
      ∃ f, (measPartL tab measInds tx saveMeas : List (Prim K L)) = [.measPoints (tab.flatten.map f) (some .measurements)] := by
    unfold measPartL
    split
    · exact .inl rfl
    · split
      · exact .inr ⟨_, rfl⟩
      · exact .inl rfl
  have mOther : ∀ {α : Type} (f : Prim K L → Option α), (∀ p l, f (.measPoints p l) = none) →
      (measPartL tab measInds tx saveMeas : List (Prim K L)).filterMap f = [] := by
    intro α f hf
    rcases mShape with h | ⟨g, h⟩
    · rw [h]; rfl
    · rw [h]
      exact (List.filterMap_cons_none (hf _ _)).trans rfl
  have mLeg : ((measPartL tab measInds tx saveMeas : List (Prim K L)).filterMap legendOf).Nodup ∧
      ∀ g ∈ (measPartL tab measInds tx saveMeas : List (Prim K L)).filterMap legendOf, g = .measurements := by
    rcases mShape with h | ⟨g, h⟩
    · rw [h]; simp
    · rw [h, show ([Prim.measPoints (tab.flatten.map g) (some .measurements)] : List (Prim K L)).filterMap legendOf = [.measurements] from rfl]
      simp
  have mMeas : ((measPartL tab measInds tx saveMeas : List (Prim K L)).filterMap measOf).flatten = if saveMeas = false then [] else shownMeas tab measInds tx := by
    have h1 : ∀ f : (Fin m → K) → K × K, ((if saveMeas ∧ tab.flatten ≠ [] then [Prim.measPoints (tab.flatten.map f) (some .measurements)] else [] :
        List (Prim K L)).filterMap measOf).flatten = if saveMeas = false then [] else tab.flatten.map f := by
      intro f
      cases saveMeas with
      | false => simp
      | true =>
        by_cases ht : tab.flatten = []
        · rw [if_neg (by simp [ht]), ht]; rfl
        · rw [if_pos ⟨rfl, ht⟩]
          show (tab.flatten.map f) ++ [] = tab.flatten.map f
          rw [List.append_nil]
    unfold measPartL
    cases tx with
    | some f => exact h1 f
    | none =>
      cases measInds with
      | none =>
        show List.flatten [] = _
        cases saveMeas <;> rfl
      | some ab => exact h1 _
  have hsplit : ∀ {α : Type} (f : Prim K L → Option α), (qs ++ truthPartL i j truth ++ measPartL tab measInds tx saveMeas).filterMap f =
      qs.filterMap f ++ ((truthPartL i j truth : List (Prim K L)).filterMap f ++ (measPartL tab measInds tx saveMeas : List (Prim K L)).filterMap f) := by
    intro α f
    rw [List.filterMap_append, List.filterMap_append, List.append_assoc]
  have sTrack : (qs ++ truthPartL i j truth ++ measPartL tab measInds tx saveMeas).filterMap trackOf = qs.filterMap trackOf := by
    rw [hsplit, tOther trackOf (fun _ _ => rfl), mOther trackOf (fun _ _ => rfl)]; simp
  have sText : (qs ++ truthPartL i j truth ++ measPartL tab measInds tx saveMeas).filterMap textOf = qs.filterMap textOf := by
    rw [hsplit, tOther textOf (fun _ _ => rfl), mOther textOf (fun _ _ => rfl)]; simp
  have sEll : (qs ++ truthPartL i j truth ++ measPartL tab measInds tx saveMeas).filterMap ellipseOf = qs.filterMap ellipseOf := by
    rw [hsplit, tOther ellipseOf (fun _ _ => rfl), mOther ellipseOf (fun _ _ => rfl)]; simp
  refine ⟨qs ++ truthPartL i j truth ++ measPartL tab measInds tx saveMeas, U, ?_, u1, ?_, ?_, ?_, ?_, ?_, ?_, ?_, ?_, ?_, ?_, ?_⟩
  · unfold plotLabels
    rw [← hU, ← hsb, q1]
  · intro l
    rw [u3, List.mem_flatten]
  · rw [sText]
    have : ∀ {us : List L} {xs : List ((K × K) × L)}, List.Forall₂ (fun l (x : (K × K) × L) => x.2 = l ∧
        (((colData l sb.isSome hist covs labels).filterMap Prod.fst).head?).map (proj i j) = some x.1) us xs → xs.map Prod.snd = us := by
      intro us xs h
      induction h with
      | nil => rfl
      | cons h1 _ ih => rw [List.map_cons, ih, h1.1]
    exact this q3
  · rw [sTrack, q2, List.length_map]
  · intro k l tr pos hk htr hpos
    rw [sTrack, q2, List.getElem?_map, hk] at htr
    obtain rfl := Option.some.inj htr
    rw [sText] at hpos
    have hlen : (colData l sb.isSome hist covs labels).length = hist.length := by
      unfold colData
      rw [List.length_map, List.length_zip, List.length_zip, ha.1, ha.2.1]
      omega
    refine ⟨by rw [List.length_map, hlen], ?_, ?_⟩
    · have : ∀ {us : List L} {xs : List ((K × K) × L)}, List.Forall₂ (fun l (x : (K × K) × L) => x.2 = l ∧
          (((colData l sb.isSome hist covs labels).filterMap Prod.fst).head?).map (proj i j) = some x.1) us xs →
          ∀ (k : ℕ), us[k]? = some l → xs[k]? = some (pos, l) →
          (((colData l sb.isSome hist covs labels).filterMap Prod.fst).head?).map (proj i j) = some pos := by
        intro us xs h
        induction h with
        | nil => intro k hk; exact absurd hk (by simp)
        | cons h1 _ ih =>
          intro k hk hx
          cases k with
          | zero =>
            obtain rfl := Option.some.inj hk
            have := Option.some.inj hx
            rw [h1.2, this]
          | succ k => exact ih k hk hx
      have h2 := this q3 k hk hpos
      rw [← h2, ← List.head?_map]
      congr 1
      rw [List.filterMap_map, List.map_filterMap]
      rfl
    · intro t p
      rw [List.getElem?_map]
      unfold colData
      rw [List.getElem?_map]
      cases hl : labels[t]? with
      | none =>
        have h0 : ((hist.zip covs).zip labels)[t]? = none := by
          rw [List.getElem?_eq_none_iff, List.length_zip]
          have := List.getElem?_eq_none_iff.1 hl
          omega
        rw [h0]
        simp
      | some ls =>
        have hlt := (List.getElem?_eq_some_iff.1 hl).1
        have hh : hist[t]? = some (hist[t]'(by rw [ha.1]; exact hlt)) := List.getElem?_eq_getElem _
        have hc : covs[t]? = some (covs[t]'(by rw [ha.2.1]; exact hlt)) := List.getElem?_eq_getElem _
        have hz : ((hist.zip covs).zip labels)[t]? = some ((hist[t]'(by rw [ha.1]; exact hlt), covs[t]'(by rw [ha.2.1]; exact hlt)), ls) := by
          rw [List.getElem?_zip_eq_some]
          exact ⟨List.getElem?_zip_eq_some.2 ⟨hh, hc⟩, hl⟩
        obtain ⟨l1, _⟩ := ha.2.2 t _ _ _ hh hl hc
        have hnd := hn ls (List.mem_of_getElem? hl)
        rw [hz, hh]
        simp only [Option.map_some, Option.some.injEq]
        constructor
        · intro hp
          obtain ⟨x, hx, rfl⟩ := Option.map_eq_some_iff.1 hp
          exact ⟨_, ls, x, rfl, rfl, (stateOf_iff l1 hnd x).1 hx, rfl⟩
        · rintro ⟨xs, ls', x, rfl, rfl, hx, rfl⟩
          rw [(stateOf_iff l1 hnd x).2 hx]
          rfl
  · rintro b rfl rfl
    rw [sEll, q4 b rfl]
    congr 1
    funext l
    unfold colData
    rw [List.filterMap_map]
    rfl
  · intro hc
    rw [sEll]
    apply q5
    rw [hsb]
    rcases hc with rfl | rfl
    · simp
    · rfl
  · rw [hsplit, q7, mOther truthOf (fun _ _ => rfl), tTruth]
    simp
  · rw [hsplit, q8, tOther measOf (fun _ _ => rfl), List.nil_append, List.nil_append, mMeas]
  · rw [hsplit, List.nodup_append, List.nodup_append]
    refine ⟨q9, ⟨tLeg.1, mLeg.1, ?_⟩, ?_⟩
    · intro g hg g' hg'
      rw [tLeg.2 g hg, mLeg.2 g' hg']; decide
    · intro g hg g' hg'
      rcases List.mem_append.1 hg' with hg' | hg'
      · have := tLeg.2 g' hg'
        rcases q10 g hg with rfl | rfl <;> rw [this] <;> decide
      · have := mLeg.2 g' hg'
        rcases q10 g hg with rfl | rfl <;> rw [this] <;> decide
  · rw [hsplit, List.mem_append, List.mem_append, q11]
    constructor
    · rintro (h | h | h)
      · exact h.2
      · exact absurd (tLeg.2 _ h) (by decide)
      · exact absurd (mLeg.2 _ h) (by decide)
    · exact fun h => .inl ⟨rfl, h⟩
  · rw [hsplit, sEll, List.mem_append, List.mem_append, q12]
    constructor
    · rintro (h | h | h)
      · exact h.2
      · exact absurd (tLeg.2 _ h) (by decide)
      · exact absurd (mLeg.2 _ h) (by decide)
    · exact fun h => .inl ⟨rfl, h⟩

end Gasur.Props
