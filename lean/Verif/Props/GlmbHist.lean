import Verif.Props.GlmbExtract

/-!
# Properties C62, C63: extraction histories and `extract_most_prob_states`
-/

set_option linter.unusedSectionVars false
set_option synthInstance.maxSize 2000
set_option synthInstance.maxHeartbeats 400000

namespace Gasur.Props

open Gasur.Glmb Gasur.Spec

variable {K τ F S C Z : Type*} [Field K] [LinearOrder K] [IsStrictOrderedRing K] [FloorRing K]
  [DecidableEq τ]

/-! ### C62 -/

theorem addUsed_mem (cntr tIdx : ℕ) : ∀ (l : List (Option ℕ × ℕ)) (used u : List ℕ),
    addUsed cntr tIdx l used = .ok u → ∀ m, m ∈ u ↔ m ∈ used ∨ ∃ k, (some m, k) ∈ l
  | [], used, u, h, m => by
    simp only [addUsed, Except.ok.injEq] at h
    simp [h]
  | (none, k) :: l, used, u, h, m => by
    unfold addUsed at h
    rw [addUsed_mem cntr tIdx l used u h m]
    simp
  | (some a, k) :: l, used, u, h, m => by
    unfold addUsed at h
    split at h
    · rw [addUsed_mem cntr tIdx l _ u h m]
      have : m ∈ (if a ∈ used then used else used ++ [a]) ↔ m ∈ used ∨ m = a := by
        split
        · rename_i ha
          constructor
          · exact Or.inl
          · rintro (h | rfl)
            · exact h
            · exact ha
        · simp
      rw [this]
      constructor
      · rintro ((h | rfl) | ⟨k', h⟩)
        · exact Or.inl h
        · exact Or.inr ⟨k, by simp⟩
        · exact Or.inr ⟨k', by simp [h]⟩
      · rintro (h | ⟨k', h⟩)
        · exact Or.inl (Or.inl h)
        · rcases List.mem_cons.1 h with h | h
          · simp only [Prod.mk.injEq, Option.some.injEq] at h
            exact Or.inl (Or.inr h.1)
          · exact Or.inr ⟨k', h⟩
    · exact absurd h (by simp)

theorem mem_zipIdx_fst {α : Type*} (l : List α) (a : α) : (∃ k, (a, k) ∈ l.zipIdx) ↔ a ∈ l := by
  constructor
  · rintro ⟨k, h⟩
    exact List.fst_mem_of_mem_zipIdx h
  · intro h
    obtain ⟨k, hk⟩ := List.getElem?_of_mem h
    exact ⟨k, List.mem_zipIdx_iff_getElem?.2 hk⟩

theorem allUsed_mem (cntr : ℕ) : ∀ (es : List (Ext τ S C)) (used u : List ℕ),
    allUsed cntr es used = .ok u → ∀ m, m ∈ u ↔ m ∈ used ∨ ∃ e ∈ es, some m ∈ e.mHist
  | [], used, u, h, m => by
    simp only [allUsed, Except.ok.injEq] at h
    simp [h]
  | e :: es, used, u, h, m => by
    unfold allUsed at h
    split at h
    · exact absurd h (by simp)
    · rename_i used' hu
      rw [allUsed_mem cntr es used' u h m, addUsed_mem _ _ _ _ _ hu m, mem_zipIdx_fst]
      simp [or_assoc]

theorem clashes_iff (cntr tIdx : ℕ) (used : List ℕ) : ∀ (l : List (Option ℕ × ℕ)) (b : Bool),
    clashes cntr tIdx used l = .ok b → (b = true ↔ ∃ m k, (some m, k) ∈ l ∧ m ∈ used)
  | [], b, h => by
    simp only [clashes, Except.ok.injEq] at h
    simp [← h]
  | (none, k) :: l, b, h => by
    unfold clashes at h
    rw [clashes_iff cntr tIdx used l b h]
    simp
  | (some a, k) :: l, b, h => by
    unfold clashes at h
    split at h
    · split at h
      · rename_i ha
        simp only [Except.ok.injEq] at h
        simp only [← h, true_iff]
        exact ⟨a, k, by simp, ha⟩
      · rename_i ha
        rw [clashes_iff cntr tIdx used l b h]
        constructor
        · rintro ⟨m, k', h1, h2⟩
          exact ⟨m, k', by simp [h1], h2⟩
        · rintro ⟨m, k', h1, h2⟩
          rcases List.mem_cons.1 h1 with h1 | h1
          · simp only [Prod.mk.injEq, Option.some.injEq] at h1
            exact absurd (h1.1 ▸ h2) ha
          · exact ⟨m, k', h1, h2⟩
    · exact absurd h (by simp)

open Classical in
theorem keepOld_eq (cntr : ℕ) (labels : List (τ × ℕ)) (used : List ℕ) : ∀ (es r : List (Ext τ S C)),
    keepOld cntr labels used es = .ok r →
    r = es.filter fun e => decide (e.label ∉ labels ∧ ∀ m, some m ∈ e.mHist → m ∉ used)
  | [], r, h => by
    simp only [keepOld, Except.ok.injEq] at h
    simp [← h]
  | e :: es, r, h => by
    unfold keepOld at h
    split at h
    · rename_i hl
      rw [List.filter_cons_of_neg (by simp [hl])]
      exact keepOld_eq cntr labels used es r h
    · rename_i hl
      split at h
      · exact absurd h (by simp)
      · rename_i b hb
        split at h
        · exact absurd h (by simp)
        · rename_i r' hr
          simp only [Except.ok.injEq] at h
          have ih := keepOld_eq cntr labels used es r' hr
          have hb' := clashes_iff _ _ _ _ _ hb
          cases b with
          | true =>
            obtain ⟨m, k, h1, h2⟩ := hb'.1 rfl
            rw [List.filter_cons_of_neg, ← ih, ← h]
            · simp
            · simp only [decide_eq_true_eq]
              rintro ⟨_, hm⟩
              exact hm m ((mem_zipIdx_fst _ _).1 ⟨k, h1⟩) h2
          | false =>
            rw [List.filter_cons_of_pos, ← ih, ← h]
            · simp
            · simp only [decide_eq_true_eq]
              refine ⟨hl, fun m hm hu => ?_⟩
              obtain ⟨k, hk⟩ := (mem_zipIdx_fst _ _).2 hm
              exact absurd (hb'.2 ⟨m, k, hk, hu⟩) (by simp)

open Classical in
/-- **C62, partial.** `extract_states` keeps, in order, exactly those previously reported histories whose label is not
one of the chosen hypothesis and none of whose measurement indices occurs *at any time step* in a history of the
chosen hypothesis, and appends one history for each track of the chosen hypothesis, with that track's label, birth
step, measurement history and, at each step, a state (and its covariance) of largest weight.
*Missing:* only a measurement used at the same time step should remove a history (`C62_refuted`). -/
theorem C62_kept_histories_partial (st st' : St K τ F S C) (c : Bool) (idx : ℕ)
    (h : extract true c st = .ok (st', some idx)) :
    ∃ best news, st.hyps[idx]? = some best ∧
      List.Forall₂ (fun i (x : Ext τ S C) => ∃ e, st.tab[i]? = some e ∧ x.label = e.label ∧ x.tIdx = e.tIdx ∧
        x.mHist = e.mHist ∧ x.states.length = e.sHist.length ∧
        ∀ (k : ℕ) (s : S), x.states[k]? = some s → ∃ (ws : List K) (ss : List S) (cs : List C) (i : ℕ) (w : K)
          (c : C), e.wHist[k]? = some ws ∧ e.sHist[k]? = some ss ∧ e.cHist[k]? = some cs ∧ ws[i]? = some w ∧
          (∀ v ∈ ws, v ≤ w) ∧ ss[i]? = some s ∧ cs[i]? = some c ∧ x.covs[k]? = some c) best.tracks news ∧
      st'.ext = (st.ext.filter fun e => decide ((∀ x ∈ news, x.label ≠ e.label) ∧
        ∀ x ∈ news, ∀ m, some m ∈ x.mHist → some m ∉ e.mHist)) ++ news := by
  obtain ⟨n, _, ⟨_, ho, _⟩ | ⟨_, idx', ext, r, ho, _, hext, _, rfl⟩⟩ := extract_ok h
  · exact absurd ho (by simp)
  · simp only [Option.some.injEq] at ho
    subst ho
    rw [if_pos rfl] at hext
    unfold updateExt at hext
    split at hext
    · simp at hext
    · rename_i hyp hh
      split at hext
      · simp at hext
      · rename_i ents he
        split at hext
        · simp at hext
        · rename_i news hn
          split at hext
          · simp at hext
          · rename_i used hu
            split at hext
            · simp at hext
            · rename_i old ho
              simp only [Except.ok.injEq] at hext
              have hkeep := keepOld_eq _ _ _ _ _ ho
              have hused := allUsed_mem _ _ _ _ hu
              have f1 := (traverseE_ok _ _ _).1 he
              have f2 := (traverseE_ok _ _ _).1 hn
              refine ⟨hyp, news, getE_ok.1 hh, ?_, ?_⟩
              · rw [List.forall₂_iff_get] at f1 f2 ⊢
                refine ⟨f1.1.trans f2.1, fun i h1 h2 => ?_⟩
                have hi : i < ents.length := by rw [← f1.1]; exact h1
                have g1 := getE_ok.1 (f1.2 i h1 hi)
                obtain ⟨k1, k2, k3, _, k5, _, k7⟩ := mkExt_ok (f2.2 i hi h2)
                exact ⟨_, g1, k1, k3, k2, k5, k7⟩
              · show ext = _
                rw [← hext, hkeep]
                congr 1
                apply List.filter_congr
                intro e _
                rw [decide_eq_decide]
                refine and_congr ?_ ?_
                · rw [List.mem_map]
                  push Not
                  rfl
                · constructor
                  · intro h x hx m hm hm'
                    exact h m hm' ((hused m).2 (Or.inr ⟨x, hx, hm⟩))
                  · intro h m hm hm'
                    rcases (hused m).1 hm' with h' | ⟨x, hx, hx'⟩
                    · exact absurd h' (by simp)
                    · exact h x hx m hx' hm

/-- A track that is born at step `t` and detected there by measurement `m`. -/
def bornAt (lab t m : ℕ) : Entry ℚ ℕ Unit Unit Unit := ⟨(lab, 0), [[1]], [()], [some m], [[()]], [[()]], t⟩

/-- A state at step 1: the track of label `(0, 0)` (already reported, detected at step 0 by measurement 0) is gone and
the only hypothesis has the track of label `(1, 0)`, born at step 1 and detected there by measurement 0. -/
def stC62 : St ℚ ℕ Unit Unit Unit :=
  { tab := [bornAt 1 1 0], hyps := [⟨1, [0]⟩], card := [0, 1], cntr := 2
    ext := [⟨(0, 0), [some 0], 0, [()], [()]⟩], states := [], labels := [], covs := [] }

/-- **C62 is false of this code**: in the state `stC62` extraction deletes the history of the first track, although no
measurement of the second track is from the same time step (the lists of used measurements of all time steps
are one and the same list object). -/
theorem C62_refuted : (∀ x ∈ stC62.ext, ∀ e ∈ stC62.tab, x.label ≠ e.label ∧ x.tIdx + x.mHist.length ≤ e.tIdx) ∧
    ∃ st', extract true true stC62 = .ok (st', some 0) ∧ st'.labels = [[], [(1, 0)]] := by
  refine ⟨by simp [stC62, bornAt], ?_⟩
  exact ⟨_, rfl, rfl⟩

/-! ### C63 -/

theorem argmax_first : ∀ {l : List K} {i : ℕ} {w : K}, Phd.argmax l = some i → l[i]? = some w →
    ∀ (j : ℕ) (v : K), j < i → l[j]? = some v → v < w
  | [], i, w, h, _ => by simp [Phd.argmax] at h
  | x :: l, i, w, h, hw => by
    intro j v hj hv
    unfold Phd.argmax at h
    split at h
    · simp only [Option.some.injEq] at h; omega
    · rename_i i' hi'
      split at h
      · rename_i y hy
        split at h
        · rename_i hlt
          simp only [Option.some.injEq] at h
          subst h
          simp only [List.getElem?_cons_succ] at hw
          have hyw : y = w := by rw [hy] at hw; exact Option.some.inj hw
          subst hyw
          cases j with
          | zero =>
            simp only [List.getElem?_cons_zero, Option.some.injEq] at hv
            rw [← hv]; exact hlt
          | succ j =>
            simp only [List.getElem?_cons_succ] at hv
            exact argmax_first hi' hy j v (by omega) hv
        · simp only [Option.some.injEq] at h; omega
      · simp only [Option.some.injEq] at h; omega

/-- The state `st` is `st0` with the probabilities of the hypotheses `done` set to zero (and other reports). -/
structure Zeroed (st0 : St K τ F S C) (done : List ℕ) (st : St K τ F S C) : Prop where
  card : st.card = st0.card
  tab : st.tab = st0.tab
  cntr : st.cntr = st0.cntr
  hyps : ∀ i : ℕ, st.hyps[i]? = (st0.hyps[i]?).map fun h => if i ∈ done then ⟨0, h.tracks⟩ else h
  len : ∀ e ∈ st.ext, e.states.length = e.covs.length

/-- The label lists `ls` (one per time step) contain the label of each track of `h` at all steps at which that track
has a state. -/
def Reports (st : St K τ F S C) (h : Hyp K) (ls : List (List (τ × ℕ))) : Prop :=
  ∀ i ∈ h.tracks, ∃ e, st.tab[i]? = some e ∧ ∀ t : ℕ, e.tIdx ≤ t → t < e.tIdx + e.sHist.length →
    ∃ l, ls[t]? = some l ∧ e.label ∈ l

theorem reportOne_range (cntr : ℕ) (label : τ × ℕ) (tIdx : ℕ) : ∀ (l : List ((S × C) × ℕ))
    (r r' : List (List S) × List (List (τ × ℕ)) × List (List C)), reportOne cntr label tIdx l r = .ok r' →
    ∀ x ∈ l, tIdx + x.2 < cntr
  | [], _, _, _ => by simp
  | ((s, c), k) :: l, r, r', h => by
    unfold reportOne at h
    split at h
    · rename_i hk
      intro x hx
      rcases List.mem_cons.1 hx with rfl | hx
      · exact hk
      · exact reportOne_range cntr label tIdx l _ r' h x hx
    · simp at h

theorem report_range (cntr : ℕ) : ∀ (ext : List (Ext τ S C))
    (r r' : List (List S) × List (List (τ × ℕ)) × List (List C)), report cntr ext r = .ok r' →
    ∀ e ∈ ext, ∀ k : ℕ, k < e.states.length → k < e.covs.length → e.tIdx + k < cntr
  | [], _, _, _ => by simp
  | e :: es, r, r', h => by
    unfold report at h
    split at h
    · simp at h
    · rename_i r1 hr1
      intro x hx k h1 h2
      rcases List.mem_cons.1 hx with rfl | hx
      · refine reportOne_range _ _ _ _ _ _ hr1 ((x.states[k], x.covs[k]), k) ?_
        rw [List.mem_zipIdx_iff_getElem?]
        simp [h1, h2, List.getElem?_eq_getElem, List.length_zip]
      · exact report_range cntr es _ _ h x hx k h1 h2

/-- What one round of `extract_most_prob_states` does. -/
theorem round_spec {st0 st st' : St K τ F S C} {done : List ℕ} {idx n : ℕ}
    (hw : ∀ h ∈ st0.hyps, 0 ≤ h.prob) (hn : argmaxE st0.card = .ok n) (hz : Zeroed st0 done st)
    (h : extract true true st = .ok (st', some idx)) :
    ∃ b, st0.hyps[idx]? = some b ∧ st'.hyps[idx]? = some (if idx ∈ done then ⟨0, b.tracks⟩ else b) ∧
      Zeroed st0 (idx :: done) (zeroAt st' idx) ∧ Reports st0 b st'.labels ∧
      (idx = 0 ∨ b.tracks.length = n) ∧
      ∀ (j : ℕ) (x : Hyp K), j ∉ done → st0.hyps[j]? = some x → x.tracks.length = n →
        x.prob ≤ if idx ∈ done then 0 else b.prob := by
  obtain ⟨n', hn', ⟨_, ho, _⟩ | ⟨_, idx', ext, r, ho, hidx, hext, hr, rfl⟩⟩ := extract_ok h
  · exact absurd ho (by simp)
  simp only [Option.some.injEq] at ho
  subst ho
  rw [hz.card, hn] at hn'
  simp only [Except.ok.injEq] at hn'
  subst hn'
  rw [if_pos rfl] at hext
  rw [if_pos rfl] at hr
  obtain ⟨hyp, ents, news, old, hyp1, f1, f2, hE, hsub, _⟩ := updateExt_ok hext
  obtain ⟨w, hi1, hi2⟩ := argmaxE_ok hidx
  have hfirst : ∀ (j : ℕ) (v : K), j < idx → (maskedWeights n st.hyps)[j]? = some v → v < w := by
    unfold argmaxE at hidx
    split at hidx
    · rename_i i hi
      simp only [Except.ok.injEq] at hidx
      subst hidx
      exact argmax_first hi hi1
    · simp at hidx
  have hnn : ∀ (j : ℕ) (x : Hyp K), st.hyps[j]? = some x → 0 ≤ x.prob := by
    intro j x hx
    rw [hz.hyps] at hx
    cases h0 : st0.hyps[j]? with
    | none => rw [h0] at hx; simp at hx
    | some y =>
      rw [h0] at hx
      simp only [Option.map_some, Option.some.injEq] at hx
      rw [← hx]
      split
      · exact le_refl _
      · exact hw y (List.mem_of_getElem? h0)
  have hmask : ∀ j : ℕ, (maskedWeights n st.hyps)[j]? =
      (st.hyps[j]?).map fun h => if h.tracks.length = n then h.prob else 0 := by
    intro j; simp [maskedWeights]
  have hyp0 := hyp1
  rw [hz.hyps] at hyp0
  obtain ⟨b, hb, hbeq⟩ : ∃ b, st0.hyps[idx]? = some b ∧ (if idx ∈ done then ⟨0, b.tracks⟩ else b) = hyp := by
    cases h0 : st0.hyps[idx]? with
    | none => rw [h0] at hyp0; simp at hyp0
    | some b => rw [h0] at hyp0; exact ⟨b, rfl, by simpa using hyp0⟩
  have htr : hyp.tracks = b.tracks := by rw [← hbeq]; split <;> rfl
  have hpr : hyp.prob = if idx ∈ done then 0 else b.prob := by rw [← hbeq]; split <;> rfl
  rw [hmask, hyp1] at hi1
  simp only [Option.map_some, Option.some.injEq] at hi1
  have hwle : w ≤ hyp.prob := by
    rw [← hi1]; split
    · exact le_refl _
    · exact hnn idx hyp hyp1
  have hlen : ∀ e ∈ ext, e.states.length = e.covs.length := by
    intro e he
    rw [hE] at he
    rcases List.mem_append.1 he with he | he
    · exact hz.len e (hsub.subset he)
    · obtain ⟨i, hi⟩ := List.getElem?_of_mem he
      rw [List.forall₂_iff_get] at f2
      obtain ⟨hi', hie⟩ := List.getElem?_eq_some_iff.1 hi
      have := f2.2 i (by rw [f2.1]; exact hi') hi'
      obtain ⟨_, _, _, k4, k5, k6, _⟩ := mkExt_ok this
      rw [← hie]
      simpa using by first | exact k5.trans k6.symm | exact k4.trans k5.symm | exact k4
  refine ⟨b, hb, ?_, ?_, ?_, ?_, ?_⟩
  · show st.hyps[idx]? = _
    rw [hyp1, hbeq]
  · refine ⟨hz.card, hz.tab, hz.cntr, ?_, hlen⟩
    intro i
    show (st.hyps.modify idx _)[i]? = _
    rw [List.getElem?_modify, hz.hyps]
    cases st0.hyps[i]? with
    | none => simp
    | some y =>
      by_cases h1 : idx = i
      · subst h1
        simp
        split <;> rfl
      · have h2 : ¬ i = idx := fun h => h1 h.symm
        simp [h1, h2]
  · intro i hi
    rw [← htr] at hi
    obtain ⟨k, hk⟩ := List.getElem?_of_mem hi
    obtain ⟨hk', hke⟩ := List.getElem?_eq_some_iff.1 hk
    rw [List.forall₂_iff_get] at f1 f2
    have hk2 : k < ents.length := by rw [← f1.1]; exact hk'
    have hk3 : k < news.length := by rw [← f2.1]; exact hk2
    have g1 := f1.2 k hk' hk2
    have g2 := mkExt_ok (f2.2 k hk2 hk3)
    have hke' : hyp.tracks.get ⟨k, hk'⟩ = i := hke
    rw [hke', hz.tab] at g1
    refine ⟨_, g1, fun t ht1 ht2 => ?_⟩
    obtain ⟨hl, hrep⟩ := report_spec _ _ _ _ hr hlen
    have hlab := (hrep t).2.1
    have hmem : news.get ⟨k, hk3⟩ ∈ ext := by
      rw [hE]
      exact List.mem_append_right _ (List.get_mem _ _)
    obtain ⟨j1, _, j3, j4, j5, _⟩ := g2
    have hj : (colAt (news.get ⟨k, hk3⟩).tIdx (news.get ⟨k, hk3⟩).states t).isSome := by
      unfold colAt
      rw [j3, if_pos ht1, List.getElem?_eq_getElem (by rw [j5]; omega)]
      rfl
    have hrange : t < st.cntr := by
      have := report_range _ _ _ _ hr _ hmem (t - (news.get ⟨k, hk3⟩).tIdx) (by rw [j5, j3]; omega)
        (by rw [← j4, j5, j3]; omega)
      rw [j3] at this
      omega
    obtain ⟨v, hv⟩ := Option.isSome_iff_exists.1 hj
    refine ⟨_, by
      show r.2.1[t]? = _
      rw [hlab, List.getElem?_replicate, if_pos hrange]
      rfl, ?_⟩
    dsimp only
    rw [List.nil_append, List.mem_filterMap]
    exact ⟨_, hmem, by rw [hv, ← j1]; rfl⟩
  · by_cases hc : b.tracks.length = n
    · exact Or.inr hc
    · left
      by_contra h0
      have hpos : 0 < idx := Nat.pos_of_ne_zero h0
      rw [if_neg (by rw [htr]; exact hc)] at hi1
      have h00 : ∃ v, (maskedWeights n st.hyps)[0]? = some v ∧ 0 ≤ v := by
        rw [hmask]
        have : 0 < st.hyps.length := by
          obtain ⟨h, _⟩ := List.getElem?_eq_some_iff.1 hyp1
          omega
        refine ⟨_, by rw [List.getElem?_eq_getElem this]; rfl, ?_⟩
        dsimp only
        split
        · exact hnn 0 _ (List.getElem?_eq_getElem this)
        · exact le_refl _
      obtain ⟨v, hv, hv0⟩ := h00
      have := hfirst 0 v hpos hv
      rw [← hi1] at this
      exact absurd this (not_lt.2 hv0)
  · intro j x hj hx hxn
    rw [← hpr]
    refine le_trans ?_ hwle
    have : (maskedWeights n st.hyps)[j]? = some x.prob := by
      rw [hmask, hz.hyps, hx]
      simp [hj, hxn]
    exact hi2 _ (List.mem_of_getElem? this)

theorem loop_spec {st0 : St K τ F S C} {thresh : K} (hth : 0 < thresh) {n : ℕ} (hw : ∀ h ∈ st0.hyps, 0 ≤ h.prob)
    (hn : argmaxE st0.card = .ok n) : ∀ (fuel : ℕ) (st : St K τ F S C) (done : List ℕ)
    (acc out : List (List (List (τ × ℕ)) × K)), Zeroed st0 done st → st0.hyps ≠ [] →
    mostProbLoop thresh fuel st acc = .ok (some out) →
    ∃ (idxs : List ℕ) (more : List (List (List (τ × ℕ)) × K)), out = acc ++ more ∧ idxs.Nodup ∧ (∀ i ∈ idxs, i ∉ done) ∧
      List.Forall₂ (fun i x => ∃ b, st0.hyps[i]? = some b ∧ x.2 = b.prob ∧ thresh ≤ b.prob ∧ Reports st0 b x.1)
        idxs more ∧
      (∀ (i : ℕ) (b : Hyp K), st0.hyps[i]? = some b → b.tracks.length = n → thresh ≤ b.prob → i ∈ done ∨ i ∈ idxs) ∧
      (∀ i ∈ idxs, i = 0 ∨ ∃ b, st0.hyps[i]? = some b ∧ b.tracks.length = n) ∧
      idxs.Pairwise (fun i j => ∀ b b' : Hyp K, st0.hyps[i]? = some b → st0.hyps[j]? = some b' →
        b'.tracks.length = n → b'.prob ≤ b.prob)
  | 0, st, done, acc, out, _, _, h => by simp [mostProbLoop] at h
  | fuel + 1, st, done, acc, out, hz, hne, h => by
    unfold mostProbLoop at h
    split at h
    · simp at h
    · rename_i s' he
      -- impossible: there are hypotheses
      obtain ⟨n', _, ⟨h0, _⟩ | ⟨_, idx, _, _, ho, _⟩⟩ := extract_ok he
      · exfalso
        obtain ⟨x, l, hx⟩ := List.exists_cons_of_ne_nil hne
        have := hz.hyps 0
        rw [h0, hx] at this
        simp at this
      · simp at ho
    · rename_i st' idx he
      obtain ⟨b, hb, hb', hz', hrep, hcard, hmax⟩ := round_spec hw hn hz he
      rw [hb'] at h
      dsimp only at h
      by_cases hd : idx ∈ done
      · rw [if_pos hd] at h
        dsimp only at h
        rw [if_neg (not_le.2 hth)] at h
        simp only [Except.ok.injEq, Option.some.injEq] at h
        refine ⟨[], [], by simp [h], by simp, by simp, .nil, ?_, by simp, by simp⟩
        intro i x hx hxn hxt
        left
        by_contra hi
        have := hmax i x hi hx hxn
        rw [if_pos hd] at this
        exact absurd (lt_of_lt_of_le hth hxt) (not_lt.2 this)
      · rw [if_neg hd] at h hmax
        by_cases ht : thresh ≤ b.prob
        · rw [if_pos ht] at h
          obtain ⟨idxs, more, e1, e2, e3, e4, e5, e6, e7⟩ := loop_spec hth hw hn fuel _ _ _ _ hz' hne h
          refine ⟨idx :: idxs, (st'.labels, b.prob) :: more, by rw [e1]; simp, ?_, ?_, ?_, ?_, ?_, ?_⟩
          · rw [List.nodup_cons]
            exact ⟨fun hi => e3 idx hi (by simp), e2⟩
          · intro i hi
            rcases List.mem_cons.1 hi with rfl | hi
            · exact hd
            · exact fun h' => e3 i hi (List.mem_cons_of_mem _ h')
          · exact .cons ⟨b, hb, rfl, ht, hrep⟩ e4
          · intro i x hx hxn hxt
            rcases e5 i x hx hxn hxt with h' | h'
            · rcases List.mem_cons.1 h' with rfl | h'
              · exact Or.inr (by simp)
              · exact Or.inl h'
            · exact Or.inr (by simp [h'])
          · intro i hi
            rcases List.mem_cons.1 hi with rfl | hi
            · exact hcard.imp id fun h => ⟨b, hb, h⟩
            · exact e6 i hi
          · rw [List.pairwise_cons]
            refine ⟨?_, e7⟩
            intro j hj x y hx hy hyn
            rw [hb] at hx
            simp only [Option.some.injEq] at hx
            subst hx
            exact hmax j y (fun h' => e3 j hj (List.mem_cons_of_mem _ h')) hy hyn
        · rw [if_neg ht] at h
          simp only [Except.ok.injEq, Option.some.injEq] at h
          refine ⟨[], [], by simp [h], by simp, by simp, .nil, ?_, by simp, by simp⟩
          intro i x hx hxn hxt
          left
          by_contra hi
          exact ht (hxt.trans (hmax i x hi hx hxn))

theorem zeroed_refl (st : St K τ F S C) (h : ∀ e ∈ st.ext, e.states.length = e.covs.length) : Zeroed st [] st :=
  ⟨rfl, rfl, rfl, by intro i; cases st.hyps[i]? <;> simp, h⟩

/-- **C63, partial.** For a positive threshold `extract_most_prob_states` returns the probabilities and label lists of
different hypotheses `idxs` (each label list contains all labels of that hypothesis), of which the first is as
probable as any hypothesis with the most probable cardinality `n`, the others reach the threshold, the probabilities do
not increase (among those with `n` tracks) and no hypothesis with `n` tracks that reaches the threshold is missing.
*Missing:* hypotheses with another number of tracks (other than the hypothesis at position 0), thresholds that are not
positive, and that the label list contains only labels of the hypothesis (`C63_cardinality_refuted`,
`C63_endless_refuted`, `C63_labels_refuted`). -/
theorem C63_most_probable_partial (st : St K τ F S C) (thresh : K) (hth : 0 < thresh) (fuel : ℕ)
    (hw : ∀ h ∈ st.hyps, 0 ≤ h.prob) (hlen : ∀ e ∈ st.ext, e.states.length = e.covs.length)
    (out : List (List (List (τ × ℕ)) × K)) (h : mostProb thresh fuel st = .ok (some out)) :
    (st.hyps = [] ∧ out = []) ∨
    ∃ (n : ℕ) (c : K) (first : ℕ) (rest : List ℕ), st.card[n]? = some c ∧ (∀ v ∈ st.card, v ≤ c) ∧
      (first :: rest).Nodup ∧
      List.Forall₂ (fun i x => ∃ b, st.hyps[i]? = some b ∧ x.2 = b.prob ∧ Reports st b x.1) (first :: rest) out ∧
      (∀ i ∈ rest, ∃ b, st.hyps[i]? = some b ∧ thresh ≤ b.prob) ∧
      (∀ (i : ℕ) (b : Hyp K), st.hyps[i]? = some b → b.tracks.length = n → thresh ≤ b.prob → i ∈ first :: rest) ∧
      (∀ i ∈ first :: rest, i = 0 ∨ ∃ b, st.hyps[i]? = some b ∧ b.tracks.length = n) ∧
      (∃ b, st.hyps[first]? = some b ∧ ∀ x ∈ st.hyps, x.tracks.length = n → x.prob ≤ b.prob) ∧
      (first :: rest).Pairwise (fun i j => ∀ b b' : Hyp K, st.hyps[i]? = some b → st.hyps[j]? = some b' →
        b'.tracks.length = n → b'.prob ≤ b.prob) := by
  unfold mostProb at h
  split at h
  · simp at h
  · rename_i s' he
    obtain ⟨n', _, ⟨h0, _⟩ | ⟨_, idx, _, _, ho, _⟩⟩ := extract_ok he
    · left
      simp only [Except.ok.injEq, Option.some.injEq] at h
      exact ⟨h0, h.symm⟩
    · simp at ho
  · rename_i st' idx he
    right
    obtain ⟨n, hn, ⟨_, ho, _⟩ | ⟨hne, _⟩⟩ := extract_ok he
    · simp at ho
    obtain ⟨b, hb, hb', hz', hrep, hcard, hmax⟩ := round_spec hw hn (zeroed_refl st hlen) he
    rw [if_neg (by simp)] at hb' hmax
    rw [hb'] at h
    dsimp only at h
    obtain ⟨idxs, more, e1, e2, e3, e4, e5, e6, e7⟩ := loop_spec hth hw hn fuel _ _ _ _ hz' hne h
    obtain ⟨c, hc1, hc2⟩ := argmaxE_ok hn
    refine ⟨n, c, idx, idxs, hc1, hc2, ?_, ?_, ?_, ?_, ?_, ?_, ?_⟩
    · rw [List.nodup_cons]
      exact ⟨fun hi => e3 idx hi (by simp), e2⟩
    · rw [e1]
      exact .cons ⟨b, hb, rfl, hrep⟩ (e4.imp fun _ _ ⟨b, h1, h2, _, h4⟩ => ⟨b, h1, h2, h4⟩)
    · intro i hi
      obtain ⟨k, hk⟩ := List.getElem?_of_mem hi
      obtain ⟨hk', hke⟩ := List.getElem?_eq_some_iff.1 hk
      rw [List.forall₂_iff_get] at e4
      obtain ⟨b, h1, _, h3, _⟩ := e4.2 k hk' (by rw [← e4.1]; exact hk')
      have hke' : idxs.get ⟨k, hk'⟩ = i := hke
      rw [hke'] at h1
      exact ⟨b, h1, h3⟩
    · intro i x hx hxn hxt
      rcases e5 i x hx hxn hxt with h' | h'
      · rw [List.mem_singleton] at h'
        simp [h']
      · simp [h']
    · intro i hi
      rcases List.mem_cons.1 hi with rfl | hi
      · exact hcard.imp id fun h => ⟨b, hb, h⟩
      · exact e6 i hi
    · refine ⟨b, hb, fun x hx hxn => ?_⟩
      obtain ⟨j, hj⟩ := List.getElem?_of_mem hx
      exact hmax j x (by simp) hj hxn
    · rw [List.pairwise_cons]
      refine ⟨?_, e7⟩
      intro j hj x y hx hy hyn
      rw [hb] at hx
      simp only [Option.some.injEq] at hx
      subst hx
      exact hmax j y (by simp) hy hyn

theorem loop_ends {st0 : St K τ F S C} {thresh : K} (hth : 0 < thresh) {n : ℕ} (hw : ∀ h ∈ st0.hyps, 0 ≤ h.prob)
    (hn : argmaxE st0.card = .ok n) : ∀ (fuel : ℕ) (st : St K τ F S C) (done : List ℕ)
    (acc : List (List (List (τ × ℕ)) × K)), Zeroed st0 done st → done.Nodup →
    (∀ i ∈ done, i < st0.hyps.length) → st0.hyps.length + 1 ≤ fuel + done.length →
    mostProbLoop thresh fuel st acc ≠ .ok none
  | 0, st, done, acc, hz, hnd, hlt, hf => by
    exfalso
    have : done.length ≤ (List.range st0.hyps.length).length :=
      (List.subperm_of_subset hnd fun i hi => List.mem_range.2 (hlt i hi)).length_le
    rw [List.length_range] at this
    omega
  | fuel + 1, st, done, acc, hz, hnd, hlt, hf => by
    unfold mostProbLoop
    split
    · simp
    · simp
    · rename_i st' idx he
      obtain ⟨b, hb, hb', hz', _⟩ := round_spec hw hn hz he
      rw [hb']
      dsimp only
      by_cases hd : idx ∈ done
      · rw [if_pos hd]
        dsimp only
        rw [if_neg (not_le.2 hth)]
        simp
      · rw [if_neg hd]
        by_cases ht : thresh ≤ b.prob
        · rw [if_pos ht]
          refine loop_ends hth hw hn fuel _ _ _ hz' (List.nodup_cons.2 ⟨hd, hnd⟩) ?_ ?_
          · intro i hi
            rcases List.mem_cons.1 hi with rfl | hi
            · exact (List.getElem?_eq_some_iff.1 hb).1
            · exact hlt i hi
          · simp only [List.length_cons]; omega
        · rw [if_neg ht]
          simp

/-- **C63, termination.** For a positive threshold the loop of `extract_most_prob_states` makes at most one round more
than there are hypotheses. -/
theorem C63_terminates (st : St K τ F S C) (thresh : K) (hth : 0 < thresh) (fuel : ℕ)
    (hw : ∀ h ∈ st.hyps, 0 ≤ h.prob) (hlen : ∀ e ∈ st.ext, e.states.length = e.covs.length)
    (hf : st.hyps.length ≤ fuel) : mostProb thresh fuel st ≠ .ok none := by
  unfold mostProb
  split
  · simp
  · simp
  · rename_i st' idx he
    obtain ⟨n, hn, ⟨_, ho, _⟩ | ⟨hne, _⟩⟩ := extract_ok he
    · simp at ho
    obtain ⟨b, hb, hb', hz', _⟩ := round_spec hw hn (zeroed_refl st hlen) he
    rw [if_neg (by simp)] at hb'
    rw [hb']
    dsimp only
    refine loop_ends hth hw hn fuel _ _ _ hz' (by simp) ?_ (by simp; omega)
    intro i hi
    rw [List.mem_singleton] at hi
    rw [hi]
    exact (List.getElem?_eq_some_iff.1 hb).1

theorem ok_of_toOption {ε α : Type*} {r : Except ε α} {a : α} (h : r.toOption = some a) : r = .ok a := by
  cases r with
  | error e => simp [Except.toOption] at h
  | ok b => simpa [Except.toOption] using h

/-- A state with two tracks and three hypotheses; the cardinality distribution is that of the hypotheses. -/
def stC63 : St ℚ ℕ Unit Unit Unit :=
  { tab := [bornAt 0 0 0, bornAt 1 0 1], hyps := [⟨3 / 10, [0]⟩, ⟨3 / 10, [1]⟩, ⟨4 / 10, [0, 1]⟩]
    card := [0, 6 / 10, 4 / 10], cntr := 1, ext := [], states := [], labels := [], covs := [] }

/-- The hypotheses of `C63_most_probable_partial` are met by `stC63` with the threshold 1/10, with two results. -/
example : (∀ h ∈ stC63.hyps, 0 ≤ h.prob) ∧ (∀ e ∈ stC63.ext, e.states.length = e.covs.length) ∧
    ∃ out, mostProb (1 / 10) 10 stC63 = .ok (some out) ∧ out.length = 2 := by
  refine ⟨by decide +kernel, by simp [stC63], [([[(0, 0)]], 3 / 10), ([[(0, 0), (1, 0)]], 3 / 10)], ok_of_toOption ?_, rfl⟩
  decide +kernel

/-- **C63 is false of this code (1)**: in the state `stC63` the most probable hypothesis has probability 4/10, but with
the threshold 4/10 the hypothesis of probability 3/10 is returned and the one of probability 4/10 is not. -/
theorem C63_cardinality_refuted : (∃ h ∈ stC63.hyps, h.prob = 4 / 10) ∧
    ∃ out, mostProb (4 / 10) 10 stC63 = .ok (some out) ∧ out.map Prod.snd = [3 / 10] := by
  refine ⟨by simp [stC63], [([[(0, 0)]], 3 / 10)], ok_of_toOption ?_, rfl⟩
  decide +kernel

/-- **C63 is false of this code (2)**: the second result for the threshold 1/10 is the hypothesis with the track `(1, 0)`
only, but its label list contains also the label `(0, 0)` of the first result. -/
theorem C63_labels_refuted : ∃ out, mostProb (1 / 10) 10 stC63 = .ok (some out) ∧
    out = [([[(0, 0)]], 3 / 10), ([[(0, 0), (1, 0)]], 3 / 10)] := by
  refine ⟨_, ok_of_toOption ?_, rfl⟩
  decide +kernel

theorem endless (fuel : ℕ) : ∀ acc, mostProbLoop (0 : ℚ) fuel
    ({ tab := [], hyps := [⟨0, []⟩], card := [1], cntr := 1, ext := [], states := [[]], labels := [[]], covs := [[]] } :
      St ℚ ℕ Unit Unit Unit) acc = .ok none := by
  induction fuel with
  | zero => intro acc; rfl
  | succ n ih => intro acc; exact ih _

/-- **C63 is false of this code (3)**: in the state of a new filter after the first `cleanup` (one empty hypothesis) the
call with threshold 0 does not return, whatever the number of rounds. -/
theorem C63_endless_refuted (fuel : ℕ) : mostProb (0 : ℚ) fuel
    ({ tab := [], hyps := [⟨1, []⟩], card := [1], cntr := 1, ext := [], states := [], labels := [], covs := [] } :
      St ℚ ℕ Unit Unit Unit) = .ok none := endless fuel _

end Gasur.Props
