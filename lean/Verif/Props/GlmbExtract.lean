import Verif.Props.Glmb

/-!
# Properties C23, C24, C50: state extraction of the GLMB filter and absence of failures
-/

set_option linter.unusedSectionVars false

namespace Gasur.Props

open Gasur.Glmb Gasur.Spec

variable {K τ F S C Z : Type*} [Field K] [LinearOrder K] [IsStrictOrderedRing K] [FloorRing K]
  [DecidableEq τ]

/-! ### C23 -/

/-- **C23, partial.** Let the cardinality distribution be that of the hypotheses (C22) and some hypothesis
have positive probability. Then `extract_states` returns the index of a hypothesis whose number of tracks
is a most probable cardinality and whose probability is maximal among the hypotheses with that number of
tracks; each of its tracks is added to the histories under its label and birth step, one state per entry
of the track's history.
*Missing:* right after `predict` the distribution is not that of the hypotheses, and a hypothesis with a
different number of tracks is reported instead of nothing (`C23_refuted`). -/
theorem C23_best_hypothesis_partial (st st' : St K τ F S C) (c : Bool) (o : Option ℕ)
    (hw : ∀ h ∈ st.hyps, 0 ≤ h.prob) (hpos : ∃ h ∈ st.hyps, 0 < h.prob)
    (hcard : ∀ n : ℕ, ((st.card)[n]?).getD 0 =
      ((st.hyps.filter fun h => decide (h.tracks.length = n)).map fun h => h.prob).sum)
    (h : extract true c st = .ok (st', o)) :
    ∃ idx best, o = some idx ∧ st.hyps[idx]? = some best ∧
      (∀ m : ℕ, ((st.hyps.filter fun h => decide (h.tracks.length = m)).map fun h => h.prob).sum ≤
        ((st.hyps.filter fun h => decide (h.tracks.length = best.tracks.length)).map fun h => h.prob).sum) ∧
      (∀ x ∈ st.hyps, x.tracks.length = best.tracks.length → x.prob ≤ best.prob) ∧
      ∀ i ∈ best.tracks, ∃ e x, st.tab[i]? = some e ∧ x ∈ st'.ext ∧ x.label = e.label ∧
        x.tIdx = e.tIdx ∧ x.mHist = e.mHist ∧ x.states.length = e.sHist.length := by
  obtain ⟨n, hn, ⟨h0, _⟩ | ⟨_, idx, ext, r, ho, hidx, hext, _, rfl⟩⟩ := extract_ok h
  · obtain ⟨x, hx, _⟩ := hpos
    rw [h0] at hx
    simp at hx
  obtain ⟨wn, hn1, hn2⟩ := argmaxE_ok hn
  obtain ⟨w, hi1, hi2⟩ := argmaxE_ok hidx
  -- the most probable cardinality
  have hcn : ∀ m : ℕ, ((st.card)[m]?).getD 0 ≤ ((st.card)[n]?).getD 0 := by
    intro m
    rw [hn1]
    simp only [Option.getD_some]
    cases hm : (st.card)[m]? with
    | some v => exact hn2 v (List.mem_of_getElem? hm)
    | none =>
      simp only [Option.getD_none]
      have : ((st.card)[n]?).getD 0 = wn := by rw [hn1]; rfl
      rw [← this, hcard n]
      apply List.sum_nonneg
      intro y hy
      obtain ⟨x, hx, rfl⟩ := List.mem_map.1 hy
      exact hw x (List.mem_filter.1 hx).1
  have hsumpos : 0 < ((st.hyps.filter fun h => decide (h.tracks.length = n)).map fun h => h.prob).sum := by
    obtain ⟨x, hx, hxp⟩ := hpos
    have hle := hcn x.tracks.length
    rw [hcard, hcard] at hle
    refine lt_of_lt_of_le (lt_of_lt_of_le hxp ?_) hle
    apply List.single_le_sum
    · intro y hy
      obtain ⟨z, hz, rfl⟩ := List.mem_map.1 hy
      exact hw z (List.mem_filter.1 hz).1
    · exact List.mem_map.2 ⟨x, List.mem_filter.2 ⟨hx, by simp⟩, rfl⟩
  obtain ⟨x0, hx0, hx0n, hx0p⟩ : ∃ x ∈ st.hyps, x.tracks.length = n ∧ 0 < x.prob := by
    by_contra hc
    push Not at hc
    refine absurd hsumpos (not_lt.2 (le_of_eq ?_))
    apply List.sum_eq_zero
    intro y hy
    obtain ⟨z, hz, rfl⟩ := List.mem_map.1 hy
    obtain ⟨hz1, hz2⟩ := List.mem_filter.1 hz
    exact le_antisymm (hc z hz1 (by simpa using hz2)) (hw z hz1)
  have hmask : ∀ x ∈ st.hyps, x.tracks.length = n → x.prob ≤ w := by
    intro x hx hxn
    refine hi2 _ (List.mem_map.2 ⟨x, hx, ?_⟩)
    rw [if_pos hxn]
  unfold maskedWeights at hi1
  rw [List.getElem?_map, Option.map_eq_some_iff] at hi1
  obtain ⟨best, hb1, hb2⟩ := hi1
  have hwpos : 0 < w := lt_of_lt_of_le hx0p (hmask x0 hx0 hx0n)
  have hbn : best.tracks.length = n := by
    by_contra hc
    rw [if_neg hc] at hb2
    rw [← hb2] at hwpos
    exact lt_irrefl _ hwpos
  rw [if_pos hbn] at hb2
  refine ⟨idx, best, ho, hb1, ?_, ?_, ?_⟩
  · intro m
    rw [hbn, ← hcard, ← hcard]
    exact hcn m
  · intro x hx hxn
    rw [hb2]
    exact hmask x hx (hxn.trans hbn)
  · rw [if_pos rfl] at hext
    obtain ⟨hyp, ents, news, old, g1, g2, g3, rfl, _, _⟩ := updateExt_ok hext
    rw [hb1, Option.some.injEq] at g1
    subst g1
    intro i hi
    obtain ⟨e, he, hie⟩ := forall₂_mem_left g2 hi
    obtain ⟨x, hx, hex⟩ := forall₂_mem_left g3 he
    obtain ⟨k1, k2, k3, _, k5, _⟩ := mkExt_ok hex
    exact ⟨e, x, hie, List.mem_append_right _ hx, k1, k3, k2, k5⟩

/-- **C23 is false of this code** after `predict`: the reported cardinality is zero, no hypothesis has zero
tracks, and yet a hypothesis with one track is extracted. -/
theorem C23_refuted : ∃ (env : Env ℝ ℝ Unit Unit Unit Unit) (pr : Params ℝ)
    (births : List (Birth ℝ Unit Unit Unit)) (st : St ℝ ℝ Unit Unit Unit),
    run pr init [.predict env 0 births, .cleanup env false false false false false] = .ok st ∧
    st.card = [1] ∧ (∀ h ∈ st.hyps, h.tracks.length ≠ 0) ∧
    ∃ st', extract true true st = .ok (st', some 0) ∧ st'.labels = [[(0, 0)]] := by
  refine ⟨realEnv none, realPr 1 1 1 1, [realBirth (9 / 10)],
    { st1 0 (realBirth (9 / 10)) with cntr := 1 }, ?_, rfl, ?_, ?_⟩
  · simp only [run, step]
    rw [predict_st1 (pr := realPr 1 1 1 1) (by norm_num [realPr]) rfl (0 : ℝ) (b := realBirth (9 / 10))
      (by norm_num [realBirth]) (by norm_num [realBirth]) (realEnv_exp none) realOdds]
    simp only [cleanup]
    rfl
  · intro h hh
    simp only [st1, List.mem_singleton] at hh
    subst hh
    simp
  · have hm : ∀ x : ℝ, argmaxE [x] = .ok 0 := fun x => by simp [argmaxE, Phd.argmax]
    refine ⟨{ st1 0 (realBirth (9 / 10)) with
      cntr := 1, ext := [⟨(0, 0), [], 0, [()], [()]⟩], states := [[()]], labels := [[(0, 0)]],
      covs := [[()]] }, ?_, rfl⟩
    simp [extract, st1, hm, maskedWeights, updateExt, getE, traverseE, mkExt, birthTab, realBirth,
      bestState, allUsed, addUsed, keepOld, report, reportOne, appendAt]

/-! ### C24 -/

theorem filterMap_length_eq {α β γ : Type*} (f : α → Option β) (g : α → Option γ) :
    ∀ (l : List α), (∀ a ∈ l, (f a).isSome = (g a).isSome) →
      (l.filterMap f).length = (l.filterMap g).length
  | [], _ => rfl
  | a :: l, h => by
    have h1 := h a List.mem_cons_self
    have h2 := filterMap_length_eq f g l fun b hb => h b (List.mem_cons_of_mem _ hb)
    rw [List.filterMap_cons, List.filterMap_cons]
    cases hf : f a <;> cases hg : g a <;> simp_all

theorem zip_filterMap_eq {α β γ : Type*} (f : α → Option β) (g : β → α → γ) :
    ∀ (l : List α), (l.filterMap f).zip (l.filterMap fun a => (f a).map fun b => g b a) =
      l.filterMap fun a => (f a).map fun b => (b, g b a)
  | [] => rfl
  | a :: l => by
    rw [List.filterMap_cons, List.filterMap_cons, List.filterMap_cons]
    cases hf : f a with
    | none => simpa using zip_filterMap_eq f g l
    | some b => simp [zip_filterMap_eq f g l]

/-- The reports after an extraction. -/
theorem history_core {u c : Bool} {s2 st : St K τ F S C} {o} (hx : extract u c s2 = .ok (st, o)) (hE' : ExtInv st) :
    st.states.length = st.cntr ∧ st.labels.length = st.cntr ∧ st.covs.length = st.cntr ∧
    ∃ H : List ((τ × ℕ) × ℕ × List S), (H.map fun e => e.1).Nodup ∧
    ∀ t : ℕ, t < st.cntr → ∃ ss ls cs, st.states[t]? = some ss ∧ st.labels[t]? = some ls ∧
      st.covs[t]? = some cs ∧ ss.length = ls.length ∧ cs.length = ls.length ∧ ls.Nodup ∧
      ∀ s lab, (s, lab) ∈ ss.zip ls ↔ ∃ b hist, (lab, b, hist) ∈ H ∧ b ≤ t ∧ hist[t - b]? = some s := by
  have hblank : ∀ s3 : St K τ F S C, s3.states = List.replicate s3.cntr [] →
      s3.labels = List.replicate s3.cntr [] → s3.covs = List.replicate s3.cntr [] → s3 = st →
      st.states.length = st.cntr ∧ st.labels.length = st.cntr ∧ st.covs.length = st.cntr ∧
      ∃ H : List ((τ × ℕ) × ℕ × List S), (H.map fun e => e.1).Nodup ∧
      ∀ t : ℕ, t < st.cntr → ∃ ss ls cs, st.states[t]? = some ss ∧ st.labels[t]? = some ls ∧
        st.covs[t]? = some cs ∧ ss.length = ls.length ∧ cs.length = ls.length ∧ ls.Nodup ∧
        ∀ s lab, (s, lab) ∈ ss.zip ls ↔
          ∃ b hist, (lab, b, hist) ∈ H ∧ b ≤ t ∧ hist[t - b]? = some s := by
    rintro s3 h1 h2 h3 rfl
    refine ⟨by rw [h1]; simp, by rw [h2]; simp, by rw [h3]; simp, [], by simp, ?_⟩
    intro t ht
    refine ⟨[], [], [], ?_, ?_, ?_, rfl, rfl, by simp, by simp⟩
    · rw [h1]; simp [ht]
    · rw [h2]; simp [ht]
    · rw [h3]; simp [ht]
  obtain ⟨n, _, ⟨_, _, hst⟩ | ⟨_, idx, ext, r, _, _, hext, hrep, hst⟩⟩ := extract_ok hx
  · exact hblank _ rfl rfl rfl hst.symm
  cases c with
  | false =>
    simp only [Bool.false_eq_true, if_false, Except.ok.injEq] at hrep
    subst hrep
    exact hblank _ rfl rfl rfl hst.symm
  | true =>
    rw [if_pos rfl] at hrep
    have he : st.ext = ext := by rw [hst]
    have hlen : ∀ e ∈ ext, e.states.length = e.covs.length := he ▸ hE'.len
    have hnd : (ext.map fun e => e.label).Nodup := he ▸ hE'.nodup
    obtain ⟨⟨l1, l2, l3⟩, hcol⟩ := report_spec _ _ _ _ hrep hlen
    simp only [List.length_replicate] at l1 l2 l3
    have hc : st.cntr = s2.cntr := by rw [hst]
    have e1 : st.states = r.1 := by rw [hst]
    have e2 : st.labels = r.2.1 := by rw [hst]
    have e3 : st.covs = r.2.2 := by rw [hst]
    rw [hc, e1, e2, e3]
    refine ⟨l1, l2, l3, ext.map fun e => (e.label, e.tIdx, e.states), ?_, ?_⟩
    · rw [List.map_map]; exact hnd
    intro t ht
    obtain ⟨g1, g2, g3⟩ := hcol t
    rw [List.getElem?_replicate, if_pos ht] at g1 g2 g3
    simp only [Option.map_some, List.nil_append] at g1 g2 g3
    refine ⟨_, _, _, g1, g2, g3, ?_, ?_, ?_, ?_⟩
    · apply filterMap_length_eq
      intro e _
      simp
    · apply filterMap_length_eq
      intro e hee
      have := hlen e hee
      unfold colAt
      split
      · simp only [Option.isSome_map]
        rw [Bool.eq_iff_iff]
        simp only [isSome_getElem?, decide_eq_true_eq]
        rw [this]
      · rfl
    · have hsub : (ext.filterMap fun e => (colAt e.tIdx e.states t).map fun _ => e.label).Sublist
          (ext.map fun e => e.label) := by
        clear hcol g1 g2 g3 hrep hext hst hE' hlen hnd he
        induction ext with
        | nil => simp
        | cons a l ih =>
          rw [List.filterMap_cons, List.map_cons]
          cases colAt a.tIdx a.states t with
          | none => exact ih.cons _
          | some v => exact ih.cons_cons _
      exact hsub.nodup hnd
    · intro s lab
      rw [zip_filterMap_eq (fun e : Ext τ S C => colAt e.tIdx e.states t) fun _ e => e.label,
        List.mem_filterMap]
      constructor
      · rintro ⟨e, he', hv⟩
        rw [Option.map_eq_some_iff] at hv
        obtain ⟨v, hv, hvv⟩ := hv
        rw [Prod.mk.injEq] at hvv
        obtain ⟨rfl, rfl⟩ := hvv
        unfold colAt at hv
        split at hv
        · rename_i hle
          exact ⟨e.tIdx, e.states, List.mem_map.2 ⟨e, he', rfl⟩, hle, hv⟩
        · simp at hv
      · rintro ⟨b, hist, hm, hle, hv⟩
        obtain ⟨e, he', hee⟩ := List.mem_map.1 hm
        have e1 : e.label = lab := congrArg Prod.fst hee
        have e2 : e.tIdx = b := congrArg (fun x => x.2.1) hee
        have e3 : e.states = hist := congrArg (fun x => x.2.2) hee
        subst e1 e2 e3
        refine ⟨e, he', ?_⟩
        unfold colAt
        rw [if_pos hle, hv]
        rfl

/-- **C24.** Consider any sequence of calls on a new filter whose `predict` calls have different rounded
times (see C15) and whose last call extracts states, either directly or inside `cleanup`. Then the reported
states, labels and covariances have one entry per time step, the three entries of a step have the same
length and its labels are distinct. Moreover the reports consist of track histories `H` with distinct
labels: state `s` is reported under label `lab` at step `t` exactly if the history with that label that
starts at step `b` has `s` at position `t - b`, so a history is reported at consecutive steps from its birth
step on. -/
theorem C24_history (pr : Params K) (heps : 0 < pr.eps) (ops : List (Op K τ F S C Z))
    (hdist : (ops.flatMap Op.labels).Nodup) (last : Op K τ F S C Z) (u c : Bool)
    (hlast : last = .extract u c ∨ ∃ env bp bc, last = .cleanup env bp bc true u c)
    (st : St K τ F S C) (h : run pr init (ops ++ [last]) = .ok st) :
    st.states.length = st.cntr ∧ st.labels.length = st.cntr ∧ st.covs.length = st.cntr ∧
    ∃ H : List ((τ × ℕ) × ℕ × List S), (H.map fun e => e.1).Nodup ∧
    ∀ t : ℕ, t < st.cntr → ∃ ss ls cs, st.states[t]? = some ss ∧ st.labels[t]? = some ls ∧
      st.covs[t]? = some cs ∧ ss.length = ls.length ∧ cs.length = ls.length ∧ ls.Nodup ∧
      ∀ s lab, (s, lab) ∈ ss.zip ls ↔ ∃ b hist, (lab, b, hist) ∈ H ∧ b ≤ t ∧ hist[t - b]? = some s := by
  -- the state before the last call
  have hsplit : ∀ (ops : List (Op K τ F S C Z)) (s0 : St K τ F S C), run pr s0 (ops ++ [last]) = .ok st →
      ∃ s1, run pr s0 ops = .ok s1 ∧ step pr s1 last = .ok st := by
    intro ops
    induction ops with
    | nil =>
      intro s0 h
      simp only [List.nil_append, run] at h
      cases hs : step pr s0 last with
      | error e => rw [hs] at h; simp at h
      | ok s =>
        rw [hs] at h
        simp only [Except.ok.injEq] at h
        exact ⟨s0, rfl, by rw [hs, h]⟩
    | cons o os ih =>
      intro s0 h
      simp only [List.cons_append, run] at h ⊢
      cases hs : step pr s0 o with
      | error e => rw [hs] at h; simp at h
      | ok s =>
        rw [hs] at h
        exact ih s h
  obtain ⟨s1, hr, hs⟩ := hsplit ops init h
  obtain ⟨⟨past, hL⟩, hE⟩ := run_ext heps ops [] init s1 init_lab init_ext hdist (by simp) hr
  obtain ⟨s2, o, hL2, hE2, hx⟩ : ∃ s2 o, LabInv past s2 ∧ ExtInv s2 ∧ extract u c s2 = .ok (st, o) := by
    rcases hlast with rfl | ⟨env, bp, bc, rfl⟩
    · simp only [step] at hs
      cases hx : extract u c s1 with
      | error e => rw [hx] at hs; simp at hs
      | ok r =>
        obtain ⟨s, o⟩ := r
        rw [hx] at hs
        simp only [Except.ok.injEq] at hs
        subst hs
        exact ⟨s1, o, hL, hE, hx⟩
    · simp only [step] at hs
      obtain ⟨s2, k1, k2, k3, ⟨hf, _⟩ | ⟨_, o, k4⟩⟩ := cleanup_pre hs
      · simp at hf
      · exact ⟨s2, o, k1.lab hL, ⟨by rw [k2]; exact hE.len, by rw [k2]; exact hE.nodup⟩, k4⟩
  exact history_core hx (extract_inv hL2 hE2 hx)

/-! ### C50 -/

/-- One time step of the usual schedule. -/
structure Round (K τ F S C Z : Type*) where
  env : Env K τ F S C Z
  lab : τ
  births : List (Birth K F S C)
  meas : List Z
  flags : Bool × Bool × Bool × Bool × Bool

/-- The calls of a time step: `predict`, `correct`, `cleanup`. -/
def Round.ops (r : Round K τ F S C Z) : List (Op K τ F S C Z) :=
  [.predict r.env r.lab r.births, .correct r.env r.meas,
    .cleanup r.env r.flags.1 r.flags.2.1 r.flags.2.2.1 r.flags.2.2.2.1 r.flags.2.2.2.2]

/-- All inner filter states of a track are valid, and there is at least one. -/
def ValidEntry (Valid : F → Prop) (e : Entry K τ F S C) : Prop := e.fStates ≠ [] ∧ ∀ f ∈ e.fStates, Valid f

/-- What the user must provide in a time step: well-formed birth terms with probabilities in `[0, 1)`, average survival
probabilities in `[0, 1)`, detection probabilities below 1, non-negative likelihoods; no log-odds of a positive birth or
survival probability is non-zero but smaller than `eps`. The conditions on the inner filter are needed only for valid filter states, for any notion `Valid` of
validity that the birth terms meet and the inner filter preserves (for example: all states). -/
structure Round.OK (pr : Params K) (Valid : F → Prop) (r : Round K τ F S C Z) : Prop where
  births : ∀ b ∈ r.births, b.fStates.length = b.states.length ∧ b.ws.length = b.states.length ∧
    b.covs.length = b.states.length ∧ b.ws ≠ [] ∧ 0 ≤ b.prob ∧ b.prob < 1
  odds : ∀ p, ((∃ b ∈ r.births, p = b.prob) ∨ ∃ e, ValidEntry Valid e ∧ p = r.env.psurv e) →
    p = 0 ∨ r.env.num.negLog (p / (1 - p)) = 0 ∨ pr.eps ≤ |r.env.num.negLog (p / (1 - p))|
  exp : ∀ x, 0 < r.env.num.expNeg x
  sqrt : ∀ x, 0 < x → 0 < r.env.num.sqrt x
  surv : ∀ e, ValidEntry Valid e → 0 ≤ r.env.psurv e ∧ r.env.psurv e < 1
  det : ∀ e, ValidEntry Valid e → r.env.pdet e < 1
  lik : ∀ z f s w x, Valid f → r.env.corF z f s w = some x → 0 ≤ x.2.2.2
  argsort : ∀ ws, IsArgsort ws (r.env.argsort ws)
  validBirth : ∀ b ∈ r.births, ∀ f ∈ b.fStates, Valid f
  validPred : ∀ f s, Valid f → Valid (r.env.predF f s).1
  validCor : ∀ z f s w x, Valid f → r.env.corF z f s w = some x → Valid x.1

theorem EntWF.fne {e : Entry K τ F S C} (h : EntWF e) : e.fStates ≠ [] := by
  obtain ⟨s, w, c, _, _, _, h4, h5, _, h7⟩ := h.lasts
  intro h0
  rw [h0, List.length_nil] at h4
  exact h7 (List.length_eq_zero_iff.1 (by omega))

theorem predTab_valid {env : Env K τ F S C Z} {Valid : F → Prop} {lab : τ} {births : List (Birth K F S C)}
    (hb : ∀ b ∈ births, ∀ f ∈ b.fStates, Valid f) (hp : ∀ f s, Valid f → Valid (env.predF f s).1)
    {tab survTab : List (Entry K τ F S C)} {n : ℕ} (h : List.Forall₂ (fun e e' => predictEntry env e = .ok e') tab survTab)
    (hI : ∀ e ∈ tab, ∀ f ∈ e.fStates, Valid f) : ∀ e ∈ birthTab lab n births ++ survTab, ∀ f ∈ e.fStates, Valid f := by
  intro e he f hf
  rcases List.mem_append.1 he with he | he
  · unfold birthTab at he
    obtain ⟨⟨b, k⟩, hm, rfl⟩ := List.mem_map.1 he
    exact hb b (List.fst_mem_of_mem_zipIdx hm) f hf
  · obtain ⟨e0, he0, hpe⟩ := forall₂_mem_right h he
    unfold predictEntry at hpe
    split at hpe
    · split at hpe
      · rw [Except.ok.injEq] at hpe
        subst hpe
        obtain ⟨i, hi⟩ := List.mem_iff_getElem?.1 hf
        rw [List.getElem?_zipWith_eq_some] at hi
        obtain ⟨f0, s0, g1, _, g3⟩ := hi
        rw [← g3]
        exact hp _ _ (hI e0 he0 f0 (List.mem_of_getElem? g1))
      · simp at hpe
    · simp at hpe

theorem predict_valid {env : Env K τ F S C Z} {pr : Params K} {Valid : F → Prop} {lab : τ} {births : List (Birth K F S C)}
    (hb : ∀ b ∈ births, ∀ f ∈ b.fStates, Valid f) (hp : ∀ f s, Valid f → Valid (env.predF f s).1) {st st' : St K τ F S C}
    (h : predict env pr lab births st = .ok st') (hI : ∀ e ∈ st.tab, ∀ f ∈ e.fStates, Valid f) :
    ∀ e ∈ st'.tab, ∀ f ∈ e.fStates, Valid f := by
  obtain ⟨survTab, h2, h1, _⟩ := predict_tab h
  rw [h1]
  exact predTab_valid hb hp h2 hI

theorem isUpdate_valid {env : Env K τ F S C Z} {pr : Params K} {Valid : F → Prop} {meas : List Z}
    (hc : ∀ z f s w x, Valid f → env.corF z f s w = some x → Valid x.1) {e e' : Entry K τ F S C} {m : Option ℕ}
    (hu : IsUpdate env pr meas e m e') (hI : ∀ f ∈ e.fStates, Valid f) : ∀ f ∈ e'.fStates, Valid f := by
  intro f hf
  rcases hu with ⟨_, rfl⟩ | ⟨j, z, e0, c, _, _, hce, rfl⟩
  · exact hI f hf
  · unfold correctEntry at hce
    split at hce
    · split at hce
      · split at hce
        · simp at hce
        · rename_i rs hrs
          split at hce
          · simp at hce
          · simp only [Except.ok.injEq, Prod.mk.injEq, Option.some.injEq] at hce
            obtain ⟨rfl, _⟩ := hce
            obtain ⟨x, hx', rfl⟩ := List.mem_map.1 (show f ∈ rs.map fun r => r.1 from hf)
            obtain ⟨y, hy, hyx⟩ := forall₂_mem_right
              (traverseE_optE (fun x : F × S × K => env.corF z x.1 x.2.1 x.2.2) hrs) hx'
            exact hc _ _ _ _ _ (hI _ (List.of_mem_zip hy).1) hyx
      · simp at hce
    · simp at hce

theorem correct_valid {env : Env K τ F S C Z} {pr : Params K} {Valid : F → Prop} {meas : List Z}
    (hc : ∀ z f s w x, Valid f → env.corF z f s w = some x → Valid x.1) {st st' : St K τ F S C} (hx : IdxInv st)
    (h : correct env pr meas st = .ok st') (hI : ∀ e ∈ st.tab, ∀ f ∈ e.fStates, Valid f) :
    ∀ e ∈ st'.tab, ∀ f ∈ e.fStates, Valid f := by
  intro e' he'
  obtain ⟨e, he, m, hu⟩ := correct_tab hx h he'
  exact isUpdate_valid hc hu (hI e he)

/-- **C50.** Running any number of time steps of `predict`, `correct`, `cleanup` on a new filter never
raises, whatever the measurements, births, thresholds and flags, provided that the clutter intensity is
positive and the inputs of each step are well formed. In particular no index error, no division by zero, no
logarithm of zero, and no failure of the ranked assignment or k-shortest-path routines can occur. -/
theorem C50_never_fails (pr : Params K) (heps : 0 < pr.eps) (hcl : 0 < pr.clutterRate * pr.clutterDen)
    (Valid : F → Prop) (rounds : List (Round K τ F S C Z)) (hok : ∀ r ∈ rounds, r.OK pr Valid) :
    ∃ st, run pr init (rounds.flatMap Round.ops) = .ok st ∧ (∀ h ∈ st.hyps, 0 < h.prob) ∧
      ∀ e ∈ st.tab, ValidEntry Valid e := by
  suffices hs : ∀ (rounds : List (Round K τ F S C Z)) (s : St K τ F S C), (∀ r ∈ rounds, r.OK pr Valid) →
      TInv 0 s → (∀ e ∈ s.tab, ∀ f ∈ e.fStates, Valid f) →
      ∃ st, run pr s (rounds.flatMap Round.ops) = .ok st ∧ TInv 0 st ∧ ∀ e ∈ st.tab, ∀ f ∈ e.fStates, Valid f by
    obtain ⟨st, h1, h2, h3⟩ := hs rounds init hok init_tinv (by simp [init])
    exact ⟨st, h1, h2.pos, fun e he => ⟨EntWF.fne (h2.ent e he), h3 e he⟩⟩
  intro rounds
  induction rounds with
  | nil => intro s _ hI hV; exact ⟨s, rfl, hI, hV⟩
  | cons r rs ih =>
    intro s hok hI hV
    have hr := hok r List.mem_cons_self
    have hE : ∀ d (t : St K τ F S C), TInv d t → (∀ e ∈ t.tab, ∀ f ∈ e.fStates, Valid f) → EnvPos r.env pr t.tab := by
      intro d t ht hv
      have hve : ∀ e ∈ t.tab, ValidEntry Valid e := fun e he => ⟨EntWF.fne (ht.ent e he), hv e he⟩
      exact ⟨hr.exp, hr.sqrt, fun e he => hr.odds _ (.inr ⟨e, hve e he, rfl⟩), fun e he => hr.surv e (hve e he),
        fun e he => hr.det e (hve e he), fun e he f hf z s w x hx => hr.lik z f s w x (hv e he f hf) hx, hr.argsort⟩
    obtain ⟨s1, h1, hI1, hm1, _⟩ := predict_total heps (hE 0 s hI hV) r.lab (births := r.births)
      (fun b hb => let ⟨a1, a2, a3, a4, a5, a6⟩ := hr.births b hb; ⟨a1, a2, a3, a4, a5, a6⟩)
      (fun b hb => hr.odds _ (.inl ⟨b, hb, rfl⟩)) hI
    have hV1 := predict_valid hr.validBirth hr.validPred h1 hV
    obtain ⟨s2, h2, hI2, hc2⟩ := correct_total heps (hE 1 s1 hI1 hV1) hcl r.meas hI1 hm1
    have hV2 := correct_valid hr.validCor hI1.idx h2 hV1
    obtain ⟨s3, h3, hI3, _⟩ := cleanup_total hr.argsort r.flags.1 r.flags.2.1 r.flags.2.2.1 r.flags.2.2.2.1
      r.flags.2.2.2.2 hI2 hc2
    have hV3 : ∀ e ∈ s3.tab, ∀ f ∈ e.fStates, Valid f := by rw [(cleanup_shrinks h3).tab]; exact hV2
    obtain ⟨st, h4, hI4, hV4⟩ := ih s3 (fun x hx => hok x (List.mem_cons_of_mem _ hx)) hI3 hV3
    refine ⟨st, ?_, hI4, hV4⟩
    rw [List.flatMap_cons]
    unfold Round.ops
    simp only [List.cons_append, List.nil_append, run, step]
    rw [h1]
    simp only
    rw [h2]
    simp only
    rw [h3]
    exact h4

theorem realArgsort (ws : List ℝ) : IsArgsort ws ((realEnv (some (1 / 2))).argsort ws) := by
  refine ⟨List.mergeSort_perm _ _, ?_⟩
  have h := List.pairwise_mergeSort (le := fun i j : ℕ => decide ((ws[i]?).getD 0 ≤ (ws[j]?).getD 0))
    (by intro a b c h1 h2; simp only [decide_eq_true_eq] at *; exact h1.trans h2)
    (by intro a b; simp only [Bool.or_eq_true, decide_eq_true_eq]; exact le_total _ _)
    (List.range ws.length)
  refine h.imp ?_
  intro i j hij a b ha hb
  rw [ha, hb] at hij
  simpa using hij

/-- The hypotheses of C50 can be met: real arithmetic, survival and detection probability 0.9, a likelihood
of 1/2, two time steps with a birth and two measurements each. With C50 this shows that states as assumed in
C14-C24 exist. -/
example : ∃ st : St ℝ ℝ Unit Unit Unit, run (realPr 2 2 3 5) init
    ([(⟨realEnv (some (1 / 2)), 0, [realBirth (9 / 10)], [(), ()], true, true, true, true, true⟩ :
        Round ℝ ℝ Unit Unit Unit Unit),
      ⟨realEnv (some (1 / 2)), 1, [realBirth (9 / 10)], [(), ()], true, true, true, true, true⟩].flatMap
      Round.ops) = .ok st ∧ (∀ h ∈ st.hyps, 0 < h.prob) ∧ ∀ e ∈ st.tab, ValidEntry (fun _ => True) e := by
  have hodd : (realPr 2 2 3 5).eps ≤ |realNum.negLog ((9 / 10 : ℝ) / (1 - 9 / 10))| := by
    have h1 := realOdds
    have h2 : (realPr 2 2 3 5).eps = 1 / 2 ^ 52 := rfl
    rw [h2, abs_of_nonpos (h1.trans (by norm_num))]
    linarith
  have hok : ∀ lab, Round.OK (realPr 2 2 3 5) (fun _ => True)
      (⟨realEnv (some (1 / 2)), lab, [realBirth (9 / 10)], [(), ()], true, true, true, true, true⟩ :
        Round ℝ ℝ Unit Unit Unit Unit) := by
    intro lab
    refine ⟨?_, ?_, realEnv_exp _, fun x hx => Real.sqrt_pos.2 hx, fun e _ => by norm_num [realEnv],
      fun e _ => by norm_num [realEnv], ?_, ?_, fun _ _ _ _ => trivial, fun _ _ _ => trivial,
      fun _ _ _ _ _ _ _ => trivial⟩
    · intro b hb
      rw [List.mem_singleton] at hb
      subst hb
      exact ⟨rfl, rfl, rfl, by simp [realBirth], by norm_num [realBirth], by norm_num [realBirth]⟩
    · rintro p (⟨b, hb, rfl⟩ | ⟨e, _, rfl⟩)
      · rw [List.mem_singleton] at hb
        subst hb
        exact .inr (.inr hodd)
      · exact .inr (.inr hodd)
    · intro z f s w x _ hx
      simp only [realEnv, Option.map_some, Option.some.injEq] at hx
      subst hx
      norm_num
    · intro ws
      exact realArgsort ws
  apply C50_never_fails _ (by norm_num [realPr]) (by norm_num [realPr])
  intro r hr
  simp only [List.mem_cons, List.not_mem_nil, or_false] at hr
  rcases hr with rfl | rfl
  · exact hok 0
  · exact hok 1

end Gasur.Props
