import Verif.Proofs.JglmbBasic
import Verif.Proofs.GlmbBayes

/-! Labels, weights and totality of the joint GLMB filter. -/

set_option linter.unusedSectionVars false
set_option linter.unusedSimpArgs false

namespace Gasur.Jglmb

open Gasur.Glmb

variable {K τ F S C Z : Type*} [Field K] [LinearOrder K] [IsStrictOrderedRing K] [FloorRing K]
  [DecidableEq τ]

/-- Every entry of the corrected table is an update of an entry of the old table. -/
theorem correct_tab {env : Env K τ F S C Z} {jp : JParams K} {births : List (Birth K F S C)}
    {draws : ℕ → ℕ → ℕ → K} {meas : List Z} {st st' : JSt K τ F S C}
    (h : correct env jp births draws meas st = .ok st') {e'} (he : e' ∈ st'.g.tab) :
    ∃ e ∈ st.g.tab, ∃ m, IsUpdate env jp.base meas e m e' := by
  obtain ⟨blocks, ls, hs, h1, _, h2, h3, h4, _⟩ := correct_ok h
  obtain ⟨_, _, _, hinv, _⟩ := cleanUpd_ok h4
  obtain ⟨b1, b2, b3⟩ := corBlocks_ok h1
  obtain ⟨k, hk⟩ := List.mem_iff_getElem?.1 he
  obtain ⟨i, hi, _, hie⟩ := hinv k e' hk
  have hilt : i < st.g.tab.length * (blocks.length + 1) := by
    rw [← upTab_length b2]
    exact (List.getElem?_eq_some_iff.1 hie).1
  have hpos : 0 < st.g.tab.length := by
    rcases Nat.eq_zero_or_pos st.g.tab.length with h0 | h0
    · rw [h0] at hilt; simp at hilt
    · exact h0
  have hmod := Nat.mod_lt i hpos
  have hdecomp := Nat.mod_add_div i st.g.tab.length
  refine ⟨st.g.tab[i % st.g.tab.length], List.getElem_mem _, ?_⟩
  cases hq : i / st.g.tab.length with
  | zero =>
    rw [hq] at hdecomp
    exact ⟨none, upTab_enc h1 (im := (i % st.g.tab.length, none)) hmod (by
      simp only [enc, Option.map_none, Option.getD_none]
      rw [hdecomp]; exact hie)⟩
  | succ j =>
    rw [hq] at hdecomp
    exact ⟨some j, upTab_enc h1 (im := (i % st.g.tab.length, some j)) hmod (by
      simp only [enc, Option.map_some, Option.getD_some]
      rw [hdecomp]; exact hie)⟩

/-! ### Labels -/

/-- Label invariant: birth times of the labels are among `past`; new tracks and the tracks of a hypothesis
have different labels. -/
structure JLab (past : List τ) (st : JSt K τ F S C) : Prop where
  idx : JIdx st
  past : ∀ e ∈ st.g.tab, e.label.1 ∈ past
  uniq : ∀ h ∈ st.g.hyps, ∀ i ∈ tinds (st.g.tab.length - st.oldLen) h,
    ∀ j ∈ tinds (st.g.tab.length - st.oldLen) h, ∀ e e', st.g.tab[i]? = some e →
      st.g.tab[j]? = some e' → e.label = e'.label → i = j

theorem mem_tinds {nb : ℕ} {h : Hyp K} {i : ℕ} :
    i ∈ tinds nb h ↔ i < nb ∨ ∃ t ∈ h.tracks, i = nb + t := by
  unfold tinds
  simp only [List.mem_append, List.mem_range, List.mem_map]
  constructor
  · rintro (h | ⟨t, h1, rfl⟩)
    · exact .inl h
    · exact .inr ⟨t, h1, rfl⟩
  · rintro (h | ⟨t, h1, rfl⟩)
    · exact .inl h
    · exact .inr ⟨t, h1, rfl⟩

theorem predict_lab {env : Env K τ F S C Z} {lab : τ} {births : List (Birth K F S C)}
    {st st' : JSt K τ F S C} {past : List τ} (hI : JLab past st) (hlab : lab ∉ past)
    (h : predict env lab births st = .ok st') : JLab (lab :: past) st' := by
  obtain ⟨_, survTab, ht1, rfl⟩ := predict_ok h
  have hbl := birthTab_length (K := K) lab st.g.cntr births
  have hf := List.forall₂_iff_get.1 ht1
  have hlen := ht1.length_eq
  have hold : ∀ {j : ℕ} {e : Entry K τ F S C},
      (birthTab lab st.g.cntr births ++ survTab)[births.length + j]? = some e →
      ∃ e0, st.g.tab[j]? = some e0 ∧ e.label = e0.label := by
    intro j e he
    rw [List.getElem?_append_right (by omega), hbl, Nat.add_sub_cancel_left] at he
    obtain ⟨hj, rfl⟩ := List.getElem?_eq_some_iff.1 he
    have := hf.2 j (by rw [hf.1]; exact hj) hj
    simp only [List.get_eq_getElem] at this
    exact ⟨_, List.getElem?_eq_getElem _, (predictEntry_label this).1⟩
  have hnew : ∀ {j : ℕ} {e : Entry K τ F S C}, j < births.length →
      (birthTab lab st.g.cntr births ++ survTab)[j]? = some e → e.label = (lab, j) := by
    intro j e hj he
    rw [List.getElem?_append_left (by omega)] at he
    exact (birthTab_get he).1
  have hle := hI.idx.le
  have hoff : (birthTab lab st.g.cntr births ++ survTab).length - st.oldLen =
      births.length + (st.g.tab.length - st.oldLen) := by
    rw [List.length_append]; omega
  refine ⟨⟨hI.idx.range, hI.idx.nodup, by simp only [List.length_append]; omega⟩, ?_, ?_⟩
  · intro e he
    simp only at he
    rcases List.mem_append.1 he with he | he
    · obtain ⟨k, hk⟩ := List.mem_iff_getElem?.1 he
      rw [(birthTab_get hk).1]
      exact List.mem_cons_self
    · obtain ⟨e0, he0, hp⟩ := forall₂_mem_right ht1 he
      rw [(predictEntry_label hp).1]
      exact List.mem_cons_of_mem _ (hI.past e0 he0)
  · intro x hx i hi j hj e e' he he' hee
    simp only at hx hi hj he he'
    rw [hoff] at hi hj
    have hsplit : ∀ i ∈ tinds (births.length + (st.g.tab.length - st.oldLen)) x,
        i < births.length ∨ ∃ i' ∈ tinds (st.g.tab.length - st.oldLen) x, i = births.length + i' := by
      intro i hi
      rcases mem_tinds.1 hi with hi | ⟨t, ht, rfl⟩
      · by_cases h0 : i < births.length
        · exact .inl h0
        · exact .inr ⟨i - births.length, mem_tinds.2 (.inl (by omega)), by omega⟩
      · exact .inr ⟨st.g.tab.length - st.oldLen + t, mem_tinds.2 (.inr ⟨t, ht, rfl⟩), by omega⟩
    rcases hsplit i hi with hi | ⟨i', hi', rfl⟩ <;> rcases hsplit j hj with hj | ⟨j', hj', rfl⟩
    · rw [hnew hi he, hnew hj he'] at hee
      simpa using hee
    · obtain ⟨e0, he0, hl⟩ := hold he'
      rw [hnew hi he, hl] at hee
      have := hI.past e0 (List.mem_of_getElem? he0)
      rw [← hee] at this
      exact absurd this hlab
    · obtain ⟨e0, he0, hl⟩ := hold he
      rw [hnew hj he', hl] at hee
      have := hI.past e0 (List.mem_of_getElem? he0)
      rw [hee] at this
      exact absurd this hlab
    · obtain ⟨e0, he0, hl⟩ := hold he
      obtain ⟨e0', he0', hl'⟩ := hold he'
      rw [hl, hl'] at hee
      rw [hI.uniq x hx i' hi' j' hj' e0 e0' he0 he0' hee]

theorem correct_lab {env : Env K τ F S C Z} (hexp : ∀ x, 0 < env.num.expNeg x) {jp : JParams K}
    {births : List (Birth K F S C)} {draws : ℕ → ℕ → ℕ → K} (hd : DrawsOk draws) {meas : List Z}
    {st st' : JSt K τ F S C} {past : List τ} (hI : JLab past st)
    (h : correct env jp births draws meas st = .ok st') : JLab past st' := by
  obtain ⟨c1, c2⟩ := correct_idx hexp hd hI.idx.nodup h
  refine ⟨⟨by rw [c2]; exact c1.range, c1.nodup, c2.le⟩, ?_, ?_⟩
  · intro e' he'
    obtain ⟨e, he, m, hu⟩ := correct_tab h he'
    rw [hu.label.1]
    exact hI.past e he
  · have hz : st'.g.tab.length - st'.oldLen = 0 := by omega
    rw [hz]
    intro x hx i hi j hj e e' he he' hee
    have hnb : births.length = st.g.tab.length - st.oldLen := by
      obtain ⟨_, _, _, _, h2, _⟩ := correct_ok h
      omega
    obtain ⟨p, hp, s, s1, _, _, s4⟩ := correct_hyp hexp hd h hx
    have hi' : i ∈ x.tracks := by
      rcases mem_tinds.1 hi with h0 | ⟨t, ht, rfl⟩
      · omega
      · simpa using ht
    have hj' : j ∈ x.tracks := by
      rcases mem_tinds.1 hj with h0 | ⟨t, ht, rfl⟩
      · omega
      · simpa using ht
    have hf := List.forall₂_iff_get.1 s4
    obtain ⟨i0, hi0, rfl⟩ := List.getElem_of_mem hi'
    obtain ⟨j0, hj0, rfl⟩ := List.getElem_of_mem hj'
    have hi1 : i0 < s.length := by rw [hf.1]; exact hi0
    have hj1 : j0 < s.length := by rw [hf.1]; exact hj0
    obtain ⟨f, f', hf1, hf2, hu⟩ := hf.2 i0 hi1 hi0
    obtain ⟨g, g', hg1, hg2, hv⟩ := hf.2 j0 hj1 hj0
    simp only [List.get_eq_getElem] at hf1 hf2 hu hg1 hg2 hv
    rw [he, Option.some.injEq] at hf2
    rw [he', Option.some.injEq] at hg2
    subst hf2
    subst hg2
    rw [hu.label.1, hv.label.1] at hee
    rw [hnb] at s1
    have hmi : (s[i0]).1 ∈ tinds (st.g.tab.length - st.oldLen) p :=
      s1.subset (List.mem_map_of_mem (List.getElem_mem _))
    have hmj : (s[j0]).1 ∈ tinds (st.g.tab.length - st.oldLen) p :=
      s1.subset (List.mem_map_of_mem (List.getElem_mem _))
    have heq := hI.uniq p hp _ hmi _ hmj f g hf1 hg1 hee
    have hnd : (s.map Prod.fst).Nodup := s1.nodup (tinds_nodup (hI.idx.nodup p hp))
    have : i0 = j0 := by
      have h1 : (s.map Prod.fst)[i0]'(by simpa using hi1) = (s.map Prod.fst)[j0]'(by simpa using hj1) := by
        simpa using heq
      exact (List.Nodup.getElem_inj_iff hnd).1 h1
    subst this
    rfl

/-- Labels used by the prediction calls of a sequence. -/
def JOp.labels : JOp K τ F S C Z → List τ
  | .predict _ lab _ => [lab]
  | _ => []

/-- The random numbers are in `[0, 1)` and `exp` is positive in every correction. -/
def JOp.ok : JOp K τ F S C Z → Prop
  | .correct env _ draws _ => (∀ x, 0 < env.num.expNeg x) ∧ DrawsOk draws
  | _ => True

theorem shrinks_lab {st : JSt K τ F S C} {g' : St K τ F S C} {past : List τ} (h : Shrinks st.g g')
    (hI : JLab past st) : JLab past { st with g := g' } := by
  have h1 := h.tab
  refine ⟨⟨?_, ?_, by simp only; rw [h1]; exact hI.idx.le⟩, by simp only; rw [h1]; exact hI.past, ?_⟩
  · intro x hx t ht
    obtain ⟨y, hy, e⟩ := h.hyps x hx
    exact hI.idx.range y hy t (e ▸ ht)
  · intro x hx
    obtain ⟨y, hy, e⟩ := h.hyps x hx
    rw [e]
    exact hI.idx.nodup y hy
  · intro x hx i hi j hj e e' he he' hee
    simp only at hi hj he he' hx
    obtain ⟨y, hy, e1⟩ := h.hyps x hx
    rw [h1] at hi hj he he'
    have ht : ∀ n, tinds n x = tinds n y := fun n => by unfold tinds; rw [e1]
    rw [ht] at hi hj
    exact hI.uniq y hy i hi j hj e e' he he' hee

theorem step_lab {jp : JParams K} {st st' : JSt K τ F S C} (o : JOp K τ F S C Z) (ho : o.ok)
    {past : List τ} (hI : JLab past st) (hl : ∀ t ∈ o.labels, t ∉ past)
    (h : step jp st o = .ok st') : JLab (o.labels ++ past) st' := by
  cases o with
  | predict env lab births => exact predict_lab hI (hl lab (by simp [JOp.labels])) h
  | correct env births draws meas => exact correct_lab ho.1 ho.2 hI h
  | cleanup env bp bc be u c =>
    simp only [step] at h
    split at h
    · simp at h
    · rename_i g hg
      simp only [Except.ok.injEq] at h
      subst h
      exact shrinks_lab (cleanup_shrinks hg) hI
  | extract u c =>
    simp only [step] at h
    split at h
    · simp at h
    · rename_i g o hg
      simp only [Except.ok.injEq] at h
      subst h
      obtain ⟨e1, e2, _⟩ := extract_frame hg
      exact shrinks_lab ⟨e1, fun x hx => ⟨x, by rw [← e2]; exact hx, rfl⟩⟩ hI

theorem run_lab {jp : JParams K} : ∀ (ops : List (JOp K τ F S C Z)) (past : List τ)
    (st st' : JSt K τ F S C), (∀ o ∈ ops, o.ok) → JLab past st →
    (ops.flatMap JOp.labels).Nodup → (∀ t ∈ ops.flatMap JOp.labels, t ∉ past) →
    run jp st ops = .ok st' → ∃ past', JLab past' st'
  | [], past, st, st', _, h, _, _, hr => by
    simp only [run, Except.ok.injEq] at hr
    subst hr
    exact ⟨past, h⟩
  | o :: os, past, st, st', hok, h, hnd, hd, hr => by
    unfold run at hr
    split at hr
    · simp at hr
    · rename_i s hs
      rw [List.flatMap_cons, List.nodup_append] at hnd
      rw [List.flatMap_cons] at hd
      refine run_lab os (o.labels ++ past) s st' (fun o ho => hok o (List.mem_cons_of_mem _ ho))
        (step_lab o (hok o List.mem_cons_self) h (fun t ht => hd t (List.mem_append_left _ ht)) hs)
        hnd.2.1 ?_ hr
      intro t ht hc
      rcases List.mem_append.1 hc with hc | hc
      · exact hnd.2.2 t hc t ht rfl
      · exact hd t (List.mem_append_right _ ht) hc

theorem init_lab : JLab [] (init : JSt K τ F S C) := by
  refine ⟨init_jidx, ?_, ?_⟩
  · intro e he; simp [init, Glmb.init] at he
  · intro h hh i hi j hj e e' he
    simp [init, Glmb.init] at he

/-! ### Weights -/

theorem correct_pre_pos {env : Env K τ F S C Z} (hexp : ∀ x, 0 < env.num.expNeg x) {jp : JParams K}
    {births : List (Birth K F S C)} {draws : ℕ → ℕ → ℕ → K} (hd : DrawsOk draws)
    {st : JSt K τ F S C} {blocks ls}
    (hls : List.Forall₂ (fun (hn : Hyp K × ℕ) out => corOne env jp births st.oldLen st.g.tab.length blocks
          (sumSqrt env st.g.hyps) (draws hn.2) hn.1 = .ok out) st.g.hyps.zipIdx ls) :
    ((∀ h ∈ st.g.hyps, 0 ≤ h.prob) → ∀ x ∈ ls.flatten, 0 ≤ x.prob) ∧
    ((∀ h ∈ st.g.hyps, 0 < h.prob) → ∀ x ∈ ls.flatten, 0 < x.prob) := by
  have key : ∀ x ∈ ls.flatten, ∃ p ∈ st.g.hyps, ∃ c > 0, x.prob = c * p.prob := by
    intro x hx
    obtain ⟨out, hout, hxo⟩ := List.mem_flatten.1 hx
    obtain ⟨hp, hpm, hc⟩ := forall₂_mem_right hls hout
    obtain ⟨c1, c2, c3, rows, r1, r2, r3, r4, rfl⟩ := corOne_ok hexp (fun s v => hd _ s v) hc
    obtain ⟨⟨a, c⟩, hac, rfl⟩ := List.mem_map.1 hxo
    refine ⟨hp.1, ?_, env.num.expNeg jp.base.clutterRate *
      (jp.base.clutterRate * jp.base.clutterDen) ^ blocks.length * env.num.expNeg c, ?_, by simp only; ring⟩
    · obtain ⟨i, hi⟩ := List.mem_iff_getElem?.1 hpm
      rw [List.getElem?_zipIdx, Option.map_eq_some_iff] at hi
      obtain ⟨y, hy, rfl⟩ := hi
      exact List.mem_of_getElem? hy
    · exact mul_pos (mul_pos (hexp _) (pow_pos c3 _)) (hexp _)
  constructor
  · intro hp x hx
    obtain ⟨p, hpm, c, hc, e⟩ := key x hx
    rw [e]
    exact mul_nonneg hc.le (hp p hpm)
  · intro hp x hx
    obtain ⟨p, hpm, c, hc, e⟩ := key x hx
    rw [e]
    exact mul_pos hc (hp p hpm)

theorem cleanPred_mass (l : List (Hyp K)) : mass (cleanPred l) = mass l := by
  rw [← massOf_true, ← massOf_true]
  exact cleanPred_massOf (fun _ => True) (fun _ _ _ => Iff.rfl) l

/-- Without depletion every index of an updated hypothesis refers to an existing entry. -/
theorem correct_keepAll {env : Env K τ F S C Z} (hexp : ∀ x, 0 < env.num.expNeg x) {jp : JParams K}
    (hnd : NoDepletion env)
    {births : List (Birth K F S C)} {draws : ℕ → ℕ → ℕ → K} (hd : DrawsOk draws) {meas : List Z}
    {st : JSt K τ F S C} {blocks ls hs} (hb : corBlocks env jp.base st.g.tab meas = .ok blocks)
    (hls : List.Forall₂ (fun (hn : Hyp K × ℕ) out => corOne env jp births st.oldLen st.g.tab.length blocks
          (sumSqrt env st.g.hyps) (draws hn.2) hn.1 = .ok out) st.g.hyps.zipIdx ls)
    (hn : normHyps ls.flatten = .ok hs) :
    ∀ h ∈ cleanPred hs, ∀ i ∈ h.tracks, i ∈ usedInds (upTab st.g.tab blocks) (cleanPred hs) := by
  intro h hh i hi
  rw [mem_usedInds]
  refine ⟨?_, h, hh, hi⟩
  obtain ⟨q, hq, hqt⟩ := cleanPred_mem hh
  obtain ⟨p, hp, s, s1, s2, s3, s4, s5⟩ := correct_pre hexp hd hb hls hn hq
  rw [hqt, s5] at hi
  obtain ⟨⟨t, m⟩, him, rfl⟩ := List.mem_map.1 hi
  obtain ⟨b1, b2, b3⟩ := corBlocks_ok hb
  have ht := s4 _ him
  obtain ⟨g1, g2⟩ := upTab_get (blocks := blocks) b2 ht
  cases m with
  | none => exact ⟨_, by simpa [enc] using g1⟩
  | some j =>
    have hj : j < blocks.length := by
      rw [b1]
      exact s3 j (List.mem_filterMap.2 ⟨_, him, rfl⟩)
    have := g2 j
    rw [List.getElem?_eq_getElem hj] at this
    obtain ⟨z, hz, hzt⟩ := b3 j _ (List.getElem?_eq_getElem hj)
    obtain ⟨o, c, hoc, hbt⟩ := hzt _ _ (List.getElem?_eq_getElem ht)
    obtain ⟨e0, rfl⟩ := Option.isSome_iff_exists.1 (correctEntry_isSome hnd hoc)
    refine ⟨addMeas (some j) e0, ?_⟩
    · simp only [enc, Option.map_some, Option.getD_some]
      rw [this, Option.bind_some, hbt]
      rfl

theorem correct_weights {env : Env K τ F S C Z} (hexp : ∀ x, 0 < env.num.expNeg x) {jp : JParams K}
    {births : List (Birth K F S C)} {draws : ℕ → ℕ → ℕ → K} (hd : DrawsOk draws) {meas : List Z}
    {st st' : JSt K τ F S C} (hp : ∀ h ∈ st.g.hyps, 0 ≤ h.prob)
    (h : correct env jp births draws meas st = .ok st') :
    (∀ x ∈ st'.g.hyps, 0 ≤ x.prob) ∧ mass st'.g.hyps ≤ 1 ∧
    (NoDepletion env → st'.g.hyps ≠ [] → mass st'.g.hyps = 1 ∧
      ∀ n, ((st'.g.card)[n]?).getD 0 =
        ((st'.g.hyps.filter fun h => decide (h.tracks.length = n)).map fun h => h.prob).sum) := by
  obtain ⟨blocks, ls, hs, h1, _, h2, h3, h4, h5⟩ := correct_ok h
  have hw := normHyps_winv h3 ((correct_pre_pos hexp hd h2).1 hp)
  have hnn := cleanPred_nonneg hs hw.nonneg
  have hle : mass (cleanPred hs) ≤ 1 := by
    rw [cleanPred_mass]
    by_cases hne : hs = []
    · rw [hne]; exact zero_le_one
    · exact (hw.sum hne).le
  refine ⟨?_, ?_, ?_⟩
  · obtain ⟨_, _, _, _, hh⟩ := cleanUpd_ok h4
    rw [hh]
    intro x hx
    obtain ⟨q, hq, rfl⟩ := List.mem_map.1 hx
    exact hnn q (List.mem_filter.1 hq).1
  · rw [cleanUpd_probs h4]
    exact (mass_filter_le hnn _).trans hle
  · intro hnd hne
    obtain ⟨_, _, _, _, hh⟩ := cleanUpd_ok h4
    have hall := correct_keepAll hexp hnd hd h1 h2 h3
    have hfil : (cleanPred hs).filter (fun h => h.tracks.all fun i =>
        decide (i ∈ usedInds (upTab st.g.tab blocks) (cleanPred hs))) = cleanPred hs := by
      rw [List.filter_eq_self]
      intro x hx
      rw [List.all_eq_true]
      intro i hi
      simpa using hall x hx i hi
    rw [hfil] at hh
    have hcne : hs ≠ [] := by
      rintro rfl
      rw [hh] at hne
      simp [cleanPred] at hne
    constructor
    · rw [cleanUpd_probs h4, hfil, cleanPred_mass]
      exact hw.sum hcne
    · intro n
      have hc : st'.g.card = calcCard hs := by rw [h5]
      rw [hc, calcCard_get hs hcne n]
      have e1 := cleanPred_massOf (fun l => l.length = n)
        (fun a b hab => by rw [hab.length_eq]) hs
      rw [hh]
      refine e1.symm.trans ?_
      rw [List.filter_map, List.map_map]
      simp [Function.comp_def, massOf, mass]

/-- The all-missed association is always among the results. -/
theorem corOne_missed {env : Env K τ F S C Z} (hexp : ∀ x, 0 < env.num.expNeg x) {jp : JParams K}
    {births : List (Birth K F S C)} {oldLen tabLen : ℕ}
    {blocks : List (List (Option (Entry K τ F S C) × K))} {ss : K} {u : ℕ → ℕ → K}
    (hu : ∀ s v, 0 ≤ u s v ∧ u s v < 1) {h : Hyp K} {out}
    (hc : corOne env jp births oldLen tabLen blocks ss u h = .ok out) :
    ∃ x ∈ out, x.tracks = tinds births.length h := by
  unfold corOne at hc
  simp only at hc
  split at hc
  · simp at hc
  · split at hc
    · simp at hc
    · rename_i k hk
      obtain ⟨rows, g1, g2, g3, g4, a0, c0, g5, g6⟩ := Gasur.Props.C12_gibbs
        (N := (tinds births.length h).length) (M := 2 * (tinds births.length h).length +
          numCols (tinds births.length h).length blocks.length) env.num.expNeg hexp
        (fun i j => env.num.negLog (costVal jp (avgSurv jp births oldLen) blocks
          (tinds births.length h) i.val j.val)) (by omega) (k + 1) (by omega)
        (fun s v => u s v.val) (fun s v => hu s v.val)
      rw [g1] at hc
      simp only at hc
      split at hc
      · simp at hc
      · simp only [Except.ok.injEq] at hc
        rw [← hc]
        refine ⟨_, List.mem_map_of_mem g5, ?_⟩
        simp only
        unfold rowTracks
        have : ∀ i : Fin (tinds births.length h).length,
            decode tabLen (tinds births.length h).length (tinds births.length h)[i] (a0 i).val =
              some (tinds births.length h)[i] := by
          intro i
          unfold decode
          rw [g6 i, if_neg (by omega), if_pos (by omega)]
        rw [List.filterMap_congr (g := fun i : Fin (tinds births.length h).length =>
            some (tinds births.length h)[i]) (fun i _ => this i)]
        have e2 := List.filterMap_eq_map (f := fun i : Fin (tinds births.length h).length =>
          (tinds births.length h)[i])
        have e3 := congrFun e2 (List.finRange (tinds births.length h).length)
        refine Eq.trans ?_ (e3.trans (finRange_map_get _))
        rfl

/-- The clean-up keeps one hypothesis for each track set. -/
theorem cleanPred_cover (hyps : List (Hyp K)) : ∀ x ∈ hyps, ∃ y ∈ cleanPred hyps, y.tracks.Perm x.tracks := by
  have hkey : ∀ {a b : Hyp K}, key a = key b → a.tracks.Perm b.tracks := by
    intro a b hab
    unfold key at hab
    have h1 := List.perm_insertionSort (· ≤ ·) a.tracks
    have h2 := List.perm_insertionSort (· ≤ ·) b.tracks
    rw [hab] at h1
    exact h1.symm.trans h2
  have hadd : ∀ (l : List (Hyp K)) (h : Hyp K),
      (∀ x ∈ l, ∃ y ∈ addHyp l h, y.tracks = x.tracks) ∧ ∃ y ∈ addHyp l h, y.tracks.Perm h.tracks := by
    intro l h
    induction l with
    | nil => exact ⟨by simp, h, by simp [addHyp], List.Perm.refl _⟩
    | cons a l ih =>
      unfold addHyp
      split
      · rename_i hk
        refine ⟨?_, _, List.mem_cons_self, hkey hk⟩
        intro x hx
        rcases List.mem_cons.1 hx with rfl | hx
        · exact ⟨_, List.mem_cons_self, rfl⟩
        · exact ⟨x, List.mem_cons_of_mem _ hx, rfl⟩
      · obtain ⟨i1, y, hy, i2⟩ := ih
        refine ⟨?_, y, List.mem_cons_of_mem _ hy, i2⟩
        intro x hx
        rcases List.mem_cons.1 hx with rfl | hx
        · exact ⟨_, List.mem_cons_self, rfl⟩
        · obtain ⟨y, hy, e⟩ := i1 x hx
          exact ⟨y, List.mem_cons_of_mem _ hy, e⟩
  have : ∀ (l acc : List (Hyp K)) (x : Hyp K), x ∈ l ∨ x ∈ acc →
      ∃ y ∈ l.foldl addHyp acc, y.tracks.Perm x.tracks := by
    intro l
    induction l with
    | nil =>
      intro acc x hx
      rcases hx with hx | hx
      · simp at hx
      · exact ⟨x, hx, List.Perm.refl _⟩
    | cons a l ih =>
      intro acc x hx
      rw [List.foldl_cons]
      rcases hx with hx | hx
      · rcases List.mem_cons.1 hx with rfl | hx
        · obtain ⟨y, hy, hp⟩ := (hadd acc x).2
          obtain ⟨z, hz, hp2⟩ := ih _ y (.inr hy)
          exact ⟨z, hz, hp2.trans hp⟩
        · exact ih _ x (.inl hx)
      · obtain ⟨y, hy, e⟩ := (hadd acc a).1 x hx
        obtain ⟨z, hz, hp2⟩ := ih _ y (.inr hy)
        exact ⟨z, hz, e ▸ hp2⟩
  exact fun x hx => this hyps [] x (.inl hx)

/-- For every hypothesis the association in which all candidates exist undetected survives the update. -/
theorem correct_missed {env : Env K τ F S C Z} (hexp : ∀ x, 0 < env.num.expNeg x) {jp : JParams K}
    {births : List (Birth K F S C)} {draws : ℕ → ℕ → ℕ → K} (hd : DrawsOk draws) {meas : List Z}
    {st st' : JSt K τ F S C} (h : correct env jp births draws meas st = .ok st') {p : Hyp K}
    (hp : p ∈ st.g.hyps) :
    ∃ h' ∈ st'.g.hyps, ∃ s : List ℕ, s.Perm (tinds births.length p) ∧
      List.Forall₂ (fun t t' => ∃ e, st.g.tab[t]? = some e ∧ st'.g.tab[t']? = some (addMeas none e))
        s h'.tracks := by
  obtain ⟨blocks, ls, hs, h1, _, h2, h3, h4, h5⟩ := correct_ok h
  obtain ⟨_, _, hidx, _, hh⟩ := cleanUpd_ok h4
  obtain ⟨b1, b2, b3⟩ := corBlocks_ok h1
  obtain ⟨i, hi⟩ := List.mem_iff_getElem?.1 hp
  have hmem : (p, i) ∈ st.g.hyps.zipIdx := by
    apply List.mem_of_getElem? (i := i)
    rw [List.getElem?_zipIdx, hi]
    simp
  obtain ⟨out, hout, hc⟩ := forall₂_mem_left h2 hmem
  obtain ⟨hr, _⟩ := corOne_ok hexp (fun s v => hd _ s v) hc
  obtain ⟨x, hx, hxt⟩ := corOne_missed hexp (fun s v => hd _ s v) hc
  have hxf : x ∈ ls.flatten := List.mem_flatten.2 ⟨_, hout, hx⟩
  have hx2 : (⟨x.prob / (ls.flatten.map fun h => h.prob).sum, x.tracks⟩ : Hyp K) ∈ hs := by
    rw [(normHyps_ok h3).2]
    exact List.mem_map.2 ⟨x, hxf, rfl⟩
  obtain ⟨y, hy, hyp⟩ := cleanPred_cover hs _ hx2
  simp only [hxt] at hyp
  have hyt : ∀ t ∈ y.tracks, t < st.g.tab.length := fun t ht => hr t (hyp.subset ht)
  have hup : ∀ t, (ht : t < st.g.tab.length) → (upTab st.g.tab blocks)[t]? =
      some (some (addMeas none st.g.tab[t])) := fun t ht => (upTab_get b2 ht).1
  have hus : ∀ t ∈ y.tracks, t ∈ usedInds (upTab st.g.tab blocks) (cleanPred hs) := by
    intro t ht
    exact mem_usedInds.2 ⟨⟨_, hup t (hyt t ht)⟩, y, hy, ht⟩
  refine ⟨⟨y.prob, y.tracks.map fun i => (usedInds (upTab st.g.tab blocks) (cleanPred hs)).idxOf i⟩, ?_,
    y.tracks, hyp, ?_⟩
  · rw [hh]
    refine List.mem_map.2 ⟨y, List.mem_filter.2 ⟨hy, ?_⟩, rfl⟩
    rw [List.all_eq_true]
    intro t ht
    simpa using hus t ht
  · simp only
    rw [List.forall₂_map_right_iff, List.forall₂_same]
    intro t ht
    have := (hidx t (hus t ht)).2
    rw [hup t (hyt t ht), Option.some.injEq] at this
    exact ⟨_, List.getElem?_eq_getElem (hyt t ht), this⟩

/-- The joint update leaves at least one hypothesis. -/
theorem correct_nonempty {env : Env K τ F S C Z} (hexp : ∀ x, 0 < env.num.expNeg x) {jp : JParams K}
    {births : List (Birth K F S C)} {draws : ℕ → ℕ → ℕ → K} (hd : DrawsOk draws) {meas : List Z}
    {st st' : JSt K τ F S C} (hne : st.g.hyps ≠ [])
    (h : correct env jp births draws meas st = .ok st') : st'.g.hyps ≠ [] := by
  obtain ⟨p, hp⟩ := List.exists_mem_of_ne_nil _ hne
  obtain ⟨h', hh, _⟩ := correct_missed hexp hd h hp
  exact List.ne_nil_of_mem hh

/-! ### Totality -/

/-- Conditions on the numerical functions and the external pieces. -/
structure JEnvOk (env : Env K τ F S C Z) (tab : List (Entry K τ F S C)) : Prop where
  exp : ∀ x, 0 < env.num.expNeg x
  sqrt : ∀ x, 0 < x → 0 < env.num.sqrt x
  lik : ∀ e ∈ tab, LikAt env e
  argsort : ∀ ws, Spec.IsArgsort ws (env.argsort ws)

theorem sumSqrt_pos {env : Env K τ F S C Z} (hE : ∀ x, 0 < x → 0 < env.num.sqrt x) {hyps : List (Hyp K)}
    (hne : hyps ≠ []) (hp : ∀ h ∈ hyps, 0 < h.prob) : 0 < sumSqrt env hyps := by
  unfold sumSqrt
  apply List.sum_pos
  · intro x hx
    obtain ⟨h, hh, rfl⟩ := List.mem_map.1 hx
    exact hE _ (hp h hh)
  · simpa using hne

theorem corOne_total {env : Env K τ F S C Z} (hexp : ∀ x, 0 < env.num.expNeg x) (jp : JParams K)
    (hcl : 0 < jp.base.clutterRate * jp.base.clutterDen) (births : List (Birth K F S C)) (oldLen : ℕ)
    {tabLen : ℕ} (blocks : List (List (Option (Entry K τ F S C) × K))) {ss : K} (hss : ss ≠ 0)
    {u : ℕ → ℕ → K} (hu : ∀ s v, 0 ≤ u s v ∧ u s v < 1) {h : Hyp K}
    (hr : ∀ t ∈ tinds births.length h, t < tabLen) :
    ∃ out, corOne env jp births oldLen tabLen blocks ss u h = .ok out := by
  unfold corOne
  simp only
  rw [if_neg]
  · unfold share
    rw [if_neg hss]
    simp only
    obtain ⟨rows, g1, _⟩ := Gasur.Props.C12_gibbs (N := (tinds births.length h).length)
        (M := 2 * (tinds births.length h).length +
          numCols (tinds births.length h).length blocks.length) env.num.expNeg hexp
        (fun i j => env.num.negLog (costVal jp (avgSurv jp births oldLen) blocks
          (tinds births.length h) i.val j.val)) (by omega)
        ((Phd.pyRound ((jp.base.reqUpd : K) * env.num.sqrt h.prob / ss)).toNat + 1) (by omega)
        (fun s v => u s v.val) (fun s v => hu s v.val)
    rw [g1]
    simp only
    rw [if_neg (not_le.2 hcl)]
    exact ⟨_, rfl⟩
  · intro hc
    rw [List.any_eq_true] at hc
    obtain ⟨t, ht, hc⟩ := hc
    have := hr t ht
    have h2 : tabLen ≤ t := by simpa using hc
    omega

theorem predict_total (env : Env K τ F S C Z) (lab : τ) {births : List (Birth K F S C)}
    (hb : ∀ b ∈ births, BirthWF b) {st : JSt K τ F S C} (hI : TInv 0 st.g)
    (hJ : ∀ h ∈ st.g.hyps, ∀ t ∈ h.tracks, t < st.oldLen) (hlen : st.oldLen = st.g.tab.length) :
    ∃ st', predict env lab births st = .ok st' ∧ TInv 1 st'.g ∧
      (∀ e ∈ st'.g.tab, e.tIdx + e.mHist.length ≤ st'.g.cntr) ∧
      births.length + st'.oldLen = st'.g.tab.length ∧
      (∀ h ∈ st'.g.hyps, ∀ t ∈ h.tracks, t < st'.oldLen) := by
  obtain ⟨survTab, hs⟩ := traverseE_total (predictEntry env) st.g.tab fun e he =>
    let ⟨e', h, _⟩ := predictEntry_total env (hI.ent e he); ⟨e', h⟩
  have hs2 := (traverseE_ok _ _ _).1 hs
  have hok : predict env lab births st =
      .ok { st with g := { st.g with tab := birthTab lab st.g.cntr births ++ survTab } } := by
    unfold predict
    rw [if_neg, hs]
    intro hc
    rw [List.any_eq_true] at hc
    obtain ⟨b, hbm, hc⟩ := hc
    have h1 := (hb b hbm).p1
    have h2 : b.prob = 1 := by simpa using hc
    exact absurd h2 h1.ne
  have hbl := birthTab_length (K := K) lab st.g.cntr births
  have hsl := hs2.length_eq
  have hent : ∀ e ∈ birthTab lab st.g.cntr births ++ survTab, EntWF e ∧
      e.tIdx + e.sHist.length ≤ st.g.cntr + 1 ∧ e.tIdx + e.mHist.length ≤ st.g.cntr := by
    intro e he
    rcases List.mem_append.1 he with he | he
    · have hw := birthTab_wf hb he
      obtain ⟨k, hk⟩ := List.mem_iff_getElem?.1 he
      obtain ⟨_, k2, k3, k4⟩ := birthTab_get hk
      refine ⟨?_, by rw [k2, k4], by rw [k2, k3]; simp⟩
      first | exact hw | exact hw.1
    · obtain ⟨e0, he0, hp⟩ := forall₂_mem_right hs2 he
      obtain ⟨e', g1, g2, g3⟩ := predictEntry_total env (hI.ent e0 he0)
      rw [hp, Except.ok.injEq] at g1
      subst g1
      obtain ⟨_, l2, l3⟩ := predictEntry_label hp
      have t1 := hI.time e0 he0
      have t2 := hI.meas e0 he0
      refine ⟨g2, ?_, by rw [l2, l3]; exact t2⟩
      rw [l2]
      have : e.sHist.length = e0.sHist.length + 1 := by first | exact g3 | exact g3.1
      omega
  refine ⟨_, hok, ⟨⟨?_, hI.idx.nodup⟩, fun e he => (hent e he).1, fun e he => (hent e he).2.1,
    fun e he => (hent e he).2.2.trans (Nat.le_succ _), hI.pos, ?_⟩, fun e he => (hent e he).2.2, ?_, hJ⟩
  · intro h hh i hi
    have := hJ h hh i hi
    simp only [List.length_append]
    omega
  · intro x hx
    obtain ⟨a, b, c⟩ := hI.ext x hx
    exact ⟨a, b, c⟩
  · simp only [List.length_append]
    omega

theorem correct_total {env : Env K τ F S C Z} {st : JSt K τ F S C} (hE : JEnvOk env st.g.tab) {jp : JParams K}
    (heps : 0 < jp.base.eps) (hcl : 0 < jp.base.clutterRate * jp.base.clutterDen)
    (births : List (Birth K F S C)) {draws : ℕ → ℕ → ℕ → K} (hd : DrawsOk draws) (meas : List Z)
    (hI : TInv 1 st.g) (hm : ∀ e ∈ st.g.tab, e.tIdx + e.mHist.length ≤ st.g.cntr)
    (hlen : births.length + st.oldLen = st.g.tab.length)
    (hJ : ∀ h ∈ st.g.hyps, ∀ t ∈ h.tracks, t < st.oldLen) :
    ∃ st', correct env jp births draws meas st = .ok st' ∧ TInv 1 st'.g ∧ st'.g.card ≠ [] ∧
      st'.oldLen = st'.g.tab.length := by
  have hce : ∀ z e, e ∈ st.g.tab → ∃ r, correctEntry env jp.base z e = .ok r := fun z e he =>
    let ⟨o, c, h1, _⟩ := correctEntry_total env jp.base heps z (hE.lik e he) (hI.ent e he); ⟨(o, c), h1⟩
  obtain ⟨blocks, hbl⟩ : ∃ blocks, corBlocks env jp.base st.g.tab meas = .ok blocks := by
    apply traverseE_total
    intro ze _
    unfold corBlock
    obtain ⟨l, hl⟩ := traverseE_total (correctEntry env jp.base ze.1) st.g.tab fun e he => hce _ e he
    rw [hl]
    exact ⟨_, rfl⟩
  obtain ⟨b1, b2, b3⟩ := corBlocks_ok hbl
  obtain ⟨ls, hls⟩ := traverseE_total (fun (hn : Hyp K × ℕ) => corOne env jp births st.oldLen
      st.g.tab.length blocks (sumSqrt env st.g.hyps) (draws hn.2) hn.1) st.g.hyps.zipIdx (by
    intro hn hmem
    have hh : hn.1 ∈ st.g.hyps := by
      obtain ⟨i, hi⟩ := List.mem_iff_getElem?.1 hmem
      rw [List.getElem?_zipIdx, Option.map_eq_some_iff] at hi
      obtain ⟨y, hy, rfl⟩ := hi
      exact List.mem_of_getElem? hy
    refine corOne_total hE.exp jp hcl births st.oldLen blocks
      (sumSqrt_pos hE.sqrt (List.ne_nil_of_mem hh) hI.pos).ne' (fun s v => hd _ s v) ?_
    intro t ht
    rcases mem_tinds.1 ht with h0 | ⟨t, h0, rfl⟩
    · omega
    · have := hJ _ hh t h0
      omega)
  have hls2 := (traverseE_ok _ _ _).1 hls
  have hpos := (correct_pre_pos hE.exp hd hls2).2 hI.pos
  obtain ⟨hs, hhs⟩ := normHyps_total hpos
  have hrange : ∀ x ∈ cleanPred hs, ∀ i ∈ x.tracks, i < (upTab st.g.tab blocks).length := by
    intro x hx i hi
    obtain ⟨q, hq, hqt⟩ := cleanPred_mem hx
    obtain ⟨p, hp, s, s1, s2, s3, s4, s5⟩ := correct_pre hE.exp hd hbl hls2 hhs hq
    rw [hqt, s5] at hi
    obtain ⟨⟨t, m⟩, him, rfl⟩ := List.mem_map.1 hi
    rw [upTab_length b2, Nat.mul_succ]
    have h1 := s4 _ him
    cases m with
    | none => simp only [enc, Option.map_none, Option.getD_none]; simp only at h1; omega
    | some j =>
      have hj : j < meas.length := s3 j (List.mem_filterMap.2 ⟨_, him, rfl⟩)
      have h2 := Nat.mul_le_mul_left st.g.tab.length (show j + 1 ≤ blocks.length by omega)
      simp only [enc, Option.map_some, Option.getD_some]
      simp only at h1
      omega
  have hcorrect : ∃ st', correct env jp births draws meas st = .ok st' := by
    unfold correct
    rw [hbl]
    simp only
    rw [if_neg (not_not.2 hlen), hls]
    simp only
    rw [hhs]
    simp only
    unfold cleanUpd
    rw [if_neg]
    · exact ⟨_, rfl⟩
    · intro hc
      rw [List.any_eq_true] at hc
      obtain ⟨x, hx, hc⟩ := hc
      rw [List.any_eq_true] at hc
      obtain ⟨i, hi, hc⟩ := hc
      have := hrange x hx i hi
      have h2 : (upTab st.g.tab blocks).length ≤ i := by simpa using hc
      omega
  obtain ⟨st', hst'⟩ := hcorrect
  obtain ⟨blocks', ls', hs', h1, _, h2, h3, h4, h5⟩ := correct_ok hst'
  have hcntr : st'.g.cntr = st.g.cntr := by rw [h5]
  have hext : st'.g.ext = st.g.ext := by rw [h5]
  obtain ⟨i1, i2⟩ := correct_idx hE.exp hd hI.idx.nodup hst'
  have hent : ∀ e' ∈ st'.g.tab, EntWF e' ∧ e'.tIdx + e'.sHist.length ≤ st.g.cntr + 1 ∧
      e'.tIdx + e'.mHist.length ≤ st.g.cntr + 1 := by
    intro e' he'
    obtain ⟨e, he, m, hu⟩ := correct_tab hst' he'
    obtain ⟨_, l2, l3⟩ := hu.label
    have ht := hI.time e he
    have hmm := hm e he
    have hmh : e'.tIdx + e'.mHist.length ≤ st.g.cntr + 1 := by
      rw [l2, l3, List.length_append, List.length_singleton]; omega
    rcases hu with ⟨_, rfl⟩ | ⟨j, z, e0, c, _, _, hc, rfl⟩
    · exact ⟨⟨(hI.ent e he).lw, (hI.ent e he).lc, (hI.ent e he).ne, (hI.ent e he).par,
        (hI.ent e he).last⟩, ht, hmh⟩
    · obtain ⟨o, c', g1, _, g2⟩ := correctEntry_total env jp.base heps z (hE.lik e he) (hI.ent e he)
      rw [hc, Except.ok.injEq, Prod.mk.injEq] at g1
      obtain ⟨w, hlen⟩ := g2 e0 g1.1.symm
      refine ⟨⟨w.lw, w.lc, w.ne, w.par, w.last⟩, ?_, hmh⟩
      rw [l2]
      simp only [addMeas]
      rw [hlen]; exact ht
  refine ⟨st', hst', ⟨i1, fun e he => (hent e he).1, ?_, ?_, ?_, ?_⟩, ?_, i2⟩
  · intro e he; rw [hcntr]; exact (hent e he).2.1
  · intro e he; rw [hcntr]; exact (hent e he).2.2
  · obtain ⟨_, _, _, _, hh⟩ := cleanUpd_ok h4
    rw [hh]
    intro x hx
    obtain ⟨q, hq, rfl⟩ := List.mem_map.1 hx
    exact cleanPred_pos hs' (normHyps_pos h3 ((correct_pre_pos hE.exp hd h2).2 hI.pos)) q
      (List.mem_filter.1 hq).1
  · rw [hext, hcntr]; exact hI.ext
  · rw [h5]; exact calcCard_ne _

end Gasur.Jglmb
