import Verif.Proofs.GlmbCorrect

/-! Invariants of the GLMB filter over sequences of calls. -/

set_option linter.unusedSectionVars false
set_option linter.unusedSimpArgs false

namespace Gasur.Glmb

open Gasur.KShortest Gasur.Murty Gasur.Spec

variable {K τ F S C Z : Type*} [Field K] [LinearOrder K] [IsStrictOrderedRing K]

theorem prune_ok {pr : Params K} {st st' : St K τ F S C} (h : prune pr st = .ok st') :
    ∃ hs, normHyps (st.hyps.filter fun h => decide (pr.pruneThreshold < h.prob)) = .ok hs ∧
      st' = { st with hyps := hs, card := calcCard hs } := by
  unfold prune at h
  split at h
  · simp at h
  · rename_i hs hn
    simp only [Except.ok.injEq] at h
    exact ⟨hs, hn, h.symm⟩

theorem cap_ok {env : Env K τ F S C Z} {pr : Params K} {st st' : St K τ F S C}
    (h : cap env pr st = .ok st') :
    (st.hyps.length ≤ pr.maxHyps ∧ st' = st) ∨
    (pr.maxHyps < st.hyps.length ∧ ∃ kept hs,
      List.Forall₂ (fun i x => st.hyps[i]? = some x)
        (((env.argsort (st.hyps.map fun h => h.prob)).reverse).take pr.maxHyps) kept ∧
      normHyps kept = .ok hs ∧ st' = { st with hyps := hs, card := calcCard hs }) := by
  unfold cap at h
  split at h
  · rename_i hl
    split at h
    · simp at h
    · rename_i kept hk
      split at h
      · simp at h
      · rename_i hs hn
        simp only [Except.ok.injEq] at h
        exact .inr ⟨hl, kept, hs, ((traverseE_ok _ _ _).1 hk).imp fun _ _ h => getE_ok.1 h, hn, h.symm⟩
  · rename_i hl
    simp only [Except.ok.injEq] at h
    exact .inl ⟨not_lt.1 hl, h.symm⟩

/-- The part of the state the clean-up leaves alone: hypotheses of the new state have the track set of an
old one and the table is unchanged. -/
structure Shrinks (st st' : St K τ F S C) : Prop where
  tab : st'.tab = st.tab
  hyps : ∀ h' ∈ st'.hyps, ∃ h ∈ st.hyps, h'.tracks = h.tracks

theorem Shrinks.refl (st : St K τ F S C) : Shrinks st st := ⟨rfl, fun h hh => ⟨h, hh, rfl⟩⟩

theorem Shrinks.trans {a b c : St K τ F S C} (h1 : Shrinks a b) (h2 : Shrinks b c) : Shrinks a c :=
  ⟨h2.tab.trans h1.tab, fun h hh => by
    obtain ⟨x, hx, e1⟩ := h2.hyps h hh
    obtain ⟨y, hy, e2⟩ := h1.hyps x hx
    exact ⟨y, hy, e1.trans e2⟩⟩

theorem prune_shrinks {pr : Params K} {st st' : St K τ F S C} (h : prune pr st = .ok st') :
    Shrinks st st' := by
  obtain ⟨hs, hn, rfl⟩ := prune_ok h
  refine ⟨rfl, ?_⟩
  intro x hx
  obtain ⟨y, hy, ht, _⟩ := normHyps_mem hn hx
  exact ⟨y, (List.mem_filter.1 hy).1, ht⟩

theorem cap_shrinks {env : Env K τ F S C Z} {pr : Params K} {st st' : St K τ F S C}
    (h : cap env pr st = .ok st') : Shrinks st st' := by
  rcases cap_ok h with ⟨_, rfl⟩ | ⟨_, kept, hs, hk, hn, rfl⟩
  · exact Shrinks.refl _
  · refine ⟨rfl, ?_⟩
    intro x hx
    obtain ⟨y, hy, ht, _⟩ := normHyps_mem hn hx
    exact ⟨y, pick_subset hk hy, ht⟩

variable [DecidableEq τ] [FloorRing K]

/-- The cases of a successful `extract`. -/
theorem extract_ok {u c : Bool} {st st' : St K τ F S C} {o}
    (h : extract u c st = .ok (st', o)) :
    ∃ n, argmaxE st.card = .ok n ∧
    ((st.hyps = [] ∧ o = none ∧ st' = { st with
        states := List.replicate st.cntr [], labels := List.replicate st.cntr []
        covs := List.replicate st.cntr [] }) ∨
     (st.hyps ≠ [] ∧ ∃ idx ext r, o = some idx ∧ argmaxE (maskedWeights n st.hyps) = .ok idx ∧
        (if u then updateExt st idx else .ok st.ext) = .ok ext ∧
        (if c then report st.cntr ext (List.replicate st.cntr [], List.replicate st.cntr [],
            List.replicate st.cntr []) else .ok (List.replicate st.cntr [], List.replicate st.cntr [],
            List.replicate st.cntr [])) = .ok r ∧
        st' = { st with ext := ext, states := r.1, labels := r.2.1, covs := r.2.2 })) := by
  unfold extract at h
  split at h
  · simp at h
  · rename_i n hn
    refine ⟨n, hn, ?_⟩
    simp only at h
    split at h
    · rename_i h0
      simp only [Except.ok.injEq, Prod.mk.injEq] at h
      exact .inl ⟨h0, h.2.symm, h.1.symm⟩
    · rename_i h0
      right
      refine ⟨h0, ?_⟩
      split at h
      · simp at h
      · rename_i idx hidx
        split at h
        · simp at h
        · rename_i ext hext
          have hext' : (if u then updateExt st idx else .ok st.ext) = .ok ext := by
            cases u
            · simpa using hext
            · simpa [updateExt] using hext
          split at h
          · rename_i hc
            split at h
            · simp at h
            · rename_i r hr
              simp only [Except.ok.injEq, Prod.mk.injEq] at h
              refine ⟨idx, ext, r, h.2.symm, hidx, hext', ?_, h.1.symm⟩
              rw [if_pos hc]
              exact hr
          · rename_i hc
            simp only [Except.ok.injEq, Prod.mk.injEq] at h
            refine ⟨idx, ext, (List.replicate st.cntr [], List.replicate st.cntr [],
              List.replicate st.cntr []), h.2.symm, hidx, hext', ?_, h.1.symm⟩
            rw [if_neg hc]

/-- Extraction does not touch table, hypotheses, cardinality distribution and counter. -/
theorem extract_frame {u c : Bool} {st st' : St K τ F S C} {o}
    (h : extract u c st = .ok (st', o)) :
    st'.tab = st.tab ∧ st'.hyps = st.hyps ∧ st'.card = st.card ∧ st'.cntr = st.cntr := by
  obtain ⟨n, _, ⟨_, _, rfl⟩ | ⟨_, idx, ext, r, _, _, _, _, rfl⟩⟩ := extract_ok h <;>
    exact ⟨rfl, rfl, rfl, rfl⟩

/-- The steps of a successful `cleanup`. -/
theorem cleanup_ok {env : Env K τ F S C Z} {pr : Params K} {bp bc be u c : Bool} {st st' : St K τ F S C}
    (h : cleanup env pr bp bc be u c st = .ok st') :
    ∃ s1 s2, (if bp then prune pr { st with cntr := st.cntr + 1 }
        else .ok { st with cntr := st.cntr + 1 }) = .ok s1 ∧
      (if bc then cap env pr s1 else .ok s1) = .ok s2 ∧
      ((be = false ∧ st' = s2) ∨ (be = true ∧ ∃ o, extract u c s2 = .ok (st', o))) := by
  unfold cleanup at h
  split at h
  · simp at h
  · rename_i s1 h1
    split at h
    · simp at h
    · rename_i s2 h2
      refine ⟨s1, s2, h1, h2, ?_⟩
      split at h
      · rename_i hbe
        split at h
        · simp at h
        · rename_i s3 o h3
          simp only [Except.ok.injEq] at h
          subst h
          exact .inr ⟨hbe, o, h3⟩
      · rename_i hbe
        simp only [Except.ok.injEq] at h
        exact .inl ⟨by simpa using hbe, h.symm⟩

theorem cleanup_shrinks {env : Env K τ F S C Z} {pr : Params K} {bp bc be u c : Bool}
    {st st' : St K τ F S C} (h : cleanup env pr bp bc be u c st = .ok st') : Shrinks st st' := by
  obtain ⟨s1, s2, h1, h2, h3⟩ := cleanup_ok h
  have k1 : Shrinks st s1 := by
    split at h1
    · have := prune_shrinks h1
      exact ⟨this.tab, this.hyps⟩
    · simp only [Except.ok.injEq] at h1
      subst h1
      exact ⟨rfl, fun x hx => ⟨x, hx, rfl⟩⟩
  have k2 : Shrinks s1 s2 := by
    split at h2
    · exact cap_shrinks h2
    · simp only [Except.ok.injEq] at h2
      subst h2
      exact Shrinks.refl _
  rcases h3 with ⟨_, rfl⟩ | ⟨_, o, h3⟩
  · exact k1.trans k2
  · obtain ⟨e1, e2, _⟩ := extract_frame h3
    exact (k1.trans k2).trans ⟨e1, fun x hx => ⟨x, by rw [← e2]; exact hx, rfl⟩⟩

theorem Shrinks.idx {st st' : St K τ F S C} (h : Shrinks st st') (hI : IdxInv st) : IdxInv st' := by
  constructor
  · intro x hx i hi
    obtain ⟨y, hy, e⟩ := h.hyps x hx
    rw [h.tab]
    exact hI.range y hy i (e ▸ hi)
  · intro x hx
    obtain ⟨y, hy, e⟩ := h.hyps x hx
    rw [e]
    exact hI.nodup y hy

theorem step_idx {pr : Params K} (heps : 0 < pr.eps) {st st' : St K τ F S C} (o : Op K τ F S C Z)
    (hI : IdxInv st) (h : step pr st o = .ok st') : IdxInv st' := by
  cases o with
  | predict env lab births => exact predict_idx heps hI h
  | correct env meas => exact correct_idx hI h
  | cleanup env bp bc be u c => exact (cleanup_shrinks h).idx hI
  | extract u c =>
    simp only [step] at h
    split at h
    · simp at h
    · rename_i s o h1
      simp only [Except.ok.injEq] at h
      subst h
      obtain ⟨e1, e2, _⟩ := extract_frame h1
      exact Shrinks.idx ⟨e1, fun x hx => ⟨x, by rw [← e2]; exact hx, rfl⟩⟩ hI

/-- Induction over a sequence of calls. -/
theorem run_induct {pr : Params K} (P : St K τ F S C → Prop)
    (hstep : ∀ st st' (o : Op K τ F S C Z), P st → step pr st o = .ok st' → P st') :
    ∀ (ops : List (Op K τ F S C Z)) (st st' : St K τ F S C), P st → run pr st ops = .ok st' → P st'
  | [], st, st', h, hr => by
    simp only [run, Except.ok.injEq] at hr
    subst hr
    exact h
  | o :: os, st, st', h, hr => by
    unfold run at hr
    split at hr
    · simp at hr
    · rename_i s hs
      exact run_induct P hstep os s st' (hstep _ _ o h hs) hr

theorem init_idx : IdxInv (init : St K τ F S C) := by
  constructor
  · intro h hh i hi
    simp only [init, List.mem_singleton] at hh
    subst hh
    simp at hi
  · intro h hh
    simp only [init, List.mem_singleton] at hh
    subst hh
    exact List.nodup_nil

/-! ### Labels -/

theorem predictEntry_label {env : Env K τ F S C Z} {e e' : Entry K τ F S C}
    (h : predictEntry env e = .ok e') :
    e'.label = e.label ∧ e'.tIdx = e.tIdx ∧ e'.mHist = e.mHist := by
  unfold predictEntry at h
  split at h
  · split at h
    · simp only [Except.ok.injEq] at h
      subst h
      exact ⟨rfl, rfl, rfl⟩
    · simp at h
  · simp at h

theorem correctEntry_label {env : Env K τ F S C Z} {pr : Params K} {z : Z} {e e' : Entry K τ F S C} {c}
    (h : correctEntry env pr z e = .ok (some e', c)) :
    e'.label = e.label ∧ e'.tIdx = e.tIdx ∧ e'.mHist = e.mHist := by
  unfold correctEntry at h
  split at h
  · split at h
    · split at h
      · simp at h
      · split at h
        · simp at h
        · simp only [Except.ok.injEq, Prod.mk.injEq, Option.some.injEq] at h
          obtain ⟨rfl, _⟩ := h
          exact ⟨rfl, rfl, rfl⟩
    · simp at h
  · simp at h

theorem IsUpdate.label {env : Env K τ F S C Z} {pr : Params K} {meas : List Z} {e e' : Entry K τ F S C}
    {m : Option ℕ} (h : IsUpdate env pr meas e m e') :
    e'.label = e.label ∧ e'.tIdx = e.tIdx ∧ e'.mHist = e.mHist ++ [m] := by
  rcases h with ⟨rfl, rfl⟩ | ⟨j, z, e0, c, rfl, _, hc, rfl⟩
  · exact ⟨rfl, rfl, rfl⟩
  · obtain ⟨h1, h2, h3⟩ := correctEntry_label hc
    exact ⟨h1, h2, by simp [addMeas, h3]⟩

/-- Every entry of the corrected table is an update of an entry of the old table. -/
theorem correct_tab {env : Env K τ F S C Z} {pr : Params K} {meas : List Z} {st st' : St K τ F S C}
    (hI : IdxInv st) (h : correct env pr meas st = .ok st') {e'} (he : e' ∈ st'.tab) :
    ∃ e ∈ st.tab, ∃ m, IsUpdate env pr meas e m e' := by
  obtain ⟨blocks, hs, h1, h2, h3, _⟩ := correct_ok h
  obtain ⟨_, _, _, hinv, _⟩ := cleanUpd_ok h3
  obtain ⟨b1, b2, b3⟩ := corBlocks_ok h1
  obtain ⟨k, hk⟩ := List.mem_iff_getElem?.1 he
  obtain ⟨i, hi, _, hie⟩ := hinv k e' hk
  have hilt : i < st.tab.length * (blocks.length + 1) := by
    rw [← upTab_length b2]
    exact (List.getElem?_eq_some_iff.1 hie).1
  have hpos : 0 < st.tab.length := by
    rcases Nat.eq_zero_or_pos st.tab.length with h0 | h0
    · rw [h0] at hilt; simp at hilt
    · exact h0
  have hmod := Nat.mod_lt i hpos
  have hdecomp := Nat.mod_add_div i st.tab.length
  obtain ⟨g1, g2⟩ := upTab_get (blocks := blocks) b2 hmod
  refine ⟨st.tab[i % st.tab.length], List.getElem_mem _, ?_⟩
  cases hq : i / st.tab.length with
  | zero =>
    rw [hq, Nat.mul_zero, Nat.add_zero] at hdecomp
    rw [← hdecomp] at hie
    rw [g1] at hie
    refine ⟨none, .inl ⟨rfl, by simpa using hie.symm⟩⟩
  | succ j =>
    rw [hq] at hdecomp
    have hg := g2 j
    rw [hdecomp, hie] at hg
    cases hbj : blocks[j]? with
    | none => rw [hbj] at hg; simp at hg
    | some b =>
      rw [hbj] at hg
      obtain ⟨z, hz, hzt⟩ := b3 j b hbj
      obtain ⟨o, c, hoc, hbt⟩ := hzt _ _ (List.getElem?_eq_getElem hmod)
      simp only [Option.bind_some] at hg
      rw [hbt] at hg
      simp only [Option.map_some, Option.some.injEq] at hg
      cases ho : o with
      | none => rw [ho] at hg; simp at hg
      | some e0 =>
        rw [ho] at hg hoc
        simp only [Option.map_some, Option.some.injEq] at hg
        exact ⟨some j, .inr ⟨j, z, e0, c, rfl, hz, hoc, hg⟩⟩

/-- Label invariant (C15): birth times of the labels are among `past`, and the tracks of a hypothesis
have different labels. -/
structure LabInv (past : List τ) (st : St K τ F S C) : Prop where
  idx : IdxInv st
  past : ∀ e ∈ st.tab, e.label.1 ∈ past
  uniq : ∀ h ∈ st.hyps, ∀ i ∈ h.tracks, ∀ j ∈ h.tracks, ∀ e e', st.tab[i]? = some e →
    st.tab[j]? = some e' → e.label = e'.label → i = j

theorem birthTab_get {lab : τ} {cntr : ℕ} {births : List (Birth K F S C)} {i : ℕ}
    {e : Entry K τ F S C} (h : (birthTab lab cntr births)[i]? = some e) :
    e.label = (lab, i) ∧ e.tIdx = cntr ∧ e.mHist = [] ∧ e.sHist.length = 1 := by
  unfold birthTab at h
  rw [List.getElem?_map, Option.map_eq_some_iff] at h
  obtain ⟨⟨b, k⟩, hb, rfl⟩ := h
  rw [List.getElem?_zipIdx, Option.map_eq_some_iff] at hb
  obtain ⟨b', hb', heq⟩ := hb
  simp only [Nat.zero_add, Prod.mk.injEq] at heq
  obtain ⟨rfl, rfl⟩ := heq
  exact ⟨rfl, rfl, rfl, rfl⟩

theorem predict_lab {env : Env K τ F S C Z} {pr : Params K} (heps : 0 < pr.eps) {lab : τ}
    {births : List (Birth K F S C)} {st st' : St K τ F S C} {past : List τ} (hI : LabInv past st)
    (hlab : lab ∉ past) (h : predict env pr lab births st = .ok st') : LabInv (lab :: past) st' := by
  obtain ⟨survTab, ht1, ht2, _⟩ := predict_tab h
  have hbl := birthTab_length (K := K) lab st.cntr births
  have hf := List.forall₂_iff_get.1 ht1
  have hold : ∀ {j : ℕ} {e : Entry K τ F S C}, st'.tab[j + births.length]? = some e →
      ∃ e0, st.tab[j]? = some e0 ∧ e.label = e0.label := by
    intro j e he
    rw [ht2, List.getElem?_append_right (by omega), hbl, Nat.add_sub_cancel] at he
    obtain ⟨hj, rfl⟩ := List.getElem?_eq_some_iff.1 he
    have := hf.2 j (by rw [hf.1]; exact hj) hj
    simp only [List.get_eq_getElem] at this
    exact ⟨_, List.getElem?_eq_getElem _, (predictEntry_label this).1⟩
  have hnew : ∀ {j : ℕ} {e : Entry K τ F S C}, j < births.length → st'.tab[j]? = some e →
      e.label = (lab, j) := by
    intro j e hj he
    rw [ht2, List.getElem?_append_left (by omega)] at he
    exact (birthTab_get he).1
  refine ⟨predict_idx heps hI.idx h, ?_, ?_⟩
  · intro e he
    rw [ht2] at he
    rcases List.mem_append.1 he with he | he
    · obtain ⟨k, hk⟩ := List.mem_iff_getElem?.1 he
      rw [(birthTab_get hk).1]
      exact List.mem_cons_self
    · obtain ⟨e0, he0, hp⟩ := forall₂_mem_right ht1 he
      rw [(predictEntry_label hp).1]
      exact List.mem_cons_of_mem _ (hI.past e0 he0)
  · intro x hx i hi j hj e e' he he' hee
    obtain ⟨bs, ss, e1, e2, e3, y, hy, e4, e5⟩ := predict_hyp heps h hx
    rw [e1] at hi hj
    rcases List.mem_append.1 hi with hi | hi <;> rcases List.mem_append.1 hj with hj | hj
    · rw [hnew (e3 i hi) he, hnew (e3 j hj) he'] at hee
      simpa using hee
    · obtain ⟨j', hj', rfl⟩ := List.mem_map.1 hj
      obtain ⟨e0, he0, hl⟩ := hold he'
      rw [hnew (e3 i hi) he, hl] at hee
      have := hI.past e0 (List.mem_of_getElem? he0)
      rw [← hee] at this
      exact absurd this hlab
    · obtain ⟨i', hi', rfl⟩ := List.mem_map.1 hi
      obtain ⟨e0, he0, hl⟩ := hold he
      rw [hnew (e3 j hj) he', hl] at hee
      have := hI.past e0 (List.mem_of_getElem? he0)
      rw [hee] at this
      exact absurd this hlab
    · obtain ⟨i', hi', rfl⟩ := List.mem_map.1 hi
      obtain ⟨j', hj', rfl⟩ := List.mem_map.1 hj
      obtain ⟨e0, he0, hl⟩ := hold he
      obtain ⟨e0', he0', hl'⟩ := hold he'
      rw [hl, hl'] at hee
      rw [hI.uniq y hy i' (e4 hi') j' (e4 hj') e0 e0' he0 he0' hee]

theorem correct_lab {env : Env K τ F S C Z} {pr : Params K} {meas : List Z} {st st' : St K τ F S C}
    {past : List τ} (hI : LabInv past st) (h : correct env pr meas st = .ok st') : LabInv past st' := by
  refine ⟨correct_idx hI.idx h, ?_, ?_⟩
  · intro e' he'
    obtain ⟨e, he, m, hu⟩ := correct_tab hI.idx h he'
    rw [hu.label.1]
    exact hI.past e he
  · intro x hx i hi j hj e e' he he' hee
    obtain ⟨p, hp, a, _, _, hlen, hall⟩ := correct_hyp hI.idx h hx
    obtain ⟨i0, hi0, rfl⟩ := List.getElem_of_mem hi
    obtain ⟨j0, hj0, rfl⟩ := List.getElem_of_mem hj
    obtain ⟨f, f', hf, hf', hu⟩ := hall ⟨i0, by rw [← hlen]; exact hi0⟩
    obtain ⟨g, g', hg, hg', hv⟩ := hall ⟨j0, by rw [← hlen]; exact hj0⟩
    rw [he, Option.some.injEq] at hf'
    rw [he', Option.some.injEq] at hg'
    subst hf'
    subst hg'
    rw [hu.label.1, hv.label.1] at hee
    have := hI.uniq p hp _ (List.getElem_mem _) _ (List.getElem_mem _) f g hf hg hee
    have h2 := (List.Nodup.getElem_inj_iff (hI.idx.nodup p hp)).1 this
    simp only at h2
    subst h2
    rfl

theorem Shrinks.lab {st st' : St K τ F S C} {past : List τ} (h : Shrinks st st') (hI : LabInv past st) :
    LabInv past st' := by
  refine ⟨h.idx hI.idx, by rw [h.tab]; exact hI.past, ?_⟩
  intro x hx i hi j hj e e' he he' hee
  obtain ⟨y, hy, e1⟩ := h.hyps x hx
  rw [h.tab] at he he'
  exact hI.uniq y hy i (e1 ▸ hi) j (e1 ▸ hj) e e' he he' hee

/-- Labels used by the prediction calls of a sequence. -/
def Op.labels : Op K τ F S C Z → List τ
  | .predict _ lab _ => [lab]
  | _ => []

theorem step_lab {pr : Params K} (heps : 0 < pr.eps) {st st' : St K τ F S C} (o : Op K τ F S C Z)
    {past : List τ} (hI : LabInv past st) (hl : ∀ t ∈ o.labels, t ∉ past)
    (h : step pr st o = .ok st') : LabInv (o.labels ++ past) st' := by
  cases o with
  | predict env lab births => exact predict_lab heps hI (hl lab (by simp [Op.labels])) h
  | correct env meas => exact correct_lab hI h
  | cleanup env bp bc be u c => exact (cleanup_shrinks h).lab hI
  | extract u c =>
    simp only [step] at h
    split at h
    · simp at h
    · rename_i s o h1
      simp only [Except.ok.injEq] at h
      subst h
      obtain ⟨e1, e2, _⟩ := extract_frame h1
      exact Shrinks.lab ⟨e1, fun x hx => ⟨x, by rw [← e2]; exact hx, rfl⟩⟩ hI

theorem run_lab {pr : Params K} (heps : 0 < pr.eps) : ∀ (ops : List (Op K τ F S C Z))
    (past : List τ) (st st' : St K τ F S C), LabInv past st →
    (ops.flatMap Op.labels).Nodup → (∀ t ∈ ops.flatMap Op.labels, t ∉ past) →
    run pr st ops = .ok st' → ∃ past', LabInv past' st'
  | [], past, st, st', h, _, _, hr => by
    simp only [run, Except.ok.injEq] at hr
    subst hr
    exact ⟨past, h⟩
  | o :: os, past, st, st', h, hnd, hd, hr => by
    unfold run at hr
    split at hr
    · simp at hr
    · rename_i s hs
      rw [List.flatMap_cons, List.nodup_append] at hnd
      rw [List.flatMap_cons] at hd
      refine run_lab heps os (o.labels ++ past) s st'
        (step_lab heps o h (fun t ht => hd t (List.mem_append_left _ ht)) hs) hnd.2.1 ?_ hr
      intro t ht hc
      rcases List.mem_append.1 hc with hc | hc
      · exact hnd.2.2 t hc t ht rfl
      · exact hd t (List.mem_append_right _ ht) hc

theorem init_lab : LabInv [] (init : St K τ F S C) := by
  refine ⟨init_idx, ?_, ?_⟩
  · intro e he; simp [init] at he
  · intro h hh i hi
    simp only [init, List.mem_singleton] at hh
    subst hh
    simp at hi

end Gasur.Glmb
