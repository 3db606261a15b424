import Verif.Model.Jglmb
import Verif.Proofs.Gibbs
import Verif.Props.Gibbs
import Verif.Proofs.GlmbMain
import Verif.Proofs.GlmbWeights

/-! The structure of the joint GLMB update. -/

set_option linter.unusedSectionVars false
set_option linter.unusedSimpArgs false

namespace Gasur.Jglmb

open Gasur.Glmb

variable {K τ F S C Z : Type*} [Field K] [LinearOrder K] [IsStrictOrderedRing K] [FloorRing K]

/-- Draws in `[0, 1)`. -/
def DrawsOk (draws : ℕ → ℕ → ℕ → K) : Prop := ∀ n s v, 0 ≤ draws n s v ∧ draws n s v < 1

/-- What happened to one row: the track and the measurement number (`none`: missed). -/
def pick (n t j : ℕ) : Option (ℕ × Option ℕ) :=
  if j < n then none else if j < 2 * n then some (t, none) else some (t, some (j - 2 * n))

/-- The table index of a track and a measurement. -/
def enc (L : ℕ) (im : ℕ × Option ℕ) : ℕ := im.1 + L * (im.2.map (· + 1)).getD 0

theorem decode_pick (L n t j : ℕ) : decode L n t j = (pick n t j).map (enc L) := by
  unfold decode pick
  split
  · rfl
  · split
    · simp [enc]
    · simp [enc, Nat.add_comm]

/-- The tracks kept by an assignment row, with their measurements. -/
def sel (ts : List ℕ) {m : ℕ} (a : Fin ts.length → Fin m) : List (ℕ × Option ℕ) :=
  (List.finRange ts.length).filterMap fun i => pick ts.length ts[i] (a i).val

theorem rowTracks_sel (L : ℕ) (ts : List ℕ) {m : ℕ} (a : Fin ts.length → Fin m) :
    rowTracks L ts a = (sel ts a).map (enc L) := by
  unfold rowTracks sel
  rw [List.map_filterMap]
  congr 1
  funext i
  rw [decode_pick]

theorem filterMap_fst_sublist {α β γ : Type*} (f : α → Option (β × γ)) (k : α → β)
    (h : ∀ a p, f a = some p → p.1 = k a) : ∀ (l : List α),
    ((l.filterMap f).map Prod.fst).Sublist (l.map k)
  | [] => by simp
  | a :: l => by
    rw [List.filterMap_cons, List.map_cons]
    cases hf : f a with
    | none => exact (filterMap_fst_sublist f k h l).cons _
    | some p =>
      simp only [List.map_cons]
      rw [h a p hf]
      exact (filterMap_fst_sublist f k h l).cons_cons _

theorem finRange_map_get {α : Type*} (l : List α) : ((List.finRange l.length).map fun i => l[i]) = l := by
  apply List.ext_getElem <;> simp

theorem sel_sublist (ts : List ℕ) {m : ℕ} (a : Fin ts.length → Fin m) :
    ((sel ts a).map Prod.fst).Sublist ts := by
  have := filterMap_fst_sublist (fun i : Fin ts.length => pick ts.length ts[i] (a i).val)
    (fun i => ts[i]) (by
      intro i p hp
      unfold pick at hp
      split at hp
      · simp at hp
      · split at hp <;> (simp only [Option.some.injEq] at hp; rw [← hp])) (List.finRange ts.length)
  rwa [finRange_map_get] at this

theorem pick_snd {n t j : ℕ} {m : ℕ} (h : (pick n t j).bind Prod.snd = some m) : j = 2 * n + m := by
  unfold pick at h
  split at h
  · simp at h
  · split at h
    · simp at h
    · simp only [Option.bind_some, Option.some.injEq] at h
      omega

theorem sel_meas (ts : List ℕ) {m : ℕ} (a : Fin ts.length → Fin m) (ha : Function.Injective a) :
    ((sel ts a).filterMap Prod.snd).Nodup ∧
    ∀ k ∈ (sel ts a).filterMap Prod.snd, 2 * ts.length + k < m := by
  unfold sel
  rw [List.filterMap_filterMap]
  constructor
  · refine List.Nodup.filterMap ?_ (List.nodup_finRange _)
    intro i i' b hi hi'
    have h1 := pick_snd hi
    have h2 := pick_snd hi'
    exact ha (Fin.ext (by omega))
  · intro k hk
    obtain ⟨i, _, hi⟩ := List.mem_filterMap.1 hk
    have h1 := pick_snd hi
    have := (a i).isLt
    omega

/-- What a successful `corOne` returns. -/
theorem corOne_ok {env : Env K τ F S C Z} (hexp : ∀ x, 0 < env.num.expNeg x) {jp : JParams K}
    {births : List (Birth K F S C)} {oldLen tabLen : ℕ}
    {blocks : List (List (Option (Entry K τ F S C) × K))} {ss : K} {u : ℕ → ℕ → K}
    (hu : ∀ s v, 0 ≤ u s v ∧ u s v < 1) {h : Hyp K} {out}
    (hc : corOne env jp births oldLen tabLen blocks ss u h = .ok out) :
    (∀ t ∈ tinds births.length h, t < tabLen) ∧ ss ≠ 0 ∧
    0 < jp.base.clutterRate * jp.base.clutterDen ∧
    ∃ rows : List ((Fin (tinds births.length h).length →
        Fin (2 * (tinds births.length h).length +
          numCols (tinds births.length h).length blocks.length)) × K),
      rows ≠ [] ∧ (rows.map Prod.fst).Nodup ∧
      rows.length ≤ (Phd.pyRound ((jp.base.reqUpd : K) * env.num.sqrt h.prob / ss)).toNat + 1 ∧
      (∀ a c, (a, c) ∈ rows → Function.Injective a ∧ c = ∑ i, env.num.negLog
        (costVal jp (avgSurv jp births oldLen) blocks (tinds births.length h) i.val (a i).val)) ∧
      out = rows.map fun ac => ⟨env.num.expNeg jp.base.clutterRate *
        (jp.base.clutterRate * jp.base.clutterDen) ^ blocks.length * h.prob * env.num.expNeg ac.2,
        rowTracks tabLen (tinds births.length h) ac.1⟩ := by
  unfold corOne at hc
  simp only at hc
  split at hc
  · simp at hc
  · rename_i hr
    split at hc
    · simp at hc
    · rename_i k hk
      obtain ⟨hss, hk⟩ := share_ok hk
      obtain ⟨rows, g1, g2, g3, g4, a0, c0, g5, _⟩ := Gasur.Props.C12_gibbs
        (N := (tinds births.length h).length) (M := 2 * (tinds births.length h).length +
          numCols (tinds births.length h).length blocks.length) env.num.expNeg hexp
        (fun i j => env.num.negLog (costVal jp (avgSurv jp births oldLen) blocks
          (tinds births.length h) i.val j.val)) (by omega) (k + 1) (by omega)
        (fun s v => u s v.val) (fun s v => hu s v.val)
      rw [g1] at hc
      simp only at hc
      split at hc
      · simp at hc
      · rename_i hcl
        simp only [Except.ok.injEq] at hc
        refine ⟨?_, hss, not_le.1 hcl, rows, List.ne_nil_of_mem g5, g3, by rw [← hk]; exact g2, g4, hc.symm⟩
        intro t ht
        by_contra hlt
        apply hr
        rw [List.any_eq_true]
        exact ⟨t, ht, by simpa using hlt⟩

theorem correct_ok {env : Env K τ F S C Z} {jp : JParams K} {births : List (Birth K F S C)}
    {draws : ℕ → ℕ → ℕ → K} {meas : List Z} {st st' : JSt K τ F S C}
    (h : correct env jp births draws meas st = .ok st') :
    ∃ blocks ls hs, corBlocks env jp.base st.g.tab meas = .ok blocks ∧
      births.length + st.oldLen = st.g.tab.length ∧
      List.Forall₂ (fun (hn : Hyp K × ℕ) out => corOne env jp births st.oldLen st.g.tab.length blocks
          (sumSqrt env st.g.hyps) (draws hn.2) hn.1 = .ok out) st.g.hyps.zipIdx ls ∧
      normHyps ls.flatten = .ok hs ∧
      cleanUpd (upTab st.g.tab blocks) (cleanPred hs) = .ok (st'.g.tab, st'.g.hyps) ∧
      st' = { g := { st.g with tab := st'.g.tab, hyps := st'.g.hyps, card := calcCard hs }
              oldLen := st'.g.tab.length } := by
  unfold correct at h
  split at h
  · simp at h
  · rename_i blocks hb
    split at h
    · simp at h
    · rename_i hlen
      split at h
      · simp at h
      · rename_i ls hls
        split at h
        · simp at h
        · rename_i hs hn
          split at h
          · simp at h
          · rename_i tab' hs' hcl
            simp only [Except.ok.injEq] at h
            subst h
            exact ⟨blocks, ls, hs, hb, not_not.1 hlen, (traverseE_ok _ _ _).1 hls, hn, hcl, rfl⟩

/-- An index of the updated table, for a track that exists. -/
theorem upTab_enc {env : Env K τ F S C Z} {pr : Params K} {tab : List (Entry K τ F S C)} {meas : List Z}
    {blocks} (hb : corBlocks env pr tab meas = .ok blocks) {im : ℕ × Option ℕ} (ht : im.1 < tab.length)
    {e'} (he : (upTab tab blocks)[enc tab.length im]? = some (some e')) :
    IsUpdate env pr meas tab[im.1] im.2 e' := by
  obtain ⟨b1, b2, b3⟩ := corBlocks_ok hb
  obtain ⟨g1, g2⟩ := upTab_get b2 ht
  obtain ⟨t, m⟩ := im
  cases m with
  | none =>
    left
    refine ⟨rfl, ?_⟩
    simp only [enc, Option.map_none, Option.getD_none, Nat.mul_zero, Nat.add_zero] at he
    rw [g1] at he
    simpa using he.symm
  | some j =>
    right
    simp only [enc, Option.map_some, Option.getD_some] at he
    have hg := g2 j
    rw [he] at hg
    cases hbj : blocks[j]? with
    | none => rw [hbj] at hg; simp at hg
    | some b =>
      rw [hbj] at hg
      obtain ⟨z, hz, hzt⟩ := b3 j b hbj
      obtain ⟨o, c, hoc, hbt⟩ := hzt _ _ (List.getElem?_eq_getElem ht)
      simp only [Option.bind_some] at hg
      rw [hbt] at hg
      simp only [Option.map_some, Option.some.injEq] at hg
      cases ho : o with
      | none => rw [ho] at hg; simp at hg
      | some e0 =>
        rw [ho] at hg hoc
        simp only [Option.map_some, Option.some.injEq] at hg
        exact ⟨j, z, e0, c, rfl, hz, hoc, hg⟩

/-- Members of the list of updated hypotheses before cleaning. -/
theorem correct_pre {env : Env K τ F S C Z} (hexp : ∀ x, 0 < env.num.expNeg x) {jp : JParams K}
    {births : List (Birth K F S C)} {draws : ℕ → ℕ → ℕ → K} (hd : DrawsOk draws) {meas : List Z}
    {st : JSt K τ F S C} {blocks ls hs} (hb : corBlocks env jp.base st.g.tab meas = .ok blocks)
    (hls : List.Forall₂ (fun (hn : Hyp K × ℕ) out => corOne env jp births st.oldLen st.g.tab.length blocks
          (sumSqrt env st.g.hyps) (draws hn.2) hn.1 = .ok out) st.g.hyps.zipIdx ls)
    (hn : normHyps ls.flatten = .ok hs) {q} (hq : q ∈ hs) :
    ∃ p ∈ st.g.hyps, ∃ s : List (ℕ × Option ℕ), (s.map Prod.fst).Sublist (tinds births.length p) ∧
      (s.filterMap Prod.snd).Nodup ∧ (∀ m ∈ s.filterMap Prod.snd, m < meas.length) ∧
      (∀ im ∈ s, im.1 < st.g.tab.length) ∧ q.tracks = s.map (enc st.g.tab.length) := by
  obtain ⟨x, hx, ht, _⟩ := normHyps_mem hn hq
  obtain ⟨out, hout, hxo⟩ := List.mem_flatten.1 hx
  obtain ⟨hp, hpm, hc⟩ := forall₂_mem_right hls hout
  obtain ⟨c1, c2, c3, rows, r1, r2, r3, r4, rfl⟩ := corOne_ok hexp (fun s v => hd _ s v) hc
  obtain ⟨⟨a, c⟩, hac, rfl⟩ := List.mem_map.1 hxo
  have hinj := (r4 a c hac).1
  obtain ⟨b1, _, _⟩ := corBlocks_ok hb
  obtain ⟨m1, m2⟩ := sel_meas _ a hinj
  have hsub := sel_sublist _ a
  refine ⟨hp.1, ?_, sel _ a, hsub, m1, ?_, ?_, ?_⟩
  · obtain ⟨i, hi⟩ := List.mem_iff_getElem?.1 hpm
    rw [List.getElem?_zipIdx, Option.map_eq_some_iff] at hi
    obtain ⟨y, hy, rfl⟩ := hi
    exact List.mem_of_getElem? hy
  · intro m hm
    have := m2 m hm
    unfold numCols at this
    split at this <;> omega
  · intro im him
    exact c1 _ (hsub.subset (List.mem_map_of_mem him))
  · rw [ht]
    exact rowTracks_sel _ _ _

/-- **Structure of the updated hypotheses.** -/
theorem correct_hyp {env : Env K τ F S C Z} (hexp : ∀ x, 0 < env.num.expNeg x) {jp : JParams K}
    {births : List (Birth K F S C)} {draws : ℕ → ℕ → ℕ → K} (hd : DrawsOk draws) {meas : List Z}
    {st st' : JSt K τ F S C} (h : correct env jp births draws meas st = .ok st') {h'}
    (hh : h' ∈ st'.g.hyps) :
    ∃ p ∈ st.g.hyps, ∃ s : List (ℕ × Option ℕ), (s.map Prod.fst).Sublist (tinds births.length p) ∧
      (s.filterMap Prod.snd).Nodup ∧ (∀ m ∈ s.filterMap Prod.snd, m < meas.length) ∧
      List.Forall₂ (fun im t' => ∃ e e', st.g.tab[im.1]? = some e ∧ st'.g.tab[t']? = some e' ∧
        IsUpdate env jp.base meas e im.2 e') s h'.tracks := by
  obtain ⟨blocks, ls, hs, h1, _, h2, h3, h4, _⟩ := correct_ok h
  obtain ⟨hr, _, hidx, _, hhyps⟩ := cleanUpd_ok h4
  rw [hhyps] at hh
  obtain ⟨q, hq, rfl⟩ := List.mem_map.1 hh
  rw [List.mem_filter, List.all_eq_true] at hq
  obtain ⟨hq, hall⟩ := hq
  obtain ⟨q0, hq0, hqt⟩ := cleanPred_mem hq
  obtain ⟨p, hp, s, s1, s2, s3, s4, s5⟩ := correct_pre hexp hd h1 h2 h3 hq0
  refine ⟨p, hp, s, s1, s2, s3, ?_⟩
  simp only
  rw [hqt, s5] at hall ⊢
  rw [List.map_map, List.forall₂_map_right_iff, List.forall₂_same]
  intro im him
  have hmem : enc st.g.tab.length im ∈ usedInds (upTab st.g.tab blocks) (cleanPred hs) := by
    simpa using hall _ (List.mem_map_of_mem him)
  obtain ⟨u1, u2⟩ := hidx _ hmem
  obtain ⟨e', he'⟩ := (mem_usedInds.1 hmem).1
  rw [he', Option.some.injEq] at u2
  exact ⟨st.g.tab[im.1]'(s4 im him), e', List.getElem?_eq_getElem _, u2,
    upTab_enc h1 (s4 im him) he'⟩

/-- Index invariant of the joint filter: hypotheses refer to the table of the last update, which is the end
of the present table. -/
structure JIdx (st : JSt K τ F S C) : Prop where
  range : ∀ h ∈ st.g.hyps, ∀ t ∈ h.tracks, t < st.oldLen
  nodup : ∀ h ∈ st.g.hyps, h.tracks.Nodup
  le : st.oldLen ≤ st.g.tab.length

theorem tinds_nodup {nb : ℕ} {h : Hyp K} (hn : h.tracks.Nodup) : (tinds nb h).Nodup := by
  unfold tinds
  rw [List.nodup_append]
  refine ⟨List.nodup_range, ?_, ?_⟩
  · exact (List.nodup_map_iff fun a b hab => by simpa using hab).2 hn
  · intro a ha b hb hab
    obtain ⟨c, _, rfl⟩ := List.mem_map.1 hb
    have := List.mem_range.1 ha
    omega

theorem enc_inj {L : ℕ} {a b : ℕ × Option ℕ} (ha : a.1 < L) (hb : b.1 < L) (h : enc L a = enc L b) :
    a.1 = b.1 := by
  have := congrArg (· % L) h
  simp only [enc, Nat.add_mul_mod_self_left] at this
  rwa [Nat.mod_eq_of_lt ha, Nat.mod_eq_of_lt hb] at this

theorem correct_idx {env : Env K τ F S C Z} (hexp : ∀ x, 0 < env.num.expNeg x) {jp : JParams K}
    {births : List (Birth K F S C)} {draws : ℕ → ℕ → ℕ → K} (hd : DrawsOk draws) {meas : List Z}
    {st st' : JSt K τ F S C} (hI : ∀ h ∈ st.g.hyps, h.tracks.Nodup)
    (h : correct env jp births draws meas st = .ok st') :
    IdxInv st'.g ∧ st'.oldLen = st'.g.tab.length := by
  obtain ⟨blocks, ls, hs, h1, _, h2, h3, h4, h5⟩ := correct_ok h
  obtain ⟨hr, _, hidx, _, hhyps⟩ := cleanUpd_ok h4
  refine ⟨⟨?_, ?_⟩, by rw [h5]⟩
  · intro x hx i hi
    rw [hhyps] at hx
    obtain ⟨q, hq, rfl⟩ := List.mem_map.1 hx
    obtain ⟨j, hj, rfl⟩ := List.mem_map.1 hi
    rw [List.mem_filter, List.all_eq_true] at hq
    have := hq.2 j hj
    exact (hidx j (by simpa using this)).1
  · intro x hx
    rw [hhyps] at hx
    obtain ⟨q, hq, rfl⟩ := List.mem_map.1 hx
    rw [List.mem_filter, List.all_eq_true] at hq
    obtain ⟨q0, hq0, hqt⟩ := cleanPred_mem hq.1
    obtain ⟨p, hp, s, s1, s2, s3, s4, s5⟩ := correct_pre hexp hd h1 h2 h3 hq0
    have hnd : (s.map Prod.fst).Nodup := s1.nodup (tinds_nodup (hI p hp))
    have hqn : q.tracks.Nodup := by
      rw [hqt, s5, List.nodup_map_iff_inj_on hnd.of_map]
      intro a ha b hb hab
      exact List.inj_on_of_nodup_map hnd ha hb (enc_inj (s4 a ha) (s4 b hb) hab)
    have hall := hq.2
    rw [List.nodup_map_iff_inj_on hqn]
    intro i hi j hj hij
    have m1 : i ∈ usedInds (upTab st.g.tab blocks) (cleanPred hs) := by simpa using hall i hi
    have m2 : j ∈ usedInds (upTab st.g.tab blocks) (cleanPred hs) := by simpa using hall j hj
    exact (List.idxOf_inj m1).1 hij

theorem predict_ok {env : Env K τ F S C Z} {lab : τ} {births : List (Birth K F S C)}
    {st st' : JSt K τ F S C} (h : predict env lab births st = .ok st') :
    (∀ b ∈ births, b.prob ≠ 1) ∧ ∃ survTab,
      List.Forall₂ (fun e e' => predictEntry env e = .ok e') st.g.tab survTab ∧
      st' = { st with g := { st.g with tab := birthTab lab st.g.cntr births ++ survTab } } := by
  unfold predict at h
  split at h
  · simp at h
  · rename_i hb
    split at h
    · simp at h
    · rename_i survTab hs
      simp only [Except.ok.injEq] at h
      refine ⟨?_, survTab, (traverseE_ok _ _ _).1 hs, h.symm⟩
      intro b hbm hb1
      apply hb
      rw [List.any_eq_true]
      exact ⟨b, hbm, by simpa using hb1⟩

variable [DecidableEq τ]

theorem step_jidx {jp : JParams K} {st st' : JSt K τ F S C} (o : JOp K τ F S C Z)
    (hexp : ∀ env births draws meas, o = .correct env births draws meas →
      (∀ x, 0 < env.num.expNeg x) ∧ DrawsOk draws)
    (hI : JIdx st) (h : step jp st o = .ok st') : JIdx st' := by
  have shr : ∀ {g' : St K τ F S C}, Shrinks st.g g' → JIdx { st with g := g' } := by
    intro g' hs
    refine ⟨?_, ?_, ?_⟩
    · intro x hx t ht
      obtain ⟨y, hy, e⟩ := hs.hyps x hx
      exact hI.range y hy t (e ▸ ht)
    · intro x hx
      obtain ⟨y, hy, e⟩ := hs.hyps x hx
      rw [e]
      exact hI.nodup y hy
    · simp only
      rw [hs.tab]
      exact hI.le
  cases o with
  | predict env lab births =>
    obtain ⟨_, survTab, h1, rfl⟩ := predict_ok h
    refine ⟨hI.range, hI.nodup, ?_⟩
    have := h1.length_eq
    have := hI.le
    simp only [List.length_append]
    omega
  | correct env births draws meas =>
    obtain ⟨h1, h2⟩ := hexp env births draws meas rfl
    obtain ⟨h3, h4⟩ := correct_idx h1 h2 hI.nodup h
    exact ⟨by rw [h4]; exact h3.range, h3.nodup, h4.le⟩
  | cleanup env bp bc be u c =>
    simp only [step] at h
    split at h
    · simp at h
    · rename_i g hg
      simp only [Except.ok.injEq] at h
      subst h
      exact shr (cleanup_shrinks hg)
  | extract u c =>
    simp only [step] at h
    split at h
    · simp at h
    · rename_i g o hg
      simp only [Except.ok.injEq] at h
      subst h
      obtain ⟨e1, e2, _⟩ := extract_frame hg
      exact shr ⟨e1, fun x hx => ⟨x, by rw [← e2]; exact hx, rfl⟩⟩

theorem init_jidx : JIdx (init : JSt K τ F S C) := by
  refine ⟨?_, ?_, ?_⟩
  · intro h hh t ht
    simp only [init, Glmb.init, List.mem_singleton] at hh
    subst hh
    simp at ht
  · intro h hh
    simp only [init, Glmb.init, List.mem_singleton] at hh
    subst hh
    exact List.nodup_nil
  · simp [init]

/-- Induction over a sequence of calls. -/
theorem run_induct {jp : JParams K} (P : JSt K τ F S C → Prop) (Q : JOp K τ F S C Z → Prop)
    (hstep : ∀ st st' (o : JOp K τ F S C Z), Q o → P st → step jp st o = .ok st' → P st') :
    ∀ (ops : List (JOp K τ F S C Z)) (st st' : JSt K τ F S C), (∀ o ∈ ops, Q o) → P st →
      run jp st ops = .ok st' → P st'
  | [], st, st', _, h, hr => by
    simp only [run, Except.ok.injEq] at hr
    subst hr
    exact h
  | o :: os, st, st', hq, h, hr => by
    unfold run at hr
    split at hr
    · simp at hr
    · rename_i s hs
      exact run_induct P Q hstep os s st' (fun o ho => hq o (List.mem_cons_of_mem _ ho))
        (hstep _ _ o (hq o List.mem_cons_self) h hs) hr

end Gasur.Jglmb
