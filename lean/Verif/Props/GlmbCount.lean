import Verif.Props.GlmbSize

/-!
# Property C124: never more objects than birth terms
-/

set_option linter.unusedSectionVars false

namespace Gasur.Props

open Gasur.Glmb Gasur.Spec Gasur.Murty

variable {K τ F S C Z : Type*} [Field K] [LinearOrder K] [IsStrictOrderedRing K] [FloorRing K]

theorem nodup_lt_length {l : List ℕ} {n : ℕ} (hn : l.Nodup) (h : ∀ i ∈ l, i < n) : l.length ≤ n := by
  have := (List.subperm_of_subset hn (l₂ := List.range n) fun i hi => List.mem_range.2 (h i hi)).length_le
  simpa using this

theorem calcCard_size {hyps : List (Hyp K)} {n : ℕ} (h : ∀ x ∈ hyps, x.tracks.length ≤ n) :
    (calcCard hyps).length ≤ n + 1 := by
  unfold calcCard
  split
  · simp
  · rw [List.length_map, List.length_range]
    have : ∀ l : List (Hyp K), (∀ x ∈ l, x.tracks.length ≤ n) → (l.map fun h => h.tracks.length).foldr max 0 ≤ n := by
      intro l hl
      induction l with
      | nil => simp
      | cons a l ih =>
        rw [List.map_cons, List.foldr_cons]
        exact max_le (hl a List.mem_cons_self) (ih fun x hx => hl x (List.mem_cons_of_mem _ hx))
    have := this hyps h
    omega

/-- All hypotheses have at most `n` tracks, the cardinality distribution at most `n + 1` entries. -/
structure FewTracks (n : ℕ) (st : St K τ F S C) : Prop where
  hyps : ∀ x ∈ st.hyps, x.tracks.length ≤ n
  card : st.card.length ≤ n + 1

theorem predict_few {env : Env K τ F S C Z} {pr : Params K} (heps : 0 < pr.eps)
    {lab : τ} {births : List (Birth K F S C)} {st st' : St K τ F S C} {n : ℕ} (hI : IdxInv st) (hn : FewTracks n st)
    (h : predict env pr lab births st = .ok st') : FewTracks (n + births.length) st' := by
  obtain ⟨costs, paths, bh, survTab, sh, hs, h1, h2, h3, _, h5, h6, rfl⟩ := predict_ok h
  have k1 : ∀ s ∈ sh, s.tracks.length ≤ n := by
    intro s hs
    obtain ⟨y, hy, hsub, hnd⟩ := survHyps_mem heps h5 hs
    exact (List.subperm_of_subset (hnd (hI.nodup y hy)) hsub).length_le.trans (hn.hyps y hy)
  constructor
  · intro x hx
    obtain ⟨y, hy, ht⟩ := cleanPred_mem hx
    obtain ⟨b, hb, s, hs', ht'⟩ := setPredHyps_mem h6 hy
    rw [ht, ht', List.length_append, List.length_map]
    have := k1 s hs'
    obtain ⟨pc, hpc, hbt⟩ := birthHyps_mem h3 hb
    obtain ⟨q1, q2, _⟩ := (kList_ok heps h2).2.2 pc hpc
    have := nodup_lt_length q1 q2
    rw [hbt]
    rw [← h1.length_eq] at this
    omega
  · exact (calcCard_size k1).trans (by omega)

theorem corHyps_few {env : Env K τ F S C Z} {pr : Params K} {tab : List (Entry K τ F S C)}
    {blocks : List (List (Option (Entry K τ F S C) × K))} {hyps hs : List (Hyp K)} {n : ℕ}
    (hn : ∀ x ∈ hyps, x.tracks.length ≤ n) (h2 : corHyps env pr tab blocks hyps = .ok hs) :
    ∀ x ∈ hs, x.tracks.length ≤ n := by
  intro x hx
  unfold corHyps at h2
  split at h2
  · exact (nomatch h2)
  · rename_i ls hl
    obtain ⟨y, hy, ht, _⟩ := normHyps_mem h2 hx
    obtain ⟨l, hl', hyl⟩ := List.mem_flatten.1 hy
    obtain ⟨z, hz, hzl⟩ := forall₂_mem_right ((traverseE_ok _ _ _).1 hl) hl'
    obtain ⟨a, _, _, ha⟩ := corOne_tracks hzl hyl
    rw [ht, ha, List.length_map, List.length_finRange]
    exact hn z hz

theorem correct_few {env : Env K τ F S C Z} {pr : Params K} {meas : List Z} {st st' : St K τ F S C} {n : ℕ}
    (hn : FewTracks n st) (h : correct env pr meas st = .ok st') : FewTracks n st' := by
  obtain ⟨blocks, hs, _, h2, h3, h4⟩ := correct_ok h
  have k1 := corHyps_few hn.hyps h2
  constructor
  · intro x hx
    obtain ⟨_, _, _, _, h5⟩ := cleanUpd_ok h3
    rw [h5] at hx
    obtain ⟨y, hy, rfl⟩ := List.mem_map.1 hx
    simp only [List.length_map]
    exact k1 y (List.mem_filter.1 hy).1
  · rw [h4]
    exact calcCard_size k1

/-- The cleaned table has at most as many entries as the hypotheses together have tracks. -/
theorem cleanUpd_tab_size {tab : List (Option (Entry K τ F S C))} {hyps : List (Hyp K)} {tab' hyps'} {n : ℕ}
    (hn : ∀ x ∈ hyps, x.tracks.length ≤ n) (h : cleanUpd tab hyps = .ok (tab', hyps')) :
    tab'.length ≤ hyps.length * n := by
  obtain ⟨_, h2, _⟩ := cleanUpd_ok h
  rw [h2]
  have hsub : usedInds tab hyps ⊆ hyps.flatMap fun x => x.tracks := by
    intro i hi
    have := (List.mem_filter.1 hi).2
    unfold isUsed at this
    rw [Bool.and_eq_true, List.any_eq_true] at this
    obtain ⟨_, x, hx, hxi⟩ := this
    exact List.mem_flatMap.2 ⟨x, hx, of_decide_eq_true hxi⟩
  refine (List.subperm_of_subset (List.nodup_range.filter _) hsub).length_le.trans ?_
  rw [List.length_flatMap]
  refine (List.sum_le_card_nsmul _ n ?_).trans ?_
  · intro x hx
    obtain ⟨y, hy, rfl⟩ := List.mem_map.1 hx
    exact hn y hy
  · rw [List.length_map, smul_eq_mul]

theorem prune_few {pr : Params K} {st st' : St K τ F S C} {n : ℕ} (hn : FewTracks n st) (h : prune pr st = .ok st') :
    FewTracks n st' := by
  have k1 : ∀ x ∈ st'.hyps, x.tracks.length ≤ n := by
    intro x hx
    obtain ⟨y, hy, ht⟩ := (prune_shrinks h).hyps x hx
    rw [ht]
    exact hn.hyps y hy
  obtain ⟨hs, _, rfl⟩ := prune_ok h
  exact ⟨k1, calcCard_size k1⟩

theorem cap_few {env : Env K τ F S C Z} {pr : Params K} {st st' : St K τ F S C} {n : ℕ} (hn : FewTracks n st)
    (h : cap env pr st = .ok st') : FewTracks n st' := by
  have k1 : ∀ x ∈ st'.hyps, x.tracks.length ≤ n := by
    intro x hx
    obtain ⟨y, hy, ht⟩ := (cap_shrinks h).hyps x hx
    rw [ht]
    exact hn.hyps y hy
  rcases cap_ok h with ⟨_, rfl⟩ | ⟨_, kept, hs, _, _, rfl⟩
  · exact hn
  · exact ⟨k1, calcCard_size k1⟩

variable [DecidableEq τ]

theorem cleanup_few {env : Env K τ F S C Z} {pr : Params K} {bp bc be u c : Bool} {st st' : St K τ F S C} {n : ℕ}
    (hn : FewTracks n st) (h : cleanup env pr bp bc be u c st = .ok st') : FewTracks n st' := by
  obtain ⟨s1, s2, h1, h2, h3⟩ := cleanup_ok h
  have e1 : FewTracks n s1 := by
    split at h1
    · exact prune_few (st := { st with cntr := st.cntr + 1 }) ⟨hn.hyps, hn.card⟩ h1
    · obtain rfl := Except.ok.inj h1
      exact ⟨hn.hyps, hn.card⟩
  have e2 : FewTracks n s2 := by
    split at h2
    · exact cap_few e1 h2
    · obtain rfl := Except.ok.inj h2
      exact e1
  rcases h3 with ⟨_, rfl⟩ | ⟨_, o, h3⟩
  · exact e2
  · obtain ⟨_, q1, q2, _⟩ := Glmb.extract_frame h3
    exact ⟨by rw [q1]; exact e2.hyps, by rw [q2]; exact e2.card⟩

theorem step_few {pr : Params K} (heps : 0 < pr.eps) {st st' : St K τ F S C} {o : Op K τ F S C Z} {n : ℕ}
    (hI : IdxInv st) (hn : FewTracks n st) (h : step pr st o = .ok st') :
    FewTracks (n + (birthsOf o).length) st' := by
  cases o with
  | predict env lab births => exact predict_few heps hI hn h
  | correct env meas => exact correct_few hn h
  | cleanup env bp bc be u c => exact cleanup_few hn h
  | extract u c =>
    simp only [step] at h
    split at h
    · exact (nomatch h)
    · rename_i s o hx
      obtain rfl := Except.ok.inj h
      obtain ⟨_, q1, q2, _⟩ := Glmb.extract_frame hx
      exact ⟨by rw [q1]; exact hn.hyps, by rw [q2]; exact hn.card⟩

theorem run_few {pr : Params K} (heps : 0 < pr.eps) : ∀ (ops : List (Op K τ F S C Z)) (st st' : St K τ F S C) (n : ℕ),
    IdxInv st → FewTracks n st → run pr st ops = .ok st' → FewTracks (n + (ops.flatMap birthsOf).length) st'
  | [], st, st', n, _, hn, h => by
    obtain rfl := Except.ok.inj h
    exact hn
  | o :: os, st, st', n, hI, hn, h => by
    unfold run at h
    split at h
    · exact (nomatch h)
    · rename_i s hs
      have := run_few heps os s st' _ (step_idx heps o hI hs) (step_few heps hI hn hs) h
      rw [List.flatMap_cons, List.length_append, ← Nat.add_assoc]
      exact this

/-- **C124, hypotheses.** After any sequence of calls on a new filter, no hypothesis has more tracks than there were
birth terms in all `predict` calls together, and the cardinality distribution gives no probability to larger numbers
(it has no entry for them). -/
theorem C124_tracks (pr : Params K) (heps : 0 < pr.eps) (ops : List (Op K τ F S C Z)) (st : St K τ F S C)
    (h : run pr init ops = .ok st) :
    (∀ hyp ∈ st.hyps, hyp.tracks.length ≤ (ops.flatMap birthsOf).length) ∧
      st.card.length ≤ (ops.flatMap birthsOf).length + 1 := by
  have := run_few heps ops init st 0 init_idx ⟨by simp [init], by simp [init]⟩ h
  rw [Nat.zero_add] at this
  exact ⟨this.hyps, this.card⟩

/-- **C124, table.** After a `correct` call the track table has at most `n` entries for each of the at most
`req_upd + (number of hypotheses before)` hypotheses that the call made, where `n` is the number of birth terms so far.
With C123 this bounds the table for any number of measurements. -/
theorem C124_table (env : Env K τ F S C Z) (hsq : ∀ x, 0 ≤ env.num.sqrt x) (pr : Params K) (heps : 0 < pr.eps)
    (ops : List (Op K τ F S C Z)) (meas : List Z) (st st' : St K τ F S C) (h : run pr init ops = .ok st)
    (h' : correct env pr meas st = .ok st') :
    st'.tab.length ≤ (pr.reqUpd + st.hyps.length) * (ops.flatMap birthsOf).length := by
  obtain ⟨blocks, hs, _, h2, h3, _⟩ := correct_ok h'
  refine (cleanUpd_tab_size (corHyps_few (C124_tracks pr heps ops st h).1 h2) h3).trans ?_
  exact Nat.mul_le_mul_right _ (corHyps_size hsq h2)

/-- Labels of the birth terms of the `predict` calls up to time step `t`; `c` counts the time steps so far. -/
def bornBy (t : ℕ) : ℕ → List (Op K τ F S C Z) → List (τ × ℕ)
  | _, [] => []
  | c, .predict _ lab births :: os =>
    (if c ≤ t then (List.range births.length).map fun i => (lab, i) else []) ++ bornBy t c os
  | c, .correct .. :: os => bornBy t c os
  | c, .cleanup .. :: os => bornBy t (c + 1) os
  | c, .extract .. :: os => bornBy t c os

theorem bornBy_append (t : ℕ) : ∀ (a b : List (Op K τ F S C Z)) (c : ℕ),
    bornBy t c (a ++ b) = bornBy t c a ++ bornBy t (c + a.countP endsStep) b
  | [], b, c => rfl
  | .predict _ lab births :: a, b, c => by
    simp only [List.cons_append, bornBy, bornBy_append t a b c, List.append_assoc]
    rfl
  | .correct .. :: a, b, c => bornBy_append t a b c
  | .cleanup .. :: a, b, c => by
    simp only [List.cons_append, bornBy, bornBy_append t a b (c + 1), List.countP_cons, endsStep, if_true]
    rw [show c + 1 + List.countP endsStep a = c + (List.countP endsStep a + 1) by omega]
  | .extract .. :: a, b, c => bornBy_append t a b c

theorem lives_born {pr : Params K} {ops : List (Op K τ F S C Z)} {l : Life K τ F S C} (h : Lives pr ops l) {t : ℕ}
    (ht : l.born ≤ t) : l.label ∈ bornBy t 0 ops := by
  induction h with
  | born ops env lab births i b hb =>
    rw [bornBy_append, Nat.zero_add]
    refine List.mem_append_right _ ?_
    simp only at ht
    simp only [bornBy, if_pos ht, List.append_nil, List.mem_map, List.mem_range]
    exact ⟨i, (List.getElem?_eq_some_iff.1 hb).1, rfl⟩
  | moved ops l h env lab births ih => rw [bornBy_append]; exact List.mem_append_left _ (ih ht)
  | missed ops l h env meas ih => rw [bornBy_append]; exact List.mem_append_left _ (ih ht)
  | detected ops l h env meas j z hz now' hu ih => rw [bornBy_append]; exact List.mem_append_left _ (ih ht)
  | cleaned ops l h env bp bc be u c ih => rw [bornBy_append]; exact List.mem_append_left _ (ih ht)
  | extracted ops l h u c ih => rw [bornBy_append]; exact List.mem_append_left _ (ih ht)

/-- **C124, reports.** After any calls with distinct birth labels that end with an extraction, the labels reported for
time step `t` are labels of birth terms of `predict` calls of the time steps up to `t`, each at most once: the filter
never reports more objects for a time step than birth terms were given until then. -/
theorem C124_reported (pr : Params K) (heps : 0 < pr.eps) (ops : List (Op K τ F S C Z))
    (hdist : (ops.flatMap Op.labels).Nodup) (hb : ∀ o ∈ ops, ∀ b ∈ birthsOf o, BirthOk b)
    (last : Op K τ F S C Z) (u c : Bool)
    (hlast : last = .extract u c ∨ ∃ env bp bc, last = .cleanup env bp bc true u c)
    (st : St K τ F S C) (h : run pr init (ops ++ [last]) = .ok st)
    (t : ℕ) (ls : List (τ × ℕ)) (hls : st.labels[t]? = some ls) :
    ls ⊆ bornBy t 0 (ops ++ [last]) ∧ ls.length ≤ (bornBy t 0 (ops ++ [last])).length := by
  obtain ⟨c1, c2, c3, H', _, hH'⟩ := C24_history pr heps ops hdist last u c hlast st h
  have ht : t < st.cntr := by
    rw [← c2]
    exact (List.getElem?_eq_some_iff.1 hls).1
  obtain ⟨ss, ls', cs, e1, e2, e3, e4, e5, hnd, _⟩ := hH' t ht
  obtain rfl := Option.some.inj (hls.symm.trans e2)
  obtain ⟨H, _, h1, h2, _⟩ := C117_reported_tracks pr heps ops hdist hb last u c hlast st h
  have hsub : ls ⊆ bornBy t 0 (ops ++ [last]) := by
    intro lab hlab
    obtain ⟨i, hi, rfl⟩ := List.getElem_of_mem hlab
    obtain ⟨l, hl, q1, q2, _⟩ := h2 t i ss ls cs ss[i] ls[i] cs[i] e1 e2 e3 (by simp) (by simp) (by simp)
    obtain ⟨pre, ⟨post, hpre⟩, hlv⟩ := h1 l hl
    rw [← q1, ← hpre, bornBy_append]
    exact List.mem_append_left _ (lives_born hlv q2)
  exact ⟨hsub, (List.subperm_of_subset hnd hsub).length_le⟩

/-- The hypotheses of C124 hold for the two time steps of `exSizeRounds` with two birth terms in all. Two tracks are in
a hypothesis, and two objects are reported for the second time step, one for the first. -/
example : (0 : ℚ) < exTrackPr.eps ∧ ((exSizeRounds.flatMap CapRound.ops).flatMap Op.labels).Nodup ∧
    (∀ o ∈ exSizeRounds.flatMap CapRound.ops, ∀ b ∈ birthsOf o, BirthOk b) ∧
    (run exTrackPr init (exSizeRounds.flatMap CapRound.ops)).toOption.map
      (fun st => ((st.hyps.map fun x => x.tracks.length).foldr max 0, st.card.length, st.labels)) =
        some (2, 3, [[(0, 0)], [(1, 0), (0, 0)]]) ∧
    bornBy 0 0 (exSizeRounds.flatMap CapRound.ops) = [(0, 0)] ∧
    bornBy 1 0 (exSizeRounds.flatMap CapRound.ops) = [(0, 0), (1, 0)] := by
  refine ⟨by decide +kernel, by decide, ?_, by decide +kernel, by decide, by decide⟩
  intro o ho b hb
  simp only [exSizeRounds, CapRound.ops, List.flatMap_cons, List.flatMap_nil, List.cons_append, List.nil_append,
    List.append_nil, List.mem_cons, List.not_mem_nil, or_false] at ho
  rcases ho with rfl | rfl | rfl | rfl | rfl | rfl <;>
    simp only [birthsOf, List.mem_singleton, List.not_mem_nil] at hb <;> subst hb <;> exact ⟨rfl, rfl, rfl⟩

end Gasur.Props
