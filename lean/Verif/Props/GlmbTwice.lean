import Verif.Proofs.GlmbWeights
import Verif.Spec.Phd
import Verif.Props.GlmbTrack

/-!
# Property C138: cleaning up a GLMB filter twice
-/

set_option linter.unusedSectionVars false

namespace Gasur.Props

open Gasur.Glmb Gasur.Spec

variable {K τ F S C Z : Type*} [Field K] [LinearOrder K] [IsStrictOrderedRing K] [FloorRing K]
  [DecidableEq τ]

theorem range_filterMap_get {α : Type*} : ∀ l : List α, (List.range l.length).filterMap (fun i => l[i]?) = l
  | [] => rfl
  | a :: l => by
    rw [List.length_cons, List.range_succ_eq_map, List.filterMap_cons]
    simp only [List.getElem?_cons_zero, List.filterMap_map]
    congr 1
    exact range_filterMap_get l

theorem pick_eq_filterMap {α : Type*} {l kept : List α} {is : List ℕ}
    (h : List.Forall₂ (fun i x => l[i]? = some x) is kept) : kept = is.filterMap fun i => l[i]? := by
  induction h with
  | nil => rfl
  | cons h1 _ ih => rw [List.filterMap_cons, h1, ← ih]

theorem sum_sublist_le {l₁ l₂ : List K} (h : l₁.Sublist l₂) (hn : ∀ x ∈ l₂, 0 ≤ x) : l₁.sum ≤ l₂.sum := by
  induction h with
  | slnil => exact le_refl _
  | cons a _ ih =>
    rw [List.sum_cons]
    have h1 := ih fun x hx => hn x (List.mem_cons_of_mem _ hx)
    have h2 := hn a List.mem_cons_self
    linarith
  | cons_cons a _ ih =>
    rw [List.sum_cons, List.sum_cons]
    have h1 := ih fun x hx => hn x (List.mem_cons_of_mem _ hx)
    linarith

/-- The hypotheses kept by `cap` weigh at most as much as all of them. -/
theorem kept_sum_le {hyps kept : List (Hyp K)} {idx : List ℕ} {n : ℕ}
    (ha : IsArgsort (hyps.map fun h => h.prob) idx) (hp : ∀ h ∈ hyps, 0 ≤ h.prob)
    (hk : List.Forall₂ (fun i x => hyps[i]? = some x) (idx.reverse.take n) kept) :
    (kept.map fun h => h.prob).sum ≤ (hyps.map fun h => h.prob).sum := by
  have h1 : kept.Sublist (idx.reverse.filterMap fun i => hyps[i]?) := by
    rw [pick_eq_filterMap hk]
    exact (List.take_sublist _ _).filterMap _
  have h2 : (idx.reverse.filterMap fun i => hyps[i]?).Perm hyps := by
    have := (idx.reverse_perm.trans ha.1).filterMap fun i => hyps[i]?
    rw [List.length_map, range_filterMap_get] at this
    exact this
  have h3 := sum_sublist_le (h1.map fun h => h.prob) (by
    intro x hx
    obtain ⟨y, hy, rfl⟩ := List.mem_map.1 hx
    exact hp y (h2.mem_iff.1 hy))
  exact h3.trans (h2.map _).sum_eq.le

/-- Normalised hypotheses are not changed by normalising. -/
theorem normHyps_one_sum {hyps : List (Hyp K)} (h : hyps ≠ [] → (hyps.map fun h => h.prob).sum = 1) :
    normHyps hyps = .ok hyps := by
  unfold normHyps
  by_cases h0 : hyps = []
  · subst h0
    simp
  · rw [if_neg (by rw [h h0]; simp), h h0]
    simp

/-- Hypotheses that survive pruning and are normalised are not changed by pruning. -/
theorem prune_again {pr : Params K} {st : St K τ F S C} (hw : st.hyps ≠ [] → (st.hyps.map fun h => h.prob).sum = 1)
    (hthr : ∀ h ∈ st.hyps, pr.pruneThreshold < h.prob) (hc : st.card = calcCard st.hyps) :
    prune pr st = .ok st := by
  unfold prune
  have : (st.hyps.filter fun h => decide (pr.pruneThreshold < h.prob)) = st.hyps :=
    List.filter_eq_self.2 fun h hh => decide_eq_true (hthr h hh)
  rw [this, normHyps_one_sum hw]
  dsimp only
  rw [← hc]

/-- Normalising hypotheses of total probability at most one does not make any of them less probable. -/
theorem norm_thr {hyps hs : List (Hyp K)} {thr : K} (h : normHyps hyps = .ok hs) (hp : ∀ x ∈ hyps, 0 ≤ x.prob)
    (hs1 : (hyps.map fun h => h.prob).sum ≤ 1) (ht : ∀ x ∈ hyps, thr < x.prob) : ∀ x ∈ hs, thr < x.prob := by
  intro x hx
  obtain ⟨y, hy, _, hxy⟩ := normHyps_mem h hx
  have hne := (normHyps_ok h).1.resolve_left (List.ne_nil_of_mem hy)
  have h0 : 0 ≤ (hyps.map fun h => h.prob).sum := List.sum_nonneg (by
    intro w hw
    obtain ⟨q, hq, rfl⟩ := List.mem_map.1 hw
    exact hp q hq)
  have hpos := lt_of_le_of_ne h0 hne.symm
  rw [hxy]
  refine (ht y hy).trans_le ?_
  rw [le_div_iff₀ hpos]
  exact mul_le_of_le_one_right (hp y hy) hs1

theorem prune_thr {pr : Params K} {st st' : St K τ F S C} (hp : ∀ h ∈ st.hyps, 0 ≤ h.prob)
    (hs : (st.hyps.map fun h => h.prob).sum ≤ 1) (h : prune pr st = .ok st') :
    (∀ h ∈ st'.hyps, pr.pruneThreshold < h.prob) ∧ st'.card = calcCard st'.hyps := by
  obtain ⟨hs', hn, rfl⟩ := prune_ok h
  refine ⟨norm_thr hn (fun x hx => hp x (List.mem_filter.1 hx).1) ?_ ?_, rfl⟩
  · exact (sum_sublist_le (List.filter_sublist.map _) (by
      intro x hx
      obtain ⟨y, hy, rfl⟩ := List.mem_map.1 hx
      exact hp y hy)).trans hs
  · intro x hx
    exact of_decide_eq_true (List.mem_filter.1 hx).2

theorem cap_thr {env : Env K τ F S C Z} {pr : Params K} {st st' : St K τ F S C} (hw : WInv st.hyps)
    (ha : ∀ ws, IsArgsort ws (env.argsort ws)) (hthr : ∀ h ∈ st.hyps, pr.pruneThreshold < h.prob)
    (hc : st.card = calcCard st.hyps) (h : cap env pr st = .ok st') :
    (∀ h ∈ st'.hyps, pr.pruneThreshold < h.prob) ∧ st'.card = calcCard st'.hyps := by
  rcases cap_ok h with ⟨_, rfl⟩ | ⟨hlt, kept, hs, hk, hn, rfl⟩
  · exact ⟨hthr, hc⟩
  · have hsub : ∀ x ∈ kept, x ∈ st.hyps := fun x hx => pick_subset hk hx
    refine ⟨norm_thr hn (fun x hx => hw.nonneg x (hsub x hx)) ?_ fun x hx => hthr x (hsub x hx), rfl⟩
    refine (kept_sum_le (ha _) hw.nonneg hk).trans ?_
    have : st.hyps ≠ [] := by
      intro h0
      rw [h0] at hlt
      simp at hlt
    exact (hw.sum this).le

theorem cap_len {env : Env K τ F S C Z} {pr : Params K} {st st' : St K τ F S C} (h : cap env pr st = .ok st') :
    st'.hyps.length ≤ pr.maxHyps := by
  rcases cap_ok h with ⟨hle, rfl⟩ | ⟨_, kept, hs, hk, hn, rfl⟩
  · exact hle
  · have h1 : hs.length = kept.length := by
      have := congrArg List.length (normHyps_tracks hn)
      simpa using this
    rw [h1, ← hk.length_eq]
    exact List.length_take_le _ _

theorem cap_again {env : Env K τ F S C Z} {pr : Params K} {st : St K τ F S C} (h : st.hyps.length ≤ pr.maxHyps) :
    cap env pr st = .ok st := by
  unfold cap
  rw [if_neg (by omega)]

/-- **C138.** Cleaning up twice is cleaning up once: after a `cleanup` (any combination of pruning and capping, no extraction)
of hypotheses with non-negative probabilities of total at most one, a second `cleanup` with the same settings succeeds and
changes nothing but the time counter — no further hypothesis is dropped and no probability changes. -/
theorem C138_cleanup_twice (env env' : Env K τ F S C Z) (pr : Params K) (bp bc u c u' c' : Bool) (st st' : St K τ F S C)
    (ha : ∀ ws, IsArgsort ws (env.argsort ws)) (hp : ∀ h ∈ st.hyps, 0 ≤ h.prob)
    (hs : (st.hyps.map fun h => h.prob).sum ≤ 1) (h : cleanup env pr bp bc false u c st = .ok st') :
    cleanup env' pr bp bc false u' c' st' = .ok { st' with cntr := st'.cntr + 1 } := by
  unfold cleanup at h
  cases bp with
  | true =>
    rw [if_pos rfl] at h
    cases h1 : prune pr { st with cntr := st.cntr + 1 } with
    | error e => rw [h1] at h; exact (nomatch h)
    | ok s1 =>
      rw [h1] at h
      dsimp only at h
      have hw := prune_winv (st := { st with cntr := st.cntr + 1 }) hp h1
      obtain ⟨ht, hc⟩ := prune_thr (st := { st with cntr := st.cntr + 1 }) hp hs h1
      cases bc with
      | true =>
        rw [if_pos rfl] at h
        cases h2 : cap env pr s1 with
        | error e => rw [h2] at h; exact (nomatch h)
        | ok s2 =>
          rw [h2] at h
          dsimp only at h
          rw [if_neg (by simp)] at h
          obtain rfl := Except.ok.inj h
          obtain ⟨ht', hc'⟩ := cap_thr hw ha ht hc h2
          have hw' := cap_winv hw h2
          unfold cleanup
          rw [if_pos rfl, prune_again (st := { s2 with cntr := s2.cntr + 1 }) hw'.sum ht' hc']
          dsimp only
          rw [if_pos rfl, cap_again (st := { s2 with cntr := s2.cntr + 1 }) (show s2.hyps.length ≤ _ from cap_len h2)]
          dsimp only
          rw [if_neg (by simp)]
      | false =>
        rw [if_neg (by simp)] at h
        dsimp only at h
        rw [if_neg (by simp)] at h
        obtain rfl := Except.ok.inj h
        unfold cleanup
        rw [if_pos rfl, prune_again (st := { s1 with cntr := s1.cntr + 1 }) hw.sum ht hc]
        dsimp only
        rw [if_neg (by simp)]
        dsimp only
        rw [if_neg (by simp)]
  | false =>
    rw [if_neg (by simp)] at h
    dsimp only at h
    cases bc with
    | true =>
      rw [if_pos rfl] at h
      cases h2 : cap env pr { st with cntr := st.cntr + 1 } with
      | error e => rw [h2] at h; exact (nomatch h)
      | ok s2 =>
        rw [h2] at h
        dsimp only at h
        rw [if_neg (by simp)] at h
        obtain rfl := Except.ok.inj h
        unfold cleanup
        rw [if_neg (by simp)]
        dsimp only
        rw [if_pos rfl, cap_again (st := { s2 with cntr := s2.cntr + 1 }) (show s2.hyps.length ≤ _ from cap_len h2)]
        dsimp only
        rw [if_neg (by simp)]
    | false =>
      rw [if_neg (by simp)] at h
      dsimp only at h
      rw [if_neg (by simp)] at h
      obtain rfl := Except.ok.inj h
      rfl

/-- A case that meets the hypotheses: after one time step of the example of C115 four hypotheses remain; `cleanup` with a
threshold of 1/5 and room for one hypothesis drops some, and a second one nothing. -/
example : ((run exTrackPr init [Op.predict exTrackEnv 0 [⟨[()], [1], [0], [()], 9 / 10⟩], .correct exTrackEnv [4, 8]]).toOption.bind
      fun st => (cleanup exTrackEnv { exTrackPr with pruneThreshold := 1 / 5, maxHyps := 1 } true true false true true st).toOption.bind
        fun st' => (cleanup exTrackEnv { exTrackPr with pruneThreshold := 1 / 5, maxHyps := 1 } true true false true true st').toOption.map
          fun st'' => (decide ((st.hyps.map fun h => h.prob).sum ≤ 1 ∧ ∀ h ∈ st.hyps, 0 ≤ h.prob),
            st.hyps.length, st'.hyps.length, decide (st''.hyps.map (fun h => (h.prob, h.tracks)) = st'.hyps.map fun h => (h.prob, h.tracks)))) =
    some (true, 4, 1, true) := by
  decide +kernel

end Gasur.Props
