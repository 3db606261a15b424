import Verif.Props.GlmbBest
import Verif.Props.GlmbTrack

/-!
# Property C136: associations that are ruled out
-/

set_option linter.unusedSectionVars false

namespace Gasur.Props

open Gasur.Glmb Gasur.Spec

variable {K τ F S C Z : Type*} [Field K] [LinearOrder K] [IsStrictOrderedRing K] [FloorRing K]
  [DecidableEq τ]

/-- Taking one detection back changes one factor. -/
theorem prod_unassign (κ : K) (pd : ℕ → K) (lik : ℕ → ℕ → K) : ∀ (ts : List ℕ) (a : List (Option ℕ)) (i t j : ℕ),
    ts[i]? = some t → a[i]? = some (some j) →
    ((ts.zip a).map fun x => assocFactor κ pd lik x.1 x.2).prod * (1 - pd t) =
      ((ts.zip (a.set i none)).map fun x => assocFactor κ pd lik x.1 x.2).prod * (pd t * lik t j / κ)
  | [], a, i, t, j, h, _ => by simp at h
  | t₀ :: ts, [], i, t, j, _, h => by simp at h
  | t₀ :: ts, x :: a, 0, t, j, h1, h2 => by
    simp only [List.getElem?_cons_zero, Option.some.injEq] at h1 h2
    subst h1 h2
    simp only [List.set_cons_zero, List.zip_cons_cons, List.map_cons, List.prod_cons, assocFactor]
    ring
  | t₀ :: ts, x :: a, i + 1, t, j, h1, h2 => by
    simp only [List.getElem?_cons_succ] at h1 h2
    have := prod_unassign κ pd lik ts a i t j h1 h2
    simp only [List.set_cons_succ, List.zip_cons_cons, List.map_cons, List.prod_cons]
    rw [mul_assoc, this, mul_assoc]

theorem isAssoc_unassign {n m : ℕ} {a : List (Option ℕ)} (h : IsAssoc n m a) (i : ℕ) : IsAssoc n m (a.set i none) := by
  obtain ⟨h1, h2, h3⟩ := h
  have key : ∀ k j : ℕ, (a.set i none)[k]? = some (some j) → a[k]? = some (some j) := by
    intro k j hk
    rw [List.getElem?_set] at hk
    split at hk
    · split at hk <;> simp at hk
    · exact hk
  refine ⟨by rw [List.length_set, h1], fun j hj => ?_, fun k k' j hk hk' => h3 k k' j (key k j hk) (key k' j hk')⟩
  obtain ⟨k, hk⟩ := List.mem_iff_getElem?.1 hj
  exact h2 j (List.mem_of_getElem? (key k j hk))

theorem prod_factor_nonneg {κ : K} (hκ : 0 < κ) {pd : ℕ → K} {lik : ℕ → ℕ → K} : ∀ (ts : List ℕ) (a : List (Option ℕ)),
    (∀ t ∈ ts, 0 ≤ pd t ∧ pd t ≤ 1) → (∀ t ∈ ts, ∀ j, some j ∈ a → 0 ≤ lik t j) →
    0 ≤ ((ts.zip a).map fun x => assocFactor κ pd lik x.1 x.2).prod
  | [], a, _, _ => by simp
  | t₀ :: ts, [], _, _ => by simp
  | t₀ :: ts, x :: a, h1, h2 => by
    simp only [List.zip_cons_cons, List.map_cons, List.prod_cons]
    refine mul_nonneg ?_ (prod_factor_nonneg hκ ts a (fun t ht => h1 t (List.mem_cons_of_mem _ ht))
      fun t ht j hj => h2 t (List.mem_cons_of_mem _ ht) j (List.mem_cons_of_mem _ hj))
    have h := h1 t₀ List.mem_cons_self
    cases x with
    | none => simp only [assocFactor]; linarith
    | some j =>
      simp only [assocFactor]
      exact div_nonneg (mul_nonneg h.1 (h2 t₀ List.mem_cons_self j List.mem_cons_self)) hκ.le

theorem mem_familyPairs {α β : Type*} : ∀ {hs : List α} {kids : List (List β)} {x : α × β},
    x ∈ familyPairs hs kids → ∃ (i : ℕ) (ks : List β), hs[i]? = some x.1 ∧ kids[i]? = some ks ∧ x.2 ∈ ks
  | [], kids, x, h => by simp [familyPairs] at h
  | p :: hs, [], x, h => by simp [familyPairs] at h
  | p :: hs, ks :: kids, x, h => by
    simp only [familyPairs, List.zipWith_cons_cons, List.flatten_cons, List.mem_append, List.mem_map] at h
    rcases h with ⟨a, ha, rfl⟩ | h
    · exact ⟨0, ks, rfl, rfl, ha⟩
    · obtain ⟨i, ks', h1, h2, h3⟩ := mem_familyPairs h
      exact ⟨i + 1, ks', by simpa using h1, by simpa using h2, h3⟩

theorem familyPairs_mem {α β : Type*} : ∀ {hs : List α} {kids : List (List β)} {i : ℕ} {p : α} {ks : List β} {b : β},
    hs[i]? = some p → kids[i]? = some ks → b ∈ ks → (p, b) ∈ familyPairs hs kids
  | [], kids, i, p, ks, b, h, _, _ => by simp at h
  | p₀ :: hs, [], i, p, ks, b, _, h, _ => by simp at h
  | p₀ :: hs, ks₀ :: kids, 0, p, ks, b, h1, h2, h3 => by
    simp only [List.getElem?_cons_zero, Option.some.injEq] at h1 h2
    subst h1 h2
    simp only [familyPairs, List.zipWith_cons_cons, List.flatten_cons, List.mem_append, List.mem_map]
    exact .inl ⟨b, h3, rfl⟩
  | p₀ :: hs, ks₀ :: kids, i + 1, p, ks, b, h1, h2, h3 => by
    simp only [List.getElem?_cons_succ] at h1 h2
    simp only [familyPairs, List.zipWith_cons_cons, List.flatten_cons, List.mem_append]
    exact .inr (familyPairs_mem h1 h2 h3)

/-- **C136 (bound).** After `correct`, a hypothesis that attributes measurement `j` to track `t` has a probability of at
most the odds `p_D · lik t j / ((1 - p_D) κ)` of that detection against a miss. `κ` is the clutter intensity, `lik t j`
the track's likelihood (to which the code adds `eps` per component). -/
theorem C136_detection_odds_partial (env : Env K τ F S C Z) (pr : Params K)
    (hadd : ∀ x y, env.num.expNeg (x + y) = env.num.expNeg x * env.num.expNeg y)
    (hzero : env.num.expNeg 0 = 1) (hinv : ∀ x, 0 < x → env.num.expNeg (env.num.negLog x) = x)
    (hanti : ∀ x y, x ≤ y → env.num.expNeg y ≤ env.num.expNeg x) (hexp : ∀ x, 0 < env.num.expNeg x)
    (hsqrt : ∀ x, 0 ≤ env.num.sqrt x) (st st' : St K τ F S C) (meas : List Z) (pd : ℕ → K) (lik : ℕ → ℕ → K)
    (hpd : ∀ (t : ℕ) (e : Entry K τ F S C), st.tab[t]? = some e → pd t = env.pdet e ∧ 0 < pd t ∧ pd t < 1)
    (hlik : ∀ (t : ℕ) (e : Entry K τ F S C) (j : ℕ) (z : Z), st.tab[t]? = some e → meas[j]? = some z →
      TrackLikelihood env pr.eps z e (lik t j) ∧ 0 < lik t j)
    (hκ : 0 < pr.clutterRate * pr.clutterDen)
    (hidx : ∀ h ∈ st.hyps, ∀ i ∈ h.tracks, i < st.tab.length) (hp : ∀ h ∈ st.hyps, 0 ≤ h.prob)
    (h : correct env pr meas st = .ok st') (h' : Hyp K) (hh' : h' ∈ st'.hyps) :
    ∃ p ∈ st.hyps, ∃ a, IsAssoc p.tracks.length meas.length a ∧ IsUpdated st.tab st'.tab p a h' ∧
      ∀ i t j : ℕ, p.tracks[i]? = some t → a[i]? = some (some j) →
        h'.prob * ((1 - pd t) * (pr.clutterRate * pr.clutterDen)) ≤ pd t * lik t j := by
  obtain ⟨Zc, hZ, kids, hk, hs, hf⟩ := C85_best_associations env pr hadd hzero hinv hanti hexp hsqrt st st' meas pd lik
    hpd hlik hidx hp h
  set κ := pr.clutterRate * pr.clutterDen with hκd
  set base := env.num.expNeg pr.clutterRate * κ ^ meas.length with hbase
  have hb : 0 ≤ base := mul_nonneg (hexp _).le (pow_nonneg hκ.le _)
  -- every association listed is one, and its weight is not negative
  have hall : ∀ x ∈ familyPairs st.hyps kids, x.1 ∈ st.hyps ∧ IsAssoc x.1.tracks.length meas.length x.2 := by
    intro x hx
    obtain ⟨i, ks, h1, h2, h3⟩ := mem_familyPairs hx
    have hr := List.forall₂_iff_get.1 hk
    obtain ⟨hi, e1⟩ := List.getElem?_eq_some_iff.1 h1
    obtain ⟨hi', e2⟩ := List.getElem?_eq_some_iff.1 h2
    have hq := hr.2 i hi hi'
    simp only [List.get_eq_getElem, e1, e2] at hq
    refine ⟨List.mem_of_getElem? h1, ?_⟩
    split at hq
    · rw [hq, List.mem_singleton] at h3
      rw [h3]
      refine ⟨List.length_replicate, fun j hj => ?_, fun k k' j hk _ => ?_⟩
      · exact absurd (List.eq_of_mem_replicate hj) (by simp)
      · exact absurd (List.eq_of_mem_replicate (List.mem_of_getElem? hk)) (by simp)
    · obtain ⟨k, _, hkb⟩ := hq
      exact hkb.2.1 _ h3
  have hnn : ∀ (p : Hyp K) (a : List (Option ℕ)), p ∈ st.hyps → IsAssoc p.tracks.length meas.length a →
      0 ≤ assocWeight base κ pd lik p a := by
    intro p a hpm ha
    refine mul_nonneg (mul_nonneg hb (hp p hpm)) (prod_factor_nonneg hκ _ _ ?_ ?_)
    · intro t ht
      have := hpd t _ (List.getElem?_eq_getElem (hidx p hpm t ht))
      exact ⟨this.2.1.le, this.2.2.le⟩
    · intro t ht j hj
      exact (hlik t _ j _ (List.getElem?_eq_getElem (hidx p hpm t ht)) (List.getElem?_eq_getElem (ha.2.1 j hj))).2.le
  obtain ⟨n, hn⟩ := List.mem_iff_getElem?.1 hh'
  obtain ⟨hn1, hn2⟩ := List.getElem?_eq_some_iff.1 hn
  have hr := List.forall₂_iff_get.1 hf
  have hn3 : n < (familyPairs st.hyps kids).length := hr.1 ▸ hn1
  obtain ⟨hw, hup⟩ := hr.2 n hn3 hn1
  simp only [List.get_eq_getElem, hn2] at hw hup
  have hxm : (familyPairs st.hyps kids)[n] ∈ familyPairs st.hyps kids := List.getElem_mem _
  generalize hx : (familyPairs st.hyps kids)[n] = x at hw hup hxm
  obtain ⟨hpm, ha⟩ := hall x hxm
  refine ⟨x.1, hpm, x.2, ha, hup, ?_⟩
  intro i t j ht hj
  have hZ0 : Zc ≠ 0 := hZ (List.ne_nil_of_mem hh')
  have hZs : ∀ y ∈ familyPairs st.hyps kids, assocWeight base κ pd lik y.1 y.2 ≤ Zc := by
    intro y hy
    rw [hs]
    refine List.single_le_sum ?_ _ (List.mem_map_of_mem hy)
    intro w hw
    obtain ⟨y', hy', rfl⟩ := List.mem_map.1 hw
    exact hnn _ _ (hall y' hy').1 (hall y' hy').2
  have hZp : 0 < Zc := lt_of_le_of_ne ((hnn _ _ hpm ha).trans (hZs x hxm)) hZ0.symm
  have htab := List.getElem?_eq_getElem (hidx x.1 hpm t (List.mem_of_getElem? ht))
  obtain ⟨_, hpd0, hpd1⟩ := hpd t _ htab
  have hjm : j < meas.length := ha.2.1 j (List.mem_of_getElem? hj)
  have hlp := (hlik t _ j _ htab (List.getElem?_eq_getElem hjm)).2
  have hrel : assocWeight base κ pd lik x.1 x.2 * (1 - pd t) =
      assocWeight base κ pd lik x.1 (x.2.set i none) * (pd t * lik t j / κ) := by
    have := prod_unassign κ pd lik x.1.tracks x.2 i t j ht hj
    simp only [assocWeight]
    linear_combination (base * x.1.prob) * this
  have hprob : h'.prob = assocWeight base κ pd lik x.1 x.2 / Zc := by rw [← hw, mul_div_cancel_right₀ _ hZ0]
  -- the association without this detection weighs at most `Zc`, unless both weights vanish or the odds are at least one
  have hle : assocWeight base κ pd lik x.1 x.2 * (1 - pd t) ≤ Zc * (pd t * lik t j / κ) := by
    by_cases hm : assocWeight base κ pd lik x.1 (x.2.set i none) ≤ Zc
    · rw [hrel]
      exact mul_le_mul_of_nonneg_right hm (div_nonneg (mul_pos hpd0 hlp).le hκ.le)
    · exfalso
      push Not at hm
      obtain ⟨i', ks, h1, h2, h3⟩ := mem_familyPairs hxm
      have hr := List.forall₂_iff_get.1 hk
      obtain ⟨hi, e1⟩ := List.getElem?_eq_some_iff.1 h1
      obtain ⟨hi', e2⟩ := List.getElem?_eq_some_iff.1 h2
      have hq := hr.2 i' hi hi'
      simp only [List.get_eq_getElem, e1, e2] at hq
      split at hq
      · rw [hq, List.mem_singleton] at h3
        rw [h3] at hj
        exact absurd (List.eq_of_mem_replicate (List.mem_of_getElem? hj)) (by simp)
      · obtain ⟨k, _, hkb⟩ := hq
        have hnot : x.2.set i none ∉ ks := fun hmem =>
          absurd (hZs _ (familyPairs_mem h1 h2 hmem)) (not_le.2 hm)
        have := (hkb.2.2.2.2 _ (isAssoc_unassign ha i) hnot).2 _ h3
        exact absurd (this.trans (hZs x hxm)) (not_le.2 hm)
  rw [mul_div_assoc', le_div_iff₀ hκ] at hle
  rw [hprob, div_mul_eq_mul_div, div_le_iff₀ hZp]
  linarith [hle]

/-- The likelihood of a track whose components all have likelihood zero, as the code computes it. -/
theorem lik_ruled_out {env : Env K τ F S C Z} {eps c : K} (heps : 0 ≤ eps) {z : Z} {e : Entry K τ F S C}
    (h0 : TrackLikelihood env 0 z e 0) (h : TrackLikelihood env eps z e c) : c ≤ (e.fStates.length : K) * eps := by
  obtain ⟨s, w, rs, h1, h2, h3, h4⟩ := h0
  obtain ⟨s', w', rs', h1', h2', h3', h4'⟩ := h
  obtain rfl : s = s' := Option.some.inj (h1.symm.trans h1')
  obtain rfl : w = w' := Option.some.inj (h2.symm.trans h2')
  have hrs : rs = rs' := by
    clear h4 h4'
    generalize e.fStates.zip (s.zip w) = l at h3 h3'
    induction h3 generalizing rs' with
    | nil => cases h3'; rfl
    | cons a _ ih =>
      cases h3' with
      | cons a' t' =>
        rw [ih _ t', Option.some.inj (a.symm.trans a')]
  subst hrs
  have key : ∀ rs : List (F × S × C × K), (rs.map fun r => r.2.2.2 + eps).sum =
      (rs.map fun r => r.2.2.2 + 0).sum + (rs.length : K) * eps := by
    intro rs
    induction rs with
    | nil => simp
    | cons r rs ih =>
      simp only [List.map_cons, List.sum_cons, List.length_cons, Nat.cast_add, Nat.cast_one, ih]
      ring
  rw [h4', key, ← h4, zero_add]
  refine mul_le_mul_of_nonneg_right ?_ heps
  have : rs.length ≤ e.fStates.length := by
    rw [← h3.length_eq, List.length_zip]
    exact Nat.min_le_left _ _
  exact_mod_cast this

/-- **C136 (after pruning).** A track that cannot have produced a measurement (all its components have likelihood zero)
is not associated with it in any hypothesis left by `correct` followed by `prune`, if the odds the code computes for it,
`p_D · n · eps / ((1 - p_D) κ)` with `n` the number of the track's components, do not exceed the pruning threshold.
Missing: without pruning, with a smaller threshold, and for `p_D = 0` such associations are kept. -/
theorem C136_ruled_out_pruned_partial (env : Env K τ F S C Z) (pr : Params K)
    (hadd : ∀ x y, env.num.expNeg (x + y) = env.num.expNeg x * env.num.expNeg y)
    (hzero : env.num.expNeg 0 = 1) (hinv : ∀ x, 0 < x → env.num.expNeg (env.num.negLog x) = x)
    (hanti : ∀ x y, x ≤ y → env.num.expNeg y ≤ env.num.expNeg x) (hexp : ∀ x, 0 < env.num.expNeg x)
    (hsqrt : ∀ x, 0 ≤ env.num.sqrt x) (heps : 0 ≤ pr.eps) (st st' st'' : St K τ F S C) (meas : List Z) (pd : ℕ → K)
    (lik : ℕ → ℕ → K)
    (hpd : ∀ (t : ℕ) (e : Entry K τ F S C), st.tab[t]? = some e → pd t = env.pdet e ∧ 0 < pd t ∧ pd t < 1)
    (hlik : ∀ (t : ℕ) (e : Entry K τ F S C) (j : ℕ) (z : Z), st.tab[t]? = some e → meas[j]? = some z →
      TrackLikelihood env pr.eps z e (lik t j) ∧ 0 < lik t j)
    (hκ : 0 < pr.clutterRate * pr.clutterDen)
    (hidx : ∀ h ∈ st.hyps, ∀ i ∈ h.tracks, i < st.tab.length) (hp : ∀ h ∈ st.hyps, 0 ≤ h.prob)
    (h : correct env pr meas st = .ok st') (hpr : prune pr st' = .ok st'') (h' : Hyp K) (hh' : h' ∈ st''.hyps) :
    ∃ p ∈ st.hyps, ∃ a, IsAssoc p.tracks.length meas.length a ∧ IsUpdated st.tab st''.tab p a h' ∧
      ∀ (i t j : ℕ) (e : Entry K τ F S C) (z : Z), p.tracks[i]? = some t → st.tab[t]? = some e → meas[j]? = some z →
        TrackLikelihood env 0 z e 0 →
        env.pdet e * ((e.fStates.length : K) * pr.eps) ≤
          pr.pruneThreshold * ((1 - env.pdet e) * (pr.clutterRate * pr.clutterDen)) →
        a[i]? ≠ some (some j) := by
  unfold prune at hpr
  cases hn : normHyps (st'.hyps.filter fun h => decide (pr.pruneThreshold < h.prob)) with
  | error err =>
    rw [hn] at hpr
    exact (nomatch hpr)
  | ok hs =>
    rw [hn] at hpr
    obtain rfl := Except.ok.inj hpr
    unfold normHyps at hn
    split at hn
    · exact (nomatch hn)
    obtain rfl := Except.ok.inj hn
    obtain ⟨q, hq, rfl⟩ := List.mem_map.1 hh'
    obtain ⟨hq1, hq2⟩ := List.mem_filter.1 hq
    rw [decide_eq_true_eq] at hq2
    obtain ⟨p, hpm, a, ha, hup, hodds⟩ := C136_detection_odds_partial env pr hadd hzero hinv hanti hexp hsqrt st st' meas
      pd lik hpd hlik hκ hidx hp h q hq1
    refine ⟨p, hpm, a, ha, hup, ?_⟩
    intro i t j e z ht he hz h0 hle haj
    have h1 := hodds i t j ht haj
    obtain ⟨hpe, hp0, hp1⟩ := hpd t e he
    have h2 := lik_ruled_out heps h0 (hlik t e j z he hz).1
    have h3 : pd t * lik t j ≤ pd t * ((e.fStates.length : K) * pr.eps) := mul_le_mul_of_nonneg_left h2 hp0.le
    have h4 : 0 < (1 - pd t) * (pr.clutterRate * pr.clutterDen) := mul_pos (by linarith) hκ
    have h5 := mul_lt_mul_of_pos_right hq2 h4
    rw [← hpe] at hle
    linarith

/-! ### Concrete cases, and why the bound cannot be improved to zero -/

/-- One track, one measurement with likelihood zero, two requested updates: `correct` succeeds and keeps both
associations. -/
theorem exOdds : ∃ st' : St ℝ ℝ Unit Unit Unit,
    correct (realEnv (some 0)) (realPr 1 1 2 1) [()] (st1 0 (realBirth (9 / 10))) = .ok st' ∧
    ∃ h' ∈ st'.hyps, 0 < h'.prob ∧
      IsUpdated (st1 (0 : ℝ) (realBirth (9 / 10))).tab st'.tab ⟨1, [0]⟩ [some 0] h' := by
  obtain ⟨st', hst, _⟩ := correct_total (env := realEnv (some 0)) (pr := realPr 1 1 2 1) (by norm_num [realPr])
    (st := st1 0 (realBirth (9 / 10)))
    ⟨realEnv_exp _, fun x hx => Real.sqrt_pos.2 hx, fun e _ => .inr (.inr (by
      have h1 := realOdds
      have h2 : (realPr 1 1 2 1).eps = 1 / 2 ^ 52 := rfl
      have h3 : (realEnv (some 0)).psurv e = 9 / 10 := rfl
      rw [h3, h2]
      change _ ≤ |realNum.negLog _|
      rw [abs_of_nonpos (h1.trans (by norm_num))]
      linarith)), fun e _ => by norm_num [realEnv], fun e _ => by norm_num [realEnv], by
      intro e _ f _ z s w x hx
      simp only [realEnv, Option.map_some, Option.some.injEq] at hx
      subst hx
      norm_num, realArgsort⟩ (by norm_num [realPr]) [()] st1_tinv (by
        intro e he
        simp only [st1, birthTab, List.zipIdx_cons, List.zipIdx_nil, List.map_cons, List.map_nil, List.mem_singleton] at he
        subst he
        simp [st1])
  refine ⟨st', hst, ?_⟩
  obtain ⟨Zc, hZ, kids, k1, hZs, k2⟩ := C85_best_associations _ _ realNum_add (by simp [realNum, realEnv])
    (fun x hx => by simp only [realEnv, realNum, neg_neg]; exact Real.exp_log hx)
    (fun x y hxy => Real.exp_le_exp.2 (by linarith)) (realEnv_exp _) (fun x => Real.sqrt_nonneg x) _ st' _
    (fun _ => 9 / 10) (fun _ _ => 0 + 1 / 2 ^ 52) (fun t e _ => ⟨rfl, by norm_num, by norm_num⟩) (by
      intro t e j z he _
      have : e ∈ (st1 (0 : ℝ) (realBirth (9 / 10))).tab := List.mem_of_getElem? he
      simp only [st1, birthTab, List.zipIdx_cons, List.zipIdx_nil, List.map_cons, List.map_nil, List.mem_singleton] at this
      subst this
      refine ⟨⟨[()], [1], [((), (), (), 0)], rfl, rfl, .cons rfl .nil, ?_⟩, by norm_num⟩
      simp [realPr]) st1_tinv.idx.range (fun h hh => (st1_tinv.pos h hh).le) hst
  rw [show (st1 (0 : ℝ) (realBirth (9 / 10))).hyps = [⟨1, [0]⟩] from rfl] at k1 k2 hZs
  cases k1 with
  | cons h1 h2 =>
    rename_i ks rest
    cases h2
    rw [if_neg (by simp)] at h1
    obtain ⟨k, hk, q1, q2, q3, q4, q5⟩ := h1
    have hk2 : k = 2 := by
      have hs : (realEnv (some 0)).num.sqrt 1 = 1 := Real.sqrt_one
      simp only [List.map_cons, List.map_nil, List.sum_cons, List.sum_nil, add_zero] at hk
      rw [hs, show (realPr 1 1 2 1).reqUpd = 2 from rfl, abs_le] at hk
      norm_num at hk
      have a1 : (1 : ℝ) < k := by linarith [hk.1]
      have a2 : (k : ℝ) < 3 := by linarith [hk.2]
      have b1 : 1 < k := by exact_mod_cast a1
      have b2 : k < 3 := by exact_mod_cast a2
      omega
    have one : ∀ a : List (Option ℕ), IsAssoc 1 1 a → a = [none] ∨ a = [some 0] := by
      intro a ha
      obtain ⟨o, rfl⟩ := List.length_eq_one_iff.1 ha.1
      cases o with
      | none => exact .inl rfl
      | some j =>
        have := ha.2.1 j (by simp)
        obtain rfl : j = 0 := by omega
        exact .inr rfl
    have i0 : IsAssoc 1 1 [some 0] := by
      refine ⟨rfl, fun j hj => ?_, ?_⟩
      · simp only [List.mem_singleton, Option.some.injEq] at hj
        omega
      · intro i i' j h1 h2
        rw [List.getElem?_eq_some_iff] at h1 h2
        obtain ⟨h1, _⟩ := h1
        obtain ⟨h2, _⟩ := h2
        simp only [List.length_cons, List.length_nil] at h1 h2
        omega
    have hmem : [some 0] ∈ ks := by
      by_contra hn
      have hlen := (q5 _ i0 hn).1.trans hk2
      have hsub : ks ⊆ [[none]] := by
        intro b hb
        rcases one b (q2 b hb) with rfl | rfl
        · exact List.mem_singleton.2 rfl
        · exact absurd hb hn
      have := (List.subperm_of_subset q1 hsub).length_le
      simp only [List.length_cons, List.length_nil] at this
      omega
    have hfm : ((⟨1, [0]⟩ : Hyp ℝ), [some 0]) ∈ familyPairs [(⟨1, [0]⟩ : Hyp ℝ)] [ks] :=
      familyPairs_mem (i := 0) rfl rfl hmem
    obtain ⟨n, hn⟩ := List.mem_iff_getElem?.1 hfm
    obtain ⟨hn1, hn2⟩ := List.getElem?_eq_some_iff.1 hn
    have hr := List.forall₂_iff_get.1 k2
    obtain ⟨hw, hup⟩ := hr.2 n hn1 (hr.1 ▸ hn1)
    simp only [List.get_eq_getElem, hn2] at hw hup
    refine ⟨_, List.getElem_mem _, ?_, hup⟩
    have hpos : ∀ a, IsAssoc 1 1 a → 0 < assocWeight ((realEnv (some 0)).num.expNeg (realPr 1 1 2 1).clutterRate *
        ((realPr 1 1 2 1).clutterRate * (realPr 1 1 2 1).clutterDen) ^ [()].length)
        ((realPr 1 1 2 1).clutterRate * (realPr 1 1 2 1).clutterDen) (fun _ => 9 / 10) (fun _ _ => 0 + 1 / 2 ^ 52)
        (⟨1, [0]⟩ : Hyp ℝ) a := by
      intro a ha
      have he := realEnv_exp (some 0) (realPr 1 1 2 1).clutterRate
      refine mul_pos (mul_pos (mul_pos he (by norm_num [realPr])) one_pos) ?_
      rcases one a ha with rfl | rfl
      · norm_num [assocFactor]
      · norm_num [assocFactor, realPr]
    have hZp : 0 < Zc := by
      rw [hZs]
      refine List.sum_pos _ ?_ ?_
      · intro x hx
        obtain ⟨y, hy, rfl⟩ := List.mem_map.1 hx
        obtain ⟨i, ks', e1, e2, e3⟩ := mem_familyPairs hy
        cases i with
        | zero =>
          simp only [List.getElem?_cons_zero, Option.some.injEq] at e1 e2
          rw [← e1]
          exact hpos _ (q2 _ (e2 ▸ e3))
        | succ i => simp at e1
      · simp only [ne_eq, List.map_eq_nil_iff]
        exact List.ne_nil_of_mem hfm
    exact pos_of_mul_pos_left (by rw [hw]; exact hpos _ i0) hZp.le

/-- **C136 is false of the code.** One track and one measurement the track cannot have produced (likelihood zero);
after `correct` there is a hypothesis of positive probability in which the track has made the measurement. -/
theorem C136_refuted_by_eps : ∃ (st st' : St ℝ ℝ Unit Unit Unit) (e : Entry ℝ ℝ Unit Unit Unit),
    correct (realEnv (some 0)) (realPr 1 1 2 1) [()] st = .ok st' ∧ st.tab = [e] ∧ e.mHist = [] ∧
    TrackLikelihood (realEnv (some 0)) 0 () e 0 ∧
    ∃ h' ∈ st'.hyps, 0 < h'.prob ∧ ∃ t' ∈ h'.tracks, ∃ e', st'.tab[t']? = some e' ∧ e'.mHist = [some 0] := by
  obtain ⟨st', hst, h', hh', hpos, hlen, hup⟩ := exOdds
  obtain ⟨t', e', h1, h2, h3, h4⟩ := hup 0 0 _ (some 0) rfl rfl rfl
  refine ⟨_, st', _, hst, rfl, rfl, ⟨[()], [1], [((), (), (), 0)], rfl, rfl, .cons rfl .nil, by simp⟩, h', hh', hpos,
    t', List.mem_of_getElem? h1, e', h2, ?_⟩
  exact h4

/-- The hypotheses of `C136_ruled_out_pruned_partial` can be met: in the same case pruning (threshold 1/1000) leaves only
hypotheses in which the track is missed. -/
example : ∃ st' st'' : St ℝ ℝ Unit Unit Unit,
    correct (realEnv (some 0)) (realPr 1 1 2 1) [()] (st1 0 (realBirth (9 / 10))) = .ok st' ∧
    prune (realPr 1 1 2 1) st' = .ok st'' ∧
    ∀ h' ∈ st''.hyps, IsUpdated (st1 (0 : ℝ) (realBirth (9 / 10))).tab st''.tab ⟨1, [0]⟩ [none] h' := by
  obtain ⟨st', hst, _⟩ := exOdds
  have hn : ¬ ((st'.hyps.filter fun h => decide ((realPr 1 1 2 1).pruneThreshold < h.prob)) ≠ [] ∧
      ((st'.hyps.filter fun h => decide ((realPr 1 1 2 1).pruneThreshold < h.prob)).map fun h => h.prob).sum = 0) := by
    rintro ⟨h1, h2⟩
    refine absurd h2 (ne_of_gt (List.sum_pos _ ?_ (by simpa using h1)))
    intro x hx
    obtain ⟨y, hy, rfl⟩ := List.mem_map.1 hx
    have := (List.mem_filter.1 hy).2
    rw [decide_eq_true_eq] at this
    exact lt_trans (by norm_num [realPr]) this
  have hpr : ∃ st'', prune (realPr 1 1 2 1) st' = .ok st'' := by
    unfold prune normHyps
    rw [if_neg hn]
    exact ⟨_, rfl⟩
  obtain ⟨st'', hpr⟩ := hpr
  refine ⟨st', st'', hst, hpr, fun h' hh' => ?_⟩
  obtain ⟨p, hp, a, ha, hup, hno⟩ := C136_ruled_out_pruned_partial _ _ realNum_add (by simp [realNum, realEnv])
    (fun x hx => by simp only [realEnv, realNum, neg_neg]; exact Real.exp_log hx)
    (fun x y hxy => Real.exp_le_exp.2 (by linarith)) (realEnv_exp _) (fun x => Real.sqrt_nonneg x)
    (by norm_num [realPr]) _ st' st'' _
    (fun _ => 9 / 10) (fun _ _ => 0 + 1 / 2 ^ 52) (fun t e _ => ⟨rfl, by norm_num, by norm_num⟩) (by
      intro t e j z he _
      have : e ∈ (st1 (0 : ℝ) (realBirth (9 / 10))).tab := List.mem_of_getElem? he
      simp only [st1, birthTab, List.zipIdx_cons, List.zipIdx_nil, List.map_cons, List.map_nil, List.mem_singleton] at this
      subst this
      refine ⟨⟨[()], [1], [((), (), (), 0)], rfl, rfl, .cons rfl .nil, ?_⟩, by norm_num⟩
      simp [realPr]) (by norm_num [realPr]) st1_tinv.idx.range (fun h hh => (st1_tinv.pos h hh).le) hst hpr h' hh'
  rw [show (st1 (0 : ℝ) (realBirth (9 / 10))).hyps = [⟨1, [0]⟩] from rfl, List.mem_singleton] at hp
  subst hp
  obtain ⟨o, rfl⟩ := List.length_eq_one_iff.1 ha.1
  cases o with
  | none => exact hup
  | some j =>
    have hj : j < 1 := ha.2.1 j (by simp)
    obtain rfl : j = 0 := by omega
    refine absurd rfl (hno 0 0 0 _ () rfl rfl rfl ⟨[()], [1], [((), (), (), 0)], rfl, rfl, .cons rfl .nil, by simp⟩ ?_)
    norm_num [realPr, realEnv, birthTab, realBirth]

/-- An environment in which no track can be detected. -/
def exBlindEnv : Env ℚ ℕ Unit ℚ Unit ℚ := { exTrackEnv with pdet := fun _ => 0 }

/-- **C136 is false of the code.** With a detection probability of zero the update still makes a hypothesis of positive
probability in which the track has been detected. -/
theorem C136_refuted_blind :
    ((Glmb.run exTrackPr Glmb.init [.predict exBlindEnv 0 [⟨[()], [1], [0], [()], 9 / 10⟩], .correct exBlindEnv [4]]).toOption.map
      fun st => st.hyps.any fun h => decide (0 < h.prob) && h.tracks.any fun t =>
        (st.tab[t]?).any fun e => decide (e.mHist = [some 0])) = some true := by
  decide +kernel

end Gasur.Props
