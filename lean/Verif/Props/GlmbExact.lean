import Verif.Props.GlmbBest
import Mathlib.Algebra.Order.Archimedean.Basic

/-!
# Properties C98, C99: how far the GLMB update is from the exact posterior
-/

set_option linter.unusedSectionVars false

namespace Gasur.Props

open Gasur.Glmb Gasur.Spec

variable {K τ F S C Z : Type*} [Field K] [LinearOrder K] [IsStrictOrderedRing K] [FloorRing K]
  [DecidableEq τ]

/-! ### The number of associations -/

/-- All lists of length `n` with entries `none`, `some 0`, ..., `some (m - 1)`. -/
def allLists (m : ℕ) : ℕ → List (List (Option ℕ))
  | 0 => [[]]
  | n + 1 => (none :: (List.range m).map some).flatMap fun o => (allLists m n).map fun l => o :: l

theorem mem_allLists (m : ℕ) : ∀ (n : ℕ) (a : List (Option ℕ)), a.length = n → (∀ j, some j ∈ a → j < m) → a ∈ allLists m n
  | 0, a, h, _ => by
    rw [List.length_eq_zero_iff] at h
    subst h
    exact List.mem_singleton.2 rfl
  | n + 1, [], h, _ => by simp at h
  | n + 1, o :: a, h, hj => by
    refine List.mem_flatMap.2 ⟨o, ?_, List.mem_map.2 ⟨a, mem_allLists m n a (by simpa using h)
      (fun j hj' => hj j (List.mem_cons_of_mem _ hj')), rfl⟩⟩
    cases o with
    | none => exact List.mem_cons_self
    | some j => exact List.mem_cons_of_mem _ (List.mem_map.2 ⟨j, List.mem_range.2 (hj j List.mem_cons_self), rfl⟩)

theorem assoc_count {n m : ℕ} {ks : List (List (Option ℕ))} (hnd : ks.Nodup) (h : ∀ a ∈ ks, IsAssoc n m a) :
    ks.length ≤ (allLists m n).length :=
  (List.subperm_of_subset hnd fun a ha => mem_allLists m n a (h a ha).1 (h a ha).2.1).length_le

theorem assoc_none {n m : ℕ} (h : n = 0 ∨ m = 0) (a : List (Option ℕ)) :
    a ∈ [List.replicate n none] ↔ IsAssoc n m a := by
  rw [List.mem_singleton]
  constructor
  · rintro rfl
    refine ⟨List.length_replicate, ?_, ?_⟩
    · intro j hj
      exact absurd (List.eq_of_mem_replicate hj) (by simp)
    · intro i i' j hi _
      exact absurd (List.eq_of_mem_replicate (List.mem_of_getElem? hi)) (by simp)
  · rintro ⟨h1, h2, _⟩
    rw [← h1, List.eq_replicate_iff]
    refine ⟨rfl, fun b hb => ?_⟩
    cases b with
    | none => rfl
    | some j =>
      exfalso
      rcases h with h | h
      · rw [h, List.length_eq_zero_iff] at h1
        subst h1
        simp at hb
      · have := h2 j hb
        omega

/-- Enough requested updates for one hypothesis. -/
theorem enough (c : K) (hc : 0 < c) (B : ℕ) : ∃ R0 : ℕ, ∀ R : ℕ, R0 ≤ R → ∀ k : ℕ, |(k : K) - (R : K) * c| ≤ 1 / 2 → B < k := by
  obtain ⟨R0, h0⟩ := exists_nat_gt (((B : K) + 1) / c)
  refine ⟨R0, fun R hR k hk => ?_⟩
  have h1 : ((B : K) + 1) < R * c := by
    rw [div_lt_iff₀ hc] at h0
    exact h0.trans_le (mul_le_mul_of_nonneg_right (by exact_mod_cast hR) hc.le)
  have h2 := (abs_le.1 hk).1
  have h3 : (B : K) < k := by linarith
  exact_mod_cast h3

theorem enough_all {α : Type*} {P : α → ℕ → Prop} : ∀ (l : List α), (∀ x ∈ l, ∃ R0 : ℕ, ∀ R : ℕ, R0 ≤ R → P x R) →
    ∃ R0 : ℕ, ∀ R : ℕ, R0 ≤ R → ∀ x ∈ l, P x R
  | [], _ => ⟨0, by simp⟩
  | a :: l, h => by
    obtain ⟨R1, h1⟩ := h a List.mem_cons_self
    obtain ⟨R2, h2⟩ := enough_all l fun x hx => h x (List.mem_cons_of_mem _ hx)
    refine ⟨max R1 R2, fun R hR x hx => ?_⟩
    rcases List.mem_cons.1 hx with rfl | hx
    · exact h1 R ((le_max_left _ _).trans hR)
    · exact h2 R ((le_max_right _ _).trans hR) x hx

theorem forall₂_imp_left {α β : Type*} {R R' : α → β → Prop} {l : List α} {l' : List β} (h : List.Forall₂ R l l')
    (hi : ∀ x ∈ l, ∀ y, R x y → R' x y) : List.Forall₂ R' l l' := by
  induction h with
  | nil => exact .nil
  | cons h _ ih =>
    exact .cons (hi _ List.mem_cons_self _ h) (ih fun x hx => hi x (List.mem_cons_of_mem _ hx))

/-- The Bayes weight `exp(-λ) κ^m p.prob Π_i g_i` of association `a` of hypothesis `p`, for `m` measurements and the clutter
intensity `κ` of the filter. -/
abbrev bayesWeight (env : Env K τ F S C Z) (pr : Params K) (m : ℕ) (pd : ℕ → K) (lik : ℕ → ℕ → K) (p : Hyp K)
    (a : List (Option ℕ)) : K :=
  assocWeight (env.num.expNeg pr.clutterRate * (pr.clutterRate * pr.clutterDen) ^ m) (pr.clutterRate * pr.clutterDen)
    pd lik p a

/-- **C98.** If enough updates are requested, the GLMB update is exact: there is a number `R0` such that for every
`req_upd ≥ R0`, the hypotheses after `correct` are exactly one for each hypothesis before it and each association of its
tracks with the measurements, and the weight of each is its Bayes weight divided by the sum of all Bayes weights.
(`kids` lists for each hypothesis all its associations, without repetition.) -/
theorem C98_update_exact (env : Env K τ F S C Z) (pr : Params K)
    (hadd : ∀ x y, env.num.expNeg (x + y) = env.num.expNeg x * env.num.expNeg y)
    (hzero : env.num.expNeg 0 = 1) (hinv : ∀ x, 0 < x → env.num.expNeg (env.num.negLog x) = x)
    (hanti : ∀ x y, x ≤ y → env.num.expNeg y ≤ env.num.expNeg x) (hexp : ∀ x, 0 < env.num.expNeg x)
    (hsqrt : ∀ x, 0 ≤ env.num.sqrt x) (hsqrt' : ∀ x, 0 < x → 0 < env.num.sqrt x) (st : St K τ F S C) (meas : List Z)
    (pd : ℕ → K) (lik : ℕ → ℕ → K)
    (hpd : ∀ (t : ℕ) (e : Entry K τ F S C), st.tab[t]? = some e → pd t = env.pdet e ∧ 0 < pd t ∧ pd t < 1)
    (hlik : ∀ (t : ℕ) (e : Entry K τ F S C) (j : ℕ) (z : Z), st.tab[t]? = some e → meas[j]? = some z →
      TrackLikelihood env pr.eps z e (lik t j) ∧ 0 < lik t j)
    (hidx : ∀ h ∈ st.hyps, ∀ i ∈ h.tracks, i < st.tab.length) (hp : ∀ h ∈ st.hyps, 0 < h.prob) :
    ∃ R0, ∀ R, R0 ≤ R → ∀ st', correct env { pr with reqUpd := R } meas st = .ok st' →
      ∃ kids, AllAssocs st.hyps meas.length kids ∧
        List.Forall₂ (fun (x : Hyp K × List (Option ℕ)) (h' : Hyp K) =>
          h'.prob = bayesWeight env pr meas.length pd lik x.1 x.2 /
            assocMass (bayesWeight env pr meas.length pd lik) st.hyps kids ∧
          IsUpdated st.tab st'.tab x.1 x.2 h') (familyPairs st.hyps kids) st'.hyps := by
  have hss : ∀ p ∈ st.hyps, 0 < (st.hyps.map fun h => env.num.sqrt h.prob).sum := by
    intro p hpm
    refine List.sum_pos _ ?_ ?_
    · intro x hx
      obtain ⟨h, hh, rfl⟩ := List.mem_map.1 hx
      exact hsqrt' _ (hp h hh)
    · exact List.ne_nil_of_mem (List.mem_map_of_mem hpm)
  obtain ⟨R0, hR0⟩ := enough_all (P := fun (p : Hyp K) (R : ℕ) => ∀ k : ℕ, |(k : K) - (R : K) *
      (env.num.sqrt p.prob / (st.hyps.map fun h => env.num.sqrt h.prob).sum)| ≤ 1 / 2 →
        (allLists meas.length p.tracks.length).length < k) st.hyps
    (fun p hpm => enough _ (div_pos (hsqrt' _ (hp p hpm)) (hss p hpm)) _)
  refine ⟨R0, fun R hR st' h => ?_⟩
  obtain ⟨Zc, hZ, kids, k1, k2, k3⟩ := C85_best_associations env { pr with reqUpd := R } hadd hzero hinv hanti hexp hsqrt
    st st' meas pd lik hpd hlik hidx (fun h hh => (hp h hh).le) h
  refine ⟨kids, ?_, ?_⟩
  · refine forall₂_imp_left k1 ?_
    intro p hpm ks hks
    by_cases hc : p.tracks = [] ∨ meas = []
    · rw [if_pos hc] at hks
      rw [hks]
      exact ⟨List.nodup_singleton _, assoc_none (by
        rcases hc with hc | hc
        · exact .inl (by rw [hc]; rfl)
        · exact .inr (by rw [hc]; rfl))⟩
    · rw [if_neg hc] at hks
      obtain ⟨k, hk, q1, q2, _, _, q5⟩ := hks
      refine ⟨q1, fun a => ⟨q2 a, fun ha => ?_⟩⟩
      by_contra hno
      have e1 := (q5 a ha hno).1
      have e2 := assoc_count q1 q2
      have e3 := hR0 R hR p hpm k (by
        rw [← mul_div_assoc]
        exact hk)
      omega
  · refine (forall₂_and_mem k3).imp ?_
    rintro x h' ⟨⟨hx, hu⟩, hmem⟩
    refine ⟨?_, hu⟩
    have hz := hZ (List.ne_nil_of_mem hmem)
    rw [k2] at hz hx
    exact (eq_div_iff hz).2 hx

/-! ### The error of the update -/

theorem sum_nodup {α : Type*} [DecidableEq α] {l : List α} (h : l.Nodup) (w : α → K) : (l.map w).sum = ∑ a ∈ l.toFinset, w a :=
  (List.sum_toFinset w h).symm

/-- Of two selections of at most the same size, the heavier has the larger sum. -/
theorem sum_best {α : Type*} [DecidableEq α] {as ks : List α} (ha : as.Nodup) (hk : ks.Nodup) (hlen : as.length ≤ ks.length)
    (w : α → K) (hw : ∀ a, a ∈ ks → 0 ≤ w a) (hb : ∀ b ∈ as, b ∉ ks → ∀ a ∈ ks, w b ≤ w a) :
    (as.map w).sum ≤ (ks.map w).sum := by
  rw [sum_nodup ha, sum_nodup hk]
  set A := as.toFinset
  set B := ks.toFinset
  have hc : A.card ≤ B.card := by
    rw [List.toFinset_card_of_nodup ha, List.toFinset_card_of_nodup hk]
    exact hlen
  have hcd : (A \ B).card ≤ (B \ A).card := by
    have h1 := Finset.card_sdiff_add_card_inter A B
    have h2 := Finset.card_sdiff_add_card_inter B A
    rw [Finset.inter_comm B A] at h2
    omega
  rw [← Finset.sum_sdiff (Finset.inter_subset_left (s₁ := A) (s₂ := B)),
    ← Finset.sum_sdiff (Finset.inter_subset_right (s₁ := A) (s₂ := B)), Finset.sdiff_inter_self_left,
    Finset.sdiff_inter_self_right]
  refine add_le_add ?_ le_rfl
  by_cases he : (B \ A) = ∅
  · have : A \ B = ∅ := by
      rw [← Finset.card_eq_zero]
      rw [he, Finset.card_empty] at hcd
      omega
    rw [he, this]
  · obtain ⟨m, hm, hmin⟩ := Finset.exists_min_image (B \ A) w (Finset.nonempty_iff_ne_empty.2 he)
    have hmB : m ∈ ks := by simpa [B] using (Finset.mem_sdiff.1 hm).1
    have h1 : ∑ a ∈ A \ B, w a ≤ (A \ B).card • w m := by
      refine Finset.sum_le_card_nsmul _ _ _ fun b hb' => ?_
      obtain ⟨b1, b2⟩ := Finset.mem_sdiff.1 hb'
      exact hb b (by simpa [A] using b1) (by simpa [B] using b2) m hmB
    have h2 : (B \ A).card • w m ≤ ∑ a ∈ B \ A, w a := Finset.card_nsmul_le_sum _ _ _ hmin
    exact h1.trans ((nsmul_le_nsmul_left (hw m hmB) hcd).trans h2)

theorem familyPairs_cons {α β : Type*} (h : α) (hyps : List α) (ks : List β) (kids : List (List β)) :
    familyPairs (h :: hyps) (ks :: kids) = ks.map (fun a => (h, a)) ++ familyPairs hyps kids := rfl

theorem assocMass_cons (wt : Hyp K → List (Option ℕ) → K) (h : Hyp K) (hyps : List (Hyp K)) (ks : List (List (Option ℕ)))
    (kids : List (List (List (Option ℕ)))) :
    assocMass wt (h :: hyps) (ks :: kids) = (ks.map (wt h)).sum + assocMass wt hyps kids := by
  unfold assocMass
  rw [familyPairs_cons, List.map_append, List.sum_append, List.map_map]
  rfl

theorem sum_leftOut {fs ks : List (List (Option ℕ))} (hf : fs.Nodup) (hk : ks.Nodup) (hsub : ∀ a ∈ ks, a ∈ fs)
    (w : List (Option ℕ) → K) : (fs.map w).sum = (ks.map w).sum + ((fs.filter fun a => a ∉ ks).map w).sum := by
  rw [sum_nodup hf, sum_nodup hk, sum_nodup (hf.filter _)]
  rw [← Finset.sum_sdiff (s₁ := ks.toFinset) (s₂ := fs.toFinset) (by
    intro a ha
    rw [List.mem_toFinset] at ha ⊢
    exact hsub a ha), add_comm]
  congr 1
  refine Finset.sum_congr ?_ fun _ _ => rfl
  ext a
  simp

theorem mass_leftOut (wt : Hyp K → List (Option ℕ) → K) {m : ℕ} : ∀ {hyps : List (Hyp K)}
    {full kids : List (List (List (Option ℕ)))}, AllAssocs hyps m full → SomeAssocs hyps m kids →
    assocMass wt hyps full = assocMass wt hyps kids + assocMass wt hyps (leftOut full kids)
  | _, _, _, .nil, .nil => by simp [assocMass, familyPairs]
  | h :: hyps, fs :: full, ks :: kids, .cons h1 t1, .cons h2 t2 => by
    rw [show leftOut (fs :: full) (ks :: kids) = (fs.filter fun a => a ∉ ks) :: leftOut full kids from rfl,
      assocMass_cons, assocMass_cons, assocMass_cons, mass_leftOut wt t1 t2,
      sum_leftOut h1.1 h2.1 (fun a ha => (h1.2 a).2 (h2.2 a ha)) (wt h)]
    ring

theorem mem_pairs {m : ℕ} : ∀ {hyps : List (Hyp K)} {kids : List (List (List (Option ℕ)))}, SomeAssocs hyps m kids →
    ∀ x ∈ familyPairs hyps kids, x.1 ∈ hyps ∧ IsAssoc x.1.tracks.length m x.2
  | _, _, .nil, x, hx => by simp [familyPairs] at hx
  | h :: hyps, ks :: kids, .cons h2 t2, x, hx => by
    rw [familyPairs_cons, List.mem_append] at hx
    rcases hx with hx | hx
    · obtain ⟨a, ha, rfl⟩ := List.mem_map.1 hx
      exact ⟨List.mem_cons_self, h2.2 a ha⟩
    · obtain ⟨q1, q2⟩ := mem_pairs t2 x hx
      exact ⟨List.mem_cons_of_mem _ q1, q2⟩

theorem mass_nonneg {wt : Hyp K → List (Option ℕ) → K} {m : ℕ} {hyps : List (Hyp K)}
    {kids : List (List (List (Option ℕ)))} (hs : SomeAssocs hyps m kids)
    (hw : ∀ p ∈ hyps, ∀ a, IsAssoc p.tracks.length m a → 0 < wt p a) : 0 ≤ assocMass wt hyps kids := by
  refine List.sum_nonneg ?_
  intro x hx
  obtain ⟨y, hy, rfl⟩ := List.mem_map.1 hx
  obtain ⟨q1, q2⟩ := mem_pairs hs y hy
  exact (hw _ q1 _ q2).le

theorem mass_pos {wt : Hyp K → List (Option ℕ) → K} {m : ℕ} {hyps : List (Hyp K)}
    {kids : List (List (List (Option ℕ)))} (hs : SomeAssocs hyps m kids)
    (hw : ∀ p ∈ hyps, ∀ a, IsAssoc p.tracks.length m a → 0 < wt p a) (hne : familyPairs hyps kids ≠ []) :
    0 < assocMass wt hyps kids := by
  refine List.sum_pos _ ?_ (by simpa using hne)
  intro x hx
  obtain ⟨y, hy, rfl⟩ := List.mem_map.1 hx
  obtain ⟨q1, q2⟩ := mem_pairs hs y hy
  exact hw _ q1 _ q2

theorem leftOut_some {m : ℕ} : ∀ {hyps : List (Hyp K)} {full : List (List (List (Option ℕ)))},
    AllAssocs hyps m full → ∀ {kids : List (List (List (Option ℕ)))}, SomeAssocs hyps m kids →
    SomeAssocs hyps m (leftOut full kids)
  | _, _, .nil, _, .nil => .nil
  | h :: hyps, fs :: full, .cons h1 t1, ks :: kids, .cons h2 t2 =>
    .cons ⟨h1.1.filter _, fun a ha => (h1.2 a).1 (List.mem_of_mem_filter ha)⟩ (leftOut_some t1 t2)

/-- The weights of associations are positive. -/
theorem bayesWeight_pos {env : Env K τ F S C Z} {pr : Params K} (hexp : ∀ x, 0 < env.num.expNeg x)
    (hκ : 0 < pr.clutterRate * pr.clutterDen) {st : St K τ F S C} {m : ℕ} {pd : ℕ → K} {lik : ℕ → ℕ → K}
    (hpd : ∀ t, t < st.tab.length → 0 < pd t ∧ pd t < 1) (hlik : ∀ t j, t < st.tab.length → j < m → 0 < lik t j)
    {p : Hyp K} (hidx : ∀ i ∈ p.tracks, i < st.tab.length) (hp : 0 < p.prob) {a : List (Option ℕ)}
    (ha : IsAssoc p.tracks.length m a) : 0 < bayesWeight env pr m pd lik p a := by
  refine mul_pos (mul_pos (mul_pos (hexp _) (pow_pos hκ _)) hp) (List.prod_pos ?_)
  intro x hx
  obtain ⟨y, hy, rfl⟩ := List.mem_map.1 hx
  have h1 := hidx _ (List.of_mem_zip hy).1
  have h2 := (List.of_mem_zip hy).2
  obtain ⟨t, o⟩ := y
  cases o with
  | none => exact sub_pos.2 (hpd t h1).2
  | some j => exact div_pos (mul_pos (hpd t h1).1 (hlik t j h1 (ha.2.1 j h2))) hκ

/-- What is kept is heaviest. -/
theorem mass_best {wt : Hyp K → List (Option ℕ) → K} {m : ℕ} : ∀ {hyps : List (Hyp K)}
    {kids : List (List (List (Option ℕ)))},
    (∀ p ∈ hyps, ∀ a, IsAssoc p.tracks.length m a → 0 < wt p a) →
    List.Forall₂ (fun (p : Hyp K) ks => (ks.Nodup ∧ ∀ a ∈ ks, IsAssoc p.tracks.length m a) ∧
      ∀ b, IsAssoc p.tracks.length m b → b ∉ ks → ∀ a ∈ ks, wt p b ≤ wt p a) hyps kids →
    ∀ {alt : List (List (List (Option ℕ)))}, SomeAssocs hyps m alt →
      List.Forall₂ (fun as ks => as.length ≤ ks.length) alt kids → assocMass wt hyps alt ≤ assocMass wt hyps kids
  | _, _, _, .nil, _, .nil, .nil => le_rfl
  | h :: hyps, ks :: kids, hw, .cons h1 t1, as :: alt, .cons h2 t2, .cons h3 t3 => by
    rw [assocMass_cons, assocMass_cons]
    refine add_le_add (sum_best h2.1 h1.1.1 h3 _ ?_ ?_)
      (mass_best (fun p hp => hw p (List.mem_cons_of_mem _ hp)) t1 t2 t3)
    · exact fun a ha => (hw h List.mem_cons_self a (h1.1.2 a ha)).le
    · exact fun b hb hn a ha => h1.2 b (h2.2 b hb) hn a ha

/-- The error of an update that keeps the associations `kids`. -/
theorem truncation_core (env : Env K τ F S C Z) (pr : Params K) (hexp : ∀ x, 0 < env.num.expNeg x)
    (hκ : 0 < pr.clutterRate * pr.clutterDen) (st st' : St K τ F S C) (meas : List Z)
    (pd : ℕ → K) (lik : ℕ → ℕ → K)
    (hpd : ∀ (t : ℕ) (e : Entry K τ F S C), st.tab[t]? = some e → pd t = env.pdet e ∧ 0 < pd t ∧ pd t < 1)
    (hlik : ∀ (t : ℕ) (e : Entry K τ F S C) (j : ℕ) (z : Z), st.tab[t]? = some e → meas[j]? = some z →
      TrackLikelihood env pr.eps z e (lik t j) ∧ 0 < lik t j)
    (hidx : ∀ h ∈ st.hyps, ∀ i ∈ h.tracks, i < st.tab.length) (hp : ∀ h ∈ st.hyps, 0 < h.prob)
    (full : List (List (List (Option ℕ)))) (hfull : AllAssocs st.hyps meas.length full) (hne : st'.hyps ≠ [])
    {Zc : K} {kids : List (List (List (Option ℕ)))} {x : Hyp K → K}
    (k1 : List.Forall₂ (fun (p : Hyp K) ks =>
        if p.tracks = [] ∨ meas = [] then ks = [List.replicate p.tracks.length none]
        else ∃ k : ℕ, |(k : K) - x p| ≤ 1 / 2 ∧
          KBest p.tracks.length meas.length k (bayesWeight env pr meas.length pd lik p) ks) st.hyps kids)
    (k2 : Zc = assocMass (bayesWeight env pr meas.length pd lik) st.hyps kids)
    (k3 : List.Forall₂ (fun (x : Hyp K × List (Option ℕ)) (h' : Hyp K) =>
        h'.prob * Zc = bayesWeight env pr meas.length pd lik x.1 x.2 ∧
        IsUpdated st.tab st'.tab x.1 x.2 h') (familyPairs st.hyps kids) st'.hyps) :
    let wt := bayesWeight env pr meas.length pd lik
    SomeAssocs st.hyps meas.length kids ∧
      List.Forall₂ (fun (x : Hyp K × List (Option ℕ)) (h' : Hyp K) =>
        h'.prob = wt x.1 x.2 / assocMass wt st.hyps kids ∧ IsUpdated st.tab st'.tab x.1 x.2 h')
        (familyPairs st.hyps kids) st'.hyps ∧
      ((List.zip (familyPairs st.hyps kids) st'.hyps).map fun x =>
          |x.2.prob - wt x.1.1 x.1.2 / assocMass wt st.hyps full|).sum +
        assocMass wt st.hyps (leftOut full kids) / assocMass wt st.hyps full =
          2 * (1 - assocMass wt st.hyps kids / assocMass wt st.hyps full) ∧
      ∀ alt, SomeAssocs st.hyps meas.length alt → List.Forall₂ (fun as ks => as.length ≤ ks.length) alt kids →
        assocMass wt st.hyps alt ≤ assocMass wt st.hyps kids := by
  intro wt
  have hw : ∀ p ∈ st.hyps, ∀ a, IsAssoc p.tracks.length meas.length a → 0 < wt p a := by
    intro p hpm a ha
    refine bayesWeight_pos hexp hκ (st := st) ?_ ?_ (hidx p hpm) (hp p hpm) ha
    · exact fun t ht => (hpd t _ (List.getElem?_eq_getElem ht)).2
    · exact fun t j ht hj => (hlik t _ j _ (List.getElem?_eq_getElem ht) (List.getElem?_eq_getElem hj)).2
  have hb : List.Forall₂ (fun (p : Hyp K) ks => (ks.Nodup ∧ ∀ a ∈ ks, IsAssoc p.tracks.length meas.length a) ∧
      ∀ b, IsAssoc p.tracks.length meas.length b → b ∉ ks → ∀ a ∈ ks, wt p b ≤ wt p a) st.hyps kids := by
    refine k1.imp ?_
    intro p ks hks
    by_cases hc : p.tracks = [] ∨ meas = []
    · rw [if_pos hc] at hks
      have hall := assoc_none (n := p.tracks.length) (m := meas.length) (by
        rcases hc with hc | hc
        · exact .inl (by rw [hc]; rfl)
        · exact .inr (by rw [hc]; rfl))
      rw [← hks] at hall
      refine ⟨⟨by rw [hks]; exact List.nodup_singleton _, fun a ha => (hall a).1 ha⟩, ?_⟩
      exact fun b hb hn => absurd ((hall b).2 hb) hn
    · rw [if_neg hc] at hks
      obtain ⟨k, _, q1, q2, _, _, q5⟩ := hks
      exact ⟨⟨q1, q2⟩, fun b hb hn a ha => (q5 b hb hn).2 a ha⟩
  have hsome : SomeAssocs st.hyps meas.length kids := hb.imp fun _ _ hx => hx.1
  have hpairs : familyPairs st.hyps kids ≠ [] := by
    intro he
    have hl := k3.length_eq
    rw [he] at hl
    exact hne (List.length_eq_zero_iff.1 hl.symm)
  have hA := mass_pos hsome hw hpairs
  have hsplit := mass_leftOut wt hfull hsome
  have hL : 0 ≤ assocMass wt st.hyps (leftOut full kids) := mass_nonneg (leftOut_some hfull hsome) hw
  have k4 : List.Forall₂ (fun (x : Hyp K × List (Option ℕ)) (h' : Hyp K) =>
        h'.prob = wt x.1 x.2 / assocMass wt st.hyps kids ∧ IsUpdated st.tab st'.tab x.1 x.2 h')
        (familyPairs st.hyps kids) st'.hyps := by
    refine k3.imp ?_
    rintro x h' ⟨hx, hu⟩
    refine ⟨?_, hu⟩
    rw [k2] at hx
    exact (eq_div_iff hA.ne').2 hx
  refine ⟨hsome, k4, ?_, fun alt ha hl => mass_best hw hb ha hl⟩
  have hpos : ∀ x ∈ familyPairs st.hyps kids, 0 ≤ wt x.1 x.2 := by
    intro x hx
    obtain ⟨q1, q2⟩ := mem_pairs hsome x hx
    exact (hw _ q1 _ q2).le
  have hB : 0 < assocMass wt st.hyps full := by rw [hsplit]; linarith
  have hle : assocMass wt st.hyps kids ≤ assocMass wt st.hyps full := by rw [hsplit]; linarith
  have hsum : ((List.zip (familyPairs st.hyps kids) st'.hyps).map fun x =>
      |x.2.prob - wt x.1.1 x.1.2 / assocMass wt st.hyps full|).sum =
      assocMass wt st.hyps kids * (1 / assocMass wt st.hyps kids - 1 / assocMass wt st.hyps full) := by
    have hgen : ∀ (l : List (Hyp K × List (Option ℕ))) (l' : List (Hyp K)) (A B : K), 0 < A → A ≤ B →
        (∀ x ∈ l, 0 ≤ wt x.1 x.2) → List.Forall₂ (fun x h' => h'.prob = wt x.1 x.2 / A) l l' →
        ((List.zip l l').map fun x => |x.2.prob - wt x.1.1 x.1.2 / B|).sum =
          (l.map fun x => wt x.1 x.2).sum * (1 / A - 1 / B) := by
      intro l l' A B hA hAB h0 hf
      induction hf with
      | nil => simp
      | cons h1 _ ih =>
        rw [List.zip_cons_cons, List.map_cons, List.sum_cons, ih fun y hy => h0 y (List.mem_cons_of_mem _ hy), List.map_cons,
          List.sum_cons, h1, abs_of_nonneg, add_mul]
        · ring
        · rw [sub_nonneg]
          exact div_le_div_of_nonneg_left (h0 _ List.mem_cons_self) hA hAB
    exact hgen _ _ _ _ hA hle hpos (k4.imp fun _ _ hx => hx.1)
  rw [hsum]
  have e1 : assocMass wt st.hyps (leftOut full kids) = assocMass wt st.hyps full - assocMass wt st.hyps kids := by
    rw [hsplit]; ring
  rw [e1]
  have hA' := hA.ne'
  have hB' := hB.ne'
  field_simp
  ring

/-- **C99.** The error of the GLMB update is known and as small as possible. Let `full` list all associations of each
hypothesis. If `correct` leaves some hypothesis, then for the associations `kids` it keeps: the new weights are the Bayes
weights divided by the total weight of `kids`; the total variation from the exact posterior (the sum over the kept
associations of the difference between their new and their exact weight, plus the exact weight of those left out) is
`2 (1 - mass kids / mass full)`; and no choice of at most as many associations of each hypothesis has a larger mass, so
none has a smaller error. -/
theorem C99_truncation_error (env : Env K τ F S C Z) (pr : Params K)
    (hadd : ∀ x y, env.num.expNeg (x + y) = env.num.expNeg x * env.num.expNeg y)
    (hzero : env.num.expNeg 0 = 1) (hinv : ∀ x, 0 < x → env.num.expNeg (env.num.negLog x) = x)
    (hanti : ∀ x y, x ≤ y → env.num.expNeg y ≤ env.num.expNeg x) (hexp : ∀ x, 0 < env.num.expNeg x)
    (hsqrt : ∀ x, 0 ≤ env.num.sqrt x) (hκ : 0 < pr.clutterRate * pr.clutterDen) (st st' : St K τ F S C) (meas : List Z)
    (pd : ℕ → K) (lik : ℕ → ℕ → K)
    (hpd : ∀ (t : ℕ) (e : Entry K τ F S C), st.tab[t]? = some e → pd t = env.pdet e ∧ 0 < pd t ∧ pd t < 1)
    (hlik : ∀ (t : ℕ) (e : Entry K τ F S C) (j : ℕ) (z : Z), st.tab[t]? = some e → meas[j]? = some z →
      TrackLikelihood env pr.eps z e (lik t j) ∧ 0 < lik t j)
    (hidx : ∀ h ∈ st.hyps, ∀ i ∈ h.tracks, i < st.tab.length) (hp : ∀ h ∈ st.hyps, 0 < h.prob)
    (full : List (List (List (Option ℕ)))) (hfull : AllAssocs st.hyps meas.length full)
    (h : correct env pr meas st = .ok st') (hne : st'.hyps ≠ []) :
    let wt := bayesWeight env pr meas.length pd lik
    ∃ kids, SomeAssocs st.hyps meas.length kids ∧
      List.Forall₂ (fun (x : Hyp K × List (Option ℕ)) (h' : Hyp K) =>
        h'.prob = wt x.1 x.2 / assocMass wt st.hyps kids ∧ IsUpdated st.tab st'.tab x.1 x.2 h')
        (familyPairs st.hyps kids) st'.hyps ∧
      ((List.zip (familyPairs st.hyps kids) st'.hyps).map fun x =>
          |x.2.prob - wt x.1.1 x.1.2 / assocMass wt st.hyps full|).sum +
        assocMass wt st.hyps (leftOut full kids) / assocMass wt st.hyps full =
          2 * (1 - assocMass wt st.hyps kids / assocMass wt st.hyps full) ∧
      ∀ alt, SomeAssocs st.hyps meas.length alt → List.Forall₂ (fun as ks => as.length ≤ ks.length) alt kids →
        assocMass wt st.hyps alt ≤ assocMass wt st.hyps kids := by
  obtain ⟨Zc, hZ, kids, k1, k2, k3⟩ := C85_best_associations env pr hadd hzero hinv hanti hexp hsqrt
    st st' meas pd lik hpd hlik hidx (fun h hh => (hp h hh).le) h
  exact ⟨kids, truncation_core env pr hexp hκ st st' meas pd lik hpd hlik hidx hp full hfull hne
    (x := fun p => (pr.reqUpd : K) * env.num.sqrt p.prob / (st.hyps.map fun h => env.num.sqrt h.prob).sum) k1 k2 k3⟩

/-! A concrete case: one track and two measurements, over the reals. -/

theorem real_correct (R : ℕ) : ∃ st' : St ℝ ℝ Unit Unit Unit,
    correct (realEnv (some (1 / 2))) (realPr 1 1 R 1) [(), ()] (st1 0 (realBirth (9 / 10))) = .ok st' ∧ st'.card ≠ [] := by
  obtain ⟨st', hst, _, hc⟩ := correct_total (env := realEnv (some (1 / 2))) (pr := realPr 1 1 R 1) (by norm_num [realPr])
    (st := st1 0 (realBirth (9 / 10)))
    ⟨realEnv_exp _, fun x hx => Real.sqrt_pos.2 hx, fun e _ => .inr (.inr (by
      have h1 := realOdds
      have h2 : (realPr 1 1 R 1).eps = 1 / 2 ^ 52 := rfl
      have h3 : (realEnv (some (1 / 2))).psurv e = 9 / 10 := rfl
      rw [h3, h2]
      change _ ≤ |realNum.negLog _|
      rw [abs_of_nonpos (h1.trans (by norm_num))]
      linarith)), fun e _ => by norm_num [realEnv], fun e _ => by norm_num [realEnv], by
      intro e _ f _ z s w x hx
      simp only [realEnv, Option.map_some, Option.some.injEq] at hx
      subst hx
      norm_num, realArgsort⟩ (by norm_num [realPr]) [(), ()] st1_tinv (by
        intro e he
        simp only [st1, birthTab, List.zipIdx_cons, List.zipIdx_nil, List.map_cons, List.map_nil, List.mem_singleton] at he
        subst he
        simp [st1])
  exact ⟨st', hst, hc⟩

theorem real_lik (R : ℕ) (t : ℕ) (e : Entry ℝ ℝ Unit Unit Unit) (j : ℕ) (z : Unit)
    (he : (st1 (0 : ℝ) (realBirth (9 / 10))).tab[t]? = some e) (_ : [(), ()][j]? = some z) :
    TrackLikelihood (realEnv (some (1 / 2))) (realPr 1 1 R 1).eps z e (1 / 2 + 1 / 2 ^ 52) ∧ (0 : ℝ) < 1 / 2 + 1 / 2 ^ 52 := by
  have : e ∈ (st1 (0 : ℝ) (realBirth (9 / 10))).tab := List.mem_of_getElem? he
  simp only [st1, birthTab, List.zipIdx_cons, List.zipIdx_nil, List.map_cons, List.map_nil, List.mem_singleton] at this
  subst this
  refine ⟨⟨[()], [1], [((), (), (), 1 / 2)], rfl, rfl, .cons rfl .nil, ?_⟩, by norm_num⟩
  simp [realPr]

theorem real_all : AllAssocs (st1 (0 : ℝ) (realBirth (9 / 10))).hyps 2 [[[none], [some 0], [some 1]]] := by
  refine .cons ⟨by decide, fun a => ?_⟩ .nil
  simp only [List.mem_cons, List.not_mem_nil, or_false]
  constructor
  · rintro (rfl | rfl | rfl) <;>
    · refine ⟨rfl, by simp, ?_⟩
      intro i i' j h1 h2
      rw [List.getElem?_eq_some_iff] at h1 h2
      obtain ⟨h1, _⟩ := h1
      obtain ⟨h2, _⟩ := h2
      simp only [List.length_cons, List.length_nil] at h1 h2
      omega
  · rintro ⟨h1, h2, _⟩
    obtain ⟨o, rfl⟩ := List.length_eq_one_iff.1 h1
    cases o with
    | none => exact .inl rfl
    | some j =>
      have := h2 j (List.mem_singleton.2 rfl)
      have hj : j = 0 ∨ j = 1 := by omega
      rcases hj with rfl | rfl
      · exact .inr (.inl rfl)
      · exact .inr (.inr rfl)

/-- The conditions of C98 can be met: `correct` succeeds for every number of requested updates, and from some number on the
three associations have their exact weights. -/
example : ∃ R0, ∀ R, R0 ≤ R → ∃ st', correct (realEnv (some (1 / 2))) (realPr 1 1 R 1) [(), ()]
    (st1 0 (realBirth (9 / 10))) = .ok st' ∧ st'.hyps.length = 3 := by
  obtain ⟨R0, hR⟩ := C98_update_exact (realEnv (some (1 / 2))) (realPr 1 1 0 1) realNum_add (by simp [realNum, realEnv])
    (fun x hx => by simp only [realEnv, realNum, neg_neg]; exact Real.exp_log hx)
    (fun x y hxy => Real.exp_le_exp.2 (by linarith)) (realEnv_exp _) (fun x => Real.sqrt_nonneg x)
    (fun x hx => Real.sqrt_pos.2 hx) (st1 0 (realBirth (9 / 10))) [(), ()]
    (fun _ => 9 / 10) (fun _ _ => 1 / 2 + 1 / 2 ^ 52) (fun t e _ => ⟨rfl, by norm_num, by norm_num⟩)
    (real_lik 0) st1_tinv.idx.range st1_tinv.pos
  refine ⟨R0, fun R h => ?_⟩
  obtain ⟨st', hst, _⟩ := real_correct R
  refine ⟨st', hst, ?_⟩
  obtain ⟨kids, k1, k2⟩ := hR R h st' hst
  rw [← k2.length_eq]
  have hf := real_all
  rw [show (st1 (0 : ℝ) (realBirth (9 / 10))).hyps = [⟨1, [0]⟩] from rfl] at k1 hf ⊢
  cases k1 with
  | cons h1 h2 =>
    cases h2
    cases hf with
    | cons h3 _ =>
      have hp := (List.perm_ext_iff_of_nodup h1.1 h3.1).2 fun a => (h1.2 a).trans (h3.2 a).symm
      simp [familyPairs, hp.length_eq]

theorem real_one {st' : St ℝ ℝ Unit Unit Unit} (hst : correct (realEnv (some (1 / 2))) (realPr 1 1 1 1) [(), ()]
    (st1 0 (realBirth (9 / 10))) = .ok st') : st'.hyps.length = 1 := by
  obtain ⟨Zc, _, kids, k1, -, k2⟩ := C85_best_associations _ _ realNum_add (by simp [realNum, realEnv])
    (fun x hx => by simp only [realEnv, realNum, neg_neg]; exact Real.exp_log hx)
    (fun x y hxy => Real.exp_le_exp.2 (by linarith)) (realEnv_exp _) (fun x => Real.sqrt_nonneg x) _ st' _
    (fun _ => 9 / 10) (fun _ _ => 1 / 2 + 1 / 2 ^ 52) (fun t e _ => ⟨rfl, by norm_num, by norm_num⟩)
    (real_lik 1) st1_tinv.idx.range (fun h hh => (st1_tinv.pos h hh).le) hst
  have hf := real_all
  rw [show (st1 (0 : ℝ) (realBirth (9 / 10))).hyps = [⟨1, [0]⟩] from rfl] at k1 k2 hf
  cases k1 with
  | cons h1 h2 =>
    rename_i ks rest
    cases h2
    rw [if_neg (by simp)] at h1
    obtain ⟨k, hk, q1, q2, q3, q4, q5⟩ := h1
    have hk1 : k = 1 := by
      have hs : (realEnv (some (1 / 2))).num.sqrt 1 = 1 := Real.sqrt_one
      simp only [List.map_cons, List.map_nil, List.sum_cons, List.sum_nil, add_zero] at hk
      rw [hs, show (realPr 1 1 1 1).reqUpd = 1 from rfl, abs_le] at hk
      norm_num at hk
      have a1 : (0 : ℝ) < k := by linarith [hk.1]
      have a2 : (k : ℝ) < 2 := by linarith [hk.2]
      have b1 : 0 < k := by exact_mod_cast a1
      have b2 : k < 2 := by exact_mod_cast a2
      omega
    have hlen : ks.length = 1 := by
      by_contra hne
      have h0 : ks = [] := by
        rw [← List.length_eq_zero_iff]
        omega
      cases hf with
      | cons h3 _ =>
        have := (q5 [none] ((h3.2 _).1 (by simp)) (by rw [h0]; simp)).1
        omega
    rw [← k2.length_eq]
    simp [familyPairs, hlen]

/-- The conditions of C99 can be met with a truncated update: of three associations one is kept, and the error is the
formula of C99 for it. -/
example : ∃ (st' : St ℝ ℝ Unit Unit Unit) (a : List (Option ℕ)), correct (realEnv (some (1 / 2))) (realPr 1 1 1 1) [(), ()]
    (st1 0 (realBirth (9 / 10))) = .ok st' ∧ st'.hyps.length = 1 ∧
    ∀ wt : Hyp ℝ → List (Option ℕ) → ℝ, wt = bayesWeight (realEnv (some (1 / 2))) (realPr 1 1 1 1) 2 (fun _ => 9 / 10)
      (fun _ _ => 1 / 2 + 1 / 2 ^ 52) → wt ⟨1, [0]⟩ [none] ≤ wt ⟨1, [0]⟩ a := by
  obtain ⟨st', hst, _⟩ := real_correct 1
  have h1 := real_one hst
  obtain ⟨kids, k1, k2, -, k4⟩ := C99_truncation_error (realEnv (some (1 / 2))) (realPr 1 1 1 1) realNum_add
    (by simp [realNum, realEnv])
    (fun x hx => by simp only [realEnv, realNum, neg_neg]; exact Real.exp_log hx)
    (fun x y hxy => Real.exp_le_exp.2 (by linarith)) (realEnv_exp _) (fun x => Real.sqrt_nonneg x)
    (by norm_num [realPr]) (st1 0 (realBirth (9 / 10))) st' [(), ()]
    (fun _ => 9 / 10) (fun _ _ => 1 / 2 + 1 / 2 ^ 52) (fun t e _ => ⟨rfl, by norm_num, by norm_num⟩)
    (real_lik 1) st1_tinv.idx.range st1_tinv.pos _ real_all hst (by
      intro h
      rw [h] at h1
      simp at h1)
  have hf := real_all
  rw [show (st1 (0 : ℝ) (realBirth (9 / 10))).hyps = [⟨1, [0]⟩] from rfl] at k1 k2 k4 hf
  cases k1 with
  | cons q1 q2 =>
    rename_i ks rest
    cases q2
    have hl := k2.length_eq
    rw [h1] at hl
    have hks : ks.length = 1 := by simpa [familyPairs] using hl
    obtain ⟨a, rfl⟩ := List.length_eq_one_iff.1 hks
    refine ⟨st', a, hst, h1, ?_⟩
    rintro wt rfl
    cases hf with
    | cons h3 _ =>
      have := k4 [[[none]]] (.cons ⟨List.nodup_singleton _, fun b hb => (h3.2 b).1 (by
        rw [List.mem_singleton] at hb
        subst hb
        simp)⟩ .nil) (.cons (by simp) .nil)
      simpa [assocMass, familyPairs] using this

end Gasur.Props
