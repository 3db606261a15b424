import Verif.Proofs.AssignInit
import Verif.Spec.Assign

/-! # Optimality of `assign_opt` -/

set_option linter.unusedSectionVars false
set_option linter.unusedSimpArgs false

namespace Gasur.Assign

variable {K : Type*} {r c : ℕ}

/-- A set of (row, column) pairs with no row and no column used twice. -/
structure IsMatch (M : Finset (Fin r × Fin c)) : Prop where
  row : ∀ p ∈ M, ∀ q ∈ M, p.1 = q.1 → p = q
  col : ∀ p ∈ M, ∀ q ∈ M, p.2 = q.2 → p = q

theorem IsMatch.card_row {M : Finset (Fin r × Fin c)} (h : IsMatch M) :
    (M.image Prod.fst).card = M.card :=
  Finset.card_image_of_injOn (fun p hp q hq hpq => h.row p hp q hq hpq)

theorem IsMatch.card_col {M : Finset (Fin r × Fin c)} (h : IsMatch M) :
    (M.image Prod.snd).card = M.card :=
  Finset.card_image_of_injOn (fun p hp q hq hpq => h.col p hp q hq hpq)

theorem IsMatch.card_le {M : Finset (Fin r × Fin c)} (h : IsMatch M) : M.card ≤ minDim r c := by
  have h1 : M.card ≤ r := by
    rw [← h.card_row]; simpa using Finset.card_le_univ (M.image Prod.fst)
  have h2 : M.card ≤ c := by
    rw [← h.card_col]; simpa using Finset.card_le_univ (M.image Prod.snd)
  unfold minDim; split <;> assumption

/-- Every matching extends to one with as many pairs as the shorter side. -/
theorem IsMatch.extend : ∀ (n : ℕ) (M : Finset (Fin r × Fin c)), IsMatch M →
    M.card + n = minDim r c → ∃ M', M ⊆ M' ∧ IsMatch M' ∧ M'.card = minDim r c := by
  intro n
  induction n with
  | zero => intro M h hc; exact ⟨M, Finset.Subset.refl _, h, by omega⟩
  | succ n ih =>
    intro M h hc
    have hr : minDim r c ≤ r := by unfold minDim; split <;> omega
    have hcc : minDim r c ≤ c := by unfold minDim; split <;> omega
    have h1 : ∃ i, i ∉ M.image Prod.fst := by
      by_contra hcon
      push Not at hcon
      have : M.image Prod.fst = Finset.univ := Finset.eq_univ_iff_forall.2 hcon
      have h2 := h.card_row
      rw [this] at h2
      simp at h2
      omega
    have h2 : ∃ j, j ∉ M.image Prod.snd := by
      by_contra hcon
      push Not at hcon
      have : M.image Prod.snd = Finset.univ := Finset.eq_univ_iff_forall.2 hcon
      have h2 := h.card_col
      rw [this] at h2
      simp at h2
      omega
    obtain ⟨i, hi⟩ := h1
    obtain ⟨j, hj⟩ := h2
    have hi' : ∀ p ∈ M, p.1 ≠ i := fun p hp he => hi (Finset.mem_image.2 ⟨p, hp, he⟩)
    have hj' : ∀ p ∈ M, p.2 ≠ j := fun p hp he => hj (Finset.mem_image.2 ⟨p, hp, he⟩)
    have hnot : (i, j) ∉ M := fun hp => hi' _ hp rfl
    obtain ⟨M', hs, hm, hcard⟩ := ih (insert (i, j) M) ⟨by
        intro p hp q hq hpq
        rcases Finset.mem_insert.1 hp with rfl | hp
        · rcases Finset.mem_insert.1 hq with rfl | hq
          · rfl
          · exact absurd hpq.symm (hi' q hq)
        · rcases Finset.mem_insert.1 hq with rfl | hq
          · exact absurd hpq (hi' p hp)
          · exact h.row p hp q hq hpq, by
        intro p hp q hq hpq
        rcases Finset.mem_insert.1 hp with rfl | hp
        · rcases Finset.mem_insert.1 hq with rfl | hq
          · rfl
          · exact absurd hpq.symm (hj' q hq)
        · rcases Finset.mem_insert.1 hq with rfl | hq
          · exact absurd hpq (hj' p hp)
          · exact h.col p hp q hq hpq⟩ (by
        rw [Finset.card_insert_of_notMem hnot]; omega)
    exact ⟨M', fun p hp => hs (Finset.mem_insert_of_mem hp), hm, hcard⟩

variable [CommRing K] [LinearOrder K] [IsStrictOrderedRing K]

/-- The starred pairs. -/
def starSet (s : St K r c) : Finset (Fin r × Fin c) :=
  Finset.univ.filter fun p => s.star p.1 p.2 = true

omit [IsStrictOrderedRing K] in
theorem mem_starSet {s : St K r c} {p : Fin r × Fin c} :
    p ∈ starSet s ↔ s.star p.1 p.2 = true := by simp [starSet]

omit [IsStrictOrderedRing K] in
theorem starSet_match {s : St K r c} (h : Core s) : IsMatch (starSet s) := by
  constructor
  · rintro ⟨a, b⟩ hp ⟨a', b'⟩ hq hpq
    rw [mem_starSet] at hp hq
    simp only at hp hq hpq
    subst hpq
    rw [h.rowU a b b' hp hq]
  · rintro ⟨a, b⟩ hp ⟨a', b'⟩ hq hpq
    rw [mem_starSet] at hp hq
    simp only at hp hq hpq
    subst hpq
    rw [h.colU a a' b hp hq]

omit [IsStrictOrderedRing K] in
theorem starSet_card {s : St K r c} (h : Core s) : (starSet s).card = nStar s := by
  rw [← (starSet_match h).card_col]
  unfold nStar
  congr 1
  ext j
  simp [mem_starSet]

/-- LP duality: a full set of independent zeros is a cheapest matching of maximal size. -/
theorem dual_optimal {w : Fin r → Fin c → K} {s : St K r c} (h : Core s) (hd : Dual w s)
    (hn : nStar s = minDim r c) {M : Finset (Fin r × Fin c)} (hM : IsMatch M)
    (hc : M.card = minDim r c) :
    ∑ p ∈ starSet s, w p.1 p.2 ≤ ∑ p ∈ M, w p.1 p.2 := by
  obtain ⟨u, v, h1, h2, h3⟩ := hd
  have hS := starSet_match h
  have hSc : (starSet s).card = minDim r c := by rw [starSet_card h, hn]
  have hw : ∀ i j, w i j = s.dist i j + (u i + v j) := by
    intro i j; rw [h1 i j]; ring
  have e1 : ∑ p ∈ starSet s, w p.1 p.2 = ∑ p ∈ starSet s, (u p.1 + v p.2) := by
    apply Finset.sum_congr rfl
    intro p hp
    rw [hw, h.zero p.1 p.2 (mem_starSet.1 hp), zero_add]
  have e2 : ∑ p ∈ M, (u p.1 + v p.2) ≤ ∑ p ∈ M, w p.1 p.2 := by
    apply Finset.sum_le_sum
    intro p _
    rw [hw]
    have := h.nonneg p.1 p.2
    linarith
  rw [e1]
  refine le_trans ?_ e2
  have sumU : ∀ {N : Finset (Fin r × Fin c)}, IsMatch N →
      ∑ p ∈ N, u p.1 = ∑ i ∈ N.image Prod.fst, u i := by
    intro N hN
    rw [Finset.sum_image (fun p hp q hq hpq => hN.row p hp q hq hpq)]
  have sumV : ∀ {N : Finset (Fin r × Fin c)}, IsMatch N →
      ∑ p ∈ N, v p.2 = ∑ j ∈ N.image Prod.snd, v j := by
    intro N hN
    rw [Finset.sum_image (fun p hp q hq hpq => hN.col p hp q hq hpq)]
  rw [Finset.sum_add_distrib, Finset.sum_add_distrib, sumU hS, sumU hM, sumV hS, sumV hM]
  by_cases hrc : r ≤ c
  · have hmd : minDim r c = r := by unfold minDim; rw [if_pos hrc]
    have full : ∀ {N : Finset (Fin r × Fin c)}, IsMatch N → N.card = minDim r c →
        N.image Prod.fst = Finset.univ := by
      intro N hN hNc
      apply Finset.eq_univ_of_card
      rw [hN.card_row, hNc, hmd]; simp
    rw [full hS hSc, full hM hc]
    have hv := h2 hrc
    have a1 : ∑ j ∈ (starSet s).image Prod.snd, v j = ∑ j, v j := by
      apply Finset.sum_subset (Finset.subset_univ _)
      intro j _ hj
      rcases (hv j).2 with h0 | ⟨i, hi⟩
      · exact h0
      · exact absurd (Finset.mem_image.2 ⟨(i, j), mem_starSet.2 hi, rfl⟩) hj
    have a2 : ∑ j, v j ≤ ∑ j ∈ M.image Prod.snd, v j := by
      rw [← Finset.sum_sdiff (Finset.subset_univ (M.image Prod.snd))]
      have : ∑ j ∈ Finset.univ \ M.image Prod.snd, v j ≤ 0 :=
        Finset.sum_nonpos (fun j _ => (hv j).1)
      linarith
    linarith
  · have hmd : minDim r c = c := by unfold minDim; rw [if_neg hrc]
    have full : ∀ {N : Finset (Fin r × Fin c)}, IsMatch N → N.card = minDim r c →
        N.image Prod.snd = Finset.univ := by
      intro N hN hNc
      apply Finset.eq_univ_of_card
      rw [hN.card_col, hNc, hmd]; simp
    rw [full hS hSc, full hM hc]
    have hv := h3 hrc
    have a1 : ∑ i ∈ (starSet s).image Prod.fst, u i = ∑ i, u i := by
      apply Finset.sum_subset (Finset.subset_univ _)
      intro i _ hi
      rcases (hv i).2 with h0 | ⟨j, hj⟩
      · exact h0
      · exact absurd (Finset.mem_image.2 ⟨(i, j), mem_starSet.2 hj, rfl⟩) hi
    have a2 : ∑ i, u i ≤ ∑ i ∈ M.image Prod.fst, u i := by
      rw [← Finset.sum_sdiff (Finset.subset_univ (M.image Prod.fst))]
      have : ∑ i ∈ Finset.univ \ M.image Prod.fst, u i ≤ 0 :=
        Finset.sum_nonpos (fun i _ => (hv i).1)
      linarith
    linarith

/-! ### The substitute for infinity -/

theorem mem_finiteEntries {D : Fin r → Fin c → WithTop K} {i j} {x : K} (h : D i j = (x : WithTop K)) :
    x ∈ finiteEntries D := by
  unfold finiteEntries
  rw [List.mem_flatMap]
  refine ⟨i, List.mem_finRange i, ?_⟩
  rw [List.mem_filterMap]
  refine ⟨j, List.mem_finRange j, ?_⟩
  rw [h]

/-- The largest finite entry. -/
def maxFin (D : Fin r → Fin c → WithTop K) : K := listMax (finiteEntries D)

theorem fillInf_coe {D : Fin r → Fin c → WithTop K} {i j} {x : K} (h : D i j = (x : WithTop K)) :
    fillInf D i j = x := by
  unfold fillInf; rw [h]

theorem fillInf_top {D : Fin r → Fin c → WithTop K} {i j} (h : D i j = ⊤) :
    fillInf D i j = infVal D := by
  unfold fillInf; rw [h]

theorem infVal_big {D : Fin r → Fin c → WithTop K} (hm : 0 ≤ maxFin D) (hr : 0 < r) (hc : 0 < c) :
    maxFin D ≤ infVal D ∧ (minDim r c : K) * maxFin D < infVal D := by
  have hr1 : (1 : K) ≤ (r : K) := by exact_mod_cast hr
  have hc1 : (1 : K) ≤ (c : K) := by exact_mod_cast hc
  have hk : (minDim r c : K) ≤ (r : K) := by
    have : minDim r c ≤ r := by unfold minDim; split <;> omega
    exact_mod_cast this
  unfold infVal
  simp only
  change _ ∧ _ < _
  by_cases h0 : 0 < listMax (finiteEntries D)
  · rw [if_pos h0]
    change maxFin D ≤ 10 * maxFin D * r * c ∧ _ < 10 * maxFin D * r * c
    have h0' : 0 < maxFin D := h0
    have e1 : maxFin D * (r : K) ≤ maxFin D * r * c := by
      have : 0 ≤ maxFin D * (r : K) := mul_nonneg hm (by linarith)
      calc maxFin D * (r : K) = maxFin D * r * 1 := by ring
        _ ≤ maxFin D * r * c := mul_le_mul_of_nonneg_left hc1 this
    have e2 : maxFin D ≤ maxFin D * (r : K) := by
      calc maxFin D = maxFin D * 1 := by ring
        _ ≤ _ := mul_le_mul_of_nonneg_left hr1 hm
    have e3 : (minDim r c : K) * maxFin D ≤ maxFin D * r := by
      rw [mul_comm]; exact mul_le_mul_of_nonneg_left hk hm
    constructor
    · nlinarith
    · nlinarith
  · rw [if_neg h0]
    have : maxFin D = 0 := le_antisymm (not_lt.1 h0) hm
    rw [this]
    constructor
    · norm_num
    · rw [mul_zero]; norm_num

/-- From a cheapest full matching of the filled matrix to the best finite part. -/
theorem finite_part_optimal {D : Fin r → Fin c → WithTop K}
    (hnn : ∀ i j, 0 ≤ D i j) (hr : 0 < r) (hc : 0 < c) (hm : 0 ≤ maxFin D)
    {S : Finset (Fin r × Fin c)} (hS : IsMatch S) (hSc : S.card = minDim r c)
    (hopt : ∀ M, IsMatch M → M.card = minDim r c →
      ∑ p ∈ S, fillInf D p.1 p.2 ≤ ∑ p ∈ M, fillInf D p.1 p.2)
    {B : Finset (Fin r × Fin c)} (hB : IsMatch B) (hBf : ∀ p ∈ B, D p.1 p.2 ≠ ⊤) :
    B.card ≤ (S.filter fun p => D p.1 p.2 ≠ ⊤).card ∧
    (B.card = (S.filter fun p => D p.1 p.2 ≠ ⊤).card →
      ∑ p ∈ S.filter (fun p => D p.1 p.2 ≠ ⊤), (D p.1 p.2).untopD 0 ≤
        ∑ p ∈ B, (D p.1 p.2).untopD 0) := by
  obtain ⟨M, hBM, hM, hMc⟩ := IsMatch.extend (minDim r c - B.card) B hB (by have := hB.card_le; omega)
  obtain ⟨hL1, hL2⟩ := infVal_big hm hr hc
  generalize hLdef : infVal D = L at hL1 hL2
  have hentry : ∀ p : Fin r × Fin c, D p.1 p.2 ≠ ⊤ →
      fillInf D p.1 p.2 = (D p.1 p.2).untopD 0 ∧ 0 ≤ (D p.1 p.2).untopD 0 ∧
        (D p.1 p.2).untopD 0 ≤ maxFin D := by
    intro p hp
    obtain ⟨x, hx⟩ := WithTop.ne_top_iff_exists.1 hp
    have h0 := hnn p.1 p.2
    rw [← hx] at h0
    rw [fillInf_coe hx.symm, ← hx]
    refine ⟨rfl, WithTop.coe_le_coe.1 h0, le_listMax (mem_finiteEntries hx.symm)⟩
  have hle : ∀ p : Fin r × Fin c, fillInf D p.1 p.2 ≤ L := by
    intro p
    by_cases hp : D p.1 p.2 = ⊤
    · rw [fillInf_top hp, hLdef]
    · obtain ⟨h1, h2, h3⟩ := hentry p hp
      rw [h1]; linarith
  set F := S.filter fun p => D p.1 p.2 ≠ ⊤ with hF
  have hFc : F.card ≤ minDim r c := by rw [← hSc]; exact Finset.card_filter_le _ _
  have hBc := hB.card_le
  -- cost of S
  have hSsum : ∑ p ∈ S, fillInf D p.1 p.2 =
      ∑ p ∈ F, (D p.1 p.2).untopD 0 + ((minDim r c : K) - (F.card : K)) * L := by
    rw [← Finset.sum_filter_add_sum_filter_not S (fun p => D p.1 p.2 ≠ ⊤)]
    congr 1
    · apply Finset.sum_congr rfl
      intro p hp
      exact (hentry p (Finset.mem_filter.1 hp).2).1
    · have : ∀ p ∈ S.filter (fun p => ¬ D p.1 p.2 ≠ ⊤), fillInf D p.1 p.2 = L := by
        intro p hp
        have := (Finset.mem_filter.1 hp).2
        rw [fillInf_top (not_not.1 this), hLdef]
      rw [Finset.sum_congr rfl this, Finset.sum_const, nsmul_eq_mul]
      congr 1
      have hsplit := Finset.card_filter_add_card_filter_not (s := S) (fun p => D p.1 p.2 ≠ ⊤)
      rw [hSc] at hsplit
      have : ((minDim r c : ℕ) : K) = (F.card : K) + ((S.filter fun p => ¬ D p.1 p.2 ≠ ⊤).card : K) := by
        rw [← hsplit]; push_cast; rfl
      rw [this]; ring
  -- cost of M
  have hMsum : ∑ p ∈ M, fillInf D p.1 p.2 ≤
      ∑ p ∈ B, (D p.1 p.2).untopD 0 + ((minDim r c : K) - (B.card : K)) * L := by
    rw [← Finset.sum_sdiff hBM, add_comm]
    have h1 : ∑ p ∈ B, fillInf D p.1 p.2 = ∑ p ∈ B, (D p.1 p.2).untopD 0 :=
      Finset.sum_congr rfl (fun p hp => (hentry p (hBf p hp)).1)
    have h2 : ∑ p ∈ M \ B, fillInf D p.1 p.2 ≤ ((minDim r c : K) - (B.card : K)) * L := by
      have h3 : ∑ p ∈ M \ B, fillInf D p.1 p.2 ≤ ∑ p ∈ M \ B, L :=
        Finset.sum_le_sum (fun p _ => hle p)
      rw [Finset.sum_const, nsmul_eq_mul] at h3
      have h4 : (((M \ B).card : ℕ) : K) = (minDim r c : K) - (B.card : K) := by
        rw [Finset.card_sdiff_of_subset hBM, hMc, Nat.cast_sub hBc]
      rwa [h4] at h3
    linarith
  have hcmp := hopt M hM hMc
  rw [hSsum] at hcmp
  have hcmp2 := le_trans hcmp hMsum
  have hF0 : 0 ≤ ∑ p ∈ F, (D p.1 p.2).untopD 0 :=
    Finset.sum_nonneg (fun p hp => (hentry p (Finset.mem_filter.1 hp).2).2.1)
  have hBm : ∑ p ∈ B, (D p.1 p.2).untopD 0 ≤ (B.card : K) * maxFin D := by
    have : ∑ p ∈ B, (D p.1 p.2).untopD 0 ≤ ∑ p ∈ B, maxFin D :=
      Finset.sum_le_sum (fun p hp => (hentry p (hBf p hp)).2.2)
    rwa [Finset.sum_const, nsmul_eq_mul] at this
  have hLpos : 0 ≤ L := le_trans hm hL1
  refine ⟨?_, ?_⟩
  · by_contra hcon
    have h1 : (F.card : K) + 1 ≤ (B.card : K) := by
      have : F.card + 1 ≤ B.card := by omega
      exact_mod_cast this
    have h2 : (B.card : K) * maxFin D ≤ (minDim r c : K) * maxFin D :=
      mul_le_mul_of_nonneg_right (by exact_mod_cast hBc) hm
    have h3 : ((F.card : K) + 1) * L ≤ (B.card : K) * L := mul_le_mul_of_nonneg_right h1 hLpos
    nlinarith
  · intro heq
    have : (B.card : K) = (F.card : K) := by rw [heq]
    rw [this] at hcmp2
    linarith

end Gasur.Assign
