import Verif.Proofs.AssignLoop
import Mathlib.Combinatorics.Enumerative.DoubleCounting
import Mathlib.Algebra.BigOperators.Fin
import Mathlib.Algebra.Order.BigOperators.Group.Finset

/-! # Steps 5, 2b and the main recursion of `assign_opt`: invariant and termination -/

set_option linter.unusedSectionVars false
set_option linter.unusedSimpArgs false

namespace Gasur.Assign

variable {K : Type*} {r c : ℕ} [CommRing K] [LinearOrder K]

/-- Dual potentials with complementary slackness on the longer side. -/
def Dual (w : Fin r → Fin c → K) (s : St K r c) : Prop :=
  ∃ (u : Fin r → K) (v : Fin c → K), (∀ i j, s.dist i j = w i j - u i - v j) ∧
    (r ≤ c → ∀ j, v j ≤ 0 ∧ (v j = 0 ∨ ∃ i, s.star i j = true)) ∧
    (¬ r ≤ c → ∀ i, u i ≤ 0 ∧ (u i = 0 ∨ ∃ j, s.star i j = true))

theorem Dual.congr {w : Fin r → Fin c → K} {s s' : St K r c} (h : Dual w s)
    (hd : s'.dist = s.dist)
    (hr : ∀ a b, s.star a b = true → ∃ k, s'.star a k = true)
    (hc : ∀ a b, s.star a b = true → ∃ k, s'.star k b = true) : Dual w s' := by
  obtain ⟨u, v, h1, h2, h3⟩ := h
  refine ⟨u, v, by rw [hd]; exact h1, ?_, ?_⟩
  · intro hrc j
    obtain ⟨h4, h5⟩ := h2 hrc j
    refine ⟨h4, h5.imp id ?_⟩
    rintro ⟨i, hi⟩; exact hc i j hi
  · intro hrc i
    obtain ⟨h4, h5⟩ := h3 hrc i
    refine ⟨h4, h5.imp id ?_⟩
    rintro ⟨j, hj⟩; exact hr i j hj

section H

omit [CommRing K] in
/-- inner loop of step 5 -/
theorem step5_inner (s : St K r c) (i : Fin r) (hR : s.covR i = false) :
    ∀ (js : List (Fin c)) (h0 : WithTop K),
      let h := js.foldl (fun h j => if s.covC j then h
        else if (s.dist i j : WithTop K) < h then (s.dist i j : WithTop K) else h) h0
      h ≤ h0 ∧ (∀ j ∈ js, s.covC j = false → h ≤ (s.dist i j : WithTop K)) ∧
      (h = h0 ∨ ∃ a b, s.covR a = false ∧ s.covC b = false ∧ h = (s.dist a b : WithTop K)) := by
  intro js
  induction js with
  | nil => intro h0; simp
  | cons j js ih =>
    intro h0
    simp only [List.foldl_cons]
    by_cases hC : s.covC j = true
    · simp only [hC, if_true]
      obtain ⟨h1, h2, h3⟩ := ih h0
      refine ⟨h1, ?_, h3⟩
      intro b hb hbc
      rcases List.mem_cons.1 hb with rfl | hb
      · simp [hC] at hbc
      · exact h2 b hb hbc
    · have hC' : s.covC j = false := by simpa using hC
      simp only [hC', Bool.false_eq_true, if_false]
      by_cases hlt : (s.dist i j : WithTop K) < h0
      · simp only [hlt, if_true]
        obtain ⟨h1, h2, h3⟩ := ih (s.dist i j : WithTop K)
        refine ⟨le_trans h1 hlt.le, ?_, Or.inr ?_⟩
        · intro b hb hbc
          rcases List.mem_cons.1 hb with rfl | hb
          · exact h1
          · exact h2 b hb hbc
        · rcases h3 with h3 | h3
          · exact ⟨i, j, hR, hC', h3⟩
          · exact h3
      · simp only [hlt, if_false]
        obtain ⟨h1, h2, h3⟩ := ih h0
        refine ⟨h1, ?_, h3⟩
        intro b hb hbc
        rcases List.mem_cons.1 hb with rfl | hb
        · exact le_trans h1 (not_lt.1 hlt)
        · exact h2 b hb hbc

omit [CommRing K] in
theorem step5_outer (s : St K r c) :
    ∀ (is : List (Fin r)) (h0 : WithTop K),
      let h := is.foldl (fun h i => if s.covR i then h
        else (List.finRange c).foldl (fun h j => if s.covC j then h
          else if (s.dist i j : WithTop K) < h then (s.dist i j : WithTop K) else h) h) h0
      h ≤ h0 ∧ (∀ i ∈ is, s.covR i = false → ∀ j, s.covC j = false →
        h ≤ (s.dist i j : WithTop K)) ∧
      (h = h0 ∨ ∃ a b, s.covR a = false ∧ s.covC b = false ∧ h = (s.dist a b : WithTop K)) := by
  intro is
  induction is with
  | nil => intro h0; simp
  | cons i is ih =>
    intro h0
    simp only [List.foldl_cons]
    by_cases hR : s.covR i = true
    · simp only [hR, if_true]
      obtain ⟨h1, h2, h3⟩ := ih h0
      refine ⟨h1, ?_, h3⟩
      intro b hb hbc
      rcases List.mem_cons.1 hb with rfl | hb
      · simp [hR] at hbc
      · exact h2 b hb hbc
    · have hR' : s.covR i = false := by simpa using hR
      simp only [hR', Bool.false_eq_true, if_false]
      obtain ⟨g1, g2, g3⟩ := step5_inner s i hR' (List.finRange c) h0
      generalize (List.finRange c).foldl (fun h j => if s.covC j then h
          else if (s.dist i j : WithTop K) < h then (s.dist i j : WithTop K) else h) h0 = h1 at g1 g2 g3 ⊢
      obtain ⟨k1, k2, k3⟩ := ih h1
      refine ⟨le_trans k1 g1, ?_, ?_⟩
      · intro b hb hbc j hj
        rcases List.mem_cons.1 hb with rfl | hb
        · exact le_trans k1 (g2 j (List.mem_finRange j) hj)
        · exact k2 b hb hbc j hj
      · rcases k3 with k3 | k3
        · rw [k3]; exact g3
        · exact Or.inr k3

theorem step5H_spec (s : St K r c) (hex : ∃ i j, s.covR i = false ∧ s.covC j = false) :
    ∃ h : K, step5H s = (h : WithTop K) ∧
      (∀ i j, s.covR i = false → s.covC j = false → h ≤ s.dist i j) ∧
      ∃ i j, s.covR i = false ∧ s.covC j = false ∧ s.dist i j = h := by
  obtain ⟨_, h2, h3⟩ := step5_outer s (List.finRange r) ⊤
  have hdef : step5H s = (List.finRange r).foldl (fun h i => if s.covR i then h
        else (List.finRange c).foldl (fun h j => if s.covC j then h
          else if (s.dist i j : WithTop K) < h then (s.dist i j : WithTop K) else h) h) ⊤ := rfl
  rw [← hdef] at h2 h3
  obtain ⟨i0, j0, hi0, hj0⟩ := hex
  have hle := h2 i0 (List.mem_finRange _) hi0 j0 hj0
  rcases h3 with h3 | ⟨a, b, ha, hb, hab⟩
  · rw [h3] at hle; exact absurd hle (by simp)
  · refine ⟨s.dist a b, hab, ?_, a, b, ha, hb, rfl⟩
    intro i j hi hj
    have := h2 i (List.mem_finRange _) hi j hj
    rw [hab] at this
    exact WithTop.coe_le_coe.1 this

end H

/-- There is an uncovered zero. -/
def HasZero (s : St K r c) : Prop :=
  ∃ i j, s.covR i = false ∧ s.covC j = false ∧ s.dist i j = 0

variable [IsStrictOrderedRing K]

theorem step5_spec {w : Fin r → Fin c → K} {s : St K r c} (h : Core s) (hd : Dual w s)
    (hex : ∃ i j, s.covR i = false ∧ s.covC j = false) :
    ∃ s', step5 s = .ok s' ∧ Core s' ∧ Dual w s' ∧ HasZero s' ∧ nR s' = nR s ∧
      nStar s' = nStar s := by
  obtain ⟨e, he, hmin, i0, j0, hi0, hj0, h0⟩ := step5H_spec s hex
  have he0 : 0 ≤ e := by rw [← h0]; exact h.nonneg _ _
  obtain ⟨d', hd'⟩ : ∃ d' : Fin r → Fin c → K, d' = fun i j =>
    s.dist i j + (if s.covR i then e else 0) - (if s.covC j then 0 else e) := ⟨_, rfl⟩
  refine ⟨{ s with dist := d' }, ?_, ?_, ?_, ?_, rfl, rfl⟩
  · unfold step5
    rw [he, hd']
  · refine ⟨?_, ?_, h.rowU, h.colU, h.covC_star, h.cov_iff, h.covR_star, ?_, h.prime_covR,
      h.prime_covC, h.covR_prime, h.rank⟩
    · intro i j
      have hn := h.nonneg i j
      cases hR : s.covR i <;> cases hC : s.covC j <;> simp only [hd', hR, hC, Bool.false_eq_true, if_true, if_false]
      · have := hmin i j hR hC
        linarith
      · linarith
      · linarith
      · linarith
    · intro i j hij
      have hz := h.zero i j hij
      have hc := h.cov_iff i j hij
      cases hR : s.covR i <;> cases hC : s.covC j <;> simp_all
    · intro i j hij
      have hz := h.prime_zero i j hij
      simp [h.prime_covR i j hij, h.prime_covC i j hij, hz, hd']
  · obtain ⟨u, v, h1, h2, h3⟩ := hd
    by_cases hrc : r ≤ c
    · refine ⟨fun i => u i + (if s.covR i then 0 else e), fun j => v j - (if s.covC j then e else 0),
        ?_, ?_, fun hh => absurd hrc hh⟩
      · intro i j
        simp only [hd', h1 i j]
        cases hR : s.covR i <;> cases hC : s.covC j <;> simp only [hR, hC, Bool.false_eq_true, if_true, if_false] <;> ring
      · intro _ j
        obtain ⟨h4, h5⟩ := h2 hrc j
        cases hC : s.covC j
        · simp only [hC, Bool.false_eq_true, if_false, sub_zero]
          exact ⟨h4, h5⟩
        · simp only [hC, if_true]
          exact ⟨by linarith, Or.inr (h.covC_star j hC)⟩
    · refine ⟨fun i => u i - (if s.covR i then e else 0), fun j => v j + (if s.covC j then 0 else e),
        ?_, fun hh => absurd hh hrc, ?_⟩
      · intro i j
        simp only [hd', h1 i j]
        cases hR : s.covR i <;> cases hC : s.covC j <;> simp only [hR, hC, Bool.false_eq_true, if_true, if_false] <;> ring
      · intro _ i
        obtain ⟨h4, h5⟩ := h3 hrc i
        cases hR : s.covR i
        · simp only [hR, Bool.false_eq_true, if_false, sub_zero]
          exact ⟨h4, h5⟩
        · simp only [hR, if_true]
          exact ⟨by linarith, Or.inr (h.covR_star i hR)⟩
  · exact ⟨i0, j0, hi0, hj0, by simp [hi0, hj0, h0, hd']⟩

omit [IsStrictOrderedRing K] in
theorem nStar_le {s : St K r c} (h : Core s) : nStar s ≤ minDim r c := by
  have h1 : nStar s ≤ c := by
    have := Finset.card_le_univ (Finset.univ.filter fun j => ∃ i, s.star i j = true)
    simpa [nStar] using this
  have h2 : nStar s ≤ r := by
    have := Finset.card_le_card_of_forall_subsingleton (fun (j : Fin c) (i : Fin r) => s.star i j = true)
      (s := Finset.univ.filter fun j => ∃ i, s.star i j = true) (t := Finset.univ)
      (by
        intro j hj
        simp only [Finset.mem_filter, Finset.mem_univ, true_and] at hj
        obtain ⟨i, hi⟩ := hj
        exact ⟨i, Finset.mem_univ i, hi⟩)
      (by
        intro i _ a ha b hb
        exact h.rowU i a b ha.2 hb.2)
    simpa [nStar] using this
  unfold minDim
  split <;> assumption

omit [IsStrictOrderedRing K] in
theorem nR_le {s : St K r c} (h : Core s) : nR s ≤ nStar s := by
  apply Finset.card_le_card_of_forall_subsingleton (fun (i : Fin r) (j : Fin c) => s.star i j = true)
  · intro i hi
    simp only [Finset.mem_filter, Finset.mem_univ, true_and] at hi
    obtain ⟨j, hj⟩ := h.covR_star i hi
    refine ⟨j, ?_, hj⟩
    simp only [Finset.mem_filter, Finset.mem_univ, true_and]
    exact ⟨i, hj⟩
  · intro j _ a ha b hb
    exact h.colU a b j ha.2 hb.2

omit [IsStrictOrderedRing K] in
theorem uncovered {s : St K r c} (h : Core s) (hlt : nStar s < minDim r c) :
    ∃ i j, s.covR i = false ∧ s.covC j = false := by
  have hr : minDim r c ≤ r := by unfold minDim; split <;> omega
  have hc : minDim r c ≤ c := by unfold minDim; split <;> omega
  have h1 : ∃ i, s.covR i = false := by
    by_contra hcon
    push Not at hcon
    have : nR s = r := by
      unfold nR
      rw [Finset.filter_true_of_mem (by intro i _; simpa using hcon i)]
      simp
    have := nR_le h
    omega
  have h2 : ∃ j, s.covC j = false := by
    by_contra hcon
    push Not at hcon
    have : nStar s = c := by
      unfold nStar
      rw [Finset.filter_true_of_mem (by intro j _; exact h.covC_star j (by simpa using hcon j))]
      simp
    omega
  obtain ⟨i, hi⟩ := h1
  obtain ⟨j, hj⟩ := h2
  exact ⟨i, j, hi, hj⟩

open Classical in
/-- Termination measure of the main recursion. -/
noncomputable def mu (s : St K r c) : ℕ :=
  (minDim r c - nStar s) * (2 * r + 2) + 2 * (r - nR s) + (if HasZero s then 0 else 1)

theorem countP_finRange {n : ℕ} (p : Fin n → Bool) :
    (List.finRange n).countP p = (Finset.univ.filter fun i => p i = true).card := by
  rw [List.countP_eq_length_filter]
  rw [← List.toFinset_card_of_nodup ((List.nodup_finRange n).filter _)]
  congr 1
  ext i
  simp

omit [CommRing K] [LinearOrder K] [IsStrictOrderedRing K] in
theorem step2bDone_iff {s : St K r c}
    (hcov : ∀ j, s.covC j = true ↔ ∃ i, s.star i j = true) :
    step2bDone s = true ↔ nStar s = minDim r c := by
  unfold step2bDone nStar
  rw [countP_finRange]
  simp only [beq_iff_eq]
  rw [Finset.filter_congr (fun j _ => hcov j)]

theorem solve_spec {w : Fin r → Fin c → K} : ∀ (fuel : ℕ) (s : St K r c), Core s → Dual w s →
    nStar s < minDim r c → mu s < fuel →
    ∃ s', solve fuel s = .ok s' ∧ Core s' ∧ Dual w s' ∧ nStar s' = minDim r c := by
  intro fuel
  induction fuel with
  | zero => intro s _ _ _ h; omega
  | succ n ih =>
    intro s h hd hlt hmu
    have hRle : nR s ≤ r := by
      have := nR_le h
      have hr : minDim r c ≤ r := by unfold minDim; split <;> omega
      omega
    unfold solve
    have hsw := sweep_spec (List.finRange c) s false h
    revert hsw
    cases hres : sweep (List.finRange c) s false with
    | augment s' i j =>
      rintro ⟨t, ht, hst, hdist, rfl, hR, hC, hz, hns⟩
      obtain ⟨s1, hs1, _, hcore, hd1, hn, hcov, hk1, hk2⟩ := step4_spec ht hR hC hz hns
      simp only [hs1]
      have hdual : Dual w (step2a s1) :=
        hd.congr (by rw [hd1, hdist]) (by rw [← hst]; exact hk1) (by rw [← hst]; exact hk2)
      have hnt : nStar t = nStar s := by unfold nStar; rw [hst]
      by_cases hdone : step2bDone (step2a s1) = true
      · rw [if_pos hdone]
        exact ⟨_, rfl, hcore, hdual, (step2bDone_iff hcov).1 hdone⟩
      · rw [if_neg hdone]
        have hle := nStar_le hcore
        have hne : nStar (step2a s1) ≠ minDim r c := fun hh => hdone ((step2bDone_iff hcov).2 hh)
        apply ih _ hcore hdual (by omega)
        have hle1 : mu (step2a s1) ≤ (minDim r c - nStar (step2a s1)) * (2 * r + 2) + (2 * r + 1) := by
          unfold mu; split <;> omega
        have h2 : (minDim r c - nStar (step2a s1)) * (2 * r + 2) + (2 * r + 2) ≤
            (minDim r c - nStar s) * (2 * r + 2) := by
          have : minDim r c - nStar (step2a s1) + 1 ≤ minDim r c - nStar s := by omega
          calc _ = (minDim r c - nStar (step2a s1) + 1) * (2 * r + 2) := by ring
            _ ≤ _ := Nat.mul_le_mul_right _ this
        have h3 : (minDim r c - nStar s) * (2 * r + 2) ≤ mu s := by
          unfold mu; omega
        omega
    | swept s' z =>
      cases z with
      | true =>
        rintro ⟨hc', hst, hdist, hn⟩
        have hn : nR s < nR s' := by
          rcases hn with hn | ⟨hn, _⟩
          · exact hn
          · simp at hn
        have hnst : nStar s' = nStar s := by unfold nStar; rw [hst]
        apply ih _ hc' (hd.congr hdist (by rw [hst]; exact fun a b hab => ⟨b, hab⟩)
          (by rw [hst]; exact fun a b hab => ⟨a, hab⟩)) (by omega)
        have hR' : nR s' ≤ r := by
          have := nR_le hc'
          have hr : minDim r c ≤ r := by unfold minDim; split <;> omega
          omega
        unfold mu at hmu ⊢
        rw [hnst]
        split <;> split at hmu <;> omega
      | false =>
        rintro ⟨_, rfl, hno⟩
        obtain ⟨s1, hs1, hc1, hd1, hz1, hn1, hn2⟩ := step5_spec h hd (uncovered h hlt)
        simp only [hs1]
        apply ih _ hc1 hd1 (by omega)
        have hnz : ¬ HasZero s' := by
          rintro ⟨i, j, hi, hj, hij⟩
          exact hno j (List.mem_finRange j) hj i hi hij
        unfold mu at hmu ⊢
        rw [hn1, hn2, if_pos hz1]
        rw [if_neg hnz] at hmu
        omega

end Gasur.Assign
