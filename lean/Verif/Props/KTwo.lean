import Verif.Proofs.KTwo

/-!
# Property C08, continued: what `k_shortest` gets right

The error in the assembly of deviation paths (graphs.py:148) does not reach the first two results: the one deviation
that matters for the second path starts at the source. Hence the claim C08 holds for up to two requested paths, and for
at most one element with any number of requested paths. (`np.argsort` sorts, so `σ` lists the costs in descending
order, graphs.py:57.)
-/

namespace Gasur.Props

open Gasur.KShortest

variable {K : Type*} [CommRing K] [LinearOrder K] [IsStrictOrderedRing K] {n : ℕ}

/-- **C08, partial.** Whatever the number `k` of requested paths, the first two results (the first, if `k = 1`) are the
two cheapest subsets, each reported with its own cost. *Missing:* the later paths (false, see `C08_refuted`); costs
that are exactly zero. -/
theorem C08_first_two_partial (lc : Fin n → K) (σ : Equiv.Perm (Fin n)) (eps : K) (heps : 0 < eps)
    (hdesc : ∀ i j, i ≤ j → lc (σ j) ≤ lc (σ i)) (hnz : ∀ i, eps ≤ |lc i|) (k : ℕ) :
    ∃ out : List (List (Fin n) × WithTop K), kShortest lc σ eps k = .ok out ∧ out.length ≤ k ∧
      CheapestK lc eps (min k 2) (out.take 2) := by
  have hpow : 1 ≤ 2 ^ n := Nat.one_le_two_pow
  rcases Nat.lt_or_ge k 2 with hk | hk
  · rcases Nat.lt_or_ge k 1 with hk0 | hk1
    · obtain rfl : k = 0 := by omega
      refine ⟨[], by simp [kShortest], by simp, ?_⟩
      refine ⟨by simp, by simp, by simp, by simp, ?_⟩
      intro T _ p hp
      simp at hp
    · obtain rfl : k = 1 := by omega
      obtain ⟨p, c, rest, h1, h2, _, h4, h5⟩ :=
        (C08_k_shortest_partial lc σ eps heps (fun i => .inr (hnz i)) 1).2 (by omega)
      have hrest : rest = [] := by
        cases rest with
        | nil => rfl
        | cons a t => simp at h2
      subst hrest
      refine ⟨_, h1, by simp, by simp; omega, ?_, by simp, by simp, ?_⟩
      · intro q hq
        simp only [List.take_succ_cons, List.take_nil, List.mem_singleton] at hq
        subst hq
        exact h4
      · intro T _ q hq
        simp only [List.take_succ_cons, List.take_nil, List.mem_singleton] at hq
        subst hq
        rw [h4, WithTop.coe_le_coe, add_le_add_iff_right]
        exact h5 T
  · obtain ⟨p, rest, h1, h2, h3, hc⟩ := kShortest_two lc σ heps hdesc hnz hk
    refine ⟨_, h1, by simp; omega, ?_⟩
    rcases hc with ⟨rfl, rfl⟩ | ⟨hn, q, rest', rfl, hqp, hq, _⟩
    · refine ⟨by simp; omega, ?_, by simp, by simp, ?_⟩
      · intro q hq
        simp only [List.take_succ_cons, List.take_nil, List.mem_singleton] at hq
        subst hq
        rfl
      · intro T _ q hq
        simp only [List.take_succ_cons, List.take_nil, List.mem_singleton] at hq
        subst hq
        rw [WithTop.coe_le_coe, add_le_add_iff_right]
        exact h3 T
    · have hpow2 : 2 ≤ 2 ^ n := by
        calc 2 = 2 ^ 1 := rfl
          _ ≤ 2 ^ n := Nat.pow_le_pow_right (by omega) hn
      simp only [List.take_succ_cons, List.take_zero]
      refine ⟨by simp; omega, ?_, ?_, ?_, ?_⟩
      · intro r hr
        simp only [List.mem_cons, List.not_mem_nil, or_false] at hr
        rcases hr with rfl | rfl <;> rfl
      · simpa using fun h => hqp h.symm
      · simp only [List.pairwise_cons, List.mem_singleton, forall_eq, List.not_mem_nil, false_imp_iff, implies_true,
          List.Pairwise.nil, and_true]
        rw [WithTop.coe_le_coe, add_le_add_iff_right]
        exact h3 _
      · intro T hT r hr
        simp only [List.map_cons, List.map_nil, List.mem_cons, List.not_mem_nil, or_false, not_or] at hT hr
        rcases hr with rfl | rfl
        · rw [WithTop.coe_le_coe, add_le_add_iff_right]
          exact h3 T
        · rw [WithTop.coe_le_coe, add_le_add_iff_right]
          exact hq T hT.1

/-- **C08, partial.** The full claim holds if at most two paths are requested, or if there is at most one element.
*Missing:* three or more paths of two or more elements (false, see `C08_refuted`); costs that are exactly zero. -/
theorem C08_small_partial (lc : Fin n → K) (σ : Equiv.Perm (Fin n)) (eps : K) (heps : 0 < eps)
    (hdesc : ∀ i j, i ≤ j → lc (σ j) ≤ lc (σ i)) (hnz : ∀ i, eps ≤ |lc i|) (k : ℕ) (hsmall : k ≤ 2 ∨ n ≤ 1) :
    C08Claim lc σ eps k := by
  obtain ⟨out, h1, h2, h3⟩ := C08_first_two_partial lc σ eps heps hdesc hnz k
  refine ⟨out, h1, ?_⟩
  rcases Nat.lt_or_ge k 3 with hk | hk
  · rw [min_eq_left (by omega), List.take_of_length_le (by omega)] at h3
    exact h3
  · have hn : n ≤ 1 := by omega
    obtain ⟨p, rest, g1, _, _, hc⟩ := kShortest_two lc σ heps hdesc hnz (k := k) (by omega)
    rw [h1] at g1
    have g1 := Except.ok.inj g1
    have hlen : out.length ≤ 2 := by
      rw [g1]
      rcases hc with ⟨_, rfl⟩ | ⟨hn0, q, rest', rfl, _, _, hr⟩
      · simp
      · rw [hr (by omega)]
        simp
    rw [min_eq_right (by omega), List.take_of_length_le hlen] at h3
    obtain ⟨h3, h4⟩ := h3
    refine ⟨?_, h4⟩
    rw [h3]
    have : 2 ^ n ≤ 2 := by
      calc 2 ^ n ≤ 2 ^ 1 := Nat.pow_le_pow_right (by omega) hn
        _ = 2 := rfl
    omega

/-! Non-vacuity: three elements (already sorted); one element and five requested paths. -/

example : ∀ i j : Fin 3, i ≤ j → (![5, -20, -50] : Fin 3 → ℤ) (Equiv.refl (Fin 3) j) ≤
    (![5, -20, -50] : Fin 3 → ℤ) (Equiv.refl (Fin 3) i) := by decide

example : ∀ i : Fin 3, 1 ≤ |(![5, -20, -50] : Fin 3 → ℤ) i| := by decide

example : (kShortest (n := 1) (K := ℤ) ![-20] (Equiv.refl _) 1 5).toOption =
    some [([0], ((-19 : ℤ) : WithTop ℤ)), ([], ((1 : ℤ) : WithTop ℤ))] := by
  decide +kernel

end Gasur.Props
