import Verif.Props.GibbsLaw

/-!
# Property C176: Gibbs sampling is stable
-/

set_option linter.unusedSectionVars false

namespace Gasur.Props

open Gasur.Gibbs Gasur.Spec MeasureTheory

variable {N M : ℕ}

theorem gibbsWeight_moved {costs costs' : Fin N → Fin M → ℝ} {δ : ℝ} (h : ∀ i j, |costs' i j - costs i j| ≤ δ)
    (a : Fin N → Fin M) : gibbsWeight costs' a ≤ Real.exp (N * δ) * gibbsWeight costs a := by
  unfold gibbsWeight
  split
  · rw [← Real.exp_add, Real.exp_le_exp]
    have : ∑ i, (costs i (a i) - costs' i (a i)) ≤ ∑ _i : Fin N, δ :=
      Finset.sum_le_sum fun i _ => by
        have := (abs_le.1 (h i (a i))).1
        linarith
    rw [Finset.sum_sub_distrib, Finset.sum_const, Finset.card_univ, Fintype.card_fin, nsmul_eq_mul] at this
    linarith
  · rw [mul_zero]

theorem gibbsTarget_moved {costs costs' : Fin N → Fin M → ℝ} {δ : ℝ} (h : ∀ i j, |costs' i j - costs i j| ≤ δ)
    (a : Fin N → Fin M) : gibbsTarget costs' a ≤ Real.exp (2 * N * δ) * gibbsTarget costs a := by
  have h' : ∀ i j, |costs i j - costs' i j| ≤ δ := fun i j => by
    rw [abs_sub_comm]
    exact h i j
  have s1 : ∑ b, gibbsWeight costs b ≤ Real.exp (N * δ) * ∑ b, gibbsWeight costs' b := by
    rw [Finset.mul_sum]
    exact Finset.sum_le_sum fun b _ => gibbsWeight_moved h' b
  have e : Real.exp (2 * N * δ) = Real.exp (N * δ) * Real.exp (N * δ) := by
    rw [← Real.exp_add]
    congr 1
    ring
  have n0 := gibbsWeight_nonneg costs a
  have S0 : 0 ≤ ∑ b, gibbsWeight costs b := Finset.sum_nonneg fun b _ => gibbsWeight_nonneg costs b
  have S0' : 0 ≤ ∑ b, gibbsWeight costs' b := Finset.sum_nonneg fun b _ => gibbsWeight_nonneg costs' b
  unfold gibbsTarget
  rcases S0.eq_or_lt with hz | hp
  · have s2 : ∑ b, gibbsWeight costs' b ≤ Real.exp (N * δ) * ∑ b, gibbsWeight costs b := by
      rw [Finset.mul_sum]
      exact Finset.sum_le_sum fun b _ => gibbsWeight_moved h b
    rw [← hz, mul_zero] at s2
    rw [← hz, le_antisymm s2 S0']
    simp
  · have hp' : 0 < ∑ b, gibbsWeight costs' b := by
      by_contra hn
      have : ∑ b, gibbsWeight costs' b = 0 := le_antisymm (not_lt.1 hn) S0'
      rw [this, mul_zero] at s1
      exact absurd s1 (not_le.2 hp)
    rw [← mul_div_assoc, div_le_div_iff₀ hp' hp, e]
    calc gibbsWeight costs' a * ∑ b, gibbsWeight costs b
        ≤ (Real.exp (N * δ) * gibbsWeight costs a) * (Real.exp (N * δ) * ∑ b, gibbsWeight costs' b) :=
          mul_le_mul (gibbsWeight_moved h a) s1 S0 (mul_nonneg (Real.exp_pos _).le n0)
      _ = _ := by ring

/-- **C176.** Gibbs sampling is stable: if two cost matrices differ by at most `δ` in each entry, then the probabilities that
the sampler is at a certain assignment after `n` iterations differ at most by the factor `exp (2 N δ)`, `N` the number of
rows, up to an error that vanishes geometrically in `n`. -/
theorem C176_stable (costs costs' : Fin N → Fin M → ℝ) (hM : 2 * N ≤ M) {δ : ℝ} (h : ∀ i j, |costs' i j - costs i j| ≤ δ) :
    ∃ r : ℝ, 0 ≤ r ∧ r < 1 ∧ ∀ (start start' : Fin N → Fin M), Function.Injective start → Function.Injective start' →
      ∀ (n : ℕ) (b : Fin N → Fin M),
      (allDraws N).real {u | ∃ l, iter (fun x => Real.exp (-x)) costs' u n 1 start' = .ok l ∧
          (start' :: l).getLast? = some b} ≤
        Real.exp (2 * N * δ) * (allDraws N).real {u | ∃ l, iter (fun x => Real.exp (-x)) costs u n 1 start = .ok l ∧
          (start :: l).getLast? = some b} + (1 + Real.exp (2 * N * δ)) * r ^ (n / 2) := by
  obtain ⟨r1, p1, q1, k1⟩ := C95_converges costs hM
  obtain ⟨r2, p2, q2, k2⟩ := C95_converges costs' hM
  refine ⟨max r1 r2, p1.trans (le_max_left _ _), max_lt q1 q2, fun start start' hs hs' n b => ?_⟩
  have a1 := (abs_le.1 (k1 start hs n b)).1
  have a2 := (abs_le.1 (k2 start' hs' n b)).2
  have t := gibbsTarget_moved h b
  have m1 : r1 ^ (n / 2) ≤ max r1 r2 ^ (n / 2) := pow_le_pow_left₀ p1 (le_max_left _ _) _
  have m2 : r2 ^ (n / 2) ≤ max r1 r2 ^ (n / 2) := pow_le_pow_left₀ p2 (le_max_right _ _) _
  have E := Real.exp_pos (2 * N * δ)
  have c1 : Real.exp (2 * N * δ) * gibbsTarget costs b ≤ Real.exp (2 * N * δ) *
      ((allDraws N).real {u | ∃ l, iter (fun x => Real.exp (-x)) costs u n 1 start = .ok l ∧
          (start :: l).getLast? = some b} + max r1 r2 ^ (n / 2)) :=
    mul_le_mul_of_nonneg_left (by linarith) E.le
  linarith

/-- A concrete case: one row, two columns; the costs differ by `1`. -/
example : ∃ r : ℝ, 0 ≤ r ∧ r < 1 ∧ ∀ (start start' : Fin 1 → Fin 2), Function.Injective start → Function.Injective start' →
      ∀ (n : ℕ) (b : Fin 1 → Fin 2),
      (allDraws 1).real {u | ∃ l, iter (fun x => Real.exp (-x)) (fun _ j => (j.val : ℝ) + 1) u n 1 start' = .ok l ∧
          (start' :: l).getLast? = some b} ≤
        Real.exp (2 * (1 : ℕ) * 1) * (allDraws 1).real {u | ∃ l, iter (fun x => Real.exp (-x)) (fun _ j => (j.val : ℝ)) u n 1
          start = .ok l ∧ (start :: l).getLast? = some b} + (1 + Real.exp (2 * (1 : ℕ) * 1)) * r ^ (n / 2) :=
  C176_stable (fun _ j => (j.val : ℝ)) (fun _ j => (j.val : ℝ) + 1) (by norm_num) fun i j => by simp

end Gasur.Props
