import Verif.Proofs.Cphd
import Mathlib.Analysis.Normed.Algebra.Exponential
import Mathlib.Analysis.SpecialFunctions.Exponential
import Mathlib.Topology.Algebra.Order.Field

/-!
# The CPHD correction for Poisson distributed numbers of objects
-/

namespace Gasur.Cphd

open Gasur.Phd Gasur.Spec Filter Topology

variable {V P Z : Type*}

/-- Partial sums of the exponential series. -/
noncomputable def expSum (x : ℝ) (M : ℕ) : ℝ := ∑ i ∈ Finset.range M, x ^ i / i.factorial

theorem expSum_tendsto (x : ℝ) : Tendsto (expSum x) atTop (𝓝 (Real.exp x)) := by
  have h := (NormedSpace.expSeries_div_hasSum_exp x).tendsto_sum_nat
  rw [← Real.exp_eq_exp_ℝ] at h
  exact h

theorem desc_sum {W : ℝ} (hW : 0 < W) (d : ℝ) (j : ℕ) : ∀ M : ℕ,
    (∑ n ∈ Finset.range M, (n.descFactorial j : ℝ) * d ^ (n - j) / W ^ j * (W ^ n / n.factorial)) = expSum (d * W) (M - j)
  | 0 => by simp [expSum]
  | M + 1 => by
    rw [Finset.sum_range_succ, desc_sum hW d j M]
    by_cases h : j ≤ M
    · rw [show M + 1 - j = (M - j) + 1 by omega]
      unfold expSum
      rw [Finset.sum_range_succ]
      congr 1
      have h1 : ((M - j).factorial : ℝ) * (M.descFactorial j : ℝ) = M.factorial := by
        exact_mod_cast Nat.factorial_mul_descFactorial h
      have h2 : (0 : ℝ) < (M - j).factorial := by exact_mod_cast Nat.factorial_pos _
      have h3 : (0 : ℝ) < M.descFactorial j := by exact_mod_cast Nat.descFactorial_pos.2 h
      have h4 : W ^ M = W ^ j * W ^ (M - j) := by rw [← pow_add, Nat.add_sub_cancel' h]
      rw [← h1, h4, mul_pow]
      field_simp
    · rw [Nat.descFactorial_of_lt (by omega), show M + 1 - j = M - j by omega]
      simp

/-- The sums of the correction, for the distribution proportional to `W^n / n!`, with `k = 0` or `1`. -/
noncomputable def upsSum (lam x : ℝ) (xs : List ℝ) (k M : ℕ) : ℝ :=
  ∑ j ∈ Finset.range (xs.length + 1), Real.exp (-lam) * lam ^ (xs.length - j) * es xs j * expSum x (M - (j + k))

theorem U0_sum {lam d W : ℝ} (hW : 0 < W) (xs : List ℝ) (M : ℕ) :
    (∑ n ∈ Finset.range M, U0 lam d W xs n * (W ^ n / n.factorial)) = upsSum lam (d * W) xs 0 M := by
  unfold U0 upsSum
  simp only [Finset.sum_mul]
  rw [Finset.sum_comm]
  refine Finset.sum_congr rfl fun j _ => ?_
  rw [add_zero, ← desc_sum hW d j M, Finset.mul_sum]
  refine Finset.sum_congr rfl fun n _ => ?_
  ring

theorem U1_sum {lam d W : ℝ} (hW : 0 < W) (xs : List ℝ) (M : ℕ) :
    (∑ n ∈ Finset.range M, U1 lam d W xs n * (W ^ n / n.factorial)) = upsSum lam (d * W) xs 1 M := by
  unfold U1 upsSum
  simp only [Finset.sum_mul]
  rw [Finset.sum_comm]
  refine Finset.sum_congr rfl fun j _ => ?_
  rw [← desc_sum hW d (j + 1) M, Finset.mul_sum]
  refine Finset.sum_congr rfl fun n _ => ?_
  ring

theorem vieta (lam : ℝ) (xs : List ℝ) :
    (∑ j ∈ Finset.range (xs.length + 1), lam ^ (xs.length - j) * es xs j) = (xs.map fun x => lam + x).prod := by
  have h := congrArg (Polynomial.eval lam) (Multiset.prod_X_add_C_eq_sum_esymm (xs : Multiset ℝ))
  simp only [Multiset.map_coe, Multiset.prod_coe, Multiset.coe_card, Polynomial.eval_finset_sum, Polynomial.eval_mul,
    Polynomial.eval_C, Polynomial.eval_pow, Polynomial.eval_X, Polynomial.eval_list_prod, List.map_map] at h
  rw [show (xs.map fun x => lam + x) = xs.map (Polynomial.eval lam ∘ fun r => Polynomial.X + Polynomial.C r) by
    refine List.map_congr_left fun x _ => ?_
    simp, h]
  exact Finset.sum_congr rfl fun j _ => mul_comm _ _

theorem upsSum_tendsto (lam x : ℝ) (xs : List ℝ) (k : ℕ) :
    Tendsto (upsSum lam x xs k) atTop (𝓝 (Real.exp (-lam) * Real.exp x * (xs.map fun y => lam + y).prod)) := by
  have h : Tendsto (upsSum lam x xs k) atTop (𝓝 (∑ j ∈ Finset.range (xs.length + 1),
      Real.exp (-lam) * lam ^ (xs.length - j) * es xs j * Real.exp x)) := by
    unfold upsSum
    refine tendsto_finset_sum _ fun j _ => ?_
    exact ((expSum_tendsto x).comp (tendsto_sub_atTop_nat (j + k))).const_mul _
  rw [← vieta, Finset.mul_sum]
  convert! h using 3
  ring

/-- Ratio of the sums for two lists of measurements. -/
theorem ups_ratio {lam : ℝ} (x : ℝ) {xs : List ℝ} (ys : List ℝ) (k : ℕ) (hp : (xs.map fun y => lam + y).prod ≠ 0) :
    Tendsto (fun N => upsSum lam x ys k (N + 1) / upsSum lam x xs 0 (N + 1)) atTop
      (𝓝 ((ys.map fun y => lam + y).prod / (xs.map fun y => lam + y).prod)) := by
  have h1 := (upsSum_tendsto lam x ys k).comp (tendsto_add_atTop_nat 1)
  have h2 := (upsSum_tendsto lam x xs 0).comp (tendsto_add_atTop_nat 1)
  have he : Real.exp (-lam) * Real.exp x ≠ 0 := (mul_pos (Real.exp_pos _) (Real.exp_pos _)).ne'
  have := h1.div h2 (mul_ne_zero he hp)
  rwa [mul_div_mul_left _ _ he] at this

theorem poisson_at {N : ℕ} {W : ℝ} {c : List ℝ} (h : IsNormalised N (poisson W) c) :
    c.length = N + 1 ∧ ∃ K, K ≠ 0 ∧ ∀ n, n < N + 1 → at' c n = K * (W ^ n / n.factorial) := by
  obtain ⟨h0, rfl⟩ := h
  refine ⟨by simp, Real.exp (-W) / ∑ k ∈ Finset.range (N + 1), poisson W k, div_ne_zero (Real.exp_pos _).ne' h0, ?_⟩
  intro n hn
  unfold at'
  rw [List.getElem?_map, List.getElem?_range hn]
  simp only [Option.map_some, Option.getD_some, poisson]
  ring

theorem poisson_sum_pos {W : ℝ} (hW : 0 < W) (N : ℕ) : 0 < ∑ k ∈ Finset.range (N + 1), poisson W k := by
  refine Finset.sum_pos (fun k _ => ?_) ⟨0, by simp⟩
  unfold poisson
  have : (0 : ℝ) < k.factorial := by exact_mod_cast Nat.factorial_pos _
  have := Real.exp_pos (-W)
  positivity

theorem poisson_dist {W : ℝ} (hW : 0 < W) {N : ℕ} {c : List ℝ} (h : IsNormalised N (poisson W) c) : IsDist N c := by
  obtain ⟨h0, rfl⟩ := h
  have hs := poisson_sum_pos hW N
  refine ⟨by simp, ?_, ?_⟩
  · intro x hx
    obtain ⟨n, _, rfl⟩ := List.mem_map.1 hx
    refine div_nonneg ?_ hs.le
    unfold poisson
    have := Real.exp_pos (-W)
    positivity
  · rw [sum_map_range, ← Finset.sum_div, div_self h0]

theorem forall₂_flatMap {α β γ : Type*} {R : β → γ → Prop} {f : α → List β} {g : α → List γ} : ∀ {l : List α},
    (∀ x ∈ l, List.Forall₂ R (f x) (g x)) → List.Forall₂ R (l.flatMap f) (l.flatMap g)
  | [], _ => .nil
  | a :: l, h => by
    rw [List.flatMap_cons, List.flatMap_cons]
    exact List.rel_append (h a List.mem_cons_self) (forall₂_flatMap fun x hx => h x (List.mem_cons_of_mem _ hx))

theorem forall₂_map_same {α β γ : Type*} {R : β → γ → Prop} {f : α → β} {g : α → γ} {l : List α}
    (h : ∀ x ∈ l, R (f x) (g x)) : List.Forall₂ R (l.map f) (l.map g) := by
  rw [List.forall₂_map_left_iff, List.forall₂_map_right_iff, List.forall₂_same]
  exact h

theorem eventually_list {α : Type*} {l : List α} {p : α → ℕ → Prop} (h : ∀ x ∈ l, ∀ᶠ N in atTop, p x N) :
    ∀ᶠ N in atTop, ∀ x ∈ l, p x N :=
  (eventually_all_finite (I := {x | x ∈ l}) (List.finite_toSet l)).2 h

theorem flatMap_zipIdx {α β : Type*} (f : α → List β) (l : List α) : l.flatMap f = l.zipIdx.flatMap fun z => f z.1 := by
  conv_lhs => rw [← List.zipIdx_map_fst 0 l]
  rw [List.flatMap_map]

end Gasur.Cphd
