import Mathlib.Algebra.Order.BigOperators.Ring.Finset
import Mathlib.Analysis.SpecificLimits.Basic
import Mathlib.Data.Fintype.BigOperators
import Mathlib.Data.Finset.Max
import Mathlib.Data.Fintype.EquivFin
import Mathlib.Data.Real.Basic

/-! Finite Markov chains with a positive two-step transition matrix. -/

namespace Gasur.Doeblin

variable {S : Type*} [Fintype S] [DecidableEq S]

/-- Powers of a matrix, as used here. -/
def pw (P : S → S → ℝ) : ℕ → S → S → ℝ
  | 0, a, b => if a = b then 1 else 0
  | n + 1, a, b => ∑ c, P a c * pw P n c b

variable {P : S → S → ℝ}

theorem contract (h0 : ∀ a b, 0 ≤ P a b) (h1 : ∀ a, ∑ b, P a b = 1) {d : ℝ} {s : S} (hd : ∀ a, d ≤ P a s)
    (hd0 : 0 ≤ d) (f : S → ℝ) (C : ℝ) (hC : ∀ a a', f a - f a' ≤ C) (a a' : S) :
    ∑ b, P a b * f b - ∑ b, P a' b * f b ≤ (1 - d) * C := by
  obtain ⟨m, _, hm⟩ := Finset.exists_min_image Finset.univ f ⟨a, Finset.mem_univ a⟩
  let Q : S → S → ℝ := fun a b => P a b - if b = s then d else 0
  have hQ0 : ∀ a b, 0 ≤ Q a b := by
    intro a b
    by_cases hb : b = s
    · subst hb
      simp only [Q, if_true]
      linarith [hd a]
    · simp only [Q, if_neg hb, sub_zero]
      exact h0 a b
  have hQ1 : ∀ a, ∑ b, Q a b = 1 - d := by
    intro a
    simp only [Q, Finset.sum_sub_distrib, h1, Finset.sum_ite_eq', Finset.mem_univ, if_true]
  have hexp : ∀ a, ∑ b, P a b * f b = ∑ b, Q a b * (f b - f m) + (1 - d) * f m + d * f s := by
    intro a
    have : ∀ b, P a b * f b = Q a b * (f b - f m) + Q a b * f m + (if b = s then d * f b else 0) := by
      intro b
      by_cases hb : b = s
      · simp only [Q, hb, if_true]; ring
      · simp only [Q, if_neg hb]; ring
    rw [Finset.sum_congr rfl fun b _ => this b, Finset.sum_add_distrib, Finset.sum_add_distrib, ← Finset.sum_mul, hQ1]
    simp
  have hup : ∑ b, Q a b * (f b - f m) ≤ (1 - d) * C := by
    rw [← hQ1 a, Finset.sum_mul]
    refine Finset.sum_le_sum fun b _ => ?_
    exact mul_le_mul_of_nonneg_left (hC b m) (hQ0 a b)
  have hlo : 0 ≤ ∑ b, Q a' b * (f b - f m) :=
    Finset.sum_nonneg fun b _ => mul_nonneg (hQ0 a' b) (sub_nonneg.2 (hm b (Finset.mem_univ b)))
  rw [hexp a, hexp a']
  linarith

theorem two_step (n : ℕ) (a b : S) : pw P (n + 2) a b = ∑ c, (∑ d, P a d * P d c) * pw P n c b := by
  simp only [pw, Finset.sum_mul, Finset.mul_sum]
  rw [Finset.sum_comm]
  simp only [mul_assoc]

theorem pw_stat {p : S → ℝ} (hp : ∀ b, ∑ a, p a * P a b = p b) : ∀ (n : ℕ) (b : S), ∑ a, p a * pw P n a b = p b
  | 0, b => by simp [pw]
  | n + 1, b => by
    simp only [pw, Finset.mul_sum]
    rw [Finset.sum_comm]
    simp only [← mul_assoc, ← Finset.sum_mul, hp]
    exact pw_stat hp n b

theorem two_nonneg (h0 : ∀ a b, 0 ≤ P a b) (a b : S) : 0 ≤ ∑ d, P a d * P d b :=
  Finset.sum_nonneg fun d _ => mul_nonneg (h0 _ _) (h0 _ _)

theorem two_sum (h1 : ∀ a, ∑ b, P a b = 1) (a : S) : ∑ b, ∑ d, P a d * P d b = 1 := by
  rw [Finset.sum_comm]
  simp only [← Finset.mul_sum, h1, mul_one]

/-- A common positive lower bound. -/
theorem exists_low (h2 : ∀ a b, 0 < ∑ d, P a d * P d b) (s : S) : ∃ δ : ℝ, 0 < δ ∧ ∀ a, δ ≤ ∑ d, P a d * P d s := by
  obtain ⟨m, _, hm⟩ := Finset.exists_min_image Finset.univ (fun a => ∑ d, P a d * P d s) ⟨s, Finset.mem_univ s⟩
  exact ⟨_, h2 m s, fun a => hm a (Finset.mem_univ a)⟩

theorem osc (h0 : ∀ a b, 0 ≤ P a b) (h1 : ∀ a, ∑ b, P a b = 1) {δ : ℝ} {s : S} (hδ0 : 0 ≤ δ)
    (hδ : ∀ a, δ ≤ ∑ d, P a d * P d s) (b : S) : ∀ (n : ℕ) (a a' : S),
    pw P (2 * n) a b - pw P (2 * n) a' b ≤ (1 - δ) ^ n ∧ pw P (2 * n + 1) a b - pw P (2 * n + 1) a' b ≤ (1 - δ) ^ n
  | 0, a, a' => by
    have hz : ∀ a a', pw P 0 a b - pw P 0 a' b ≤ 1 := by
      intro a a'
      simp only [pw]
      split <;> split <;> norm_num
    refine ⟨by simpa using hz a a', ?_⟩
    have := contract h0 h1 (d := 0) (s := s) (fun a => h0 _ _) le_rfl (fun c => pw P 0 c b) 1 hz a a'
    simp only [sub_zero, one_mul] at this
    simpa [pw] using this
  | n + 1, a, a' => by
    constructor
    · have := contract (P := fun a c => ∑ d, P a d * P d c) (two_nonneg h0) (two_sum h1) hδ hδ0
        (fun c => pw P (2 * n) c b) _ (fun a a' => (osc h0 h1 hδ0 hδ b n a a').1) a a'
      rw [← two_step, ← two_step, ← pow_succ'] at this
      exact this
    · have := contract (P := fun a c => ∑ d, P a d * P d c) (two_nonneg h0) (two_sum h1) hδ hδ0
        (fun c => pw P (2 * n + 1) c b) _ (fun a a' => (osc h0 h1 hδ0 hδ b n a a').2) a a'
      rw [← two_step, ← two_step, ← pow_succ'] at this
      exact this

/-- Convergence to the invariant distribution, geometrically. -/
theorem converges (h0 : ∀ a b, 0 ≤ P a b) (h1 : ∀ a, ∑ b, P a b = 1) (h2 : ∀ a b, 0 < ∑ d, P a d * P d b)
    {p : S → ℝ} (hp0 : ∀ a, 0 ≤ p a) (hp1 : ∑ a, p a = 1) (hp : ∀ b, ∑ a, p a * P a b = p b) (s : S) :
    ∃ r : ℝ, 0 ≤ r ∧ r < 1 ∧ ∀ n a b, |pw P n a b - p b| ≤ r ^ (n / 2) := by
  obtain ⟨δ, hδ, hδ'⟩ := exists_low h2 s
  have hδ1 : δ ≤ 1 := by
    refine (hδ' s).trans ?_
    rw [← two_sum h1 s]
    exact Finset.single_le_sum (f := fun b => ∑ d, P s d * P d b) (fun b _ => two_nonneg h0 s b) (Finset.mem_univ s)
  refine ⟨1 - δ, by linarith, by linarith, ?_⟩
  intro n a b
  have hosc : ∀ a a', pw P n a b - pw P n a' b ≤ (1 - δ) ^ (n / 2) := by
    intro a a'
    rcases Nat.even_or_odd' n with ⟨k, hk | hk⟩
    · rw [hk, Nat.mul_div_cancel_left k (by norm_num)]
      exact (osc h0 h1 hδ.le hδ' b k a a').1
    · have : n / 2 = k := by omega
      rw [this, hk]
      exact (osc h0 h1 hδ.le hδ' b k a a').2
  have hst := pw_stat hp n b
  have hsum : ∀ c : ℝ, ∑ a, p a * c = c := by
    intro c
    rw [← Finset.sum_mul, hp1, one_mul]
  rw [abs_le]
  constructor
  · have : ∑ a', p a' * pw P n a' b ≤ ∑ a', p a' * (pw P n a b + (1 - δ) ^ (n / 2)) :=
      Finset.sum_le_sum fun a' _ => mul_le_mul_of_nonneg_left (by linarith [hosc a' a]) (hp0 a')
    rw [hst, hsum] at this
    linarith
  · have : ∑ a', p a' * (pw P n a b - (1 - δ) ^ (n / 2)) ≤ ∑ a', p a' * pw P n a' b :=
      Finset.sum_le_sum fun a' _ => mul_le_mul_of_nonneg_left (by linarith [hosc a a']) (hp0 a')
    rw [hst, hsum] at this
    linarith

/-- The matrix of the chain killed in `t`. -/
def avoid (P : S → S → ℝ) (t : S) : S → S → ℝ := fun a b => if b = t then 0 else P a b

/-- Probability of not visiting `t`: decreases geometrically. -/
theorem avoid_small (h0 : ∀ a b, 0 ≤ P a b) (h1 : ∀ a, ∑ b, P a b = 1) (h2 : ∀ a b, 0 < ∑ d, P a d * P d b) (t : S) :
    ∃ r : ℝ, 0 ≤ r ∧ r < 1 ∧ ∀ n a, 0 ≤ ∑ b, pw (avoid P t) n a b ∧ ∑ b, pw (avoid P t) n a b ≤ r ^ (n / 2) := by
  obtain ⟨δ, hδ, hδ'⟩ := exists_low h2 t
  have hδ1 : δ ≤ 1 := by
    refine (hδ' t).trans ?_
    rw [← two_sum h1 t]
    exact Finset.single_le_sum (f := fun b => ∑ d, P t d * P d b) (fun b _ => two_nonneg h0 t b) (Finset.mem_univ t)
  have hA0 : ∀ a b, 0 ≤ avoid P t a b := by
    intro a b
    unfold avoid
    split
    · exact le_rfl
    · exact h0 a b
  have hAle : ∀ a b, avoid P t a b ≤ P a b := by
    intro a b
    unfold avoid
    split
    · exact h0 a b
    · exact le_rfl
  have hpw : ∀ n a b, 0 ≤ pw (avoid P t) n a b := by
    intro n
    induction n with
    | zero => intro a b; simp only [pw]; split <;> norm_num
    | succ n ih =>
      intro a b
      exact Finset.sum_nonneg fun c _ => mul_nonneg (hA0 _ _) (ih c b)
  have hstep : ∀ n a, ∑ b, pw (avoid P t) (n + 1) a b = ∑ c, avoid P t a c * ∑ b, pw (avoid P t) n c b := by
    intro n a
    simp only [pw, Finset.mul_sum]
    rw [Finset.sum_comm]
  have hsum1 : ∀ a, ∑ b, avoid P t a b ≤ 1 := by
    intro a
    rw [← h1 a]
    exact Finset.sum_le_sum fun b _ => hAle a b
  have htwo : ∀ a, ∑ c, avoid P t a c * ∑ b, avoid P t c b ≤ 1 - δ := by
    intro a
    have e1 : ∀ c, ∑ b, avoid P t c b = 1 - P c t := by
      intro c
      have : ∀ b, avoid P t c b = P c b - if b = t then P c t else 0 := by
        intro b
        unfold avoid
        split
        · rename_i h; rw [h]; ring
        · ring
      simp only [this, Finset.sum_sub_distrib, h1, Finset.sum_ite_eq', Finset.mem_univ, if_true]
    have e2 : ∑ c, avoid P t a c * ∑ b, avoid P t c b ≤ ∑ c, P a c * (1 - P c t) := by
      refine Finset.sum_le_sum fun c _ => ?_
      rw [e1]
      refine mul_le_mul_of_nonneg_right (hAle a c) ?_
      rw [sub_nonneg, ← h1 c]
      exact Finset.single_le_sum (f := fun b => P c b) (fun b _ => h0 c b) (Finset.mem_univ t)
    refine e2.trans ?_
    simp only [mul_sub, mul_one, Finset.sum_sub_distrib, h1]
    linarith [hδ' a]
  refine ⟨1 - δ, by linarith, by linarith, fun n a => ⟨Finset.sum_nonneg fun b _ => hpw n a b, ?_⟩⟩
  have key : ∀ k a, ∑ b, pw (avoid P t) (2 * k) a b ≤ (1 - δ) ^ k ∧ ∑ b, pw (avoid P t) (2 * k + 1) a b ≤ (1 - δ) ^ k := by
    intro k
    induction k with
    | zero =>
      intro a
      have hz : ∀ a, ∑ b, pw (avoid P t) 0 a b = 1 := by intro a; simp [pw]
      refine ⟨by simp [hz], ?_⟩
      rw [Nat.mul_zero, hstep]
      simp only [hz, mul_one, pow_zero]
      exact hsum1 a
    | succ k ih =>
      intro a
      have hp0 : 0 ≤ (1 - δ) ^ k := pow_nonneg (by linarith) k
      have gen : ∀ n, (∀ a, ∑ b, pw (avoid P t) n a b ≤ (1 - δ) ^ k) →
          ∑ b, pw (avoid P t) (n + 2) a b ≤ (1 - δ) ^ (k + 1) := by
        intro n hn
        rw [hstep (n + 1)]
        calc _ ≤ ∑ c, avoid P t a c * ((∑ b, avoid P t c b) * (1 - δ) ^ k) := by
              refine Finset.sum_le_sum fun c _ => mul_le_mul_of_nonneg_left ?_ (hA0 a c)
              rw [hstep n, Finset.sum_mul]
              exact Finset.sum_le_sum fun d _ => mul_le_mul_of_nonneg_left (hn d) (hA0 c d)
          _ = (∑ c, avoid P t a c * ∑ b, avoid P t c b) * (1 - δ) ^ k := by
              rw [Finset.sum_mul]
              exact Finset.sum_congr rfl fun c _ => by ring
          _ ≤ (1 - δ) * (1 - δ) ^ k := mul_le_mul_of_nonneg_right (htwo a) hp0
          _ = _ := by rw [pow_succ']
      exact ⟨gen (2 * k) fun a => (ih a).1, gen (2 * k + 1) fun a => (ih a).2⟩
  rcases Nat.even_or_odd' n with ⟨k, hk | hk⟩
  · rw [hk, Nat.mul_div_cancel_left k (by norm_num)]
    exact (key k a).1
  · have : n / 2 = k := by omega
    rw [this, hk]
    exact (key k a).2

end Gasur.Doeblin
