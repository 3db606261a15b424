import Verif.Model.Cphd
import Verif.Spec.Cphd

/-!
# Elementary symmetric functions and the sums of the CPHD correction
-/

namespace Gasur.Cphd

open Gasur.Spec

/-- Elementary symmetric function of a list. -/
noncomputable abbrev es (l : List ℝ) (j : ℕ) : ℝ := (l : Multiset ℝ).esymm j

theorem es_zero (l : List ℝ) : es l 0 = 1 := by
  simp [es, Multiset.esymm]

theorem es_cons (a : ℝ) (l : List ℝ) (j : ℕ) : es (a :: l) (j + 1) = es l (j + 1) + a * es l j := by
  unfold es Multiset.esymm
  rw [← Multiset.cons_coe, Multiset.powersetCard_cons]
  simp only [Multiset.map_add, Multiset.sum_add, Multiset.map_map, Function.comp_def, Multiset.prod_cons,
    Multiset.sum_map_mul_left]

theorem es_nil (j : ℕ) : es [] (j + 1) = 0 := by
  unfold es Multiset.esymm
  rw [Multiset.powersetCard_eq_empty _ (by simp)]
  simp

theorem es_big {l : List ℝ} {j : ℕ} (h : l.length < j) : es l j = 0 := by
  unfold es Multiset.esymm
  rw [Multiset.powersetCard_eq_empty _ (by simpa using h)]
  simp

theorem es_nonneg : ∀ (l : List ℝ), (∀ x ∈ l, 0 ≤ x) → ∀ j, 0 ≤ es l j
  | l, _, 0 => by rw [es_zero]; norm_num
  | [], _, j + 1 => by rw [es_nil]
  | a :: l, h, j + 1 => by
    rw [es_cons]
    have h1 := es_nonneg l (fun x hx => h x (by simp [hx])) (j + 1)
    have h2 := es_nonneg l (fun x hx => h x (by simp [hx])) j
    have h3 := h a (by simp)
    positivity

/-- Sum over all positions of a list of a function of the element and the other elements. -/
noncomputable def sumErase (l : List ℝ) (F : ℝ → List ℝ → ℝ) : ℝ :=
  ∑ k : Fin l.length, F (l.get k) (l.eraseIdx k)

theorem sumErase_zipIdx (l : List ℝ) (F : ℝ → List ℝ → ℝ) :
    ((l.zipIdx).map fun z => F z.1 (l.eraseIdx z.2)).sum = sumErase l F := by
  unfold sumErase
  have : ((l.zipIdx).map fun z => F z.1 (l.eraseIdx z.2)) =
      List.ofFn fun k : Fin l.length => F (l.get k) (l.eraseIdx k) := by
    apply List.ext_getElem
    · simp
    · intro i h1 h2
      simp
  rw [this, List.sum_ofFn]

theorem sumErase_nil (F : ℝ → List ℝ → ℝ) : sumErase [] F = 0 := by simp [sumErase]

theorem sumErase_cons (a : ℝ) (l : List ℝ) (F : ℝ → List ℝ → ℝ) :
    sumErase (a :: l) F = F a l + sumErase l fun x r => F x (a :: r) := by
  unfold sumErase
  simp only [List.length_cons]
  rw [Fin.sum_univ_succ]
  simp

theorem sumErase_es : ∀ (l : List ℝ) (j : ℕ), (sumErase l fun x r => x * es r j) = (j + 1) * es l (j + 1)
  | [], j => by rw [sumErase_nil, es_nil]; ring
  | a :: l, 0 => by
    rw [sumErase_cons, es_cons]
    simp only [es_zero]
    have := sumErase_es l 0
    simp only [es_zero] at this
    rw [this]
    simp
    ring
  | a :: l, j + 1 => by
    rw [sumErase_cons, es_cons]
    simp only [es_cons]
    have h1 := sumErase_es l (j + 1)
    have h2 := sumErase_es l j
    have h3 : (sumErase l fun x r => x * (es r (j + 1) + a * es r j)) =
        (sumErase l fun x r => x * es r (j + 1)) + a * sumErase l fun x r => x * es r j := by
      unfold sumErase
      rw [Finset.mul_sum, ← Finset.sum_add_distrib]
      exact Finset.sum_congr rfl fun k _ => by ring
    rw [h3, h1, h2]
    push_cast
    ring

/-! ### Closed forms -/

theorem exp_logFact (n : ℕ) : Real.exp (logFact n) = n.factorial := by
  induction n with
  | zero => simp [logFact]
  | succ n ih =>
    unfold logFact at ih ⊢
    rw [Finset.sum_range_succ, Real.exp_add, ih, Real.exp_log (by positivity), Nat.factorial_succ]
    push_cast
    ring

theorem exp_mul_log {x : ℝ} (hx : 0 < x) (n : ℕ) : Real.exp ((n : ℝ) * Real.log x) = x ^ n := by
  rw [Real.exp_nat_mul, Real.exp_log hx]

theorem upsTerm_eq {lam pd W : ℝ} (hl : 0 < lam) (hp : 0 < pd) (hW : 0 < W) {zl n j k : ℕ} (hk : k ≤ n) (e : ℝ) :
    upsTerm lam pd W zl n j k e =
      Real.exp (-lam) * lam ^ (zl - j) * (n.descFactorial k : ℝ) * pd ^ (n - k) / W ^ k * e := by
  unfold upsTerm
  have h1 : ((n - k).factorial : ℝ) * (n.descFactorial k : ℝ) = n.factorial := by
    exact_mod_cast Nat.factorial_mul_descFactorial hk
  have h2 : (0 : ℝ) < (n - k).factorial := by exact_mod_cast Nat.factorial_pos _
  have h3 : -1 * logFact (n - k) = -(logFact (n - k)) := by ring
  have h4 : -(k : ℝ) * Real.log W = -((k : ℝ) * Real.log W) := by ring
  rw [h3, h4]
  simp only [Real.exp_add]
  rw [Real.exp_neg (logFact (n - k)), Real.exp_neg ((k : ℝ) * Real.log W), exp_logFact, exp_logFact, exp_mul_log hl,
    exp_mul_log hp, exp_mul_log hW, ← h1]
  have : W ^ k ≠ 0 := by positivity
  field_simp

/-- `ups0` in closed form. -/
noncomputable def U0 (lam pd W : ℝ) (xs : List ℝ) (n : ℕ) : ℝ :=
  ∑ j ∈ Finset.range (xs.length + 1), Real.exp (-lam) * lam ^ (xs.length - j) * (n.descFactorial j : ℝ) *
    pd ^ (n - j) / W ^ j * es xs j

/-- `ups1` in closed form. -/
noncomputable def U1 (lam pd W : ℝ) (xs : List ℝ) (n : ℕ) : ℝ :=
  ∑ j ∈ Finset.range (xs.length + 1), Real.exp (-lam) * lam ^ (xs.length - j) * (n.descFactorial (j + 1) : ℝ) *
    pd ^ (n - (j + 1)) / W ^ (j + 1) * es xs j

theorem at_esf {esf : List ℝ → List ℝ} (he : IsEsf esf) (xs : List ℝ) {j : ℕ} (h : j ≤ xs.length) :
    at' (esf xs) j = es xs j := by
  unfold at'
  rw [(he xs).2 j h]
  rfl

theorem ups0_eq {esf : List ℝ → List ℝ} (he : IsEsf esf) {lam pd W : ℝ} (hl : 0 < lam) (hp : 0 < pd) (hW : 0 < W)
    (xs : List ℝ) (n : ℕ) : ups0 lam pd W xs.length (esf xs) n = U0 lam pd W xs n := by
  unfold ups0 U0
  refine Finset.sum_subset_zero_on_sdiff (s₁ := Finset.range (min xs.length n + 1)) ?_ ?_ ?_
  · intro j hj
    rw [Finset.mem_range] at hj ⊢
    omega
  · intro j hj
    rw [Finset.mem_sdiff, Finset.mem_range, Finset.mem_range] at hj
    rw [Nat.descFactorial_of_lt (by omega)]
    simp
  · intro j hj
    rw [Finset.mem_range] at hj
    rw [upsTerm_eq hl hp hW (by omega), at_esf he xs (by omega)]

theorem ups1_eq {esf : List ℝ → List ℝ} (he : IsEsf esf) {lam pd W : ℝ} (hl : 0 < lam) (hp : 0 < pd) (hW : 0 < W)
    (xs : List ℝ) (n : ℕ) : ups1 lam pd W xs.length (esf xs) n = U1 lam pd W xs n := by
  unfold ups1 U1
  refine Finset.sum_subset_zero_on_sdiff (s₁ := Finset.range (min xs.length n + 1)) ?_ ?_ ?_
  · intro j hj
    rw [Finset.mem_range] at hj ⊢
    omega
  · intro j hj
    rw [Finset.mem_sdiff, Finset.mem_range, Finset.mem_range] at hj
    rw [Nat.descFactorial_of_lt (by omega)]
    simp
  · intro j hj
    rw [Finset.mem_range] at hj
    split
    · rename_i h
      rw [upsTerm_eq hl hp hW h, at_esf he xs (by omega)]
    · rw [Nat.descFactorial_of_lt (by omega)]
      simp

theorem sumErase_sum (l : List ℝ) (s : Finset ℕ) (F : ℕ → ℝ → List ℝ → ℝ) :
    (sumErase l fun x r => ∑ j ∈ s, F j x r) = ∑ j ∈ s, sumErase l (F j) := by
  unfold sumErase
  rw [Finset.sum_comm]

theorem sumErase_mul (l : List ℝ) (a : ℝ) (F : ℝ → List ℝ → ℝ) :
    (sumErase l fun x r => a * F x r) = a * sumErase l F := by
  unfold sumErase
  rw [Finset.mul_sum]

theorem sumErase_congr {l : List ℝ} {F G : ℝ → List ℝ → ℝ}
    (h : ∀ x r, r.length + 1 = l.length → F x r = G x r) : sumErase l F = sumErase l G := by
  unfold sumErase
  refine Finset.sum_congr rfl fun k _ => h _ _ ?_
  rw [List.length_eraseIdx_of_lt k.2]
  have := k.2
  omega

/-- The key step: a sum over the erased positions of `∑_j a_j e_j` is `∑_j j a_{j-1} e_j`. -/
theorem sumErase_series (l : List ℝ) (a : ℕ → ℝ) :
    (sumErase l fun x r => x * ∑ j ∈ Finset.range (r.length + 1), a j * es r j) =
      ∑ j ∈ Finset.range l.length, (j + 1) * a j * es l (j + 1) := by
  rw [sumErase_congr (G := fun x r => ∑ j ∈ Finset.range l.length, a j * (x * es r j))
    (by
      intro x r h
      rw [h, Finset.mul_sum]
      exact Finset.sum_congr rfl fun j _ => by ring)]
  rw [sumErase_sum]
  refine Finset.sum_congr rfl fun j _ => ?_
  rw [sumErase_mul, sumErase_es]
  ring

/-- The identity behind C37: `n Υ⁰(n) = d W Υ¹(n) + ∑_z ξ_z Υ¹_z(n)`. -/
theorem mean_identity (lam pd W : ℝ) (hW : W ≠ 0) (hp : pd ≠ 0) (xs : List ℝ) (n : ℕ) :
    (n : ℝ) * U0 lam pd W xs n = pd * W * U1 lam pd W xs n + sumErase xs fun x r => x * U1 lam pd W r n := by
  have h1 : (sumErase xs fun x r => x * U1 lam pd W r n) = ∑ j ∈ Finset.range (xs.length + 1),
      (j : ℝ) * (Real.exp (-lam) * lam ^ (xs.length - j) * (n.descFactorial j : ℝ) * pd ^ (n - j) / W ^ j) * es xs j := by
    rw [sumErase_congr (G := fun x r => x * ∑ j ∈ Finset.range (r.length + 1),
      (Real.exp (-lam) * lam ^ (xs.length - 1 - j) * (n.descFactorial (j + 1) : ℝ) * pd ^ (n - (j + 1)) / W ^ (j + 1)) *
        es r j) (by
        intro x r h
        unfold U1
        rw [show r.length = xs.length - 1 by omega])]
    rw [sumErase_series, Finset.sum_range_succ' _ xs.length]
    simp only [Nat.cast_zero, zero_mul, add_zero]
    refine Finset.sum_congr rfl fun j hj => ?_
    rw [show xs.length - 1 - j = xs.length - (j + 1) by omega]
    push_cast
    rfl
  rw [h1]
  unfold U0 U1
  rw [Finset.mul_sum, Finset.mul_sum, ← Finset.sum_add_distrib]
  refine Finset.sum_congr rfl fun j _ => ?_
  by_cases hj : j < n
  · rw [Nat.descFactorial_succ, show n - j = (n - (j + 1)) + 1 by omega, pow_succ pd, pow_succ W]
    have hc : (n : ℝ) = ((n - (j + 1) + 1 : ℕ) : ℝ) + j := by
      rw [← Nat.cast_add]; congr 1; omega
    rw [hc]
    push_cast
    field_simp
  · by_cases hj' : j = n
    · subst hj'
      rw [Nat.descFactorial_of_lt (by omega : j < j + 1)]
      push_cast
      ring
    · rw [Nat.descFactorial_of_lt (by omega : n < j + 1), Nat.descFactorial_of_lt (by omega : n < j)]
      push_cast
      ring

/-- The recursion over the objects. -/
theorem U0_succ (lam q W : ℝ) (hW : W ≠ 0) (xs : List ℝ) (n : ℕ) :
    U0 lam q W xs (n + 1) = q * U0 lam q W xs n + (1 / W) * sumErase xs fun x r => x * U0 lam q W r n := by
  have h1 : (sumErase xs fun x r => x * U0 lam q W r n) = ∑ j ∈ Finset.range xs.length,
      (j + 1 : ℝ) * (Real.exp (-lam) * lam ^ (xs.length - (j + 1)) * (n.descFactorial j : ℝ) * q ^ (n - j) / W ^ j) *
        es xs (j + 1) := by
    rw [sumErase_congr (G := fun x r => x * ∑ j ∈ Finset.range (r.length + 1),
      (Real.exp (-lam) * lam ^ (xs.length - (j + 1)) * (n.descFactorial j : ℝ) * q ^ (n - j) / W ^ j) * es r j) (by
        intro x r h
        unfold U0
        congr 1
        refine Finset.sum_congr rfl fun j _ => ?_
        rw [show r.length - j = xs.length - (j + 1) by omega])]
    rw [sumErase_series]
  rw [h1]
  unfold U0
  rw [Finset.sum_range_succ', Finset.sum_range_succ' _ xs.length, Finset.mul_sum, mul_add, Finset.mul_sum]
  have h0 : Real.exp (-lam) * lam ^ (xs.length - 0) * ((n + 1).descFactorial 0 : ℝ) * q ^ (n + 1 - 0) / W ^ 0 * es xs 0 =
      q * (Real.exp (-lam) * lam ^ (xs.length - 0) * (n.descFactorial 0 : ℝ) * q ^ (n - 0) / W ^ 0 * es xs 0) := by
    simp only [Nat.sub_zero, Nat.descFactorial_zero, Nat.cast_one, pow_zero, es_zero, pow_succ]
    ring
  rw [h0, add_right_comm, ← Finset.sum_add_distrib]
  congr 1
  refine Finset.sum_congr rfl fun j _ => ?_
  rw [Nat.succ_descFactorial_succ]
  by_cases hj : j + 1 ≤ n
  · rw [show n + 1 - (j + 1) = (n - (j + 1)) + 1 by omega, show n - j = (n - (j + 1)) + 1 by omega,
      Nat.descFactorial_succ, pow_succ q, pow_succ W]
    have hc : (n : ℝ) = ((n - j : ℕ) : ℝ) + j := by
      rw [← Nat.cast_add]; congr 1; omega
    push_cast
    rw [hc]
    field_simp
    ring
  · rw [Nat.descFactorial_of_lt (by omega : n < j + 1)]
    by_cases hj' : j = n
    · subst hj'
      rw [show j + 1 - (j + 1) = j - j by omega, pow_succ W]
      push_cast
      field_simp
      ring
    · rw [Nat.descFactorial_of_lt (by omega : n < j)]
      push_cast
      ring

theorem measDensity_eq {Z : Type*} (lam kap q W : ℝ) (hW : W ≠ 0) (ξ : Z → ℝ) : ∀ (n : ℕ) (zs : List Z),
    measDensity lam kap q (fun z => ξ z * kap / W) n zs = kap ^ zs.length * U0 lam q W (zs.map ξ) n
  | 0, zs => by
    unfold measDensity U0
    rw [Finset.sum_range_succ', Finset.sum_eq_zero]
    · rw [es_zero, List.length_map, mul_pow]
      simp
      ring
    · intro j _
      rw [Nat.descFactorial_of_lt (by omega)]
      simp
  | n + 1, zs => by
    unfold measDensity
    rw [U0_succ lam q W hW, measDensity_eq lam kap q W hW ξ n zs]
    have hsum : ((zs.zipIdx).map fun z => ξ z.1 * kap / W * measDensity lam kap q (fun z => ξ z * kap / W) n
        (zs.eraseIdx z.2)).sum = kap ^ zs.length * ((1 / W) * sumErase (zs.map ξ) fun x r => x * U0 lam q W r n) := by
      have : ∀ z ∈ zs.zipIdx, ξ z.1 * kap / W * measDensity lam kap q (fun z => ξ z * kap / W) n (zs.eraseIdx z.2) =
          kap ^ zs.length / W * (ξ z.1 * U0 lam q W ((zs.eraseIdx z.2).map ξ) n) := by
        intro z hz
        have hlt := List.snd_lt_of_mem_zipIdx hz
        rw [measDensity_eq lam kap q W hW ξ n, List.length_eraseIdx_of_lt hlt]
        have : kap ^ zs.length = kap ^ (zs.length - 1) * kap := by
          rw [← pow_succ]; congr 1; omega
        rw [this]
        ring
      rw [List.map_congr_left this, List.sum_map_mul_left]
      rw [show kap ^ zs.length * ((1 / W) * sumErase (zs.map ξ) fun x r => x * U0 lam q W r n) =
        kap ^ zs.length / W * sumErase (zs.map ξ) fun x r => x * U0 lam q W r n by ring]
      congr 1
      rw [← sumErase_zipIdx, List.zipIdx_map, List.map_map]
      congr 1
      apply List.map_congr_left
      intro z _
      simp [List.eraseIdx_map]
    rw [hsum]
    ring

end Gasur.Cphd
