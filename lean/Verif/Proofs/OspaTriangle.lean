import Verif.Proofs.Ospa2
import Mathlib.Analysis.MeanInequalities
import Mathlib.Data.Fintype.Sum
import Mathlib.Algebra.BigOperators.Fin

/-! # Proof of the triangle inequality for OSPA -/

namespace Gasur.Spec

open Finset

variable {X Y Z : Type*}

/-- Distance of two possibly missing points; `v` is the distance of two missing ones. -/
noncomputable def padDist (c v : ℝ) (d : X → Y → ℝ) : Option X → Option Y → ℝ
  | some x, some y => min (d x y) c
  | none, none => v
  | _, _ => c

/-- Cost of the permutation `σ` of `N` slots. -/
noncomputable def permCost (c v : ℝ) (p : ℕ) (d : X → Y → ℝ) (xs : List X) (ys : List Y) {N : ℕ}
    (σ : Equiv.Perm (Fin N)) : ℝ := ∑ i : Fin N, padDist c v d xs[(i : ℕ)]? ys[(σ i : ℕ)]? ^ p

theorem padDist_swap (c v : ℝ) (d : X → Y → ℝ) (a : Option X) (b : Option Y) :
    padDist c v (fun y x => d x y) b a = padDist c v d a b := by
  cases a <;> cases b <;> rfl

theorem permCost_swap (c v : ℝ) (p : ℕ) (d : X → Y → ℝ) (xs : List X) (ys : List Y) {N : ℕ}
    (σ : Equiv.Perm (Fin N)) : permCost c v p (fun y x => d x y) ys xs σ.symm = permCost c v p d xs ys σ := by
  unfold permCost
  rw [← Equiv.sum_comp σ]
  refine Finset.sum_congr rfl fun i _ => ?_
  rw [Equiv.symm_apply_apply, padDist_swap]

/-- A sum over `Fin N` of a function that is zero from `m` on. -/
theorem sum_castLE {m N : ℕ} (h : m ≤ N) (f : Fin N → ℝ) (hf : ∀ i : Fin N, m ≤ i → f i = 0) :
    ∑ i, f i = ∑ i : Fin m, f (i.castLE h) := by
  obtain ⟨k, rfl⟩ := Nat.exists_eq_add_of_le h
  rw [Fin.sum_univ_add, Finset.sum_eq_zero (s := (univ : Finset (Fin k))), add_zero]
  · rfl
  · intro i _
    exact hf _ (by simp)

theorem sum_lt {m N : ℕ} (h : m ≤ N) : ∑ i : Fin N, (if (i : ℕ) < m then (1 : ℝ) else 0) = m := by
  rw [sum_castLE h]
  · simp
  · intro i hi
    rw [if_neg (by omega)]

theorem sum_lt_perm {n N : ℕ} (h : n ≤ N) (σ : Equiv.Perm (Fin N)) :
    ∑ i : Fin N, (if (σ i : ℕ) < n then (1 : ℝ) else 0) = n := by
  rw [Equiv.sum_comp σ (fun i : Fin N => if (i : ℕ) < n then (1 : ℝ) else 0), sum_lt h]

/-- A matching of at most as many rows as columns is an injection. -/
theorem inj_of_matching {m n : ℕ} (hmn : m ≤ n) {S : Finset (Fin m × Fin n)} (h : IsMatching S)
    (D : Fin m → Fin n → ℝ) : ∃ f : Fin m → Fin n, Function.Injective f ∧ matchCost D S = ∑ i, D i (f i) := by
  classical
  have hc : (S.image Prod.fst).card = m := by
    rw [Finset.card_image_of_injOn fun a ha b hb hab => h.row a ha b hb hab, h.size, min_eq_left hmn]
  have hu : S.image Prod.fst = univ := by
    rw [← Finset.card_eq_iff_eq_univ, hc, Fintype.card_fin]
  have hex : ∀ i : Fin m, ∃ j, (i, j) ∈ S := by
    intro i
    have : i ∈ S.image Prod.fst := by rw [hu]; exact mem_univ _
    obtain ⟨⟨a, b⟩, hab, rfl⟩ := Finset.mem_image.1 this
    exact ⟨b, hab⟩
  choose f hf using hex
  have hinj : Function.Injective f := fun i j hij => by
    have := h.col _ (hf i) _ (hf j) hij
    exact congrArg Prod.fst this
  refine ⟨f, hinj, ?_⟩
  have hS : S = univ.image fun i => (i, f i) := by
    symm
    refine Finset.eq_of_subset_of_card_le ?_ ?_
    · intro a ha
      obtain ⟨i, _, rfl⟩ := Finset.mem_image.1 ha
      exact hf i
    · rw [Finset.card_image_of_injective _ fun _ _ h => congrArg Prod.fst h, h.size]
      simp
  unfold matchCost
  rw [hS, Finset.sum_image fun _ _ _ _ h => congrArg Prod.fst h]

theorem matching_of_inj {m n : ℕ} {f : Fin m → Fin n} (hf : Function.Injective f) (D : Fin m → Fin n → ℝ) :
    IsMatching (univ.image fun i => (i, f i)) ∧ matchCost D (univ.image fun i => (i, f i)) = ∑ i, D i (f i) := by
  have hmn : m ≤ n := by simpa using Fintype.card_le_of_injective f hf
  refine ⟨⟨?_, ?_, by
    rw [Finset.card_image_of_injective _ fun _ _ h => congrArg Prod.fst h]; simp [hmn]⟩, ?_⟩
  · intro a ha b hb hab
    simp at ha hb
    obtain ⟨i, rfl⟩ := ha
    obtain ⟨j, rfl⟩ := hb
    simp at hab; rw [hab]
  · intro a ha b hb hab
    simp at ha hb
    obtain ⟨i, rfl⟩ := ha
    obtain ⟨j, rfl⟩ := hb
    simp at hab; rw [hf hab]
  · unfold matchCost
    rw [Finset.sum_image fun _ _ _ _ h => congrArg Prod.fst h]

/-- A partial injection extends to a permutation. -/
theorem exists_perm_extend {N : ℕ} (s : Finset (Fin N)) (f : Fin N → Fin N) (hf : Set.InjOn f s) :
    ∃ σ : Equiv.Perm (Fin N), ∀ i ∈ s, σ i = f i := by
  obtain ⟨g, hg⟩ := Finset.exists_equiv_extend_of_card_eq (t := (univ : Finset (Fin N))) (s := s) (f := f) (by simp)
    (by simp) hf
  refine ⟨g.trans (Equiv.subtypeUnivEquiv fun i => mem_univ i), fun i hi => hg i hi⟩

/-- From an optimal matching to a permutation of the slots. -/
theorem exists_perm_aux {c v : ℝ} {p : ℕ} {d : X → Y → ℝ} {xs : List X} {ys : List Y} {w : ℝ}
    (hw : MinCost (cutMat c p d xs ys) w) (hmn : xs.length ≤ ys.length) {N : ℕ} (hN : ys.length ≤ N) :
    ∃ σ : Equiv.Perm (Fin N), permCost c v p d xs ys σ =
      w + (ys.length - xs.length) * c ^ p + (N - ys.length) * v ^ p := by
  obtain ⟨S, hS, rfl⟩ := hw
  obtain ⟨f, hf, hc⟩ := inj_of_matching hmn hS.1 (cutMat c p d xs ys)
  rw [hc]
  have hmN := hmn.trans hN
  obtain ⟨σ, hσ⟩ := exists_perm_extend (univ.filter fun i : Fin N => (i : ℕ) < xs.length)
    (fun i => if h : (i : ℕ) < xs.length then (f ⟨i, h⟩).castLE hN else i) (by
      intro i hi j hj hij
      simp only [coe_filter, mem_univ, true_and, Set.mem_setOf_eq] at hi hj
      simp only [dif_pos hi, dif_pos hj] at hij
      have := hf (Fin.castLE_injective hN hij)
      exact Fin.ext (by simpa using this))
  have hσ' : ∀ (i : Fin N) (h : (i : ℕ) < xs.length), (σ i : ℕ) = f ⟨i, h⟩ := by
    intro i h
    rw [hσ i (by simpa using h), dif_pos h]
    rfl
  refine ⟨σ, ?_⟩
  have hterm : ∀ i : Fin N, padDist c v d xs[(i : ℕ)]? ys[(σ i : ℕ)]? ^ p =
      (if h : (i : ℕ) < xs.length then cutMat c p d xs ys ⟨i, h⟩ (f ⟨i, h⟩) - c ^ p else 0) + v ^ p +
        (c ^ p - v ^ p) * (if (σ i : ℕ) < ys.length then (1 : ℝ) else 0) := by
    intro i
    by_cases h : (i : ℕ) < xs.length
    · have h2 : (σ i : ℕ) < ys.length := by rw [hσ' i h]; exact (f ⟨i, h⟩).2
      rw [dif_pos h, if_pos h2, List.getElem?_eq_getElem h, List.getElem?_eq_getElem h2]
      simp only [padDist, cutMat, hσ' i h]
      simp
    · rw [dif_neg h, List.getElem?_eq_none (by omega)]
      by_cases h2 : (σ i : ℕ) < ys.length
      · rw [if_pos h2, List.getElem?_eq_getElem h2]
        simp [padDist]
      · rw [if_neg h2, List.getElem?_eq_none (by omega)]
        simp [padDist]
  unfold permCost
  rw [Finset.sum_congr rfl fun i _ => hterm i, Finset.sum_add_distrib, Finset.sum_add_distrib, ← Finset.mul_sum,
    sum_lt_perm hN, sum_castLE hmN]
  · simp only [Fin.val_castLE, Fin.is_lt, dite_true, Fin.eta, Finset.sum_sub_distrib, Finset.sum_const, card_univ,
      Fintype.card_fin, nsmul_eq_mul]
    ring
  · intro i hi
    rw [dif_neg (by omega)]

theorem cutMat_swap {c : ℝ} {p : ℕ} {d : X → Y → ℝ} {xs : List X} {ys : List Y} {w : ℝ}
    (hw : MinCost (cutMat c p d xs ys) w) : MinCost (cutMat c p (fun y x => d x y) ys xs) w := minCost_swap hw

theorem exists_perm {c v : ℝ} {p : ℕ} {d : X → Y → ℝ} {xs : List X} {ys : List Y} {w : ℝ}
    (hw : MinCost (cutMat c p d xs ys) w) {N : ℕ} (hN : max xs.length ys.length ≤ N) :
    ∃ σ : Equiv.Perm (Fin N), permCost c v p d xs ys σ =
      w + c ^ p * |(xs.length : ℝ) - ys.length| + (N - (max xs.length ys.length : ℕ)) * v ^ p := by
  rcases le_total xs.length ys.length with h | h
  · obtain ⟨σ, hσ⟩ := exists_perm_aux (v := v) hw h ((le_max_right _ _).trans hN)
    refine ⟨σ, ?_⟩
    rw [hσ, max_eq_right h, abs_of_nonpos (by simpa using h)]
    ring
  · obtain ⟨σ, hσ⟩ := exists_perm_aux (v := v) (cutMat_swap hw) h ((le_max_left _ _).trans hN)
    refine ⟨σ.symm, ?_⟩
    have := permCost_swap c v p (fun y x => d x y) ys xs σ
    rw [this, hσ, max_eq_left h, abs_of_nonneg (by simpa using h)]
    ring

/-- From a permutation of the slots to a matching. -/
theorem le_permCost_aux {c v : ℝ} (hc : 0 ≤ c) {p : ℕ} {d : X → Y → ℝ} (hd : ∀ x y, 0 ≤ d x y) {xs : List X} {ys : List Y}
    {w : ℝ} (hw : MinCost (cutMat c p d xs ys) w) (hmn : xs.length ≤ ys.length) {N : ℕ} (hN : ys.length ≤ N)
    (σ : Equiv.Perm (Fin N)) : ∃ (A : ℝ) (r : ℕ), r ≤ xs.length ∧ 0 ≤ A ∧ A ≤ r * c ^ p ∧
      w ≤ A + (xs.length - r) * c ^ p ∧ xs.length + ys.length ≤ N + r ∧
      permCost c v p d xs ys σ = A + (xs.length + ys.length - 2 * r) * c ^ p +
        (N + r - xs.length - ys.length) * v ^ p := by
  classical
  have hmN := hmn.trans hN
  have hcut : ∀ i j, 0 ≤ cutMat c p d xs ys i j ∧ cutMat c p d xs ys i j ≤ c ^ p := fun i j =>
    ⟨pow_nonneg (le_min (hd _ _) hc) _, pow_le_pow_left₀ (le_min (hd _ _) hc) (min_le_right _ _) _⟩
  set s : Finset (Fin xs.length) := univ.filter fun i => (σ (i.castLE hmN) : ℕ) < ys.length with hs
  have hmem : ∀ i, i ∈ s ↔ (σ (i.castLE hmN) : ℕ) < ys.length := fun i => by simp [hs]
  let g : Fin xs.length → ℝ := fun i => if h : (σ (i.castLE hmN) : ℕ) < ys.length then
    cutMat c p d xs ys i ⟨σ (i.castLE hmN), h⟩ else 0
  have hg0 : ∀ i ∉ s, g i = 0 := fun i hi => dif_neg (by rwa [hmem] at hi)
  refine ⟨∑ i ∈ s, g i, s.card, ?_, ?_, ?_, ?_, ?_, ?_⟩
  · simpa using Finset.card_le_univ s
  · refine Finset.sum_nonneg fun i hi => ?_
    simp only [g]
    rw [dif_pos ((hmem i).1 hi)]
    exact (hcut _ _).1
  · rw [← nsmul_eq_mul]
    refine Finset.sum_le_card_nsmul _ _ _ fun i hi => ?_
    simp only [g]
    rw [dif_pos ((hmem i).1 hi)]
    exact (hcut _ _).2
  · -- extend the partial matching
    by_cases h0 : xs.length = 0
    · obtain ⟨S, hS, rfl⟩ := hw
      have hz : S = ∅ := by
        rw [← Finset.card_eq_zero, hS.1.size, h0]
        simp
      have hz2 : s = ∅ := by
        rw [← Finset.card_eq_zero]
        have := Finset.card_le_univ s
        simp only [Fintype.card_fin] at this
        omega
      rw [hz, hz2]
      simp [matchCost, h0]
    · have hpos : 0 < ys.length := by omega
      let f : Fin xs.length → Fin ys.length := fun i => if h : (σ (i.castLE hmN) : ℕ) < ys.length then
        ⟨σ (i.castLE hmN), h⟩ else ⟨0, hpos⟩
      have hfinj : Set.InjOn f s := by
        intro i hi j hj hij
        have h1 := (hmem i).1 hi
        have h2 := (hmem j).1 hj
        simp only [f] at hij
        rw [dif_pos h1, dif_pos h2] at hij
        have h3 := σ.injective (Fin.ext (by simpa using hij))
        exact Fin.castLE_injective hmN h3
      obtain ⟨t, ht1, ht2⟩ := Finset.exists_superset_card_eq (s := s.image f) (n := xs.length) (by
        refine Finset.card_image_le.trans ?_
        simpa using Finset.card_le_univ s) (by simpa using hmn)
      obtain ⟨e, he⟩ := Finset.exists_equiv_extend_of_card_eq (t := t) (s := s) (f := f) (by simpa using ht2.symm) ht1 hfinj
      obtain ⟨S, hS, rfl⟩ := hw
      obtain ⟨m1, m2⟩ := matching_of_inj (f := fun i => (e i : Fin ys.length))
        (fun i j hij => e.injective (Subtype.ext hij)) (cutMat c p d xs ys)
      have h1 := hS.2 _ m1
      rw [m2] at h1
      refine h1.trans ?_
      rw [← Finset.sum_add_sum_compl s]
      refine add_le_add (le_of_eq (Finset.sum_congr rfl fun i hi => ?_)) ?_
      · rw [he i hi]
        simp only [g, f]
        rw [dif_pos ((hmem i).1 hi), dif_pos ((hmem i).1 hi)]
      · refine (Finset.sum_le_card_nsmul _ _ _ fun i _ => (hcut _ _).2).trans (le_of_eq ?_)
        rw [nsmul_eq_mul, Finset.card_compl, Fintype.card_fin, Nat.cast_sub (by simpa using Finset.card_le_univ s)]
  · -- the slots with both points
    have hA : (univ.filter fun i : Fin N => (i : ℕ) < xs.length).card = xs.length := by
      have := sum_lt hmN
      rw [← Finset.sum_filter, Finset.sum_const, nsmul_eq_mul, mul_one] at this
      exact_mod_cast this
    have hB : (univ.filter fun i : Fin N => (σ i : ℕ) < ys.length).card = ys.length := by
      have := sum_lt_perm hN σ
      rw [← Finset.sum_filter, Finset.sum_const, nsmul_eq_mul, mul_one] at this
      exact_mod_cast this
    have hC := Finset.card_union_add_card_inter (univ.filter fun i : Fin N => (i : ℕ) < xs.length)
      (univ.filter fun i : Fin N => (σ i : ℕ) < ys.length)
    have hD : ((univ.filter fun i : Fin N => (i : ℕ) < xs.length) ∩
        (univ.filter fun i : Fin N => (σ i : ℕ) < ys.length)).card = s.card := by
      symm
      refine Finset.card_bij (fun i _ => i.castLE hmN) ?_ ?_ ?_
      · intro i hi
        simpa using (hmem i).1 hi
      · intro i _ j _ hij
        exact Fin.castLE_injective hmN hij
      · intro i hi
        simp only [mem_inter, mem_filter, mem_univ, true_and] at hi
        exact ⟨⟨i, hi.1⟩, (hmem _).2 (by simpa using hi.2), by simp⟩
    have hE := Finset.card_le_univ ((univ.filter fun i : Fin N => (i : ℕ) < xs.length) ∪
        (univ.filter fun i : Fin N => (σ i : ℕ) < ys.length))
    simp only [Fintype.card_fin] at hE
    omega
  · have hterm : ∀ i : Fin N, padDist c v d xs[(i : ℕ)]? ys[(σ i : ℕ)]? ^ p =
        (if h : (i : ℕ) < xs.length then g ⟨i, h⟩ + (if (σ i : ℕ) < ys.length then v ^ p - 2 * c ^ p else 0) else 0) +
        v ^ p + (c ^ p - v ^ p) * (if (i : ℕ) < xs.length then (1 : ℝ) else 0) +
        (c ^ p - v ^ p) * (if (σ i : ℕ) < ys.length then (1 : ℝ) else 0) := by
      intro i
      by_cases h : (i : ℕ) < xs.length
      · rw [dif_pos h, if_pos h, List.getElem?_eq_getElem h]
        by_cases h2 : (σ i : ℕ) < ys.length
        · have hgi : g ⟨i, h⟩ = cutMat c p d xs ys ⟨i, h⟩ ⟨σ i, h2⟩ := dif_pos h2
          rw [if_pos h2, if_pos h2, List.getElem?_eq_getElem h2, hgi]
          simp only [padDist, cutMat]
          simp only [Fin.getElem_fin]
          ring
        · have hgi : g ⟨i, h⟩ = 0 := dif_neg h2
          rw [if_neg h2, if_neg h2, List.getElem?_eq_none (by omega), hgi]
          simp [padDist]
      · rw [dif_neg h, if_neg h, List.getElem?_eq_none (by omega)]
        by_cases h2 : (σ i : ℕ) < ys.length
        · rw [if_pos h2, List.getElem?_eq_getElem h2]
          simp [padDist]
        · rw [if_neg h2, List.getElem?_eq_none (by omega)]
          simp [padDist]
    unfold permCost
    rw [Finset.sum_congr rfl fun i _ => hterm i, Finset.sum_add_distrib, Finset.sum_add_distrib, Finset.sum_add_distrib,
      ← Finset.mul_sum, ← Finset.mul_sum, sum_lt_perm hN, sum_lt hmN, sum_castLE hmN]
    · simp only [Fin.val_castLE, Fin.is_lt, dite_true, Fin.eta, Finset.sum_add_distrib, Finset.sum_const, card_univ,
        Fintype.card_fin, nsmul_eq_mul]
      rw [← Finset.sum_filter, Finset.sum_const, nsmul_eq_mul]
      have e1 : ∑ i, g i = ∑ i ∈ s, g i := by
        symm
        exact Finset.sum_subset (Finset.subset_univ _) fun i _ hi => hg0 i hi
      rw [e1]
      have e2 : (univ.filter fun i : Fin xs.length => (σ (i.castLE hmN) : ℕ) < ys.length) = s := rfl
      rw [e2]
      ring
    · intro i hi
      rw [dif_neg (by omega)]

theorem padDist_nonneg {c v : ℝ} (hc : 0 ≤ c) (hv : 0 ≤ v) {d : X → Y → ℝ} (hd : ∀ x y, 0 ≤ d x y) (a : Option X)
    (b : Option Y) : 0 ≤ padDist c v d a b := by
  cases a <;> cases b <;> simp only [padDist]
  · exact hv
  · exact hc
  · exact hc
  · exact le_min (hd _ _) hc

theorem permCost_nonneg {c v : ℝ} (hc : 0 ≤ c) (hv : 0 ≤ v) (p : ℕ) {d : X → Y → ℝ} (hd : ∀ x y, 0 ≤ d x y) (xs : List X)
    (ys : List Y) {N : ℕ} (σ : Equiv.Perm (Fin N)) : 0 ≤ permCost c v p d xs ys σ :=
  Finset.sum_nonneg fun _ _ => pow_nonneg (padDist_nonneg hc hv hd _ _) _

theorem le_permCost_le {c v : ℝ} (hc : 0 ≤ c) (hv : 0 ≤ v) {p : ℕ} {d : X → Y → ℝ} (hd : ∀ x y, 0 ≤ d x y) {xs : List X}
    {ys : List Y} {w : ℝ} (hw : MinCost (cutMat c p d xs ys) w) (hmn : xs.length ≤ ys.length) {N : ℕ} (hN : ys.length ≤ N)
    (hcase : v = c ∨ N = ys.length) (σ : Equiv.Perm (Fin N)) :
    N * ((w + c ^ p * (ys.length - xs.length)) / ys.length) ≤ permCost c v p d xs ys σ := by
  rcases Nat.eq_zero_or_pos ys.length with h0 | h0
  · rw [h0]
    simp only [Nat.cast_zero, div_zero, mul_zero]
    exact permCost_nonneg hc hv p hd _ _ _
  obtain ⟨A, r, h1, h2, h3, h4, h5, h6⟩ := le_permCost_aux (v := v) hc hd hw hmn hN σ
  have hn : (0 : ℝ) < ys.length := by exact_mod_cast h0
  have hcp : 0 ≤ c ^ p := pow_nonneg hc p
  rw [h6, ← mul_div_assoc, div_le_iff₀ hn]
  rcases hcase with rfl | rfl
  · have h7 : (0 : ℝ) ≤ N - ys.length := by
      rw [sub_nonneg]
      exact_mod_cast hN
    have h8 : (0 : ℝ) ≤ N := Nat.cast_nonneg _
    nlinarith [mul_le_mul_of_nonneg_left h3 h7, mul_le_mul_of_nonneg_left h4 h8]
  · have hr : r = xs.length := by omega
    subst hr
    have : w + c ^ p * (ys.length - xs.length) ≤ A + (xs.length + ys.length - 2 * xs.length) * c ^ p := by
      nlinarith
    nlinarith

/-- The cost of a permutation is at least `N` times the mean cost. -/
theorem le_permCost {c v : ℝ} (hc : 0 ≤ c) (hv : 0 ≤ v) {p : ℕ} {d : X → Y → ℝ} (hd : ∀ x y, 0 ≤ d x y) {xs : List X}
    {ys : List Y} {w : ℝ} (hw : MinCost (cutMat c p d xs ys) w) {N : ℕ} (hN : max xs.length ys.length ≤ N)
    (hcase : v = c ∨ N = max xs.length ys.length) (σ : Equiv.Perm (Fin N)) :
    N * ((w + c ^ p * |(xs.length : ℝ) - ys.length|) / (max xs.length ys.length : ℕ)) ≤ permCost c v p d xs ys σ := by
  rcases le_total xs.length ys.length with h | h
  · rw [max_eq_right h] at hN hcase ⊢
    rw [abs_of_nonpos (by simpa using h), neg_sub]
    exact le_permCost_le hc hv hd hw h hN hcase σ
  · rw [max_eq_left h] at hN hcase ⊢
    rw [abs_of_nonneg (by simpa using h), ← permCost_swap]
    exact le_permCost_le hc hv (fun y x => hd x y) (cutMat_swap hw) h hN hcase σ.symm

theorem padDist_triangle {c v : ℝ} (hc : 0 ≤ c) (hv : v = 0 ∨ v = c) {d : X → X → ℝ} (hd : ∀ x y, 0 ≤ d x y)
    (a b e : Option X) (htri : ∀ x ∈ a, ∀ y ∈ b, ∀ z ∈ e, d x z ≤ d x y + d y z) :
    padDist c v d a e ≤ padDist c v d a b + padDist c v d b e := by
  have hv0 : 0 ≤ v ∧ v ≤ c := by rcases hv with rfl | rfl <;> simp [hc]
  rcases a with _ | x <;> rcases b with _ | y <;> rcases e with _ | z <;> simp only [padDist]
  all_goals try linarith
  · have := le_min (hd y z) hc
    linarith
  · have := min_le_right (d x z) c
    linarith
  · have := le_min (hd x y) hc
    linarith
  · have h1 := htri x rfl y rfl z rfl
    have h2 := hd x y
    have h3 := hd y z
    rcases le_total (d x y) c with h4 | h4 <;> rcases le_total (d y z) c with h5 | h5 <;>
      simp only [min_eq_left, min_eq_right, h4, h5]
    · exact (min_le_left _ _).trans h1
    · exact (min_le_right _ _).trans (by linarith)
    · exact (min_le_right _ _).trans (by linarith)
    · exact (min_le_right _ _).trans (by linarith)

/-- Minkowski: composing permutations. -/
theorem permCost_trans {c v : ℝ} (hc : 0 ≤ c) (hv : v = 0 ∨ v = c) {p : ℕ} (hp : 1 ≤ p) {d : X → X → ℝ}
    (hd : ∀ x y, 0 ≤ d x y) (xs ys zs : List X) (htri : ∀ x ∈ xs, ∀ y ∈ ys, ∀ z ∈ zs, d x z ≤ d x y + d y z) {N : ℕ}
    (σ τ : Equiv.Perm (Fin N)) : permCost c v p d xs zs (σ.trans τ) ^ (1 / (p : ℝ)) ≤
      permCost c v p d xs ys σ ^ (1 / (p : ℝ)) + permCost c v p d ys zs τ ^ (1 / (p : ℝ)) := by
  have hv0 : 0 ≤ v := by rcases hv with rfl | rfl <;> simp [hc]
  have h := Real.Lp_add_le_of_nonneg (s := (univ : Finset (Fin N))) (p := (p : ℝ))
    (f := fun i => padDist c v d xs[(i : ℕ)]? ys[(σ i : ℕ)]?)
    (g := fun i => padDist c v d ys[(σ i : ℕ)]? zs[(τ (σ i) : ℕ)]?) (by exact_mod_cast hp)
    (fun i _ => padDist_nonneg hc hv0 hd _ _) (fun i _ => padDist_nonneg hc hv0 hd _ _)
  simp only [Real.rpow_natCast] at h
  have e : ∑ i : Fin N, padDist c v d ys[(σ i : ℕ)]? zs[(τ (σ i) : ℕ)]? ^ p = permCost c v p d ys zs τ :=
    Equiv.sum_comp σ fun j : Fin N => padDist c v d ys[(j : ℕ)]? zs[(τ j : ℕ)]? ^ p
  rw [e] at h
  refine le_trans (Real.rpow_le_rpow (permCost_nonneg hc hv0 p hd _ _ _) ?_ (by positivity)) h
  exact Finset.sum_le_sum fun i _ => pow_le_pow_left₀ (padDist_nonneg hc hv0 hd _ _)
    (padDist_triangle hc hv hd _ _ _ fun x hx y hy z hz =>
      htri x (List.mem_of_getElem? hx) y (List.mem_of_getElem? hy) z (List.mem_of_getElem? hz)) _

/-- The triangle inequality for the mean costs. -/
theorem mean_triangle {c : ℝ} (hc : 0 ≤ c) {p : ℕ} (hp : 1 ≤ p) {d : X → X → ℝ} (hd : ∀ x y, 0 ≤ d x y)
    {xs ys zs : List X} (htri : ∀ x ∈ xs, ∀ y ∈ ys, ∀ z ∈ zs, d x z ≤ d x y + d y z) {u v w : ℝ} (hu : MinCost (cutMat c p d xs ys) u)
    (hv : MinCost (cutMat c p d ys zs) v) (hw : MinCost (cutMat c p d xs zs) w) :
    ((w + c ^ p * |(xs.length : ℝ) - zs.length|) / (max xs.length zs.length : ℕ)) ^ (1 / (p : ℝ)) ≤
      ((u + c ^ p * |(xs.length : ℝ) - ys.length|) / (max xs.length ys.length : ℕ)) ^ (1 / (p : ℝ)) +
      ((v + c ^ p * |(ys.length : ℝ) - zs.length|) / (max ys.length zs.length : ℕ)) ^ (1 / (p : ℝ)) := by
  have hcut : ∀ (xs ys : List X) i j, 0 ≤ cutMat c p d xs ys i j := fun _ _ i j => pow_nonneg (le_min (hd _ _) hc) _
  have hcp : 0 ≤ c ^ p := pow_nonneg hc p
  have hu0 := minCost_nonneg (hcut _ _) hu
  have hv0 := minCost_nonneg (hcut _ _) hv
  have hw0 := minCost_nonneg (hcut _ _) hw
  -- the mean cost times `N` bounds the cost of some permutation
  have key : ∀ {xs ys : List X} {u : ℝ}, 0 ≤ u → MinCost (cutMat c p d xs ys) u → ∀ {t : ℝ} {N : ℕ},
      max xs.length ys.length ≤ N → (t = 0 ∨ N = max xs.length ys.length) →
      ∃ σ : Equiv.Perm (Fin N), permCost c t p d xs ys σ ≤
        N * ((u + c ^ p * |(xs.length : ℝ) - ys.length|) / (max xs.length ys.length : ℕ)) := by
    intro xs ys u hu0 hu t N hN hcase
    obtain ⟨σ, hσ⟩ := exists_perm (v := t) hu hN
    refine ⟨σ, ?_⟩
    have h1 : permCost c t p d xs ys σ = u + c ^ p * |(xs.length : ℝ) - ys.length| := by
      rw [hσ]
      rcases hcase with rfl | rfl
      · rw [zero_pow (by omega)]
        ring
      · ring
    rw [h1]
    rcases Nat.eq_zero_or_pos (max xs.length ys.length) with h0 | h0
    · have hx : xs.length = 0 := by omega
      have hy : ys.length = 0 := by omega
      obtain ⟨S, hS, rfl⟩ := hu
      have hz : S = ∅ := by
        rw [← Finset.card_eq_zero, hS.1.size, hx]
        simp
      rw [hz]
      simp [matchCost, hx, hy]
    · have hm : (0 : ℝ) < (max xs.length ys.length : ℕ) := by exact_mod_cast h0
      rw [← mul_div_assoc, le_div_iff₀ hm, mul_comm]
      refine mul_le_mul_of_nonneg_right (by exact_mod_cast hN) ?_
      exact add_nonneg hu0 (mul_nonneg hcp (abs_nonneg _))
  -- enough: a number of slots `N` and a value `t` for two missing points
  have fin : ∀ (N : ℕ) (t : ℝ), (t = 0 ∨ t = c) → max xs.length zs.length ≤ N → max xs.length ys.length ≤ N →
      max ys.length zs.length ≤ N → (t = c ∨ N = max xs.length zs.length) →
      (t = 0 ∨ N = max xs.length ys.length) → (t = 0 ∨ N = max ys.length zs.length) → 0 < N →
      ((w + c ^ p * |(xs.length : ℝ) - zs.length|) / (max xs.length zs.length : ℕ)) ^ (1 / (p : ℝ)) ≤
      ((u + c ^ p * |(xs.length : ℝ) - ys.length|) / (max xs.length ys.length : ℕ)) ^ (1 / (p : ℝ)) +
      ((v + c ^ p * |(ys.length : ℝ) - zs.length|) / (max ys.length zs.length : ℕ)) ^ (1 / (p : ℝ)) := by
    intro N t ht h1 h2 h3 h4 h5 h6 hN
    have ht0 : 0 ≤ t := by rcases ht with rfl | rfl <;> simp [hc]
    obtain ⟨σ, hσ⟩ := key hu0 hu h2 h5
    obtain ⟨τ, hτ⟩ := key hv0 hv h3 h6
    have hσ0 : 0 ≤ permCost c t p d xs ys σ := permCost_nonneg hc ht0 p hd _ _ _
    have hτ0 : 0 ≤ permCost c t p d ys zs τ := permCost_nonneg hc ht0 p hd _ _ _
    have hl := le_permCost hc ht0 hd hw h1 h4 (σ.trans τ)
    have hm := permCost_trans hc ht hp hd xs ys zs htri σ τ
    have hNr : (0 : ℝ) < (N : ℝ) ^ (1 / (p : ℝ)) := Real.rpow_pos_of_pos (by exact_mod_cast hN) _
    have hq : (0 : ℝ) ≤ 1 / (p : ℝ) := by positivity
    have n1 : 0 ≤ (w + c ^ p * |(xs.length : ℝ) - zs.length|) / (max xs.length zs.length : ℕ) :=
      div_nonneg (add_nonneg hw0 (mul_nonneg hcp (abs_nonneg _))) (Nat.cast_nonneg _)
    have n2 : 0 ≤ (u + c ^ p * |(xs.length : ℝ) - ys.length|) / (max xs.length ys.length : ℕ) :=
      div_nonneg (add_nonneg hu0 (mul_nonneg hcp (abs_nonneg _))) (Nat.cast_nonneg _)
    have n3 : 0 ≤ (v + c ^ p * |(ys.length : ℝ) - zs.length|) / (max ys.length zs.length : ℕ) :=
      div_nonneg (add_nonneg hv0 (mul_nonneg hcp (abs_nonneg _))) (Nat.cast_nonneg _)
    have a1 := Real.rpow_le_rpow (mul_nonneg (Nat.cast_nonneg N) n1) hl hq
    have a2 := Real.rpow_le_rpow hσ0 hσ hq
    have a3 := Real.rpow_le_rpow hτ0 hτ hq
    rw [Real.mul_rpow (Nat.cast_nonneg _) n1] at a1
    rw [Real.mul_rpow (Nat.cast_nonneg _) n2] at a2
    rw [Real.mul_rpow (Nat.cast_nonneg _) n3] at a3
    refine le_of_mul_le_mul_left ?_ hNr
    rw [mul_add]
    linarith
  rcases le_or_gt ys.length (max xs.length zs.length) with h | h
  · rcases Nat.eq_zero_or_pos (max xs.length zs.length) with h0 | h0
    · have e1 : (max xs.length zs.length : ℕ) = 0 := h0
      rw [e1, Nat.cast_zero, div_zero, Real.zero_rpow (by
        have : (0 : ℝ) < p := by exact_mod_cast hp
        positivity)]
      refine add_nonneg (Real.rpow_nonneg ?_ _) (Real.rpow_nonneg ?_ _)
      · exact div_nonneg (add_nonneg hu0 (mul_nonneg hcp (abs_nonneg _))) (Nat.cast_nonneg _)
      · exact div_nonneg (add_nonneg hv0 (mul_nonneg hcp (abs_nonneg _))) (Nat.cast_nonneg _)
    · exact fin (max xs.length zs.length) 0 (.inl rfl) le_rfl (by omega) (by omega) (.inr rfl) (.inl rfl) (.inl rfl) h0
  · exact fin ys.length c (.inr rfl) (by omega) (by omega) (by omega) (.inl rfl) (.inr (by omega)) (.inr (by omega))
      (by omega)

/-- The triangle inequality for OSPA: localisation and cardinality combined as in the cited paper. -/
theorem isOspa_triangle {c : ℝ} (hc : 0 ≤ c) {p : ℕ} (hp : 1 ≤ p) {d : X → X → ℝ} (hd : ∀ x y, 0 ≤ d x y)
    {xs ys zs : List X} (htri : ∀ x ∈ xs, ∀ y ∈ ys, ∀ z ∈ zs, d x z ≤ d x y + d y z) {l1 r1 l2 r2 l3 r3 : ℝ}
    (h1 : IsOspa c p d xs ys l1 r1) (h2 : IsOspa c p d ys zs l2 r2) (h3 : IsOspa c p d xs zs l3 r3) :
    (l3 ^ p + r3 ^ p) ^ (1 / (p : ℝ)) ≤ (l1 ^ p + r1 ^ p) ^ (1 / (p : ℝ)) + (l2 ^ p + r2 ^ p) ^ (1 / (p : ℝ)) := by
  obtain ⟨u, hu, rfl, rfl⟩ := h1
  obtain ⟨v, hv, rfl, rfl⟩ := h2
  obtain ⟨w, hw, rfl, rfl⟩ := h3
  have hcut : ∀ (xs ys : List X) i j, 0 ≤ cutMat c p d xs ys i j := fun _ _ i j => pow_nonneg (le_min (hd _ _) hc) _
  have hcp : 0 ≤ c ^ p := pow_nonneg hc p
  have hp0 : p ≠ 0 := by omega
  have e : ∀ {xs ys : List X} {u : ℝ}, MinCost (cutMat c p d xs ys) u →
      ((u / (max xs.length ys.length : ℕ)) ^ (1 / (p : ℝ))) ^ p +
        ((c ^ p * |(xs.length : ℝ) - ys.length| / (max xs.length ys.length : ℕ)) ^ (1 / (p : ℝ))) ^ p =
      (u + c ^ p * |(xs.length : ℝ) - ys.length|) / (max xs.length ys.length : ℕ) := by
    intro xs ys u hu
    rw [Ospa.rpow_pow_root (div_nonneg (minCost_nonneg (hcut _ _) hu) (Nat.cast_nonneg _)) hp0,
      Ospa.rpow_pow_root (div_nonneg (mul_nonneg hcp (abs_nonneg _)) (Nat.cast_nonneg _)) hp0, add_div]
  rw [e hu, e hv, e hw]
  exact mean_triangle hc hp hd htri hu hv hw

theorem isOspa_nonneg {c : ℝ} (hc : 0 ≤ c) {p : ℕ} {d : X → Y → ℝ} (hd : ∀ x y, 0 ≤ d x y)
    {xs : List X} {ys : List Y} {l r : ℝ} (h : IsOspa c p d xs ys l r) : 0 ≤ l ∧ 0 ≤ r := by
  obtain ⟨u, hu, rfl, rfl⟩ := h
  have hcut : ∀ i j, 0 ≤ cutMat c p d xs ys i j := fun i j => pow_nonneg (le_min (hd _ _) hc) _
  exact ⟨Real.rpow_nonneg (div_nonneg (minCost_nonneg hcut hu) (Nat.cast_nonneg _)) _,
    Real.rpow_nonneg (div_nonneg (mul_nonneg (pow_nonneg hc p) (abs_nonneg _)) (Nat.cast_nonneg _)) _⟩

/-- The sum of the components is at most `2 ^ (1 - 1/p)` times their combination. -/
theorem total_triangle {p : ℕ} (hp : 1 ≤ p) {l1 r1 l2 r2 l3 r3 : ℝ} (h1 : 0 ≤ l1 ∧ 0 ≤ r1) (h2 : 0 ≤ l2 ∧ 0 ≤ r2)
    (h3 : 0 ≤ l3 ∧ 0 ≤ r3) (h : (l3 ^ p + r3 ^ p) ^ (1 / (p : ℝ)) ≤
      (l1 ^ p + r1 ^ p) ^ (1 / (p : ℝ)) + (l2 ^ p + r2 ^ p) ^ (1 / (p : ℝ))) :
    (l3 + r3) ^ p ≤ 2 ^ (p - 1) * ((l1 + r1) + (l2 + r2)) ^ p := by
  have hp0 : p ≠ 0 := by omega
  have hle : ∀ l r : ℝ, 0 ≤ l → 0 ≤ r → (l ^ p + r ^ p) ^ (1 / (p : ℝ)) ≤ l + r := by
    intro l r hl hr
    have h1 : l ^ p + r ^ p ≤ (l + r) ^ p := pow_add_pow_le hl hr hp0
    have h2 := Real.rpow_le_rpow (add_nonneg (pow_nonneg hl p) (pow_nonneg hr p)) h1 (z := 1 / (p : ℝ)) (by positivity)
    rwa [Ospa.root_pow (add_nonneg hl hr) hp0] at h2
  have h4 := h.trans (add_le_add (hle _ _ h1.1 h1.2) (hle _ _ h2.1 h2.2))
  have h5 : 0 ≤ l3 ^ p + r3 ^ p := add_nonneg (pow_nonneg h3.1 p) (pow_nonneg h3.2 p)
  have h6 := pow_le_pow_left₀ (Real.rpow_nonneg h5 _) h4 p
  rw [Ospa.rpow_pow_root h5 hp0] at h6
  exact (add_pow_le h3.1 h3.2 p).trans (mul_le_mul_of_nonneg_left h6 (by positivity))

/-! ### Tracks -/

/-- The error of two tracks at one time, zero if neither exists. -/
noncomputable def err0 (c : ℝ) (d : X → Y → ℝ) (a : Option X × Option Y) : ℝ := padDist c 0 d a.1 a.2

/-- Whether one of two tracks exists. -/
def one (a : Option X × Option Y) : ℝ := if a.1.isSome || a.2.isSome then 1 else 0

theorem existing_sum (c : ℝ) (d : X → Y → ℝ) : ∀ (l : List (Option X × Option Y)),
    ((l.filter fun a => a.1.isSome || a.2.isSome).map (errAt c d)).sum = (l.map (err0 c d)).sum ∧
    ((l.filter fun a => a.1.isSome || a.2.isSome).length : ℝ) = (l.map one).sum
  | [] => by simp
  | (a, b) :: l => by
    obtain ⟨h1, h2⟩ := existing_sum c d l
    cases a <;> cases b <;> simp [h1, h2, errAt, err0, one, padDist] <;> ring

theorem trackAvg_eq (c : ℝ) (d : X → Y → ℝ) (hx : List (Option X)) (hy : List (Option Y)) :
    trackAvg c d hx hy = ((hx.zip hy).map (err0 c d)).sum / ((hx.zip hy).map one).sum := by
  unfold trackAvg existing
  obtain ⟨h1, h2⟩ := existing_sum c d (hx.zip hy)
  rw [h1, h2]

/-- The sums that occur in the triangle inequality: `U` times at which one of three tracks exists, `k` of them only
the second. -/
theorem track_sums {c : ℝ} (hc : 0 ≤ c) {d : X → X → ℝ} (hd : ∀ x y, 0 ≤ d x y)
    (htri : ∀ x y z, d x z ≤ d x y + d y z) : ∀ (L : ℕ) (hx hy hz : List (Option X)), hx.length = L → hy.length = L →
    hz.length = L → ∃ U k : ℝ, 0 ≤ k ∧
      ((hx.zip hz).map one).sum = U - k ∧ ((hx.zip hy).map one).sum ≤ U ∧ ((hy.zip hz).map one).sum ≤ U ∧
      0 ≤ ((hx.zip hy).map (err0 c d)).sum ∧ ((hx.zip hy).map (err0 c d)).sum ≤ c * ((hx.zip hy).map one).sum ∧
      0 ≤ ((hy.zip hz).map (err0 c d)).sum ∧ ((hy.zip hz).map (err0 c d)).sum ≤ c * ((hy.zip hz).map one).sum ∧
      0 ≤ ((hx.zip hz).map (err0 c d)).sum ∧ ((hx.zip hz).map (err0 c d)).sum ≤ c * (U - k) ∧
      0 ≤ ((hx.zip hy).map one).sum ∧ 0 ≤ ((hy.zip hz).map one).sum ∧ 0 ≤ U - k ∧
      ((hx.zip hz).map (err0 c d)).sum + 2 * (k * c) ≤
        ((hx.zip hy).map (err0 c d)).sum + ((hy.zip hz).map (err0 c d)).sum
  | 0, [], [], [], _, _, _ => ⟨0, 0, by simp⟩
  | L + 1, a :: hx, b :: hy, e :: hz, h1, h2, h3 => by
    obtain ⟨U, k, q⟩ := track_sums hc hd htri L hx hy hz (by simpa using h1) (by simpa using h2) (by simpa using h3)
    obtain ⟨q1, q2, q3, q4, q5, q6, q7, q8, q9, q10, q11, q12, q13, q14⟩ := q
    have hp : ∀ a b : Option X, 0 ≤ err0 c d (a, b) ∧ err0 c d (a, b) ≤ c * one (a, b) ∧ 0 ≤ one (a, b) := by
      intro a b
      refine ⟨padDist_nonneg hc le_rfl hd _ _, ?_, ?_⟩
      · cases a <;> cases b <;> simp [err0, one, padDist]
      · unfold one
        split <;> norm_num
    have t1 := hp a b
    have t2 := hp b e
    have t3 := hp a e
    simp only [List.zip_cons_cons, List.map_cons, List.sum_cons]
    have hU : ∃ u k' : ℝ, 0 ≤ k' ∧ one (a, e) = u - k' ∧ one (a, b) ≤ u ∧ one (b, e) ≤ u ∧
        err0 c d (a, e) + 2 * (k' * c) ≤ err0 c d (a, b) + err0 c d (b, e) := by
      rcases a with _ | x <;> rcases b with _ | y <;> rcases e with _ | z
      · exact ⟨0, 0, by simp [one, err0, padDist]⟩
      · exact ⟨1, 0, by simp [one, err0, padDist]⟩
      · exact ⟨1, 1, by
          simp only [one, err0, padDist]
          norm_num
          linarith⟩
      · have := le_min (hd y z) hc
        exact ⟨1, 0, by simpa [one, err0, padDist] using ⟨hd y z, hc⟩⟩
      · exact ⟨1, 0, by simp [one, err0, padDist]⟩
      · refine ⟨1, 0, by simp [one], by simp [one], by simp [one], by simp [one], ?_⟩
        have := padDist_triangle hc (.inl rfl) hd (some x) none (some z) (by simp)
        simpa [err0] using this
      · exact ⟨1, 0, by simpa [one, err0, padDist] using ⟨hd x y, hc⟩⟩
      · refine ⟨1, 0, by simp [one], by simp [one], by simp [one], by simp [one], ?_⟩
        have := padDist_triangle hc (.inl rfl) hd (some x) (some y) (some z) (fun x' _ y' _ z' _ => htri x' y' z')
        simpa [err0] using this
    obtain ⟨u, k', v1, v2, v3, v4, v5⟩ := hU
    refine ⟨u + U, k' + k, by linarith, by linarith, by linarith, by linarith, by linarith, by linarith, by linarith,
      by linarith, by linarith, ?_, by linarith, by linarith, ?_, by linarith⟩
    · have := t3.2.1
      rw [v2] at this
      linarith
    · have := t3.2.2
      rw [v2] at this
      linarith

/-- The time-averaged distance between tracks satisfies the triangle inequality. -/
theorem trackAvg_triangle {c : ℝ} (hc : 0 ≤ c) {d : X → X → ℝ} (hd : ∀ x y, 0 ≤ d x y)
    (htri : ∀ x y z, d x z ≤ d x y + d y z) {L : ℕ} {hx hy hz : List (Option X)} (h1 : hx.length = L)
    (h2 : hy.length = L) (h3 : hz.length = L) : trackAvg c d hx hz ≤ trackAvg c d hx hy + trackAvg c d hy hz := by
  obtain ⟨U, k, q1, q2, q3, q4, q5, q6, q7, q8, q9, q10, q11, q12, q13, q14⟩ := track_sums hc hd htri L hx hy hz h1 h2 h3
  rw [trackAvg_eq, trackAvg_eq, trackAvg_eq, q2]
  set A := ((hx.zip hy).map (err0 c d)).sum
  set B := ((hy.zip hz).map (err0 c d)).sum
  set E := ((hx.zip hz).map (err0 c d)).sum
  set m := ((hx.zip hy).map one).sum
  set n := ((hy.zip hz).map one).sum
  have hdiv : ∀ a m : ℝ, 0 ≤ a → a ≤ c * m → 0 ≤ m → m ≤ U → a / U ≤ a / m := by
    intro a m ha ham hm hmU
    rcases hm.lt_or_eq with h | h
    · exact div_le_div_of_nonneg_left ha h hmU
    · rw [← h] at ham ⊢
      have : a = 0 := by linarith
      rw [this]
      simp
  have hA := hdiv A m q5 q6 q11 q3
  have hB := hdiv B n q7 q8 q12 q4
  refine le_trans ?_ (add_le_add hA hB)
  rcases q13.lt_or_eq with h | h
  · have hU : 0 < U := by linarith
    rw [← add_div, div_le_div_iff₀ h hU]
    have e1 : E * k ≤ c * (U - k) * k := mul_le_mul_of_nonneg_right q10 q1
    have e2 : (E + 2 * (k * c)) * (U - k) ≤ (A + B) * (U - k) := mul_le_mul_of_nonneg_right q14 q13
    have e3 : 0 ≤ k * c * (U - k) := mul_nonneg (mul_nonneg q1 hc) q13
    nlinarith
  · rw [← h, div_zero]
    have hU : 0 ≤ U := by linarith
    exact add_nonneg (div_nonneg q5 hU) (div_nonneg q7 hU)

end Gasur.Spec
