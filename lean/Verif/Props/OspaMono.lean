import Verif.Props.Ospa
import Mathlib.Analysis.MeanInequalitiesPow

/-!
# Property C112: OSPA grows with the cut-off and the order
-/

namespace Gasur.Props

open Gasur.Ospa Gasur.Spec

variable {s : ℕ}

/-- The power means grow with the exponent, also if some of the `N` terms are missing (zero). -/
theorem powerMean_mono {ι : Type*} (S : Finset ι) (a : ι → ℝ) (ha : ∀ i ∈ S, 0 ≤ a i) {N : ℕ} (hS : S.card ≤ N) (hN : 0 < N)
    {p q : ℕ} (hp : 1 ≤ p) (hpq : p ≤ q) :
    (1 / (N : ℝ) * ∑ i ∈ S, a i ^ p) ^ (1 / (p : ℝ)) ≤ (1 / (N : ℝ) * ∑ i ∈ S, a i ^ q) ^ (1 / (q : ℝ)) := by
  have hN' : (0 : ℝ) < N := by exact_mod_cast hN
  have hp' : (0 : ℝ) < p := by exact_mod_cast hp
  have hq' : (0 : ℝ) < q := by exact_mod_cast (by omega : 0 < q)
  have hr : 1 ≤ (q : ℝ) / p := by
    rw [one_le_div hp']
    exact_mod_cast hpq
  set X : ℝ := 1 / (N : ℝ) * ∑ i ∈ S, a i ^ p with hX
  have hX0 : 0 ≤ X := mul_nonneg (by positivity) (Finset.sum_nonneg fun i hi => pow_nonneg (ha i hi) _)
  -- the mean of the p-th powers to the power q/p
  have key : X ^ ((q : ℝ) / p) ≤ 1 / (N : ℝ) * ∑ i ∈ S, a i ^ q := by
    let w : Option ι → ℝ := fun o => match o with | none => 1 - S.card / (N : ℝ) | some _ => 1 / (N : ℝ)
    let z : Option ι → ℝ := fun o => match o with | none => 0 | some i => a i ^ p
    have hw1 : ∑ o ∈ Finset.insertNone S, w o = 1 := by
      rw [Finset.sum_insertNone]
      show 1 - S.card / (N : ℝ) + ∑ _i ∈ S, 1 / (N : ℝ) = 1
      rw [Finset.sum_const, nsmul_eq_mul]
      ring
    have hw0 : ∀ o ∈ Finset.insertNone S, 0 ≤ w o := by
      intro o _
      cases o with
      | none =>
        show 0 ≤ 1 - (S.card : ℝ) / N
        rw [sub_nonneg, div_le_one hN']
        exact_mod_cast hS
      | some i => exact one_div_nonneg.2 hN'.le
    have hz0 : ∀ o ∈ Finset.insertNone S, 0 ≤ z o := by
      intro o ho
      cases o with
      | none => exact le_rfl
      | some i => exact pow_nonneg (ha i (Finset.some_mem_insertNone.1 ho)) _
    have h := Real.rpow_arith_mean_le_arith_mean_rpow (Finset.insertNone S) w z hw0 hw1 hz0 hr
    rw [Finset.sum_insertNone, Finset.sum_insertNone] at h
    have e1 : w none * z none + ∑ i ∈ S, w (some i) * z (some i) = X := by
      show (1 - (S.card : ℝ) / N) * 0 + ∑ i ∈ S, 1 / (N : ℝ) * a i ^ p = X
      rw [mul_zero, zero_add, hX, Finset.mul_sum]
    have e2 : w none * z none ^ ((q : ℝ) / p) + ∑ i ∈ S, w (some i) * z (some i) ^ ((q : ℝ) / p) =
        1 / (N : ℝ) * ∑ i ∈ S, a i ^ q := by
      show (1 - (S.card : ℝ) / N) * (0 : ℝ) ^ ((q : ℝ) / p) + ∑ i ∈ S, 1 / (N : ℝ) * (a i ^ p) ^ ((q : ℝ) / p) = _
      rw [Real.zero_rpow (by positivity), mul_zero, zero_add, Finset.mul_sum]
      refine Finset.sum_congr rfl fun i hi => ?_
      rw [← Real.rpow_natCast (a i) p, ← Real.rpow_mul (ha i hi), mul_div_cancel₀ _ hp'.ne', Real.rpow_natCast]
    rw [e1, e2] at h
    exact h
  have h2 := Real.rpow_le_rpow (Real.rpow_nonneg hX0 _) key (one_div_nonneg.2 hq'.le)
  rw [← Real.rpow_mul hX0] at h2
  have e3 : (q : ℝ) / p * (1 / q) = 1 / p := by field_simp
  rwa [e3] at h2

/-- The entries of the distance matrix grow with the cut-off, and whether one is undefined does not depend on it. -/
theorem pairDist_mono {X Y : Type*} {c c' : ℝ} (hc : 0 ≤ c) (hcc : c ≤ c') (u : Bool) (d : X → Y → ℝ)
    (x : Option X) (y : Option Y) (hd : ∀ a b, x = some a → y = some b → 0 ≤ d a b) :
    (pairDist c u d x y = none ↔ pairDist c' u d x y = none) ∧ 0 ≤ (pairDist c u d x y).getD 0 ∧
    (pairDist c u d x y).getD 0 ≤ (pairDist c' u d x y).getD 0 := by
  have hc' := hc.trans hcc
  cases x with
  | none =>
    cases y with
    | none => cases u <;> simp [pairDist, hc, hc']
    | some y => simp [pairDist, hc, hcc]
  | some x =>
    cases y with
    | none => simp [pairDist, hc, hcc]
    | some y =>
      simp only [pairDist, Option.getD_some, reduceCtorEq, true_and]
      refine ⟨le_min (hd x y rfl rfl) hc, ?_⟩
      exact min_le_min le_rfl hcc

theorem mem_row_of_slot {α : Type*} {l : Row α} {i : ℕ} {a : α} (ha : slot l i = some a) : some a ∈ l := by
  unfold slot at ha
  cases hx : l[i]? with
  | none => rw [hx] at ha; exact (nomatch ha)
  | some o =>
    rw [hx] at ha
    rw [← ha]
    exact List.mem_of_getElem? hx

/-- One time step. -/
theorem ospaStep_mono {X Y : Type*} {lsa : Lsa} (hl : ∀ m n D, IsOptimal D (lsa m n D)) {c c' : ℝ} (hc : 0 ≤ c) (hcc : c ≤ c')
    {p q : ℕ} (hp : 1 ≤ p) (hpq : p ≤ q) (u : Bool) (d : X → Y → ℝ) (e : Row X) (t : Row Y)
    (hd : ∀ a b, some a ∈ e → some b ∈ t → 0 ≤ d a b) {r : ℝ × ℝ} (h : ospaStep lsa c p u d e t = .ok r) :
    ∃ r' : ℝ × ℝ, ospaStep lsa c' q u d e t = .ok r' ∧ r.1 ≤ r'.1 ∧ r.2 ≤ r'.2 := by
  have hc' := hc.trans hcc
  unfold ospaStep at h ⊢
  by_cases h1 : count t = 0 ∧ count e = 0
  · rw [if_pos h1] at h ⊢
    obtain rfl := Except.ok.inj h
    exact ⟨_, rfl, le_rfl, le_rfl⟩
  rw [if_neg h1] at h ⊢
  by_cases h2 : count t = 0 ∨ count e = 0
  · rw [if_pos h2] at h ⊢
    obtain rfl := Except.ok.inj h
    exact ⟨_, rfl, le_rfl, hcc⟩
  rw [if_neg h2] at h ⊢
  set D : ℕ → ℕ → Option ℝ := fun i j => pairDist c u d (slot e i) (slot t j) with hD
  set D' : ℕ → ℕ → Option ℝ := fun i j => pairDist c' u d (slot e i) (slot t j) with hD'
  have hmono : ∀ i j, (D i j = none ↔ D' i j = none) ∧ 0 ≤ (D i j).getD 0 ∧ (D i j).getD 0 ≤ (D' i j).getD 0 :=
    fun i j => pairDist_mono hc hcc u d _ _ (fun a b ha hb => hd a b (mem_row_of_slot ha) (mem_row_of_slot hb))
  unfold assignCost at h ⊢
  by_cases hn : ∃ (i : Fin (count e)) (j : Fin (count t)), D i j = none
  · rw [if_pos hn] at h
    exact (nomatch h)
  rw [if_neg hn] at h
  dsimp only at h
  have hn' : ¬ ∃ (i : Fin (count e)) (j : Fin (count t)), D' i j = none := by
    rintro ⟨i, j, hij⟩
    exact hn ⟨i, j, (hmono i j).1.2 hij⟩
  rw [if_neg hn']
  dsimp only
  rw [if_neg (by omega : p ≠ 0)] at h
  rw [if_neg (by omega : q ≠ 0)]
  obtain rfl := Except.ok.inj h
  refine ⟨_, rfl, ?_, ?_⟩
  · dsimp only
    set N := max (count t) (count e) with hNdef
    have hN : 0 < N := by
      push Not at h2
      omega
    have hN' : (0 : ℝ) < N := by exact_mod_cast hN
    set S := lsa (count e) (count t) (fun i j => ((D i j).getD 0) ^ p) with hS
    set S' := lsa (count e) (count t) (fun i j => ((D' i j).getD 0) ^ q) with hS'
    have o1 : IsOptimal (fun (i : Fin (count e)) (j : Fin (count t)) => ((D i j).getD 0) ^ p) S := hl _ _ _
    have o2 : IsOptimal (fun (i : Fin (count e)) (j : Fin (count t)) => ((D' i j).getD 0) ^ q) S' := hl _ _ _
    have s1 : ∑ a ∈ S, ((D a.1 a.2).getD 0) ^ p ≤ ∑ a ∈ S', ((D a.1 a.2).getD 0) ^ p := o1.2 S' o2.1
    have hcard : S'.card ≤ N := by
      rw [o2.1.size]
      omega
    have s2 := powerMean_mono S' (fun a => (D a.1 a.2).getD 0) (fun a _ => (hmono _ _).2.1) hcard hN hp hpq
    have s3 : ∑ a ∈ S', ((D a.1 a.2).getD 0) ^ q ≤ ∑ a ∈ S', ((D' a.1 a.2).getD 0) ^ q :=
      Finset.sum_le_sum fun a _ => pow_le_pow_left₀ (hmono _ _).2.1 (hmono _ _).2.2 _
    have n1 : 0 ≤ ∑ a ∈ S, ((D a.1 a.2).getD 0) ^ p := Finset.sum_nonneg fun a _ => pow_nonneg (hmono _ _).2.1 _
    have n2 : 0 ≤ ∑ a ∈ S', ((D a.1 a.2).getD 0) ^ q := Finset.sum_nonneg fun a _ => pow_nonneg (hmono _ _).2.1 _
    have i0 : (0 : ℝ) ≤ 1 / N := one_div_nonneg.2 hN'.le
    calc (1 / (N : ℝ) * ∑ a ∈ S, ((D a.1 a.2).getD 0) ^ p) ^ (1 / (p : ℝ))
        ≤ (1 / (N : ℝ) * ∑ a ∈ S', ((D a.1 a.2).getD 0) ^ p) ^ (1 / (p : ℝ)) :=
          Real.rpow_le_rpow (mul_nonneg i0 n1) (mul_le_mul_of_nonneg_left s1 i0) (by positivity)
      _ ≤ (1 / (N : ℝ) * ∑ a ∈ S', ((D a.1 a.2).getD 0) ^ q) ^ (1 / (q : ℝ)) := s2
      _ ≤ (1 / (N : ℝ) * ∑ a ∈ S', ((D' a.1 a.2).getD 0) ^ q) ^ (1 / (q : ℝ)) :=
          Real.rpow_le_rpow (mul_nonneg i0 n2) (mul_le_mul_of_nonneg_left s3 i0) (by positivity)
  · dsimp only
    set N := max (count t) (count e) with hNdef
    have hN : 0 < N := by
      push Not at h2
      omega
    have hN' : (0 : ℝ) < N := by exact_mod_cast hN
    have hp' : (0 : ℝ) < p := by exact_mod_cast hp
    have hq' : (0 : ℝ) < q := by exact_mod_cast (by omega : 0 < q)
    have hk : |(count t : ℝ) - count e| ≤ N := by
      have a1 : (count t : ℝ) ≤ N := by exact_mod_cast le_max_left _ _
      have a2 : (count e : ℝ) ≤ N := by exact_mod_cast le_max_right _ _
      have a3 : (0 : ℝ) ≤ count t := Nat.cast_nonneg _
      have a4 : (0 : ℝ) ≤ count e := Nat.cast_nonneg _
      rw [abs_le]
      constructor <;> linarith
    set k := |(count t : ℝ) - count e| with hkdef
    have hk0 : 0 ≤ k := abs_nonneg _
    have hr0 : 0 ≤ k / N := div_nonneg hk0 hN'.le
    have hr1 : k / N ≤ 1 := (div_le_one hN').2 hk
    have form : ∀ (x : ℝ) (n : ℕ), 0 ≤ x → (0 : ℝ) < n → (1 / (N : ℝ) * x ^ n * k) ^ (1 / (n : ℝ)) = x * (k / N) ^ (1 / (n : ℝ)) := by
      intro x n hx hn
      rw [show 1 / (N : ℝ) * x ^ n * k = x ^ n * (k / N) by ring, Real.mul_rpow (pow_nonneg hx _) hr0, ← Real.rpow_natCast x n,
        ← Real.rpow_mul hx, mul_one_div_cancel hn.ne', Real.rpow_one]
    rw [form c p hc hp', form c' q hc' hq']
    refine mul_le_mul hcc ?_ (Real.rpow_nonneg hr0 _) hc'
    rcases eq_or_lt_of_le hr0 with h0 | h0
    · rw [← h0, Real.zero_rpow (by positivity), Real.zero_rpow (by positivity)]
    · exact Real.rpow_le_rpow_of_exponent_ge h0 hr1 (one_div_le_one_div_of_le hp' (by exact_mod_cast hpq))

/-- The loop over the time steps. -/
theorem ospaLoop_mono {X Y : Type*} {lsa : Lsa} (hl : ∀ m n D, IsOptimal D (lsa m n D)) {c c' : ℝ} (hc : 0 ≤ c) (hcc : c ≤ c')
    {p q : ℕ} (hp : 1 ≤ p) (hpq : p ≤ q) (u : Bool) (d : X → Y → ℝ) (est : List (Row X)) (truth : List (Row Y))
    (hd : ∀ e ∈ est, ∀ t ∈ truth, ∀ a b, some a ∈ e → some b ∈ t → 0 ≤ d a b) {out : List (ℝ × ℝ)}
    (h : ospaLoop lsa c p u d est truth = .ok out) :
    ∃ out' : List (ℝ × ℝ), ospaLoop lsa c' q u d est truth = .ok out' ∧
      List.Forall₂ (fun r r' => r.1 ≤ r'.1 ∧ r.2 ≤ r'.2 ∧ total r ≤ total r') out out' := by
  induction truth generalizing est out with
  | nil =>
    have : out = [] := by
      cases est <;> simpa [ospaLoop] using h.symm
    subst this
    exact ⟨[], by cases est <;> rfl, .nil⟩
  | cons t ts ih =>
    cases est with
    | nil => exact (nomatch h)
    | cons e es =>
      unfold ospaLoop at h ⊢
      split at h
      · exact (nomatch h)
      rename_i r hr
      split at h
      · exact (nomatch h)
      rename_i l hl'
      obtain rfl := Except.ok.inj h
      obtain ⟨r', g1, g2, g3⟩ := ospaStep_mono hl hc hcc hp hpq u d e t (hd e (by simp) t (by simp)) hr
      obtain ⟨l', k1, k2⟩ := ih es (fun e' he' t' ht' => hd e' (by simp [he']) t' (by simp [ht'])) hl'
      rw [g1]
      dsimp only
      rw [k1]
      exact ⟨r' :: l', rfl, .cons ⟨g2, g3, add_le_add g2 g3⟩ k2⟩

theorem effCut_mono (m : Method) {c c' : ℝ} (h : c ≤ c') : effCut m c ≤ effCut m c' := by
  unfold effCut
  split
  · exact min_le_min le_rfl h
  · exact h

/-- **C112.** For every two series of point sets (whatever slots the objects occupy), core distance and options: if
`calculate_ospa` succeeds with cut-off `c` and order `p ≥ 1`, it succeeds with every cut-off `c' ≥ c` and order `q ≥ p`, and at
each time step localisation, cardinality and their sum are at least as large. So no choice of a larger cut-off or order makes an
estimate look better. (For the Hellinger distance the covariances have to be positive definite.) -/
theorem C112_ospa_monotone (lsa : Lsa) (hl : ∀ m n D, IsOptimal D (lsa m n D)) (est truth : List (Row (Obj s)))
    {c c' : ℝ} (hc : 0 ≤ c) (hcc : c ≤ c') {p q : ℕ} (hp : 1 ≤ p) (hpq : p ≤ q) (useEmpty : Bool) (method : Option Method)
    (hasTrueCov hasEstCov : Bool)
    (hpd : effMethod method hasTrueCov hasEstCov = .hellinger → AllPD est ∧ AllPD truth)
    {out : List (ℝ × ℝ)} (h : calculateOspa lsa est truth c p useEmpty method hasTrueCov hasEstCov = .ok out) :
    ∃ out' : List (ℝ × ℝ), calculateOspa lsa est truth c' q useEmpty method hasTrueCov hasEstCov = .ok out' ∧
      List.Forall₂ (fun r r' => r.1 ≤ r'.1 ∧ r.2 ≤ r'.2 ∧ total r ≤ total r') out out' := by
  obtain ⟨h, hn⟩ := calculateOspa_of_ok h
  unfold calculateOspa
  rw [if_neg hn]
  exact ospaLoop_mono hl (effCut_bounds _ hc).1 (effCut_mono _ hcc) hp hpq useEmpty _ est truth (fun e he t ht a b ha hb =>
    coreDist_nonneg _ a b fun hM => ⟨(hpd hM).1 e he a ha, (hpd hM).2 t ht b hb⟩) h

/-! ### OSPA(2) -/

/-- The components of the OSPA distance grow with cut-off, order and distances. -/
theorem isOspa_mono {X Y : Type*} {c c' : ℝ} (hc : 0 ≤ c) (hcc : c ≤ c') {p q : ℕ} (hp : 1 ≤ p) (hpq : p ≤ q) {d d' : X → Y → ℝ}
    {xs : List X} {ys : List Y} (hd : ∀ x ∈ xs, ∀ y ∈ ys, 0 ≤ d x y ∧ d x y ≤ d' x y) {l r l' r' : ℝ}
    (h : IsOspa c p d xs ys l r) (h' : IsOspa c' q d' xs ys l' r') : l ≤ l' ∧ r ≤ r' := by
  have hc' := hc.trans hcc
  obtain ⟨v, ⟨S, o1, rfl⟩, rfl, rfl⟩ := h
  obtain ⟨v', ⟨S', o2, rfl⟩, rfl, rfl⟩ := h'
  have hp' : (0 : ℝ) < p := by exact_mod_cast hp
  have hq' : (0 : ℝ) < q := by exact_mod_cast (by omega : 0 < q)
  set N := max xs.length ys.length with hNdef
  have hcell : ∀ (i : Fin xs.length) (j : Fin ys.length), 0 ≤ min (d xs[i] ys[j]) c ∧ min (d xs[i] ys[j]) c ≤ min (d' xs[i] ys[j]) c' := by
    intro i j
    obtain ⟨h1, h2⟩ := hd xs[i] (List.getElem_mem _) ys[j] (List.getElem_mem _)
    exact ⟨le_min h1 hc, min_le_min h2 hcc⟩
  rcases Nat.eq_zero_or_pos N with hN | hN
  · have hx : xs.length = 0 := by omega
    have hy : ys.length = 0 := by omega
    rw [hN]
    simp only [Nat.cast_zero, div_zero]
    rw [Real.zero_rpow (by positivity), Real.zero_rpow (by positivity)]
    exact ⟨le_rfl, le_rfl⟩
  have hN' : (0 : ℝ) < N := by exact_mod_cast hN
  have i0 : (0 : ℝ) ≤ 1 / N := one_div_nonneg.2 hN'.le
  constructor
  · have s1 : matchCost (cutMat c p d xs ys) S ≤ ∑ a ∈ S', min (d xs[a.1] ys[a.2]) c ^ p := o1.2 S' o2.1
    have hcard : S'.card ≤ N := by rw [o2.1.size]; omega
    have s2 := powerMean_mono S' (fun a => min (d xs[a.1] ys[a.2]) c) (fun a _ => (hcell a.1 a.2).1) hcard hN hp hpq
    have s3 : ∑ a ∈ S', min (d xs[a.1] ys[a.2]) c ^ q ≤ matchCost (cutMat c' q d' xs ys) S' :=
      Finset.sum_le_sum fun a _ => pow_le_pow_left₀ (hcell a.1 a.2).1 (hcell a.1 a.2).2 _
    have n1 : 0 ≤ matchCost (cutMat c p d xs ys) S := Finset.sum_nonneg fun a _ => pow_nonneg (hcell a.1 a.2).1 _
    have n2 : 0 ≤ ∑ a ∈ S', min (d xs[a.1] ys[a.2]) c ^ q := Finset.sum_nonneg fun a _ => pow_nonneg (hcell a.1 a.2).1 _
    have e : ∀ x : ℝ, x / N = 1 / N * x := fun x => by ring
    rw [e (matchCost _ S), e (matchCost _ S')]
    exact (Real.rpow_le_rpow (mul_nonneg i0 n1) (mul_le_mul_of_nonneg_left s1 i0) (by positivity)).trans (s2.trans
      (Real.rpow_le_rpow (mul_nonneg i0 n2) (mul_le_mul_of_nonneg_left s3 i0) (by positivity)))
  · have hk : |(xs.length : ℝ) - ys.length| ≤ N := by
      have a1 : (xs.length : ℝ) ≤ N := by exact_mod_cast le_max_left _ _
      have a2 : (ys.length : ℝ) ≤ N := by exact_mod_cast le_max_right _ _
      have a3 : (0 : ℝ) ≤ xs.length := Nat.cast_nonneg _
      have a4 : (0 : ℝ) ≤ ys.length := Nat.cast_nonneg _
      rw [abs_le]
      constructor <;> linarith
    set k := |(xs.length : ℝ) - ys.length| with hkdef
    have hr0 : 0 ≤ k / N := div_nonneg (abs_nonneg _) hN'.le
    have hr1 : k / N ≤ 1 := (div_le_one hN').2 hk
    have form : ∀ (x : ℝ) (n : ℕ), 0 ≤ x → (0 : ℝ) < n → (x ^ n * k / N) ^ (1 / (n : ℝ)) = x * (k / N) ^ (1 / (n : ℝ)) := by
      intro x n hx hn
      rw [mul_div_assoc, Real.mul_rpow (pow_nonneg hx _) hr0, ← Real.rpow_natCast x n,
        ← Real.rpow_mul hx, mul_one_div_cancel hn.ne', Real.rpow_one]
    rw [form c p hc hp', form c' q hc' hq']
    refine mul_le_mul hcc ?_ (Real.rpow_nonneg hr0 _) hc'
    rcases eq_or_lt_of_le hr0 with h0 | h0
    · rw [← h0, Real.zero_rpow (by positivity), Real.zero_rpow (by positivity)]
    · exact Real.rpow_le_rpow_of_exponent_ge h0 hr1 (one_div_le_one_div_of_le hp' (by exact_mod_cast hpq))

theorem trackAvg_mono {X Y : Type*} {c c' : ℝ} (hcc : c ≤ c') (d : X → Y → ℝ) (hx : List (Option X)) (hy : List (Option Y)) :
    trackAvg c d hx hy ≤ trackAvg c' d hx hy := by
  unfold trackAvg
  refine div_le_div_of_nonneg_right ?_ (Nat.cast_nonneg _)
  refine List.sum_le_sum fun a _ => ?_
  unfold errAt
  split
  · exact min_le_min le_rfl hcc
  · exact hcc

/-- **C112, OSPA(2).** The same for `calculate_ospa2` with the same window length. -/
theorem C112_ospa2_monotone (lsa : Lsa) (hl : ∀ m n D, IsOptimal D (lsa m n D)) (est truth : List (Row (Obj s)))
    {c c' : ℝ} (hc : 0 ≤ c) (hcc : c ≤ c') {p q : ℕ} (hpq : p ≤ q) (winLen : ℕ) (method : Option Method)
    (hasTrueCov hasEstCov : Bool)
    (hpd : effMethod method hasTrueCov hasEstCov = .hellinger → AllPD est ∧ AllPD truth)
    {out : List (Except OErr (ℝ × ℝ))}
    (h : calculateOspa2 lsa est truth c p winLen method hasTrueCov hasEstCov = .ok out) :
    ∃ out' : List (Except OErr (ℝ × ℝ)), calculateOspa2 lsa est truth c' q winLen method hasTrueCov hasEstCov = .ok out' ∧
      out'.length = out.length ∧
      ∀ (t : ℕ) (r : Except OErr (ℝ × ℝ)), out[t]? = some r → ∃ x x' : ℝ × ℝ, r = .ok x ∧ out'[t]? = some (.ok x') ∧
        x.1 ≤ x'.1 ∧ x.2 ≤ x'.2 ∧ total x ≤ total x' := by
  set M := effMethod method hasTrueCov hasEstCov with hM
  have e0 := (effCut_bounds M hc).1
  have e1 := effCut_mono M hcc
  obtain ⟨h, hn⟩ := calculateOspa2_of_ok h
  unfold calculateOspa2
  rw [if_neg hn]
  unfold ospa2 at h ⊢
  rw [← hM] at h ⊢
  split at h
  · exact (nomatch h)
  rename_i w hw
  by_cases hp : p = 0
  · rw [if_pos hp] at h; exact (nomatch h)
  rw [if_neg hp] at h
  obtain ⟨w', hw', _⟩ := ospaLoop_mono hl e0 e1 le_rfl le_rfl false (coreDist M) est truth (fun e he t ht a b ha hb =>
    coreDist_nonneg _ a b fun hh => ⟨(hpd hh).1 e he a ha, (hpd hh).2 t ht b hb⟩) hw
  rw [hw']
  dsimp only
  rw [if_neg (by omega)]
  obtain rfl := Except.ok.inj h
  refine ⟨_, rfl, by simp, ?_⟩
  intro t r hr
  rw [List.getElem?_map] at hr
  obtain ⟨tt, htt, rfl⟩ := Option.map_eq_some_iff.1 hr
  obtain ⟨l, r, h1, h2⟩ := ospa2Step_ok hl e0 hp (coreDist M) (validHist est (window tt winLen)) (validHist truth (window tt winLen))
  obtain ⟨l', r', h1', h2'⟩ := ospa2Step_ok hl (e0.trans e1) (by omega : q ≠ 0) (coreDist M)
    (validHist est (window tt winLen)) (validHist truth (window tt winLen))
  obtain ⟨g1, g2⟩ := isOspa_mono e0 e1 (by omega) hpq (fun x hx y hy => ⟨(trackAvg_bounds e0 (fun a ha b hb =>
    coreDist_nonneg _ _ _ fun hh => by
      obtain ⟨r1, hr1, hx1⟩ := mem_validHist hx ha
      obtain ⟨r2, hr2, hx2⟩ := mem_validHist hy hb
      exact ⟨(hpd hh).1 r1 hr1 a hx1, (hpd hh).2 r2 hr2 b hx2⟩)).1, trackAvg_mono e1 _ _ _⟩) h2 h2'
  refine ⟨(l, r), (l', r'), h1, ?_, g1, g2, add_le_add g1 g2⟩
  rw [List.getElem?_map, htt]
  exact congrArg some h1'

/-- The conditions of C112 can be met: two estimates and one true object, and a time step with one estimate in the second slot,
cut-offs 2 and 10, orders 1 and 2. -/
example (lsa : Lsa) : ∃ out : List (ℝ × ℝ), calculateOspa lsa [[some (pt 0), some (pt 3)], [none, some (pt 1)]]
    [[some (pt 1), none], [none, none]] 2 1 true none false false = .ok out ∧ out.length = 2 ∧
    effMethod none false false = .euclidean := by
  refine ⟨_, rfl, ?_, rfl⟩
  rfl

end Gasur.Props
