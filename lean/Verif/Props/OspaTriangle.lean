import Verif.Proofs.OspaTriangle
import Verif.Props.Ospa
import Mathlib.Analysis.InnerProductSpace.PiL2

/-!
# Properties C100, C101: the triangle inequality for OSPA and OSPA(2)
-/

namespace Gasur.Props

open Gasur.Spec Gasur.Ospa

variable {s : ℕ}

theorem coreDist_triangle {m : Method} (hm : m = .euclidean ∨ m = .manhattan) (x y z : Obj s) :
    coreDist m x z ≤ coreDist m x y + coreDist m y z := by
  rcases hm with rfl | rfl
  · have h := dist_triangle (WithLp.toLp 2 z.x : EuclideanSpace ℝ (Fin s)) (WithLp.toLp 2 y.x) (WithLp.toLp 2 x.x)
    rw [EuclideanSpace.dist_eq, EuclideanSpace.dist_eq, EuclideanSpace.dist_eq] at h
    simp only [Real.dist_eq, sq_abs] at h
    simp only [coreDist]
    rw [add_comm]
    exact h
  · simp only [coreDist]
    rw [← Finset.sum_add_distrib]
    refine Finset.sum_le_sum fun k _ => ?_
    have := abs_sub_le (z.x k) (y.x k) (x.x k)
    linarith

theorem coreDist_nonneg' {m : Method} (hm : m = .euclidean ∨ m = .manhattan) (x y : Obj s) : 0 ≤ coreDist m x y :=
  coreDist_nonneg _ _ _ fun h => by rcases hm with rfl | rfl <;> exact absurd h (by simp)

/-- **C100** (partial: the values `ospa` themselves satisfy it only for `p = 1`, see `C100_total_refuted`; the Hellinger and
Mahalanobis methods do not, see `C100_hellinger_refuted`, `C100_mahalanobis_refuted`; the objects must occupy the first
slots). For the Euclidean and the Manhattan method and three series of point sets `A`, `B`, `C`, at each time step the
distance of `A` and `C`, localisation and cardinality combined as in the cited paper, is at most the sum of the distances of
`A` and `B` and of `B` and `C`; for the returned value `ospa` (the sum of localisation and cardinality) this holds up to the
factor `2 ^ (1 - 1/p)`, so exactly if `p = 1`. -/
theorem C100_ospa_triangle_partial (lsa : Lsa) (hl : ∀ m n D, IsOptimal D (lsa m n D))
    (A B C : List (Row (Obj s))) (hAB : A.length = B.length) (hBC : B.length = C.length) (c : ℝ) (hc : 0 ≤ c) (p : ℕ)
    (hp : 1 ≤ p) (useEmpty : Bool) (method : Option Method) (hasTrueCov hasEstCov : Bool)
    (hm : effMethod method hasTrueCov hasEstCov = .euclidean ∨ effMethod method hasTrueCov hasEstCov = .manhattan)
    (hA : ∀ r ∈ A, Packed r) (hB : ∀ r ∈ B, Packed r) (hC : ∀ r ∈ C, Packed r) :
    ∃ ab bc ac, calculateOspa lsa A B c p useEmpty method hasTrueCov hasEstCov = .ok ab ∧
      calculateOspa lsa B C c p useEmpty method hasTrueCov hasEstCov = .ok bc ∧
      calculateOspa lsa A C c p useEmpty method hasTrueCov hasEstCov = .ok ac ∧
      ab.length = A.length ∧ bc.length = A.length ∧ ac.length = A.length ∧
      ∀ (t : ℕ) (x y z : ℝ × ℝ), ab[t]? = some x → bc[t]? = some y → ac[t]? = some z →
        (z.1 ^ p + z.2 ^ p) ^ (1 / (p : ℝ)) ≤ (x.1 ^ p + x.2 ^ p) ^ (1 / (p : ℝ)) + (y.1 ^ p + y.2 ^ p) ^ (1 / (p : ℝ)) ∧
        total z ^ p ≤ 2 ^ (p - 1) * (total x + total y) ^ p ∧ (p = 1 → total z ≤ total x + total y) := by
  have hb := effCut_bounds (effMethod method hasTrueCov hasEstCov) hc
  have hn : effMethod method hasTrueCov hasEstCov = .hellinger → hasEstCov = true :=
    fun h => by rcases hm with hm | hm <;> rw [hm] at h <;> cases h
  obtain ⟨ab, h1, f1⟩ := C40_ospa_is_ospa_partial lsa hl A B hAB.ge c hc p hp useEmpty method hasTrueCov hasEstCov hn hA hB
  obtain ⟨bc, h2, f2⟩ := C40_ospa_is_ospa_partial lsa hl B C hBC.ge c hc p hp useEmpty method hasTrueCov hasEstCov hn hB hC
  obtain ⟨ac, h3, f3⟩ := C40_ospa_is_ospa_partial lsa hl A C (by omega) c hc p hp useEmpty method hasTrueCov hasEstCov hn hA hC
  have l1 := f1.length_eq
  have l2 := f2.length_eq
  have l3 := f3.length_eq
  rw [List.length_zip] at l1 l2 l3
  refine ⟨ab, bc, ac, h1, h2, h3, by omega, by omega, by omega, ?_⟩
  intro t x y z hx hy hz
  have key : ∀ {P Q : List (Row (Obj s))} {out : List (ℝ × ℝ)} {v : ℝ × ℝ}, List.Forall₂
      (fun (a : Row (Obj s) × Row (Obj s)) r => IsOspa (effCut (effMethod method hasTrueCov hasEstCov) c) p
        (coreDist (effMethod method hasTrueCov hasEstCov)) a.1.reduceOption a.2.reduceOption r.1 r.2) (P.zip Q) out →
      out[t]? = some v → IsOspa (effCut (effMethod method hasTrueCov hasEstCov) c) p
        (coreDist (effMethod method hasTrueCov hasEstCov)) ((P[t]?).getD []).reduceOption ((Q[t]?).getD []).reduceOption
        v.1 v.2 := by
    intro P Q out v hf hv
    obtain ⟨ht, hv⟩ := List.getElem?_eq_some_iff.1 hv
    have hl := hf.length_eq
    have ht' : t < (P.zip Q).length := by omega
    have := (List.forall₂_iff_get.1 hf).2 t ht' ht
    simp only [List.get_eq_getElem] at this
    rw [hv, List.getElem_zip] at this
    rw [List.length_zip] at ht'
    rw [List.getElem?_eq_getElem (by omega : t < P.length), List.getElem?_eq_getElem (by omega : t < Q.length)]
    exact this
  have i1 := key f1 hx
  have i2 := key f2 hy
  have i3 := key f3 hz
  have hd := coreDist_nonneg' (s := s) hm
  have htri := isOspa_triangle hb.1 hp hd (fun x _ y _ z _ => coreDist_triangle hm x y z) i1 i2 i3
  have ht := total_triangle hp (isOspa_nonneg hb.1 hd i1) (isOspa_nonneg hb.1 hd i2) (isOspa_nonneg hb.1 hd i3) htri
  refine ⟨htri, ht, ?_⟩
  rintro rfl
  simpa [total] using ht

/-- The conditions of C100 can be met: one, three and two objects. -/
example : (∀ r ∈ [[some (pt 0), none, none]], Packed r) ∧ (∀ r ∈ [[some (pt 0), some (pt 10), some (pt 20)]], Packed r) ∧
    (∀ r ∈ [[some (pt 10), some (pt 20), none]], Packed r) ∧ effMethod none false false = .euclidean := by
  refine ⟨?_, ?_, ?_, rfl⟩ <;> intro r hr <;> rw [List.mem_singleton] at hr <;> subst hr
  · exact ⟨[pt 0], 2, rfl⟩
  · exact ⟨[pt 0, pt 10, pt 20], 0, rfl⟩
  · exact ⟨[pt 10, pt 20], 1, rfl⟩

/-! ### Counterexamples -/

/-- One time step with the objects `xs` and `ys`. -/
theorem one_step {lsa : Lsa} (hl : ∀ m n D, IsOptimal D (lsa m n D)) {c : ℝ} (hc : 0 ≤ c) {p : ℕ} (hp : p ≠ 0)
    (method : Option Method) (b1 b2 : Bool) (hn : effMethod method b1 b2 = .hellinger → b2 = true) (xs ys : List (Obj s)) : ∃ l r,
    calculateOspa lsa [xs.map some] [ys.map some] c p true method b1 b2 = .ok [(l, r)] ∧
    IsOspa (effCut (effMethod method b1 b2) c) p (coreDist (effMethod method b1 b2)) xs ys l r := by
  have hb := effCut_bounds (effMethod method b1 b2) hc
  obtain ⟨l, r, h1, h2⟩ := ospaStep_packed hl hb.1 hp true (coreDist (effMethod method b1 b2))
    (e := xs.map some) (t := ys.map some) ⟨xs, 0, by simp⟩ ⟨ys, 0, by simp⟩
  refine ⟨l, r, ?_, ?_⟩
  · rw [calculateOspa_given hn]
    unfold ospaGiven
    rw [ospaLoop_cons, h1]
    rfl
  · have e1 : (xs.map some).reduceOption = xs := by simpa using packed_reduce (xs := xs) (k := 0)
    have e2 : (ys.map some).reduceOption = ys := by simpa using packed_reduce (xs := ys) (k := 0)
    rwa [e1, e2] at h2

/-- One object each. -/
theorem one_object {c : ℝ} {d : Obj s → Obj s → ℝ} {x y : Obj s} {l r : ℝ} (h : IsOspa c 1 d [x] [y] l r) :
    l = min (d x y) c ∧ r = 0 := by
  obtain ⟨v, hv, rfl, rfl⟩ := h
  have := minCost_const (k := min (d x y) c) (fun i j => by
    have hi : i = ⟨0, by simp⟩ := Fin.ext (Nat.lt_one_iff.1 i.2)
    have hj : j = ⟨0, by simp⟩ := Fin.ext (Nat.lt_one_iff.1 j.2)
    subst hi; subst hj
    simp [cutMat]) hv
  constructor
  · rw [this]; simp
  · simp

/-- A matching of cost zero is optimal. -/
theorem minCost_of_zero {m n : ℕ} {D : Fin m → Fin n → ℝ} (hD : ∀ i j, 0 ≤ D i j) {v : ℝ} (h : MinCost D v)
    {S : Finset (Fin m × Fin n)} (hS : IsMatching S) (h0 : matchCost D S = 0) : v = 0 := by
  refine le_antisymm ?_ (minCost_nonneg hD h)
  obtain ⟨T, hT, rfl⟩ := h
  rw [← h0]
  exact hT.2 _ hS

/-- One object, three and two objects, all far apart: the sums of localisation and cardinality. -/
theorem total_gap {l1 r1 l2 r2 l3 r3 : ℝ} (i1 : IsOspa 1 2 (coreDist .euclidean) [pt 0] [pt 0, pt 10, pt 20] l1 r1)
    (i2 : IsOspa 1 2 (coreDist .euclidean) [pt 0, pt 10, pt 20] [pt 10, pt 20] l2 r2)
    (i3 : IsOspa 1 2 (coreDist .euclidean) [pt 0] [pt 10, pt 20] l3 r3) : l1 + r1 + (l2 + r2) < l3 + r3 := by
  have hcut : ∀ (xs ys : List (Obj 1)) i j, 0 ≤ cutMat 1 2 (coreDist .euclidean) xs ys i j := fun _ _ i j => sq_nonneg _
  have g1 : l1 = 0 ∧ r1 ^ 2 = 2 / 3 := by
    obtain ⟨v, hv, rfl, rfl⟩ := i1
    have : v = 0 := by
      refine minCost_of_zero (hcut _ _) hv (S := {((0 : Fin 1), (0 : Fin 3))}) ⟨by decide, by decide, rfl⟩ ?_
      simp [matchCost, cutMat, coreDist_pt]
    subst this
    refine ⟨by simp, ?_⟩
    rw [rpow_pow_root (by positivity) two_ne_zero]
    norm_num
  have g2 : l2 = 0 ∧ r2 ^ 2 = 1 / 3 := by
    obtain ⟨v, hv, rfl, rfl⟩ := i2
    have : v = 0 := by
      refine minCost_of_zero (hcut _ _) hv (S := {((1 : Fin 3), (0 : Fin 2)), ((2 : Fin 3), (1 : Fin 2))})
        ⟨by decide, by decide, rfl⟩ ?_
      simp [matchCost, cutMat, coreDist_pt]
    subst this
    refine ⟨by simp, ?_⟩
    rw [rpow_pow_root (by positivity) two_ne_zero]
    norm_num
  have g3 : l3 ^ 2 = 1 / 2 ∧ r3 ^ 2 = 1 / 2 ∧ 0 ≤ l3 ∧ 0 ≤ r3 := by
    obtain ⟨v, hv, rfl, rfl⟩ := i3
    have hv1 := minCost_const (k := 1) (fun (i : Fin 1) (j : Fin 2) => by
      fin_cases i
      fin_cases j <;> simp [cutMat, coreDist_pt] <;> norm_num) hv
    subst hv1
    refine ⟨?_, ?_, by positivity, by positivity⟩
    · rw [rpow_pow_root (by positivity) two_ne_zero]; norm_num
    · rw [rpow_pow_root (by positivity) two_ne_zero]; norm_num
  rw [g1.1, g2.1]
  obtain ⟨a1, a2, a3, a4⟩ := g3
  have n1 : r1 ≤ 82 / 100 := by nlinarith [g1.2]
  have n2 : r2 ≤ 58 / 100 := by nlinarith [g2.2]
  have n3 : 705 / 1000 ≤ l3 := by nlinarith
  have n4 : 705 / 1000 ≤ r3 := by nlinarith
  linarith

/-- **C100** is false for the returned value `ospa` with `p = 2`: one object, three and two objects, all far apart. -/
theorem C100_total_refuted : ¬ ∀ (lsa : Lsa), (∀ m n D, IsOptimal D (lsa m n D)) →
    ∀ (A B C : Row (Obj 1)) (x y z : ℝ × ℝ), Packed A → Packed B → Packed C →
      calculateOspa lsa [A] [B] 1 2 true none false false = .ok [x] →
      calculateOspa lsa [B] [C] 1 2 true none false false = .ok [y] →
      calculateOspa lsa [A] [C] 1 2 true none false false = .ok [z] → total z ≤ total x + total y := by
  intro h
  obtain ⟨lsa, hl⟩ := exists_lsa
  obtain ⟨l1, r1, s1, i1⟩ := one_step hl zero_le_one two_ne_zero none false false (by decide) [pt 0] [pt 0, pt 10, pt 20]
  obtain ⟨l2, r2, s2, i2⟩ := one_step hl zero_le_one two_ne_zero none false false (by decide) [pt 0, pt 10, pt 20] [pt 10, pt 20]
  obtain ⟨l3, r3, s3, i3⟩ := one_step hl zero_le_one two_ne_zero none false false (by decide) [pt 0] [pt 10, pt 20]
  have hle := h lsa hl _ _ _ _ _ _ ⟨[pt 0], 0, rfl⟩ ⟨[pt 0, pt 10, pt 20], 0, rfl⟩ ⟨[pt 10, pt 20], 0, rfl⟩ s1 s2 s3
  have e1 : effMethod none false false = .euclidean := rfl
  have e2 : effCut .euclidean 1 = 1 := by simp [effCut]
  rw [e1, e2] at i1 i2 i3
  exact absurd hle (not_le.2 (total_gap i1 i2 i3))

theorem hellinger_pt (a b : ℝ) : coreDist .hellinger (pt a) (pt b) = 1 - Real.exp (-((a - b) ^ 2 / 8)) := by
  have hinv : ((1 : Matrix (Fin 1) (Fin 1) ℝ) + 1)⁻¹ = (1 / 2 : ℝ) • 1 := by
    refine Matrix.inv_eq_right_inv ?_
    ext i j
    fin_cases i; fin_cases j
    simp [Matrix.mul_apply]
    norm_num
  have hdet : ((1 / 2 : ℝ) • ((1 : Matrix (Fin 1) (Fin 1) ℝ) + 1)).det = 1 := by
    simp [Matrix.det_fin_one]
    norm_num
  unfold coreDist pt
  simp only
  rw [hinv, hdet]
  simp [Matrix.smul_mulVec, dotProduct]
  ring_nf

/-- **C100** is false for the Hellinger method even with `p = 1`: the code's value is the square of the Hellinger distance. -/
theorem C100_hellinger_refuted : ¬ ∀ (lsa : Lsa), (∀ m n D, IsOptimal D (lsa m n D)) →
    ∀ (A B C : Obj 1) (x y z : ℝ × ℝ), A.cov.PosDef → B.cov.PosDef → C.cov.PosDef →
      calculateOspa lsa [[some A]] [[some B]] 1 1 true (some .hellinger) true true = .ok [x] →
      calculateOspa lsa [[some B]] [[some C]] 1 1 true (some .hellinger) true true = .ok [y] →
      calculateOspa lsa [[some A]] [[some C]] 1 1 true (some .hellinger) true true = .ok [z] →
      total z ≤ total x + total y := by
  intro h
  obtain ⟨lsa, hl⟩ := exists_lsa
  obtain ⟨l1, r1, s1, i1⟩ := one_step hl zero_le_one one_ne_zero (some .hellinger) true true (by decide) [pt 0] [pt 1]
  obtain ⟨l2, r2, s2, i2⟩ := one_step hl zero_le_one one_ne_zero (some .hellinger) true true (by decide) [pt 1] [pt 2]
  obtain ⟨l3, r3, s3, i3⟩ := one_step hl zero_le_one one_ne_zero (some .hellinger) true true (by decide) [pt 0] [pt 2]
  have hle := h lsa hl _ _ _ _ _ _ Matrix.PosDef.one Matrix.PosDef.one Matrix.PosDef.one s1 s2 s3
  have e1 : effMethod (some .hellinger) true true = .hellinger := rfl
  have e2 : effCut .hellinger 1 = 1 := by simp [effCut]
  rw [e1, e2] at i1 i2 i3
  obtain ⟨rfl, rfl⟩ := one_object i1
  obtain ⟨rfl, rfl⟩ := one_object i2
  obtain ⟨rfl, rfl⟩ := one_object i3
  simp only [total, hellinger_pt, add_zero] at hle
  have hm : ∀ t : ℝ, min (1 - Real.exp t) 1 = 1 - Real.exp t := fun t => min_eq_left (by
    have := Real.exp_pos t
    linarith)
  rw [hm, hm, hm] at hle
  have hq : (7 / 8 : ℝ) ≤ Real.exp (-(1 / 8)) := by
    have := Real.add_one_le_exp (-(1 / 8) : ℝ)
    linarith
  have q1 : Real.exp (-(1 / 8)) < 1 := by
    rw [Real.exp_lt_one_iff]
    norm_num
  have q4 : Real.exp (-((0 - 2) ^ 2 / 8)) = Real.exp (-(1 / 8)) ^ 4 := by
    rw [← Real.exp_nat_mul]
    norm_num
  have q5 : Real.exp (-((0 - 1) ^ 2 / 8)) = Real.exp (-(1 / 8)) := by norm_num
  have q6 : Real.exp (-((1 - 2) ^ 2 / 8)) = Real.exp (-(1 / 8)) := by norm_num
  rw [q4, q5, q6] at hle
  set q := Real.exp (-(1 / 8))
  have : 0 < (1 - q) * (q ^ 3 + q ^ 2 + q - 1) := by
    refine mul_pos (by linarith) ?_
    have : 0 ≤ q ^ 3 := by positivity
    nlinarith
  nlinarith

/-- **C100** is false for the Mahalanobis method even with `p = 1`: the code uses the covariance of the first argument only. -/
theorem C100_mahalanobis_refuted : ¬ ∀ (lsa : Lsa), (∀ m n D, IsOptimal D (lsa m n D)) →
    ∀ (A B C : Obj 1) (x y z : ℝ × ℝ), A.cov.PosDef → B.cov.PosDef → C.cov.PosDef →
      calculateOspa lsa [[some A]] [[some B]] 1 1 true (some .mahalanobis) true true = .ok [x] →
      calculateOspa lsa [[some B]] [[some C]] 1 1 true (some .mahalanobis) true true = .ok [y] →
      calculateOspa lsa [[some A]] [[some C]] 1 1 true (some .mahalanobis) true true = .ok [z] →
      total z ≤ total x + total y := by
  intro h
  obtain ⟨lsa, hl⟩ := exists_lsa
  let B : Obj 1 := ⟨fun _ => 0, (1 / 4 : ℝ) • 1⟩
  have hB : B.cov.PosDef := Matrix.PosDef.one.smul (by norm_num)
  obtain ⟨l1, r1, s1, i1⟩ := one_step hl zero_le_one one_ne_zero (some .mahalanobis) true true (by decide) [pt 0] [B]
  obtain ⟨l2, r2, s2, i2⟩ := one_step hl zero_le_one one_ne_zero (some .mahalanobis) true true (by decide) [B] [pt 1]
  obtain ⟨l3, r3, s3, i3⟩ := one_step hl zero_le_one one_ne_zero (some .mahalanobis) true true (by decide) [pt 0] [pt 1]
  have hle := h lsa hl _ _ _ _ _ _ Matrix.PosDef.one hB Matrix.PosDef.one s1 s2 s3
  have e1 : effMethod (some .mahalanobis) true true = .mahalanobis := rfl
  have e2 : effCut .mahalanobis 1 = 1 := by simp [effCut]
  rw [e1, e2] at i1 i2 i3
  obtain ⟨rfl, rfl⟩ := one_object i1
  obtain ⟨rfl, rfl⟩ := one_object i2
  obtain ⟨rfl, rfl⟩ := one_object i3
  have d1 : coreDist .mahalanobis (pt 0) B = 0 := by simp [coreDist, pt, B, dotProduct]
  have d2 : coreDist .mahalanobis B (pt 1) = 1 / 2 := by
    simp only [coreDist, pt, B]
    rw [show (1 / 2 : ℝ) = Real.sqrt ((1 / 2) ^ 2) from (Real.sqrt_sq (by norm_num)).symm]
    congr 1
    simp [dotProduct, Matrix.smul_mulVec]
    norm_num
  have d3 : coreDist .mahalanobis (pt 0) (pt 1) = 1 := by simp [coreDist, pt, dotProduct]
  simp only [total, d1, d2, d3] at hle
  norm_num at hle

/-- **C101** (partial: the values themselves satisfy it only for `p = 1`, in general up to the factor `2 ^ (1 - 1/p)`; only for
the Euclidean and the Manhattan method, and if the three calls return). OSPA(2) satisfies the triangle inequality: at each
time step the distance of the tracks of `A` and `C`, localisation and cardinality combined as in the cited paper, is at most
the sum of the distances of `A` and `B` and of `B` and `C`, whatever slots the objects occupy. -/
theorem C101_ospa2_triangle_partial (lsa : Lsa) (hl : ∀ m n D, IsOptimal D (lsa m n D)) (A B C : List (Row (Obj s)))
    (hAB : A.length = B.length) (hBC : B.length = C.length) (nA nB nC : ℕ) (hA : ∀ r ∈ A, r.length = nA)
    (hB : ∀ r ∈ B, r.length = nB) (hC : ∀ r ∈ C, r.length = nC) (c : ℝ) (hc : 0 ≤ c) (p winLen : ℕ)
    (method : Option Method) (hasTrueCov hasEstCov : Bool)
    (hm : effMethod method hasTrueCov hasEstCov = .euclidean ∨ effMethod method hasTrueCov hasEstCov = .manhattan)
    (ab bc ac : List (Except OErr (ℝ × ℝ)))
    (h1 : calculateOspa2 lsa A B c p winLen method hasTrueCov hasEstCov = .ok ab)
    (h2 : calculateOspa2 lsa B C c p winLen method hasTrueCov hasEstCov = .ok bc)
    (h3 : calculateOspa2 lsa A C c p winLen method hasTrueCov hasEstCov = .ok ac) :
    ab.length = A.length ∧ bc.length = A.length ∧ ac.length = A.length ∧
    ∀ t < A.length, ∃ x y z, ab[t]? = some (.ok x) ∧ bc[t]? = some (.ok y) ∧ ac[t]? = some (.ok z) ∧
      (z.1 ^ p + z.2 ^ p) ^ (1 / (p : ℝ)) ≤ (x.1 ^ p + x.2 ^ p) ^ (1 / (p : ℝ)) + (y.1 ^ p + y.2 ^ p) ^ (1 / (p : ℝ)) ∧
      total z ^ p ≤ 2 ^ (p - 1) * (total x + total y) ^ p ∧ (p = 1 → total z ≤ total x + total y) := by
  have hb := effCut_bounds (effMethod method hasTrueCov hasEstCov) hc
  obtain ⟨hp, l1, f1⟩ := C42_ospa2_value lsa hl A B hAB.ge nA nB hA hB c hc p winLen method hasTrueCov hasEstCov ab h1
  obtain ⟨_, l2, f2⟩ := C42_ospa2_value lsa hl B C hBC.ge nB nC hB hC c hc p winLen method hasTrueCov hasEstCov bc h2
  obtain ⟨_, l3, f3⟩ := C42_ospa2_value lsa hl A C (by omega) nA nC hA hC c hc p winLen method hasTrueCov hasEstCov ac h3
  refine ⟨by omega, by omega, by omega, fun t ht => ?_⟩
  obtain ⟨a1, b1, e1, i1⟩ := f1 t (by omega)
  obtain ⟨a2, b2, e2, i2⟩ := f2 t (by omega)
  obtain ⟨a3, b3, e3, i3⟩ := f3 t (by omega)
  have hd := coreDist_nonneg' (s := s) hm
  have hlen : ∀ {mat : List (Row (Obj s))} {n : ℕ}, ∀ x ∈ liveTracks mat n t winLen, x.length = min winLen (t + 1) := by
    intro mat n x hx
    obtain ⟨i, _, rfl⟩ := List.mem_map.1 (List.mem_of_mem_filter hx)
    simp
  have hd2 : ∀ x y, 0 ≤ trackAvg (effCut (effMethod method hasTrueCov hasEstCov) c)
      (coreDist (s := s) (effMethod method hasTrueCov hasEstCov)) x y := fun x y =>
    (trackAvg_bounds hb.1 fun a _ b _ => hd a b).1
  have htri := isOspa_triangle hb.1 hp hd2 (fun x hx y hy z hz => trackAvg_triangle hb.1 hd
    (fun x y z => coreDist_triangle hm x y z) (hlen x hx) (hlen y hy) (hlen z hz)) i1 i2 i3
  have ht := total_triangle hp (isOspa_nonneg hb.1 hd2 i1) (isOspa_nonneg hb.1 hd2 i2) (isOspa_nonneg hb.1 hd2 i3) htri
  refine ⟨(a1, b1), (a2, b2), (a3, b3), e1, e2, e3, htri, ht, ?_⟩
  rintro rfl
  simpa [total] using ht

/-- One time step with the objects `xs` and `ys`, window length one. -/
theorem one_step2 {lsa : Lsa} (hl : ∀ m n D, IsOptimal D (lsa m n D)) {c : ℝ} (hc : 0 ≤ c) {p : ℕ} (hp : p ≠ 0)
    (xs ys : List (Obj s)) : ∃ l r,
    calculateOspa2 lsa [xs.map some] [ys.map some] c p 1 none false false = .ok [.ok (l, r)] ∧
    IsOspa c p (coreDist .euclidean) xs ys l r := by
  obtain ⟨l, r, h1, h2⟩ := ospaStep_packed hl hc one_ne_zero false (coreDist (s := s) .euclidean)
    (e := xs.map some) (t := ys.map some) ⟨xs, 0, by simp⟩ ⟨ys, 0, by simp⟩
  have e1 : effMethod none false false = .euclidean := rfl
  have e2 : effCut .euclidean c = c := by simp [effCut]
  obtain ⟨out, ho⟩ : ∃ out, calculateOspa2 lsa [xs.map some] [ys.map some] c p 1 none false false = .ok out := by
    rw [calculateOspa2_given (by decide)]
    unfold ospa2
    rw [e1, e2, ospaLoop_cons, h1]
    simp only [ospaLoop]
    rw [if_neg hp]
    exact ⟨_, rfl⟩
  have hf := C42_ospa2_window_one lsa hl [xs.map some] [ys.map some] (by simp) c hc p none false false out ho
  rw [e1, e2] at hf
  cases hf with
  | cons h3 h4 =>
    cases h4
    obtain ⟨l, r, rfl, h5⟩ := h3
    refine ⟨l, r, ho, ?_⟩
    have e1 : (xs.map some).reduceOption = xs := by simpa using packed_reduce (xs := xs) (k := 0)
    have e2 : (ys.map some).reduceOption = ys := by simpa using packed_reduce (xs := ys) (k := 0)
    simp only [e1, e2] at h5
    exact h5

/-- **C101** is false for the returned value with `p = 2`. -/
theorem C101_total_refuted : ¬ ∀ (lsa : Lsa), (∀ m n D, IsOptimal D (lsa m n D)) →
    ∀ (A B C : Row (Obj 1)) (x y z : ℝ × ℝ),
      calculateOspa2 lsa [A] [B] 1 2 1 none false false = .ok [.ok x] →
      calculateOspa2 lsa [B] [C] 1 2 1 none false false = .ok [.ok y] →
      calculateOspa2 lsa [A] [C] 1 2 1 none false false = .ok [.ok z] → total z ≤ total x + total y := by
  intro h
  obtain ⟨lsa, hl⟩ := exists_lsa
  obtain ⟨l1, r1, s1, i1⟩ := one_step2 hl zero_le_one two_ne_zero [pt 0] [pt 0, pt 10, pt 20]
  obtain ⟨l2, r2, s2, i2⟩ := one_step2 hl zero_le_one two_ne_zero [pt 0, pt 10, pt 20] [pt 10, pt 20]
  obtain ⟨l3, r3, s3, i3⟩ := one_step2 hl zero_le_one two_ne_zero [pt 0] [pt 10, pt 20]
  have hle := h lsa hl _ _ _ _ _ _ s1 s2 s3
  exact absurd hle (not_le.2 (total_gap i1 i2 i3))

/-- The hypotheses of C101 can be met: the three calls return for one, three and two objects. -/
example (lsa : Lsa) (hl : ∀ m n D, IsOptimal D (lsa m n D)) : ∃ ab bc ac,
    calculateOspa2 lsa [[pt 0].map some] [[pt 0, pt 10, pt 20].map some] 1 2 1 none false false = .ok ab ∧
    calculateOspa2 lsa [[pt 0, pt 10, pt 20].map some] [[pt 10, pt 20].map some] 1 2 1 none false false = .ok bc ∧
    calculateOspa2 lsa [[pt 0].map some] [[pt 10, pt 20].map some] 1 2 1 none false false = .ok ac := by
  obtain ⟨l1, r1, s1, i1⟩ := one_step2 hl zero_le_one two_ne_zero [pt 0] [pt 0, pt 10, pt 20]
  obtain ⟨l2, r2, s2, i2⟩ := one_step2 hl zero_le_one two_ne_zero [pt 0, pt 10, pt 20] [pt 10, pt 20]
  obtain ⟨l3, r3, s3, i3⟩ := one_step2 hl zero_le_one two_ne_zero [pt 0] [pt 10, pt 20]
  exact ⟨_, _, _, s1, s2, s3⟩

end Gasur.Props
