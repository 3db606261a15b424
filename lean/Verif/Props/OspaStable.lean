import Verif.Props.OspaTriangle

/-!
# Property C166: the OSPA error is stable
-/

namespace Gasur.Props

open Gasur.Ospa Gasur.Spec

section C166

variable {X Y : Type*} {s : ℕ}

/-- The same slots are occupied, and the objects in them are at most `δ` apart. -/
def Moved (dst : X → X → ℝ) (δ : ℝ) (a b : List (Row X)) : Prop :=
  List.Forall₂ (List.Forall₂ (Option.Rel fun x x' => dst x x' ≤ δ)) a b

theorem moved_count {R : X → X → Prop} {e e' : Row X} (h : List.Forall₂ (Option.Rel R) e e') : count e = count e' := by
  induction h with
  | nil => rfl
  | cons hr _ ih =>
    unfold count at ih ⊢
    rw [List.countP_cons, List.countP_cons, ih]
    cases hr <;> rfl

theorem moved_slot {R : X → X → Prop} {e e' : Row X} (h : List.Forall₂ (Option.Rel R) e e') :
    ∀ i, Option.Rel R (slot e i) (slot e' i) := by
  induction h with
  | nil => intro i; exact Option.Rel.none
  | cons hr _ ih =>
    intro i
    cases i with
    | zero => exact hr
    | succ i => exact ih i

/-- The mean over a best matching changes by at most as much as the entries. -/
theorem minCost_stable {m n : ℕ} {D E : Fin m → Fin n → ℝ} {η : ℝ} (hη : 0 ≤ η) (hD : ∀ i j, 0 ≤ D i j)
    (hE : ∀ i j, 0 ≤ E i j) (h : ∀ i j, D i j ≤ E i j + η) {p : ℕ} (hp : 1 ≤ p) {v w : ℝ}
    (hv : MinCost (fun i j => D i j ^ p) v) (hw : MinCost (fun i j => E i j ^ p) w) :
    (v / (max m n : ℕ)) ^ (1 / (p : ℝ)) ≤ (w / (max m n : ℕ)) ^ (1 / (p : ℝ)) + η := by
  have hp0 : (0 : ℝ) < p := by exact_mod_cast hp
  have hv0 := minCost_nonneg (fun i j => pow_nonneg (hD i j) p) hv
  have hw0 := minCost_nonneg (fun i j => pow_nonneg (hE i j) p) hw
  rcases Nat.eq_zero_or_pos (max m n) with hN | hN
  · rw [hN, Nat.cast_zero, div_zero, div_zero, Real.zero_rpow (by positivity)]
    linarith
  have hNr : (0 : ℝ) < (max m n : ℕ) := by exact_mod_cast hN
  obtain ⟨S, hS, rfl⟩ := hw
  obtain ⟨T, hT, rfl⟩ := hv
  have h1 := hT.2 S hS.1
  have h2 := Real.Lp_add_le_of_nonneg (s := S) (p := (p : ℝ)) (f := fun a => E a.1 a.2) (g := fun _ => η)
    (by exact_mod_cast hp) (fun a _ => hE _ _) (fun _ _ => hη)
  simp only [Real.rpow_natCast] at h2
  have h3 : matchCost (fun i j => D i j ^ p) S ≤ ∑ a ∈ S, (E a.1 a.2 + η) ^ p :=
    Finset.sum_le_sum fun a _ => pow_le_pow_left₀ (hD _ _) (h _ _) _
  have h4 := Real.rpow_le_rpow hv0 (h1.trans h3) (show (0 : ℝ) ≤ 1 / p by positivity)
  have h5 : (∑ _a ∈ S, η ^ p) ^ (1 / (p : ℝ)) ≤ ((max m n : ℕ) : ℝ) ^ (1 / (p : ℝ)) * η := by
    rw [Finset.sum_const, nsmul_eq_mul, Real.mul_rpow (Nat.cast_nonneg _) (pow_nonneg hη _), root_pow hη (by omega)]
    refine mul_le_mul_of_nonneg_right (Real.rpow_le_rpow (Nat.cast_nonneg _) ?_ (by positivity)) hη
    have := hS.1.size
    have : S.card ≤ max m n := by omega
    exact_mod_cast this
  have hr : (0 : ℝ) < ((max m n : ℕ) : ℝ) ^ (1 / (p : ℝ)) := Real.rpow_pos_of_pos hNr _
  rw [Real.div_rpow hv0 hNr.le, Real.div_rpow hw0 hNr.le, div_add' _ _ _ hr.ne', div_le_div_iff_of_pos_right hr]
  have h6 : matchCost (fun i j => E i j ^ p) S = ∑ a ∈ S, E a.1 a.2 ^ p := rfl
  rw [h6]
  nlinarith [h4.trans h2, h5]

theorem pairDist_moved {c : ℝ} (hc : 0 ≤ c) {ue : Bool} {d : X → Y → ℝ} (hd : ∀ x y, 0 ≤ d x y) {R : X → X → Prop}
    {Q : Y → Y → Prop} {η : ℝ} (hη : 0 ≤ η) (hRQ : ∀ x x' y y', R x x' → Q y y' → |d x y - d x' y'| ≤ η)
    {a a' : Option X} {b b' : Option Y} (ha : Option.Rel R a a') (hb : Option.Rel Q b b') {u : ℝ}
    (h : pairDist c ue d a b = some u) :
    ∃ u', pairDist c ue d a' b' = some u' ∧ 0 ≤ u ∧ 0 ≤ u' ∧ |u - u'| ≤ η := by
  cases ha with
  | some hx =>
    cases hb with
    | some hy =>
      simp only [pairDist, Option.some.injEq] at h
      subst h
      refine ⟨_, rfl, le_min (hd _ _) hc, le_min (hd _ _) hc, (abs_min_sub_min_le_max _ _ _ _).trans ?_⟩
      rw [sub_self, abs_zero]
      exact max_le (hRQ _ _ _ _ hx hy) hη
    | none =>
      simp only [pairDist, Option.some.injEq] at h
      subst h
      exact ⟨_, rfl, by simpa using hc, by simpa using hc, by simpa using hη⟩
  | none =>
    cases hb with
    | some hy =>
      simp only [pairDist, Option.some.injEq] at h
      subst h
      exact ⟨_, rfl, by simpa using hc, by simpa using hc, by simpa using hη⟩
    | none =>
      refine ⟨u, h, ?_, ?_, by simpa using hη⟩ <;>
      · cases ue <;> simp only [pairDist, if_true, Option.some.injEq, Bool.false_eq_true, if_false] at h
        · exact nomatch h
        · rw [← h]
          exact le_min le_rfl hc

theorem step_moved {lsa : Lsa} (hl : ∀ m n D, IsOptimal D (lsa m n D)) {c : ℝ} (hc : 0 ≤ c) {p : ℕ} (hp : 1 ≤ p)
    {ue : Bool} {d : X → Y → ℝ} (hd : ∀ x y, 0 ≤ d x y) {R : X → X → Prop}
    {Q : Y → Y → Prop} {η : ℝ} (hη : 0 ≤ η) (hRQ : ∀ x x' y y', R x x' → Q y y' → |d x y - d x' y'| ≤ η)
    {e e' : Row X} {t t' : Row Y} (he : List.Forall₂ (Option.Rel R) e e') (ht : List.Forall₂ (Option.Rel Q) t t')
    {r : ℝ × ℝ} (h : ospaStep lsa c p ue d e t = .ok r) :
    ∃ r', ospaStep lsa c p ue d e' t' = .ok r' ∧ r.2 = r'.2 ∧ |r.1 - r'.1| ≤ η := by
  have ce := moved_count he
  have ct := moved_count ht
  by_cases h0 : count t = 0 ∧ count e = 0
  · refine ⟨r, ?_, rfl, by simpa using hη⟩
    unfold ospaStep at h ⊢
    rw [← ce, ← ct]
    rw [if_pos h0] at h ⊢
    exact h
  · by_cases h1 : count t = 0 ∨ count e = 0
    · refine ⟨r, ?_, rfl, by simpa using hη⟩
      unfold ospaStep at h ⊢
      rw [← ce, ← ct]
      rw [if_neg h0, if_pos h1] at h ⊢
      exact h
    · have hne : ∀ (i : Fin (count e)) (j : Fin (count t)), ∃ u, pairDist c ue d (slot e i) (slot t j) = some u := by
        by_contra hcon
        push Not at hcon
        obtain ⟨i, j, hij⟩ := hcon
        obtain ⟨x, hx⟩ := (assignCost_invalid lsa p (count e) (count t)
          (fun i j => pairDist c ue d (slot e i) (slot t j))).2 ⟨i, j, Option.eq_none_iff_forall_ne_some.2 hij⟩
        unfold ospaStep at h
        rw [if_neg h0, if_neg h1, hx] at h
        exact nomatch h
      choose f hf using hne
      have hg : ∀ (i : Fin (count e')) (j : Fin (count t')), ∃ u', pairDist c ue d (slot e' i) (slot t' j) = some u' ∧
          0 ≤ f (i.cast ce.symm) (j.cast ct.symm) ∧ 0 ≤ u' ∧ |f (i.cast ce.symm) (j.cast ct.symm) - u'| ≤ η := fun i j =>
        pairDist_moved hc hd hη hRQ (moved_slot he i) (moved_slot ht j) (hf (i.cast ce.symm) (j.cast ct.symm))
      choose g hg using hg
      obtain ⟨l, q, v, ho, hv, hl1, hq1⟩ := ospaStep_ok hl hc (by omega : p ≠ 0) ue d e t f hf
      obtain ⟨l', q', v', ho', hv', hl2, hq2⟩ := ospaStep_ok hl hc (by omega : p ≠ 0) ue d e' t' g fun i j => (hg i j).1
      rw [ho, Except.ok.injEq] at h
      subst h
      refine ⟨_, ho', ?_, ?_⟩
      · show q = q'
        rw [hq1, hq2, ce, ct]
      · show |l - l'| ≤ η
        generalize count e = m at *
        generalize count t = n at *
        subst ce ct
        have a1 := minCost_stable hη (fun i j => (hg i j).2.1) (fun i j => (hg i j).2.2.1)
          (fun i j => by have := abs_le.1 (hg i j).2.2.2; simp only [Fin.cast_refl, id] at this ⊢; linarith [this.2]) hp hv hv'
        have a2 := minCost_stable hη (fun i j => (hg i j).2.2.1) (fun i j => (hg i j).2.1)
          (fun i j => by have := abs_le.1 (hg i j).2.2.2; simp only [Fin.cast_refl, id] at this ⊢; linarith [this.1]) hp hv' hv
        rw [← hl1, ← hl2] at a1 a2
        rw [abs_le]
        constructor <;> linarith

theorem loop_moved {lsa : Lsa} (hl : ∀ m n D, IsOptimal D (lsa m n D)) {c : ℝ} (hc : 0 ≤ c) {p : ℕ} (hp : 1 ≤ p)
    {ue : Bool} {d : X → Y → ℝ} (hd : ∀ x y, 0 ≤ d x y) {R : X → X → Prop}
    {Q : Y → Y → Prop} {η : ℝ} (hη : 0 ≤ η) (hRQ : ∀ x x' y y', R x x' → Q y y' → |d x y - d x' y'| ≤ η) :
    ∀ {truth truth' : List (Row Y)}, List.Forall₂ (List.Forall₂ (Option.Rel Q)) truth truth' →
    ∀ {est est' : List (Row X)}, List.Forall₂ (List.Forall₂ (Option.Rel R)) est est' → ∀ {out : List (ℝ × ℝ)},
      ospaLoop lsa c p ue d est truth = .ok out →
    ∃ out', ospaLoop lsa c p ue d est' truth' = .ok out' ∧
      List.Forall₂ (fun r r' => r.2 = r'.2 ∧ |r.1 - r'.1| ≤ η) out out' := by
  intro truth truth' ht
  induction ht with
  | nil =>
    intro est est' _ out h
    unfold ospaLoop at h
    simp only [Except.ok.injEq] at h
    subst h
    exact ⟨[], by unfold ospaLoop; rfl, .nil⟩
  | cons hr _ ih =>
    intro est est' he out h
    cases he with
    | nil => unfold ospaLoop at h; exact nomatch h
    | cons ha hb =>
      rw [ospaLoop_cons] at h
      split at h
      · exact nomatch h
      · rename_i r hst
        split at h
        · exact nomatch h
        · rename_i l hlp
          simp only [Except.ok.injEq] at h
          subst h
          obtain ⟨r', hr', hrr⟩ := step_moved hl hc hp hd hη hRQ ha hr hst
          obtain ⟨l', hl', hll⟩ := ih hb hlp
          refine ⟨r' :: l', ?_, .cons hrr hll⟩
          rw [ospaLoop_cons, hr']
          dsimp only
          rw [hl']

theorem core_moved {m : Method} (hem : m = .euclidean ∨ m = .manhattan) {δ ε : ℝ} {x x' y y' : Obj s}
    (hx : coreDist m x x' ≤ δ) (hy : coreDist m y y' ≤ ε) : |coreDist m x y - coreDist m x' y'| ≤ δ + ε := by
  have hsym : ∀ x y : Obj s, coreDist m x y = coreDist m y x := by
    rcases hem with rfl | rfl
    · intro x y
      simp only [coreDist]
      congr 1
      exact Finset.sum_congr rfl fun k _ => by ring
    · intro x y
      simp only [coreDist]
      exact Finset.sum_congr rfl fun k _ => abs_sub_comm _ _
  have t1 := coreDist_triangle hem x x' y
  have t2 := coreDist_triangle hem x' y' y
  have t3 := coreDist_triangle hem x' x y'
  have t4 := coreDist_triangle hem x y y'
  have s1 := hsym x' x
  have s2 := hsym y' y
  rw [abs_le]
  constructor <;> linarith

/-- **C166.** The OSPA error is stable (orders `p ≥ 1`, cut-offs at least zero, Euclidean or Manhattan method): if the
estimates move by at most `δ` each and the true objects by at most `ε` each, in the distance of the method, and the same
slots stay occupied, then `calculate_ospa` still returns if it did, no cardinality component changes at all, and the
localisation component and the error of each time step change by at most `δ + ε` — whatever the matching does. -/
theorem C166_ospa_stable (lsa : Lsa) (hl : ∀ m n D, IsOptimal D (lsa m n D)) {est est' truth truth' : List (Row (Obj s))}
    {c : ℝ} (hc : 0 ≤ c) {p : ℕ} (hp : 1 ≤ p) {useEmpty : Bool} {method : Option Method} {hasTrueCov hasEstCov : Bool}
    {m : Method} (hm : effMethod method hasTrueCov hasEstCov = m) (hem : m = .euclidean ∨ m = .manhattan) {δ ε : ℝ}
    (hδ : 0 ≤ δ) (hε : 0 ≤ ε) (he : Moved (coreDist m) δ est est') (ht : Moved (coreDist m) ε truth truth')
    {out : List (ℝ × ℝ)} (h : calculateOspa lsa est truth c p useEmpty method hasTrueCov hasEstCov = .ok out) :
    ∃ out', calculateOspa lsa est' truth' c p useEmpty method hasTrueCov hasEstCov = .ok out' ∧
      List.Forall₂ (fun r r' => r.2 = r'.2 ∧ |r.1 - r'.1| ≤ δ + ε ∧ |total r - total r'| ≤ δ + ε) out out' := by
  have hnh : effMethod method hasTrueCov hasEstCov = .hellinger → hasEstCov = true := by
    intro h'
    rw [hm] at h'
    subst h'
    rcases hem with h' | h' <;> exact nomatch h'
  rw [calculateOspa_given hnh] at h ⊢
  unfold ospaGiven at h ⊢
  rw [hm] at h ⊢
  have hd : ∀ x y : Obj s, 0 ≤ coreDist m x y := coreDist_nonneg' hem
  obtain ⟨out', ho, hf⟩ := loop_moved hl (effCut_bounds m hc).1 hp hd (add_nonneg hδ hε)
    (R := fun x x' => coreDist m x x' ≤ δ) (Q := fun y y' => coreDist m y y' ≤ ε)
    (fun x x' y y' hx hy => core_moved hem hx hy) ht he h
  refine ⟨out', ho, hf.imp ?_⟩
  rintro r r' ⟨h1, h2⟩
  refine ⟨h1, h2, ?_⟩
  unfold total
  rw [h1, add_sub_add_right_eq_sub]
  exact h2

/-- Two slots, of which the second is occupied: the object in it moves by `1`. -/
example : Moved (coreDist .euclidean) 1 [[none, some (pt 0)], [some (pt 7), none]]
    [[none, some (pt 1)], [some (pt 6), none]] := by
  refine .cons (.cons .none (.cons (.some ?_) .nil)) (.cons (.cons (.some ?_) (.cons .none .nil)) .nil) <;>
  · rw [coreDist_pt]
    norm_num

/-- **C166**, the bound is attained: an estimate at `0` and a true object at `3`; the estimate moves by `1` and the error
drops from `3` to `2`. -/
theorem C166_attained (lsa : Lsa) (hl : ∀ m n D, IsOptimal D (lsa m n D)) :
    Moved (coreDist .euclidean) 1 [[some (pt 0)]] [[some (pt 1)]] ∧
      calculateOspa lsa [[some (pt 0)]] [[some (pt 3)]] 5 2 true none false false = .ok [(3, 0)] ∧
      calculateOspa lsa [[some (pt 1)]] [[some (pt 3)]] 5 2 true none false false = .ok [(2, 0)] := by
  have key : ∀ a v : ℝ, |3 - a| = v → 0 ≤ v → v ≤ 5 →
      calculateOspa lsa [[some (pt a)]] [[some (pt 3)]] 5 2 true none false false = .ok [(v, 0)] := by
    intro a v hv h0 h5
    have hm : effMethod none false false = .euclidean := rfl
    rw [calculateOspa_given (by intro h; rw [hm] at h; exact nomatch h)]
    unfold ospaGiven
    rw [hm, ospaLoop_cons, ospaStep_one hl (effCut_bounds _ (by norm_num : (0 : ℝ) ≤ 5)).1 two_ne_zero true
      (coreDist .euclidean) _ _ rfl rfl h0 (by
        show some (min (coreDist .euclidean (pt a) (pt 3)) _) = some v
        rw [coreDist_pt, hv, min_eq_left]
        unfold effCut
        rw [if_neg (by decide)]
        exact h5)]
    unfold ospaLoop
    rfl
  refine ⟨.cons (.cons (.some ?_) .nil) .nil, key 0 3 (by norm_num) (by norm_num) (by norm_num),
    key 1 2 (by norm_num) (by norm_num) (by norm_num)⟩
  rw [coreDist_pt]
  norm_num

end C166

end Gasur.Props
