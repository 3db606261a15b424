import Verif.Proofs.AssignOpt

/-! # `assign_opt` meets its specification -/

set_option linter.unusedSectionVars false
set_option linter.unusedSimpArgs false

namespace Gasur.Assign

open Gasur.Spec

variable {K : Type*} {r c : ℕ} [CommRing K] [LinearOrder K]

/-- Rows on infinite entries dropped. -/
def dropInf (a : Fin r → Option (Fin c)) (D : Fin r → Fin c → WithTop K) : Fin r → Option (Fin c) :=
  fun i => match a i with
    | none => none
    | some j => if D i j = ⊤ then none else some j

theorem compAssign_aux (D : Fin r → Fin c → WithTop K) (a0 : Fin r → Option (Fin c)) :
    ∀ (l : List (Fin r)) (a : Fin r → Option (Fin c)) (k : K), l.Nodup →
      (∀ i ∈ l, a i = a0 i) →
      l.foldl (compStep D) (a, k) =
      ((fun i => if i ∈ l then dropInf a0 D i else a i),
        k + (l.map (rowCost D (dropInf a0 D))).sum) := by
  intro l
  induction l with
  | nil => intro a k _ _; simp
  | cons i l ih =>
    intro a k hn ha
    rw [List.nodup_cons] at hn
    simp only [List.foldl_cons]
    have hai := ha i List.mem_cons_self
    have hal : ∀ x ∈ l, a x = a0 x := fun x hx => ha x (List.mem_cons_of_mem _ hx)
    cases h : a i with
    | none =>
      have hst : compStep D (a, k) i = (a, k) := by simp [compStep, h]
      rw [hst]
      rw [ih a k hn.2 hal]
      have hd : dropInf a0 D i = none := by unfold dropInf; rw [← hai, h]
      refine Prod.ext ?_ ?_
      · funext x
        by_cases hx : x = i
        · subst hx; simp [hn.1, hd, h]
        · simp [hx]
      · simp [rowCost, hd]
    | some j =>
      cases hD : D i j with
      | top =>
        have hst : compStep D (a, k) i = (Function.update a i none, k) := by
          simp only [compStep, h, hD]
        rw [hst]
        have hd : dropInf a0 D i = none := by unfold dropInf; rw [← hai, h]; simp [hD]
        rw [ih _ k hn.2 (by
          intro x hx
          have : x ≠ i := by rintro rfl; exact hn.1 hx
          rw [Function.update_of_ne this]; exact hal x hx)]
        refine Prod.ext ?_ ?_
        · funext x
          by_cases hx : x = i
          · subst hx; simp [hn.1, hd]
          · simp [hx]
        · simp [rowCost, hd]
      | coe v =>
        have hst : compStep D (a, k) i = (a, k + v) := by
          simp only [compStep, h, hD]
        rw [hst]
        have hd : dropInf a0 D i = some j := by unfold dropInf; rw [← hai, h]; simp [hD]
        rw [ih _ _ hn.2 hal]
        refine Prod.ext ?_ ?_
        · funext x
          by_cases hx : x = i
          · subst hx; simp [hn.1, hd, h]
          · simp [hx]
        · simp [rowCost, hd, hD, add_assoc]

theorem compAssign_eq (D : Fin r → Fin c → WithTop K) (a : Fin r → Option (Fin c)) :
    compAssign a D = (dropInf a D, assignCost D (dropInf a D)) := by
  unfold compAssign
  rw [compAssign_aux D a (List.finRange r) a 0 (List.nodup_finRange r) (fun _ _ => rfl)]
  refine Prod.ext ?_ ?_
  · funext x; simp
  · unfold assignCost
    rw [zero_add]
    rw [Fin.sum_univ_def]

/-- The pairs of an assignment. -/
def pairs (a : Fin r → Option (Fin c)) : Finset (Fin r × Fin c) :=
  Finset.univ.filter fun p => a p.1 = some p.2

theorem mem_pairs {a : Fin r → Option (Fin c)} {p : Fin r × Fin c} :
    p ∈ pairs a ↔ a p.1 = some p.2 := by simp [pairs]

theorem pairs_match {D : Fin r → Fin c → WithTop K} {a : Fin r → Option (Fin c)}
    (h : IsAssignment D a) : IsMatch (pairs a) := by
  constructor
  · rintro ⟨i, j⟩ hp ⟨i', j'⟩ hq hpq
    rw [mem_pairs] at hp hq
    simp only at hp hq hpq
    subst hpq
    rw [hp] at hq
    simp only [Option.some.injEq] at hq
    rw [hq]
  · rintro ⟨i, j⟩ hp ⟨i', j'⟩ hq hpq
    rw [mem_pairs] at hp hq
    simp only at hp hq hpq
    subst hpq
    rw [h.inj i i' j hp hq]

theorem pairs_image (a : Fin r → Option (Fin c)) :
    (pairs a).image Prod.fst = Finset.univ.filter fun i => (a i).isSome = true := by
  ext i
  simp only [Finset.mem_image, Finset.mem_filter, Finset.mem_univ, true_and, mem_pairs]
  constructor
  · rintro ⟨⟨x, y⟩, h, rfl⟩; simp only at h; simp [h]
  · intro h
    obtain ⟨j, hj⟩ := Option.isSome_iff_exists.1 h
    exact ⟨(i, j), hj, rfl⟩

theorem pairs_injOn (a : Fin r → Option (Fin c)) : Set.InjOn Prod.fst (pairs a : Set (Fin r × Fin c)) := by
  rintro ⟨i, j⟩ hp ⟨i', j'⟩ hq hpq
  rw [Finset.mem_coe, mem_pairs] at hp hq
  simp only at hp hq hpq
  subst hpq
  rw [hp] at hq
  simp only [Option.some.injEq] at hq
  rw [hq]

theorem pairs_card (a : Fin r → Option (Fin c)) : (pairs a).card = assignSize a := by
  unfold assignSize
  rw [← pairs_image, Finset.card_image_of_injOn (pairs_injOn a)]

theorem pairs_cost (D : Fin r → Fin c → WithTop K) (a : Fin r → Option (Fin c)) :
    ∑ p ∈ pairs a, (D p.1 p.2).untopD 0 = assignCost D a := by
  unfold assignCost
  have h1 : ∑ i, rowCost D a i = ∑ i ∈ (pairs a).image Prod.fst, rowCost D a i := by
    symm
    apply Finset.sum_subset (Finset.subset_univ _)
    intro i _ hi
    rw [pairs_image] at hi
    simp only [Finset.mem_filter, Finset.mem_univ, true_and] at hi
    cases h : a i with
    | none => simp [rowCost, h]
    | some j => simp [h] at hi
  rw [h1, Finset.sum_image (pairs_injOn a)]
  apply Finset.sum_congr rfl
  rintro ⟨i, j⟩ hp
  rw [mem_pairs] at hp
  simp only at hp
  simp only [rowCost, hp]

variable [IsStrictOrderedRing K]

theorem negative_iff (D : Fin r → Fin c → WithTop K) :
    ((List.finRange r).any (fun i => (List.finRange c).any fun j =>
      decide (D i j ≠ ⊤) && decide (D i j < 0)) = true) ↔ ∃ i j, D i j < 0 := by
  simp only [List.any_eq_true, List.mem_finRange, true_and, Bool.and_eq_true, decide_eq_true_eq]
  constructor
  · rintro ⟨i, j, _, h⟩; exact ⟨i, j, h⟩
  · rintro ⟨i, j, h⟩; exact ⟨i, j, ne_top_of_lt h, h⟩

theorem assignOpt_negative (D : Fin r → Fin c → WithTop K) (h : ∃ i j, D i j < 0) :
    assignOpt D = .error .negative := by
  unfold assignOpt
  rw [if_pos ((negative_iff D).2 h)]

theorem starCol_iff {s : St K r c} (h : Core s) (i : Fin r) (j : Fin c) :
    buildAssign s.star i = some j ↔ s.star i j = true := by
  unfold buildAssign starCol
  constructor
  · intro hf; exact find_finRange_some hf
  · intro hij
    obtain ⟨k, hk⟩ := find_finRange_exists (p := fun b => s.star i b) ⟨j, hij⟩
    have := h.rowU i k j (find_finRange_some hk) hij
    rw [hk, this]

theorem assignOpt_ok (D : Fin r → Fin c → WithTop K) (hnn : ∀ i j, 0 ≤ D i j) :
    ∃ a, assignOpt D = .ok (a, assignCost D a) ∧ IsOptimalAssignment D a := by
  unfold assignOpt
  rw [if_neg (by
    rw [negative_iff]
    rintro ⟨i, j, h⟩
    exact absurd (hnn i j) (not_le.2 h))]
  by_cases hall : (List.finRange r).all (fun i => (List.finRange c).all fun j => decide (D i j = ⊤)) = true
  · rw [if_pos hall]
    simp only [List.all_eq_true, List.mem_finRange, true_implies, decide_eq_true_eq] at hall
    refine ⟨fun _ => none, ?_, ⟨by simp, by simp⟩, ?_⟩
    · simp [assignCost, rowCost]
    · intro b hb
      have hbn : b = fun _ => none := by
        funext i
        cases h : b i with
        | none => rfl
        | some j => exact absurd (hall i j) (hb.finite i j h)
      rw [hbn]
      exact ⟨le_refl _, fun _ => le_refl _⟩
  · rw [if_neg hall]
    have hex : ∃ i j, D i j ≠ ⊤ := by
      by_contra hcon
      push Not at hcon
      apply hall
      simp only [List.all_eq_true, List.mem_finRange, true_implies, decide_eq_true_eq]
      exact hcon
    obtain ⟨i0, j0, h0⟩ := hex
    have hr : 0 < r := i0.pos
    have hc : 0 < c := j0.pos
    have hinit : InitOK (fillInf D) (if r ≤ c then initRows (fillInf D) else initCols (fillInf D)) := by
      by_cases hrc : r ≤ c
      · rw [if_pos hrc]; exact initRows_ok _ hrc
      · rw [if_neg hrc]; exact initCols_ok _ hrc
    obtain ⟨s, hs, hcore, hdual, hn⟩ := start_spec hinit
    simp only [hs]
    rw [compAssign_eq]
    refine ⟨_, rfl, ?_⟩
    have hm : 0 ≤ maxFin D := by
      obtain ⟨x, hx⟩ := WithTop.ne_top_iff_exists.1 h0
      have := hnn i0 j0
      rw [← hx] at this
      exact le_trans (WithTop.coe_le_coe.1 this) (le_listMax (mem_finiteEntries hx.symm))
    have hS := starSet_match hcore
    have hSc : (starSet s).card = minDim r c := by rw [starSet_card hcore, hn]
    have hpairs : pairs (dropInf (buildAssign s.star) D) =
        (starSet s).filter fun p => D p.1 p.2 ≠ ⊤ := by
      ext ⟨i, j⟩
      rw [mem_pairs, Finset.mem_filter, mem_starSet]
      simp only
      unfold dropInf
      cases h : buildAssign s.star i with
      | none =>
        simp only [reduceCtorEq, false_iff, not_and, not_not]
        intro hij
        rw [(starCol_iff hcore i j).2 hij] at h
        simp at h
      | some k =>
        have hik := (starCol_iff hcore i k).1 h
        simp only
        constructor
        · intro hh
          split at hh
          · simp at hh
          · simp only [Option.some.injEq] at hh
            subst hh
            exact ⟨hik, by assumption⟩
        · rintro ⟨hij, hD⟩
          have := hcore.rowU i k j hik hij
          subst this
          rw [if_neg hD]
    refine ⟨⟨?_, ?_⟩, ?_⟩
    · intro i i' j hi hi'
      have h1 : (i, j) ∈ pairs (dropInf (buildAssign s.star) D) := mem_pairs.2 hi
      have h2 : (i', j) ∈ pairs (dropInf (buildAssign s.star) D) := mem_pairs.2 hi'
      rw [hpairs, Finset.mem_filter] at h1 h2
      have := hS.col _ h1.1 _ h2.1 rfl
      exact (Prod.ext_iff.1 this).1
    · intro i j hi
      have h1 : (i, j) ∈ pairs (dropInf (buildAssign s.star) D) := mem_pairs.2 hi
      rw [hpairs, Finset.mem_filter] at h1
      exact h1.2
    · intro b hb
      have := finite_part_optimal hnn hr hc hm hS hSc
        (fun M hM hMc => dual_optimal hcore hdual hn hM hMc) (pairs_match hb)
        (by
          rintro ⟨i, j⟩ hp
          exact hb.finite i j (mem_pairs.1 hp))
      rw [← hpairs, pairs_card, pairs_card, pairs_cost, pairs_cost] at this
      exact this

end Gasur.Assign
