import Verif.Proofs.Murty

/-! # `murty_m_best` meets its specification -/

set_option linter.unusedSectionVars false
set_option linter.unusedSimpArgs false

namespace Gasur.Murty

open Gasur.Assign Gasur.Spec

variable {K : Type*} [CommRing K] [LinearOrder K] [IsStrictOrderedRing K] {r n : ℕ}

theorem foldl_min_top (l : List (WithTop K)) : ∀ x : WithTop K,
    l.foldl min x ≤ x ∧ ∀ y ∈ l, l.foldl min x ≤ y := by
  induction l with
  | nil => intro x; simp
  | cons a l ih =>
    intro x
    simp only [List.foldl_cons]
    obtain ⟨h1, h2⟩ := ih (min x a)
    refine ⟨le_trans h1 (min_le_left _ _), ?_⟩
    intro y hy
    rcases List.mem_cons.1 hy with rfl | hy
    · exact le_trans h1 (min_le_right _ _)
    · exact h2 y hy

theorem subTop_top (x : K) : subTop (⊤ : WithTop K) x = ⊤ := rfl
theorem subTop_coe (y x : K) : subTop (y : WithTop K) x = ((y - x : K) : WithTop K) := rfl

theorem subTop_eq_top {v : WithTop K} {x : K} : subTop v x = ⊤ ↔ v = ⊤ := by
  cases v with
  | top => simp [subTop_top]
  | coe y => simp [subTop_coe]

theorem hstack_left (C : Fin r → Fin n → WithTop K) (i : Fin r) (j : Fin n) :
    hstack C i (Fin.castAdd r j) = C i j := by simp [hstack]

theorem hstack_lt (C : Fin r → Fin n → WithTop K) (i : Fin r) (j : Fin (n + r)) (h : j.val < n) :
    hstack C i j = C i ⟨j.val, h⟩ := by
  have : j = Fin.castAdd r ⟨j.val, h⟩ := by ext; simp
  calc hstack C i j = hstack C i (Fin.castAdd r ⟨j.val, h⟩) := congrArg (hstack C i) this
    _ = C i ⟨j.val, h⟩ := hstack_left C i _

theorem hstack_ge (C : Fin r → Fin n → WithTop K) (i : Fin r) (j : Fin (n + r)) (h : n ≤ j.val) :
    hstack C i j = 0 := by
  have : j = Fin.natAdd n ⟨j.val - n, by omega⟩ := by ext; simp; omega
  calc hstack C i j = hstack C i (Fin.natAdd n ⟨j.val - n, by omega⟩) :=
        congrArg (hstack C i) this
    _ = 0 := by unfold hstack; rw [Fin.append_right]

/-- The shifted extended matrix. -/
def shifted (C : Fin r → Fin n → WithTop K) (x : K) : Fin r → Fin (n + r) → WithTop K :=
  fun i j => subTop (hstack C i j) x

theorem shifted_good (C : Fin r → Fin n → WithTop K) (x : K)
    (hx : ∀ i j, (x : WithTop K) ≤ hstack C i j) : Good (shifted C x) (shifted C x) := by
  refine ⟨?_, fun i j => Or.inr rfl, ?_⟩
  · intro i j
    unfold shifted
    cases h : hstack C i j with
    | top => rw [subTop_top]; exact le_top
    | coe y =>
      rw [subTop_coe]
      have := hx i j
      rw [h] at this
      have h2 : x ≤ y := WithTop.coe_le_coe.1 this
      have h3 : (0 : K) ≤ y - x := sub_nonneg.2 h2
      exact WithTop.coe_le_coe.2 h3
  · intro i i' d d' _ hd' _ _ _
    unfold shifted
    rw [Ne, subTop_eq_top, hstack_ge C i' d' hd']
    exact WithTop.zero_ne_top

theorem shifted_full (C : Fin r → Fin n → WithTop K) (x : K) (σ : Fin r → Option (Fin n))
    (hσ : IsAssignment C σ) : ∃ f, Full (shifted C x) f ∧ proj f = σ := by
  let f : Fin r → Fin (n + r) := fun i => match σ i with
    | none => Fin.natAdd n i
    | some j => Fin.castAdd r j
  have hf0 : ∀ i, σ i = none → f i = Fin.natAdd n i := fun i h => by simp only [f, h]
  have hf1 : ∀ i j, σ i = some j → f i = Fin.castAdd r j := fun i j h => by simp only [f, h]
  refine ⟨f, ⟨?_, ?_⟩, ?_⟩
  · intro i i' h
    cases h1 : σ i with
    | none =>
      cases h2 : σ i' with
      | none =>
        rw [hf0 i h1, hf0 i' h2] at h
        have := congrArg Fin.val h
        simp at this
        exact Fin.ext this
      | some j =>
        rw [hf0 i h1, hf1 i' j h2] at h
        have := congrArg Fin.val h
        simp at this
        have := j.isLt; omega
    | some j =>
      cases h2 : σ i' with
      | none =>
        rw [hf1 i j h1, hf0 i' h2] at h
        have := congrArg Fin.val h
        simp at this
        have := j.isLt; omega
      | some j' =>
        rw [hf1 i j h1, hf1 i' j' h2] at h
        have := congrArg Fin.val h
        simp at this
        have hj : j = j' := Fin.ext this
        subst hj
        exact hσ.inj i i' j h1 h2
  · intro i
    unfold shifted
    rw [Ne, subTop_eq_top]
    cases h1 : σ i with
    | none =>
      rw [hf0 i h1, hstack_ge C i _ (by simp)]
      exact WithTop.zero_ne_top
    | some j =>
      rw [hf1 i j h1, hstack_left]
      exact hσ.finite i j h1
  · funext i
    cases h1 : σ i with
    | none => rw [proj_eq_none, hf0 i h1]; simp
    | some j => rw [proj_eq_some, hf1 i j h1]; simp

theorem proj_assignment (C : Fin r → Fin n → WithTop K) (x : K) (f : Fin r → Fin (n + r))
    (hf : Full (shifted C x) f) : IsAssignment C (proj f) := by
  refine ⟨?_, ?_⟩
  · intro i i' j h1 h2
    rw [proj_eq_some] at h1 h2
    exact hf.inj i i' (Fin.ext (by omega))
  · intro i j h1
    rw [proj_eq_some] at h1
    have h2 := hf.fin i
    unfold shifted at h2
    rw [Ne, subTop_eq_top, hstack_lt C i (f i) (by rw [h1]; exact j.isLt)] at h2
    have : (⟨(f i).val, by rw [h1]; exact j.isLt⟩ : Fin n) = j := Fin.ext h1
    rwa [this] at h2

theorem asg_shifted (C : Fin r → Fin n → WithTop K) (x : K) (σ : Fin r → Option (Fin n)) :
    σ ∈ asg (shifted C x) ↔ IsAssignment C σ := by
  constructor
  · rintro ⟨f, hf, rfl⟩; exact proj_assignment C x f hf
  · intro h; exact shifted_full C x σ h

theorem fcost_shifted (C : Fin r → Fin n → WithTop K) (x : K) (f : Fin r → Fin (n + r))
    (hf : Full (shifted C x) f) : fcost (shifted C x) f = assignCost C (proj f) - (r : K) * x := by
  have h : ∀ i, (shifted C x i (f i)).untopD 0 = rowCost C (proj f) i - x := by
    intro i
    have hfi := hf.fin i
    unfold shifted at hfi ⊢
    rw [Ne, subTop_eq_top] at hfi
    unfold rowCost
    cases hp : proj f i with
    | none =>
      rw [proj_eq_none] at hp
      rw [hstack_ge C i _ hp]
      have : (0 : WithTop K) = ((0 : K) : WithTop K) := rfl
      rw [this, subTop_coe, WithTop.untopD_coe]
    | some j =>
      rw [proj_eq_some] at hp
      have hlt : (f i).val < n := by rw [hp]; exact j.isLt
      rw [hstack_lt C i (f i) hlt] at hfi ⊢
      have : (⟨(f i).val, hlt⟩ : Fin n) = j := Fin.ext hp
      rw [this] at hfi ⊢
      obtain ⟨y, hy⟩ := WithTop.ne_top_iff_exists.1 hfi
      simp only
      rw [← hy, subTop_coe, WithTop.untopD_coe, WithTop.untopD_coe]
  unfold fcost assignCost
  rw [Finset.sum_congr rfl (fun i _ => h i), Finset.sum_sub_distrib]
  simp

theorem decode_pj (f : Fin r → Fin (n + r)) :
    decodeRow (fun i => some (f i)) = enc (proj f) := by
  funext i
  unfold decodeRow enc
  simp only
  cases hp : proj f i with
  | none =>
    rw [proj_eq_none] at hp
    rw [if_pos (by omega)]
  | some j =>
    rw [proj_eq_some] at hp
    rw [if_neg (by have := j.isLt; omega), hp]

theorem pairwise_imp_mem {α : Type*} {R S : α → α → Prop} {l : List α} (h : l.Pairwise R)
    (hi : ∀ a ∈ l, ∀ b ∈ l, R a b → S a b) : l.Pairwise S := by
  induction l with
  | nil => simp
  | cons x l ih =>
    rw [List.pairwise_cons] at h ⊢
    refine ⟨fun b hb => hi x List.mem_cons_self b (List.mem_cons_of_mem _ hb) (h.1 b hb), ?_⟩
    exact ih h.2 (fun a ha b hb => hi a (List.mem_cons_of_mem _ ha) b (List.mem_cons_of_mem _ hb))

/-- Full correctness of `murty_m_best` for at least one row. -/
theorem murty_spec (C : Fin r → Fin n → WithTop K) (m : ℕ) (hr : 0 < r) :
    ∃ out : List ((Fin r → Option (Fin n)) × K),
      murty C m = .ok (out.map fun p => (enc p.1, p.2)) ∧
      (∀ p ∈ out, IsAssignment C p.1 ∧ p.2 = assignCost C p.1) ∧
      (out.map Prod.fst).Nodup ∧
      out.Pairwise (fun p q => p.2 ≤ q.2) ∧
      out.length ≤ m ∧
      ∀ b, IsAssignment C b → b ∉ out.map Prod.fst →
        out.length = m ∧ ∀ p ∈ out, p.2 ≤ assignCost C b := by
  unfold murty
  by_cases hm : m = 0
  · rw [if_pos hm]
    exact ⟨[], rfl, by simp, by simp, by simp, by simp, by simp [hm]⟩
  · rw [if_neg hm]
    have hmem : ∀ i j, hstack C i j ∈ entries (hstack C) := by
      intro i j
      unfold entries
      rw [List.mem_flatMap]
      exact ⟨i, List.mem_finRange i, List.mem_map.2 ⟨j, List.mem_finRange j, rfl⟩⟩
    have hzero : (0 : WithTop K) ∈ entries (hstack C) := by
      have := hmem ⟨0, hr⟩ (Fin.natAdd n ⟨0, hr⟩)
      rwa [hstack_ge C _ _ (by simp)] at this
    cases hent : entries (hstack C) with
    | nil => rw [hent] at hzero; simp at hzero
    | cons e es =>
      simp only
      obtain ⟨hmin1, hmin2⟩ := foldl_min_top es e
      have hminall : ∀ y ∈ entries (hstack C), es.foldl min e ≤ y := by
        intro y hy
        rw [hent] at hy
        rcases List.mem_cons.1 hy with rfl | hy
        · exact hmin1
        · exact hmin2 y hy
      cases hx : es.foldl min e with
      | top =>
        have := hminall 0 hzero
        rw [hx] at this
        exact absurd this (by simp)
      | coe x =>
        simp only
        rw [hx] at hminall
        have hgood := shifted_good C x (fun i j => hminall _ (hmem i j))
        obtain ⟨res, hres, hfin⟩ := helper_spec (kost := fun σ => assignCost C σ - (r : K) * x)
          hgood (by
            obtain ⟨f, hf, _⟩ := shifted_full C x (fun _ => none) ⟨by simp, by simp⟩
            exact ⟨f, hf⟩)
          (fun f hf => fcost_shifted C x f hf) m hm
        have hres' : helper (fun i j => subTop (hstack C i j) x) m = .ok (res.map some) := hres
        rw [hres']
        simp only
        rw [if_pos (by simp [List.all_eq_true])]
        obtain ⟨⟨ho1, ho2, ho3⟩, hlen, hcomp⟩ := hfin
        have hrow : ∀ p ∈ res, IsAssignment C (pj p.1) ∧
            finishRow x p = (enc (pj p.1), assignCost C (pj p.1)) ∧
            p.2 = assignCost C (pj p.1) - (r : K) * x := by
          intro p hp
          obtain ⟨f, hf1, hf2, hf3⟩ := ho1 p hp
          rw [hf1, pj_some]
          refine ⟨proj_assignment C x f hf2, ?_, ?_⟩
          · unfold finishRow
            rw [hf1, decode_pj, hf3, fcost_shifted C x f hf2]
            refine Prod.ext rfl ?_
            simp only [Option.isSome_some]
            rw [List.countP_true]
            simp only [List.length_finRange]
            ring
          · rw [hf3, fcost_shifted C x f hf2]
        refine ⟨res.map fun p => (pj p.1, assignCost C (pj p.1)), ?_, ?_, ?_, ?_, ?_, ?_⟩
        · congr 1
          rw [List.filterMap_map]
          rw [List.map_map]
          rw [← List.filterMap_eq_map]
          apply List.filterMap_congr
          intro p hp
          simp [(hrow p hp).2.1]
        · intro p hp
          obtain ⟨q, hq, rfl⟩ := List.mem_map.1 hp
          exact ⟨(hrow q hq).1, rfl⟩
        · rw [List.map_map]
          rw [List.nodup_iff_pairwise_ne, List.pairwise_map]
          exact ho2
        · rw [List.pairwise_map]
          apply pairwise_imp_mem ho3
          intro a ha b hb hab
          rw [(hrow a ha).2.2, (hrow b hb).2.2] at hab
          simp only
          linarith
        · simpa using hlen
        · intro b hb hnot
          have := hcomp b ((asg_shifted C x b).2 hb) (by
            intro p hp he
            apply hnot
            rw [List.map_map]
            exact List.mem_map.2 ⟨p, hp, he⟩)
          refine ⟨by simpa using this.1, ?_⟩
          intro p hp
          obtain ⟨q, hq, rfl⟩ := List.mem_map.1 hp
          have h2 := this.2 q hq
          rw [(hrow q hq).2.2] at h2
          simp only
          linarith

end Gasur.Murty
