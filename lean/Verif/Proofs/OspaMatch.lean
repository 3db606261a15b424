import Verif.Spec.Ospa
import Mathlib.Data.Finset.Max
import Mathlib.Data.Fintype.Powerset
import Mathlib.Data.Fintype.Prod
import Mathlib.Data.Fintype.Fin
import Mathlib.Algebra.Order.BigOperators.Group.Finset
import Mathlib.Algebra.BigOperators.Ring.Finset
import Mathlib.Tactic.Linarith

/-! # Facts about optimal matchings (proofs for the OSPA theorems) -/

namespace Gasur.Spec

open Finset

variable {m n m' n' : ℕ}

/-- The diagonal matching. -/
def diagMatch (m n : ℕ) : Finset (Fin m × Fin n) := univ.filter fun a => (a.1 : ℕ) = a.2

theorem diagMatch_card (m n : ℕ) : (diagMatch m n).card = min m n := by
  have : (diagMatch m n).card = (univ : Finset (Fin (min m n))).card := by
    symm
    apply Finset.card_bij (fun (k : Fin (min m n)) _ => ((⟨k, by omega⟩ : Fin m), (⟨k, by omega⟩ : Fin n)))
    · intro a _; simp [diagMatch]
    · intro a _ b _ h; simp at h; exact Fin.ext h
    · rintro ⟨a, b⟩ h
      simp [diagMatch] at h
      exact ⟨⟨a, by omega⟩, mem_univ _, by simp [Fin.ext_iff, h]⟩
  simpa using this

theorem isMatching_diag (m n : ℕ) : IsMatching (diagMatch m n) := by
  refine ⟨?_, ?_, diagMatch_card m n⟩
  · rintro ⟨a, b⟩ h ⟨a', b'⟩ h' hh
    simp [diagMatch] at h h' hh
    subst hh
    simp [Fin.ext_iff]; omega
  · rintro ⟨a, b⟩ h ⟨a', b'⟩ h' hh
    simp [diagMatch] at h h' hh
    subst hh
    simp [Fin.ext_iff]; omega

theorem exists_optimal (D : Fin m → Fin n → ℝ) : ∃ S, IsOptimal D S := by
  classical
  obtain ⟨S, hS, h⟩ := Finset.exists_min_image (univ.filter fun S : Finset (Fin m × Fin n) => IsMatching S)
    (matchCost D) ⟨diagMatch m n, by simp [isMatching_diag]⟩
  refine ⟨S, by simpa using hS, fun S' hS' => h S' (by simpa using hS')⟩

theorem exists_minCost (D : Fin m → Fin n → ℝ) : ∃ v, MinCost D v := by
  obtain ⟨S, h⟩ := exists_optimal D
  exact ⟨_, S, h, rfl⟩

theorem minCost_unique {D : Fin m → Fin n → ℝ} {v w : ℝ} (hv : MinCost D v) (hw : MinCost D w) : v = w := by
  obtain ⟨S, hS, rfl⟩ := hv
  obtain ⟨T, hT, rfl⟩ := hw
  exact le_antisymm (hS.2 T hT.1) (hT.2 S hS.1)

theorem minCost_of_optimal {D : Fin m → Fin n → ℝ} {S} (h : IsOptimal D S) : MinCost D (matchCost D S) :=
  ⟨S, h, rfl⟩

/-- Matchings carried over by an equivalence of the pairs that respects rows and columns. -/
theorem isMatching_map (e : Fin m × Fin n ≃ Fin m' × Fin n')
    (hr : (∀ a b, (e a).1 = (e b).1 ↔ a.1 = b.1) ∧ (∀ a b, (e a).2 = (e b).2 ↔ a.2 = b.2) ∨
      (∀ a b, (e a).1 = (e b).1 ↔ a.2 = b.2) ∧ (∀ a b, (e a).2 = (e b).2 ↔ a.1 = b.1))
    (hmn : min m n = min m' n') {S : Finset (Fin m × Fin n)} (h : IsMatching S) :
    IsMatching (S.map e.toEmbedding) := by
  refine ⟨?_, ?_, by rw [Finset.card_map, h.size, hmn]⟩
  · intro a ha b hb hab
    rw [Finset.mem_map] at ha hb
    obtain ⟨a, ha, rfl⟩ := ha
    obtain ⟨b, hb, rfl⟩ := hb
    rcases hr with hr | hr
    · rw [h.row a ha b hb ((hr.1 a b).1 hab)]
    · rw [h.col a ha b hb ((hr.1 a b).1 hab)]
  · intro a ha b hb hab
    rw [Finset.mem_map] at ha hb
    obtain ⟨a, ha, rfl⟩ := ha
    obtain ⟨b, hb, rfl⟩ := hb
    rcases hr with hr | hr
    · rw [h.col a ha b hb ((hr.2 a b).1 hab)]
    · rw [h.row a ha b hb ((hr.2 a b).1 hab)]

theorem matchCost_map (e : Fin m × Fin n ≃ Fin m' × Fin n') (D : Fin m → Fin n → ℝ)
    (D' : Fin m' → Fin n' → ℝ) (hD : ∀ a, D' (e a).1 (e a).2 = D a.1 a.2) (S : Finset (Fin m × Fin n)) :
    matchCost D' (S.map e.toEmbedding) = matchCost D S := by
  unfold matchCost
  rw [Finset.sum_map]
  exact Finset.sum_congr rfl fun a _ => hD a

theorem minCost_equiv (e : Fin m × Fin n ≃ Fin m' × Fin n')
    (hr : (∀ a b, (e a).1 = (e b).1 ↔ a.1 = b.1) ∧ (∀ a b, (e a).2 = (e b).2 ↔ a.2 = b.2) ∨
      (∀ a b, (e a).1 = (e b).1 ↔ a.2 = b.2) ∧ (∀ a b, (e a).2 = (e b).2 ↔ a.1 = b.1))
    (hmn : min m n = min m' n') (D : Fin m → Fin n → ℝ) (D' : Fin m' → Fin n' → ℝ)
    (hD : ∀ a, D' (e a).1 (e a).2 = D a.1 a.2) {v : ℝ} (h : MinCost D v) : MinCost D' v := by
  obtain ⟨S, ⟨hS, hmin⟩, rfl⟩ := h
  refine ⟨S.map e.toEmbedding, ⟨isMatching_map e hr hmn hS, fun S' hS' => ?_⟩, matchCost_map e D D' hD S⟩
  have hr' : (∀ a b, (e.symm a).1 = (e.symm b).1 ↔ a.1 = b.1) ∧ (∀ a b, (e.symm a).2 = (e.symm b).2 ↔ a.2 = b.2) ∨
      (∀ a b, (e.symm a).1 = (e.symm b).1 ↔ a.2 = b.2) ∧ (∀ a b, (e.symm a).2 = (e.symm b).2 ↔ a.1 = b.1) := by
    rcases hr with hr | hr
    · left
      exact ⟨fun a b => by rw [← hr.1]; simp, fun a b => by rw [← hr.2]; simp⟩
    · right
      exact ⟨fun a b => by rw [← hr.2]; simp, fun a b => by rw [← hr.1]; simp⟩
  have h1 := hmin _ (isMatching_map e.symm hr' hmn.symm hS')
  have h2 := matchCost_map e.symm D' D (fun a => by
    have := hD (e.symm a); simpa using this.symm) S'
  rw [matchCost_map e D D' hD S, ← h2]
  exact h1

theorem minCost_swap {D : Fin m → Fin n → ℝ} {v : ℝ} (h : MinCost D v) : MinCost (fun j i => D i j) v :=
  minCost_equiv (Equiv.prodComm _ _) (Or.inr ⟨fun _ _ => Iff.rfl, fun _ _ => Iff.rfl⟩) (min_comm _ _) D _
    (fun _ => rfl) h

theorem minCost_reindex (σ : Fin m ≃ Fin m') (τ : Fin n ≃ Fin n') (D : Fin m → Fin n → ℝ)
    (D' : Fin m' → Fin n' → ℝ) (hD : ∀ i j, D' (σ i) (τ j) = D i j) {v : ℝ} (h : MinCost D v) :
    MinCost D' v := by
  have e1 : m = m' := by simpa using Fintype.card_congr σ
  have e2 : n = n' := by simpa using Fintype.card_congr τ
  refine minCost_equiv (σ.prodCongr τ) (Or.inl ⟨fun a b => ?_, fun a b => ?_⟩) (by rw [e1, e2]) D D'
    (fun a => hD _ _) h <;> simp

theorem minCost_nonneg {D : Fin m → Fin n → ℝ} (hD : ∀ i j, 0 ≤ D i j) {v : ℝ} (h : MinCost D v) : 0 ≤ v := by
  obtain ⟨S, _, rfl⟩ := h
  exact Finset.sum_nonneg fun a _ => hD _ _

theorem minCost_le {D : Fin m → Fin n → ℝ} {B : ℝ} (hD : ∀ i j, D i j ≤ B) {v : ℝ} (h : MinCost D v) :
    v ≤ (min m n : ℕ) * B := by
  obtain ⟨S, hS, rfl⟩ := h
  calc matchCost D S ≤ ∑ _a ∈ S, B := Finset.sum_le_sum fun a _ => hD _ _
    _ = _ := by rw [Finset.sum_const, hS.1.size, nsmul_eq_mul]

theorem minCost_eq_zero {D : Fin m → Fin n → ℝ} (hD : ∀ i j, 0 ≤ D i j) {v : ℝ} (h : MinCost D v) :
    v = 0 ↔ ∃ S, IsMatching S ∧ ∀ a ∈ S, D a.1 a.2 = 0 := by
  obtain ⟨S, hS, rfl⟩ := h
  constructor
  · intro h0
    exact ⟨S, hS.1, fun a ha => (Finset.sum_eq_zero_iff_of_nonneg fun a _ => hD _ _).1 h0 a ha⟩
  · rintro ⟨T, hT, h0⟩
    apply le_antisymm
    · rw [← show matchCost D T = 0 from Finset.sum_eq_zero h0]
      exact hS.2 T hT
    · exact Finset.sum_nonneg fun a _ => hD _ _

/-- A permutation of a list is a bijection of the positions. -/
theorem exists_equiv_of_perm {X : Type*} {l l' : List X} (h : l.Perm l') :
    ∃ σ : Fin l.length ≃ Fin l'.length, ∀ i, l'.get (σ i) = l.get i := by
  induction h with
  | nil => exact ⟨Equiv.refl _, fun i => rfl⟩
  | @cons a l l' _ ih =>
    obtain ⟨σ, h⟩ := ih
    refine ⟨((finSuccEquiv _).trans (Equiv.optionCongr σ)).trans (finSuccEquiv _).symm, fun i => ?_⟩
    refine Fin.cases ?_ (fun i => ?_) i
    · simp
    · have := h i
      simpa using this
  | swap a b l =>
    refine ⟨Equiv.swap (⟨0, by simp⟩ : Fin (l.length + 2)) ⟨1, by simp⟩, fun i => ?_⟩
    by_cases h0 : i = (⟨0, by simp⟩ : Fin (l.length + 2))
    · subst h0
      rw [Equiv.swap_apply_left]; rfl
    · by_cases h1 : i = (⟨1, by simp⟩ : Fin (l.length + 2))
      · subst h1
        rw [Equiv.swap_apply_right]; rfl
      · rw [Equiv.swap_apply_of_ne_of_ne h0 h1]
        obtain ⟨i, hi⟩ := i
        match i, hi, h0, h1 with
        | 0, _, h0, _ => exact absurd rfl h0
        | 1, _, _, h1 => exact absurd rfl h1
        | i + 2, hi, _, _ => rfl
  | trans _ _ ih1 ih2 =>
    obtain ⟨σ, h⟩ := ih1
    obtain ⟨τ, h'⟩ := ih2
    exact ⟨σ.trans τ, fun i => by
      rw [Equiv.trans_apply, h', h]⟩

theorem minCost_cutMat_perm {X Y : Type*} {c : ℝ} {p : ℕ} {d : X → Y → ℝ} {xs xs' : List X} {ys ys' : List Y}
    (hx : xs.Perm xs') (hy : ys.Perm ys') {v : ℝ} (h : MinCost (cutMat c p d xs ys) v) :
    MinCost (cutMat c p d xs' ys') v := by
  obtain ⟨σ, hσ⟩ := exists_equiv_of_perm hx
  obtain ⟨τ, hτ⟩ := exists_equiv_of_perm hy
  exact minCost_reindex σ τ _ _ (fun i j => by
    show min (d (xs'.get (σ i)) (ys'.get (τ j))) c ^ p = min (d (xs.get i) (ys.get j)) c ^ p
    rw [hσ, hτ]) h

theorem isOspa_perm {X Y : Type*} {c : ℝ} {p : ℕ} {d : X → Y → ℝ} {xs xs' : List X} {ys ys' : List Y}
    (hx : xs.Perm xs') (hy : ys.Perm ys') {l r : ℝ} (h : IsOspa c p d xs ys l r) :
    IsOspa c p d xs' ys' l r := by
  obtain ⟨v, hv, h1, h2⟩ := h
  refine ⟨v, minCost_cutMat_perm hx hy hv, ?_, ?_⟩
  · rw [h1, hx.length_eq, hy.length_eq]
  · rw [h2, hx.length_eq, hy.length_eq]

theorem isOspa_swap {X Y : Type*} {c : ℝ} {p : ℕ} {d : X → Y → ℝ} {xs : List X} {ys : List Y} {l r : ℝ}
    (h : IsOspa c p d xs ys l r) : IsOspa c p (fun y x => d x y) ys xs l r := by
  obtain ⟨v, hv, h1, h2⟩ := h
  refine ⟨v, minCost_swap hv, ?_, ?_⟩
  · rw [h1, max_comm]
  · rw [h2, max_comm, abs_sub_comm]

theorem isOspa_unique {X Y : Type*} {c : ℝ} {p : ℕ} {d : X → Y → ℝ} {xs : List X} {ys : List Y} {l r l' r' : ℝ}
    (h : IsOspa c p d xs ys l r) (h' : IsOspa c p d xs ys l' r') : l = l' ∧ r = r' := by
  obtain ⟨v, hv, h1, h2⟩ := h
  obtain ⟨w, hw, h1', h2'⟩ := h'
  rw [minCost_unique hv hw] at h1
  exact ⟨h1.trans h1'.symm, h2.trans h2'.symm⟩

theorem exists_isOspa {X Y : Type*} (c : ℝ) (p : ℕ) (d : X → Y → ℝ) (xs : List X) (ys : List Y) :
    ∃ l r, IsOspa c p d xs ys l r := by
  obtain ⟨v, hv⟩ := exists_minCost (cutMat c p d xs ys)
  exact ⟨_, _, v, hv, rfl, rfl⟩

end Gasur.Spec
