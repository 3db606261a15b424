import Verif.Props.Assign

/-!
# Property C175: the cost of the best assignment is stable and monotone
-/

set_option linter.unusedSectionVars false

namespace Gasur.Props

open Gasur.Assign Gasur.Spec

variable {K : Type*} [CommRing K] [LinearOrder K] [IsStrictOrderedRing K] {r c : ℕ}

theorem assign_size_moved {C C' : Fin r → Fin c → WithTop K} {δ : K}
    (hle : ∀ i j, (C' i j).untopD 0 ≤ (C i j).untopD 0 + δ) (a : Fin r → Option (Fin c)) :
    assignCost C' a ≤ assignCost C a + assignSize a * δ := by
  have e : (assignSize a : K) * δ = ∑ i, if (a i).isSome = true then δ else 0 := by
    unfold assignSize
    rw [← Finset.sum_filter, Finset.sum_const, nsmul_eq_mul]
  rw [e]
  unfold assignCost
  rw [← Finset.sum_add_distrib]
  refine Finset.sum_le_sum fun i _ => ?_
  unfold rowCost
  cases a i with
  | none => simp
  | some j => simpa using hle i j

/-- One direction: at most as many rows are assigned, and if as many are, the cost goes up by at most `δ` for each. -/
theorem assign_half {C C' : Fin r → Fin c → WithTop K} (hC : ∀ i j, 0 ≤ C i j) (hC' : ∀ i j, 0 ≤ C' i j) {δ : K}
    (hfin : ∀ i j, C' i j = ⊤ ↔ C i j = ⊤) (hle : ∀ i j, (C' i j).untopD 0 ≤ (C i j).untopD 0 + δ)
    {a a' : Fin r → Option (Fin c)} {x x' : K} (h : assignOpt C = .ok (a, x)) (h' : assignOpt C' = .ok (a', x')) :
    assignSize a ≤ assignSize a' ∧ (assignSize a = assignSize a' → x' ≤ x + assignSize a * δ) := by
  obtain ⟨b, y, e, i1, f1, -⟩ := C01_assign_opt_optimal C hC
  obtain ⟨b', y', e', -, -, m'⟩ := C01_assign_opt_optimal C' hC'
  rw [h] at e
  rw [h'] at e'
  obtain ⟨rfl, rfl⟩ : a = b ∧ x = y := by simpa using e
  obtain ⟨rfl, rfl⟩ : a' = b' ∧ x' = y' := by simpa using e'
  obtain ⟨k1, k2⟩ := m' a i1 fun i j hij hh => f1 i j hij ((hfin i j).1 hh)
  refine ⟨k1, fun hs => ?_⟩
  rw [C03_assign_opt_cost C a x h, C03_assign_opt_cost C' a' x' h']
  exact (k2 hs).trans (assign_size_moved hle a)

/-- **C175.** The result of `assign_opt` is stable: if each entry of a matrix without negative entries changes by at most `δ`,
and the same entries are infinite, then as many rows are assigned as before, and the cost changes by at most `δ` for each
assigned row. -/
theorem C175_stable {C C' : Fin r → Fin c → WithTop K} (hC : ∀ i j, 0 ≤ C i j) (hC' : ∀ i j, 0 ≤ C' i j) {δ : K}
    (hfin : ∀ i j, C' i j = ⊤ ↔ C i j = ⊤) (hle : ∀ i j, |(C' i j).untopD 0 - (C i j).untopD 0| ≤ δ) :
    ∃ a a' x x', assignOpt C = .ok (a, x) ∧ assignOpt C' = .ok (a', x') ∧ assignSize a' = assignSize a ∧
      |x' - x| ≤ assignSize a * δ := by
  obtain ⟨a, x, e, -⟩ := C01_assign_opt_optimal C hC
  obtain ⟨a', x', e', -⟩ := C01_assign_opt_optimal C' hC'
  obtain ⟨u1, u2⟩ := assign_half hC hC' hfin (fun i j => by linarith [(abs_le.1 (hle i j)).2]) e e'
  obtain ⟨v1, v2⟩ := assign_half hC' hC (fun i j => (hfin i j).symm) (fun i j => by linarith [(abs_le.1 (hle i j)).1]) e' e
  have hs := le_antisymm u1 v1
  refine ⟨a, a', x, x', e, e', hs.symm, ?_⟩
  have := u2 hs
  have := v2 hs.symm
  rw [← hs] at this
  rw [abs_le]
  constructor <;> linarith

/-- **C175**, monotone: if entries go up, possibly to infinity, at most as many rows are assigned, and if as many are, the cost
does not go down. -/
theorem C175_monotone {C C' : Fin r → Fin c → WithTop K} (hC : ∀ i j, 0 ≤ C i j) (hle : ∀ i j, C i j ≤ C' i j) :
    ∃ a a' x x', assignOpt C = .ok (a, x) ∧ assignOpt C' = .ok (a', x') ∧ assignSize a' ≤ assignSize a ∧
      (assignSize a' = assignSize a → x ≤ x') := by
  have hC' : ∀ i j, 0 ≤ C' i j := fun i j => (hC i j).trans (hle i j)
  obtain ⟨a, x, e, i1, f1, m1⟩ := C01_assign_opt_optimal C hC
  obtain ⟨a', x', e', i2, f2, m2⟩ := C01_assign_opt_optimal C' hC'
  obtain ⟨k1, k2⟩ := m1 a' i2 fun i j hij hh => f2 i j hij (top_le_iff.1 (hh ▸ hle i j))
  refine ⟨a, a', x, x', e, e', k1, fun hs => ?_⟩
  rw [C03_assign_opt_cost C a x e, C03_assign_opt_cost C' a' x' e']
  refine (k2 hs).trans ?_
  unfold assignCost
  refine Finset.sum_le_sum fun i _ => ?_
  unfold rowCost
  cases hi : a' i with
  | none => exact le_rfl
  | some j =>
    have h1 := hle i j
    have h2 := f2 i j hi
    change (C i j).untopD 0 ≤ (C' i j).untopD 0
    cases hc' : C' i j with
    | top => exact absurd hc' h2
    | coe y =>
      rw [hc'] at h1
      cases hc : C i j with
      | top =>
        rw [hc, top_le_iff] at h1
        exact absurd h1 WithTop.coe_ne_top
      | coe x =>
        rw [hc] at h1
        simpa using h1

/-- A concrete case with an infinite entry. -/
example : ∃ a a' x x', assignOpt (![![((3 : ℤ) : WithTop ℤ), 1], ![2, ⊤]] : Fin 2 → Fin 2 → WithTop ℤ) = .ok (a, x) ∧
    assignOpt (![![((4 : ℤ) : WithTop ℤ), 0], ![3, ⊤]] : Fin 2 → Fin 2 → WithTop ℤ) = .ok (a', x') ∧
    assignSize a' = assignSize a ∧ |x' - x| ≤ assignSize a * (1 : ℤ) :=
  C175_stable (by decide) (by decide) (by decide) (by decide)

/-- A concrete case of the monotone statement: one entry goes up and one becomes infinite. -/
example : ∃ a a' x x', assignOpt (![![((3 : ℤ) : WithTop ℤ), 1], ![2, ⊤]] : Fin 2 → Fin 2 → WithTop ℤ) = .ok (a, x) ∧
    assignOpt (![![((4 : ℤ) : WithTop ℤ), ⊤], ![2, ⊤]] : Fin 2 → Fin 2 → WithTop ℤ) = .ok (a', x') ∧
    assignSize a' ≤ assignSize a ∧ (assignSize a' = assignSize a → x ≤ x') :=
  C175_monotone (by decide) (by decide)

end Gasur.Props
