import Verif.Proofs.KSub
import Verif.Props.KTwo
import Mathlib.Algebra.BigOperators.WithTop

/-!
# Property C131: an infinite cost excludes an element from the shortest paths
-/

set_option linter.unusedSectionVars false

namespace Gasur.Props

open Gasur.KShortest

variable {K : Type*} [CommRing K] [LinearOrder K] [IsStrictOrderedRing K] {n m : ℕ}

/-- **C131.** The elements of infinite cost do not matter: `k_shortest` returns exactly what it returns for the list
`fin` of the finite costs alone (`e` tells where they stand in the full list), with the indices translated back, for
every `k` and every order of ties in the sort. -/
theorem C131_excluded (lc : Fin n → WithTop K) (fin : Fin m → K) (e : Fin m → Fin n) (hinj : Function.Injective e)
    (hfin : ∀ j, lc (e j) = fin j) (hinf : ∀ i, (∀ j, e j ≠ i) → lc i = ⊤) (σ : Equiv.Perm (Fin n))
    (hdesc : ∀ i j, i ≤ j → lc (σ j) ≤ lc (σ i)) (eps : K) (heps : 0 < eps)
    (hnt : ∀ j, fin j = 0 ∨ eps ≤ |fin j|) (k : ℕ) :
    ∃ σ' : Equiv.Perm (Fin m), (∀ i j, i ≤ j → fin (σ' j) ≤ fin (σ' i)) ∧
      kShortestInf lc σ eps k = (kShortest fin σ' eps k).map (List.map fun p => (p.1.map e, p.2)) := by
  obtain ⟨σ', h1, h2⟩ := KSub.kShortestInf_sub hinj hfin hinf σ heps hnt k
  refine ⟨σ', fun i j hij => ?_, h2⟩
  have := hdesc _ _ (h1 i j hij)
  rw [Equiv.apply_symm_apply, Equiv.apply_symm_apply, hfin, hfin, WithTop.coe_le_coe] at this
  exact this

/-- **C131.** No returned path contains an element of infinite cost, and the first path is a cheapest subset of all
elements, reported with its own cost. -/
theorem C131_cheapest (lc : Fin n → WithTop K) (σ : Equiv.Perm (Fin n)) (eps : K) (heps : 0 < eps)
    (hnt : ∀ i (x : K), lc i = x → x = 0 ∨ eps ≤ |x|) (k : ℕ) (hk : 0 < k) :
    ∃ p c rest, kShortestInf lc σ eps k = .ok ((p, c) :: rest) ∧ ((p, c) :: rest).length ≤ k ∧
      (∀ q ∈ (p, c) :: rest, q.1.Nodup ∧ q.2 ≠ ⊤ ∧ ∀ i ∈ q.1, lc i ≠ ⊤) ∧
      c = (∑ i ∈ p.toFinset, lc i) + (eps : WithTop K) ∧
      ∀ T : Finset (Fin n), c ≤ (∑ i ∈ T, lc i) + (eps : WithTop K) :=
  KSub.kShortestInf_spec lc σ heps hnt k hk

/-! Non-vacuity: four elements, two of them excluded. -/

/-- The costs of the example. -/
def exInfCosts : Fin 4 → WithTop ℤ := ![((5 : ℤ) : WithTop ℤ), ⊤, ((-20 : ℤ) : WithTop ℤ), ⊤]

/-- The order of `np.argsort` reversed: the infinite costs, then 5, then -20. -/
def exInfSort : Equiv.Perm (Fin 4) where
  toFun := ![1, 3, 0, 2]
  invFun := ![2, 0, 3, 1]
  left_inv := by decide
  right_inv := by decide

example : (∀ i j, i ≤ j → exInfCosts (exInfSort j) ≤ exInfCosts (exInfSort i)) ∧
    Function.Injective (![0, 2] : Fin 2 → Fin 4) ∧
    (∀ j, exInfCosts ((![0, 2] : Fin 2 → Fin 4) j) = ((![5, -20] : Fin 2 → ℤ) j : WithTop ℤ)) ∧
    (∀ i, (∀ j, (![0, 2] : Fin 2 → Fin 4) j ≠ i) → exInfCosts i = ⊤) ∧
    (∀ j, (![5, -20] : Fin 2 → ℤ) j = 0 ∨ 1 ≤ |(![5, -20] : Fin 2 → ℤ) j|) := by
  decide +kernel

example : (kShortestInf exInfCosts exInfSort (1 : ℤ) 3).toOption =
    some [([2], ((-19 : ℤ) : WithTop ℤ)), ([0, 2], ((-14 : ℤ) : WithTop ℤ)), ([], ((1 : ℤ) : WithTop ℤ))] := by
  decide +kernel

end Gasur.Props
