import Mathlib.Algebra.Order.Monoid.Unbundled.WithTop
import Mathlib.Algebra.BigOperators.Group.Finset.Basic
import Mathlib.Data.Fintype.Basic

/-!
# Specification: partial assignments of rows to columns

Independent of the model of the code.
-/

namespace Gasur.Spec

variable {K : Type*} {r c : ℕ}

/-- `a` assigns some rows to columns: no column is used twice and every used entry is finite. -/
structure IsAssignment (D : Fin r → Fin c → WithTop K) (a : Fin r → Option (Fin c)) : Prop where
  inj : ∀ i i' j, a i = some j → a i' = some j → i = i'
  finite : ∀ i j, a i = some j → D i j ≠ ⊤

/-- Number of assigned rows. -/
def assignSize (a : Fin r → Option (Fin c)) : ℕ :=
  (Finset.univ.filter fun i => (a i).isSome = true).card

/-- Cost of row `i`: the used entry, or zero. -/
def rowCost [Zero K] (D : Fin r → Fin c → WithTop K) (a : Fin r → Option (Fin c)) (i : Fin r) : K :=
  match a i with
  | none => 0
  | some j => (D i j).untopD 0

/-- Total cost of the used entries. -/
def assignCost [AddCommMonoid K] (D : Fin r → Fin c → WithTop K) (a : Fin r → Option (Fin c)) : K :=
  ∑ i, rowCost D a i

/-- `a` is an assignment with the largest possible number of rows, and cheapest among those. -/
def IsOptimalAssignment [AddCommMonoid K] [LE K] (D : Fin r → Fin c → WithTop K)
    (a : Fin r → Option (Fin c)) : Prop :=
  IsAssignment D a ∧ ∀ b, IsAssignment D b →
    assignSize b ≤ assignSize a ∧ (assignSize b = assignSize a → assignCost D a ≤ assignCost D b)

/-- Encoding used by `murty_m_best` (docstring: 0 = clutter/unassigned, otherwise the column
number counted from one). -/
def enc {r n : ℕ} (a : Fin r → Option (Fin n)) : Fin r → ℕ :=
  fun i => match a i with
    | none => 0
    | some j => j.val + 1

end Gasur.Spec
