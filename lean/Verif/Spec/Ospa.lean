import Mathlib.Algebra.BigOperators.Group.Finset.Basic
import Mathlib.Analysis.SpecialFunctions.Pow.Real

/-!
# Specification: matchings and the OSPA distance

Independent of the model of the code. The OSPA distance is the one of Schuhmacher, Vo and Vo (2008), the paper
cited by `calculate_ospa`: `((min_matching Σ min(d, c)^p + c^p (n - m)) / n)^(1/p)` for `m ≤ n` points.
-/

namespace Gasur.Spec

/-- A set of pairs (row, column) that uses no row and no column twice and has as many pairs as possible. -/
structure IsMatching {m n : ℕ} (S : Finset (Fin m × Fin n)) : Prop where
  row : ∀ a ∈ S, ∀ b ∈ S, a.1 = b.1 → a = b
  col : ∀ a ∈ S, ∀ b ∈ S, a.2 = b.2 → a = b
  size : S.card = min m n

/-- Cost of a set of pairs. -/
def matchCost {m n : ℕ} (D : Fin m → Fin n → ℝ) (S : Finset (Fin m × Fin n)) : ℝ := ∑ a ∈ S, D a.1 a.2

/-- `S` is a matching of minimal cost. -/
def IsOptimal {m n : ℕ} (D : Fin m → Fin n → ℝ) (S : Finset (Fin m × Fin n)) : Prop :=
  IsMatching S ∧ ∀ S', IsMatching S' → matchCost D S ≤ matchCost D S'

/-- `v` is the minimal cost of a matching. -/
def MinCost {m n : ℕ} (D : Fin m → Fin n → ℝ) (v : ℝ) : Prop := ∃ S, IsOptimal D S ∧ matchCost D S = v

/-- The matrix of cut-off distances to the power `p`. -/
def cutMat {X Y : Type*} (c : ℝ) (p : ℕ) (d : X → Y → ℝ) (xs : List X) (ys : List Y) :
    Fin xs.length → Fin ys.length → ℝ := fun i j => min (d xs[i] ys[j]) c ^ p

/-- `loc` and `card` are the localisation and cardinality parts of the OSPA distance between the point sets
`xs` and `ys` (both are zero if both sets are empty, as `0 / 0 = 0` here). -/
def IsOspa {X Y : Type*} (c : ℝ) (p : ℕ) (d : X → Y → ℝ) (xs : List X) (ys : List Y) (loc card : ℝ) : Prop :=
  ∃ v, MinCost (cutMat c p d xs ys) v ∧
    loc = (v / (max xs.length ys.length : ℕ)) ^ (1 / (p : ℝ)) ∧
    card = (c ^ p * |(xs.length : ℝ) - ys.length| / (max xs.length ys.length : ℕ)) ^ (1 / (p : ℝ))

end Gasur.Spec

/-! ### Tracks (Beard, Vo and Vo, OSPA(2)) -/

namespace Gasur.Spec

variable {X Y : Type*}

/-- The objects of a time step occupy the first slots. -/
def Packed (r : List (Option X)) : Prop := ∃ (xs : List X) (k : ℕ), r = xs.map some ++ List.replicate k none

/-- Error between two possibly missing objects of which at least one exists. -/
noncomputable def errAt (c : ℝ) (d : X → Y → ℝ) : Option X × Option Y → ℝ
  | (some x, some y) => min (d x y) c
  | _ => c

/-- The times at which at least one of two tracks exists. -/
def existing (hx : List (Option X)) (hy : List (Option Y)) : List (Option X × Option Y) :=
  (hx.zip hy).filter fun a => a.1.isSome || a.2.isSome

/-- Time-averaged distance of two tracks over the times at which at least one exists (0 if there are none, as
`0 / 0 = 0` here). -/
noncomputable def trackAvg (c : ℝ) (d : X → Y → ℝ) (hx : List (Option X)) (hy : List (Option Y)) : ℝ :=
  ((existing hx hy).map (errAt c d)).sum / (existing hx hy).length

/-- The object in a slot at a time, if any. -/
def objAt (mat : List (List (Option X))) (tt i : ℕ) : Option X := ((mat[tt]?).bind (·[i]?)).join

/-- The tracks of the slots below `N` over the last `w` time steps up to `tt` (fewer at the start), without those
that never exist. -/
def liveTracks (mat : List (List (Option X))) (N tt w : ℕ) : List (List (Option X)) :=
  ((List.range N).map fun i => (List.range' (tt + 1 - w) (min w (tt + 1))).map fun s => objAt mat s i).filter
    fun h => h.any Option.isSome

/-- `mat'` has the same tracks as `mat` in other slots. -/
def Relabelled (mat mat' : List (List (Option X))) : Prop :=
  mat.length = mat'.length ∧ ∃ (N : ℕ) (σ : Equiv.Perm (Fin N)),
    (∀ r ∈ mat, r.length = N) ∧ (∀ r ∈ mat', r.length = N) ∧
    ∀ tt (i : Fin N), objAt mat' tt (σ i) = objAt mat tt i

end Gasur.Spec
