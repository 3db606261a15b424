import Mathlib.Algebra.Order.Ring.Defs
import Mathlib.Algebra.Order.Group.Unbundled.Abs
import Mathlib.Order.WithBot

/-!
# Specification: weighted walks

A graph on `Fin n` is given by its cost matrix; there is an arc `u → v` of weight `w` when the entry is
the finite number `w` and `|w| ≥ eps` (a zero entry means "no arc").
-/

namespace Gasur.Spec

variable {K : Type*} [CommRing K] [LinearOrder K] {n : ℕ}

/-- There is an arc from `u` to `v` of weight `w`. -/
def Arc (G : Fin n → Fin n → WithTop K) (eps : K) (u v : Fin n) (w : K) : Prop :=
  G u v = (w : WithTop K) ∧ eps ≤ |w|

/-- `Walk G eps u v l a`: the list of vertices `l` is a walk from `u` to `v` of total weight `a`. -/
inductive Walk (G : Fin n → Fin n → WithTop K) (eps : K) (u : Fin n) :
    Fin n → List (Fin n) → K → Prop
  | nil : Walk G eps u u [u] 0
  | snoc {v x : Fin n} {l : List (Fin n)} {a w : K} :
      Walk G eps u v l a → Arc G eps v x w → Walk G eps u x (l ++ [x]) (a + w)

/-- No closed walk through a vertex reachable from `u` has negative weight. -/
def NoNegCycle (G : Fin n → Fin n → WithTop K) (eps : K) (u : Fin n) : Prop :=
  ∀ v l a, Walk G eps u v l a → ∀ c b, Walk G eps v v c b → 0 ≤ b

end Gasur.Spec
