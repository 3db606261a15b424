import Verif.Model.Phd

/-!
# Specification vocabulary for the PHD filter

A mixture with aligned lists is the same thing as one list of components `(weight, mean, covariance)`.
-/

namespace Gasur.Spec

open Gasur.Phd

variable {K V P : Type*}

/-- The mixture whose three parallel lists come from one list of components. -/
def ofComps (cs : List (K × V × P)) : Mix K V P :=
  ⟨cs.map fun c => c.1, cs.map fun c => c.2.1, cs.map fun c => c.2.2⟩

/-- The lists of a mixture have equal lengths. -/
def Aligned (m : Mix K V P) : Prop := m.ws.length = m.ms.length ∧ m.ms.length = m.ps.length

/-- Expected number of targets. -/
def mass [AddCommMonoid K] (cs : List (K × V × P)) : K := (cs.map fun c => c.1).sum

/-- First moment of the mixture, `∑ w • mean`. -/
def moment [AddCommMonoid V] [SMul K V] (cs : List (K × V × P)) : V :=
  (cs.map fun c => c.1 • c.2.1).sum

/-- `∑ w • covariance`. -/
def covMass [AddCommMonoid P] [SMul K P] (cs : List (K × V × P)) : P :=
  (cs.map fun c => c.1 • c.2.2).sum

/-- One component standing for the group `g`: total weight, weighted mean of the means, weighted mean of
the covariances. -/
def mergeGroup [DivisionRing K] [AddCommMonoid V] [SMul K V] [AddCommMonoid P] [SMul K P]
    (g : List (K × V × P)) : K × V × P :=
  (mass g, (mass g)⁻¹ • moment g, (mass g)⁻¹ • covMass g)

/-- `out` is a result of greedy merging of `cs`: take a heaviest remaining component (the leader), replace
all remaining components within distance `thr` of it by their merged component, and continue with the
rest. -/
inductive MergesTo [Field K] [LinearOrder K] [AddCommGroup V] [Module K V] [AddCommGroup P] [Module K P]
    (quad : P → V → K) (thr : K) : List (K × V × P) → List (K × V × P) → Prop
  | nil : MergesTo quad thr [] []
  | cons {rem out} (leader : K × V × P) : leader ∈ rem → (∀ c ∈ rem, c.1 ≤ leader.1) →
      MergesTo quad thr
        (rem.filter fun c => decide (thr < quad leader.2.2 (c.2.1 - leader.2.1))) out →
      MergesTo quad thr rem
        (mergeGroup (rem.filter fun c => decide (quad leader.2.2 (c.2.1 - leader.2.1) ≤ thr)) :: out)

/-- `idx` lists the positions of `ws` from smallest to largest weight (any order among ties). -/
def IsArgsort [LinearOrder K] (ws : List K) (idx : List ℕ) : Prop :=
  idx.Perm (List.range ws.length) ∧
  idx.Pairwise fun i j => ∀ a b, ws[i]? = some a → ws[j]? = some b → a ≤ b

end Gasur.Spec
