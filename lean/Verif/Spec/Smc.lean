import Verif.Model.Smc

/-!
# Specification: particle distributions

Only the data types of the model are used, none of its functions.
-/

namespace Gasur.Spec

open Gasur.Smc

variable {K X G S C Z : Type*} [Field K] [LinearOrder K]

/-- Particles with weights that form a probability distribution. -/
def IsParticleDist (f : PState K X G) : Prop :=
  f.parts ≠ [] ∧ f.ws.length = f.parts.length ∧ (∀ w ∈ f.ws, 0 ≤ w) ∧ f.ws.sum = 1

/-- The mean of a function of the particles. -/
def partMean (q : X → K) (f : PState K X G) : K := ((f.parts.zip f.ws).map fun x => x.2 * q x.1).sum

/-- `f'` has the particles of `f`, with weights multiplied by `q` and normalised. -/
def IsReweighted (q : X → K) (f f' : PState K X G) : Prop :=
  f'.parts = f.parts ∧ f'.ws = (f.parts.zip f.ws).map fun x => x.2 * q x.1 / partMean q f

/-- What the user's particle filter must do: keep a probability distribution and return one non-negative likelihood per
particle. -/
structure GoodFilter (pf : PFilter K X G S C Z) : Prop where
  pred : ∀ f, IsParticleDist f → IsParticleDist (pf.predict f).1
  cor : ∀ z f g s likely, IsParticleDist f → pf.correct z f = some (g, s, likely) →
    IsParticleDist g ∧ likely.length = g.parts.length ∧ ∀ l ∈ likely, 0 ≤ l

end Gasur.Spec
