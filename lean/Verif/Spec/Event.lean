import Verif.Spec.Assoc

/-!
# Specification: the probability of an event
-/

namespace Gasur.Spec

open Gasur.Glmb

variable {K τ F S C : Type*} [Field K] [LinearOrder K]

/-- The probability, according to the hypotheses `hyps`, that the list of tracks that are there has property `P`
(for example: that there are `n` of them, or that a certain track is among them). -/
def probEvent (P : List ℕ → Bool) (hyps : List (Hyp K)) : K :=
  ((hyps.filter fun h => P h.tracks).map Hyp.prob).sum

/-- The total probability of hypotheses. -/
def hypMass (hyps : List (Hyp K)) : K := (hyps.map Hyp.prob).sum

end Gasur.Spec
