import Verif.Spec.Jglmb
import Verif.Spec.Gibbs

/-!
# Specification: the exact joint posterior

`Verif/Spec/Jglmb.lean` says what one joint association is; here all of them are summed up.
-/

namespace Gasur.Spec

open Gasur.Glmb MeasureTheory

variable {K F S C : Type*} [Field K] [LinearOrder K]

/-- The tracks that exist according to the joint association `a` of the candidates `ts`, each with its measurement
(`none`: missed detection). -/
def jointChoices (ts : List ℕ) {M : ℕ} (a : Fin ts.length → Fin M) : List (ℕ × Option ℕ) :=
  (List.finRange ts.length).filterMap fun i =>
    if (a i).val < ts.length then none
    else if (a i).val < 2 * ts.length then some (ts[i], none)
    else some (ts[i], some ((a i).val - 2 * ts.length))

/-- The weight of the joint association `a` of hypothesis `p`: `exp(-λ) κ^m p.prob` times the product of the
column weights. -/
def jointWeight (expNeg : K → K) (births : List (Birth K F S C)) (eps rate clutter pS pd : K) (nMeas : ℕ)
    (lik : ℕ → ℕ → K) (p : Hyp K) {M : ℕ} (a : Fin (candidates births.length p).length → Fin M) : K :=
  let ts := candidates births.length p
  expNeg rate * clutter ^ nMeas * p.prob *
    ∏ i : Fin ts.length, colWeight eps clutter pd (survProb births pS ts[i]) (lik ts[i]) ts.length i.val (a i).val

/-- The total weight of all joint associations of all hypotheses whose choices satisfy `Q`. -/
noncomputable def posteriorMass (expNeg : K → K) (births : List (Birth K F S C)) (eps rate clutter pS pd : K)
    (nMeas : ℕ) (lik : ℕ → ℕ → K) (hyps : List (Hyp K)) (Q : List (ℕ × Option ℕ) → Prop) : K :=
  (hyps.map fun p =>
    ∑ a : Fin (candidates births.length p).length → Fin (2 * (candidates births.length p).length + nMeas),
      open Classical in
      if Function.Injective a ∧ Q (jointChoices (candidates births.length p) a) then
        jointWeight expNeg births eps rate clutter pS pd nMeas lik p a
      else 0).sum

/-- The random numbers of the joint update: one for each hypothesis, iteration and row, independent and uniform in
`[0, 1)`. -/
noncomputable def jointDraws : Measure (ℕ → ℕ → ℕ → ℝ) :=
  Measure.infinitePi fun _ => Measure.infinitePi fun _ => Measure.infinitePi fun _ => unif

instance : IsProbabilityMeasure jointDraws := by unfold jointDraws; infer_instance

end Gasur.Spec
