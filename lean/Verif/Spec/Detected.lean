import Verif.Spec.Assoc

/-!
# Specification: how many tracks of a hypothesis were detected
-/

namespace Gasur.Spec

open Gasur.Glmb

variable {K τ F S C : Type*} [Field K] [LinearOrder K]

/-- How many tracks of `h` have a measurement as the last entry of their measurement history. -/
def detections (tab : List (Entry K τ F S C)) (h : Hyp K) : ℕ :=
  h.tracks.countP fun t => match tab[t]? with
    | some e => match e.mHist.getLast? with
      | some (some _) => true
      | _ => false
    | none => false

/-- The expected value of `f` of the number of detected tracks, over the hypotheses of a state. -/
def expectDetected (f : ℕ → K) (st : St K τ F S C) : K :=
  (st.hyps.map fun h => h.prob * f (detections st.tab h)).sum

/-- The probability that at least `n` tracks were detected. -/
def probDetected (n : ℕ) (st : St K τ F S C) : K :=
  ((st.hyps.filter fun h => n ≤ detections st.tab h).map Hyp.prob).sum

end Gasur.Spec
