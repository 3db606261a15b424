import Verif.Model.Glmb
import Mathlib.Algebra.BigOperators.Fin

/-!
# Specification: the joint prediction-and-update of the labelled multi-Bernoulli density

Only the data types of the model are used, none of its functions.

The candidates of a hypothesis are the new tracks and its own tracks. A joint association sends each
candidate to one column: with `n` candidates, column `i` means that candidate `i` is dead (or not born),
column `n + i` that it exists and is not detected, column `2 n + m` that it exists and made measurement `m`.
-/

namespace Gasur.Spec

open Gasur.Glmb

variable {K τ F S C Z : Type*} [Field K] [LinearOrder K]

/-- The candidates: the new tracks (first in the table), then the tracks of the hypothesis, which follow the
new ones in the table. -/
def candidates (nb : ℕ) (p : Hyp K) : List ℕ := List.range nb ++ p.tracks.map fun t => nb + t

/-- The existence probability of candidate `t`: the birth probability of a new track, else `pS`. -/
def survProb (births : List (Birth K F S C)) (pS : K) (t : ℕ) : K := ((births[t]?).map fun b => b.prob).getD pS

/-- The weight of column `j` for candidate `i` of `n`, where `s` is the existence probability and `lik` the
likelihood of each measurement; a weight that is not positive (for example a column that belongs to a
different candidate) is replaced by `eps`. -/
def colWeight (eps clutter pd s : K) (lik : ℕ → K) (n i j : ℕ) : K :=
  let raw := if j < n then (if j = i then 1 - s else 0)
    else if j < 2 * n then (if j = n + i then s * (1 - pd) else 0)
    else s * pd * lik (j - 2 * n) / clutter
  if raw ≤ 0 then eps else raw

/-- `x` is a joint association of the hypothesis `p`: `x.2` lists the candidates that exist with their
measurements, and `x.1` is `exp(-λ) κ^m p.prob` times the product of the column weights. -/
def IsSample (expNeg : K → K) (births : List (Birth K F S C)) (eps rate clutter pS pd : K) (nMeas : ℕ)
    (lik : ℕ → ℕ → K) (p : Hyp K) (x : K × List (ℕ × Option ℕ)) : Prop :=
  let ts := candidates births.length p
  ∃ a : Fin ts.length → ℕ, Function.Injective a ∧ (∀ i, a i < 2 * ts.length + nMeas) ∧
    x.2 = (List.finRange ts.length).filterMap (fun i =>
      if a i < ts.length then none
      else if a i < 2 * ts.length then some (ts[i], none)
      else some (ts[i], some (a i - 2 * ts.length))) ∧
    x.1 = expNeg rate * clutter ^ nMeas * p.prob *
      ∏ i : Fin ts.length, colWeight eps clutter pd (survProb births pS ts[i]) (lik ts[i]) ts.length
        i.val (a i)

/-- `c` is the likelihood of measurement `z` for track `e`: the inner filter returns a likelihood for each
component of the track's current density, and `c` is their sum (the code adds `eps` to each). -/
def TrackLikelihood (env : Env K τ F S C Z) (eps : K) (z : Z) (e : Entry K τ F S C) (c : K) : Prop :=
  ∃ s w rs, e.sHist.getLast? = some s ∧ e.wHist.getLast? = some w ∧
    List.Forall₂ (fun (x : F × S × K) r => env.corF z x.1 x.2.1 x.2.2 = some r)
      (e.fStates.zip (s.zip w)) rs ∧
    c = (rs.map fun r => r.2.2.2 + eps).sum

/-- The inner filter reports depletion for some component of track `e`. -/
def Depleted (env : Env K τ F S C Z) (z : Z) (e : Entry K τ F S C) : Prop :=
  ∃ s w, e.sHist.getLast? = some s ∧ e.wHist.getLast? = some w ∧
    ∃ x ∈ e.fStates.zip (s.zip w), env.corF z x.1 x.2.1 x.2.2 = none

/-- `e'` is track `e` after an update with measurement number `m` (`none`: missed detection): same label and
birth step, `m` appended to the measurement history; density unchanged if missed, else the last states,
covariances and weights are those of the inner filter. -/
def TrackUpdate (env : Env K τ F S C Z) (eps : K) (meas : List Z) (e : Entry K τ F S C) (m : Option ℕ)
    (e' : Entry K τ F S C) : Prop :=
  e'.label = e.label ∧ e'.tIdx = e.tIdx ∧ e'.mHist = e.mHist ++ [m] ∧
  (m = none → e'.sHist = e.sHist ∧ e'.cHist = e.cHist ∧ e'.wHist = e.wHist ∧ e'.fStates = e.fStates) ∧
  ∀ j, m = some j → ∃ z rs s w, meas[j]? = some z ∧ e.sHist.getLast? = some s ∧
    e.wHist.getLast? = some w ∧
    List.Forall₂ (fun (x : F × S × K) r => env.corF z x.1 x.2.1 x.2.2 = some r) (e.fStates.zip (s.zip w)) rs ∧
    e'.fStates = rs.map (fun r => r.1) ∧
    e'.sHist = e.sHist.dropLast ++ [rs.map fun r => r.2.1] ∧
    e'.cHist = e.cHist.dropLast ++ [rs.map fun r => r.2.2.1] ∧
    e'.wHist = e.wHist.dropLast ++ [rs.map fun r => (r.2.2.2 + eps) /
      (rs.map fun r => r.2.2.2 + eps).sum]

end Gasur.Spec
