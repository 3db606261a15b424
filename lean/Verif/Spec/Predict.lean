import Verif.Model.Glmb
import Mathlib.Algebra.BigOperators.Group.Finset.Basic
import Mathlib.Data.Finset.Powerset

/-!
# Specification: the prediction step of a GLMB filter

Only the data types of the model are used, none of its functions.
-/

namespace Gasur.Spec

open Gasur.Glmb

variable {K : Type*} [Field K] [LinearOrder K]

/-- Probability that of independent events `i ∈ pool` with probabilities `f i` exactly those in `B` happen. -/
def bernMass (f : ℕ → K) (pool B : Finset ℕ) : K := ∏ i ∈ pool, if i ∈ B then f i else 1 - f i

/-- `fam` consists of the `k` heaviest subsets of `pool` (all subsets, if there are fewer). -/
def Heaviest (pool : Finset ℕ) (w : Finset ℕ → K) (k : ℕ) (fam : Finset (Finset ℕ)) : Prop :=
  (∀ B ∈ fam, B ⊆ pool) ∧ fam.card = min k (2 ^ pool.card) ∧
    ∀ B ∈ fam, ∀ B' ⊆ pool, B' ∉ fam → w B' ≤ w B

/-- The total probability of the hypotheses with the set of tracks `X`. -/
def probOf (hyps : List (Hyp K)) (X : Finset ℕ) : K :=
  ((hyps.filter fun h => decide (h.tracks.toFinset = X)).map fun h => h.prob).sum

/-- Bayes' rule for the prediction. `nb` births with probabilities `pb`, tracks with survival probabilities `ps`. Of the
sets of births the `kb` most probable ones are kept, of the surviving sets of a hypothesis `h` the `ks h` most probable
ones (a hypothesis without tracks has only one). Up to a common constant `Zc`, the predicted probability of a set of
tracks is the sum over the kept combinations that give it of (probability of the births) · (prior probability of the
hypothesis) · (probability of the survivors); surviving tracks are renumbered by `nb`. Hypotheses with tracks carry an
additional factor `c`, which should be 1. -/
def BayesPredict (c : K) (nb : ℕ) (pb ps : ℕ → K) (kb : ℕ) (ks : Hyp K → ℕ) (hyps hyps' : List (Hyp K)) : Prop :=
  ∃ (Zc : K) (births : Finset (Finset ℕ)) (survs : List (Finset (Finset ℕ))), 0 < Zc ∧
    Heaviest (Finset.range nb) (bernMass pb (Finset.range nb)) kb births ∧
    List.Forall₂ (fun (h : Hyp K) fam => if h.tracks = [] then fam = {∅}
      else Heaviest h.tracks.toFinset (bernMass ps h.tracks.toFinset) (ks h) fam) hyps survs ∧
    ∀ X : Finset ℕ, probOf hyps' X * Zc =
      ∑ B ∈ births, ((hyps.zip survs).map fun (x : Hyp K × Finset (Finset ℕ)) =>
        ∑ T ∈ x.2, if B ∪ T.image (fun t => t + nb) = X then
          bernMass pb (Finset.range nb) B * (x.1.prob * (if x.1.tracks = [] then 1 else c) *
            bernMass ps x.1.tracks.toFinset T) else 0).sum

end Gasur.Spec
