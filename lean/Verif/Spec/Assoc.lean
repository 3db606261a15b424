import Verif.Model.Glmb

/-!
# Specification: associations of tracks with measurements

Only the data types of the model are used, none of its functions.
-/

namespace Gasur.Spec

open Gasur.Glmb

variable {K : Type*} [Field K] [LinearOrder K]

/-- `a` associates each of `n` tracks with one of `m` measurements or with none (missed detection); no measurement is
used twice. -/
def IsAssoc (n m : ℕ) (a : List (Option ℕ)) : Prop :=
  a.length = n ∧ (∀ j, some j ∈ a → j < m) ∧ ∀ i i' j : ℕ, a[i]? = some (some j) → a[i']? = some (some j) → i = i'

/-- The factor of one track: `1 - p_D` if missed, else `p_D * likelihood / κ`. -/
def assocFactor (κ : K) (pd : ℕ → K) (lik : ℕ → ℕ → K) (t : ℕ) : Option ℕ → K
  | none => 1 - pd t
  | some j => pd t * lik t j / κ

/-- The weight of association `a` of hypothesis `p` by Bayes' rule: `base` times the prior times the factors. -/
def assocWeight (base κ : K) (pd : ℕ → K) (lik : ℕ → ℕ → K) (p : Hyp K) (a : List (Option ℕ)) : K :=
  base * p.prob * ((p.tracks.zip a).map fun x => assocFactor κ pd lik x.1 x.2).prod

/-- `ks` are the `k` heaviest associations of `n` tracks with `m` measurements, heaviest first (all of them if there are
fewer than `k`). -/
def KBest (n m k : ℕ) (wt : List (Option ℕ) → K) (ks : List (List (Option ℕ))) : Prop :=
  ks.Nodup ∧ (∀ a ∈ ks, IsAssoc n m a) ∧ ks.Pairwise (fun a b => wt b ≤ wt a) ∧ ks.length ≤ k ∧
    ∀ b, IsAssoc n m b → b ∉ ks → ks.length = k ∧ ∀ a ∈ ks, wt b ≤ wt a

/-- All pairs of a hypothesis and one of its associations, in order. -/
def familyPairs {α β : Type*} (hyps : List α) (kids : List (List β)) : List (α × β) :=
  (List.zipWith (fun h ks => ks.map fun a => (h, a)) hyps kids).flatten

/-- The total weight of the associations `kids` of the hypotheses `hyps`. -/
def assocMass (wt : Hyp K → List (Option ℕ) → K) (hyps : List (Hyp K)) (kids : List (List (List (Option ℕ)))) : K :=
  ((familyPairs hyps kids).map fun x => wt x.1 x.2).sum

/-- `kids` lists all associations of each hypothesis with `m` measurements, without repetition. -/
def AllAssocs (hyps : List (Hyp K)) (m : ℕ) (kids : List (List (List (Option ℕ)))) : Prop :=
  List.Forall₂ (fun (p : Hyp K) ks => ks.Nodup ∧ ∀ a, a ∈ ks ↔ IsAssoc p.tracks.length m a) hyps kids

/-- `kids` lists some associations of each hypothesis with `m` measurements, without repetition. -/
def SomeAssocs (hyps : List (Hyp K)) (m : ℕ) (kids : List (List (List (Option ℕ)))) : Prop :=
  List.Forall₂ (fun (p : Hyp K) ks => ks.Nodup ∧ ∀ a ∈ ks, IsAssoc p.tracks.length m a) hyps kids

/-- The associations of `full` that are not in `kids`, for each hypothesis. -/
def leftOut (full kids : List (List (List (Option ℕ)))) : List (List (List (Option ℕ))) :=
  List.zipWith (fun fs ks => fs.filter fun a => a ∉ ks) full kids

/-- `h'` is hypothesis `p` updated by association `a`: as many tracks, the `i`-th one keeps its label and its measurement
history is extended by the measurement number of its association (`none`: missed). -/
def IsUpdated {τ F S C : Type*} (tab tab' : List (Entry K τ F S C)) (p : Hyp K) (a : List (Option ℕ)) (h' : Hyp K) : Prop :=
  h'.tracks.length = p.tracks.length ∧
  ∀ (i t : ℕ) (e : Entry K τ F S C) (m : Option ℕ), p.tracks[i]? = some t → tab[t]? = some e → a[i]? = some m →
    ∃ (t' : ℕ) (e' : Entry K τ F S C), h'.tracks[i]? = some t' ∧ tab'[t']? = some e' ∧ e'.label = e.label ∧
      e'.mHist = e.mHist ++ [m]

end Gasur.Spec
