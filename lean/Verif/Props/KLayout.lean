import Verif.Proofs.KSub
import Mathlib.Data.Fin.Tuple.Sort

/-!
# Property C133: the order of the elements does not matter for `k_shortest`
-/

set_option linter.unusedSectionVars false

namespace Gasur.Props

open Gasur.KShortest

variable {K : Type*} [CommRing K] [LinearOrder K] [IsStrictOrderedRing K] {n : ℕ}

/-- The sorted costs do not depend on the order of the list. -/
theorem sorted_eq {lc lc' : Fin n → WithTop K} {t σ σ' : Equiv.Perm (Fin n)} (ht : ∀ i, lc' i = lc (t i))
    (hs : ∀ i j, i ≤ j → lc (σ j) ≤ lc (σ i)) (hs' : ∀ i j, i ≤ j → lc' (σ' j) ≤ lc' (σ' i)) (i : Fin n) :
    lc' (σ' i) = lc (σ i) := by
  have := Tuple.unique_monotone (f := fun i => OrderDual.toDual (lc i)) (σ := σ) (τ := σ'.trans t)
    (fun i j hij => hs i j hij) (fun i j hij => by
      have := hs' i j hij
      rw [ht, ht] at this
      exact this)
  have h2 := congrFun this i
  simp only [Function.comp, Equiv.trans_apply] at h2
  rw [ht]
  exact (OrderDual.toDual_inj.1 h2).symm

theorem decode_len (σ σ' : Equiv.Perm (Fin n)) (p : List (Fin (n + 2))) :
    (decodePath σ p).isSome = (decodePath σ' p).isSome := by
  unfold decodePath
  induction p.tail.dropLast with
  | nil => rfl
  | cons v l ih =>
    simp only [List.mapM_cons]
    by_cases h : 1 ≤ v.val ∧ v.val ≤ n
    · rw [dif_pos h, dif_pos h]
      revert ih
      cases l.mapM (fun v : Fin (n + 2) => if h : 1 ≤ v.val ∧ v.val ≤ n then some (σ ⟨v.val - 1, by omega⟩) else none) <;>
      cases l.mapM (fun v : Fin (n + 2) => if h : 1 ≤ v.val ∧ v.val ≤ n then some (σ' ⟨v.val - 1, by omega⟩) else none) <;>
      simp
    · rw [dif_neg h, dif_neg h]
      rfl

theorem decode_perm {lc : Fin n → WithTop K} {t σ σ' : Equiv.Perm (Fin n)}
    (hinj : ∀ i j, lc i = lc j → lc i ≠ ⊤ → i = j) (hσ : ∀ i, lc (t (σ' i)) = lc (σ i)) (p : List (Fin (n + 2))) :
    ∀ l, decodePath σ p = some l → (∀ i ∈ l, lc i ≠ ⊤) → ∃ l', decodePath σ' p = some l' ∧ l'.map t = l := by
  unfold decodePath
  induction p.tail.dropLast with
  | nil =>
    intro l hl _
    simp only [List.mapM_nil] at hl
    obtain rfl := Option.some.inj hl
    exact ⟨[], rfl, rfl⟩
  | cons v q ih =>
    intro l hl hfin
    simp only [List.mapM_cons] at hl
    by_cases h : 1 ≤ v.val ∧ v.val ≤ n
    · rw [dif_pos h] at hl
      cases hm : q.mapM (fun v : Fin (n + 2) =>
          if h : 1 ≤ v.val ∧ v.val ≤ n then some (σ ⟨v.val - 1, by omega⟩) else none) with
      | none => rw [hm] at hl; exact (nomatch hl)
      | some m =>
        rw [hm] at hl
        obtain rfl := Option.some.inj hl
        obtain ⟨m', h1, h2⟩ := ih m hm fun i hi => hfin i (List.mem_cons_of_mem _ hi)
        refine ⟨σ' ⟨v.val - 1, by omega⟩ :: m', ?_, ?_⟩
        · simp only [List.mapM_cons]
          rw [dif_pos h, h1]
          rfl
        · rw [List.map_cons, h2]
          congr 1
          refine hinj _ _ (hσ _) ?_
          rw [hσ]
          exact hfin _ List.mem_cons_self
    · rw [dif_neg h] at hl
      exact (nomatch hl)

/-- **C133.** Rearranging the list of costs does not change how many paths `k_shortest` returns, nor their costs, nor
whether it fails — however ties are broken in the two sorts. -/
theorem C133_costs (lc lc' : Fin n → WithTop K) (t : Equiv.Perm (Fin n)) (ht : ∀ i, lc' i = lc (t i))
    (σ σ' : Equiv.Perm (Fin n)) (hs : ∀ i j, i ≤ j → lc (σ j) ≤ lc (σ i))
    (hs' : ∀ i j, i ≤ j → lc' (σ' j) ≤ lc' (σ' i)) (eps : K) (k : ℕ) :
    (kShortestInf lc' σ' eps k).map (List.map Prod.snd) = (kShortestInf lc σ eps k).map (List.map Prod.snd) := by
  unfold kShortestInf
  split
  · rfl
  · rw [show (fun i => lc' (σ' i)) = fun i => lc (σ i) from funext (sorted_eq ht hs hs')]
    cases kHelper (costPadInf (fun i => lc (σ i)) eps) eps ⟨0, by omega⟩ ⟨n + 1, by omega⟩ k with
    | error e => rfl
    | ok out =>
      dsimp only
      have key : (out.mapM (fun pc => (decodePath σ' pc.1).map fun l => (l, pc.2))).map (List.map Prod.snd) =
          (out.mapM (fun pc => (decodePath σ pc.1).map fun l => (l, pc.2))).map (List.map Prod.snd) := by
        induction out with
        | nil => rfl
        | cons pc l ih =>
          simp only [List.mapM_cons]
          have hd := decode_len σ σ' pc.1
          revert hd ih
          cases decodePath σ pc.1 <;> cases decodePath σ' pc.1 <;> simp
          cases l.mapM (fun pc => (decodePath σ pc.1).map fun l => (l, pc.2)) <;>
          cases l.mapM (fun pc => (decodePath σ' pc.1).map fun l => (l, pc.2)) <;> simp
      revert key
      cases out.mapM (fun pc => (decodePath σ pc.1).map fun l => (l, pc.2)) <;>
      cases out.mapM (fun pc => (decodePath σ' pc.1).map fun l => (l, pc.2)) <;> simp [Except.map]

/-- **C133.** If the finite costs are pairwise different, rearranging the list of costs (element `i` of the second list
is element `t i` of the first) rearranges the paths in the same way and changes nothing else. -/
theorem C133_paths (lc lc' : Fin n → WithTop K) (t : Equiv.Perm (Fin n)) (ht : ∀ i, lc' i = lc (t i))
    (hinj : ∀ i j, lc i = lc j → lc i ≠ ⊤ → i = j)
    (σ σ' : Equiv.Perm (Fin n)) (hs : ∀ i j, i ≤ j → lc (σ j) ≤ lc (σ i))
    (hs' : ∀ i j, i ≤ j → lc' (σ' j) ≤ lc' (σ' i)) (eps : K) (heps : 0 < eps) (k : ℕ) :
    kShortestInf lc σ eps k = (kShortestInf lc' σ' eps k).map (List.map fun pc => (pc.1.map t, pc.2)) := by
  have hcost := C133_costs lc lc' t ht σ σ' hs hs' eps k
  cases h : kShortestInf lc σ eps k with
  | error e =>
    rw [h] at hcost
    cases h' : kShortestInf lc' σ' eps k with
    | error e' =>
      rw [h'] at hcost
      simp only [Except.map, Except.error.injEq] at hcost
      rw [hcost]
      rfl
    | ok o => rw [h'] at hcost; exact (nomatch hcost)
  | ok r =>
    have hfin := (KSub.kShortestInf_ok lc σ heps k h).2.2
    unfold kShortestInf at h ⊢
    split at h
    · rename_i hk
      obtain rfl := Except.ok.inj h
      rw [if_pos hk]
      rfl
    · rename_i hk
      rw [if_neg hk, show (fun i => lc' (σ' i)) = fun i => lc (σ i) from funext (sorted_eq ht hs hs')]
      cases hkh : kHelper (costPadInf (fun i => lc (σ i)) eps) eps ⟨0, by omega⟩ ⟨n + 1, by omega⟩ k with
      | error e => rw [hkh] at h; exact (nomatch h)
      | ok out =>
        rw [hkh] at h
        dsimp only at h ⊢
        have key : ∀ (out : List (List (Fin (n + 2)) × WithTop K)) (r : List (List (Fin n) × WithTop K)),
            out.mapM (fun pc => (decodePath σ pc.1).map fun l => (l, pc.2)) = some r →
            (∀ q ∈ r, ∀ i ∈ q.1, lc i ≠ ⊤) →
            ∃ r', out.mapM (fun pc => (decodePath σ' pc.1).map fun l => (l, pc.2)) = some r' ∧
              r'.map (fun pc => (pc.1.map t, pc.2)) = r := by
          intro out
          induction out with
          | nil =>
            intro r hr _
            simp only [List.mapM_nil] at hr
            obtain rfl := Option.some.inj hr
            exact ⟨[], rfl, rfl⟩
          | cons pc l ih =>
            intro r hr hf
            simp only [List.mapM_cons] at hr
            cases hd : decodePath σ pc.1 with
            | none => rw [hd] at hr; exact (nomatch hr)
            | some q =>
              rw [hd] at hr
              cases hm : l.mapM (fun pc => (decodePath σ pc.1).map fun l => (l, pc.2)) with
              | none => rw [hm] at hr; exact (nomatch hr)
              | some m =>
                rw [hm] at hr
                obtain rfl := Option.some.inj hr
                obtain ⟨m', g1, g2⟩ := ih m hm fun q hq => hf q (List.mem_cons_of_mem _ hq)
                obtain ⟨q', g3, g4⟩ := decode_perm (t := t) (σ' := σ') hinj
                  (fun i => by rw [← ht]; exact sorted_eq ht hs hs' i) pc.1 q hd (hf _ List.mem_cons_self)
                refine ⟨(q', pc.2) :: m', ?_, ?_⟩
                · simp only [List.mapM_cons]
                  rw [g3, g1]
                  rfl
                · rw [List.map_cons, g2, g4]
        cases hm : out.mapM (fun pc => (decodePath σ pc.1).map fun l => (l, pc.2)) with
        | none => rw [hm] at h; exact (nomatch h)
        | some r₀ =>
          rw [hm] at h
          obtain rfl := Except.ok.inj h
          obtain ⟨r', g1, g2⟩ := key out r₀ hm fun q hq => (hfin q hq).2.2
          rw [g1, ← g2]
          rfl

/-! Non-vacuity: four elements, one of infinite cost, in two orders. -/

/-- The costs `5, inf, -20, 7` and `inf, 7, 5, -20`: element `i` of the second list is element `exLayT i` of the first. -/
def exLay : Fin 4 → WithTop ℤ := ![((5 : ℤ) : WithTop ℤ), ⊤, ((-20 : ℤ) : WithTop ℤ), ((7 : ℤ) : WithTop ℤ)]
def exLay' : Fin 4 → WithTop ℤ := ![⊤, ((7 : ℤ) : WithTop ℤ), ((5 : ℤ) : WithTop ℤ), ((-20 : ℤ) : WithTop ℤ)]

def exLayT : Equiv.Perm (Fin 4) where
  toFun := ![1, 3, 0, 2]
  invFun := ![2, 0, 3, 1]
  left_inv := by decide
  right_inv := by decide

example : (∀ i, exLay' i = exLay (exLayT i)) ∧ (∀ i j, exLay i = exLay j → exLay i ≠ ⊤ → i = j) ∧
    (∀ i j, i ≤ j → exLay (exLayT j) ≤ exLay (exLayT i)) ∧ (∀ i j, i ≤ j → exLay' j ≤ exLay' i) := by
  decide +kernel

example : (kShortestInf exLay exLayT (1 : ℤ) 2).toOption =
      some [([2], ((-19 : ℤ) : WithTop ℤ)), ([0, 2], ((-14 : ℤ) : WithTop ℤ))] ∧
    (kShortestInf exLay' (Equiv.refl _) (1 : ℤ) 2).toOption =
      some [([3], ((-19 : ℤ) : WithTop ℤ)), ([2, 3], ((-14 : ℤ) : WithTop ℤ))] := by
  decide +kernel

/-- With equal costs the order does matter for the paths (not for their costs): for two equal elements and `k = 2` the
single element of the second path is the one the sort puts last. -/
theorem C133_ties : ∃ (lc : Fin 2 → WithTop ℤ) (σ σ' : Equiv.Perm (Fin 2)),
    (∀ i j, i ≤ j → lc (σ j) ≤ lc (σ i)) ∧ (∀ i j, i ≤ j → lc (σ' j) ≤ lc (σ' i)) ∧
    ((kShortestInf lc σ (1 : ℤ) 2).toOption.map fun l => l.map Prod.fst) = some [[0, 1], [1]] ∧
    ((kShortestInf lc σ' (1 : ℤ) 2).toOption.map fun l => l.map Prod.fst) = some [[1, 0], [0]] :=
  ⟨fun _ => ((-4 : ℤ) : WithTop ℤ), Equiv.refl _, Equiv.swap 0 1, by decide, by decide, by decide +kernel, by decide +kernel⟩

end Gasur.Props
