import Verif.Model.Elqr

/-!
# Specification of a change of order (C83)
-/

namespace Gasur.Spec

open Gasur.Elqr Gasur.Guidance

/-- `l'` is `l` in another order: entry `k` of `l'` is entry `σ k` of `l` (in particular both have the same length). -/
def Rearr {α : Type} (σ : Equiv.Perm ℕ) (l l' : List α) : Prop := ∀ k, l'[k]? = l[σ k]?

/-- The arguments of a pass for the same plan, when the plans are in another order. -/
structure SameCall {n : ℕ} (σ : Equiv.Perm ℕ) (i i' : PassIn n) : Prop where
  all : Rearr σ i.allStates i'.allStates
  object : i.objNum = σ i'.objNum
  rest : i' = { i with allStates := i'.allStates, objNum := i'.objNum }

/-- The inherited methods treat the plans alike: their results do not depend on the order of the plans. (`ext` are the methods
of the object with the plans in one order, `ext'` those with the plans in the other order: they know the weights and
covariances of the plans.) -/
structure SameMethods {n : ℕ} (σ : Equiv.Perm ℕ) (ext ext' : Ext n) : Prop where
  fwd : ∀ i i', SameCall σ i i' → ext'.fwd i' = ext.fwd i
  bwd : ∀ i i', SameCall σ i i' → ext'.bwd i' = ext.bwd i
  quadFinal : ext'.quadFinal = ext.quadFinal
  final : ext'.final = ext.final

/-- The arguments of `initialize` in another order. -/
structure RearrEst {n : ℕ} (σ : Equiv.Perm ℕ) (est est' : Est n) : Prop where
  dyn : Rearr σ est.dyn est'.dyn
  invDyn : Rearr σ est.invDyn est'.invDyn
  nIn : Rearr σ est.nIn est'.nIn
  nom : (est.nom = none ∧ est'.nom = none) ∨ ∃ l l', est.nom = some l ∧ est'.nom = some l' ∧ Rearr σ l l'

end Gasur.Spec
