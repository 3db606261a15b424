import Verif.Props.PhdBound

/-!
# Property C149: the more clutter, the less weight a measurement gives
-/

set_option linter.unusedSectionVars false

namespace Gasur.Props

open Gasur.Phd Gasur.Spec

variable {K V P Z : Type*} [Field K] [LinearOrder K] [IsStrictOrderedRing K]
  [AddCommGroup V] [Module K V] [AddCommGroup P] [Module K P] [FloorRing K]

namespace Clutter

theorem forall2_flat {α β : Type*} {R : α → α → Prop} (g h : β → List α) :
    ∀ l : List β, (∀ b ∈ l, List.Forall₂ R (g b) (h b)) → List.Forall₂ R (l.flatMap g) (l.flatMap h)
  | [], _ => by simp
  | b :: l, H => by
    rw [List.flatMap_cons, List.flatMap_cons]
    exact List.rel_append (H b List.mem_cons_self) (forall2_flat g h l fun x hx => H x (List.mem_cons_of_mem _ hx))

theorem forall2_map {α β : Type*} {R : α → α → Prop} (g h : β → α) (l : List β) (H : ∀ b ∈ l, R (g b) (h b)) :
    List.Forall₂ R (l.map g) (l.map h) := by
  induction l with
  | nil => exact .nil
  | cons b l ih => exact .cons (H b List.mem_cons_self) (ih fun x hx => H x (List.mem_cons_of_mem _ hx))

theorem raw_nonneg {pr : Params K} (hpd : 0 ≤ pr.probDetection) {f : Filt K V P Z}
    (hf : ∀ z s p, 0 ≤ (f.fcor z s p).2.1) {c : K × V × P} (hc : 0 ≤ c.1) (z : Z) : 0 ≤ rawW pr f z c :=
  mul_nonneg (hf _ _ _) (mul_nonneg hpd hc)

theorem raw_sum_nonneg {pr : Params K} (hpd : 0 ≤ pr.probDetection) {f : Filt K V P Z}
    (hf : ∀ z s p, 0 ≤ (f.fcor z s p).2.1) {cs : List (K × V × P)} (hw : ∀ c ∈ cs, 0 ≤ c.1) (z : Z) :
    0 ≤ (cs.map (rawW pr f z)).sum := by
  apply List.sum_nonneg
  intro x hx
  obtain ⟨c, hc, rfl⟩ := List.mem_map.1 hx
  exact raw_nonneg hpd hf (hw c hc) z

end Clutter

open Clutter

/-- **C149.** Raising the clutter intensity `clutter_rate * clutter_den` from `κ > 0` to `κ' ≥ κ` makes no weight of the
updated mixture larger, and none smaller than `κ / κ'` times what it was; means and covariances stay the same; the weights of
the missed objects, at the end of the list, do not depend on the clutter at all. -/
theorem C149_clutter_monotone (pr : Params K) (hpd : 0 ≤ pr.probDetection) (hpm : 0 ≤ pr.probMiss) (f : Filt K V P Z)
    (hf : ∀ z s p, 0 ≤ (f.fcor z s p).2.1) (m : Mix K V P) (hm : Aligned m ∧ ∀ w ∈ m.ws, 0 ≤ w) (zs : List Z) (r d : K)
    (hκ : 0 < pr.clutterRate * pr.clutterDen) (hle : pr.clutterRate * pr.clutterDen ≤ r * d) :
    ∃ a b : Mix K V P, Phd.correct pr f zs m = .ok a ∧
      Phd.correct { pr with clutterRate := r, clutterDen := d } f zs m = .ok b ∧
      b.ms = a.ms ∧ b.ps = a.ps ∧ List.Forall₂ (fun x y => x ≤ y) b.ws a.ws ∧
      List.Forall₂ (fun x y => pr.clutterRate * pr.clutterDen * y ≤ r * d * x) b.ws a.ws ∧
      a.ws.drop (zs.length * m.ws.length) = m.ws.map (fun x => pr.probMiss * x) ∧
      b.ws.drop (zs.length * m.ws.length) = m.ws.map (fun x => pr.probMiss * x) := by
  obtain ⟨cs, rfl, hw⟩ := (good_iff m).1 hm
  have hs := fun z => raw_sum_nonneg hpd hf hw z
  have hκ' : 0 < r * d := hκ.trans_le hle
  have hd1 : ∀ z, 0 < denom pr f cs z := fun z => by unfold denom; linarith [hs z]
  have hs' : ∀ z, denom { pr with clutterRate := r, clutterDen := d } f cs z = r * d + (cs.map (rawW pr f z)).sum :=
    fun z => rfl
  have hd2 : ∀ z, 0 < denom { pr with clutterRate := r, clutterDen := d } f cs z := fun z => by
    rw [hs']; linarith [hs z]
  refine ⟨_, _, correct_ofComps pr f cs zs fun z _ => .inr (hd1 z).ne',
    correct_ofComps _ f cs zs fun z _ => .inr (hd2 z).ne', ?_, ?_, ?_, ?_, ?_, ?_⟩
  · simp only [ofComps, List.map_append, List.map_flatMap, List.map_map]
    rfl
  · simp only [ofComps, List.map_append, List.map_flatMap, List.map_map]
    rfl
  · simp only [ofComps, List.map_append, List.map_flatMap, List.map_map]
    refine List.rel_append (forall2_flat _ _ _ fun z _ => forall2_map _ _ _ fun c hc => ?_)
      (forall2_map _ _ _ fun c _ => le_refl _)
    have h0 := raw_nonneg hpd hf (hw c hc) z
    show rawW pr f z c / (r * d + (cs.map (rawW pr f z)).sum) ≤ rawW pr f z c / denom pr f cs z
    exact div_le_div_of_nonneg_left h0 (hd1 z) (by unfold denom; linarith)
  · simp only [ofComps, List.map_append, List.map_flatMap, List.map_map]
    refine List.rel_append (forall2_flat _ _ _ fun z _ => forall2_map _ _ _ fun c hc => ?_)
      (forall2_map _ _ _ fun c hc => mul_le_mul_of_nonneg_right hle (mul_nonneg hpm (hw c hc)))
    have h0 := raw_nonneg hpd hf (hw c hc) z
    show pr.clutterRate * pr.clutterDen * (rawW pr f z c / denom pr f cs z) ≤
      r * d * (rawW pr f z c / (r * d + (cs.map (rawW pr f z)).sum))
    rw [mul_div_assoc', mul_div_assoc', div_le_div_iff₀ (hd1 z) (by linarith [hs z])]
    unfold denom
    have h3 := mul_nonneg h0 (hs z)
    nlinarith [mul_nonneg h3 (sub_nonneg.2 hle)]
  all_goals
    simp only [ofComps, List.map_append, List.length_map]
    rw [List.drop_append, List.drop_eq_nil_of_le, List.nil_append, List.length_map, List.length_flatMap]
    · simp [Function.comp_def]
    · simp

/-- **C149, limit.** The weight that the measurements give altogether is at most `1 / κ` times what they would weigh without
normalisation: with growing clutter it tends to zero, and the update keeps only the weights of the missed objects. -/
theorem C149_detected_weight (pr : Params K) (hpd : 0 ≤ pr.probDetection) (f : Filt K V P Z)
    (hf : ∀ z s p, 0 ≤ (f.fcor z s p).2.1) (m : Mix K V P) (hm : Aligned m ∧ ∀ w ∈ m.ws, 0 ≤ w) (zs : List Z) (L : K)
    (hL : ∀ z s p, (f.fcor z s p).2.1 ≤ L) (hκ : 0 < pr.clutterRate * pr.clutterDen) (a : Mix K V P)
    (h : Phd.correct pr f zs m = .ok a) :
    0 ≤ a.ws.sum - pr.probMiss * m.ws.sum ∧
      a.ws.sum - pr.probMiss * m.ws.sum ≤
        zs.length * (L * pr.probDetection * m.ws.sum) / (pr.clutterRate * pr.clutterDen) := by
  obtain ⟨cs, rfl, hw⟩ := (good_iff m).1 hm
  have hs := fun z => raw_sum_nonneg hpd hf hw z
  have hd1 : ∀ z, 0 < denom pr f cs z := fun z => by unfold denom; linarith [hs z]
  obtain rfl := Except.ok.inj ((correct_ofComps pr f cs zs fun z _ => .inr (hd1 z).ne').symm.trans h)
  have e : (ofComps ((zs.flatMap fun z => cs.map (corComp pr f (denom pr f cs z) z)) ++
      cs.map fun c => (pr.probMiss * c.1, c.2))).ws.sum - pr.probMiss * (ofComps cs).ws.sum =
      (zs.map fun z => (cs.map (rawW pr f z)).sum / denom pr f cs z).sum := by
    simp only [ofComps, List.map_append, List.map_flatMap, List.map_map, List.sum_append, Function.comp_def,
      List.sum_map_mul_left, add_sub_cancel_right, corComp]
    rw [List.flatMap, List.sum_flatten, List.map_map]
    congr 1
    apply List.map_congr_left
    intro z _
    simp only [Function.comp, div_eq_mul_inv, List.sum_map_mul_right]
  rw [e]
  have hz : ∀ z, (cs.map (rawW pr f z)).sum ≤ L * pr.probDetection * (ofComps cs).ws.sum := by
    intro z
    have : L * pr.probDetection * (ofComps cs).ws.sum = (cs.map fun c => L * (pr.probDetection * c.1)).sum := by
      simp only [ofComps, List.sum_map_mul_left]
      ring
    rw [this]
    apply List.sum_le_sum
    intro c hc
    exact mul_le_mul_of_nonneg_right (hL _ _ _) (mul_nonneg hpd (hw c hc))
  constructor
  · apply List.sum_nonneg
    intro x hx
    obtain ⟨z, _, rfl⟩ := List.mem_map.1 hx
    exact div_nonneg (hs z) (hd1 z).le
  · have := List.sum_le_card_nsmul (zs.map fun z => (cs.map (rawW pr f z)).sum / denom pr f cs z)
      (L * pr.probDetection * (ofComps cs).ws.sum / (pr.clutterRate * pr.clutterDen)) (by
      intro x hx
      obtain ⟨z, _, rfl⟩ := List.mem_map.1 hx
      exact div_le_div₀ ((hs z).trans (hz z)) (hz z) hκ (by unfold denom; linarith [hs z]))
    rw [List.length_map, nsmul_eq_mul] at this
    rwa [mul_div_assoc]

/-! Non-vacuity: two components, one measurement, clutter intensity 1/10, then 1. -/

example : (0 : ℚ) < exParams.clutterRate * exParams.clutterDen ∧ exParams.clutterRate * exParams.clutterDen ≤ 2 * (1 / 2 : ℚ) ∧
    (Phd.correct exParams exFilt [1] ⟨[1, 1 / 2], [0, 5], [1, 1]⟩).toOption.map (fun m => m.ws) =
      some [68 / 89, 4 / 89, 1 / 5, 1 / 10] ∧
    (Phd.correct { exParams with clutterRate := 2, clutterDen := 1 / 2 } exFilt [1]
      ⟨[1, 1 / 2], [0, 5], [1, 1]⟩).toOption.map (fun m => m.ws) = some [34 / 121, 2 / 121, 1 / 5, 1 / 10] := by decide +kernel

end Gasur.Props
