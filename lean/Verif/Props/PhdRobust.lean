import Verif.Props.Phd

/-!
# Property C170: a wrong sensor model or a wrong prior has bounded effects on the PHD filter
-/

set_option linter.unusedSectionVars false

namespace Gasur.Props

open Gasur.Phd Gasur.Spec

variable {K V P Z : Type*} [Field K] [LinearOrder K] [IsStrictOrderedRing K]

/-- Two numbers that differ at most by the factor `r`. -/
def Within (r x y : K) : Prop := y ≤ r * x ∧ x ≤ r * y

theorem frac_within {r κ κ' u u' s s' : K} (hr : 1 ≤ r) (hκ : 0 < κ) (hκ' : 0 < κ') (hu : 0 ≤ u) (hs : 0 ≤ s)
    (hs' : 0 ≤ s') (h1 : u' * κ ≤ r * (u * κ')) (h2 : s * κ' ≤ r * (s' * κ)) :
    u' / (κ' + s') ≤ r ^ 2 * (u / (κ + s)) := by
  have hr0 : 0 ≤ r := zero_le_one.trans hr
  rw [← mul_div_assoc, div_le_div_iff₀ (by positivity) (by positivity)]
  have e1 : u' * κ ≤ r ^ 2 * (u * κ') := h1.trans (mul_le_mul_of_nonneg_right (by nlinarith) (by positivity))
  have e2 : u' * s ≤ r ^ 2 * (u * s') := by
    refine le_of_mul_le_mul_left (?_ : κ * (u' * s) ≤ κ * (r ^ 2 * (u * s'))) hκ
    calc κ * (u' * s) = (u' * κ) * s := by ring
      _ ≤ (r * (u * κ')) * s := mul_le_mul_of_nonneg_right h1 hs
      _ = r * u * (s * κ') := by ring
      _ ≤ r * u * (r * (s' * κ)) := mul_le_mul_of_nonneg_left h2 (mul_nonneg hr0 hu)
      _ = _ := by ring
  calc u' * (κ + s) = u' * κ + u' * s := by ring
    _ ≤ r ^ 2 * (u * κ') + r ^ 2 * (u * s') := add_le_add e1 e2
    _ = _ := by ring

theorem part_within {r κ κ' s s' : K} (hr : 1 ≤ r) (hκ : 0 < κ) (hκ' : 0 < κ') (hs : 0 ≤ s) (hs' : 0 ≤ s')
    (h1 : s' * κ ≤ r * (s * κ')) : s' / (κ' + s') ≤ r * (s / (κ + s)) := by
  rw [← mul_div_assoc, div_le_div_iff₀ (by positivity) (by positivity)]
  have : s' * s ≤ r * (s * s') := by nlinarith [mul_nonneg hs hs']
  nlinarith

theorem sums_le {α β : Type*} {R : α → β → Prop} {f : α → K} {g : β → K} {c : K} {l : List α} {l' : List β}
    (h : List.Forall₂ R l l') (hR : ∀ a b, a ∈ l → R a b → g b ≤ c * f a) : (l'.map g).sum ≤ c * (l.map f).sum := by
  induction h with
  | nil => simp
  | cons h1 _ ih =>
    rw [List.map_cons, List.map_cons, List.sum_cons, List.sum_cons, mul_add]
    exact add_le_add (hR _ _ List.mem_cons_self h1) (ih fun a b ha => hR a b (List.mem_cons_of_mem _ ha))

/-- The same components with weights that differ at most by the factor `r`. -/
def SameUpTo (r : K) (cs cs' : List (K × V × P)) : Prop :=
  List.Forall₂ (fun c c' => c.2 = c'.2 ∧ Within r c.1 c'.1) cs cs'

/-- Two PHD filters (parameters and inner filters) whose inner filters move estimates in the same way and whose odds of a
detection against clutter, and probabilities of a missed detection, differ at most by the factor `ρ`. -/
structure CloseModels (ρ : K) (pr pr' : Params K) (f f' : Filt K V P Z) : Prop where
  clutter : 0 < pr.clutterRate * pr.clutterDen
  clutter' : 0 < pr'.clutterRate * pr'.clutterDen
  det : 0 ≤ pr.probDetection
  det' : 0 ≤ pr'.probDetection
  miss : 0 ≤ pr.probMiss
  miss' : 0 ≤ pr'.probMiss
  lik : ∀ z s p, 0 ≤ (f.fcor z s p).2.1
  lik' : ∀ z s p, 0 ≤ (f'.fcor z s p).2.1
  mean : ∀ z s p, (f'.fcor z s p).1 = (f.fcor z s p).1
  cov : ∀ z s p, (f'.fcor z s p).2.2 = (f.fcor z s p).2.2
  odds : ∀ z s p, Within ρ (pr.probDetection * (f.fcor z s p).2.1 / (pr.clutterRate * pr.clutterDen))
    (pr'.probDetection * (f'.fcor z s p).2.1 / (pr'.clutterRate * pr'.clutterDen))
  missed : Within ρ pr.probMiss pr'.probMiss

theorem CloseModels.symm {ρ : K} {pr pr' : Params K} {f f' : Filt K V P Z} (h : CloseModels ρ pr pr' f f') :
    CloseModels ρ pr' pr f' f :=
  ⟨h.clutter', h.clutter, h.det', h.det, h.miss', h.miss, h.lik', h.lik, fun z s p => (h.mean z s p).symm,
    fun z s p => (h.cov z s p).symm, fun z s p => ⟨(h.odds z s p).2, (h.odds z s p).1⟩, h.missed.2, h.missed.1⟩

theorem SameUpTo.symm {r : K} {cs cs' : List (K × V × P)} (h : SameUpTo r cs cs') : SameUpTo r cs' cs :=
  h.flip.imp fun _ _ h => ⟨h.1.symm, h.2.2, h.2.1⟩

theorem cross {ρ a κ κ' d d' q q' w w' : K} (hρ : 0 ≤ ρ) (hκ : 0 < κ) (hκ' : 0 < κ') (hd : 0 ≤ d) (hq : 0 ≤ q)
    (hw' : 0 ≤ w') (h1 : d' * q' / κ' ≤ ρ * (d * q / κ)) (h2 : w' ≤ a * w) :
    (q' * (d' * w')) * κ ≤ (ρ * a) * ((q * (d * w)) * κ') := by
  rw [← mul_div_assoc, div_le_div_iff₀ hκ' hκ] at h1
  calc (q' * (d' * w')) * κ = (d' * q' * κ) * w' := by ring
    _ ≤ (ρ * (d * q) * κ') * w' := mul_le_mul_of_nonneg_right h1 hw'
    _ ≤ (ρ * (d * q) * κ') * (a * w) := mul_le_mul_of_nonneg_left h2 (by positivity)
    _ = _ := by ring

theorem det_within {ρ a : K} (hρ : 1 ≤ ρ) {pr pr' : Params K} {f f' : Filt K V P Z} (h : CloseModels ρ pr pr' f f')
    {cs cs' : List (K × V × P)} (hs : SameUpTo a cs cs') (hw' : ∀ c ∈ cs', 0 ≤ c.1) (z : Z) :
    detMass pr' f' cs' z * clutter pr ≤ (ρ * a) * (detMass pr f cs z * clutter pr') := by
  have h' : List.Forall₂ (fun c c' => (c.2 = c'.2 ∧ Within a c.1 c'.1) ∧ 0 ≤ c'.1) cs cs' := by
    unfold SameUpTo at hs
    clear h
    induction hs with
    | nil => exact .nil
    | cons h1 _ ih => exact .cons ⟨h1, hw' _ List.mem_cons_self⟩ (ih fun c hc => hw' c (List.mem_cons_of_mem _ hc))
  unfold detMass
  rw [← List.sum_map_mul_right, ← List.sum_map_mul_right]
  refine sums_le h' fun c c' _ hc => ?_
  obtain ⟨⟨e, hw⟩, h0⟩ := hc
  rw [← e]
  exact cross (zero_le_one.trans hρ) h.clutter h.clutter' h.det (h.lik _ _ _) h0 (h.odds z _ _).1 hw.1

/-- **C170.** A wrong sensor model or a wrong prior has bounded effects on the PHD filter. Let two PHD filters have the same
components with weights that differ at most by the factor `a`, and sensor models that differ at most by the factor `ρ`. After
both are corrected with the same measurements, they have again the same components, weights differ at most by the factor
`(ρ a)^2`, and the expected numbers of objects differ at most by the factor `ρ a`. -/
theorem C170_robust {ρ a : K} (hρ : 1 ≤ ρ) (ha : 1 ≤ a) {pr pr' : Params K} {f f' : Filt K V P Z}
    (h : CloseModels ρ pr pr' f f') {cs cs' : List (K × V × P)} (hs : SameUpTo a cs cs') (hw : ∀ c ∈ cs, 0 ≤ c.1)
    (hw' : ∀ c ∈ cs', 0 ≤ c.1) (zs : List Z) :
    ∃ ds ds', correct pr f zs (ofComps cs) = .ok (ofComps ds) ∧ correct pr' f' zs (ofComps cs') = .ok (ofComps ds') ∧
      SameUpTo ((ρ * a) ^ 2) ds ds' ∧ Within (ρ * a) (mass ds) (mass ds') ∧ (∀ d ∈ ds, 0 ≤ d.1) ∧ ∀ d ∈ ds', 0 ≤ d.1 := by
  have hρ0 : 0 ≤ ρ := zero_le_one.trans hρ
  have hr : 1 ≤ ρ * a := by nlinarith
  have hr2 : ρ * a ≤ (ρ * a) ^ 2 := by nlinarith
  obtain ⟨ds, c1, e1, -, m1, -⟩ := C29_correct_mass pr f cs zs h.det h.clutter h.lik hw
  obtain ⟨ds', c2, e2, -, m2, -⟩ := C29_correct_mass pr' f' cs' zs h.det' h.clutter' h.lik' hw'
  have S0 := fun z => detMass_nonneg pr f cs z h.det (h.lik z) hw
  have S0' := fun z => detMass_nonneg pr' f' cs' z h.det' (h.lik' z) hw'
  have X := det_within hρ h hs hw'
  have X' := det_within hρ h.symm hs.symm hw
  have hall : List.Forall₂ (fun c c' => (c.2 = c'.2 ∧ Within a c.1 c'.1) ∧ 0 ≤ c.1 ∧ 0 ≤ c'.1) cs cs' := by
    unfold SameUpTo at hs
    clear c1 e1 m1 c2 e2 m2 S0 S0' X X'
    induction hs with
    | nil => exact .nil
    | cons h1 _ ih =>
      exact .cons ⟨h1, hw _ List.mem_cons_self, hw' _ List.mem_cons_self⟩
        (ih (fun c hc => hw c (List.mem_cons_of_mem _ hc)) fun c hc => hw' c (List.mem_cons_of_mem _ hc))
  refine ⟨ds, ds', c1, c2, ?_, ?_, ?_, ?_⟩
  · rw [e1, e2]
    refine List.rel_append ?_ ?_
    · clear c1 e1 m1 c2 e2 m2
      induction zs with
      | nil => exact .nil
      | cons z zs ih =>
        rw [List.flatMap_cons, List.flatMap_cons]
        refine List.rel_append ?_ ih
        rw [List.forall₂_map_left_iff, List.forall₂_map_right_iff]
        refine hall.imp fun c c' hc => ?_
        obtain ⟨⟨e, k⟩, p, p'⟩ := hc
        rw [← e]
        refine ⟨?_, ?_, ?_⟩
        · dsimp only
          rw [h.mean, h.cov]
        · exact frac_within hr h.clutter h.clutter' (mul_nonneg (h.lik _ _ _) (mul_nonneg h.det p)) (S0 z) (S0' z)
            (cross hρ0 h.clutter h.clutter' h.det (h.lik _ _ _) p' (h.odds z _ _).1 k.1) (X' z)
        · exact frac_within hr h.clutter' h.clutter (mul_nonneg (h.lik' _ _ _) (mul_nonneg h.det' p')) (S0' z) (S0 z)
            (cross hρ0 h.clutter' h.clutter h.det' (h.lik' _ _ _) p (h.odds z _ _).2 k.2) (X z)
    · rw [List.forall₂_map_left_iff, List.forall₂_map_right_iff]
      refine hall.imp fun c c' hc => ?_
      obtain ⟨⟨e, k⟩, p, p'⟩ := hc
      refine ⟨e, ?_, ?_⟩
      · calc pr'.probMiss * c'.1 ≤ (ρ * pr.probMiss) * (a * c.1) :=
              mul_le_mul h.missed.1 k.1 p' (mul_nonneg hρ0 h.miss)
          _ = (ρ * a) * (pr.probMiss * c.1) := by ring
          _ ≤ _ := mul_le_mul_of_nonneg_right hr2 (mul_nonneg h.miss p)
      · calc pr.probMiss * c.1 ≤ (ρ * pr'.probMiss) * (a * c'.1) :=
              mul_le_mul h.missed.2 k.2 p (mul_nonneg hρ0 h.miss')
          _ = (ρ * a) * (pr'.probMiss * c'.1) := by ring
          _ ≤ _ := mul_le_mul_of_nonneg_right hr2 (mul_nonneg h.miss' p')
  · have M : mass cs' ≤ a * mass cs := sums_le hall fun c c' _ hc => hc.1.2.1
    have M' : mass cs ≤ a * mass cs' := sums_le hall.flip fun c c' _ hc => hc.1.2.2
    have N : 0 ≤ mass cs := List.sum_nonneg (by simpa using fun x y z hx => hw (x, y, z) hx)
    have N' : 0 ≤ mass cs' := List.sum_nonneg (by simpa using fun x y z hx => hw' (x, y, z) hx)
    have T : (zs.map fun z => detMass pr' f' cs' z / (clutter pr' + detMass pr' f' cs' z)).sum ≤
        (ρ * a) * (zs.map fun z => detMass pr f cs z / (clutter pr + detMass pr f cs z)).sum := by
      rw [← List.sum_map_mul_left]
      exact List.sum_le_sum fun z _ => part_within hr h.clutter h.clutter' (S0 z) (S0' z) (X z)
    have T' : (zs.map fun z => detMass pr f cs z / (clutter pr + detMass pr f cs z)).sum ≤
        (ρ * a) * (zs.map fun z => detMass pr' f' cs' z / (clutter pr' + detMass pr' f' cs' z)).sum := by
      rw [← List.sum_map_mul_left]
      exact List.sum_le_sum fun z _ => part_within hr h.clutter' h.clutter (S0' z) (S0 z) (X' z)
    rw [m1, m2]
    refine ⟨?_, ?_⟩
    · rw [mul_add]
      refine add_le_add ?_ T
      calc pr'.probMiss * mass cs' ≤ (ρ * pr.probMiss) * (a * mass cs) :=
            mul_le_mul h.missed.1 M N' (mul_nonneg hρ0 h.miss)
        _ = _ := by ring
    · rw [mul_add]
      refine add_le_add ?_ T'
      calc pr.probMiss * mass cs ≤ (ρ * pr'.probMiss) * (a * mass cs') :=
            mul_le_mul h.missed.2 M' N (mul_nonneg hρ0 h.miss')
        _ = _ := by ring
  · rw [e1]
    intro d hd
    rcases List.mem_append.1 hd with hd | hd
    · obtain ⟨z, _, hd⟩ := List.mem_flatMap.1 hd
      obtain ⟨c, hc, rfl⟩ := List.mem_map.1 hd
      exact div_nonneg (mul_nonneg (h.lik _ _ _) (mul_nonneg h.det (hw c hc))) (add_nonneg h.clutter.le (S0 z))
    · obtain ⟨c, hc, rfl⟩ := List.mem_map.1 hd
      exact mul_nonneg h.miss (hw c hc)
  · rw [e2]
    intro d hd
    rcases List.mem_append.1 hd with hd | hd
    · obtain ⟨z, _, hd⟩ := List.mem_flatMap.1 hd
      obtain ⟨c, hc, rfl⟩ := List.mem_map.1 hd
      exact div_nonneg (mul_nonneg (h.lik' _ _ _) (mul_nonneg h.det' (hw' c hc))) (add_nonneg h.clutter'.le (S0' z))
    · obtain ⟨c, hc, rfl⟩ := List.mem_map.1 hd
      exact mul_nonneg h.miss' (hw' c hc)

/-- The factor by which weights can differ after a sequence of predictions and corrections, if they differed by at most `a`. -/
def spread (ρ : K) : K → List (Op K V P Z) → K
  | a, [] => a
  | a, .correct _ _ :: os => spread ρ ((ρ * a) ^ 2) os
  | a, _ :: os => spread ρ (ρ * a) os

/-- The same call for the two filters: a prediction with the same births and motion, or a correction with the same
measurements and sensor models that differ at most by the factor `ρ`. -/
inductive CloseOp (ρ : K) (pr pr' : Params K) : Op K V P Z → Op K V P Z → Prop
  | predict {f f' : Filt K V P Z} (bs : List (List (K × V × P))) : (∀ s p, f'.fpred s p = f.fpred s p) →
      (∀ b ∈ bs, ∀ c ∈ b, 0 ≤ c.1) → CloseOp ρ pr pr' (.predict f (bs.map ofComps)) (.predict f' (bs.map ofComps))
  | correct {f f' : Filt K V P Z} (zs : List Z) : CloseModels ρ pr pr' f f' →
      CloseOp ρ pr pr' (.correct f zs) (.correct f' zs)

theorem predict_robust {ρ a : K} (hρ : 1 ≤ ρ) (ha : 1 ≤ a) {pr pr' : Params K} (hp : 0 ≤ pr.probSurvive)
    (hp' : 0 ≤ pr'.probSurvive) (hs : Within ρ pr.probSurvive pr'.probSurvive) {f f' : Filt K V P Z}
    (hf : ∀ s p, f'.fpred s p = f.fpred s p) {bs : List (List (K × V × P))} (hb : ∀ b ∈ bs, ∀ c ∈ b, 0 ≤ c.1)
    {cs cs' : List (K × V × P)} (h : SameUpTo a cs cs') (hw : ∀ c ∈ cs, 0 ≤ c.1) (hw' : ∀ c ∈ cs', 0 ≤ c.1) :
    ∃ ds ds', predict pr f (bs.map ofComps) (ofComps cs) = ofComps ds ∧
      predict pr' f' (bs.map ofComps) (ofComps cs') = ofComps ds' ∧ SameUpTo (ρ * a) ds ds' ∧ (∀ d ∈ ds, 0 ≤ d.1) ∧
      ∀ d ∈ ds', 0 ≤ d.1 := by
  have hρ0 : 0 ≤ ρ := zero_le_one.trans hρ
  have hr : 1 ≤ ρ * a := by nlinarith
  refine ⟨_, _, predict_ofComps pr f bs cs, predict_ofComps pr' f' bs cs', ?_, ?_, ?_⟩
  · refine List.rel_append ?_ ?_
    · rw [List.forall₂_map_left_iff, List.forall₂_map_right_iff]
      unfold SameUpTo at h
      induction h with
      | nil => exact .nil
      | @cons c c' l l' h1 h2 ih =>
        refine .cons ⟨?_, ?_, ?_⟩ (ih (fun c hc => hw c (List.mem_cons_of_mem _ hc))
          fun c hc => hw' c (List.mem_cons_of_mem _ hc))
        · simp only [predComp, h1.1, hf]
        · calc pr'.probSurvive * c'.1 ≤ (ρ * pr.probSurvive) * (a * c.1) :=
                mul_le_mul hs.1 h1.2.1 (hw' _ List.mem_cons_self) (mul_nonneg hρ0 hp)
            _ = _ := by simp only [predComp]; ring
        · calc pr.probSurvive * c.1 ≤ (ρ * pr'.probSurvive) * (a * c'.1) :=
                mul_le_mul hs.2 h1.2.2 (hw _ List.mem_cons_self) (mul_nonneg hρ0 hp')
            _ = _ := by simp only [predComp]; ring
    · have hb' : ∀ c ∈ bs.flatten, 0 ≤ c.1 := fun c hc => by
        obtain ⟨b, h1, h2⟩ := List.mem_flatten.1 hc
        exact hb b h1 c h2
      generalize bs.flatten = l at hb'
      induction l with
      | nil => exact .nil
      | cons c l ih =>
        have := hb' c List.mem_cons_self
        exact .cons ⟨rfl, by nlinarith, by nlinarith⟩ (ih fun c hc => hb' c (List.mem_cons_of_mem _ hc))
  · intro d hd
    rcases List.mem_append.1 hd with hd | hd
    · obtain ⟨c, hc, rfl⟩ := List.mem_map.1 hd
      exact mul_nonneg hp (hw c hc)
    · obtain ⟨b, h1, h2⟩ := List.mem_flatten.1 hd
      exact hb b h1 d h2
  · intro d hd
    rcases List.mem_append.1 hd with hd | hd
    · obtain ⟨c, hc, rfl⟩ := List.mem_map.1 hd
      exact mul_nonneg hp' (hw' c hc)
    · obtain ⟨b, h1, h2⟩ := List.mem_flatten.1 hd
      exact hb b h1 d h2

/-- **C170**, for whole histories: after any sequence of predictions and corrections with the same births, motion and
measurements, the two filters have the same components in the same order, and their weights differ at most by a factor that
depends only on `ρ`, `a` and the sequence of calls, not on the measurements, the births or the number of components. -/
theorem C170_history [FloorRing K] [AddCommGroup V] [Module K V] [AddCommGroup P] [Module K P] (env env' : Env K V P Z)
    {ρ : K} (hρ : 1 ≤ ρ) {pr pr' : Params K} (hp : 0 ≤ pr.probSurvive) (hp' : 0 ≤ pr'.probSurvive)
    (hs : Within ρ pr.probSurvive pr'.probSurvive) {ops ops' : List (Op K V P Z)}
    (hops : List.Forall₂ (CloseOp ρ pr pr') ops ops') : ∀ {a : K}, 1 ≤ a → ∀ {cs cs' : List (K × V × P)},
    SameUpTo a cs cs' → (∀ c ∈ cs, 0 ≤ c.1) → (∀ c ∈ cs', 0 ≤ c.1) → ∀ (x x' : List (List V × List P)),
    ∃ ds ds', run env pr ⟨ofComps cs, x⟩ ops = .ok ⟨ofComps ds, x⟩ ∧ run env' pr' ⟨ofComps cs', x'⟩ ops' = .ok ⟨ofComps ds', x'⟩ ∧
      SameUpTo (spread ρ a ops) ds ds' ∧ (∀ d ∈ ds, 0 ≤ d.1) ∧ ∀ d ∈ ds', 0 ≤ d.1 := by
  induction hops with
  | nil =>
    intro a _ cs cs' h hw hw' x x'
    exact ⟨cs, cs', rfl, rfl, h, hw, hw'⟩
  | cons h1 _ ih =>
    intro a ha cs cs' h hw hw' x x'
    have hr : 1 ≤ ρ * a := by nlinarith
    cases h1 with
    | predict bs hf hb =>
      obtain ⟨ds, ds', e1, e2, k, n, n'⟩ := predict_robust hρ ha hp hp' hs hf hb h hw hw'
      obtain ⟨es, es', r1, r2, r⟩ := ih hr k n n' x x'
      refine ⟨es, es', ?_, ?_, r⟩
      · simp only [run, step, e1]
        exact r1
      · simp only [run, step, e2]
        exact r2
    | correct zs hm =>
      obtain ⟨ds, ds', e1, e2, k, -, n, n'⟩ := C170_robust hρ ha hm h hw hw' zs
      obtain ⟨es, es', r1, r2, r⟩ := ih (one_le_pow₀ hr) k n n' x x'
      refine ⟨es, es', ?_, ?_, r⟩
      · simp only [run, step, e1]
        exact r1
      · simp only [run, step, e2]
        exact r2

theorem exClose : CloseModels (2 : ℚ) exParams { exParams with probDetection := 9 / 10, probMiss := 1 / 10 } exFilt exFilt := by
  have q : ∀ z s : ℚ, 0 ≤ (1 + (z - s) ^ 2)⁻¹ := fun z s => by positivity
  refine ⟨by norm_num [exParams], by norm_num [exParams], by norm_num [exParams], by norm_num [exParams],
    by norm_num [exParams], by norm_num [exParams], fun z s p => ?_, fun z s p => ?_, fun _ _ _ => rfl, fun _ _ _ => rfl,
    fun z s p => ?_, by norm_num [exParams, Within]⟩
  · simpa [exFilt] using q z s
  · simpa [exFilt] using q z s
  · have := q z s
    simp only [exParams, exFilt, Within, one_div]
    constructor <;> norm_num <;> nlinarith

/-- A concrete case: detection probabilities `4/5` and `9/10`, one component with weight `1` and `2`, two measurements:
`ρ = 2`, `a = 2`, so the expected numbers of objects differ at most by the factor `4`. -/
example : ∃ ds ds', correct exParams exFilt [1, 7] (ofComps [(1, 0, 1)]) = .ok (ofComps ds) ∧
    correct { exParams with probDetection := 9 / 10, probMiss := 1 / 10 } exFilt [1, 7] (ofComps [(2, 0, 1)]) =
      .ok (ofComps ds') ∧ Within 4 (mass ds) (mass ds') := by
  obtain ⟨ds, ds', c1, c2, -, m, -⟩ := C170_robust (one_le_two) one_le_two exClose (cs := [((1 : ℚ), (0 : ℚ), (1 : ℚ))])
    (cs' := [(2, 0, 1)]) (.cons ⟨rfl, by norm_num [Within]⟩ .nil) (by simp) (by simp) [1, 7]
  exact ⟨ds, ds', c1, c2, by norm_num at m; exact m⟩

/-- A concrete history of two filters that start empty: a birth, two measurements, a prediction and a third measurement. -/
example : ∃ ds ds', run exEnv exParams init [.predict exFilt [ofComps [(1, 0, 1)]], .correct exFilt [1, 7],
      .predict exFilt [], .correct exFilt [3]] = .ok ⟨ofComps ds, []⟩ ∧
    run exEnv { exParams with probDetection := 9 / 10, probMiss := 1 / 10 } init [.predict exFilt [ofComps [(1, 0, 1)]],
      .correct exFilt [1, 7], .predict exFilt [], .correct exFilt [3]] = .ok ⟨ofComps ds', []⟩ ∧ SameUpTo (2 ^ 12) ds ds' := by
  obtain ⟨ds, ds', e1, e2, k, -⟩ := C170_history exEnv exEnv (one_le_two) (pr := exParams)
    (pr' := { exParams with probDetection := 9 / 10, probMiss := 1 / 10 }) (by norm_num [exParams]) (by norm_num [exParams])
    (by norm_num [exParams, Within]) (.cons (.predict (f := exFilt) (f' := exFilt) [[((1 : ℚ), (0 : ℚ), (1 : ℚ))]] (fun _ _ => rfl)
      (by rintro b hb c hc; simp only [List.mem_singleton] at hb; subst hb; simp only [List.mem_singleton] at hc; subst hc; exact zero_le_one)) (.cons (.correct [1, 7] exClose) (.cons (.predict (f := exFilt) (f' := exFilt) [] (fun _ _ => rfl) (by simp))
      (.cons (.correct [3] exClose) .nil)))) le_rfl (cs := []) (cs' := []) .nil (by simp) (by simp) [] []
  refine ⟨ds, ds', e1, e2, ?_⟩
  have : spread (2 : ℚ) 1 ([.predict exFilt ([[((1 : ℚ), (0 : ℚ), (1 : ℚ))]].map ofComps), .correct exFilt [1, 7],
      .predict exFilt (([] : List (List (ℚ × ℚ × ℚ))).map ofComps), .correct exFilt [3]] : List (Op ℚ ℚ ℚ ℚ)) = 2 ^ 12 := by
    norm_num [spread]
  rw [this] at k
  exact k

end Gasur.Props
