import Verif.Props.PhdHistory

/-!
# Property C119: the expected number of objects of the PHD filter stays bounded
-/

set_option linter.unusedSectionVars false

namespace Gasur.Props

open Gasur.Phd Gasur.Spec

variable {K V P Z : Type*} [Field K] [LinearOrder K] [IsStrictOrderedRing K]
  [AddCommGroup V] [Module K V] [AddCommGroup P] [Module K P] [FloorRing K]

/-- Upper bound for the total weight after the calls `ops`, if it was at most `N` before: survivors and births in the
prediction, missed objects and at most one object for each measurement in the update. -/
def massBound (pr : Params K) : K → List (Op K V P Z) → K
  | N, [] => N
  | N, .predict _ births :: os => massBound pr (pr.probSurvive * N + (births.map fun b => b.ws.sum).sum) os
  | N, .correct _ meas :: os => massBound pr (pr.probMiss * N + meas.length) os
  | N, .cleanup .. :: os => massBound pr N os
  | N, .extract :: os => massBound pr N os

theorem mass_nonneg' {cs : List (K × V × P)} (h : ∀ c ∈ cs, 0 ≤ c.1) : 0 ≤ mass cs := by
  unfold mass
  apply List.sum_nonneg
  intro x hx
  obtain ⟨c, hc, rfl⟩ := List.mem_map.1 hx
  exact h c hc

theorem mass_filter_le {cs : List (K × V × P)} (h : ∀ c ∈ cs, 0 ≤ c.1) (q : K × V × P → Bool) :
    mass (cs.filter q) ≤ mass cs := by
  induction cs with
  | nil => simp
  | cons c cs ih =>
    have ih := ih fun x hx => h x (List.mem_cons_of_mem _ hx)
    have h0 := h c List.mem_cons_self
    rw [List.filter_cons]
    unfold mass at *
    split
    · simpa using ih
    · simp only [List.map_cons, List.sum_cons]
      linarith

theorem prune_mass {pr : Params K} {m m' : Mix K V P} (hm : Good m) (h : prune pr m = .ok m') :
    Good m' ∧ m'.ws.sum ≤ m.ws.sum := by
  obtain ⟨m2, h1, h2, _⟩ := good_prune pr hm
  obtain rfl := Except.ok.inj (h1.symm.trans h)
  refine ⟨h2, ?_⟩
  obtain ⟨cs, rfl, hw⟩ := (good_iff m).1 hm
  obtain rfl := Except.ok.inj (h.symm.trans (prune_ofComps pr cs))
  exact mass_filter_le hw _

theorem merge_mass {pr : Params K} (hpr : OkParams pr) {env : Env K V P Z} (he : OkEnv env) {m m' : Mix K V P}
    (hm : Good m) (h : merge env.quad pr m = .ok m') : Good m' ∧ m'.ws.sum = m.ws.sum := by
  have hg' : Good m' := by
    rcases good_merge hpr he hm with ⟨x, h1, h2⟩ | h1
    · obtain rfl := Except.ok.inj (h1.symm.trans h)
      exact h2
    · rw [h] at h1
      exact (nomatch h1)
  refine ⟨hg', ?_⟩
  obtain ⟨cs, rfl, hw⟩ := (good_iff m).1 hm
  obtain ⟨gs, hg, h1⟩ := merge_spec env.quad pr hpr.thr he.quad cs hw
  split at h1
  · rw [h] at h1
    exact (nomatch h1)
  · obtain rfl := Except.ok.inj (h.symm.trans h1)
    exact merged_mass cs hg.perm

theorem cap_mass {pr : Params K} {env : Env K V P Z} (he : OkEnv env) {m m' : Mix K V P}
    (hm : Good m) (h : cap env.argsort pr m = .ok m') : Good m' ∧ m'.ws.sum ≤ m.ws.sum := by
  have hg' : Good m' := by
    rcases good_cap pr he hm with ⟨x, h1, h2⟩ | h1
    · obtain rfl := Except.ok.inj (h1.symm.trans h)
      exact h2
    · rw [h] at h1
      exact (nomatch h1)
  refine ⟨hg', ?_⟩
  unfold cap at h
  split at h
  · split at h
    · exact (nomatch h)
    · rename_i m2 _
      split at h
      · exact (nomatch h)
      · rename_i hz
        obtain rfl := Except.ok.inj h
        simp only
        rw [List.sum_map_mul_right, List.map_id']
        by_cases h0 : m2.ws = []
        · rw [h0]
          simp only [List.sum_nil, zero_mul]
          exact List.sum_nonneg hm.2
        · have : m2.ws.sum ≠ 0 := fun hc => hz ⟨h0, hc⟩
          rw [mul_div_cancel₀ _ this]
  · obtain rfl := Except.ok.inj h
    exact le_refl _

theorem doExtract_mix {pr : Params K} {s s' : PState K V P} (h : doExtract pr s = .ok s') : s'.mix = s.mix := by
  unfold doExtract at h
  split at h
  · exact (nomatch h)
  · obtain rfl := Except.ok.inj h
    rfl

theorem cleanup_mass {pr : Params K} (hpr : OkParams pr) {env : Env K V P Z} (he : OkEnv env) {bp bm bc be : Bool}
    {s s' : PState K V P} (hs : Good s.mix) (h : cleanup env pr bp bm bc be s = .ok s') :
    s'.mix.ws.sum ≤ s.mix.ws.sum := by
  unfold cleanup at h
  split at h
  · exact (nomatch h)
  · rename_i m1 h1
    have k1 : Good m1 ∧ m1.ws.sum ≤ s.mix.ws.sum := by
      unfold optStep at h1
      split at h1
      · exact prune_mass hs h1
      · obtain rfl := Except.ok.inj h1
        exact ⟨hs, le_refl _⟩
    split at h
    · exact (nomatch h)
    · rename_i m2 h2
      have k2 : Good m2 ∧ m2.ws.sum = m1.ws.sum := by
        unfold optStep at h2
        split at h2
        · exact merge_mass hpr he k1.1 h2
        · obtain rfl := Except.ok.inj h2
          exact ⟨k1.1, rfl⟩
      split at h
      · exact (nomatch h)
      · rename_i m3 h3
        have k3 : Good m3 ∧ m3.ws.sum ≤ m2.ws.sum := by
          unfold optStep at h3
          split at h3
          · exact cap_mass he k2.1 h3
          · obtain rfl := Except.ok.inj h3
            exact ⟨k2.1, le_refl _⟩
        have : s'.mix = m3 := by
          split at h
          · exact doExtract_mix h
          · obtain rfl := Except.ok.inj h
            rfl
        rw [this]
        linarith [k1.2, k2.2, k3.2]

theorem correct_mass_le {pr : Params K} (hpr : OkParams pr) (f : Filt K V P Z)
    (hq : ∀ z s p, 0 ≤ (f.fcor z s p).2.1) (zs : List Z) {m m' : Mix K V P} (hm : Good m)
    (h : correct pr f zs m = .ok m') : m'.ws.sum ≤ pr.probMiss * m.ws.sum + zs.length := by
  obtain ⟨cs, rfl, hw⟩ := (good_iff m).1 hm
  by_cases hz : ∃ z ∈ zs, cs ≠ [] ∧ denom pr f cs z = 0
  · rw [correct_zeroDiv pr f cs zs hz] at h
    exact (nomatch h)
  · push Not at hz
    rw [correct_ofComps pr f cs zs (fun z hzm => by
      by_cases hn : cs = []
      · exact .inl hn
      · exact .inr (hz z hzm hn))] at h
    obtain rfl := Except.ok.inj h
    have h1 : ∀ (ys : List Z), ((ys.flatMap fun z => cs.map (corComp pr f (denom pr f cs z) z)).map fun c => c.1).sum ≤
        ys.length := by
      intro ys
      induction ys with
      | nil => simp
      | cons y ys ih =>
        rw [List.flatMap_cons, List.map_append, List.sum_append, List.length_cons, Nat.cast_add, Nat.cast_one]
        have : ((cs.map (corComp pr f (denom pr f cs y) y)).map fun c => c.1).sum ≤ 1 := by
          have h2 : ((cs.map (corComp pr f (denom pr f cs y) y)).map fun c => c.1) =
              (cs.map (rawW pr f y)).map fun w => w / denom pr f cs y := by
            simp [List.map_map, Function.comp_def, corComp]
          have h3 : 0 ≤ (cs.map (rawW pr f y)).sum := by
            apply List.sum_nonneg
            intro x hx
            obtain ⟨c, hc, rfl⟩ := List.mem_map.1 hx
            exact mul_nonneg (hq _ _ _) (mul_nonneg hpr.pd (hw c hc))
          have h4 : denom pr f cs y = clutter pr + (cs.map (rawW pr f y)).sum := rfl
          have h5 : (cs.map (rawW pr f y)).sum ≤ denom pr f cs y := by
            have := hpr.κ
            linarith
          rw [h2, show (fun w : K => w / denom pr f cs y) = fun w => w * (denom pr f cs y)⁻¹ from
            funext fun w => div_eq_mul_inv _ _, List.sum_map_mul_right, List.map_id', ← div_eq_mul_inv]
          exact div_le_one_of_le₀ h5 (h3.trans h5)
        linarith
    have h2 : ((cs.map fun c => (pr.probMiss * c.1, c.2)).map fun c => c.1).sum = pr.probMiss * (ofComps cs).ws.sum := by
      unfold ofComps
      rw [← List.sum_map_mul_left, List.map_map]
      rfl
    show ((_ ++ _ : List (K × V × P)).map fun c => c.1).sum ≤ _
    rw [List.map_append, List.sum_append, h2]
    have := h1 zs
    linarith

theorem step_bound {env : Env K V P Z} (he : OkEnv env) {pr : Params K} (hpr : OkParams pr)
    {s s' : PState K V P} (hs : Good s.mix) {o : Op K V P Z} (ho : OkOp o) (h : step env pr s o = .ok s') {N : K}
    (hN : s.mix.ws.sum ≤ N) : Good s'.mix ∧ s'.mix.ws.sum ≤ massBound pr N [o] := by
  have hg : Good s'.mix := by
    rcases step_good he hpr hs o ho with ⟨x, h1, h2⟩ | h1
    · obtain rfl := Except.ok.inj (h1.symm.trans h)
      exact h2
    · rw [h] at h1
      exact (nomatch h1)
  refine ⟨hg, ?_⟩
  cases o with
  | predict f b =>
    obtain rfl := Except.ok.inj h
    simp only [massBound]
    rw [(C28_predict_mass pr f b s.mix).1]
    have := mul_le_mul_of_nonneg_left hN hpr.ps
    linarith
  | correct f z =>
    simp only [step] at h
    split at h
    · exact (nomatch h)
    · rename_i m hm
      obtain rfl := Except.ok.inj h
      have h1 := correct_mass_le hpr f ho z hs hm
      have h2 := mul_le_mul_of_nonneg_left hN hpr.pm
      simp only [massBound]
      linarith
  | cleanup bp bm bc be => exact (cleanup_mass hpr he hs h).trans hN
  | extract =>
    simp only [massBound]
    rw [doExtract_mix h]
    exact hN

theorem massBound_append (pr : Params K) : ∀ (a b : List (Op K V P Z)) (N : K),
    massBound pr N (a ++ b) = massBound pr (massBound pr N a) b
  | [], b, N => rfl
  | .predict _ _ :: a, b, N => massBound_append pr a b _
  | .correct _ _ :: a, b, N => massBound_append pr a b _
  | .cleanup _ _ _ _ :: a, b, N => massBound_append pr a b _
  | .extract :: a, b, N => massBound_append pr a b _

theorem run_bound {env : Env K V P Z} (he : OkEnv env) {pr : Params K} (hpr : OkParams pr) :
    ∀ (ops : List (Op K V P Z)) (s s' : PState K V P) (N : K), (∀ o ∈ ops, OkOp o) → Good s.mix → s.mix.ws.sum ≤ N →
      run env pr s ops = .ok s' → Good s'.mix ∧ s'.mix.ws.sum ≤ massBound pr N ops
  | [], s, s', N, _, hg, hN, h => by
    obtain rfl := Except.ok.inj h
    exact ⟨hg, hN⟩
  | o :: os, s, s', N, ho, hg, hN, h => by
    obtain ⟨s1, h1, h2⟩ := run_cons env pr s o os h
    obtain ⟨g1, b1⟩ := step_bound he hpr hg (ho o List.mem_cons_self) h1 hN
    have := run_bound he hpr os s1 s' _ (fun x hx => ho x (List.mem_cons_of_mem _ hx)) g1 b1 h2
    rw [← massBound_append] at this
    exact this

/-- **C119.** After any sequence of well-formed calls on a new filter, the total weight (expected number of objects) is
at most what survival, births, missed detections and measurements allow. -/
theorem C119_bound {env : Env K V P Z} (he : OkEnv env) {pr : Params K} (hpr : OkParams pr)
    (ops : List (Op K V P Z)) (hops : ∀ o ∈ ops, OkOp o) (s : PState K V P)
    (h : run env pr init ops = .ok s) : 0 ≤ s.mix.ws.sum ∧ s.mix.ws.sum ≤ massBound pr 0 ops := by
  obtain ⟨h1, h2⟩ := run_bound he hpr ops init s 0 hops ⟨by simp [Aligned, init], by simp [init]⟩ (by simp [init]) h
  exact ⟨List.sum_nonneg h1.2, h2⟩

theorem round_le (w : K) (hw : 0 ≤ w) : (((pyRound w).toNat : ℕ) : K) ≤ 2 * w := by
  have h := (C33_round w).1
  by_cases h0 : pyRound w ≤ 0
  · rw [Int.toNat_of_nonpos h0]
    simp only [Nat.cast_zero]
    linarith
  · push Not at h0
    have h1 : (((pyRound w).toNat : ℕ) : K) = ((pyRound w : ℤ) : K) := by
      rw [← Int.cast_natCast, Int.toNat_of_nonneg h0.le]
    rw [h1]
    have h2 : (1 : K) ≤ ((pyRound w : ℤ) : K) := by exact_mod_cast h0
    have h3 := (abs_le.1 h).1
    linarith

/-- At most twice as many states are reported as objects are expected. -/
theorem reported_le (pr : Params K) {cs : List (K × V × P)} (hw : ∀ c ∈ cs, 0 ≤ c.1) :
    ((reported pr cs).1.length : K) ≤ 2 * mass cs := by
  unfold reported
  simp only
  refine le_trans ?_ (mul_le_mul_of_nonneg_left (mass_filter_le hw fun c => decide (pr.extractThreshold ≤ c.1)) zero_le_two)
  have : ∀ l : List (K × V × P), (∀ c ∈ l, 0 ≤ c.1) →
      ((l.flatMap fun c => List.replicate (pyRound c.1).toNat c.2.1).length : K) ≤ 2 * mass l := by
    intro l hl
    induction l with
    | nil => simp [mass]
    | cons c l ih =>
      have ih := ih fun x hx => hl x (List.mem_cons_of_mem _ hx)
      have h1 := round_le c.1 (hl c List.mem_cons_self)
      rw [List.flatMap_cons, List.length_append, List.length_replicate, Nat.cast_add]
      unfold mass at *
      rw [List.map_cons, List.sum_cons]
      linarith
  exact this _ fun c hc => hw c (List.mem_filter.1 hc).1

/-- One time step. -/
structure PhdRound (K V P Z : Type*) where
  fp : Filt K V P Z
  births : List (Mix K V P)
  fc : Filt K V P Z
  meas : List Z
  flags : Bool × Bool × Bool × Bool

/-- The calls of a time step: `predict`, `correct`, `cleanup`. -/
def PhdRound.ops (r : PhdRound K V P Z) : List (Op K V P Z) :=
  [.predict r.fp r.births, .correct r.fc r.meas, .cleanup r.flags.1 r.flags.2.1 r.flags.2.2.1 r.flags.2.2.2]

theorem rounds_bound {pr : Params K} (hpr : OkParams pr) (hlt : pr.probSurvive * pr.probMiss < 1) {b : K} {m : ℕ} :
    ∀ (rounds : List (PhdRound K V P Z)), (∀ r ∈ rounds, (r.births.map fun x => x.ws.sum).sum ≤ b ∧ r.meas.length ≤ m) →
      ∀ N, N * (1 - pr.probSurvive * pr.probMiss) ≤ pr.probMiss * b + m →
      massBound pr N (rounds.flatMap PhdRound.ops) * (1 - pr.probSurvive * pr.probMiss) ≤ pr.probMiss * b + m
  | [], _, N, hN => hN
  | r :: rs, hr, N, hN => by
    obtain ⟨h1, h2⟩ := hr r List.mem_cons_self
    rw [List.flatMap_cons, massBound_append]
    refine rounds_bound hpr hlt rs (fun x hx => hr x (List.mem_cons_of_mem _ hx)) _ ?_
    simp only [PhdRound.ops, massBound]
    have h3 : ((r.meas.length : ℕ) : K) ≤ m := by exact_mod_cast h2
    have h4 := mul_le_mul_of_nonneg_left h1 hpr.pm
    have h5 : pr.probMiss * (pr.probSurvive * N + (r.births.map fun x => x.ws.sum).sum) + r.meas.length ≤
        pr.probSurvive * pr.probMiss * N + (pr.probMiss * b + m) := by linarith
    have h6 : 0 ≤ pr.probSurvive * pr.probMiss := mul_nonneg hpr.ps hpr.pm
    have h7 := mul_le_mul_of_nonneg_right h5 (sub_nonneg.2 hlt.le)
    have h8 := mul_le_mul_of_nonneg_left hN h6
    refine h7.trans ?_
    have e : (pr.probSurvive * pr.probMiss * N + (pr.probMiss * b + m)) * (1 - pr.probSurvive * pr.probMiss) =
        pr.probSurvive * pr.probMiss * (N * (1 - pr.probSurvive * pr.probMiss)) +
          (pr.probMiss * b + m) * (1 - pr.probSurvive * pr.probMiss) := by ring
    rw [e]
    linarith

/-- **C119, for ever.** If an object is not certain to survive undetected (`p_S (1 - p_D) < 1`), and in every time
step the births weigh at most `b` and there are at most `m` measurements, then after any number of time steps the total
weight is at most `(p_M b + m) / (1 - p_S p_M)`, and no report ever made contains more than twice as many states. -/
theorem C119_steady {env : Env K V P Z} (he : OkEnv env) {pr : Params K} (hpr : OkParams pr)
    (hlt : pr.probSurvive * pr.probMiss < 1) {b : K} {m : ℕ} (hb : 0 ≤ b) (rounds : List (PhdRound K V P Z))
    (hops : ∀ r ∈ rounds, ∀ o ∈ r.ops, OkOp o)
    (hr : ∀ r ∈ rounds, (r.births.map fun x => x.ws.sum).sum ≤ b ∧ r.meas.length ≤ m) (s : PState K V P)
    (h : run env pr init (rounds.flatMap PhdRound.ops) = .ok s) :
    s.mix.ws.sum ≤ (pr.probMiss * b + m) / (1 - pr.probSurvive * pr.probMiss) ∧
    ∀ x ∈ s.states, (x.1.length : K) ≤ 2 * ((pr.probMiss * b + m) / (1 - pr.probSurvive * pr.probMiss)) := by
  have hpos : 0 < 1 - pr.probSurvive * pr.probMiss := sub_pos.2 hlt
  have hB : 0 ≤ pr.probMiss * b + m := add_nonneg (mul_nonneg hpr.pm hb) (Nat.cast_nonneg m)
  have key : ∀ (rounds : List (PhdRound K V P Z)) (s0 s : PState K V P), (∀ r ∈ rounds, ∀ o ∈ r.ops, OkOp o) →
      (∀ r ∈ rounds, (r.births.map fun x => x.ws.sum).sum ≤ b ∧ r.meas.length ≤ m) →
      Good s0.mix → s0.mix.ws.sum ≤ (pr.probMiss * b + m) / (1 - pr.probSurvive * pr.probMiss) →
      (∀ x ∈ s0.states, (x.1.length : K) ≤ 2 * ((pr.probMiss * b + m) / (1 - pr.probSurvive * pr.probMiss))) →
      run env pr s0 (rounds.flatMap PhdRound.ops) = .ok s →
      s.mix.ws.sum ≤ (pr.probMiss * b + m) / (1 - pr.probSurvive * pr.probMiss) ∧
      ∀ x ∈ s.states, (x.1.length : K) ≤ 2 * ((pr.probMiss * b + m) / (1 - pr.probSurvive * pr.probMiss)) := by
    intro rounds
    induction rounds with
    | nil =>
      intro s0 s _ _ _ h1 h2 h
      obtain rfl := Except.ok.inj h
      exact ⟨h1, h2⟩
    | cons r rs ih =>
      intro s0 s ho hr hg h1 h2 h
      have hor := ho r List.mem_cons_self
      rw [List.flatMap_cons] at h
      unfold PhdRound.ops at h
      rw [List.cons_append, List.cons_append, List.cons_append, List.nil_append] at h
      obtain ⟨s1, k1, h⟩ := run_cons env pr _ _ _ h
      obtain ⟨s2, k2, h⟩ := run_cons env pr _ _ _ h
      obtain ⟨s3, k3, h⟩ := run_cons env pr _ _ _ h
      have o1 := hor _ (show _ ∈ r.ops from List.mem_cons_self)
      have o2 := hor (.correct r.fc r.meas) (by simp [PhdRound.ops])
      have o3 := hor (.cleanup r.flags.1 r.flags.2.1 r.flags.2.2.1 r.flags.2.2.2) (by simp [PhdRound.ops])
      obtain ⟨g1, b1⟩ := step_bound he hpr hg o1 k1 h1
      obtain ⟨g2, b2⟩ := step_bound he hpr g1 o2 k2 b1
      obtain ⟨g3, b3⟩ := step_bound he hpr g2 o3 k3 b2
      have hb3 : s3.mix.ws.sum ≤ (pr.probMiss * b + m) / (1 - pr.probSurvive * pr.probMiss) := by
        refine b3.trans ?_
        rw [le_div_iff₀ hpos]
        have := rounds_bound hpr hlt [r] (fun x hx => by
          obtain rfl := List.mem_singleton.1 hx
          exact hr x List.mem_cons_self) ((pr.probMiss * b + m) / (1 - pr.probSurvive * pr.probMiss))
          (by rw [div_mul_cancel₀ _ hpos.ne'])
        simpa [PhdRound.ops, massBound] using this
      refine ih s3 s (fun x hx => ho x (List.mem_cons_of_mem _ hx)) (fun x hx => hr x (List.mem_cons_of_mem _ hx)) g3 hb3 ?_ h
      obtain ⟨_, f1, f1'⟩ := step_states he hpr hg o1 k1
      obtain ⟨_, f2, f2'⟩ := step_states he hpr g1 o2 k2
      obtain ⟨_, f3, f3'⟩ := step_states he hpr g2 o3 k3
      have e1 : s1.states = s0.states := f1 rfl
      have e2 : s2.states = s1.states := f2 rfl
      cases hx : Extracting (Op.cleanup r.flags.1 r.flags.2.1 r.flags.2.2.1 r.flags.2.2.2 : Op K V P Z) with
      | false =>
        rw [f3 hx, e2, e1]
        exact h2
      | true =>
        obtain ⟨cs, c1, c2⟩ := f3' hx
        rw [c2, e2, e1]
        intro x hxm
        rcases List.mem_append.1 hxm with hxm | hxm
        · exact h2 x hxm
        · obtain rfl := List.mem_singleton.1 hxm
          have hw : ∀ c ∈ cs, 0 ≤ c.1 := by
            intro c hc
            apply g3.2
            rw [c1]
            exact List.mem_map.2 ⟨c, hc, rfl⟩
          refine (reported_le pr hw).trans (mul_le_mul_of_nonneg_left ?_ zero_le_two)
          rw [c1] at hb3
          exact hb3
  exact key rounds init s hops hr ⟨by simp [Aligned, init], by simp [init]⟩
    (by simpa [init] using div_nonneg hB hpos.le) (by simp [init]) h

/-! ### Non-vacuity: three time steps of the one-dimensional filter over the rationals -/

/-- a time step with births of total weight 3/2 and the given measurements -/
def exPhdRound (zs : List ℚ) : PhdRound ℚ ℚ ℚ ℚ :=
  ⟨exFilt, [⟨[1, 1 / 2], [0, 5], [1, 1]⟩], exFilt, zs, (true, true, true, true)⟩

theorem exParams_ok : OkParams exParams :=
  ⟨by norm_num [exParams], by norm_num [exParams], by norm_num [exParams],
    by norm_num [clutter, exParams], by norm_num [exParams]⟩

theorem exPhdRound_ok (zs : List ℚ) : ∀ o ∈ (exPhdRound zs).ops, OkOp o := by
  intro o ho
  simp only [PhdRound.ops, exPhdRound, List.mem_cons, List.not_mem_nil, or_false] at ho
  rcases ho with rfl | rfl | rfl
  · intro b hb
    obtain rfl := List.mem_singleton.1 hb
    refine ⟨by simp [Aligned], ?_⟩
    simp
  · intro z s p
    simp only [exFilt]
    positivity
  · trivial

example : ∃ s, run exEnv exParams init
      (([[1, 7], [2], [3, 8]].map exPhdRound).flatMap PhdRound.ops) = .ok s ∧ s.states.length = 3 ∧
    s.mix.ws.sum ≤ (exParams.probMiss * (3 / 2) + (2 : ℕ)) / (1 - exParams.probSurvive * exParams.probMiss) := by
  have h : (run exEnv exParams init (([[1, 7], [2], [3, 8]].map exPhdRound).flatMap PhdRound.ops)).toOption.map
      (fun s => s.states.length) = some 3 := by decide +kernel
  cases hr : run exEnv exParams init (([[1, 7], [2], [3, 8]].map exPhdRound).flatMap PhdRound.ops) with
  | error e => rw [hr] at h; exact (nomatch h)
  | ok s =>
    rw [hr] at h
    refine ⟨s, rfl, Option.some.inj h, (C119_steady exEnv_ok exParams_ok (by norm_num [exParams]) (by norm_num)
      ([[1, 7], [2], [3, 8]].map exPhdRound) ?_ ?_ s hr).1⟩
    · intro r hr
      obtain ⟨zs, _, rfl⟩ := List.mem_map.1 hr
      exact exPhdRound_ok zs
    · intro r hr
      obtain ⟨zs, hz, rfl⟩ := List.mem_map.1 hr
      refine ⟨by norm_num [exPhdRound], ?_⟩
      simp only [List.mem_cons, List.not_mem_nil, or_false] at hz
      rcases hz with rfl | rfl | rfl <;> simp [exPhdRound]

end Gasur.Props
