import Verif.Proofs.Cphd

/-!
# Properties C36-C38, C64-C67: the cardinalized PHD filter
-/

set_option linter.unusedSectionVars false

namespace Gasur.Props

open Gasur.Phd Gasur.Spec Gasur.Cphd

variable {V P Z : Type*} [AddCommGroup V] [Module ℝ V] [AddCommGroup P] [Module ℝ P]

/-! ### C36 -/

/-- Parameters for which the cardinality recursion makes sense. -/
structure OkC (pr : Params ℝ) : Prop where
  ps0 : 0 < pr.probSurvive
  ps1 : pr.probSurvive < 1
  pd : 0 ≤ pr.probDetection
  pm : 0 ≤ pr.probMiss
  rate : 0 < pr.clutterRate
  den : 0 < pr.clutterDen
  thr : 0 ≤ pr.mergeThreshold

theorem OkC.ok {pr : Params ℝ} (h : OkC pr) : OkParams pr :=
  ⟨h.ps0.le, h.pd, h.pm, mul_nonneg h.rate.le h.den.le, h.thr⟩

/-- Well-formed calls: aligned birth terms with non-negative weights; non-negative likelihoods. -/
def OkCOp : Cphd.Op V P Z → Prop
  | .predict _ births => ∀ b ∈ births, Aligned b ∧ ∀ w ∈ b.ws, 0 ≤ w
  | .correct f _ => ∀ z s p, 0 ≤ (f.fcor z s p).2.1
  | _ => True

/-- The invariant. -/
def CInv (s : CState V P) : Prop := IsDist (maxCard s) s.card ∧ Good s.mix

theorem dist_maxCard {N : ℕ} {c : List ℝ} (h : IsDist N c) : IsDist (c.length - 1) c := by
  rw [h.length]; exact h

theorem extract_frame {argsort : List ℝ → List ℕ} {s s' : CState V P} (h : Cphd.extract argsort s = .ok s') :
    s'.mix = s.mix ∧ s'.card = s.card := by
  unfold Cphd.extract at h
  split at h
  · simp at h
  · simp only [Except.ok.injEq] at h
    rw [← h]
    exact ⟨rfl, rfl⟩

theorem correct_inv {esf : List ℝ → List ℝ} (he : IsEsf esf) {pr : Params ℝ} (hpr : OkC pr) {f : Filt ℝ V P Z}
    (hf : ∀ z s p, 0 ≤ (f.fcor z s p).2.1) {zs : List Z} {s s' : CState V P} (hs : CInv s)
    (h : Cphd.correct esf pr f zs s = .ok s') : CInv s' := by
  obtain ⟨hd, hg⟩ := hs
  obtain ⟨cs, hcs, hw⟩ := (good_iff s.mix).1 hg
  unfold Cphd.correct at h
  split at h
  · split at h
    · simp at h
    · rename_i cs' c' hc
      simp only [Except.ok.injEq] at h
      rw [hcs, comps_ofComps] at hc
      obtain ⟨h1, h2⟩ := card_after he hf hw hd hpr.pd hpr.pm hpr.den.le hc
      rw [← h]
      refine ⟨dist_maxCard h1, (good_iff _).2 ⟨cs', rfl, h2⟩⟩
  · simp at h

theorem predict_inv {pr : Params ℝ} (hpr : OkC pr) {f : Filt ℝ V P Z} {births : List (Mix ℝ V P)}
    (hb : ∀ b ∈ births, Aligned b ∧ ∀ w ∈ b.ws, 0 ≤ w) {s s' : CState V P} (hs : CInv s)
    (h : Cphd.predict pr f births s = .ok s') : CInv s' := by
  unfold Cphd.predict at h
  split at h
  · simp at h
  · split at h
    · simp at h
    · rename_i c hc
      simp only [Except.ok.injEq] at h
      rw [← h]
      exact ⟨dist_maxCard (cardPredict_dist hs.1.nonneg hc), good_predict hpr.ok f hb hs.2⟩

theorem liftE_ok {α : Type*} {r : Except PErr α} {a : α} : liftE r = .ok a ↔ r = .ok a := by
  cases r <;> simp [liftE]

theorem goodRes_ok {r : Except PErr (Mix ℝ V P)} (h : GoodRes r) {m : Mix ℝ V P} (hm : r = .ok m) : Good m := by
  rcases h with ⟨m', h1, h2⟩ | h
  · rw [h1] at hm
    simp only [Except.ok.injEq] at hm
    rw [← hm]
    exact h2
  · rw [h] at hm
    simp at hm

theorem cleanup_inv {env : Env ℝ V P Z} (henv : OkEnv env) {pr : Params ℝ} (hpr : OkC pr) {bp bm bc be : Bool}
    {s s' : CState V P} (hs : CInv s) (h : Cphd.cleanup env pr bp bm bc be s = .ok s') : CInv s' ∧ s'.card = s.card := by
  unfold Cphd.cleanup at h
  split at h
  · simp at h
  rename_i m1 h1
  split at h
  · simp at h
  rename_i m2 h2
  split at h
  · simp at h
  rename_i m3 h3
  rw [liftE_ok] at h1 h2 h3
  have g1 : Good m1 := by
    refine goodRes_ok ?_ h1
    unfold optStep
    cases bp
    · exact .inl ⟨_, rfl, hs.2⟩
    · obtain ⟨m', k1, k2, _⟩ := good_prune pr hs.2
      exact .inl ⟨m', k1, k2⟩
  have g2 : Good m2 := by
    refine goodRes_ok ?_ h2
    unfold optStep
    cases bm
    · exact .inl ⟨_, rfl, g1⟩
    · exact good_merge hpr.ok henv g1
  have g3 : Good m3 := by
    refine goodRes_ok ?_ h3
    unfold optStep
    cases bc
    · exact .inl ⟨_, rfl, g2⟩
    · exact good_cap pr henv g2
  split at h
  · obtain ⟨e1, e2⟩ := extract_frame h
    refine ⟨⟨?_, ?_⟩, e2⟩
    · unfold maxCard; rw [e2]; exact hs.1
    · rw [e1]; exact g3
  · simp only [Except.ok.injEq] at h
    rw [← h]
    exact ⟨⟨hs.1, g3⟩, rfl⟩

theorem step_inv {env : Env ℝ V P Z} (henv : OkEnv env) {esf : List ℝ → List ℝ} (he : IsEsf esf) {pr : Params ℝ}
    (hpr : OkC pr) {s s' : CState V P} (hs : CInv s) (o : Cphd.Op V P Z) (ho : OkCOp o)
    (h : Cphd.step env esf pr s o = .ok s') : CInv s' := by
  cases o with
  | predict f b => exact predict_inv hpr ho hs h
  | correct f z => exact correct_inv he hpr ho hs h
  | cleanup bp bm bc be => exact (cleanup_inv henv hpr hs h).1
  | extract =>
    obtain ⟨e1, e2⟩ := extract_frame h
    refine ⟨?_, ?_⟩
    · unfold maxCard; rw [e2]; exact hs.1
    · rw [e1]; exact hs.2
  | setMax n =>
    simp only [Cphd.step, Except.ok.injEq] at h
    rw [← h]
    exact ⟨dist_maxCard (zeroCard_dist n), hs.2⟩

theorem run_inv {env : Env ℝ V P Z} (henv : OkEnv env) {esf : List ℝ → List ℝ} (he : IsEsf esf) {pr : Params ℝ}
    (hpr : OkC pr) : ∀ (ops : List (Cphd.Op V P Z)) (s s' : CState V P), CInv s → (∀ o ∈ ops, OkCOp o) →
    Cphd.run env esf pr s ops = .ok s' → CInv s'
  | [], s, s', hs, _, h => by
    simp only [Cphd.run, Except.ok.injEq] at h
    rw [← h]; exact hs
  | o :: ops, s, s', hs, ho, h => by
    unfold Cphd.run at h
    split at h
    · simp at h
    · rename_i s1 h1
      exact run_inv henv he hpr ops s1 s' (step_inv henv he hpr hs o (ho o (by simp)) h1)
        (fun o' ho' => ho o' (by simp [ho'])) h

theorem init_inv (N : ℕ) : CInv (Cphd.init N : CState V P) :=
  ⟨dist_maxCard (zeroCard_dist N), by simp [Cphd.init, Good, Aligned]⟩

/-- The largest cardinality of the filter after a sequence of calls: the last one that was set. -/
def lastMax : ℕ → List (Cphd.Op V P Z) → ℕ
  | N, [] => N
  | _, .setMax n :: ops => lastMax n ops
  | N, _ :: ops => lastMax N ops

/-- **C36.** After any sequence of well-formed calls that runs through, starting from a new filter, the cardinality
distribution has `max_expected_card + 1` entries, none of them negative, with sum one (in particular there is no NaN:
a NaN is an error here). -/
theorem C36_distribution {env : Env ℝ V P Z} (henv : OkEnv env) {esf : List ℝ → List ℝ} (he : IsEsf esf) {pr : Params ℝ}
    (hpr : OkC pr) (N : ℕ) (ops : List (Cphd.Op V P Z)) (hops : ∀ o ∈ ops, OkCOp o) (s : CState V P)
    (h : Cphd.run env esf pr (Cphd.init N) ops = .ok s) : IsDist (lastMax N ops) s.card := by
  have hlen : ∀ (ops : List (Cphd.Op V P Z)) (N : ℕ) (s s' : CState V P), CInv s → (∀ o ∈ ops, OkCOp o) →
      s.card.length = N + 1 → Cphd.run env esf pr s ops = .ok s' → s'.card.length = lastMax N ops + 1 := by
    intro ops
    induction ops with
    | nil =>
      intro N s s' _ _ hl h
      simp only [Cphd.run, Except.ok.injEq] at h
      rw [← h]; exact hl
    | cons o ops ih =>
      intro N s s' hs ho hl h
      unfold Cphd.run at h
      split at h
      · simp at h
      rename_i s1 h1
      have hs1 := step_inv henv he hpr hs o (ho o (by simp)) h1
      have ho' : ∀ o' ∈ ops, OkCOp o' := fun o' ho' => ho o' (by simp [ho'])
      cases o with
      | predict f b =>
        refine ih N s1 s' hs1 ho' ?_ h
        have h1' := h1
        simp only [Cphd.step, Cphd.predict] at h1'
        split at h1'
        · simp at h1'
        · split at h1'
          · simp at h1'
          · rename_i c hc
            simp only [Except.ok.injEq] at h1'
            rw [← h1']
            rw [(cardPredict_dist hs.1.nonneg hc).length]
            unfold maxCard
            omega
      | correct f z =>
        refine ih N s1 s' hs1 ho' ?_ h
        have h1' := h1
        simp only [Cphd.step, Cphd.correct] at h1'
        split at h1'
        · split at h1'
          · simp at h1'
          · rename_i cs' c' hc
            simp only [Except.ok.injEq] at h1'
            obtain ⟨xs, W, d0, _, _, _, _, _, _, _, _, _, hcard, _⟩ := correctComps_ok he hc
            rw [← h1']
            show c'.length = _
            rw [hcard]
            simpa using hl
        · simp at h1'
      | cleanup bp bm bc be =>
        exact ih N s1 s' hs1 ho' (by rw [(cleanup_inv henv hpr hs h1).2]; exact hl) h
      | extract => exact ih N s1 s' hs1 ho' (by rw [(extract_frame h1).2]; exact hl) h
      | setMax n =>
        refine ih n s1 s' hs1 ho' ?_ h
        simp only [Cphd.step, Except.ok.injEq] at h1
        rw [← h1]
        exact (zeroCard_dist n).length
  have h1 := (run_inv henv he hpr ops _ _ (init_inv N) hops h).1
  have h2 := hlen ops N _ _ (init_inv N) hops (zeroCard_dist N).length h
  exact ⟨h2, h1.nonneg, h1.sum⟩

/-- **C36, prediction succeeds.** In such a state `predict` never yields NaN, if `max_expected_card` is at least one
and the sum of the first weights of the birth terms is positive. -/
theorem C36_predict_total {pr : Params ℝ} (hpr : OkC pr) (f : Filt ℝ V P Z) (births : List (Mix ℝ V P))
    (hb : ∀ b ∈ births, b.ws ≠ []) (hpos : 0 < (births.map fun b => b.ws.headD 0).sum) (s : CState V P) (N : ℕ)
    (hN : 1 ≤ N) (hs : IsDist N s.card) : ∃ s', Cphd.predict pr f births s = .ok s' := by
  have hfw : ∀ bs : List (Mix ℝ V P), (∀ b ∈ bs, b.ws ≠ []) →
      firstWeights bs = .ok (bs.map fun b => b.ws.headD 0) := by
    intro bs
    induction bs with
    | nil => intro _; rfl
    | cons b bs ih =>
      intro h
      unfold firstWeights
      have hb := h b (by simp)
      cases hbw : b.ws with
      | nil => exact absurd hbw hb
      | cons w ws =>
        rw [ih fun b' hb' => h b' (by simp [hb'])]
        simp [hbw]
  unfold Cphd.predict
  rw [hfw births hb]
  have hm : maxCard s = N := by unfold maxCard; rw [hs.length]; rfl
  obtain ⟨c, hc⟩ := cardPredict_total (ps := pr.probSurvive) (pd := probDeath pr) hN hs hpr.ps0
    (by unfold probDeath; linarith [hpr.ps1]) hpos
  rw [hm]
  dsimp only
  rw [hc]
  exact ⟨_, rfl⟩

/-- **C36, correction succeeds.** In such a state `correct` never yields NaN, if the intensity has positive mass. -/
theorem C36_correct_total {esf : List ℝ → List ℝ} (he : IsEsf esf) {pr : Params ℝ} (hpr : OkC pr) (f : Filt ℝ V P Z)
    (hf : ∀ z s p, 0 ≤ (f.fcor z s p).2.1) (zs : List Z) (s : CState V P) (N : ℕ) (hs : IsDist N s.card)
    (hal : Aligned s.mix) (hw : ∀ w ∈ s.mix.ws, 0 ≤ w) (hpos : 0 < s.mix.ws.sum) :
    ∃ s', Cphd.correct esf pr f zs s = .ok s' := by
  obtain ⟨cs, hcs, hw'⟩ := (good_iff s.mix).1 ⟨hal, hw⟩
  unfold Cphd.correct
  rw [if_pos ⟨hal.1, hal.2⟩, hcs, comps_ofComps]
  obtain ⟨⟨cs', c'⟩, hc⟩ := correctComps_total he hf (zs := zs) hw' hs hpr.pd hpr.den hpr.rate
    (by unfold probDeath; linarith [hpr.ps1]) (by rw [hcs] at hpos; exact hpos)
  rw [hc]
  exact ⟨_, rfl⟩

/-- **C36, the default value fails.** With the default `prob_survive = 1` every prediction makes the cardinality
distribution NaN (so the open interval in C36 is needed). -/
theorem C36_default_nan (pr : Params ℝ) (h1 : pr.probSurvive = 1) (f : Filt ℝ V P Z) (births : List (Mix ℝ V P))
    (hb : ∀ b ∈ births, b.ws ≠ []) (s : CState V P) : Cphd.predict pr f births s = .error .nan := by
  have hfw : ∀ bs : List (Mix ℝ V P), (∀ b ∈ bs, b.ws ≠ []) → ∃ l, firstWeights bs = .ok l := by
    intro bs
    induction bs with
    | nil => intro _; exact ⟨_, rfl⟩
    | cons b bs ih =>
      intro h
      unfold firstWeights
      have hb := h b (by simp)
      cases hbw : b.ws with
      | nil => exact absurd hbw hb
      | cons w ws =>
        obtain ⟨l, hl⟩ := ih fun b' hb' => h b' (by simp [hb'])
        rw [hl]
        exact ⟨_, rfl⟩
  obtain ⟨l, hl⟩ := hfw births hb
  unfold Cphd.predict
  rw [hl]
  have : cardPredict (maxCard s) pr.probSurvive (probDeath pr) l.sum s.card = .error .nan := by
    unfold cardPredict
    rw [if_pos]
    right; left
    unfold probDeath
    rw [h1]
    norm_num
  dsimp only
  rw [this]

/-! ### C37 -/

/-- **C37, partial.** If the missed-detection probability equals the death probability, then after `correct` the sum of
the weights is the mean of the cardinality distribution, for every mixture, distribution and measurement set.
*Missing:* the code uses the death probability where the missed-detection probability is meant; if they differ the
claim is false (`C37_iff`, `C37_refuted`). -/
theorem C37_mass_partial {esf : List ℝ → List ℝ} (he : IsEsf esf) (pr : Params ℝ) (f : Filt ℝ V P Z) (zs : List Z)
    (s s' : CState V P) (heq : pr.probMiss = 1 - pr.probSurvive) (h : Cphd.correct esf pr f zs s = .ok s') :
    s'.mix.ws.sum = cardMean s'.card := by
  unfold Cphd.correct at h
  split at h
  · split at h
    · simp at h
    · rename_i cs' c' hc
      simp only [Except.ok.injEq] at h
      obtain ⟨r, h1, _⟩ := mass_after he hc
      rw [← h]
      show (cs'.map fun c => c.1).sum = _
      rw [h1, heq]
      unfold probDeath
      ring
  · simp at h

/-- **C37, exactly when.** In a state with a distribution and non-negative weights the claim holds if and only if the
missed-detection probability equals the death probability or the filter is certain that there is no object. -/
theorem C37_iff {esf : List ℝ → List ℝ} (he : IsEsf esf) {pr : Params ℝ} (hpr : OkC pr) (f : Filt ℝ V P Z)
    (hf : ∀ z s p, 0 ≤ (f.fcor z s p).2.1) (zs : List Z) (s s' : CState V P) (N : ℕ) (hd : IsDist N s.card)
    (hal : Aligned s.mix) (hw : ∀ w ∈ s.mix.ws, 0 ≤ w) (h : Cphd.correct esf pr f zs s = .ok s') :
    s'.mix.ws.sum = cardMean s'.card ↔ pr.probMiss = 1 - pr.probSurvive ∨ ∀ n : ℕ, 1 ≤ n → (s.card[n]?).getD 0 = 0 := by
  obtain ⟨cs, hcs, hw'⟩ := (good_iff s.mix).1 ⟨hal, hw⟩
  unfold Cphd.correct at h
  rw [if_pos ⟨hal.1, hal.2⟩, hcs, comps_ofComps] at h
  split at h
  · simp at h
  · rename_i cs' c' hc
    simp only [Except.ok.injEq] at h
    obtain ⟨r, h1, h2⟩ := mass_after he hc
    obtain ⟨xs, W, d0, rfl, rfl, _, _, hl, hp, hW, hd0, hd0', _, _⟩ := correctComps_ok he hc
    have hx : ∀ x ∈ zs.map (xi (pr.probDetection / pr.clutterDen) f cs), 0 ≤ x := by
      intro x hx
      obtain ⟨z, _, rfl⟩ := List.mem_map.1 hx
      exact xi_nonneg (div_nonneg hpr.pd hpr.den.le) hf hw' z
    rw [← hd0] at h2
    have e1 : s'.mix.ws.sum = cardMean s'.card ↔ (pr.probMiss - probDeath pr) * r = 0 := by
      rw [← h]
      show (cs'.map fun c => c.1).sum = cardMean c' ↔ _
      rw [h1]
      constructor <;> intro h <;> linarith
    rw [e1, mul_eq_zero]
    refine or_congr ?_ ?_
    · unfold probDeath
      constructor <;> intro h <;> linarith
    · have hnn : ∀ n, 0 ≤ at' s.card n := at'_nonneg hd.nonneg
      rw [h2, div_eq_zero_iff, or_iff_left hd0', mul_eq_zero, or_iff_right hW.ne',
        Finset.sum_eq_zero_iff_of_nonneg fun n _ => mul_nonneg (U1_nonneg hl hp hW hx n) (hnn n)]
      constructor
      · intro hz n hn
        by_cases hlt : n < s.card.length
        · have := hz n (Finset.mem_range.2 hlt)
          rcases mul_eq_zero.1 this with h | h
          · exact absurd h (U1_pos hl hp hW hx hn).ne'
          · exact h
        · rw [List.getElem?_eq_none (by omega)]
          rfl
      · intro hz n _
        by_cases hn : 1 ≤ n
        · have : at' s.card n = 0 := hz n hn
          rw [this, mul_zero]
        · have : n = 0 := by omega
          subst this
          have : U1 pr.clutterRate (probDeath pr) (cs.map fun c => c.1).sum
              (zs.map (xi (pr.probDetection / pr.clutterDen) f cs)) 0 = 0 := by
            unfold U1
            refine Finset.sum_eq_zero fun j _ => ?_
            rw [Nat.descFactorial_of_lt (by omega)]
            simp
          rw [this, zero_mul]

/-- The elementary symmetric functions themselves. -/
noncomputable def exEsf (l : List ℝ) : List ℝ := (List.range (l.length + 1)).map fun j => (l : Multiset ℝ).esymm j

theorem exEsf_ok : IsEsf exEsf := by
  intro l
  refine ⟨by simp [exEsf], fun j hj => ?_⟩
  simp [exEsf, Nat.lt_succ_of_le hj]

/-- Survival probability 1/2, detection probability 9/10. -/
noncomputable def exCp : Params ℝ := ⟨1 / 2, 9 / 10, 1 / 10, 1, 1, 1 / 2, 1 / 100000, 4, 100⟩

theorem exCp_ok : OkC exCp := by
  constructor <;> norm_num [exCp]

/-- One component of weight one and a certain inner filter. -/
def exCF : Filt ℝ ℝ ℝ ℝ := ⟨fun m p => (m, p), fun _ m p => (m, 1, p)⟩

/-- A state: one component of weight 1/2; zero or one objects, each with probability 1/2. -/
noncomputable def exCS : CState ℝ ℝ := ⟨⟨[1 / 2], [0], [1]⟩, [1 / 2, 1 / 2], [], [], []⟩

theorem exCS_dist : IsDist 1 exCS.card := by
  refine ⟨rfl, ?_, ?_⟩
  · intro x hx
    simp only [exCS, List.mem_cons, List.not_mem_nil, or_false, or_self] at hx
    rw [hx]; norm_num
  · simp [exCS]; norm_num

/-- **C37 is false of this code**: already for one component with weight 1/2, the distribution (1/2, 1/2) and any
measurements, with survival probability 1/2 and detection probability 9/10, the sum of the weights after `correct` is not
the mean of the cardinality distribution. -/
theorem C37_refuted (zs : List ℝ) : exCS.mix.ws.sum = cardMean exCS.card ∧
    ∃ s', Cphd.correct exEsf exCp exCF zs exCS = .ok s' ∧ s'.mix.ws.sum ≠ cardMean s'.card := by
  have hal : Aligned exCS.mix := ⟨rfl, rfl⟩
  have hw : ∀ w ∈ exCS.mix.ws, 0 ≤ w := by
    intro w hw
    simp only [exCS, List.mem_cons, List.not_mem_nil, or_false] at hw
    rw [hw]; norm_num
  have hf : ∀ z s p, 0 ≤ (exCF.fcor z s p).2.1 := fun _ _ _ => zero_le_one
  refine ⟨by norm_num [exCS, cardMean], ?_⟩
  obtain ⟨s', hs'⟩ := C36_correct_total exEsf_ok exCp_ok exCF hf zs exCS 1 exCS_dist hal hw (by norm_num [exCS])
  refine ⟨s', hs', fun h => ?_⟩
  rcases (C37_iff exEsf_ok exCp_ok exCF hf zs exCS s' 1 exCS_dist hal hw hs').1 h with h | h
  · norm_num [exCp] at h
  · have := h 1 le_rfl
    norm_num [exCS] at this

/-! ### C38 -/

theorem surv_term {ps pd : ℝ} (hps : 0 < ps) (hpd : 0 < pd) (i j : ℕ) :
    Real.exp (logFact i + -logFact j + logFact (i - j) + j * Real.log ps + ((i - j : ℕ) : ℝ) * Real.log pd) =
      i.factorial / j.factorial * (i - j).factorial * ps ^ j * pd ^ (i - j) := by
  simp only [Real.exp_add]
  rw [Real.exp_neg, exp_logFact, exp_logFact, exp_logFact, exp_mul_log hps, exp_mul_log hpd]
  ring

theorem birth_term {b : ℝ} (hb : 0 < b) (k : ℕ) :
    Real.exp (b + (k : ℝ) * Real.log b + -logFact k) = Real.exp (2 * b) * poisson b k := by
  simp only [Real.exp_add]
  rw [Real.exp_neg, exp_logFact, exp_mul_log hb]
  unfold poisson
  have : Real.exp (2 * b) * Real.exp (-b) = Real.exp b := by
    rw [← Real.exp_add]; congr 1; ring
  rw [← this]
  ring

theorem firstWeights_ok {births : List (Mix ℝ V P)} {l : List ℝ} (h : firstWeights births = .ok l) :
    List.Forall₂ (fun (b : Mix ℝ V P) w => b.ws.head? = some w) births l := by
  induction births generalizing l with
  | nil =>
    simp only [firstWeights, Except.ok.injEq] at h
    rw [← h]; exact .nil
  | cons b bs ih =>
    unfold firstWeights at h
    split at h
    · simp at h
    · rename_i w ws hw
      split at h
      · simp at h
      · rename_i l' hl
        simp only [Except.ok.injEq] at h
        rw [← h]
        exact .cons (by rw [hw]; rfl) (ih hl)

/-- **C38, partial.** If the prior is concentrated on zero and one objects, `max_expected_card` is at least two and each
birth term has one Gaussian, then the predicted distribution is the thinned prior convolved with the Poisson
distribution of the births, normalised on `0 … max_expected_card`.
*Missing:* all other priors: the code multiplies by `(i - j)!` instead of dividing by it, leaves out the case that the
largest number of objects survives, and counts only the first Gaussian of a birth term (`C38_refuted`,
`C38_births_refuted`). -/
theorem C38_prediction_partial {pr : Params ℝ} (f : Filt ℝ V P Z) (births : List (Mix ℝ V P))
    (hb : ∀ b ∈ births, b.ws.length = 1) (s s' : CState V P) (N : ℕ) (hN : 2 ≤ N) (hs : IsDist N s.card)
    (hprior : ∀ n : ℕ, 2 ≤ n → (s.card[n]?).getD 0 = 0) (h : Cphd.predict pr f births s = .ok s') :
    IsNormalised N (predicted N pr.probSurvive (births.map fun b => b.ws.sum).sum fun i => (s.card[i]?).getD 0) s'.card := by
  unfold Cphd.predict at h
  split at h
  · simp at h
  rename_i l hl
  split at h
  · simp at h
  rename_i c hc
  simp only [Except.ok.injEq] at h
  have hbirth : l.sum = (births.map fun b => b.ws.sum).sum := by
    have hf := firstWeights_ok hl
    clear hl hc h
    induction hf with
    | nil => rfl
    | cons h1 h2 ih =>
      rename_i b w bs ws
      rw [List.sum_cons, List.map_cons, List.sum_cons, ih fun b' hb' => hb b' (by simp [hb'])]
      congr 1
      have hb1 := hb b (by simp)
      obtain ⟨w', hw'⟩ := List.length_eq_one_iff.1 hb1
      rw [hw'] at h1 ⊢
      simp only [List.head?_cons, Option.some.injEq] at h1
      simp [h1]
  have hm : maxCard s = N := by unfold maxCard; rw [hs.length]; rfl
  rw [hm] at hc
  unfold cardPredict at hc
  split at hc
  · simp at hc
  rename_i hpos
  push Not at hpos
  obtain ⟨hps, hpd, hbp⟩ := hpos
  have hsurv : ∀ j, j ≤ N → survPredict N pr.probSurvive (probDeath pr) s.card j =
      thinned N pr.probSurvive (fun i => (s.card[i]?).getD 0) j := by
    intro j hj
    unfold survPredict thinned
    split
    · refine Finset.sum_subset_zero_on_sdiff ?_ ?_ ?_
      · intro i hi
        rw [Finset.mem_Ico] at hi
        rw [Finset.mem_range]
        omega
      · intro i hi
        rw [Finset.mem_sdiff, Finset.mem_range, Finset.mem_Ico] at hi
        rw [Nat.choose_eq_zero_of_lt (by omega)]
        simp
      · intro i hi
        rw [Finset.mem_Ico] at hi
        rw [surv_term hps hpd]
        by_cases hi2 : 2 ≤ i
        · have : at' s.card i = 0 := hprior i hi2
          beta_reduce
          rw [this, hprior i hi2]
          simp
        · have hle : j ≤ i := hi.1
          have : i = 0 ∨ i = 1 := by omega
          have hj' : j = 0 ∨ j = 1 := by omega
          rcases this with rfl | rfl <;> rcases hj' with rfl | rfl
          · simp [at', probDeath]
          · omega
          · simp [at', probDeath]
          · simp [at', probDeath]
    · symm
      refine Finset.sum_eq_zero fun i hi => ?_
      rw [Finset.mem_range] at hi
      by_cases hiN : i < j
      · rw [Nat.choose_eq_zero_of_lt hiN]; simp
      · beta_reduce
        rw [hprior i (by omega)]; simp
  have hcdn : ∀ n, n ≤ N → cdnPredict N pr.probSurvive (probDeath pr) l.sum s.card n =
      Real.exp (2 * l.sum) * predicted N pr.probSurvive l.sum (fun i => (s.card[i]?).getD 0) n := by
    intro n hn
    unfold cdnPredict predicted
    rw [Finset.mul_sum]
    refine Finset.sum_congr rfl fun j hj => ?_
    rw [Finset.mem_range] at hj
    rw [hsurv j (by omega), birth_term hbp]
    ring
  obtain ⟨h1, h2⟩ := normalize_ok hc
  have hsum : ((List.range (N + 1)).map (cdnPredict N pr.probSurvive (probDeath pr) l.sum s.card)).sum =
      Real.exp (2 * l.sum) * ∑ k ∈ Finset.range (N + 1),
        predicted N pr.probSurvive l.sum (fun i => (s.card[i]?).getD 0) k := by
    rw [sum_map_range, Finset.mul_sum]
    refine Finset.sum_congr rfl fun n hn => ?_
    rw [Finset.mem_range] at hn
    exact hcdn n (by omega)
  rw [hsum] at h1 h2
  rw [← hbirth]
  refine ⟨fun h0 => h1 (by rw [h0, mul_zero]), ?_⟩
  rw [← h, List.map_map] at *
  rw [h2]
  apply List.map_congr_left
  intro n hn
  rw [List.mem_range] at hn
  simp only [Function.comp_apply]
  rw [hcdn n (by omega), mul_div_mul_left _ _ (Real.exp_ne_zero _)]

/-- A birth term with one Gaussian of weight one. -/
def exBirth : Mix ℝ ℝ ℝ := ⟨[1], [0], [1]⟩

/-- The hypotheses of `C38_prediction_partial` are met by a new filter. -/
example : IsDist 2 (Cphd.init 2 : CState ℝ ℝ).card ∧ (∀ n : ℕ, 2 ≤ n → ((Cphd.init 2 : CState ℝ ℝ).card[n]?).getD 0 = 0) ∧
    (∀ b ∈ [exBirth], b.ws.length = 1) ∧ ∃ s', Cphd.predict exCp exCF [exBirth] (Cphd.init 2) = .ok s' := by
  refine ⟨zeroCard_dist 2, ?_, by simp [exBirth], C36_predict_total exCp_ok exCF [exBirth] (by simp [exBirth])
    (by simp [exBirth]) _ 2 (by norm_num) (zeroCard_dist 2)⟩
  intro n hn
  simp only [Cphd.init, zeroCard]
  cases n with
  | zero => omega
  | succ n =>
    rw [List.getElem?_cons_succ, List.getElem?_replicate]
    split <;> rfl

theorem ratio_of_normalised {N : ℕ} {u : ℕ → ℝ} {c : List ℝ} (h : IsNormalised N u c) (hN : 1 ≤ N) :
    at' c 1 * u 0 = at' c 0 * u 1 := by
  obtain ⟨_, h2⟩ := h
  rw [h2, at'_map_range _ _ (by omega), at'_map_range _ _ (by omega)]
  ring

theorem predict_ratio {pr : Params ℝ} {f : Filt ℝ V P Z} {births : List (Mix ℝ V P)} {s s' : CState V P} {N : ℕ}
    (hN : 1 ≤ N) (hs : IsDist N s.card) {l : List ℝ} (hl : firstWeights births = .ok l)
    (h : Cphd.predict pr f births s = .ok s') :
    at' s'.card 1 * cdnPredict N pr.probSurvive (probDeath pr) l.sum s.card 0 =
      at' s'.card 0 * cdnPredict N pr.probSurvive (probDeath pr) l.sum s.card 1 ∧
    IsDist N s'.card := by
  unfold Cphd.predict at h
  rw [hl] at h
  dsimp only at h
  split at h
  · simp at h
  rename_i c hc
  simp only [Except.ok.injEq] at h
  have hm : maxCard s = N := by unfold maxCard; rw [hs.length]; rfl
  rw [hm] at hc
  have hdist := cardPredict_dist hs.nonneg hc
  unfold cardPredict at hc
  split at hc
  · simp at hc
  obtain ⟨_, h2⟩ := normalize_ok hc
  rw [← h]
  refine ⟨?_, hdist⟩
  show at' c 1 * _ = at' c 0 * _
  rw [h2, List.map_map, at'_map_range _ _ (by omega), at'_map_range _ _ (by omega)]
  simp only [Function.comp_apply]
  ring

/-- **C38 is false of this code (1)**: with the prior that is certain of two objects, survival probability 1/2 and
expected number of births 1 the predicted distribution is not the thinned prior convolved with the births. -/
theorem C38_refuted : ∃ (s s' : CState ℝ ℝ), IsDist 3 s.card ∧ s.card = [0, 0, 1, 0] ∧
    Cphd.predict exCp exCF [exBirth] s = .ok s' ∧
    ¬ IsNormalised 3 (predicted 3 exCp.probSurvive 1 fun i => (s.card[i]?).getD 0) s'.card := by
  have hd : IsDist 3 ([0, 0, 1, 0] : List ℝ) := by
    refine ⟨rfl, ?_, by norm_num⟩
    intro x hx
    simp only [List.mem_cons, List.not_mem_nil, or_false] at hx
    rcases hx with rfl | rfl | rfl | rfl <;> norm_num
  obtain ⟨s', hs'⟩ := C36_predict_total exCp_ok exCF [exBirth] (by simp [exBirth]) (by simp [exBirth])
    ⟨⟨[], [], []⟩, [0, 0, 1, 0], [], [], []⟩ 3 (by norm_num) hd
  refine ⟨_, s', hd, rfl, hs', fun h => ?_⟩
  have h1 := ratio_of_normalised h (by norm_num)
  obtain ⟨h2, hd'⟩ := predict_ratio (by norm_num) hd (l := [1]) rfl hs'
  have e0 : predicted 3 exCp.probSurvive 1 (fun i => (([0, 0, 1, 0] : List ℝ)[i]?).getD 0) 0 = Real.exp (-1) * (1 / 4) := by
    simp [predicted, thinned, poisson, Finset.sum_range_succ, exCp]
    ring
  have e1 : predicted 3 exCp.probSurvive 1 (fun i => (([0, 0, 1, 0] : List ℝ)[i]?).getD 0) 1 = Real.exp (-1) * (3 / 4) := by
    simp [predicted, thinned, poisson, Finset.sum_range_succ, exCp]
    ring
  have s0 : survPredict 3 exCp.probSurvive (probDeath exCp) [0, 0, 1, 0] 0 = 1 := by
    unfold survPredict
    rw [if_pos (by norm_num)]
    have : ∀ i, Real.exp (logFact i + -logFact 0 + logFact (i - 0) + (0 : ℕ) * Real.log exCp.probSurvive +
        ((i - 0 : ℕ) : ℝ) * Real.log (probDeath exCp)) = _ :=
      fun i => surv_term (by norm_num [exCp]) (by norm_num [exCp, probDeath]) i 0
    rw [Finset.sum_congr rfl fun i _ => by rw [this i]]
    simp [Finset.sum_Ico_succ_top, Finset.sum_range_succ, at', exCp, probDeath, Nat.factorial]
    norm_num
  have s1 : survPredict 3 exCp.probSurvive (probDeath exCp) [0, 0, 1, 0] 1 = 1 / 2 := by
    unfold survPredict
    rw [if_pos (by norm_num)]
    have : ∀ i, Real.exp (logFact i + -logFact 1 + logFact (i - 1) + (1 : ℕ) * Real.log exCp.probSurvive +
        ((i - 1 : ℕ) : ℝ) * Real.log (probDeath exCp)) = _ :=
      fun i => surv_term (by norm_num [exCp]) (by norm_num [exCp, probDeath]) i 1
    rw [Finset.sum_congr rfl fun i _ => by rw [this i]]
    simp [Finset.sum_Ico_succ_top, at', exCp, probDeath, Nat.factorial]
    norm_num
  have c0 : cdnPredict 3 exCp.probSurvive (probDeath exCp) ([1] : List ℝ).sum [0, 0, 1, 0] 0 = Real.exp 2 * Real.exp (-1) := by
    unfold cdnPredict
    rw [Finset.sum_range_one, s0, birth_term (by norm_num)]
    simp [poisson]
  have c1 : cdnPredict 3 exCp.probSurvive (probDeath exCp) ([1] : List ℝ).sum [0, 0, 1, 0] 1 =
      Real.exp 2 * Real.exp (-1) * (3 / 2) := by
    unfold cdnPredict
    rw [Finset.sum_range_succ, Finset.sum_range_one, s0, s1, birth_term (by norm_num), birth_term (by norm_num)]
    simp [poisson]
    ring
  rw [c0, c1] at h2
  rw [e0, e1] at h1
  have hE := Real.exp_pos (-1)
  have hE2 := Real.exp_pos 2
  have k1 : at' s'.card 1 = at' s'.card 0 * (3 / 2) := by
    have : Real.exp 2 * Real.exp (-1) ≠ 0 := by positivity
    have h3 : (at' s'.card 1 - at' s'.card 0 * (3 / 2)) * (Real.exp 2 * Real.exp (-1)) = 0 := by linarith
    rcases mul_eq_zero.1 h3 with h | h
    · linarith
    · exact absurd h this
  have k2 : at' s'.card 1 = at' s'.card 0 * 3 := by
    have h3 : (at' s'.card 1 - at' s'.card 0 * 3) * (Real.exp (-1)) = 0 := by linarith
    rcases mul_eq_zero.1 h3 with h | h
    · linarith
    · exact absurd h hE.ne'
  have k0 : at' s'.card 0 = 0 := by linarith
  -- but the entry for zero objects is positive
  obtain ⟨c', hc', hce⟩ : ∃ c', cardPredict 3 exCp.probSurvive (probDeath exCp) ([1] : List ℝ).sum [0, 0, 1, 0] = .ok c' ∧
      s'.card = c' := by
    unfold Cphd.predict at hs'
    have : firstWeights [exBirth] = .ok [1] := rfl
    rw [this] at hs'
    dsimp only at hs'
    split at hs'
    · simp at hs'
    · rename_i c hc
      simp only [Except.ok.injEq] at hs'
      exact ⟨c, hc, by rw [← hs']⟩
  unfold cardPredict at hc'
  split at hc'
  · simp at hc'
  obtain ⟨hne, h4⟩ := normalize_ok hc'
  rw [hce, h4, List.map_map, at'_map_range _ _ (by norm_num)] at k0
  simp only [Function.comp_apply] at k0
  rw [div_eq_zero_iff, c0] at k0
  rcases k0 with h | h
  · exact absurd h (by positivity)
  · exact hne h

end Gasur.Props
