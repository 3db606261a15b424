import Verif.Props.CphdMore

/-!
# Property C113: the histories of the cardinalized PHD filter
-/

set_option linter.unusedSectionVars false

namespace Gasur.Props

open Gasur.Phd Gasur.Spec Gasur.Cphd

variable {V P Z : Type*} [AddCommGroup V] [Module ℝ V] [AddCommGroup P] [Module ℝ P]

/-- The calls that extract states: `extract_states`, and `cleanup` with `enable_extract`. -/
def CExtracting : Cphd.Op V P Z → Bool
  | .extract => true
  | .cleanup _ _ _ be => be
  | _ => false

/-- The calls that correct. -/
def CCorrecting : Cphd.Op V P Z → Bool
  | .correct _ _ => true
  | _ => false

/-- What an extraction reports on the components `cs` if `card` is the cardinality distribution: means, covariances and
numbers of agents of the heaviest components (in the order of their weights), up to the most probable number of objects, as
long as the weights round to at least one. -/
def IsReport (card : List ℝ) (cs : List (ℝ × V × P)) (means : List V) (covs : List P) (agents : List ℤ) : Prop :=
  ∃ (srt : List (ℝ × V × P)) (k n : ℕ), srt.Perm cs ∧ srt.Pairwise (fun a b => b.1 ≤ a.1) ∧ IsMode card n ∧ k ≤ srt.length ∧
    means = (srt.take k).map (fun c => c.2.1) ∧ covs = (srt.take k).map (fun c => c.2.2) ∧
    agents = (srt.take k).map (fun c => pyRound c.1) ∧
    (∀ c ∈ srt.take k, 1 ≤ pyRound c.1) ∧
    (∀ i < k, ((srt.take i).map fun c => pyRound c.1).sum < n) ∧
    (k = srt.length ∨ n ≤ ((srt.take k).map fun c => pyRound c.1).sum ∨ ∃ c, srt[k]? = some c ∧ pyRound c.1 ≤ 0)

theorem extract_report {argsort : List ℝ → List ℕ} (ha : ∀ ws, IsArgsort ws (argsort ws)) {s s' : CState V P}
    (hs : CInv s) (h : Cphd.extract argsort s = .ok s') :
    s'.hist = s.hist ∧ ∃ (cs : List (ℝ × V × P)) (e : List V × List P), s'.mix = ofComps cs ∧
      s'.states = s.states ++ [e] ∧ IsReport s'.card cs e.1 e.2 s'.agents := by
  obtain ⟨cs, hc, _⟩ := (good_iff s.mix).1 hs.2
  obtain ⟨e1, e2⟩ := extract_frame h
  have hne : s.card ≠ [] := by
    intro h0
    have := hs.1.length
    rw [h0] at this
    simp at this
  obtain ⟨srt, k, n, s1, h1, p1, p2, p3, p4, p5, p6, p7, p8, p9⟩ := C65_extract ha cs s hc hne
  rw [h] at h1
  obtain rfl := Except.ok.inj h1
  refine ⟨?_, cs, _, e1.trans hc, p5, srt, k, n, p1, p2, by rw [e2]; exact p3, p4, rfl, rfl, p6, p7, p8, p9⟩
  unfold Cphd.extract at h
  split at h
  · exact (nomatch h)
  · obtain rfl := Except.ok.inj h
    rfl

/-- One call: what it does to the histories. -/
theorem cstep_history {env : Env ℝ V P Z} (henv : OkEnv env) {esf : List ℝ → List ℝ} (he : IsEsf esf) {pr : Params ℝ}
    (hpr : OkC pr) {s s' : CState V P} (hs : CInv s) {o : Cphd.Op V P Z} (ho : OkCOp o)
    (h : Cphd.step env esf pr s o = .ok s') :
    (CExtracting o = false → s'.states = s.states ∧ s'.agents = s.agents) ∧
    (CExtracting o = true → ∃ (cs : List (ℝ × V × P)) (e : List V × List P), s'.mix = ofComps cs ∧
      s'.states = s.states ++ [e] ∧ IsReport s'.card cs e.1 e.2 s'.agents) ∧
    (CCorrecting o = false → s'.hist = s.hist) ∧
    (CCorrecting o = true → ∃ (n : ℕ) (σ : ℝ), s'.hist = s.hist ++ [(n, σ)] ∧ IsMode s'.card n) := by
  have hne : s.card ≠ [] := by
    intro h0
    have := hs.1.length
    rw [h0] at this
    simp at this
  cases o with
  | predict f b =>
    unfold Cphd.step Cphd.predict at h
    dsimp only at h
    split at h
    · exact (nomatch h)
    split at h
    · exact (nomatch h)
    obtain rfl := Except.ok.inj h
    exact ⟨fun _ => ⟨rfl, rfl⟩, fun hc => (nomatch hc), fun _ => rfl, fun hc => (nomatch hc)⟩
  | correct f z =>
    refine ⟨fun _ => ?_, fun hc => (nomatch hc), fun hc => (nomatch hc), fun _ => C66_history_partial he pr f z s s' hne h⟩
    unfold Cphd.step Cphd.correct at h
    dsimp only at h
    split at h
    · split at h
      · exact (nomatch h)
      · obtain rfl := Except.ok.inj h
        exact ⟨rfl, rfl⟩
    · exact (nomatch h)
  | extract =>
    obtain ⟨h1, h2⟩ := extract_report henv.argsort hs h
    exact ⟨fun hc => (nomatch hc), fun _ => h2, fun _ => h1, fun hc => (nomatch hc)⟩
  | setMax n =>
    obtain rfl := Except.ok.inj h
    exact ⟨fun _ => ⟨rfl, rfl⟩, fun hc => (nomatch hc), fun _ => rfl, fun hc => (nomatch hc)⟩
  | cleanup bp bm bc be =>
    have hinv := (cleanup_inv henv hpr hs h)
    unfold Cphd.step Cphd.cleanup at h
    dsimp only at h
    split at h
    · exact (nomatch h)
    split at h
    · exact (nomatch h)
    split at h
    · exact (nomatch h)
    rename_i m3 _
    cases be with
    | false =>
      obtain rfl := Except.ok.inj h
      exact ⟨fun _ => ⟨rfl, rfl⟩, fun hc => (nomatch hc), fun _ => rfl, fun hc => (nomatch hc)⟩
    | true =>
      rw [if_pos rfl] at h
      obtain ⟨e1, e2⟩ := extract_frame h
      have h3 : CInv ({ s with mix := m3 } : CState V P) := ⟨hs.1, by
        have := hinv.1.2
        rw [e1] at this
        exact this⟩
      obtain ⟨h1, h2⟩ := extract_report henv.argsort h3 h
      exact ⟨fun hc => (nomatch hc), fun _ => h2, fun _ => h1, fun hc => (nomatch hc)⟩

theorem crun_cons (env : Env ℝ V P Z) (esf : List ℝ → List ℝ) (pr : Params ℝ) (s : CState V P) (o : Cphd.Op V P Z)
    (os : List (Cphd.Op V P Z)) {t : CState V P} (h : Cphd.run env esf pr s (o :: os) = .ok t) :
    ∃ s', Cphd.step env esf pr s o = .ok s' ∧ Cphd.run env esf pr s' os = .ok t := by
  unfold Cphd.run at h
  split at h
  · exact (nomatch h)
  · rename_i s' hs
    exact ⟨s', hs, h⟩

theorem crun_split (env : Env ℝ V P Z) (esf : List ℝ → List ℝ) (pr : Params ℝ) : ∀ (xs ys : List (Cphd.Op V P Z))
    (s t : CState V P), Cphd.run env esf pr s (xs ++ ys) = .ok t →
    ∃ s', Cphd.run env esf pr s xs = .ok s' ∧ Cphd.run env esf pr s' ys = .ok t
  | [], _, s, _, h => ⟨s, rfl, h⟩
  | x :: xs, ys, s, t, h => by
    obtain ⟨s1, h1, h2⟩ := crun_cons env esf pr s x (xs ++ ys) h
    obtain ⟨s2, h3, h4⟩ := crun_split env esf pr xs ys s1 t h2
    refine ⟨s2, ?_, h4⟩
    unfold Cphd.run
    rw [h1]
    exact h3

theorem crun_join (env : Env ℝ V P Z) (esf : List ℝ → List ℝ) (pr : Params ℝ) : ∀ (xs ys : List (Cphd.Op V P Z))
    (s s' t : CState V P), Cphd.run env esf pr s xs = .ok s' → Cphd.run env esf pr s' ys = .ok t →
    Cphd.run env esf pr s (xs ++ ys) = .ok t
  | [], _, s, _, _, h, h' => by obtain rfl := Except.ok.inj h; exact h'
  | x :: xs, ys, s, s', t, h, h' => by
    obtain ⟨s1, h1, h2⟩ := crun_cons env esf pr s x xs h
    show Cphd.run env esf pr s (x :: (xs ++ ys)) = _
    unfold Cphd.run
    rw [h1]
    exact crun_join env esf pr xs ys s1 s' t h2 h'

/-- A sequence of calls only appends to the histories: one entry for each extracting call, one for each correction. -/
theorem crun_history {env : Env ℝ V P Z} (henv : OkEnv env) {esf : List ℝ → List ℝ} (he : IsEsf esf) {pr : Params ℝ}
    (hpr : OkC pr) : ∀ (ops : List (Cphd.Op V P Z)) (s s' : CState V P), CInv s → (∀ o ∈ ops, OkCOp o) →
    Cphd.run env esf pr s ops = .ok s' →
    (∃ new, s'.states = s.states ++ new ∧ new.length = ops.countP CExtracting) ∧
    (∃ new, s'.hist = s.hist ++ new ∧ new.length = ops.countP CCorrecting) ∧
    (ops.countP CExtracting = 0 → s'.agents = s.agents)
  | [], s, s', _, _, h => by
    obtain rfl := Except.ok.inj h
    exact ⟨⟨[], by simp, rfl⟩, ⟨[], by simp, rfl⟩, fun _ => rfl⟩
  | o :: ops, s, s', hs, ho, h => by
    obtain ⟨s1, h1, h2⟩ := crun_cons env esf pr s o ops h
    have hi := step_inv henv he hpr hs o (ho o List.mem_cons_self) h1
    obtain ⟨c1, c2, c3, c4⟩ := cstep_history henv he hpr hs (ho o List.mem_cons_self) h1
    obtain ⟨⟨n1, a1, a2⟩, ⟨n2, b1, b2⟩, hag⟩ := crun_history henv he hpr ops s1 s' hi
      (fun o' ho' => ho o' (List.mem_cons_of_mem _ ho')) h2
    refine ⟨?_, ?_, ?_⟩
    · cases hx : CExtracting o with
      | false => exact ⟨n1, by rw [a1, (c1 hx).1], by rw [a2, List.countP_cons_of_neg (by simp [hx])]⟩
      | true =>
        obtain ⟨cs, e, _, e2, _⟩ := c2 hx
        exact ⟨e :: n1, by rw [a1, e2]; simp, by rw [List.countP_cons_of_pos hx, List.length_cons, a2]⟩
    · cases hx : CCorrecting o with
      | false => exact ⟨n2, by rw [b1, c3 hx], by rw [b2, List.countP_cons_of_neg (by simp [hx])]⟩
      | true =>
        obtain ⟨n, σ, e2, _⟩ := c4 hx
        exact ⟨(n, σ) :: n2, by rw [b1, e2]; simp, by rw [List.countP_cons_of_pos hx, List.length_cons, b2]⟩
    · intro h0
      rw [List.countP_cons] at h0
      have hx : CExtracting o = false := by
        by_contra hx
        simp only [Bool.not_eq_false] at hx
        simp [hx] at h0
      rw [hag (by omega), (c1 hx).2]

/-- **C113.** For every sequence of well-formed calls on a new CPHD filter that raises no exception and yields no NaN:
* the history of extracted states has exactly one entry for each extracting call, in the order of the calls; the entry made by
  a call is the report on the mixture and the cardinality distribution that the filter held right after that call, whatever
  was called later;
* `agents_per_state` belongs to the last extraction;
* the cardinality history has exactly one entry for each correction, in the order of the calls; it starts with the most
  probable number of objects right after that correction (the second component is the subject of C66). -/
theorem C113_cphd_history {env : Env ℝ V P Z} (henv : OkEnv env) {esf : List ℝ → List ℝ} (he : IsEsf esf) {pr : Params ℝ}
    (hpr : OkC pr) (N : ℕ) (ops : List (Cphd.Op V P Z)) (hops : ∀ o ∈ ops, OkCOp o) {s : CState V P}
    (hrun : Cphd.run env esf pr (Cphd.init N) ops = .ok s) :
    s.states.length = ops.countP CExtracting ∧ s.hist.length = ops.countP CCorrecting ∧
    ∀ (pre post : List (Cphd.Op V P Z)) (o : Cphd.Op V P Z), ops = pre ++ o :: post →
      ∃ s1 : CState V P, Cphd.run env esf pr (Cphd.init N) (pre ++ [o]) = .ok s1 ∧
        (CExtracting o = true → ∃ (cs : List (ℝ × V × P)) (means : List V) (covs : List P) (agents : List ℤ),
          s1.mix = ofComps cs ∧ IsReport s1.card cs means covs agents ∧
          s.states[pre.countP CExtracting]? = some (means, covs) ∧
          (post.countP CExtracting = 0 → s.agents = agents)) ∧
        (CCorrecting o = true → ∃ (n : ℕ) (σ : ℝ), IsMode s1.card n ∧
          s.hist[pre.countP CCorrecting]? = some (n, σ)) := by
  obtain ⟨⟨n1, a1, a2⟩, ⟨n2, b1, b2⟩, _⟩ := crun_history henv he hpr ops _ s (init_inv N) hops hrun
  refine ⟨by rw [a1, ← a2]; simp [Cphd.init], by rw [b1, ← b2]; simp [Cphd.init], ?_⟩
  intro pre post o hsplit
  subst hsplit
  obtain ⟨s0, h0, h1⟩ := crun_split env esf pr pre (o :: post) _ s hrun
  obtain ⟨s1, h2, h3⟩ := crun_cons env esf pr s0 o post h1
  have hpre : ∀ o' ∈ pre, OkCOp o' := fun o' ho' => hops o' (by simp [ho'])
  have ho : OkCOp o := hops o (by simp)
  have hpost : ∀ o' ∈ post, OkCOp o' := fun o' ho' => hops o' (by simp [ho'])
  have i0 := run_inv henv he hpr pre _ _ (init_inv N) hpre h0
  have i1 := step_inv henv he hpr i0 o ho h2
  obtain ⟨⟨m1, p1, p2⟩, ⟨m2, q1, q2⟩, _⟩ := crun_history henv he hpr pre _ s0 (init_inv N) hpre h0
  obtain ⟨⟨m1', p1', p2'⟩, ⟨m2', q1', q2'⟩, hag⟩ := crun_history henv he hpr post s1 s i1 hpost h3
  obtain ⟨c1, c2, c3, c4⟩ := cstep_history henv he hpr i0 ho h2
  have l1 : s0.states.length = pre.countP CExtracting := by rw [p1, ← p2]; simp [Cphd.init]
  have l2 : s0.hist.length = pre.countP CCorrecting := by rw [q1, ← q2]; simp [Cphd.init]
  refine ⟨s1, crun_join env esf pr pre [o] _ s0 s1 h0 (by unfold Cphd.run; rw [h2]; rfl), ?_, ?_⟩
  · intro hx
    obtain ⟨cs, e, e1, e2, e3⟩ := c2 hx
    refine ⟨cs, e.1, e.2, s1.agents, e1, e3, ?_, hag⟩
    rw [p1', e2, ← l1]
    simp
  · intro hx
    obtain ⟨n, σ, e1, e2⟩ := c4 hx
    refine ⟨n, σ, e2, ?_⟩
    rw [q1', e1, ← l2]
    simp

/-- A run that meets the conditions of C113: prediction with a birth, correction with a measurement, extraction. -/
theorem cphdExRun : ∃ (env : Env ℝ ℝ ℝ ℝ) (s : CState ℝ ℝ), OkEnv env ∧ Cphd.run env exEsf exCp (Cphd.init 2)
    [.predict exCF [exBirth], .correct exCF [0], .extract] = .ok s ∧ s.states.length = 1 ∧ s.hist.length = 1 := by
  obtain ⟨argsort, ha⟩ := argsort_exists
  have henv : OkEnv (⟨fun _ _ => 0, argsort⟩ : Env ℝ ℝ ℝ ℝ) := ⟨fun _ => rfl, ha⟩
  obtain ⟨s1, h1⟩ := C36_predict_total exCp_ok exCF [exBirth] (by simp [exBirth]) (by simp [exBirth]) (Cphd.init 2) 2 (by norm_num)
    (zeroCard_dist 2)
  have i1 := predict_inv exCp_ok (by simp [exBirth, Aligned]) (init_inv 2) h1
  have hm : s1.mix.ws = [1] := by
    unfold Cphd.predict at h1
    split at h1
    · exact (nomatch h1)
    split at h1
    · exact (nomatch h1)
    obtain rfl := Except.ok.inj h1
    simp [Phd.predict, Cphd.init, exBirth, extend, predictDensity]
  obtain ⟨s2, h2⟩ := C36_correct_total exEsf_ok exCp_ok exCF (by intro z s p; simp [exCF]) [0] s1 _ i1.1 i1.2.1
    (by rw [hm]; simp) (by rw [hm]; simp)
  have i2 := correct_inv exEsf_ok exCp_ok (by intro z s p; simp [exCF]) i1 h2
  obtain ⟨cs, hcs, _⟩ := (good_iff s2.mix).1 i2.2
  obtain ⟨_, _, _, s3, h3, _⟩ := C65_extract ha cs s2 hcs (by
    intro h0
    have := i2.1.length
    rw [h0] at this
    simp at this)
  have hr : Cphd.run (⟨fun _ _ => 0, argsort⟩ : Env ℝ ℝ ℝ ℝ) exEsf exCp (Cphd.init 2)
      [.predict exCF [exBirth], .correct exCF [0], .extract] = .ok s3 := by
    simp only [Cphd.run, Cphd.step, h1, h2, h3]
  obtain ⟨l1, l2, _⟩ := C113_cphd_history henv exEsf_ok exCp_ok 2 _ (by
    intro o ho
    simp only [List.mem_cons, List.not_mem_nil, or_false] at ho
    rcases ho with rfl | rfl | rfl <;> simp [OkCOp, exBirth, Aligned, exCF]) hr
  exact ⟨_, s3, henv, hr, l1, l2⟩

end Gasur.Props
