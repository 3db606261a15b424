import Verif.Props.Phd

/-!
# Property C102: the history of the states extracted by the PHD filter
-/

set_option linter.unusedSectionVars false

namespace Gasur.Props

open Gasur.Phd Gasur.Spec

variable {K V P Z : Type*} [Field K] [LinearOrder K] [IsStrictOrderedRing K]
variable [AddCommGroup V] [Module K V] [AddCommGroup P] [Module K P] [FloorRing K]

/-- The calls that extract states: `extract_states`, and `cleanup` with `enable_extract`. -/
def Extracting : Op K V P Z → Bool
  | .extract => true
  | .cleanup _ _ _ be => be
  | _ => false

/-- The states reported for the components `cs`: each one whose weight is at least the threshold, in order, as often as its
rounded weight says (`C33_round`), with its covariance. -/
def reported (pr : Params K) (cs : List (K × V × P)) : List V × List P :=
  ((cs.filter fun c => decide (pr.extractThreshold ≤ c.1)).flatMap fun c => List.replicate (pyRound c.1).toNat c.2.1,
   (cs.filter fun c => decide (pr.extractThreshold ≤ c.1)).flatMap fun c => List.replicate (pyRound c.1).toNat c.2.2)

theorem doExtract_states {pr : Params K} {s s' : PState K V P} (hs : Good s.mix) (h : doExtract pr s = .ok s') :
    s'.mix = s.mix ∧ ∃ cs, s.mix = ofComps cs ∧ s'.states = s.states ++ [reported pr cs] := by
  obtain ⟨cs, hc, _⟩ := (good_iff s.mix).1 hs
  unfold doExtract at h
  rw [hc, extract_ofComps] at h
  obtain rfl := Except.ok.inj h
  exact ⟨hc.symm, cs, hc, rfl⟩

/-- One call: what it does to the history. -/
theorem step_states {env : Env K V P Z} (he : OkEnv env) {pr : Params K} (hpr : OkParams pr)
    {s s' : PState K V P} (hs : Good s.mix) {o : Op K V P Z} (ho : OkOp o) (h : step env pr s o = .ok s') :
    Good s'.mix ∧ (Extracting o = false → s'.states = s.states) ∧
    (Extracting o = true → ∃ cs, s'.mix = ofComps cs ∧ s'.states = s.states ++ [reported pr cs]) := by
  have hg : Good s'.mix := by
    rcases step_good he hpr hs o ho with ⟨s1, h1, h2⟩ | h1
    · rw [h1] at h
      rwa [← Except.ok.inj h]
    · rw [h1] at h
      exact (nomatch h)
  refine ⟨hg, ?_⟩
  cases o with
  | predict f b =>
    obtain rfl := Except.ok.inj h
    exact ⟨fun _ => rfl, fun hc => (nomatch hc)⟩
  | correct f z =>
    unfold step at h
    dsimp only at h
    split at h
    · exact (nomatch h)
    · obtain rfl := Except.ok.inj h
      exact ⟨fun _ => rfl, fun hc => (nomatch hc)⟩
  | extract =>
    obtain ⟨h1, cs, h2, h3⟩ := doExtract_states hs h
    exact ⟨fun hc => (nomatch hc), fun _ => ⟨cs, h1.trans h2, h3⟩⟩
  | cleanup bp bm bc be =>
    unfold step cleanup at h
    dsimp only at h
    split at h
    · exact (nomatch h)
    split at h
    · exact (nomatch h)
    split at h
    · exact (nomatch h)
    rename_i m3 _
    cases be with
    | false =>
      obtain rfl := Except.ok.inj h
      exact ⟨fun _ => rfl, fun hc => (nomatch hc)⟩
    | true =>
      rw [if_pos rfl] at h
      have hm : s'.mix = m3 := by
        unfold doExtract at h
        dsimp only at h
        split at h
        · exact (nomatch h)
        · obtain rfl := Except.ok.inj h
          rfl
      have hs3 : Good m3 := by rw [← hm]; exact hg
      obtain ⟨h1, cs, h2, h3⟩ := doExtract_states (s := { s with mix := m3 }) hs3 h
      exact ⟨fun hc => (nomatch hc), fun _ => ⟨cs, hm.trans h2, h3⟩⟩

theorem run_cons (env : Env K V P Z) (pr : Params K) (s : PState K V P) (o : Op K V P Z) (os : List (Op K V P Z))
    {t : PState K V P} (h : run env pr s (o :: os) = .ok t) :
    ∃ s', step env pr s o = .ok s' ∧ run env pr s' os = .ok t := by
  unfold run at h
  split at h
  · exact (nomatch h)
  · rename_i s' hs
    exact ⟨s', hs, h⟩

/-- **C102.** For every sequence of well-formed calls on a new PHD filter that raises no exception: the history of extracted
states has exactly one entry for each extracting call, in the order of the calls, and the entry made by a call is the report
on the mixture that the filter held right after that call, whatever was called later. -/
theorem C102_history {env : Env K V P Z} (he : OkEnv env) {pr : Params K} (hpr : OkParams pr)
    (ops : List (Op K V P Z)) (hops : ∀ o ∈ ops, OkOp o) {s : PState K V P}
    (hrun : run env pr (init : PState K V P) ops = .ok s) :
    s.states.length = ops.countP Extracting ∧
    ∀ (pre post : List (Op K V P Z)) (o : Op K V P Z), ops = pre ++ o :: post → Extracting o = true →
      ∃ (s1 : PState K V P) (cs : List (K × V × P)), run env pr (init : PState K V P) (pre ++ [o]) = .ok s1 ∧
        s1.mix = ofComps cs ∧ s.states[pre.countP Extracting]? = some (reported pr cs) := by
  have key : ∀ (ops : List (Op K V P Z)) (s0 : PState K V P), (∀ o ∈ ops, OkOp o) → Good s0.mix →
      ∀ s, run env pr s0 ops = .ok s →
      (∃ new, s.states = s0.states ++ new ∧ new.length = ops.countP Extracting) ∧
      ∀ (pre post : List (Op K V P Z)) (o : Op K V P Z), ops = pre ++ o :: post → Extracting o = true →
        ∃ (s1 : PState K V P) (cs : List (K × V × P)), run env pr s0 (pre ++ [o]) = .ok s1 ∧
          s1.mix = ofComps cs ∧ s.states[s0.states.length + pre.countP Extracting]? = some (reported pr cs) := by
    intro ops
    induction ops with
    | nil =>
      intro s0 _ _ s h
      obtain rfl := Except.ok.inj h
      exact ⟨⟨[], by simp, rfl⟩, fun pre post o h => by simp at h⟩
    | cons o ops ih =>
      intro s0 ho hg s h
      obtain ⟨s', h1, h2⟩ := run_cons env pr s0 o ops h
      obtain ⟨g', f1, f2⟩ := step_states he hpr hg (ho o List.mem_cons_self) h1
      obtain ⟨⟨new, e1, e2⟩, e3⟩ := ih s' (fun o' ho' => ho o' (List.mem_cons_of_mem _ ho')) g' s h2
      have hlen : s'.states.length = s0.states.length + [o].countP Extracting := by
        cases hx : Extracting o with
        | false => rw [f1 hx]; simp [hx]
        | true =>
          obtain ⟨cs, _, e⟩ := f2 hx
          rw [e]; simp [hx]
      refine ⟨?_, ?_⟩
      · cases hx : Extracting o with
        | false => exact ⟨new, by rw [e1, f1 hx], by rw [e2, List.countP_cons_of_neg (by simp [hx])]⟩
        | true =>
          obtain ⟨cs, _, e⟩ := f2 hx
          exact ⟨reported pr cs :: new, by rw [e1, e]; simp, by
            rw [List.countP_cons_of_pos hx, List.length_cons, e2]⟩
      · intro pre post o' hsplit hx
        cases pre with
        | nil =>
          obtain ⟨rfl, rfl⟩ := List.cons.inj hsplit
          obtain ⟨cs, c1, c2⟩ := f2 hx
          refine ⟨s', cs, ?_, c1, ?_⟩
          · show run env pr s0 [o] = _
            unfold run
            rw [h1]
            rfl
          · rw [e1, c2]
            simp
        | cons a pre =>
          obtain ⟨rfl, rfl⟩ := List.cons.inj hsplit
          obtain ⟨s1, cs, c1, c2, c3⟩ := e3 pre post o' rfl hx
          refine ⟨s1, cs, ?_, c2, ?_⟩
          · show run env pr s0 (o :: (pre ++ [o'])) = _
            unfold run
            rw [h1]
            exact c1
          · rw [← c3, hlen]
            congr 1
            rw [List.countP_cons]
            simp [List.countP_cons]
            omega
  obtain ⟨⟨new, e1, e2⟩, e3⟩ := key ops init hops ⟨by simp [Aligned, init], by simp [init]⟩ s hrun
  refine ⟨by rw [e1, ← e2]; simp [init], ?_⟩
  intro pre post o h1 h2
  obtain ⟨s1, cs, c1, c2, c3⟩ := e3 pre post o h1 h2
  exact ⟨s1, cs, c1, c2, by rw [← c3]; simp [init]⟩

/-- Two extractions with a prediction in between: both are in the history, and they differ. -/
example : (run exEnv exParams init
    [.predict exFilt [⟨[1, 1 / 2], [0, 5], [1, 1]⟩], .correct exFilt [1, 7], .cleanup true true true true,
     .predict exFilt [], .extract]).toOption.map
      (fun s => (s.states.length, s.states[0]? == s.states[1]?)) = some (2, false) := by
  decide +kernel

end Gasur.Props
