import Verif.Props.PlotLabels
import Verif.Props.PhdHistory
import Verif.Props.GlmbExtract

/-!
# Properties C104 to C111: reports, plots and recorded measurements
-/

set_option linter.unusedSectionVars false

namespace Gasur.Props

open Gasur.Plot Gasur.Spec

/-! ### C104 -/

section phd
variable {K V P Z : Type} [Field K] [LinearOrder K] [IsStrictOrderedRing K]
variable [AddCommGroup V] [Module K V] [AddCommGroup P] [Module K P] [FloorRing K]
open Gasur.Phd

/-- **C104, partial.** After any sequence of well-formed calls on a new PHD filter: if states have been extracted, `states` (and
`covariances`, if they are saved) are those of the latest extraction, as defined by the mixture right after that call, and
`cardinality` is their number; before the first extraction they are empty and zero.
*Missing:* `states` should have one element for each time step (`C104_refuted`). -/
theorem C104_latest_partial {env : Phd.Env K V P Z} (he : OkEnv env) {pr : Phd.Params K} (hpr : OkParams pr)
    (ops : List (Phd.Op K V P Z)) (hops : ∀ o ∈ ops, OkOp o) {s : PState K V P}
    (hrun : Phd.run env pr (Phd.init : PState K V P) ops = .ok s) (saveCovs : Bool) :
    ((∀ o ∈ ops, Extracting o = false) → latest (s.states.map Prod.fst) = [] ∧ phdCardinality (s.states.map Prod.fst) = 0 ∧
      phdCovariances saveCovs (s.states.map Prod.snd) = []) ∧
    ∀ (pre post : List (Phd.Op K V P Z)) (o : Phd.Op K V P Z), ops = pre ++ o :: post → Extracting o = true →
      (∀ o' ∈ post, Extracting o' = false) →
      ∃ (s1 : PState K V P) (cs : List (K × V × P)), Phd.run env pr (Phd.init : PState K V P) (pre ++ [o]) = .ok s1 ∧
        s1.mix = ofComps cs ∧ latest (s.states.map Prod.fst) = (reported pr cs).1 ∧
        phdCardinality (s.states.map Prod.fst) = (reported pr cs).1.length ∧
        phdCovariances saveCovs (s.states.map Prod.snd) = if saveCovs then (reported pr cs).2 else [] := by
  obtain ⟨h1, h2⟩ := C102_history he hpr ops hops hrun
  constructor
  · intro hno
    have h0 : ops.countP Extracting = 0 := List.countP_eq_zero.2 (fun o ho => by simp [hno o ho])
    rw [h0] at h1
    rw [List.eq_nil_of_length_eq_zero h1]
    exact ⟨rfl, rfl, by cases saveCovs <;> rfl⟩
  · intro pre post o hsplit ho hpost
    obtain ⟨s1, cs, c1, c2, c3⟩ := h2 pre post o hsplit ho
    have hcount : ops.countP Extracting = pre.countP Extracting + 1 := by
      have hz : post.countP Extracting = 0 := List.countP_eq_zero.2 (fun o' ho' => by simp [hpost o' ho'])
      rw [hsplit, List.countP_append, List.countP_cons_of_pos ho, hz]
    have hl : s.states.getLast? = some (reported pr cs) := by
      rw [List.getLast?_eq_getElem?, h1, hcount]
      exact c3
    have e1 : latest (s.states.map Prod.fst) = (reported pr cs).1 := by
      unfold latest
      rw [List.getLast?_map, hl]
      rfl
    have e2 : latest (s.states.map Prod.snd) = (reported pr cs).2 := by
      unfold latest
      rw [List.getLast?_map, hl]
      rfl
    refine ⟨s1, cs, c1, c2, e1, by unfold phdCardinality; rw [e1], ?_⟩
    unfold phdCovariances
    rw [e2]

/-- **C104 is false of this code**: after two extractions `states` does not have two elements but only the one state of the
second extraction. -/
theorem C104_refuted : ∃ (ops : List (Phd.Op ℚ ℚ ℚ ℚ)) (s : PState ℚ ℚ ℚ), (∀ o ∈ ops, OkOp o) ∧
    Phd.run exEnv exParams Phd.init ops = .ok s ∧ ops.countP Extracting = 2 ∧ (latest (s.states.map Prod.fst)).length = 1 := by
  have hr : ((Phd.run exEnv exParams Phd.init [.predict exFilt [⟨[1], [0], [1]⟩], .extract, .predict exFilt [], .extract]).toOption.map
      fun s => (latest (s.states.map Prod.fst)).length) = some 1 := by decide +kernel
  cases h : Phd.run exEnv exParams Phd.init [.predict exFilt [⟨[1], [0], [1]⟩], .extract, .predict exFilt [], .extract] with
  | error e => rw [h] at hr; exact (nomatch hr)
  | ok s =>
    rw [h] at hr
    refine ⟨_, s, ?_, h, rfl, Option.some.inj hr⟩
    intro o ho
    simp only [List.mem_cons, List.not_mem_nil, or_false] at ho
    rcases ho with rfl | rfl | rfl | rfl
    · intro b hb
      rw [List.mem_singleton.1 hb]
      exact ⟨⟨rfl, rfl⟩, by simp⟩
    · trivial
    · intro b hb
      exact absurd hb (by simp)
    · trivial

end phd

/-! ### C105 after a run -/

section run
variable {K : Type} [Field K] [LinearOrder K] [IsStrictOrderedRing K] [FloorRing K] {d m : ℕ} {L Z : Type}

/-- **C105, after any calls.** On a PHD filter after any sequence of well-formed calls `plot_states` without true states raises
no exception, whatever the other options are. -/
theorem C105_after_run {env : Phd.Env K (Fin d → K) (Fin d → Fin d → K) Z} (he : OkEnv env) {pr : Phd.Params K} (hpr : OkParams pr)
    (ops : List (Phd.Op K (Fin d → K) (Fin d → Fin d → K) Z)) (hops : ∀ o ∈ ops, OkOp o)
    {s : Phd.PState K (Fin d → K) (Fin d → Fin d → K)} (hrun : Phd.run env pr Phd.init ops = .ok s)
    (i j : Fin d) (sigBnd : Option K) (saveCovs : Bool) (measInds : Option (Fin m × Fin m)) (tab : List (List (Fin m → K))) :
    ∃ ps : List (Prim K L), plotStates i j sigBnd saveCovs none measInds (s.states.map Prod.fst) (s.states.map Prod.snd) tab = .ok ps := by
  have key : ∀ (ops : List (Phd.Op K (Fin d → K) (Fin d → Fin d → K) Z)) (s0 : Phd.PState K (Fin d → K) (Fin d → Fin d → K)),
      (∀ o ∈ ops, OkOp o) → Good s0.mix → (∀ e ∈ s0.states, e.1.length = e.2.length) →
      ∀ s, Phd.run env pr s0 ops = .ok s → ∀ e ∈ s.states, e.1.length = e.2.length := by
    intro ops
    induction ops with
    | nil =>
      intro s0 _ _ hl s h
      obtain rfl := Except.ok.inj h
      exact hl
    | cons o ops ih =>
      intro s0 ho hg hl s h
      obtain ⟨s', h1, h2⟩ := run_cons env pr s0 o ops h
      obtain ⟨g', f1, f2⟩ := step_states he hpr hg (ho o List.mem_cons_self) h1
      refine ih s' (fun o' ho' => ho o' (List.mem_cons_of_mem _ ho')) g' ?_ s h2
      cases hx : Extracting o with
      | false => rw [f1 hx]; exact hl
      | true =>
        obtain ⟨cs, _, e⟩ := f2 hx
        rw [e]
        intro x hxm
        rcases List.mem_append.1 hxm with hxm | hxm
        · exact hl x hxm
        · rw [List.mem_singleton.1 hxm]
          simp [reported, List.length_flatMap]
  have hlen := key ops Phd.init hops ⟨by simp [Aligned, Phd.init], by simp [Phd.init]⟩ (by simp [Phd.init]) s hrun
  rw [C105_succeeds]
  refine ⟨?_, fun t ht => (nomatch ht)⟩
  intro _ _ n xs hn _
  rw [List.getElem?_map] at hn ⊢
  obtain ⟨e, he', rfl⟩ := Option.map_eq_some_iff.1 hn
  rw [he']
  exact ⟨e.2, rfl, (hlen e (List.mem_of_getElem? he')).ge⟩

/-- A concrete figure: two time steps with two and one states, ellipses, and truth with a gap. -/
example : ∃ ps : List (Prim ℚ Unit), plotStates (d := 2) (m := 1) 0 1 (some 3) true (some [[![0, 1]], []]) none
    [[![1, 2], ![3, 4]], [], [![5, 6]]] [[fun _ _ => 1, fun _ _ => 2], [], [fun _ _ => 3]] [] = .ok ps ∧
    ps.filterMap pointsOf = [[(1, 2), (3, 4)], [(5, 6)]] ∧ (ps.filterMap ellipseOf).length = 3 ∧
    ps.filterMap truthOf = [[some (0, 1), none]] := ⟨_, rfl, rfl, rfl, rfl⟩

/-- Nothing extracted and no true object yet: with true states given, the call fails. -/
theorem C105_empty_fails (i j : Fin d) (n : ℕ) :
    (plotStates i j none false (some [[]]) (none : Option (Fin m × Fin m)) (List.replicate n []) [] [] :
      Except PlotErr (List (Prim K L))) = .error .type := by
  cases hp : (plotStates i j none false (some [[]]) (none : Option (Fin m × Fin m)) (List.replicate n []) [] [] :
      Except PlotErr (List (Prim K L))) with
  | ok ps =>
    have := (C105_succeeds i j none false (some [[]]) (none : Option (Fin m × Fin m)) (List.replicate n []) [] []).1 ⟨ps, hp⟩
    obtain ⟨_, x, hx, hne⟩ := this.2 _ rfl
    rcases hx with hx | hx
    · exact absurd (List.eq_of_mem_replicate hx) hne
    · exact absurd (List.mem_singleton.1 hx) hne
  | error e =>
    unfold plotStates at hp
    have h1 : (stateLoop i j (if false = true then none else none) [] false false (List.replicate n []).zipIdx :
        Except PlotErr (List (Prim K L))) = .ok [] := by
      have : ∀ (n k : ℕ), (stateLoop i j (if false = true then none else none) [] false false ((List.replicate n []).zipIdx k) :
          Except PlotErr (List (Prim K L))) = .ok [] := by
        intro n
        induction n with
        | zero => intro k; rfl
        | succ n ih =>
          intro k
          rw [List.replicate_succ, List.zipIdx_cons, stateLoop_cons_nil]
          exact ih (k + 1)
      exact this n 0
    rw [h1] at hp
    dsimp only at hp
    have h2 : (truthPart i j (List.replicate n []) (some [[]]) : Except PlotErr (List (Prim K L))) = .error .type := by
      unfold truthPart
      dsimp only
      rw [if_neg (by simp), if_neg]
      unfold hasState
      simp
    rw [h2] at hp
    rw [← Except.error.inj hp]

end run

/-! ### C106 after a run -/

section glmb
open Gasur.Glmb
variable {K τ F Z : Type} [Field K] [LinearOrder K] [IsStrictOrderedRing K] [FloorRing K] [DecidableEq τ] {d m : ℕ}

/-- **C106, after any calls.** Consider any sequence of calls on a new GLMB filter as in C24. Then `plot_states_labels` raises no
exception, whatever its options are, and there are track histories with distinct labels such that the figure has exactly one
line and one text for each label with a reported state, and the line has at time `t` the state of the history of that label at
`t`, and a gap if there is none. -/
theorem C106_after_run (pr : Glmb.Params K) (heps : 0 < pr.eps)
    (ops : List (Glmb.Op K τ F (Fin d → K) (Fin d → Fin d → K) Z))
    (hdist : (ops.flatMap Glmb.Op.labels).Nodup) (last : Glmb.Op K τ F (Fin d → K) (Fin d → Fin d → K) Z) (u c : Bool)
    (hlast : last = .extract u c ∨ ∃ env bp bc, last = .cleanup env bp bc true u c)
    (st : Glmb.St K τ F (Fin d → K) (Fin d → Fin d → K)) (h : Glmb.run pr Glmb.init (ops ++ [last]) = .ok st)
    (i j : Fin d) (sigBnd : Option K) (saveCovs : Bool) (truth : Option (List (List (Fin d → K))))
    (measInds : Option (Fin m × Fin m)) (tx : Option ((Fin m → K) → K × K)) (saveMeas : Bool) (tab : List (List (Fin m → K))) :
    ∃ (ps : List (Prim K (τ × ℕ))) (H : List ((τ × ℕ) × ℕ × List (Fin d → K))),
      plotLabels i j sigBnd saveCovs truth measInds tx saveMeas st.states st.labels (st.covs.map (List.map some)) tab = .ok ps ∧
      (H.map fun e => e.1).Nodup ∧
      ((ps.filterMap textOf).map Prod.snd).Nodup ∧ (ps.filterMap trackOf).length = (ps.filterMap textOf).length ∧
      (∀ lab, lab ∈ (ps.filterMap textOf).map Prod.snd ↔
        ∃ (t b : ℕ) (hist : List (Fin d → K)) (s : Fin d → K), t < st.cntr ∧ (lab, b, hist) ∈ H ∧ b ≤ t ∧ hist[t - b]? = some s) ∧
      ∀ (k : ℕ) (lab : τ × ℕ) (pos : K × K) (tr : List (Option (K × K))), (ps.filterMap textOf)[k]? = some (pos, lab) →
        (ps.filterMap trackOf)[k]? = some tr →
        tr.length = st.cntr ∧ (tr.filterMap id).head? = some pos ∧
        ∀ (t : ℕ) (p : K × K), tr[t]? = some (some p) ↔ ∃ (b : ℕ) (hist : List (Fin d → K)) (s : Fin d → K),
          t < st.cntr ∧ (lab, b, hist) ∈ H ∧ b ≤ t ∧ hist[t - b]? = some s ∧ p = (s i, s j) := by
  obtain ⟨l1, l2, l3, H, hH, hk⟩ := C24_history pr heps ops hdist last u c hlast st h
  have ha : Agree st.states st.labels (st.covs.map (List.map some)) := by
    refine ⟨by rw [l1, l2], by rw [List.length_map, l3, l2], ?_⟩
    intro t xs ls cs h1 h2 h3
    have ht : t < st.cntr := by rw [← l1]; exact (List.getElem?_eq_some_iff.1 h1).1
    obtain ⟨ss, ls', cs', e1, e2, e3, e4, e5, _⟩ := hk t ht
    rw [e1] at h1
    rw [e2] at h2
    rw [List.getElem?_map, e3] at h3
    obtain rfl := Option.some.inj h1
    obtain rfl := Option.some.inj h2
    obtain rfl := Option.some.inj h3
    exact ⟨e4, by rw [List.length_map, e5]⟩
  have hn : ∀ ls ∈ st.labels, ls.Nodup := by
    intro ls hls
    obtain ⟨t, ht⟩ := List.mem_iff_getElem?.1 hls
    have ht' : t < st.cntr := by rw [← l2]; exact (List.getElem?_eq_some_iff.1 ht).1
    obtain ⟨ss, ls', cs', e1, e2, e3, e4, e5, e6, _⟩ := hk t ht'
    rw [e2] at ht
    obtain rfl := Option.some.inj ht
    exact e6
  have zip_label : ∀ (t : ℕ) (xs : List (Fin d → K)) (ls : List (τ × ℕ)) (s : Fin d → K) (lab : τ × ℕ),
      st.states[t]? = some xs → st.labels[t]? = some ls →
      ((s, lab) ∈ xs.zip ls ↔ ∃ b hist, (lab, b, hist) ∈ H ∧ b ≤ t ∧ hist[t - b]? = some s) := by
    intro t xs ls s lab h1 h2
    have ht : t < st.cntr := by rw [← l1]; exact (List.getElem?_eq_some_iff.1 h1).1
    obtain ⟨ss, ls', cs', e1, e2, e3, e4, e5, e6, e7⟩ := hk t ht
    rw [e1] at h1
    rw [e2] at h2
    obtain rfl := Option.some.inj h1
    obtain rfl := Option.some.inj h2
    exact e7 s lab
  obtain ⟨ps, U, p1, p2, p3, p4, p5, p6, _⟩ :=
    C106_plot_labels (L := τ × ℕ) i j sigBnd saveCovs truth measInds tx saveMeas st.states st.labels (st.covs.map (List.map some)) tab ha hn
  refine ⟨ps, H, p1, hH, by rw [p4]; exact p2, by rw [p5, ← p4, List.length_map], ?_, ?_⟩
  · intro lab
    rw [p4, p3]
    constructor
    · rintro ⟨ls, hls, hl⟩
      obtain ⟨t, ht⟩ := List.mem_iff_getElem?.1 hls
      have ht' : t < st.cntr := by rw [← l2]; exact (List.getElem?_eq_some_iff.1 ht).1
      obtain ⟨ss, ls', cs', e1, e2, e3, e4, e5, e6, e7⟩ := hk t ht'
      rw [e2] at ht
      obtain rfl := Option.some.inj ht
      obtain ⟨n, hn1, hn2⟩ := List.getElem_of_mem hl
      have hz : (ss[n]'(by rw [e4]; exact hn1), lab) ∈ ss.zip ls' := by
        rw [List.mem_iff_getElem?]
        refine ⟨n, List.getElem?_zip_eq_some.2 ⟨List.getElem?_eq_getElem _, ?_⟩⟩
        rw [List.getElem?_eq_getElem hn1, hn2]
      obtain ⟨b, hist, q1, q2, q3⟩ := (e7 _ lab).1 hz
      exact ⟨t, b, hist, _, ht', q1, q2, q3⟩
    · rintro ⟨t, b, hist, s, ht, q1, q2, q3⟩
      obtain ⟨ss, ls', cs', e1, e2, e3, e4, e5, e6, e7⟩ := hk t ht
      exact ⟨ls', List.mem_of_getElem? e2, (List.of_mem_zip ((e7 s lab).2 ⟨b, hist, q1, q2, q3⟩)).2⟩
  · intro k lab pos tr hk1 hk2
    have hU : U[k]? = some lab := by rw [← p4, List.getElem?_map, hk1]; rfl
    obtain ⟨r1, r2, r3⟩ := p6 k lab tr pos hU hk2 hk1
    refine ⟨by rw [r1, l1], r2, ?_⟩
    intro t p
    rw [r3 t p]
    constructor
    · rintro ⟨xs, ls, x, h1, h2, h3, rfl⟩
      have ht : t < st.cntr := by rw [← l1]; exact (List.getElem?_eq_some_iff.1 h1).1
      obtain ⟨b, hist, q1, q2, q3⟩ := (zip_label t xs ls x lab h1 h2).1 h3
      exact ⟨b, hist, x, ht, q1, q2, q3, rfl⟩
    · rintro ⟨b, hist, s, ht, q1, q2, q3, rfl⟩
      obtain ⟨ss, ls', cs', e1, e2, e3, e4, e5, e6, e7⟩ := hk t ht
      exact ⟨ss, ls', s, e1, e2, (e7 s lab).2 ⟨b, hist, q1, q2, q3⟩, rfl⟩

end glmb

end Gasur.Props
