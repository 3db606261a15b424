import Verif.Spec.Plot

/-!
# Properties C104, C105: what the PHD filter reports and draws
-/

namespace Gasur.Props

open Gasur.Plot Gasur.Spec

variable {K L : Type} {d m : ℕ}

/-! ### C105 -/

section kinds
variable (i j : Fin d)

theorem ell_ellipses (b : K) : ∀ (a : Bool) (l : List ((Fin d → K) × (Fin d → Fin d → K))),
    (ellipses i j b a l : List (Prim K L)).filterMap ellipseOf = l.map fun c => (some (proj i j c.1), block i j c.2, b)
  | _, [] => rfl
  | a, (x, P) :: l => by
    show (Prim.ellipse _ _ _ _ :: ellipses i j b true l).filterMap ellipseOf = _
    rw [List.filterMap_cons_some (by rfl), ell_ellipses b true l]
    rfl

theorem other_ellipses {α : Type} (f : Prim K L → Option α) (hf : ∀ c s b l, f (.ellipse c s b l) = none) (b : K) :
    ∀ (a : Bool) (l : List ((Fin d → K) × (Fin d → Fin d → K))), (ellipses i j b a l : List (Prim K L)).filterMap f = []
  | _, [] => rfl
  | a, (x, P) :: l => by
    show (Prim.ellipse _ _ _ _ :: ellipses i j b true l).filterMap f = _
    rw [List.filterMap_cons_none (hf _ _ _ _), other_ellipses f hf b true l]

theorem legend_ellipses (b : K) : ∀ (a : Bool) (l : List ((Fin d → K) × (Fin d → Fin d → K))),
    (ellipses i j b a l : List (Prim K L)).filterMap legendOf = if a = false ∧ l ≠ [] then [.sigma] else []
  | _, [] => by simp [ellipses]
  | false, (x, P) :: l => by
    show (Prim.ellipse _ _ _ _ :: ellipses i j b true l).filterMap legendOf = _
    rw [List.filterMap_cons_some (b := .sigma) (by rfl), legend_ellipses b true l]
    simp
  | true, (x, P) :: l => by
    show (Prim.ellipse _ _ _ _ :: ellipses i j b true l).filterMap legendOf = _
    rw [List.filterMap_cons_none (by rfl), legend_ellipses b true l]
    simp

theorem truth_lines (truth : List (List (Fin d → K))) : ∀ (ks : List ℕ) (a : Bool),
    (truthLines i j truth ks a : List (Prim K L)).filterMap truthOf = ks.map fun k => truth.map fun xs => (xs[k]?).map (proj i j)
  | [], _ => rfl
  | k :: ks, a => by
    show (Prim.truth _ _ :: truthLines i j truth ks true).filterMap truthOf = _
    rw [List.filterMap_cons_some (by rfl), truth_lines truth ks true]
    rfl

theorem other_truth {α : Type} (f : Prim K L → Option α) (hf : ∀ p l, f (.truth p l) = none) (truth : List (List (Fin d → K))) :
    ∀ (ks : List ℕ) (a : Bool), (truthLines i j truth ks a : List (Prim K L)).filterMap f = []
  | [], _ => rfl
  | k :: ks, a => by
    show (Prim.truth _ _ :: truthLines i j truth ks true).filterMap f = _
    rw [List.filterMap_cons_none (hf _ _), other_truth f hf truth ks true]

theorem legend_truth (truth : List (List (Fin d → K))) : ∀ (ks : List ℕ) (a : Bool),
    (truthLines i j truth ks a : List (Prim K L)).filterMap legendOf = if a = false ∧ ks ≠ [] then [.truth] else []
  | [], _ => by simp [truthLines]
  | k :: ks, false => by
    show (Prim.truth _ _ :: truthLines i j truth ks true).filterMap legendOf = _
    rw [List.filterMap_cons_some (b := .truth) (by rfl), legend_truth truth ks true]
    simp
  | k :: ks, true => by
    show (Prim.truth _ _ :: truthLines i j truth ks true).filterMap legendOf = _
    rw [List.filterMap_cons_none (by rfl), legend_truth truth ks true]
    simp

/-- The ellipses of the time steps `l`. -/
def ellData (b : K) (covs : List (List (Fin d → Fin d → K))) (l : List (List (Fin d → K) × ℕ)) :
    List (Option (K × K) × Block K × K) :=
  l.flatMap fun x => (x.1.zip ((covs[x.2]?).getD [])).map fun c => (some (proj i j c.1), block i j c.2, b)

theorem stateLoop_cons_nil (sb : Option K) (covs : List (List (Fin d → Fin d → K))) (s t : Bool) (n : ℕ)
    (l : List (List (Fin d → K) × ℕ)) :
    (stateLoop i j sb covs s t (([], n) :: l) : Except PlotErr (List (Prim K L))) = stateLoop i j sb covs s t l := rfl

/-- What the loop over the time steps draws. -/
theorem stateLoop_ok (sb : Option K) (covs : List (List (Fin d → Fin d → K))) : ∀ (l : List (List (Fin d → K) × ℕ)) (s t : Bool)
    (ps : List (Prim K L)), stateLoop i j sb covs s t l = .ok ps →
    ps.filterMap pointsOf = (l.filter fun x => !x.1.isEmpty).map (fun x => x.1.map (proj i j)) ∧
    ps.filterMap ellipseOf = (match sb with | none => [] | some b => ellData i j b covs l) ∧
    ps.filterMap truthOf = [] ∧ ps.filterMap measOf = [] ∧
    (ps.filterMap legendOf).Nodup ∧
    (∀ g ∈ ps.filterMap legendOf, g = .states ∨ g = .sigma) ∧
    (.states ∈ ps.filterMap legendOf ↔ t = false ∧ ∃ x ∈ l, x.1 ≠ []) ∧
    (.sigma ∈ ps.filterMap legendOf ↔ s = false ∧ ps.filterMap ellipseOf ≠ []) := by
  intro l
  induction l with
  | nil =>
    intro s t ps h
    obtain rfl := Except.ok.inj h
    refine ⟨rfl, ?_, rfl, rfl, List.nodup_nil, by simp, by simp, by simp⟩
    cases sb <;> rfl
  | cons x l ih =>
    intro s t ps h
    obtain ⟨xs, n⟩ := x
    cases xs with
    | nil =>
      rw [stateLoop_cons_nil] at h
      obtain ⟨a1, a2, a3, a4, a5, a6, a7, a8⟩ := ih s t ps h
      refine ⟨by rw [a1]; rfl, ?_, a3, a4, a5, a6, ?_, a8⟩
      · rw [a2]
        cases sb with
        | none => rfl
        | some b => simp [ellData]
      · rw [a7]; simp
    | cons x xs =>
      unfold stateLoop at h
      cases sb with
      | none =>
        dsimp only at h
        split at h
        · exact (nomatch h)
        rename_i r hr
        obtain rfl := Except.ok.inj h
        obtain ⟨a1, a2, a3, a4, a5, a6, a7, a8⟩ := ih s true r hr
        have hst : Legend.states ∉ r.filterMap legendOf := fun hc => absurd (a7.1 hc).1 (by simp)
        have hsg : Legend.sigma ∉ r.filterMap legendOf := fun hc => (a8.1 hc).2 a2
        refine ⟨?_, ?_, ?_, ?_, ?_⟩
        · rw [List.filterMap_cons_some (by rfl), a1]; rfl
        · rw [List.filterMap_cons_none (by rfl), a2]
        · rw [List.filterMap_cons_none (by rfl), a3]
        · rw [List.filterMap_cons_none (by rfl), a4]
        · rw [List.filterMap_cons_none (f := ellipseOf) (by rfl), a2]
          cases t with
          | false =>
            rw [List.filterMap_cons_some (b := .states) (by rfl)]
            refine ⟨List.nodup_cons.2 ⟨hst, a5⟩, ?_, by simp, by simp [hsg]⟩
            intro g hg
            rcases List.mem_cons.1 hg with rfl | hg
            · exact .inl rfl
            · exact a6 g hg
          | true =>
            rw [List.filterMap_cons_none (by rfl)]
            exact ⟨a5, a6, by simp [hst], by simp [hsg]⟩
      | some b =>
        dsimp only at h
        split at h
        · exact (nomatch h)
        rename_i cs hcs
        by_cases hlen : (x :: xs).length < cs.length
        · rw [if_pos hlen] at h; exact (nomatch h)
        rw [if_neg hlen] at h
        split at h
        · exact (nomatch h)
        rename_i r hr
        obtain rfl := Except.ok.inj h
        obtain ⟨a1, a2, a3, a4, a5, a6, a7, a8⟩ := ih _ true r hr
        dsimp only at a2
        have hst : Legend.states ∉ r.filterMap legendOf := fun hc => absurd (a7.1 hc).1 (by simp)
        have hz : (x :: xs).zip cs = [] ↔ cs = [] := by simp
        refine ⟨?_, ?_, ?_, ?_, ?_⟩
        · rw [List.filterMap_append, other_ellipses i j pointsOf (fun _ _ _ _ => rfl), List.filterMap_cons_some (by rfl), a1]; rfl
        · rw [List.filterMap_append, ell_ellipses, List.filterMap_cons_none (by rfl), a2]
          simp [ellData, hcs]
        · rw [List.filterMap_append, other_ellipses i j truthOf (fun _ _ _ _ => rfl), List.filterMap_cons_none (by rfl), a3]; rfl
        · rw [List.filterMap_append, other_ellipses i j measOf (fun _ _ _ _ => rfl), List.filterMap_cons_none (by rfl), a4]; rfl
        · have e1 : (ellipses i j b s ((x :: xs).zip cs) ++ Prim.points ((x :: xs).map (proj i j)) (once t .states) :: r).filterMap legendOf
              = (if s = false ∧ cs ≠ [] then [.sigma] else []) ++ ((if t = false then [.states] else []) ++ r.filterMap legendOf) := by
            rw [List.filterMap_append, legend_ellipses]
            congr 1
            · simp only [ne_eq, hz]
            · cases t with
              | false => rw [List.filterMap_cons_some (b := .states) (by rfl)]; simp
              | true => rw [List.filterMap_cons_none (by rfl)]; simp
          have e2 : (ellipses i j b s ((x :: xs).zip cs) ++ Prim.points ((x :: xs).map (proj i j)) (once t .states) :: r).filterMap ellipseOf
              ≠ [] ↔ cs ≠ [] ∨ r.filterMap ellipseOf ≠ [] := by
            rw [List.filterMap_append, ell_ellipses, List.filterMap_cons_none (by rfl)]
            rw [ne_eq, List.append_eq_nil_iff, List.map_eq_nil_iff, hz]
            tauto
          rw [e1, e2]
          have hsg : s = false ∧ cs ≠ [] → Legend.sigma ∉ r.filterMap legendOf := by
            rintro ⟨_, h2⟩ hc
            have := (a8.1 hc).1
            simp [h2] at this
          have hsg2 : Legend.sigma ∈ r.filterMap legendOf ↔ s = false ∧ cs = [] ∧ r.filterMap ellipseOf ≠ [] := by
            rw [a8]
            cases s <;> simp
          refine ⟨?_, ?_, ?_, ?_⟩
          · by_cases hs : s = false ∧ cs ≠ []
            · have := hsg hs
              rw [if_pos hs]
              cases t <;> simp [a5, hst, this]
            · rw [if_neg hs]
              cases t <;> simp [a5, hst]
          · intro g hg
            rcases List.mem_append.1 hg with hg | hg
            · right
              by_cases hs : s = false ∧ cs ≠ []
              · rw [if_pos hs] at hg; simpa using hg
              · rw [if_neg hs] at hg; simp at hg
            · rcases List.mem_append.1 hg with hg | hg
              · left
                cases t <;> simp at hg
                exact hg
              · exact a6 g hg
          · by_cases hs : s = false ∧ cs ≠ []
            · rw [if_pos hs]
              cases t <;> simp [hst]
            · rw [if_neg hs]
              cases t <;> simp [hst]
          · rw [List.mem_append, List.mem_append, hsg2]
            by_cases hs : s = false ∧ cs ≠ []
            · rw [if_pos hs]
              simp [hs.1, hs.2]
            · rw [if_neg hs]
              cases t <;> cases s <;> simp at hs ⊢ <;> simp [hs]

/-- The loop fails only if covariances are missing or too many. -/
theorem stateLoop_exists (sb : Option K) (covs : List (List (Fin d → Fin d → K))) : ∀ (l : List (List (Fin d → K) × ℕ)) (s t : Bool),
    (sb.isSome → ∀ x ∈ l, x.1 ≠ [] → ∃ cs, covs[x.2]? = some cs ∧ cs.length ≤ x.1.length) ↔
    ∃ ps : List (Prim K L), stateLoop i j sb covs s t l = .ok ps := by
  intro l
  induction l with
  | nil => exact fun s t => ⟨fun _ => ⟨[], rfl⟩, fun _ _ => by simp⟩
  | cons x l ih =>
    intro s t
    obtain ⟨xs, n⟩ := x
    cases xs with
    | nil =>
      rw [stateLoop_cons_nil, ← ih s t]
      simp
    | cons x xs =>
      unfold stateLoop
      cases sb with
      | none =>
        obtain ⟨r, hr⟩ := (ih s true).1 (by simp)
        dsimp only
        rw [hr]
        simp
      | some b =>
        dsimp only
        simp only [Option.isSome_some, true_implies] at ih ⊢
        constructor
        · intro h
          obtain ⟨cs, h1, h2⟩ := h (x :: xs, n) (by simp) (by simp)
          dsimp only at h1 h2
          obtain ⟨r, hr⟩ := (ih (s || !cs.isEmpty) true).1 (fun y hy => h y (List.mem_cons_of_mem _ hy))
          rw [h1]
          dsimp only
          rw [if_neg (by omega), hr]
          exact ⟨_, rfl⟩
        · rintro ⟨ps, hps⟩
          split at hps
          · exact (nomatch hps)
          rename_i cs hcs
          by_cases hlen : (x :: xs).length < cs.length
          · rw [if_pos hlen] at hps; exact (nomatch hps)
          rw [if_neg hlen] at hps
          split at hps
          · exact (nomatch hps)
          rename_i r hr
          intro y hy hne
          rcases List.mem_cons.1 hy with rfl | hy
          · exact ⟨cs, hcs, by dsimp only; omega⟩
          · exact (ih _ _).2 ⟨r, hr⟩ y hy hne

end kinds

theorem zipIdx_filter_fst {α β : Type} (p : α → Bool) (f : α → β) (l : List α) (n : ℕ) :
    ((l.zipIdx n).filter fun x => p x.1).map (fun x => f x.1) = (l.filter p).map f := by
  induction l generalizing n with
  | nil => rfl
  | cons a l ih =>
    rw [List.zipIdx_cons, List.filter_cons, List.filter_cons]
    by_cases h : p a
    · simp [h, ih]
    · simp [h, ih]

theorem ellData_eq (i j : Fin d) (b : K) (covs : List (List (Fin d → Fin d → K))) (hist : List (List (Fin d → K))) :
    ellData i j b covs hist.zipIdx =
      (hist.zip covs).flatMap fun x => (x.1.zip x.2).map fun c => (some (proj i j c.1), block i j c.2, b) := by
  have key : ∀ (hist : List (List (Fin d → K))) (n : ℕ), ellData i j b covs (hist.zipIdx n) =
      (hist.zip (covs.drop n)).flatMap fun x => (x.1.zip x.2).map fun c => (some (proj i j c.1), block i j c.2, b) := by
    intro hist
    induction hist with
    | nil => intro n; rfl
    | cons h hist ih =>
      intro n
      rw [List.zipIdx_cons]
      show _ ++ ellData i j b covs (hist.zipIdx (n + 1)) = _
      rw [ih (n + 1)]
      dsimp only
      by_cases hn : n < covs.length
      · rw [List.drop_eq_getElem_cons hn, List.getElem?_eq_getElem hn]
        rfl
      · rw [List.getElem?_eq_none (by omega), List.drop_eq_nil_of_le (by omega), List.drop_eq_nil_of_le (by omega)]
        simp
  exact key hist 0

/-- **C105.** For every history of extracted states, covariances, true states, table of measurements and all options: if
`plot_states` raises no exception, the figure shows exactly these things. For each extraction that reported a state, in order,
the points of all its states; if a bound is given and covariances are saved, around each state with a covariance the ellipse
of that covariance; for each `k` one line through the `k`-th true states, with a gap where there is none; and all recorded
measurements if their indices are given. No legend entry occurs twice, and the entry for the states and the ellipses occurs if
any of them is drawn. -/
theorem C105_plot_states (i j : Fin d) (sigBnd : Option K) (saveCovs : Bool) (truth : Option (List (List (Fin d → K))))
    (measInds : Option (Fin m × Fin m)) (hist : List (List (Fin d → K))) (covs : List (List (Fin d → Fin d → K)))
    (tab : List (List (Fin m → K))) (ps : List (Prim K L))
    (h : plotStates i j sigBnd saveCovs truth measInds hist covs tab = .ok ps) :
    ps.filterMap pointsOf = (hist.filter fun x => !x.isEmpty).map (fun x => x.map fun v => (v i, v j)) ∧
    (∀ b, sigBnd = some b → saveCovs = true → ps.filterMap ellipseOf = (hist.zip covs).flatMap fun x => (x.1.zip x.2).map
      fun c => (some (c.1 i, c.1 j), ⟨c.2 i i, c.2 i j, c.2 j i, c.2 j j⟩, b)) ∧
    (sigBnd = none ∨ saveCovs = false → ps.filterMap ellipseOf = []) ∧
    ps.filterMap truthOf = trueLines i j truth ∧
    (measInds = none → ps.filterMap measOf = []) ∧
    (∀ a b, measInds = some (a, b) → ps.filterMap measOf = [tab.flatten.map fun z => (z a, z b)]) ∧
    (ps.filterMap legendOf).Nodup ∧
    (.states ∈ ps.filterMap legendOf ↔ ∃ x ∈ hist, x ≠ []) ∧
    (.sigma ∈ ps.filterMap legendOf ↔ ps.filterMap ellipseOf ≠ []) := by
  unfold plotStates at h
  split at h
  · exact (nomatch h)
  rename_i qs hq
  split at h
  · exact (nomatch h)
  rename_i ts ht
  obtain rfl := Except.ok.inj h
  obtain ⟨a1, a2, a3, a4, a5, a6, a7, a8⟩ := stateLoop_ok i j _ covs _ _ _ _ hq
  -- the true states
  have hts : (∃ tr a, ts = truthLines i j tr (List.range (maxTrue tr)) a ∧ a = false ∧ truth = some tr) ∨ ts = [] ∧ truth = none := by
    unfold truthPart at ht
    split at ht
    · exact .inr ⟨(Except.ok.inj ht).symm, rfl⟩
    · rename_i tr
      split at ht
      · exact (nomatch ht)
      · split at ht
        · exact .inl ⟨tr, false, (Except.ok.inj ht).symm, rfl, rfl⟩
        · exact (nomatch ht)
  have tOther : ∀ {α : Type} (f : Prim K L → Option α), (∀ p l, f (.truth p l) = none) → ts.filterMap f = [] := by
    intro α f hf
    rcases hts with ⟨tr, a, rfl, _, _⟩ | ⟨rfl, _⟩
    · exact other_truth i j f hf _ _ _
    · rfl
  have tLeg : (ts.filterMap legendOf).Nodup ∧ ∀ g ∈ ts.filterMap legendOf, g = .truth := by
    rcases hts with ⟨tr, a, rfl, _, _⟩ | ⟨rfl, _⟩
    · rw [legend_truth]
      split <;> simp
    · simp
  have tTruth : (truth = none → ts.filterMap truthOf = []) ∧ ∀ t, truth = some t → ts.filterMap truthOf =
      (List.range (maxTrue t)).map fun k => t.map fun xs => (xs[k]?).map fun v => (v i, v j) := by
    rcases hts with ⟨tr, a, rfl, _, rfl⟩ | ⟨rfl, rfl⟩
    · refine ⟨fun hc => (nomatch hc), ?_⟩
      rintro t ⟨⟩
      exact truth_lines i j tr _ _
    · exact ⟨fun _ => rfl, fun t hc => (nomatch hc)⟩
  -- the measurements
  have mOther : ∀ {α : Type} (f : Prim K L → Option α), (∀ p l, f (.measPoints p l) = none) →
      (measPart tab measInds : List (Prim K L)).filterMap f = [] := by
    intro α f hf
    cases measInds with
    | none => rfl
    | some ab => exact (List.filterMap_cons_none (hf _ _)).trans rfl
  have mLeg : ((measPart tab measInds : List (Prim K L)).filterMap legendOf).Nodup ∧
      ∀ g ∈ (measPart tab measInds : List (Prim K L)).filterMap legendOf, g = .measurements := by
    cases measInds with
    | none => exact ⟨List.nodup_nil, by simp [measPart]⟩
    | some ab =>
      have : (measPart tab (some ab) : List (Prim K L)).filterMap legendOf = [.measurements] := rfl
      rw [this]
      simp
  have hell : (qs ++ ts ++ measPart tab measInds).filterMap ellipseOf = qs.filterMap ellipseOf := by
    rw [List.filterMap_append, List.filterMap_append, tOther ellipseOf (fun _ _ => rfl), mOther ellipseOf (fun _ _ => rfl)]
    simp
  have hexs : (∃ x ∈ hist.zipIdx, x.1 ≠ []) ↔ ∃ x ∈ hist, x ≠ [] := by
    constructor
    · rintro ⟨⟨x, n⟩, h1, h2⟩
      exact ⟨x, List.mem_of_getElem? (List.mem_zipIdx_iff_getElem?.1 h1), h2⟩
    · rintro ⟨x, h1, h2⟩
      obtain ⟨n, hn⟩ := List.mem_iff_getElem?.1 h1
      exact ⟨(x, n), List.mem_zipIdx_iff_getElem?.2 hn, h2⟩
  refine ⟨?_, ?_, ?_, ?_, ?_, ?_, ?_, ?_, ?_⟩
  · rw [List.filterMap_append, List.filterMap_append, tOther pointsOf (fun _ _ => rfl), mOther pointsOf (fun _ _ => rfl), a1]
    simp only [List.append_nil]
    exact zipIdx_filter_fst (fun x => !x.isEmpty) (fun x => x.map (proj i j)) hist 0
  · rintro b rfl rfl
    rw [hell, a2]
    exact ellData_eq i j b covs hist
  · intro hc
    rw [hell, a2]
    rcases hc with rfl | rfl
    · simp
    · rfl
  · rw [List.filterMap_append, List.filterMap_append, a3, mOther truthOf (fun _ _ => rfl), List.nil_append, List.append_nil]
    cases htr : truth with
    | none => exact tTruth.1 htr
    | some t => exact tTruth.2 t htr
  · rintro rfl
    rw [List.filterMap_append, List.filterMap_append, a4, tOther measOf (fun _ _ => rfl)]
    rfl
  · rintro a b rfl
    rw [List.filterMap_append, List.filterMap_append, a4, tOther measOf (fun _ _ => rfl)]
    rfl
  · rw [List.filterMap_append, List.filterMap_append]
    rw [List.nodup_append, List.nodup_append]
    refine ⟨⟨a5, tLeg.1, ?_⟩, mLeg.1, ?_⟩
    · intro g hg g' hg'
      have := tLeg.2 g' hg'
      rcases a6 g hg with rfl | rfl <;> rw [this] <;> decide
    · intro g hg g' hg'
      have := mLeg.2 g' hg'
      rcases List.mem_append.1 hg with hg | hg
      · rcases a6 g hg with rfl | rfl <;> rw [this] <;> decide
      · rw [tLeg.2 g hg, this]; decide
  · rw [← hexs, List.filterMap_append, List.filterMap_append, List.mem_append, List.mem_append, a7]
    constructor
    · rintro ((h | h) | h)
      · exact h.2
      · exact absurd (tLeg.2 _ h) (by decide)
      · exact absurd (mLeg.2 _ h) (by decide)
    · intro h
      exact .inl (.inl ⟨rfl, h⟩)
  · rw [hell, List.filterMap_append, List.filterMap_append, List.mem_append, List.mem_append, a8]
    constructor
    · rintro ((h | h) | h)
      · exact h.2
      · exact absurd (tLeg.2 _ h) (by decide)
      · exact absurd (mLeg.2 _ h) (by decide)
    · intro h
      exact .inl (.inl ⟨rfl, h⟩)

/-- **C105, when it works.** `plot_states` raises no exception exactly if (when the ellipses are drawn) every extraction with
states has a list of at most as many covariances, and, when true states are given, their list is not empty and a state occurs
in the history or among the true ones. -/
theorem C105_succeeds (i j : Fin d) (sigBnd : Option K) (saveCovs : Bool) (truth : Option (List (List (Fin d → K))))
    (measInds : Option (Fin m × Fin m)) (hist : List (List (Fin d → K))) (covs : List (List (Fin d → Fin d → K)))
    (tab : List (List (Fin m → K))) :
    (∃ ps : List (Prim K L), plotStates i j sigBnd saveCovs truth measInds hist covs tab = .ok ps) ↔
    ((sigBnd ≠ none → saveCovs = true → ∀ (n : ℕ) (xs : List (Fin d → K)), hist[n]? = some xs → xs ≠ [] →
      ∃ cs, covs[n]? = some cs ∧ cs.length ≤ xs.length) ∧
    ∀ t, truth = some t → t ≠ [] ∧ ∃ x, (x ∈ hist ∨ x ∈ t) ∧ x ≠ []) := by
  have h1 := stateLoop_exists (L := L) i j (if saveCovs then sigBnd else none) covs hist.zipIdx false false
  have e1 : ((if saveCovs then sigBnd else none).isSome → ∀ x ∈ hist.zipIdx, x.1 ≠ [] → ∃ cs, covs[x.2]? = some cs ∧ cs.length ≤ x.1.length) ↔
      (sigBnd ≠ none → saveCovs = true → ∀ (n : ℕ) (xs : List (Fin d → K)), hist[n]? = some xs → xs ≠ [] →
        ∃ cs, covs[n]? = some cs ∧ cs.length ≤ xs.length) := by
    constructor
    · intro h hs hc n xs hn hne
      subst hc
      exact h (by simpa [Option.isSome_iff_ne_none] using hs) (xs, n) (List.mem_zipIdx_iff_getElem?.2 hn) hne
    · rintro h hs ⟨xs, n⟩ hx hne
      have hsc : saveCovs = true := by
        by_contra hc
        simp only [Bool.not_eq_true] at hc
        subst hc
        simp at hs
      subst hsc
      exact h (by simpa [Option.isSome_iff_ne_none] using hs) rfl n xs (List.mem_zipIdx_iff_getElem?.1 hx) hne
  have e2 : (∃ ts : List (Prim K L), truthPart i j hist truth = .ok ts) ↔
      ∀ t, truth = some t → t ≠ [] ∧ ∃ x, (x ∈ hist ∨ x ∈ t) ∧ x ≠ [] := by
    cases truth with
    | none => exact ⟨fun _ t h => (nomatch h), fun _ => ⟨[], rfl⟩⟩
    | some t =>
      have hh : (hasState hist || hasState t) = true ↔ ∃ x, (x ∈ hist ∨ x ∈ t) ∧ x ≠ [] := by
        unfold hasState
        rw [Bool.or_eq_true, List.any_eq_true, List.any_eq_true]
        simp only [Bool.not_eq_true', List.isEmpty_eq_false_iff]
        constructor
        · rintro (⟨x, h1, h2⟩ | ⟨x, h1, h2⟩)
          · exact ⟨x, .inl h1, h2⟩
          · exact ⟨x, .inr h1, h2⟩
        · rintro ⟨x, h1 | h1, h2⟩
          · exact .inl ⟨x, h1, h2⟩
          · exact .inr ⟨x, h1, h2⟩
      unfold truthPart
      dsimp only
      by_cases ht : t = []
      · rw [if_pos ht]
        exact ⟨fun ⟨_, h⟩ => (nomatch h), fun h => absurd ht (h t rfl).1⟩
      · rw [if_neg ht]
        by_cases hs : (hasState hist || hasState t) = true
        · rw [if_pos hs]
          refine ⟨?_, fun _ => ⟨_, rfl⟩⟩
          rintro _ t' ⟨⟩
          exact ⟨ht, hh.1 hs⟩
        · rw [if_neg hs]
          exact ⟨fun ⟨_, h⟩ => (nomatch h), fun h => absurd (hh.2 (h t rfl).2) hs⟩
  rw [← e1, ← e2, h1]
  unfold plotStates
  constructor
  · rintro ⟨ps, h⟩
    split at h
    · exact (nomatch h)
    rename_i qs hq
    split at h
    · exact (nomatch h)
    rename_i ts ht
    exact ⟨⟨qs, hq⟩, ts, ht⟩
  · rintro ⟨⟨qs, hq⟩, ts, ht⟩
    rw [hq]
    dsimp only
    rw [ht]
    exact ⟨_, rfl⟩

end Gasur.Props
