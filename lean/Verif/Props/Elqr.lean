import Verif.Proofs.Elqr

/-!
# Properties C44 (second part), C48, C73, C76: the plans of the extended LQR guidance
-/

namespace Gasur.Props

open Matrix Gasur.Spec Gasur.Guidance Gasur.Elqr

/-! ### C44 -/

/-- **C44, `GaussianObject`.** For all arguments: the constructor raises `ValueError` exactly if a weight is given that is not
positive; otherwise it keeps the weight. Without a weight there is no exception and the weight is NaN. -/
theorem C44_object {n : ℕ} (kw : Kwargs n) (P : Mat n) :
    ((∃ w, kw.weight = some w ∧ w ≤ 0) → newObject kw P = .error .value) ∧
    ((∀ w, kw.weight = some w → 0 < w) → ∃ p, newObject kw P = .ok p ∧ p.weight = kw.weight ∧ p.cov = P) := by
  unfold newObject
  constructor
  · rintro ⟨w, h1, h2⟩
    rw [if_pos (by rw [h1]; simpa using h2)]
  · intro h
    rw [if_neg]
    · exact ⟨_, rfl, rfl, rfl⟩
    · cases hw : kw.weight with
      | none => simp
      | some w => simpa using h w hw

/-- **C44, `ELQRGaussian`.** The constructor raises `ValueError` exactly if the similarity threshold or the reference point is
at least one, and otherwise keeps the arguments (defaults: no plans, 0.95, and those of `DensityBased`). -/
theorem C44_elqr {n : ℕ} (gs : Option (List (Plan n))) (sim : Option ℝ) (w : Option (List (Comp n))) (s y : Option ℝ) :
    (((∃ v, sim = some v ∧ 1 ≤ v) ∨ (∃ v, y = some v ∧ 1 ≤ v)) → initElqr gs sim w s y = .error .value) ∧
    ((∀ v, sim = some v → v < 1) → (∀ v, y = some v → v < 1) →
      initElqr gs sim w s y = .ok (gs.getD [], sim.getD (95 / 100), ⟨w.getD [], s.getD 1, y.getD (9 / 10)⟩)) := by
  have hlow : (∀ v, y = some v → v < 1) → ¬ (y.getD (9 / 10) ≥ 1) := by
    intro h
    rw [not_le]
    cases y with
    | none => norm_num
    | some v => exact h v rfl
  constructor
  · intro h
    unfold initElqr
    by_cases h1 : sim.getD (95 / 100) ≥ 1
    · rw [if_pos h1]
    · rw [if_neg h1]
      rcases h with ⟨v, rfl, hv⟩ | ⟨v, rfl, hv⟩
      · exact absurd hv h1
      · unfold Density.init
        rw [if_pos (by simpa using hv)]
        rfl
  · intro h1 h2
    unfold initElqr
    rw [if_neg]
    · unfold Density.init
      rw [if_neg (hlow h2)]
      rfl
    · rw [not_le]
      cases sim with
      | none => norm_num
      | some v => exact h1 v rfl

/-- The documented default of a keyword argument: the attribute has the given value, or the default if none is given. -/
def SetTo {α : Type} (given : Option α) (default : α) (attr : α) : Prop :=
  (∀ v, given = some v → attr = v) ∧ (given = none → attr = default)

theorem setTo_getD {α : Type} (o : Option α) (d : α) : SetTo o d (o.getD d) := by
  cases o with
  | none => exact ⟨fun v h => (nomatch h), fun _ => rfl⟩
  | some a => exact ⟨fun v h => Option.some.inj h, fun h => (nomatch h)⟩

/-- **C76 is false of this code**: the documented keyword arguments `ctrl_inputs` and `cost_to_go_vec` of `GaussianObject` have
no effect; the constructor reads the undocumented names `control_input` and `cost_go_vec`. -/
theorem C76_refuted {n : ℕ} (kw : Kwargs n) (P : Mat n) (t : Option Tab) (v : Option (List Arr)) :
    newObject { kw with ctrl_inputs := t, cost_to_go_vec := v } P = newObject kw P := rfl

/-- **C76, partial.** For all arguments, if the constructor returns: every other keyword argument sets its attribute, and those
not given have empty defaults (NaN for the weight). *Missing:* the two of `C76_refuted`. -/
theorem C76_keywords_partial {n : ℕ} (kw : Kwargs n) (P : Mat n) (p : Plan n) (h : newObject kw P = .ok p) :
    SetTo kw.dyn_functions [] p.dyn ∧ SetTo kw.inv_dyn_functions [] p.invDyn ∧ SetTo kw.means [] p.means ∧
    SetTo kw.feedforward [] p.feedforward ∧ SetTo kw.feedback [] p.feedback ∧
    SetTo kw.cost_to_come_mat [] p.ctcMat ∧ SetTo kw.cost_to_come_vec [] p.ctcVec ∧ SetTo kw.cost_to_go_mat [] p.ctgMat ∧
    (∀ u, kw.ctrl_nom = some u → p.nom = u) ∧ (kw.ctrl_nom = none → p.nom.rows = 1 ∧ p.nom.cols = 0) ∧
    p.weight = kw.weight ∧ p.cov = P := by
  unfold newObject at h
  split at h
  · exact (nomatch h)
  · cases h
    refine ⟨setTo_getD _ _, setTo_getD _ _, setTo_getD _ _, setTo_getD _ _, setTo_getD _ _, setTo_getD _ _, setTo_getD _ _,
      setTo_getD _ _, (setTo_getD kw.ctrl_nom _).1, fun hn => ?_, rfl, rfl⟩
    rw [show _ = _ from (setTo_getD kw.ctrl_nom ⟨1, 0, fun _ _ => 0⟩).2 hn]
    exact ⟨rfl, rfl⟩

/-- Not vacuous: an object with some arguments is created and has them. -/
example : ∃ p : Plan 1, newObject { weight := some 2, means := some [fun _ => 3], feedback := some [.zeros 1 1] } 1 = .ok p ∧
    p.means = [fun _ => 3] ∧ p.feedback = [.zeros 1 1] ∧ p.feedforward = [] ∧ p.weight = some 2 := by
  refine ⟨_, if_neg ?_, rfl, rfl, rfl, rfl⟩
  simp

/-! ### C48 -/

theorem freshPlan_ok {n : ℕ} {h : ℕ} {est : Est n} {ii : ℕ} {c : Comp n} {p : Plan n} (hp : freshPlan h est ii c = .ok p) :
    ∃ (m : ℕ) (fs is : List (Dyn n)) (u : Arr), est.nIn[ii]? = some m ∧ est.dyn[ii]? = some fs ∧ est.invDyn[ii]? = some is ∧
      nominal est ii m = .ok u ∧
      p.means = List.replicate h c.mean ∧ p.ctrlInputs = ⟨0, [[]]⟩ ∧
      p.ctrlInput = some ⟨m, List.replicate h (List.replicate m 0)⟩ ∧
      p.feedforward = List.replicate h (.zeros u.rows 1) ∧ p.feedback = List.replicate h (.zeros u.rows n) ∧
      p.ctcMat = List.replicate h (.zeros n n) ∧ p.ctcVec = List.replicate h (.zeros n 1) ∧
      p.ctgMat = List.replicate h (.zeros n n) ∧ p.ctgVec = List.replicate h (.zeros n 1) ∧
      p.cov = c.cov ∧ p.weight = some c.weight ∧ p.dyn = fs ∧ p.invDyn = is ∧ p.nom = u := by
  unfold freshPlan at hp
  obtain ⟨m, h1, hp⟩ := bind_ok.1 hp
  obtain ⟨fs, h2, hp⟩ := bind_ok.1 hp
  obtain ⟨is, h3, hp⟩ := bind_ok.1 hp
  obtain ⟨u, h4, hp⟩ := bind_ok.1 hp
  cases hp
  exact ⟨m, fs, is, u, getE_ok.1 h1, getE_ok.1 h2, getE_ok.1 h3, h4, rfl, rfl, rfl, rfl, rfl, rfl, rfl, rfl, rfl, rfl, rfl, rfl,
    rfl, rfl⟩

/-- What a warm start consists of. -/
theorem warmPlan_ok {n : ℕ} {h : ℕ} {c : Comp n} {g p : Plan n} {m : ℕ} (hp : warmPlan h c g m = .ok p) :
    ∃ (ctrl : List (List ℝ)) (mid : List (Vec n)) (last : Vec n) (ff0 : Arr),
      assignTab (h - 1) m ⟨g.ctrlInputs.cols, g.ctrlInputs.rows.drop 1⟩ = .ok ctrl ∧
      assignRows (h - 2) (g.means.drop 2) = .ok mid ∧ lastRow g.dyn (c.mean :: mid) ctrl = .ok last ∧
      g.feedforward[0]? = some ff0 ∧
      p.means = (c.mean :: mid ++ [last]).take h ∧ p.ctrlInputs = ⟨m, ctrl ++ [List.replicate m 0]⟩ ∧ p.ctrlInput = none ∧
      p.feedforward = shiftAdd g.feedforward (.zeros ff0.rows ff0.cols) ∧
      p.feedback = shiftAdd g.feedback (.zeros ff0.rows ff0.cols) ∧
      shiftDup g.ctcMat = .ok p.ctcMat ∧ shiftDup g.ctgVec = .ok p.ctcVec ∧ shiftDup g.ctgMat = .ok p.ctgMat ∧
      shiftDup g.ctgVec = .ok p.ctgVec ∧
      p.cov = c.cov ∧ p.weight = some c.weight ∧ p.dyn = g.dyn ∧ p.invDyn = g.invDyn ∧ p.nom = g.nom := by
  unfold warmPlan at hp
  obtain ⟨ctrl, h1, hp⟩ := bind_ok.1 hp
  obtain ⟨mid, h2, hp⟩ := bind_ok.1 hp
  obtain ⟨last, h3, hp⟩ := bind_ok.1 hp
  obtain ⟨ff0, h4, hp⟩ := bind_ok.1 hp
  obtain ⟨x1, h5, hp⟩ := bind_ok.1 hp
  obtain ⟨x2, h6, hp⟩ := bind_ok.1 hp
  obtain ⟨x3, h7, hp⟩ := bind_ok.1 hp
  obtain ⟨x4, h8, hp⟩ := bind_ok.1 hp
  cases hp
  exact ⟨ctrl, mid, last, ff0, h1, h2, h3, getE_ok.1 h4, rfl, rfl, rfl, rfl, rfl, h5, h6, h7, h8, rfl, rfl, rfl, rfl, rfl⟩

theorem zipIdx_fst {α : Type} (l : List α) : l.zipIdx.map Prod.fst = l := by simp

theorem initPlans_ok {n : ℕ} {thr : Option ℝ} {h : ℕ} {est : Est n} {meas : List (Comp n)} {gs : List (Plan n)}
    (hok : (initPlans thr h est meas gs).err = none) :
    ∃ a : List (Option ℕ), a.length = meas.length ∧ (initPlans thr h est meas gs).new.length = meas.length ∧
      (initPlans thr h est meas gs).old = (gs.zipIdx.filter fun x => some x.2 ∉ a).map Prod.fst ∧
      ∀ (k : ℕ) (c : Comp n) (p : Plan n), meas[k]? = some c → (initPlans thr h est meas gs).new[k]? = some p →
        Chosen thr h est gs.zipIdx a 0 k c p := by
  have := initLoop_ok (thr := thr) (h := h) (est := est) meas 0 gs.zipIdx (zipIdx_pairwise gs) (by rw [zipIdx_fst]; exact hok)
  rw [zipIdx_fst] at this
  exact this

/-- The distance of measurement `k` from the previous plan `j`. -/
noncomputable def distTo {n : ℕ} (meas : List (Comp n)) (gs : List (Plan n)) (k j : ℕ) : ℝ :=
  match meas[k]?, gs[j]? with
  | some c, some g => planDist c g
  | _, _ => 0

theorem distTo_eq {n : ℕ} {meas : List (Comp n)} {gs : List (Plan n)} {k j : ℕ} {c : Comp n} {g : Plan n}
    (h1 : meas[k]? = some c) (h2 : gs[j]? = some g) : distTo meas gs k j = planDist c g := by
  unfold distTo
  rw [h1, h2]

theorem head_of_plan {n : ℕ} {thr : Option ℝ} {h : ℕ} {est : Est n} {l : List (Plan n × ℕ)} {a : List (Option ℕ)} {ii k : ℕ}
    {c : Comp n} {p : Plan n} (hc : Chosen thr h est l a ii k c p) (hk : k < a.length) :
    p.means.head? = some c.mean ∧ p.cov = c.cov ∧ p.weight = some c.weight := by
  have hpos : 0 < h := Nat.pos_of_ne_zero hc.horizon
  obtain ⟨o, ho⟩ : ∃ o, a[k]? = some o := ⟨a[k], List.getElem?_eq_getElem hk⟩
  cases o with
  | none =>
    obtain ⟨m, fs, is, u, _, _, _, _, e1, _, _, _, _, _, _, _, _, e2, e3, _⟩ := freshPlan_ok (hc.fresh ho).1
    refine ⟨?_, e2, e3⟩
    rw [e1]
    obtain ⟨h', rfl⟩ := Nat.exists_eq_succ_of_ne_zero hc.horizon
    rfl
  | some j =>
    obtain ⟨g, g0, j0, t, _, _, _, _, _, e, _⟩ := hc.warm j ho
    obtain ⟨ctrl, mid, last, ff0, _, _, _, _, e1, _, _, _, _, _, _, _, _, e2, e3, _⟩ := warmPlan_ok e
    refine ⟨?_, e2, e3⟩
    rw [e1]
    obtain ⟨h', rfl⟩ := Nat.exists_eq_succ_of_ne_zero hc.horizon
    rfl

/-- The choices are the greedy matching. -/
theorem greedy_of_chosen {n : ℕ} {thr : Option ℝ} {h : ℕ} {est : Est n} {meas : List (Comp n)} {gs : List (Plan n)}
    {a : List (Option ℕ)} (_hok : (initPlans thr h est meas gs).err = none) (a1 : a.length = meas.length)
    (a2 : (initPlans thr h est meas gs).new.length = meas.length)
    (a4 : ∀ (k : ℕ) (c : Comp n) (p : Plan n), meas[k]? = some c → (initPlans thr h est meas gs).new[k]? = some p →
        Chosen thr h est gs.zipIdx a 0 k c p) : Greedy meas.length gs.length (distTo meas gs) thr a := by
  refine ⟨a1, fun k hk => ?_⟩
  have hck : meas[k]? = some meas[k] := List.getElem?_eq_getElem hk
  have hpk := List.getElem?_eq_getElem (show k < (initPlans thr h est meas gs).new.length by rw [a2]; exact hk)
  have hch := a4 k _ _ hck hpk
  constructor
  · intro j hj
    obtain ⟨g, g0, j0, t, b1, b2, _, _, _, _, b7, b8, b9⟩ := hch.warm j hj
    have hgj : gs[j]? = some g := List.mem_zipIdx_iff_getElem?.1 b1
    refine ⟨(List.getElem?_eq_some_iff.1 hgj).1, b2, ⟨t, b7, by rw [distTo_eq hck hgj]; exact b8⟩, ?_⟩
    intro j' hj' hf
    have hgj' := List.getElem?_eq_getElem hj'
    rw [distTo_eq hck hgj, distTo_eq hck hgj']
    exact b9 (gs[j'], j') (List.mem_zipIdx_iff_getElem?.2 hgj') hf
  · intro hn t ht j' hj' hf
    have hgj' := List.getElem?_eq_getElem hj'
    rw [distTo_eq hck hgj']
    exact (hch.fresh hn).2 t ht (gs[j'], j') (List.mem_zipIdx_iff_getElem?.2 hgj') hf

/-- **C48.** For every list of previous plans, every measured mixture and all other arguments: if `initialize` raises no
exception there is exactly one new plan for each measured component, in the same order, with its weight and covariance and
starting at its mean; the previous plans are assigned to the measurements by the greedy rule (each component takes the
closest plan that is still free if it is within the threshold), so none is used twice; and the list of the previous plans
is left with those that were not used, in their old order. -/
theorem C48_matching {n : ℕ} (thr : Option ℝ) (h : ℕ) (est : Est n) (meas : List (Comp n)) (gs : List (Plan n))
    (hok : (initPlans thr h est meas gs).err = none) :
    (initPlans thr h est meas gs).new.length = meas.length ∧
    (∀ (k : ℕ) (c : Comp n) (p : Plan n), meas[k]? = some c → (initPlans thr h est meas gs).new[k]? = some p →
      p.means.head? = some c.mean ∧ p.cov = c.cov ∧ p.weight = some c.weight) ∧
    ∃ a : List (Option ℕ), Greedy meas.length gs.length (distTo meas gs) thr a ∧
      (∀ (k k' j : ℕ), a[k]? = some (some j) → a[k']? = some (some j) → k = k') ∧
      (initPlans thr h est meas gs).old = (gs.zipIdx.filter fun x => some x.2 ∉ a).map Prod.fst := by
  obtain ⟨a, a1, a2, a3, a4⟩ := initPlans_ok hok
  have hg := greedy_of_chosen hok a1 a2 a4
  refine ⟨a2, fun k c p hc hp => head_of_plan (a4 k c p hc hp) ?_, a, hg, ?_, a3⟩
  · rw [a1]; exact (List.getElem?_eq_some_iff.1 hc).1
  · have key : ∀ (k k' j : ℕ), k < k' → a[k]? = some (some j) → a[k']? = some (some j) → False := by
      intro k k' j hkk h1 h2
      have hk' : k' < meas.length := by rw [← a1]; exact (List.getElem?_eq_some_iff.1 h2).1
      exact ((hg.2 k' hk').1 j h2).2.1 k hkk h1
    intro k k' j h1 h2
    rcases Nat.lt_trichotomy k k' with hlt | heq | hlt
    · exact absurd (key k k' j hlt h1 h2) id
    · exact heq
    · exact absurd (key k' k j hlt h2 h1) id

/-- No measurements: no plans, and the list of the previous ones is untouched. -/
theorem C48_empty {n : ℕ} (thr : Option ℝ) (h : ℕ) (est : Est n) (gs : List (Plan n)) :
    initPlans thr h est [] gs = ⟨none, [], gs⟩ := rfl

/-- **C48, without previous plans.** `initialize` succeeds whenever the horizon is positive and there are enough dynamics and
input numbers for the measurements, and every plan stays at the measured mean with zero control; it has the covariance
and weight of the measured component, the dynamics and nominal control given for it (a zero column if none is given),
and zero gains and costs of the right shapes. -/
theorem C48_fresh {n : ℕ} (thr : Option ℝ) (h : ℕ) (hh : h ≠ 0) (est : Est n) (meas : List (Comp n))
    (h1 : meas.length ≤ est.dyn.length) (h2 : meas.length ≤ est.invDyn.length) (h3 : meas.length ≤ est.nIn.length)
    (h4 : ∀ l, est.nom = some l → meas.length ≤ l.length) :
    (initPlans thr h est meas []).err = none ∧ (initPlans thr h est meas []).old = [] ∧
    ∀ (k : ℕ) (c : Comp n) (p : Plan n), meas[k]? = some c → (initPlans thr h est meas []).new[k]? = some p →
      p.means = List.replicate h c.mean ∧ p.cov = c.cov ∧ p.weight = some c.weight ∧
      est.dyn[k]? = some p.dyn ∧ est.invDyn[k]? = some p.invDyn ∧
      (∃ m : ℕ, est.nIn[k]? = some m ∧ p.ctrlInput = some ⟨m, List.replicate h (List.replicate m 0)⟩ ∧
        (est.nom = none → p.nom = ⟨m, 1, fun _ _ => 0⟩)) ∧
      (∀ l, est.nom = some l → l[k]? = some p.nom) ∧
      p.feedforward = List.replicate h ⟨p.nom.rows, 1, fun _ _ => 0⟩ ∧
      p.feedback = List.replicate h ⟨p.nom.rows, n, fun _ _ => 0⟩ ∧
      p.ctcMat = List.replicate h ⟨n, n, fun _ _ => 0⟩ ∧ p.ctcVec = List.replicate h ⟨n, 1, fun _ _ => 0⟩ ∧
      p.ctgMat = List.replicate h ⟨n, n, fun _ _ => 0⟩ ∧ p.ctgVec = List.replicate h ⟨n, 1, fun _ _ => 0⟩ := by
  have herr : ∀ (cs : List (Comp n)) (ii : ℕ), ii + cs.length ≤ meas.length →
      (initLoop thr h est ii cs []).err = none ∧ (initLoop thr h est ii cs []).old = [] := by
    intro cs
    induction cs with
    | nil => intro ii _; exact ⟨rfl, rfl⟩
    | cons c cs ih =>
      intro ii hle
      rw [List.length_cons] at hle
      rw [initLoop_cons]
      have hp : ∃ p, freshPlan h est ii c = .ok p := by
        unfold freshPlan getE
        rw [List.getElem?_eq_getElem (show ii < est.nIn.length by omega),
          List.getElem?_eq_getElem (show ii < est.dyn.length by omega),
          List.getElem?_eq_getElem (show ii < est.invDyn.length by omega)]
        have hu : ∃ u, nominal est ii est.nIn[ii] = .ok u := by
          unfold nominal
          cases hn : est.nom with
          | none => exact ⟨_, rfl⟩
          | some l =>
            have := h4 l hn
            exact ⟨l[ii], getE_ok.2 (List.getElem?_eq_getElem _)⟩
        obtain ⟨u, hu⟩ := hu
        show ∃ p, (nominal est ii est.nIn[ii] >>= _) = .ok p
        rw [hu]
        exact ⟨_, rfl⟩
      obtain ⟨p, hp⟩ := hp
      have ho : initOne thr h est ii c [] = .ok (p, []) := by
        unfold initOne
        show (if h = 0 then _ else _) = _
        rw [if_neg hh]
        show (freshPlan h est ii c >>= _) = _
        rw [hp]; rfl
      rw [ho]
      exact ih (ii + 1) (by omega)
  obtain ⟨e1, e2⟩ := herr meas 0 (by omega)
  refine ⟨e1, e2, ?_⟩
  obtain ⟨a, a1, a2, a3, a4⟩ := initPlans_ok (thr := thr) (h := h) (est := est) (meas := meas) (gs := []) e1
  intro k c p hc hp
  have hch := a4 k c p hc hp
  have hk : k < a.length := by rw [a1]; exact (List.getElem?_eq_some_iff.1 hc).1
  have hf := List.getElem?_eq_getElem hk
  cases hak : a[k] with
  | none =>
    rw [hak] at hf
    obtain ⟨m, fs, is, u, b1, c1, c2, c3, b2, _, b3, d1, d2, d3, d4, d5, d6, d7, d8, d9, d10, d11⟩ :=
      freshPlan_ok (hch.fresh hf).1
    subst d9 d10 d11
    refine ⟨b2, d7, d8, by simpa using c1, by simpa using c2, ⟨m, by simpa using b1, b3, fun h0 => ?_⟩, fun l hl => ?_,
      d1, d2, d3, d4, d5, d6⟩
    · unfold nominal at c3
      rw [h0] at c3
      exact (Except.ok.inj c3).symm
    · unfold nominal at c3
      rw [hl] at c3
      simpa using getE_ok.1 c3
  | some j =>
    rw [hak] at hf
    obtain ⟨g, g0, j0, t, b1, _⟩ := hch.warm j hf
    simp at b1

/-! ### C73 -/

theorem shiftAdd_shifted {α : Type} (l : List α) (a : α) (h : l ≠ []) : Shifted l (shiftAdd l a) a := by
  have hl := List.length_pos_iff.2 h
  refine ⟨by simp [shiftAdd]; omega, ?_, by simp [shiftAdd]⟩
  intro i hi
  unfold shiftAdd
  rw [List.getElem?_append_left (by simp; omega), List.getElem?_drop]
  congr 1; omega

theorem shiftDup_shifted {α : Type} {l l' : List α} (h : shiftDup l = .ok l') : ∃ a, l.getLast? = some a ∧ Shifted l l' a := by
  obtain ⟨a, h1, h2⟩ := bind_ok.1 (show (lastE (l.drop 1) >>= fun a => .ok (shiftAdd l a)) = .ok l' from h)
  cases h2
  rw [lastE_ok] at h1
  have hne : l ≠ [] := by rintro rfl; simp at h1
  refine ⟨a, ?_, shiftAdd_shifted l a hne⟩
  rw [List.getLast?_eq_getElem?] at h1 ⊢
  rw [List.getElem?_drop] at h1
  rw [← h1]
  have : (l.drop 1).length - 1 < (l.drop 1).length := by
    by_contra hc
    rw [List.length_drop] at *
    rw [List.getElem?_eq_none (by omega)] at h1
    exact (nomatch h1)
  rw [List.length_drop] at *
  congr 1; omega

/-- A warm start moves a complete plan on. -/
theorem warm_movedOn {n : ℕ} {h m : ℕ} (hh : 2 ≤ h) (hn : 0 < n) {c : Comp n} {g p : Plan n} (hg : Complete h m g)
    (hp : warmPlan h c g m = .ok p) : MovedOn h m c g p := by
  obtain ⟨ctrl, mid, last, ff0, e1, e2, e3, e4, f1, f2, f3, f4, f5, f6, f7, f8, f9, f10, f11, f12, f13, f14⟩ := warmPlan_ok hp
  have hctrl : ctrl = g.ctrlInputs.rows.drop 1 := by
    unfold assignTab at e1
    rw [if_pos hg.cols] at e1
    unfold assignRows at e1
    rw [if_pos (by show (g.ctrlInputs.rows.drop 1).length = h - 1; rw [List.length_drop, hg.rows])] at e1
    exact (Except.ok.inj e1).symm
  have hmid : mid = g.means.drop 2 := by
    unfold assignRows at e2
    rw [if_pos (by rw [List.length_drop, hg.means])] at e2
    exact (Except.ok.inj e2).symm
  subst hctrl hmid
  have hmeans : p.means = c.mean :: g.means.drop 2 ++ [last] := by
    rw [f1]
    apply List.take_of_length_le
    simp [hg.means]
    omega
  have hlen : p.means.length = h := by
    rw [hmeans]; simp [hg.means]; omega
  have hff : g.feedforward ≠ [] := by rintro h0; rw [h0] at e4; simp at e4
  have hfb : g.feedback ≠ [] := by rintro h0; have := hg.feedback; rw [h0] at this; simp at this; omega
  have hrows : g.ctrlInputs.rows ≠ [] := by rintro h0; have := hg.rows; rw [h0] at this; simp at this; omega
  obtain ⟨a1, la1, s1⟩ := shiftDup_shifted f6
  obtain ⟨a2, la2, s2⟩ := shiftDup_shifted f7
  obtain ⟨a3, la3, s3⟩ := shiftDup_shifted f8
  obtain ⟨a4, la4, s4⟩ := shiftDup_shifted f9
  have sff := shiftAdd_shifted g.feedforward (.zeros ff0.rows ff0.cols) hff
  have sfb := shiftAdd_shifted g.feedback (.zeros ff0.rows ff0.cols) hfb
  have scr : Shifted g.ctrlInputs.rows p.ctrlInputs.rows (List.replicate m 0) := by
    rw [f2]; exact shiftAdd_shifted g.ctrlInputs.rows (List.replicate m 0) hrows
  refine ⟨⟨hlen, by rw [f2], by rw [scr.1, hg.rows], by rw [f4, sff.1, hg.feedforward], by rw [f5, sfb.1, hg.feedback],
    by rw [s1.1, hg.ctcMat], by rw [s2.1, hg.ctgVec], by rw [s3.1, hg.ctgMat], by rw [s4.1, hg.ctgVec],
    by rw [f12, hg.dyn]⟩, by rw [hmeans]; rfl, ?_, ?_, scr, ⟨_, by rw [f4]; exact sff, fun _ _ => rfl⟩,
    ⟨_, by rw [f5]; exact sfb, fun _ _ => rfl⟩, ⟨a1, la1, s1⟩, ⟨a3, la3, s3⟩, ⟨a4, la4, s4⟩, f12, f13, f14⟩
  · intro i hi hi'
    obtain ⟨i, rfl⟩ := Nat.exists_eq_succ_of_ne_zero (show i ≠ 0 by omega)
    rw [hmeans, List.cons_append, List.getElem?_cons_succ, List.getElem?_append_left (by simp [hg.means]; omega),
      List.getElem?_drop]
    congr 1; omega
  · have hdyn : g.dyn ≠ [] := by rintro h0; have := hg.dyn; rw [h0] at this; simp at this; omega
    unfold lastRow at e3
    rw [if_neg hdyn] at e3
    obtain ⟨x, e5, e3⟩ := bind_ok.1 e3
    obtain ⟨u, e6, e3⟩ := bind_ok.1 e3
    rw [lastE_ok] at e5 e6
    refine ⟨x, last, u, ?_, ?_, by rw [hmeans]; exact List.getLast?_concat, ?_⟩
    · rw [hmeans, List.getElem?_append_left (by simp [hg.means])]
      rw [List.getLast?_eq_getElem?] at e5
      rw [← e5]
      congr 1
      simp [hg.means]
    · rw [← e6, List.getLast?_eq_getElem?, List.getLast?_eq_getElem?, List.getElem?_drop, List.length_drop, hg.rows]
      congr 1; omega
    · intro i f hf
      unfold applyDyn at e3
      rw [if_pos hg.dyn.le] at e3
      have := Except.ok.inj e3
      rw [← this]
      show ((g.dyn[i.val]?).map fun f => f x u).getD _ = _
      rw [hf]; rfl

/-- **C73, partial.** For every list of complete previous plans of the same horizon (at least 2) with the same number of
inputs: if `initialize` raises no exception, every measured component that takes the previous plan `g` (in the greedy
matching of C48) gets a plan that is `g` moved on by one time step (`MovedOn`). *Missing:* the cost-to-come vectors
(`C73_refuted`), and the shape of the last feedback gain, which is that of a feedforward gain. -/
theorem C73_shift_partial {n : ℕ} (thr : Option ℝ) (h m : ℕ) (hh : 2 ≤ h) (hn : 0 < n) (est : Est n) (meas : List (Comp n))
    (gs : List (Plan n)) (hg : ∀ g ∈ gs, Complete h m g) (hok : (initPlans thr h est meas gs).err = none) :
    ∃ a : List (Option ℕ), Greedy meas.length gs.length (distTo meas gs) thr a ∧
      ∀ (k j : ℕ) (c : Comp n) (g p : Plan n), meas[k]? = some c → (initPlans thr h est meas gs).new[k]? = some p →
        a[k]? = some (some j) → gs[j]? = some g → MovedOn h m c g p := by
  obtain ⟨a, a1, a2, a3, a4⟩ := initPlans_ok hok
  refine ⟨a, greedy_of_chosen hok a1 a2 a4, ?_⟩
  intro k j c g p hc hp hj hgj
  obtain ⟨g', g0, j0, t, b1, _, b3, _, _, b6, _⟩ := (a4 k c p hc hp).warm j hj
  have e1 := List.mem_zipIdx_iff_getElem?.1 b1
  have e3 := List.mem_zipIdx_iff_getElem?.1 b3
  dsimp only at e1 e3
  rw [hgj] at e1
  cases e1
  rw [(hg g0 (List.mem_of_getElem? e3)).cols] at b6
  exact warm_movedOn hh hn (hg g (List.mem_of_getElem? hgj)) b6

/-- A complete plan whose second mean is the measured one is always taken over, if it is the only one. -/
theorem warm_exists {n : ℕ} {h m : ℕ} (hh : 2 ≤ h) (hn : 0 < n) {c : Comp n} {g : Plan n} (hg : Complete h m g) :
    ∃ p, warmPlan h c g m = .ok p := by
  have hd : ∀ {l : List Arr}, l.length = h → ∃ l', shiftDup l = .ok l' := by
    intro l hl
    have hne : l.drop 1 ≠ [] := by
      intro h0
      have := congrArg List.length h0
      simp [hl] at this
      omega
    obtain ⟨x, hx⟩ : ∃ x, lastE (l.drop 1) = .ok x := ⟨_, lastE_ok.2 (List.getLast?_eq_some_getLast hne)⟩
    unfold shiftDup
    rw [hx]
    exact ⟨_, rfl⟩
  have e1 : assignTab (h - 1) m ⟨g.ctrlInputs.cols, g.ctrlInputs.rows.drop 1⟩ = .ok (g.ctrlInputs.rows.drop 1) := by
    unfold assignTab
    rw [if_pos hg.cols]
    unfold assignRows
    rw [if_pos (by show (g.ctrlInputs.rows.drop 1).length = h - 1; rw [List.length_drop, hg.rows])]
  have e2 : assignRows (h - 2) (g.means.drop 2) = .ok (g.means.drop 2) := by
    unfold assignRows
    rw [if_pos (by rw [List.length_drop, hg.means])]
  have e3 : ∃ v, lastRow g.dyn (c.mean :: g.means.drop 2) (g.ctrlInputs.rows.drop 1) = .ok v := by
    unfold lastRow
    by_cases h0 : g.dyn = []
    · rw [if_pos h0]; exact ⟨_, rfl⟩
    · rw [if_neg h0]
      obtain ⟨x, hx⟩ : ∃ x, lastE (c.mean :: g.means.drop 2) = .ok x :=
        ⟨_, lastE_ok.2 (List.getLast?_eq_some_getLast (by simp))⟩
      obtain ⟨u, hu⟩ : ∃ u, lastE (g.ctrlInputs.rows.drop 1) = .ok u := by
        refine ⟨_, lastE_ok.2 (List.getLast?_eq_some_getLast ?_)⟩
        intro h0
        have := congrArg List.length h0
        simp [hg.rows] at this
        omega
      rw [hx, hu]
      show ∃ v, applyDyn _ _ _ _ = .ok v
      unfold applyDyn
      rw [if_pos hg.dyn.le]
      exact ⟨_, rfl⟩
  obtain ⟨v, e3⟩ := e3
  obtain ⟨f0, e4⟩ : ∃ f0, getE g.feedforward 0 = .ok f0 :=
    ⟨_, getE_ok.2 (List.getElem?_eq_getElem (by rw [hg.feedforward]; omega))⟩
  obtain ⟨l1, e5⟩ := hd hg.ctcMat
  obtain ⟨l2, e6⟩ := hd hg.ctgVec
  obtain ⟨l3, e7⟩ := hd hg.ctgMat
  unfold warmPlan
  rw [e1, show (Except.ok (g.ctrlInputs.rows.drop 1) : Except GErr _) >>= _ = _ from rfl]
  rw [e2]
  show ∃ p, (lastRow _ _ _ >>= _) = _
  rw [e3]
  show ∃ p, (getE _ _ >>= _) = _
  rw [e4]
  show ∃ p, (shiftDup _ >>= _) = _
  rw [e5]
  show ∃ p, (shiftDup _ >>= _) = _
  rw [e6]
  show ∃ p, (shiftDup _ >>= _) = _
  rw [e7]
  exact ⟨_, rfl⟩

theorem init_single {n : ℕ} {h m : ℕ} (hh : 2 ≤ h) (hn : 0 < n) {c : Comp n} {g : Plan n} (hg : Complete h m g) (t : ℝ)
    (ht : 0 < t) (hc : g.means[1]? = some c.mean) (hu : IsUnit g.cov.det) (est : Est n) :
    ∃ p, warmPlan h c g m = .ok p ∧ initPlans (some t) h est [c] [g] = ⟨none, [p], []⟩ := by
  obtain ⟨p, hp⟩ := warm_exists hh hn (c := c) hg
  refine ⟨p, hp, ?_⟩
  have hf : fit c.mean g = .ok 0 := by
    unfold fit
    rw [getE_ok.2 hc]
    show (invE g.cov >>= _) = _
    rw [invE_ok.2 ⟨hu, rfl⟩]
    show Except.ok _ = _
    rw [sub_self, zero_dotProduct]
  have hb : bestFit c.mean 0 [g] none = .ok (some (0, 0)) := by
    show (fit c.mean g >>= _) = _
    rw [hf]
    rfl
  have ho : initOne (some t) h est 0 c [g] = .ok (p, []) := by
    unfold initOne
    rw [hb]
    show (if h = 0 then _ else _) = _
    rw [if_neg (by omega)]
    have : matchIdx (some t) (some (0, 0)) = some 0 := by
      unfold matchIdx
      simp [ht]
    rw [this]
    show (warmPlan h c g g.ctrlInputs.cols >>= _) = _
    rw [hg.cols, hp]
    rfl
  unfold initPlans
  rw [initLoop_cons, ho]
  rfl

/-- The previous plan of the examples: one state variable, one input, two time steps, identity covariance. -/
noncomputable def exPlan : Plan 1 where
  means := [0, 1]
  ctrlInputs := ⟨1, [[3], [4]]⟩
  ctrlInput := none
  feedforward := [⟨1, 1, fun _ _ => 1⟩, ⟨1, 1, fun _ _ => 2⟩]
  feedback := [⟨1, 1, fun _ _ => 1⟩, ⟨1, 1, fun _ _ => 2⟩]
  ctcMat := [⟨1, 1, fun _ _ => 1⟩, ⟨1, 1, fun _ _ => 2⟩]
  ctcVec := [⟨1, 1, fun _ _ => 5⟩, ⟨1, 1, fun _ _ => 6⟩]
  ctgMat := [⟨1, 1, fun _ _ => 1⟩, ⟨1, 1, fun _ _ => 2⟩]
  ctgVec := [⟨1, 1, fun _ _ => 7⟩, ⟨1, 1, fun _ _ => 8⟩]
  cov := 1
  weight := some 1
  dyn := [fun x u => x 0 + u.headD 0]
  invDyn := [fun x u => x 0 - u.headD 0]
  nom := .zeros 1 1

theorem exPlan_complete : Complete 2 1 exPlan := ⟨rfl, rfl, rfl, rfl, rfl, rfl, rfl, rfl, rfl, rfl⟩

/-- **C73 is false of this code**: the cost-to-come vectors of a warm start are not the old ones moved by one. There are a
complete previous plan and a measured component at the state it predicts such that `initialize` succeeds, but the new
cost-to-come vectors are the cost-to-go vectors. (The concrete case also meets the hypotheses of `C73_shift_partial` and
`C48_matching` with a match.) -/
theorem C73_refuted (est : Est 1) : ∃ (c : Comp 1) (g p : Plan 1), Complete 2 1 g ∧
    initPlans (some 1) 2 est [c] [g] = ⟨none, [p], []⟩ ∧ (∃ a, Shifted g.ctgVec p.ctcVec a) ∧
    ¬ ∃ a, Shifted g.ctcVec p.ctcVec a := by
  obtain ⟨p, hp, hi⟩ := init_single (c := ⟨1, 1, 1 / 2⟩) (le_refl 2) Nat.one_pos exPlan_complete 1 one_pos rfl
    (by show IsUnit (det (1 : Mat 1)); simp) est
  obtain ⟨_, _, _, _, _, _, _, _, _, _, _, _, _, _, f7, _⟩ := warmPlan_ok hp
  obtain ⟨a, _, hs⟩ := shiftDup_shifted f7
  refine ⟨_, exPlan, p, exPlan_complete, hi, ⟨a, hs⟩, ?_⟩
  rintro ⟨b, hb⟩
  have h1 := hs.2.1 0 (by decide)
  have h2 := hb.2.1 0 (by decide)
  rw [h1] at h2
  have h3 := Option.some.inj h2
  have := congrArg (fun x : Arr => x.val 0 0) h3
  revert this
  show (8 : ℝ) = 6 → False
  norm_num

/-- Another plan, with two inputs and far away from the first. -/
noncomputable def exPlanTwo : Plan 1 := { exPlan with means := [0, 3], ctrlInputs := ⟨2, [[3, 3], [4, 5]]⟩ }

/-- **C73 is false of this code** also for plans with different numbers of inputs: the number of inputs of a warm start is
that of the *first* remaining plan, not that of the plan taken over. Here the plan taken over has one input with the
remaining value 4, and the new plan has two inputs with this value. -/
theorem C73_refuted_inputs (est : Est 1) : ∃ (c : Comp 1) (g₀ g p : Plan 1), Complete 2 2 g₀ ∧ Complete 2 1 g ∧
    g.ctrlInputs = ⟨1, [[3], [4]]⟩ ∧ initPlans (some 1) 2 est [c] [g₀, g] = ⟨none, [p], [g₀]⟩ ∧ p.dyn = g.dyn ∧
    p.ctrlInputs = ⟨2, [[4, 4], [0, 0]]⟩ := by
  have hinv : invE (1 : Mat 1) = .ok (1 : Mat 1) := by
    rw [invE_ok]
    refine ⟨by simp, by simp⟩
  have hw : ∃ p, warmPlan 2 ⟨1, 1, 1 / 2⟩ exPlan 2 = .ok p ∧ p.dyn = exPlan.dyn ∧
      p.ctrlInputs = ⟨2, [[4, 4], [0, 0]]⟩ := ⟨_, rfl, rfl, rfl⟩
  obtain ⟨p, hp, hd, hc⟩ := hw
  refine ⟨⟨1, 1, 1 / 2⟩, exPlanTwo, exPlan, p, ⟨rfl, rfl, rfl, rfl, rfl, rfl, rfl, rfl, rfl, rfl⟩, exPlan_complete, rfl, ?_,
    hd, hc⟩
  have hf : fit (1 : Vec 1) exPlanTwo = .ok 4 := by
    unfold fit
    show (invE (1 : Mat 1) >>= _) = _
    rw [hinv]
    show Except.ok _ = _
    congr 1
    simp only [one_mulVec]
    show ((1 : Vec 1) - 3) ⬝ᵥ ((1 : Vec 1) - 3) = 4
    simp [dotProduct]
    norm_num
  have hf' : fit (1 : Vec 1) exPlan = .ok 0 := by
    unfold fit
    show (invE (1 : Mat 1) >>= _) = _
    rw [hinv]
    show Except.ok _ = _
    rw [show ((1 : Vec 1) - 1) = 0 from sub_self _, zero_dotProduct]
  have hb : bestFit (1 : Vec 1) 0 [exPlanTwo, exPlan] none = .ok (some (1, 0)) := by
    show (fit (1 : Vec 1) exPlanTwo >>= _) = _
    rw [hf]
    show (fit (1 : Vec 1) exPlan >>= _) = _
    rw [hf']
    show Except.ok (better (some (0, 4)) 1 0) = _
    unfold better
    simp
  have ho : initOne (some 1) 2 est 0 ⟨1, 1, 1 / 2⟩ [exPlanTwo, exPlan] = .ok (p, [exPlanTwo]) := by
    unfold initOne
    rw [hb]
    have : matchIdx (some 1) (some (1, 0)) = some 1 := by
      unfold matchIdx
      simp
    refine (if_neg (c := (2 : ℕ) = 0) (t := Except.error GErr.index) (by omega)).trans ?_
    rw [this]
    show (warmPlan 2 ⟨1, 1, 1 / 2⟩ exPlan exPlanTwo.ctrlInputs.cols >>= fun q => .ok (q, [exPlanTwo])) = _
    rw [show exPlanTwo.ctrlInputs.cols = 2 from rfl, hp]
    rfl
  unfold initPlans
  rw [initLoop_cons, ho]
  rfl

end Gasur.Props
