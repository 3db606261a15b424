import Verif.Props.Elqr

/-!
# Property C103: plans made for another horizon are never reused
-/

namespace Gasur.Props

open Matrix Gasur.Spec Gasur.Guidance Gasur.Elqr

/-- Rows can be assigned if the numbers agree, or if there is a single row. -/
theorem assignRows_ok {α : Type} {k : ℕ} {src r : List α} (h : assignRows k src = .ok r) :
    (src.length = k ∧ r = src) ∨ (src.length = 1 ∧ r.length = k) := by
  unfold assignRows at h
  by_cases hk : src.length = k
  · rw [if_pos hk] at h
    exact .inl ⟨hk, (Except.ok.inj h).symm⟩
  · rw [if_neg hk] at h
    match src, h with
    | [], h => exact (nomatch h)
    | [a], h =>
      refine .inr ⟨rfl, ?_⟩
      rw [← Except.ok.inj h]
      simp
    | a :: b :: l, h => exact (nomatch h)

/-- A plan that is complete for the horizon `h'` can only be continued with the horizon `h'`. -/
theorem warm_horizon {n h h' m : ℕ} (hn : 0 < n) (hh : h ≠ 0) {c : Comp n} {g p : Plan n} (hg : Complete h' m g)
    (hp : warmPlan h c g m = .ok p) : h = h' := by
  obtain ⟨ctrl, mid, last, ff0, e1, e2, e3, _⟩ := warmPlan_ok hp
  unfold assignTab at e1
  rw [if_pos hg.cols] at e1
  have hc : ctrl ≠ [] := by
    rintro rfl
    unfold lastRow at e3
    rw [if_neg (by intro h0; have := hg.dyn; rw [h0] at this; simp at this; omega)] at e3
    obtain ⟨x, _, e3⟩ := bind_ok.1 e3
    obtain ⟨u, e4, _⟩ := bind_ok.1 e3
    exact (nomatch e4)
  have hcl := List.length_pos_iff.2 hc
  have l1 : (g.ctrlInputs.rows.drop 1).length = h' - 1 := by rw [List.length_drop, hg.rows]
  have l2 : (g.means.drop 2).length = h' - 2 := by rw [List.length_drop, hg.means]
  have a1 := assignRows_ok e1
  have a2 := assignRows_ok e2
  dsimp only at a1
  rw [l1] at a1
  rw [l2] at a2
  rcases a1 with ⟨b1, b2⟩ | ⟨b1, b2⟩
  · subst b2; omega
  · rcases a2 with ⟨c1, _⟩ | ⟨c1, _⟩ <;> omega

/-- **C103.** For every threshold, estimated dynamics, measured mixture and list of previous plans, at least one state
variable: if the previous plans are complete for a horizon other than the present one and `initialize` raises no exception,
then no measured component was within the threshold of a previous plan, no plan was reused or removed, and every new plan
stays at the measured mean over the present horizon. -/
theorem C103_other_horizon {n h h' m : ℕ} (hn : 0 < n) (hh : h ≠ h') (thr : Option ℝ) (est : Est n) (meas : List (Comp n))
    (gs : List (Plan n)) (hg : ∀ g ∈ gs, Complete h' m g) (hok : (initPlans thr h est meas gs).err = none) :
    (initPlans thr h est meas gs).old = gs ∧
    (∀ c ∈ meas, ∀ g ∈ gs, ∀ t, thr = some t → t ≤ planDist c g) ∧
    ∀ (k : ℕ) (c : Comp n) (p : Plan n), meas[k]? = some c → (initPlans thr h est meas gs).new[k]? = some p →
      p.means = List.replicate h c.mean := by
  obtain ⟨a, a1, a2, a3, a4⟩ := initPlans_ok hok
  have key : ∀ (k j : ℕ), a[k]? ≠ some (some j) := by
    intro k j hj
    have hk : k < meas.length := by rw [← a1]; exact (List.getElem?_eq_some_iff.1 hj).1
    have hc := a4 k _ _ (List.getElem?_eq_getElem hk) (List.getElem?_eq_getElem (by rw [a2]; exact hk))
    obtain ⟨g, g0, j0, t, b1, _, b3, _, _, b6, _⟩ := hc.warm j hj
    have hg1 := hg g (List.mem_of_getElem? (List.mem_zipIdx_iff_getElem?.1 b1))
    have hg0 := hg g0 (List.mem_of_getElem? (List.mem_zipIdx_iff_getElem?.1 b3))
    rw [hg0.cols] at b6
    exact hh (warm_horizon hn hc.horizon hg1 b6)
  have hnone : ∀ k, k < meas.length → a[k]? = some none := by
    intro k hk
    obtain ⟨o, ho⟩ : ∃ o, a[k]? = some o := ⟨a[k], List.getElem?_eq_getElem _⟩
    cases o with
    | none => exact ho
    | some j => exact absurd ho (key k j)
  refine ⟨?_, ?_, ?_⟩
  · rw [a3, List.filter_eq_self.2]
    · exact zipIdx_fst gs
    · intro x _
      simp only [decide_eq_true_eq]
      intro hx
      obtain ⟨k, hk⟩ := List.mem_iff_getElem?.1 hx
      exact key k _ hk
  · intro c hc g hgm t ht
    obtain ⟨k, hk⟩ := List.mem_iff_getElem?.1 hc
    obtain ⟨j, hj⟩ := List.mem_iff_getElem?.1 hgm
    have hkl := (List.getElem?_eq_some_iff.1 hk).1
    have hch := a4 k _ _ hk (List.getElem?_eq_getElem (by rw [a2]; exact hkl))
    exact (hch.fresh (hnone k hkl)).2 t ht (g, j) (List.mem_zipIdx_iff_getElem?.2 hj) (fun i _ => key i j)
  · intro k c p hc hp
    have hkl := (List.getElem?_eq_some_iff.1 hc).1
    have hch := a4 k c p hc hp
    obtain ⟨_, _, _, _, _, _, _, _, e, _⟩ := freshPlan_ok (hch.fresh (hnone k hkl)).1
    exact e

/-- **C103, the exception.** With a single previous plan of another horizon (at least two) and a component measured at the
state it predicts, `initialize` raises an exception, produces nothing, and the previous plan is still there. -/
theorem C103_refused {n h h' m : ℕ} (hn : 0 < n) (hh : h ≠ h') (t : ℝ) (ht : 0 < t) (est : Est n) (c : Comp n)
    (g : Plan n) (hg : Complete h' m g) (hc : g.means[1]? = some c.mean) :
    ∃ e, initPlans (some t) h est [c] [g] = ⟨some e, [], [g]⟩ := by
  cases ho : initOne (some t) h est 0 c [g] with
  | error e =>
    refine ⟨e, ?_⟩
    unfold initPlans
    rw [initLoop_cons, ho]
  | ok r =>
    exfalso
    have hok : (initPlans (some t) h est [c] [g]).err = none := by
      unfold initPlans
      rw [initLoop_cons, ho]
      rfl
    have h1 := (C103_other_horizon hn hh (some t) est [c] [g] (by simpa using hg) hok).2.1 c (by simp) g (by simp) t rfl
    have h2 : planDist c g = 0 := by
      unfold planDist
      rw [List.getD_eq_getElem?_getD, hc]
      simp
    rw [h2] at h1
    exact absurd h1 (not_le.2 ht)

/-- The plan of the other examples has the horizon two; a horizon of five is refused. -/
example (est : Est 1) : ∃ e, initPlans (some 1) 5 est [⟨1, 1, 1 / 2⟩] [exPlan] = ⟨some e, [], [exPlan]⟩ :=
  C103_refused Nat.one_pos (by decide) 1 one_pos est _ exPlan exPlan_complete rfl

/-- And a component far from the plan makes a fresh plan of horizon five. -/
example : ∃ (est : Est 1) (c : Comp 1), (initPlans (some 1) 5 est [c] [exPlan]).err = none := by
  refine ⟨⟨[[]], [[]], [1], none⟩, ⟨3, 1, 1⟩, ?_⟩
  have hf : fit (3 : Vec 1) exPlan = .ok 4 := by
    unfold fit
    rw [show getE exPlan.means 1 = .ok (1 : Vec 1) from rfl]
    show (invE exPlan.cov >>= _) = _
    rw [invE_ok.2 ⟨by show IsUnit (det (1 : Mat 1)); simp, rfl⟩]
    show Except.ok _ = _
    congr 1
    show ((3 : Vec 1) - 1) ⬝ᵥ (1 : Mat 1)⁻¹ *ᵥ ((3 : Vec 1) - 1) = 4
    simp [dotProduct]
    norm_num
  have ho : ∃ r, initOne (some 1) 5 ⟨[[]], [[]], [1], none⟩ 0 ⟨3, 1, 1⟩ [exPlan] = .ok r := by
    unfold initOne
    rw [show bestFit (3 : Vec 1) 0 [exPlan] none = .ok (some (0, 4)) from by
      show (fit 3 exPlan >>= _) = _
      rw [hf]; rfl]
    have h5 : ∀ {α : Type} (x y : α), (if 5 = 0 then x else y) = y := fun x y => if_neg (by decide)
    have hb : ∀ {α β : Type} (a : α) (f : α → Except GErr β), (Except.ok a >>= f) = f a := fun a f => rfl
    simp only [hb, h5]
    have : matchIdx (some 1) (some (0, 4)) = none := by
      unfold matchIdx
      norm_num
    rw [this]
    exact ⟨_, rfl⟩
  obtain ⟨r, ho⟩ := ho
  unfold initPlans
  rw [initLoop_cons, ho]
  rfl

end Gasur.Props
