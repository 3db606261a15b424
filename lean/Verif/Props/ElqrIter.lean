import Verif.Proofs.ElqrIter
import Verif.Props.Elqr
import Verif.Props.Density

/-!
# Properties C74, C75, C77, C78: `iterate` of the extended LQR guidance
-/

namespace Gasur.Props

open Matrix Gasur.Spec Gasur.Guidance Gasur.Elqr

/-! ### C74 -/

theorem loop_no_ctrl {n : ℕ} {cf : Conf n} (hh : 2 ≤ cf.horizon) {t : ℕ} {old : Option ℝ} {gs gs' : List (Plan n)}
    {xs : List (Vec n)} (h : iterLoop cf (t + 1) old gs xs = .ok gs') : ∀ g ∈ gs, g.ctrlInput ≠ none := by
  intro g hg hn
  rw [iterLoop_succ] at h
  obtain ⟨⟨g1, ys, c⟩, h1, _⟩ := bind_ok.1 h
  obtain ⟨g1', _, _, _, _, h2, _⟩ := round_ok h1
  obtain ⟨k, hk⟩ : ∃ k, cf.horizon - 1 = k + 1 := ⟨cf.horizon - 2, by omega⟩
  rw [hk, List.range_succ_eq_map] at h2
  obtain ⟨s1, h3, _⟩ := bind_ok.1 (show (fwdStep cf.ext xs 0 gs >>= fun s' => loopE (fwdStep cf.ext xs) _ s') = .ok g1' from h2)
  unfold fwdStep at h3
  obtain ⟨cur, _, h3⟩ := bind_ok.1 h3
  obtain ⟨gs1, h4, _⟩ := bind_ok.1 h3
  obtain ⟨k', b, h5⟩ := mapIdxE_mem h4 hg
  obtain ⟨t', u, h6, _⟩ := ctrlStep_ok h5
  rw [hn] at h6
  exact (nomatch h6)

/-- The rounds only start if the horizon is at least two. -/
theorem two_le_horizon {n : ℕ} {thr : Option ℝ} {h : ℕ} {est : Est n} {meas : List (Comp n)} {gs : List (Plan n)}
    (hok : (initPlans thr h est meas gs).err = none) (hne : (initPlans thr h est meas gs).new ≠ []) {xs : List (Vec n)}
    (hx : mapIdxE (fun _ g => getE g.means 1) 0 (initPlans thr h est meas gs).new = .ok xs) : 2 ≤ h := by
  obtain ⟨a, a1, a2, _, a4⟩ := initPlans_ok hok
  have hpos := List.length_pos_iff.2 hne
  set p := (initPlans thr h est meas gs).new[0] with hp
  have hpm : p ∈ (initPlans thr h est meas gs).new := List.getElem_mem _
  obtain ⟨k, x, hx1⟩ := mapIdxE_mem hx hpm
  have hl : 1 < p.means.length := (List.getElem?_eq_some_iff.1 (getE_ok.1 hx1)).1
  have hch := a4 0 meas[0] p (List.getElem?_eq_getElem (by omega)) (List.getElem?_eq_getElem hpos)
  have hk : 0 < a.length := by omega
  have hf := List.getElem?_eq_getElem hk
  cases hak : a[0] with
  | none =>
    rw [hak] at hf
    obtain ⟨m, fs, is, u, _, _, _, _, b2, _⟩ := freshPlan_ok (hch.fresh hf).1
    rw [b2, List.length_replicate] at hl
    exact hl
  | some j =>
    rw [hak] at hf
    obtain ⟨g, g0, j0, t, _, _, _, _, _, b6, _⟩ := hch.warm j hf
    obtain ⟨_, _, _, _, _, _, _, _, f1, _⟩ := warmPlan_ok b6
    rw [f1, List.length_take] at hl
    omega

/-- If every choice is "none", every measurement is outside the gates of all plans. -/
theorem far_of_greedy {m p : ℕ} {D : ℕ → ℕ → ℝ} {thr : Option ℝ} {a : List (Option ℕ)} (hg : Greedy m p D thr a)
    (ha : ∀ o ∈ a, o = none) : ∀ k < m, ∀ j < p, ∀ t, thr = some t → t ≤ D k j := by
  intro k hk j hj t ht
  have hka : k < a.length := by rw [hg.1]; exact hk
  have hak : a[k]? = some none := by
    rw [List.getElem?_eq_getElem hka, ha _ (List.getElem_mem _)]
  refine (hg.2 k hk).2 hak t ht j hj ?_
  intro i _ hi
  exact absurd (ha _ (List.mem_of_getElem? hi)) (by simp)

/-- **C74 is false of this code**: the plans of one call of `iterate` are never used by the next one. For every list of
previous plans (wherever they come from), every measured mixture and every behaviour of the inherited methods: whenever at
least one round is to be done and `iterate` returns, every measured component was outside the gate of every previous plan.
In other words, if a measured component is within the gate of a previous plan, `iterate` raises an exception. -/
theorem C74_refuted {n : ℕ} (cf : Conf n) (hm : 1 ≤ cf.maxIters) (thr : Option ℝ) (est : Est n) (meas : List (Comp n))
    (gs gs' : List (Plan n)) (h : iterate cf thr est meas gs = .ok gs') :
    ∀ k < meas.length, ∀ j < gs.length, ∀ t, thr = some t → t ≤ distTo meas gs k j := by
  obtain ⟨hok, hcase⟩ := iterate_ok h
  obtain ⟨a, a1, a2, a3, a4⟩ := initPlans_ok hok
  rcases hcase with ⟨h1, _⟩ | ⟨h1, xs, hx, h2⟩
  · intro k hk
    rw [h1] at a2
    simp at a2
    omega
  · have hh := two_le_horizon hok h1 hx
    obtain ⟨t, ht⟩ := Nat.exists_eq_succ_of_ne_zero (show cf.maxIters ≠ 0 by omega)
    rw [ht] at h2
    have hn := loop_no_ctrl hh h2
    apply far_of_greedy (greedy_of_chosen hok a1 a2 a4)
    intro o ho
    obtain ⟨k, hk, rfl⟩ := List.getElem_of_mem ho
    cases hak : a[k] with
    | none => rfl
    | some j =>
      have hkm : k < meas.length := by omega
      have hkn : k < (initPlans thr cf.horizon est meas gs).new.length := by omega
      have hch := a4 k meas[k] _ (List.getElem?_eq_getElem hkm) (List.getElem?_eq_getElem hkn)
      obtain ⟨g, g0, j0, t', _, _, _, _, _, b6, _⟩ := hch.warm j (by rw [List.getElem?_eq_getElem hk, hak])
      obtain ⟨_, _, _, _, _, _, _, _, _, _, f3, _⟩ := warmPlan_ok b6
      exact absurd f3 (hn _ (List.getElem_mem _))

/-- The lists of plans that an object created without plans can have: after any number of calls of `initialize` (that succeed
or fail) and of `iterate` (that return), with any arguments. -/
inductive Reach {n : ℕ} : List (Plan n) → Prop
  | start : Reach []
  | init (thr : Option ℝ) (h : ℕ) (est : Est n) (meas : List (Comp n)) {gs : List (Plan n)} : Reach gs →
      Reach (initPlans thr h est meas gs).self
  | iterate (cf : Conf n) (thr : Option ℝ) (est : Est n) (meas : List (Comp n)) {gs gs' : List (Plan n)} : Reach gs →
      iterate cf thr est meas gs = .ok gs' → Reach gs'

/-- The loop only removes plans from the list. -/
theorem initLoop_old {n : ℕ} (thr : Option ℝ) (h : ℕ) (est : Est n) : ∀ (cs : List (Comp n)) (ii : ℕ) (gs : List (Plan n)),
    (initLoop thr h est ii cs gs).old.Sublist gs := by
  intro cs
  induction cs with
  | nil => intro ii gs; exact List.Sublist.refl _
  | cons c cs ih =>
    intro ii gs
    rw [initLoop_cons]
    cases ho : initOne thr h est ii c gs with
    | error e => exact List.Sublist.refl _
    | ok r =>
      obtain ⟨p, gs'⟩ := r
      dsimp only
      refine (ih (ii + 1) gs').trans ?_
      rcases (initOne_ok ho).2 with ⟨rfl, _⟩ | ⟨j, g0, g, t, _, _, rfl, _⟩
      · exact List.Sublist.refl _
      · exact List.eraseIdx_sublist ..

/-- A warm start from plans with the default table of control inputs. -/
theorem warm_default {n : ℕ} {h : ℕ} {c : Comp n} {g p : Plan n} (hg : g.ctrlInputs = ⟨0, [[]]⟩)
    (hp : warmPlan h c g 0 = .ok p) : h ≤ 1 ∧ p.ctrlInputs = ⟨0, [[]]⟩ := by
  obtain ⟨ctrl, _, _, _, e1, _, _, _, _, f2, _⟩ := warmPlan_ok hp
  rw [hg] at e1
  have e2 : (if 0 = h - 1 then .ok [] else .error .value : Except GErr (List (List ℝ))) = .ok ctrl := e1
  by_cases hh : 0 = h - 1
  · rw [if_pos hh] at e2
    have := Except.ok.inj e2
    subst this
    exact ⟨by omega, f2⟩
  · rw [if_neg hh] at e2
    exact (nomatch e2)

theorem new_default {n : ℕ} {thr : Option ℝ} {h : ℕ} {est : Est n} {meas : List (Comp n)} {gs : List (Plan n)}
    (hg : ∀ g ∈ gs, g.ctrlInputs = ⟨0, [[]]⟩) (hok : (initPlans thr h est meas gs).err = none) :
    (∀ g ∈ (initPlans thr h est meas gs).new, g.ctrlInputs = ⟨0, [[]]⟩) ∧
    (2 ≤ h → ∀ k < meas.length, ∀ j < gs.length, ∀ t, thr = some t → t ≤ distTo meas gs k j) := by
  obtain ⟨a, a1, a2, a3, a4⟩ := initPlans_ok hok
  have hw : ∀ (k j : ℕ) (c : Comp n) (p : Plan n), meas[k]? = some c → (initPlans thr h est meas gs).new[k]? = some p →
      a[k]? = some (some j) → h ≤ 1 ∧ p.ctrlInputs = ⟨0, [[]]⟩ := by
    intro k j c p hc hp hj
    obtain ⟨g, g0, j0, t, b1, _, b3, _, _, b6, _⟩ := (a4 k c p hc hp).warm j hj
    have e1 := List.mem_zipIdx_iff_getElem?.1 b1
    have e3 := List.mem_zipIdx_iff_getElem?.1 b3
    rw [hg g0 (List.mem_of_getElem? e3)] at b6
    exact warm_default (hg g (List.mem_of_getElem? e1)) b6
  have hget : ∀ (k : ℕ) (hk : k < meas.length) (hk' : k < (initPlans thr h est meas gs).new.length) (o : Option ℕ),
      a[k]? = some o → (∀ j, o = some j → h ≤ 1 ∧ ((initPlans thr h est meas gs).new[k]).ctrlInputs = ⟨0, [[]]⟩) := by
    rintro k hk hk' o ho j rfl
    exact hw k j _ _ (List.getElem?_eq_getElem hk) (List.getElem?_eq_getElem hk') ho
  constructor
  · intro p hp
    obtain ⟨k, hk, rfl⟩ := List.getElem_of_mem hp
    have hkm : k < meas.length := by omega
    have hka : k < a.length := by omega
    have hf := List.getElem?_eq_getElem hka
    cases hak : a[k] with
    | none =>
      rw [hak] at hf
      obtain ⟨m, fs, is, u, _, _, _, _, _, b2, _⟩ := freshPlan_ok
        ((a4 k _ _ (List.getElem?_eq_getElem hkm) (List.getElem?_eq_getElem hk)).fresh hf).1
      exact b2
    | some j =>
      rw [hak] at hf
      exact (hget k hkm hk _ hf j rfl).2
  · intro hh
    apply far_of_greedy (greedy_of_chosen hok a1 a2 a4)
    intro o ho
    obtain ⟨k, hk, rfl⟩ := List.getElem_of_mem ho
    cases hak : a[k] with
    | none => rfl
    | some j =>
      have := (hget k (by omega) (by omega) _ (List.getElem?_eq_getElem hk) j hak).1
      omega

theorem reach_default {n : ℕ} {gs : List (Plan n)} (h : Reach gs) : ∀ g ∈ gs, g.ctrlInputs = ⟨0, [[]]⟩ := by
  induction h with
  | start => intro g hg; simp at hg
  | init thr h est meas _ ih =>
    unfold Inited.self
    split
    · rename_i hok
      exact (new_default ih hok).1
    · intro g hg
      exact ih g ((initLoop_old thr h est meas 0 _).subset hg)
  | @iterate cf thr est meas gs0 gs1 _ hi ih =>
    intro g hg
    have hfr := iterate_frame hi
    obtain ⟨k, hk, rfl⟩ := List.getElem_of_mem hg
    have hk' : k < (initPlans thr cf.horizon est meas gs0).new.length := by rw [← hfr.length]; exact hk
    rw [(hfr.get (List.getElem?_eq_getElem hk') (List.getElem?_eq_getElem hk)).ctrlInputs]
    exact (new_default ih (iterate_ok hi).1).1 _ (List.getElem_mem _)

/-- **C74 is false of this code, `initialize`.** Whatever calls were made before on an object created without plans, with a
horizon of at least two: if `initialize` returns, every measured component was outside the gate of every previous plan; a
component inside a gate makes it raise an exception (the control inputs of the previous plan are an empty table). -/
theorem C74_initialize_refuted {n : ℕ} (gs : List (Plan n)) (hr : Reach gs) (thr : Option ℝ) (h : ℕ) (hh : 2 ≤ h) (est : Est n)
    (meas : List (Comp n)) (hok : (initPlans thr h est meas gs).err = none) :
    ∀ k < meas.length, ∀ j < gs.length, ∀ t, thr = some t → t ≤ distTo meas gs k j :=
  (new_default (reach_default hr) hok).2 hh

/-! ### C79: what a call returns -/

/-- **C79.** For all arguments and all behaviours of the inherited methods: if `iterate` returns, the plans are again one for
each measured component, in the same order, with its weight and covariance, the number of means being the horizon. -/
theorem C79_plans {n : ℕ} (cf : Conf n) (hm : 1 ≤ cf.maxIters) (thr : Option ℝ) (est : Est n) (meas : List (Comp n))
    (gs gs' : List (Plan n)) (h : iterate cf thr est meas gs = .ok gs') :
    gs'.length = meas.length ∧ ∀ (k : ℕ) (c : Comp n) (p : Plan n), meas[k]? = some c → gs'[k]? = some p →
      p.cov = c.cov ∧ p.weight = some c.weight ∧ p.means.length = cf.horizon ∧
      est.dyn[k]? = some p.dyn ∧ est.invDyn[k]? = some p.invDyn := by
  obtain ⟨hok, hcase⟩ := iterate_ok h
  have hfr := iterate_frame h
  obtain ⟨a, a1, a2, a3, a4⟩ := initPlans_ok hok
  refine ⟨hfr.length.trans a2, fun k c p hc hp => ?_⟩
  have hk : k < (initPlans thr cf.horizon est meas gs).new.length := by
    rw [a2]; exact (List.getElem?_eq_some_iff.1 hc).1
  have hf := hfr.get (List.getElem?_eq_getElem hk) hp
  have hch := a4 k c _ hc (List.getElem?_eq_getElem hk)
  have hnew : (initPlans thr cf.horizon est meas gs).new ≠ [] := List.length_pos_iff.1 (by omega)
  rcases hcase with ⟨h1, _⟩ | ⟨_, xs, hx, h2⟩
  · exact absurd h1 hnew
  obtain ⟨t, ht⟩ := Nat.exists_eq_succ_of_ne_zero (show cf.maxIters ≠ 0 by omega)
  rw [ht] at h2
  have hn := loop_no_ctrl (two_le_horizon hok hnew hx) h2
  have hka : k < a.length := by omega
  have hak := List.getElem?_eq_getElem hka
  cases haj : a[k] with
  | none =>
    rw [haj] at hak
    obtain ⟨m, fs, is, u, _, e1, e2, _, b1, _, _, _, _, _, _, _, _, b2, b3, b4, b5, _⟩ := freshPlan_ok (hch.fresh hak).1
    rw [Nat.zero_add] at e1 e2
    exact ⟨hf.cov.trans b2, hf.weight.trans b3, hf.means.trans (by rw [b1, List.length_replicate]),
      by rw [hf.dyn, b4]; exact e1, by rw [hf.invDyn, b5]; exact e2⟩
  | some j =>
    rw [haj] at hak
    obtain ⟨g, g0, j0, t', _, _, _, _, _, b6, _⟩ := hch.warm j hak
    obtain ⟨_, _, _, _, _, _, _, _, _, _, f3, _⟩ := warmPlan_ok b6
    exact absurd f3 (hn _ (List.getElem_mem _))

/-! ### C75 -/

theorem loopE_append {σ : Type} {f : ℕ → σ → Except GErr σ} : ∀ {ks ks' : List ℕ} {s s' : σ},
    loopE f (ks ++ ks') s = .ok s' → ∃ t, loopE f ks s = .ok t ∧ loopE f ks' t = .ok s' := by
  intro ks
  induction ks with
  | nil => intro ks' s s' h; exact ⟨s, rfl, h⟩
  | cons k ks ih =>
    intro ks' s s' h
    obtain ⟨s1, h1, h⟩ := bind_ok.1 (show (f k s >>= fun s' => loopE f (ks ++ ks') s') = .ok s' from h)
    obtain ⟨t, h2, h3⟩ := ih h
    refine ⟨t, ?_, h3⟩
    show (f k s >>= fun s' => loopE f ks s') = _
    rw [h1]
    exact h2

/-- After a round in which the backward pass keeps the start, every plan starts at the entry of `x_starts`. -/
theorem round_start {n : ℕ} {cf : Conf n} (hh : 2 ≤ cf.horizon)
    (hb : ∀ i o, cf.ext.bwd i = .ok o → i.k = 0 → o.xHat = i.xStart) {gs gs' : List (Plan n)} {xs ys : List (Vec n)} {c : ℝ}
    (h : round cf gs xs = .ok (gs', ys, c)) : ∀ (k : ℕ) (p : Plan n) (x : Vec n), gs'[k]? = some p → xs[k]? = some x →
      p.means.head? = some x := by
  obtain ⟨g1, g2, _, _, _, _, _, h3, _⟩ := round_ok h
  obtain ⟨t, ht⟩ : ∃ t, cf.horizon - 1 = t + 1 := ⟨cf.horizon - 2, by omega⟩
  rw [ht, List.range_succ_eq_map, List.reverse_cons] at h3
  obtain ⟨g3, _, h4⟩ := loopE_append h3
  obtain ⟨g4, h5, h6⟩ := bind_ok.1 (show (bwdStep cf.ext xs 0 g3 >>= fun s' => loopE (bwdStep cf.ext xs) [] s') = .ok gs' from h4)
  have : g4 = gs' := Except.ok.inj h6
  subst this
  unfold bwdStep at h5
  obtain ⟨g5, _, h5⟩ := bind_ok.1 h5
  obtain ⟨prev, _, h5⟩ := bind_ok.1 h5
  obtain ⟨e1, e2⟩ := mapIdxE_ok h5
  intro k p x hp hx
  have hk : k < g5.length := by rw [← e1]; exact (List.getElem?_eq_some_iff.1 hp).1
  obtain ⟨i, o, f1, f2, f3, rfl⟩ := bwdOne_ok (e2 k _ p (List.getElem?_eq_getElem hk) hp)
  unfold passIn at f1
  obtain ⟨_, _, f1⟩ := bind_ok.1 f1
  obtain ⟨_, _, f1⟩ := bind_ok.1 f1
  obtain ⟨_, _, f1⟩ := bind_ok.1 f1
  obtain ⟨_, _, f1⟩ := bind_ok.1 f1
  obtain ⟨_, _, f1⟩ := bind_ok.1 f1
  obtain ⟨_, _, f1⟩ := bind_ok.1 f1
  obtain ⟨_, _, f1⟩ := bind_ok.1 f1
  obtain ⟨_, _, f1⟩ := bind_ok.1 f1
  obtain ⟨_, _, f1⟩ := bind_ok.1 f1
  obtain ⟨x0, f4, f1⟩ := bind_ok.1 f1
  rw [getE_ok, Nat.zero_add, hx] at f4
  cases f4
  cases f1
  have := hb _ _ f2 rfl
  dsimp only at this ⊢
  rw [List.head?_eq_getElem?, List.getElem?_set_self f3, this]

/-- **C75, partial.** If the backward pass keeps the start state that it is given (at the first time step it returns its
argument `x_start`), then after `iterate` with one round every plan starts at the measured mean. *Missing:* more than one
round (`C75_refuted`). -/
theorem C75_first_round_partial {n : ℕ} (cf : Conf n) (hm : cf.maxIters = 1)
    (hb : ∀ i o, cf.ext.bwd i = .ok o → i.k = 0 → o.xHat = i.xStart) (thr : Option ℝ) (est : Est n) (meas : List (Comp n))
    (gs gs' : List (Plan n)) (h : iterate cf thr est meas gs = .ok gs') :
    ∀ (k : ℕ) (c : Comp n) (p : Plan n), meas[k]? = some c → gs'[k]? = some p → p.means.head? = some c.mean := by
  obtain ⟨hok, hcase⟩ := iterate_ok h
  obtain ⟨a, a1, a2, a3, a4⟩ := initPlans_ok hok
  intro k c p hc hp
  have hkm := (List.getElem?_eq_some_iff.1 hc).1
  have hk : k < (initPlans thr cf.horizon est meas gs).new.length := by omega
  rcases hcase with ⟨h1, _⟩ | ⟨hnew, xs, hx, h2⟩
  · rw [h1] at hk; simp at hk
  have hh := two_le_horizon hok hnew hx
  rw [hm] at h2
  have hn := loop_no_ctrl hh h2
  obtain ⟨⟨g1, ys, cost⟩, h3, h4⟩ := bind_ok.1 (show (round cf _ xs >>= _) = _ from h2)
  have hg1 : g1 = gs' := by
    have h5 : (if converged cf.tol none cost then .ok g1 else .ok g1 : Except GErr _) = .ok gs' := h4
    rw [ite_self] at h5
    exact Except.ok.inj h5
  subst hg1
  obtain ⟨e1, e2⟩ := mapIdxE_ok hx
  have hxk : k < xs.length := by omega
  have hxs := e2 k _ _ (List.getElem?_eq_getElem hk) (List.getElem?_eq_getElem hxk)
  rw [getE_ok] at hxs
  have hch := a4 k c _ hc (List.getElem?_eq_getElem hk)
  have hka : k < a.length := by omega
  have hak := List.getElem?_eq_getElem hka
  have hstart : xs[k] = c.mean := by
    cases haj : a[k] with
    | none =>
      rw [haj] at hak
      obtain ⟨m, fs, is, u, _, _, _, _, b1, _⟩ := freshPlan_ok (hch.fresh hak).1
      rw [b1, List.getElem?_replicate] at hxs
      split at hxs
      · exact (Option.some.inj hxs).symm
      · exact (nomatch hxs)
    | some j =>
      rw [haj] at hak
      obtain ⟨g, g0, j0, t', _, _, _, _, _, b6, _⟩ := hch.warm j hak
      obtain ⟨_, _, _, _, _, _, _, _, _, _, f3, _⟩ := warmPlan_ok b6
      exact absurd f3 (hn _ (List.getElem_mem _))
  exact round_start hh hb h3 k p c.mean hp (by rw [List.getElem?_eq_getElem hxk, hstart])

/-! #### A case with two rounds -/

theorem ok_bind {α β : Type} (a : α) (f : α → Except GErr β) : (Except.ok a >>= f) = f a := rfl

/-- Passes that return the start state and zero gains. -/
def keepPass (i : PassIn 1) : Except GErr (PassOut 1) :=
  .ok ⟨i.xStart, .zeros 1 1, .zeros 1 1, .zeros 1 1, .zeros 1 1⟩

/-- Inherited methods for the example. -/
def exExt : Ext 1 := ⟨keepPass, keepPass, fun _ _ _ => .ok (⟨1, 1, fun _ _ => 1⟩, .zeros 1 1), fun _ _ => .ok 0⟩

/-- One target, the default parameters, a horizon of 2. -/
noncomputable def exConf (iters : ℕ) : Conf 1 := ⟨exExt, ⟨[⟨0, 1, 1⟩], 1, 9 / 10⟩, 2, iters, 1 / 100⟩

/-- Constant velocity 1, one input (without effect). -/
def exEst : Est 1 := ⟨[[fun x _ => x 0 + 1]], [[fun x _ => x 0 - 1]], [1], none⟩

/-- The plans of the example. -/
def exQ (x0 x1 : Vec 1) (u : List ℝ) (M : Arr) : Plan 1 where
  means := [x0, x1]
  ctrlInputs := ⟨0, [[]]⟩
  ctrlInput := some ⟨1, [u, [0]]⟩
  feedforward := [.zeros 1 1, .zeros 1 1]
  feedback := [.zeros 1 1, .zeros 1 1]
  ctcMat := [.zeros 1 1, .zeros 1 1]
  ctcVec := [.zeros 1 1, .zeros 1 1]
  ctgMat := [.zeros 1 1, M]
  ctgVec := [.zeros 1 1, .zeros 1 1]
  cov := 1
  weight := some 1
  dyn := [fun x _ => x 0 + 1]
  invDyn := [fun x _ => x 0 - 1]
  nom := .zeros 1 1

theorem exCost (x : Vec 1) : ∃ j, densityCost (⟨[⟨0, 1, 1⟩], 1, 9 / 10⟩ : Density 1) [⟨x, 1, 1⟩] = .ok j := by
  obtain ⟨vo, vt, _, _, h⟩ := densityCost_ok Nat.one_pos (⟨[⟨0, 1, 1⟩], 1, 9 / 10⟩ : Density 1) [⟨x, 1, 1⟩] (by simp) (by simp)
    (fun o ho => by rw [List.mem_singleton.1 ho]; exact Matrix.PosDef.one)
    (fun o ho => by rw [List.mem_singleton.1 ho]; exact Matrix.PosDef.one) (by norm_num)
  exact ⟨_, h⟩

theorem exRound (iters : ℕ) (x0 x1 s : Vec 1) (u : List ℝ) (M : Arr) : ∃ x1' u' c,
    round (exConf iters) [exQ x0 x1 u M] [s] = .ok ([exQ s x1' u' ⟨1, 1, fun _ _ => 1⟩], [fun _ => s 0 + 1], c) := by
  have h1 : ∃ u1, loopE (fwdStep exExt [s]) (List.range (2 - 1)) [exQ x0 x1 u M] = .ok [exQ x0 s u1 M] := ⟨_, rfl⟩
  obtain ⟨u1, h1⟩ := h1
  have h2 : ∃ y, finalOne exExt [⟨0, 1, 1⟩] (exQ x0 s u1 M) = .ok (exQ x0 y u1 ⟨1, 1, fun _ _ => 1⟩) := by
    show ∃ y, (invE ((fun _ _ => (1 : ℝ) : Mat 1) + fun _ _ => (0 : ℝ)) >>= _) = _
    rw [invE_ok.2 ⟨by rw [det_unique]; show IsUnit ((1 : ℝ) + 0); simp, rfl⟩]
    exact ⟨_, rfl⟩
  obtain ⟨y, h2⟩ := h2
  have h3 : ∃ u2, loopE (bwdStep exExt [s]) (List.range (2 - 1)).reverse [exQ x0 y u1 ⟨1, 1, fun _ _ => 1⟩] =
      .ok [exQ s y u2 ⟨1, 1, fun _ _ => 1⟩] := ⟨_, rfl⟩
  obtain ⟨u2, h3⟩ := h3
  obtain ⟨j, hj⟩ := exCost s
  have h4 : realCost (exConf iters).dens 1 [exQ s y u2 ⟨1, 1, fun _ _ => 1⟩] (List.range (2 - 1)) [s] 0 =
      .ok ([fun _ => s 0 + 1], 0 + j) := by
    show (densityCost (⟨[⟨0, 1, 1⟩], 1, 9 / 10⟩ : Density 1) [⟨s, 1, 1⟩] >>= _) = _
    rw [hj]
    show Except.ok (_, _) = _
    congr 3
    funext i
    rw [Subsingleton.elim i 0]
    rfl
  refine ⟨y, u2, 0 + j + (0 + 0), ?_⟩
  have h5 : mapIdxE (fun _ g => finalOne exExt (exConf iters).dens.targets g) 0 [exQ x0 s u1 M] =
      .ok [exQ x0 y u1 ⟨1, 1, fun _ _ => 1⟩] := by
    show (finalOne exExt [⟨0, 1, 1⟩] (exQ x0 s u1 M) >>= _) = _
    rw [h2]
    rfl
  have h6 : firstInputs [exQ s y u2 ⟨1, 1, fun _ _ => 1⟩] = .ok 1 := rfl
  have h7 : finalCost exExt (exConf iters).dens.targets [fun _ => s 0 + 1] = .ok (0 + 0) := rfl
  unfold Elqr.round
  rw [show (exConf iters).ext = exExt from rfl, show (exConf iters).horizon = 2 from rfl, h1, ok_bind, h5, ok_bind, h3, ok_bind,
    h6, ok_bind, h4, ok_bind]
  dsimp only
  rw [h7]
  rfl

theorem exInit (thr : Option ℝ) (x : Vec 1) : initPlans thr 2 exEst [⟨x, 1, 1⟩] [] =
    ⟨none, [exQ x x [0] (.zeros 1 1)], []⟩ := rfl

/-- The example with two rounds. -/
theorem exIterate (thr : Option ℝ) (x : Vec 1) : ∃ y u, iterate (exConf 2) thr exEst [⟨x, 1, 1⟩] [] =
    .ok [exQ (fun _ => x 0 + 1) y u ⟨1, 1, fun _ _ => 1⟩] := by
  obtain ⟨y1, u1, c1, h1⟩ := exRound 2 x x x [0] (.zeros 1 1)
  obtain ⟨y2, u2, c2, h2⟩ := exRound 2 x y1 (fun _ => x 0 + 1) u1 ⟨1, 1, fun _ _ => 1⟩
  refine ⟨y2, u2, ?_⟩
  unfold iterate
  rw [show (exConf 2).horizon = 2 from rfl, exInit]
  dsimp only
  rw [if_neg (by simp)]
  show iterLoop (exConf 2) 2 none [exQ x x [0] (.zeros 1 1)] [x] = _
  rw [iterLoop_succ, h1]
  show iterLoop (exConf 2) 1 (some c1) _ _ = _
  rw [iterLoop_succ, h2]
  show (if converged _ _ _ then Except.ok _ else Except.ok _) = _
  rw [ite_self]

/-- **C75 is false of this code.** With two rounds the second one no longer starts from the measured state: although both
passes keep the start state they are given, the plan that `iterate` returns starts one step later than the measured mean
(the evaluation of the cost overwrites the array of the start states). -/
theorem C75_refuted : ∃ (cf : Conf 1), cf.maxIters = 2 ∧ (∀ i o, cf.ext.bwd i = .ok o → o.xHat = i.xStart) ∧
    (∀ i o, cf.ext.fwd i = .ok o → o.xHat = i.xStart) ∧
    ∀ (thr : Option ℝ) (x : Vec 1), ∃ p, iterate cf thr exEst [⟨x, 1, 1⟩] [] = .ok [p] ∧
      p.means.head? = some (fun _ => x 0 + 1) ∧ p.means.head? ≠ some x := by
  refine ⟨exConf 2, rfl, ?_, ?_, ?_⟩
  · intro i o h; cases h; rfl
  · intro i o h; cases h; rfl
  · intro thr x
    obtain ⟨y, u, h⟩ := exIterate thr x
    refine ⟨_, h, rfl, ?_⟩
    intro he
    have := congrFun (Option.some.inj he) 0
    have : x 0 + 1 = x 0 := this
    linarith

/-! ### C77: the cost of a round -/

theorem control_ok {n : ℕ} {fb ff : Arr} {x : Vec n} {m : ℕ} {u : List ℝ} (h : control fb ff x m = .ok u) (hm : fb.rows = m) :
    u = law m fb ff x := by
  unfold Elqr.control at h
  by_cases hs : fb.cols = n ∧ ff.cols = 1 ∧ ff.rows = fb.rows
  · rw [if_pos hs, if_pos hm] at h
    exact (Except.ok.inj h).symm
  · rw [if_neg hs] at h
    exact (nomatch h)

theorem rollOne_ok {n : ℕ} {m k : ℕ} {g : Plan n} {x y : Vec n} (h : rollOne m k g x = .ok y)
    (hm : ∀ K : Arr, g.feedback[k]? = some K → K.rows = m) : ClosedLoop m k g x y := by
  unfold rollOne at h
  obtain ⟨K, h1, h⟩ := bind_ok.1 h
  obtain ⟨l, h2, h⟩ := bind_ok.1 h
  obtain ⟨u, h3, h⟩ := bind_ok.1 h
  rw [getE_ok] at h1 h2
  have hu := control_ok h3 (hm K h1)
  subst hu
  unfold applyDyn at h
  split at h
  · have := Except.ok.inj h
    rw [← this]
    refine ⟨K, l, h1, h2, ?_, ?_⟩
    · intro i f hf
      beta_reduce
      rw [hf]; rfl
    · intro i hf
      beta_reduce
      rw [hf]; rfl
  · exact (nomatch h)

theorem rollAll_ok {n : ℕ} {m k : ℕ} : ∀ {gs : List (Plan n)} {xs ys : List (Vec n)}, rollAll m k gs xs = .ok ys →
    xs.length = gs.length → (∀ g ∈ gs, ∀ K : Arr, g.feedback[k]? = some K → K.rows = m) →
    ys.length = gs.length ∧ ∀ (i : ℕ) (g : Plan n) (x y : Vec n), gs[i]? = some g → xs[i]? = some x → ys[i]? = some y →
      ClosedLoop m k g x y := by
  intro gs
  induction gs with
  | nil =>
    intro xs ys h hl _
    have : xs = [] := List.length_eq_zero_iff.1 hl
    subst this
    cases h
    exact ⟨rfl, fun i g x y h => by simp at h⟩
  | cons g gs ih =>
    intro xs ys h hl hm
    cases xs with
    | nil => simp at hl
    | cons x xs =>
      obtain ⟨y, h1, h⟩ := bind_ok.1 (show (rollOne m k g x >>= fun y => rollAll m k gs xs >>= fun ys => .ok (y :: ys)) = .ok ys from h)
      obtain ⟨ys', h2, h⟩ := bind_ok.1 h
      cases h
      obtain ⟨e1, e2⟩ := ih h2 (by simpa using hl) fun g' hg' => hm g' (List.mem_cons_of_mem _ hg')
      refine ⟨by simp [e1], ?_⟩
      intro i g' x' y' a b c
      cases i with
      | zero =>
        simp only [List.getElem?_cons_zero, Option.some.injEq] at a b c
        subst a; subst b; subst c
        exact rollOne_ok h1 (hm g List.mem_cons_self)
      | succ i =>
        simp only [List.getElem?_cons_succ] at a b c
        exact e2 i g' x' y' a b c

theorem objects_ok {n : ℕ} : ∀ {gs : List (Plan n)} {xs : List (Vec n)} {os : List (Comp n)}, objects gs xs = .ok os →
    xs.length = gs.length → AtStates gs xs os := by
  intro gs
  induction gs with
  | nil =>
    intro xs os h hl
    cases h
    exact ⟨rfl, fun i o h => by simp at h⟩
  | cons g gs ih =>
    intro xs os h hl
    cases xs with
    | nil => simp at hl
    | cons x xs =>
      obtain ⟨w, h1, h⟩ := bind_ok.1 (show (weightE g >>= fun w => objects gs xs >>= fun os => .ok (⟨x, g.cov, w⟩ :: os)) = .ok os from h)
      obtain ⟨os', h2, h⟩ := bind_ok.1 h
      cases h
      obtain ⟨e1, e2⟩ := ih h2 (by simpa using hl)
      refine ⟨by simp [e1], ?_⟩
      intro i o hi
      cases i with
      | zero =>
        simp only [List.getElem?_cons_zero, Option.some.injEq] at hi
        subst hi
        refine ⟨g, rfl, rfl, rfl, ?_⟩
        unfold weightE at h1
        cases hw : g.weight with
        | none => rw [hw] at h1; exact (nomatch h1)
        | some v => rw [hw] at h1; exact congrArg some (Except.ok.inj h1)
      | succ i =>
        simp only [List.getElem?_cons_succ] at hi ⊢
        exact e2 i o hi

/-- The states under the feedback laws and their costs. -/
theorem realCost_ok {n : ℕ} {d : Density n} {m : ℕ} {gs : List (Plan n)} : ∀ (N s : ℕ) {xs ys : List (Vec n)} {c c' : ℝ},
    realCost d m gs (List.range' s N) xs c = .ok (ys, c') → xs.length = gs.length →
    (∀ g ∈ gs, ∀ (k : ℕ) (K : Arr), k < s + N → g.feedback[k]? = some K → K.rows = m) →
    ∃ (X : ℕ → List (Vec n)) (J : ℕ → ℝ), X 0 = xs ∧ X N = ys ∧ c' = c + ∑ k ∈ Finset.range N, J k ∧
      (∀ k ≤ N, (X k).length = gs.length) ∧
      ∀ k < N, (∃ os, AtStates gs (X k) os ∧ densityCost d os = .ok (J k)) ∧
        ∀ (i : ℕ) (g : Plan n) (x y : Vec n), gs[i]? = some g → (X k)[i]? = some x → (X (k + 1))[i]? = some y →
          ClosedLoop m (s + k) g x y := by
  intro N
  induction N with
  | zero =>
    intro s xs ys c c' h hl _
    cases h
    exact ⟨fun _ => xs, fun _ => 0, rfl, rfl, by simp, fun _ _ => hl, fun k hk => absurd hk (by omega)⟩
  | succ N ih =>
    intro s xs ys c c' h hl hm
    rw [List.range'_succ] at h
    obtain ⟨os, h1, h⟩ := bind_ok.1 (show (objects gs xs >>= fun os => densityCost d os >>= fun j => rollAll m s gs xs >>= fun zs =>
      realCost d m gs (List.range' (s + 1) N) zs (c + j)) = .ok (ys, c') from h)
    obtain ⟨j, h2, h⟩ := bind_ok.1 h
    obtain ⟨zs, h3, h⟩ := bind_ok.1 h
    obtain ⟨e1, e2⟩ := rollAll_ok h3 hl fun g hg K hK => hm g hg s K (by omega) hK
    obtain ⟨X, J, f1, f2, f3, f4, f5⟩ := ih (s + 1) h e1 fun g hg k K hk hK => hm g hg k K (by omega) hK
    refine ⟨fun k => if k = 0 then xs else X (k - 1), fun k => if k = 0 then j else J (k - 1), rfl, f2, ?_, ?_, ?_⟩
    · rw [f3, Finset.sum_range_succ']
      simp
      ring
    · intro k hk
      cases k with
      | zero => exact hl
      | succ k => exact f4 k (by omega)
    · intro k hk
      cases k with
      | zero =>
        refine ⟨⟨os, objects_ok h1 hl, h2⟩, ?_⟩
        intro i g x y hg hx hy
        refine e2 i g x y hg hx ?_
        have hy' : (X 0)[i]? = some y := hy
        rwa [f1] at hy'
      | succ k =>
        obtain ⟨g1, g2⟩ := f5 k (by omega)
        refine ⟨g1, ?_⟩
        intro i g x y hg hx hy
        have := g2 i g x y hg hx hy
        rwa [show s + 1 + k = s + (k + 1) by omega] at this

theorem finalCost_ok {n : ℕ} {ext : Ext n} {ts : List (Comp n)} : ∀ {xs : List (Vec n)} {f : ℝ}, finalCost ext ts xs = .ok f →
    ∃ F : List ℝ, F.length = xs.length ∧ f = F.sum ∧ ∀ (i : ℕ) (x : Vec n) (v : ℝ), xs[i]? = some x → F[i]? = some v →
      ext.final x (nearestTarget ts x) = .ok v := by
  intro xs
  induction xs with
  | nil => intro f h; cases h; exact ⟨[], rfl, rfl, fun i x v h => by simp at h⟩
  | cons x xs ih =>
    intro f h
    obtain ⟨a, h1, h⟩ := bind_ok.1 (show (ext.final x (nearestTarget ts x) >>= fun a => finalCost ext ts xs >>= fun b => .ok (a + b)) = .ok f from h)
    obtain ⟨b, h2, h⟩ := bind_ok.1 h
    cases h
    obtain ⟨F, e1, e2, e3⟩ := ih h2
    refine ⟨a :: F, by simp [e1], by simp [e2], ?_⟩
    intro i x' v hx hv
    cases i with
    | zero =>
      simp only [List.getElem?_cons_zero, Option.some.injEq] at hx hv
      subst hx; subst hv; exact h1
    | succ i =>
      simp only [List.getElem?_cons_succ] at hx hv
      exact e3 i x' v hx hv

/-- **C77.** For all plans and start states: the cost of a round is the cost of the trajectory that starts at the given states
and follows the new feedback laws: the sum over all time steps but the last of the density based cost of the plans at their
states, plus the final cost of each plan towards its nearest target; the start states are replaced by the last ones. (All
plans have the same number of inputs; the gains of the last time step are not used.) -/
theorem C77_round_cost {n : ℕ} (cf : Conf n) (gs gs' : List (Plan n)) (xs ys : List (Vec n)) (c : ℝ) (hl : xs.length = gs.length)
    (h : round cf gs xs = .ok (gs', ys, c)) (m : ℕ)
    (hm : ∀ g ∈ gs', ∀ (k : ℕ) (K : Arr), k < cf.horizon - 1 → g.feedback[k]? = some K → K.rows = m) (hh : 2 ≤ cf.horizon) :
    ∃ (X : ℕ → List (Vec n)) (J : ℕ → ℝ) (F : List ℝ), X 0 = xs ∧ X (cf.horizon - 1) = ys ∧
      c = (∑ k ∈ Finset.range (cf.horizon - 1), J k) + F.sum ∧ (∀ k < cf.horizon, (X k).length = gs'.length) ∧
      F.length = gs'.length ∧
      (∀ k < cf.horizon - 1, (∃ os, AtStates gs' (X k) os ∧ densityCost cf.dens os = .ok (J k)) ∧
        ∀ (i : ℕ) (g : Plan n) (x y : Vec n), gs'[i]? = some g → (X k)[i]? = some x → (X (k + 1))[i]? = some y →
          ClosedLoop m k g x y) ∧
      ∀ (i : ℕ) (x : Vec n) (v : ℝ), (X (cf.horizon - 1))[i]? = some x → F[i]? = some v →
        cf.ext.final x (nearestTarget cf.dens.targets x) = .ok v := by
  have hfr := round_frame h
  obtain ⟨g1, g2, m', c', f, _, _, _, h4, h5, h6, rfl⟩ := round_ok h
  unfold firstInputs at h4
  obtain ⟨g0, e1, h4⟩ := bind_ok.1 h4
  obtain ⟨K, e2, h4⟩ := bind_ok.1 h4
  have hm' : K.rows = m := hm g0 (List.mem_of_getElem? (getE_ok.1 e1)) 0 K (by omega) (getE_ok.1 e2)
  have : K.rows = m' := Except.ok.inj h4
  have hmm : m' = m := by omega
  subst hmm
  rw [List.range_eq_range'] at h5
  obtain ⟨X, J, a1, a2, a3, a4, a5⟩ := realCost_ok (cf.horizon - 1) 0 h5 (hl.trans hfr.length.symm)
    fun g hg k K hk hK => hm g hg k K (by omega) hK
  obtain ⟨F, b1, b2, b3⟩ := finalCost_ok h6
  refine ⟨X, J, F, a1, a2, by rw [a3, b2]; ring, fun k hk => a4 k (by omega), ?_, ?_, ?_⟩
  · rw [b1, ← a2]; exact a4 _ le_rfl
  · intro k hk
    obtain ⟨d1, d2⟩ := a5 k hk
    refine ⟨d1, ?_⟩
    intro i g x y hg hx hy
    have := d2 i g x y hg hx hy
    rwa [Nat.zero_add] at this
  · rw [a2]; exact b3

/-- The hypotheses of `C77_round_cost` are met by the example, from any start state; its single time step costs the density
based cost at the start. -/
example (s x0 x1 : Vec 1) (u : List ℝ) (M : Arr) : ∃ gs' ys c, round (exConf 2) [exQ x0 x1 u M] [s] = .ok (gs', ys, c) ∧
    (∀ g ∈ gs', ∀ (k : ℕ) (K : Arr), k < (exConf 2).horizon - 1 → g.feedback[k]? = some K → K.rows = 1) ∧
    2 ≤ (exConf 2).horizon := by
  obtain ⟨x1', u', c, h⟩ := exRound 2 x0 x1 s u M
  refine ⟨_, _, _, h, ?_, le_rfl⟩
  intro g hg k K hk hK
  rw [List.mem_singleton.1 hg] at hK
  obtain rfl : k = 0 := by change k < 1 at hk; omega
  cases hK
  rfl

/-! ### C78: when it stops -/

/-- A run of rounds: `P 0, S 0` are the plans and start states at the beginning, and round `t` leads from `t` to `t + 1` with
cost `c t`. -/
def Rounds {n : ℕ} (cf : Conf n) (T : ℕ) (P : ℕ → List (Plan n)) (S : ℕ → List (Vec n)) (c : ℕ → ℝ) : Prop :=
  ∀ t < T, round cf (P t) (S t) = .ok (P (t + 1), S (t + 1), c t)

theorem iterLoop_rounds {n : ℕ} {cf : Conf n} : ∀ (M : ℕ) {old : Option ℝ} {gs gs' : List (Plan n)} {xs : List (Vec n)},
    iterLoop cf M old gs xs = .ok gs' → ∃ (T : ℕ) (P : ℕ → List (Plan n)) (S : ℕ → List (Vec n)) (c : ℕ → ℝ),
      P 0 = gs ∧ S 0 = xs ∧ P T = gs' ∧ Rounds cf T P S c ∧ T ≤ M ∧
      (∀ t < T, T ≠ t + 1 → ∀ o, (t = 0 → old = some o) → (∀ t', t = t' + 1 → o = c t') → cf.tol ≤ |o - c t|) ∧
      (T < M → ∃ t o, T = t + 1 ∧ (t = 0 → old = some o) ∧ (∀ t', t = t' + 1 → o = c t') ∧ |o - c t| < cf.tol) := by
  intro M
  induction M with
  | zero =>
    intro old gs gs' xs h
    cases h
    exact ⟨0, fun _ => gs, fun _ => xs, fun _ => 0, rfl, rfl, rfl, fun t ht => absurd ht (by omega), le_rfl,
      fun t ht => absurd ht (by omega), fun h => absurd h (by omega)⟩
  | succ M ih =>
    intro old gs gs' xs h
    rw [iterLoop_succ] at h
    obtain ⟨⟨g1, ys, c0⟩, h1, h⟩ := bind_ok.1 h
    dsimp only at h
    by_cases hc : converged cf.tol old c0
    · rw [if_pos hc] at h
      have := Except.ok.inj h
      subst this
      refine ⟨1, fun t => if t = 0 then gs else g1, fun t => if t = 0 then xs else ys, fun _ => c0, rfl, rfl, rfl, ?_, by omega,
        fun t ht hn => absurd ht (by omega), ?_⟩
      · intro t ht
        obtain rfl : t = 0 := by omega
        exact h1
      · intro _
        cases old with
        | none => exact absurd hc (by simp [converged])
        | some o => exact ⟨0, o, rfl, fun _ => rfl, fun t' h => absurd h (by omega), by simpa [converged] using hc⟩
    · rw [if_neg hc] at h
      obtain ⟨T, P, S, c, a1, a2, a3, a4, a5, a6, a7⟩ := ih h
      refine ⟨T + 1, fun t => if t = 0 then gs else P (t - 1), fun t => if t = 0 then xs else S (t - 1),
        fun t => if t = 0 then c0 else c (t - 1), rfl, rfl, a3, ?_, by omega, ?_, ?_⟩
      · intro t ht
        cases t with
        | zero =>
          show round cf gs xs = .ok (P 0, S 0, c0)
          rw [a1, a2]; exact h1
        | succ t => exact a4 t (by omega)
      · intro t ht hn o ho1 ho2
        cases t with
        | zero =>
          have := ho1 rfl
          subst this
          show cf.tol ≤ |o - c0|
          simpa [converged] using hc
        | succ t =>
          show cf.tol ≤ |o - c t|
          refine a6 t (by omega) (by omega) o ?_ ?_
          · rintro rfl
            exact congrArg some (ho2 0 rfl).symm
          · rintro t' rfl
            exact ho2 (t' + 1) rfl
      · intro hlt
        obtain ⟨t, o, b1, b2, b3, b4⟩ := a7 (by omega)
        refine ⟨t + 1, o, by omega, fun h => absurd h (by omega), ?_, b4⟩
        intro t' ht'
        obtain rfl : t = t' := by omega
        cases t with
        | zero => exact (Option.some.inj (b2 rfl)).symm
        | succ t => exact b3 t rfl

/-- **C78.** For all arguments and all behaviours of the inherited methods: if `iterate` returns with measurements, it has
done at most `max_iters` rounds, each from the plans that the one before has left; it has stopped at the first round whose
cost differs from that of the round before by less than the tolerance (so not before the second one), or at `max_iters`. -/
theorem C78_stop {n : ℕ} (cf : Conf n) (thr : Option ℝ) (est : Est n) (meas : List (Comp n)) (hm : meas ≠ [])
    (gs gs' : List (Plan n)) (h : iterate cf thr est meas gs = .ok gs') :
    ∃ (T : ℕ) (P : ℕ → List (Plan n)) (S : ℕ → List (Vec n)) (c : ℕ → ℝ),
      P 0 = (initPlans thr cf.horizon est meas gs).new ∧ P T = gs' ∧ Rounds cf T P S c ∧ T ≤ cf.maxIters ∧
      (∀ (k : ℕ) (p : Plan n) (x : Vec n), (P 0)[k]? = some p → (S 0)[k]? = some x → p.means[1]? = some x) ∧
      (∀ t, t + 2 < T → cf.tol ≤ |c t - c (t + 1)|) ∧
      (T < cf.maxIters → 2 ≤ T ∧ |c (T - 2) - c (T - 1)| < cf.tol) := by
  obtain ⟨hok, hcase⟩ := iterate_ok h
  obtain ⟨a, a1, a2, a3, a4⟩ := initPlans_ok hok
  rcases hcase with ⟨h1, _⟩ | ⟨hnew, xs, hx, h2⟩
  · rw [h1] at a2
    exact absurd (List.length_eq_zero_iff.1 a2.symm) hm
  obtain ⟨T, P, S, c, b1, b2, b3, b4, b5, b6, b7⟩ := iterLoop_rounds cf.maxIters h2
  obtain ⟨e1, e2⟩ := mapIdxE_ok hx
  refine ⟨T, P, S, c, b1, b3, b4, b5, ?_, ?_, ?_⟩
  · intro k p x hp hx'
    rw [b1] at hp
    rw [b2] at hx'
    exact getE_ok.1 (e2 k p x hp hx')
  · intro t ht
    exact b6 (t + 1) (by omega) (by omega) (c t) (fun h => absurd h (by omega)) fun t' ht' => by
      obtain rfl : t = t' := by omega
      rfl
  · intro hlt
    obtain ⟨t, o, d1, d2, d3, d4⟩ := b7 hlt
    cases t with
    | zero => exact absurd (d2 rfl) (by simp)
    | succ t =>
      have := d3 t rfl
      subst this
      refine ⟨by omega, ?_⟩
      rw [d1, show t + 1 + 1 - 2 = t by omega, show t + 1 + 1 - 1 = t + 1 by omega]
      exact d4

/-- A measured component that coincides with the second state of a previous plan is within its gate, so that
`iterate` raises an exception (`C74_refuted`). -/
example (gs' : List (Plan 1)) : iterate (exConf 2) (some 1) exEst [⟨0, 1, 1 / 2⟩] [exQ 0 0 [0] (.zeros 1 1)] ≠ .ok gs' := by
  intro h
  have := C74_refuted (exConf 2) (by decide) (some 1) exEst _ _ gs' h 0 (by decide) 0 (by decide) 1 rfl
  have h0 : distTo [(⟨0, 1, 1 / 2⟩ : Comp 1)] [exQ 0 0 [0] (.zeros 1 1)] 0 0 = 0 := by
    rw [distTo_eq rfl rfl]
    show (0 - 0 : Vec 1) ⬝ᵥ _ = 0
    rw [sub_zero, zero_dotProduct]
  rw [h0] at this
  linarith

end Gasur.Props
