import Verif.Spec.Elqr

/-!
# Lemmas about the extended LQR guidance
-/

namespace Gasur.Elqr

open Matrix Gasur.Guidance Gasur.Spec

theorem getE_ok {α : Type} {l : List α} {k : ℕ} {a : α} : getE l k = .ok a ↔ l[k]? = some a := by
  unfold getE
  cases l[k]? with
  | none => simp
  | some b => simp

theorem lastE_ok {α : Type} {l : List α} {a : α} : lastE l = .ok a ↔ l.getLast? = some a := by
  unfold lastE
  cases l.getLast? with
  | none => simp
  | some b => simp

/-- The rule for sequencing. -/
theorem bind_ok {α β : Type} {x : Except GErr α} {f : α → Except GErr β} {b : β} :
    (x >>= f) = .ok b ↔ ∃ a, x = .ok a ∧ f a = .ok b := by
  cases x with
  | error e => exact ⟨fun h => (nomatch h), fun ⟨_, h, _⟩ => (nomatch h)⟩
  | ok a => exact ⟨fun h => ⟨a, rfl, h⟩, fun ⟨a', h, h'⟩ => by cases h; exact h'⟩

theorem invE_ok {n : ℕ} {a w : Mat n} : invE a = .ok w ↔ IsUnit a.det ∧ w = a⁻¹ := by
  unfold invE
  by_cases h : IsUnit a.det
  · rw [if_pos h]
    exact ⟨fun e => ⟨h, (Except.ok.inj e).symm⟩, fun e => by rw [e.2]⟩
  · rw [if_neg h]
    exact ⟨fun e => (nomatch e), fun e => absurd e.1 h⟩

theorem fit_ok {n : ℕ} {c : Comp n} {g : Plan n} {f : ℝ} (h : fit c.mean g = .ok f) : f = planDist c g := by
  unfold fit at h
  obtain ⟨m, h1, h2⟩ := bind_ok.1 h
  obtain ⟨w, h3, h4⟩ := bind_ok.1 h2
  rw [getE_ok] at h1
  obtain ⟨_, rfl⟩ := invE_ok.1 h3
  have : g.means.getD 1 0 = m := by rw [List.getD_eq_getElem?_getD, h1]; rfl
  unfold planDist
  rw [this]
  exact (Except.ok.inj h4).symm

/-- What the search for the best plan has found in a prefix. -/
def IsBest {n : ℕ} (c : Comp n) (pre : List (Plan n)) (best : Option (ℕ × ℝ)) : Prop :=
  (best = none → pre = []) ∧
  ∀ j f, best = some (j, f) → ∃ g, pre[j]? = some g ∧ f = planDist c g ∧
    ∀ (j' : ℕ) (g' : Plan n), pre[j']? = some g' → f ≤ planDist c g' ∧ (j' < j → f < planDist c g')

theorem better_isBest {n : ℕ} {c : Comp n} {pre : List (Plan n)} {best : Option (ℕ × ℝ)} {g : Plan n} {f : ℝ}
    (h : IsBest c pre best) (hf : f = planDist c g) : IsBest c (pre ++ [g]) (better best pre.length f) := by
  unfold better
  by_cases hb : best.all (fun b => f < b.2)
  · rw [if_pos hb]
    refine ⟨fun h => (nomatch h), ?_⟩
    rintro j f' h'
    cases h'
    refine ⟨g, by simp, hf, ?_⟩
    intro j' g' hg'
    rcases Nat.lt_trichotomy j' pre.length with hj | hj | hj
    · rw [List.getElem?_append_left hj] at hg'
      cases best with
      | none =>
        have := h.1 rfl
        subst this
        simp at hj
      | some b =>
        obtain ⟨g0, h1, h2, h3⟩ := h.2 b.1 b.2 rfl
        have hlt : f < b.2 := by simpa using hb
        have := (h3 j' g' hg').1
        exact ⟨(hlt.trans_le this).le, fun _ => hlt.trans_le this⟩
    · subst hj
      have : g' = g := by simpa using hg'.symm
      subst this
      exact ⟨hf.le, fun h => absurd h (lt_irrefl _)⟩
    · rw [List.getElem?_eq_none (by simp; omega)] at hg'
      exact (nomatch hg')
  · rw [if_neg hb]
    cases best with
    | none => exact absurd rfl hb
    | some b =>
      have hge : b.2 ≤ f := by simpa using hb
      refine ⟨fun h => (nomatch h), ?_⟩
      obtain ⟨j, f'⟩ := b
      rintro _ _ h'
      cases h'
      obtain ⟨g0, h1, h2, h3⟩ := h.2 j f' rfl
      have hj0 : j < pre.length := (List.getElem?_eq_some_iff.1 h1).1
      refine ⟨g0, by rw [List.getElem?_append_left hj0]; exact h1, h2, ?_⟩
      intro j' g' hg'
      rcases Nat.lt_trichotomy j' pre.length with hj | hj | hj
      · rw [List.getElem?_append_left hj] at hg'
        exact h3 j' g' hg'
      · subst hj
        have : g' = g := by simpa using hg'.symm
        subst this
        exact ⟨hf ▸ hge, fun h => absurd h (by omega)⟩
      · rw [List.getElem?_eq_none (by simp; omega)] at hg'
        exact (nomatch hg')

theorem bestFit_isBest {n : ℕ} {c : Comp n} : ∀ (gs pre : List (Plan n)) (best b : Option (ℕ × ℝ)),
    IsBest c pre best → bestFit c.mean pre.length gs best = .ok b → IsBest c (pre ++ gs) b := by
  intro gs
  induction gs with
  | nil =>
    intro pre best b h1 h2
    rw [List.append_nil]
    have : best = b := Except.ok.inj h2
    exact this ▸ h1
  | cons g gs ih =>
    intro pre best b h1 h2
    obtain ⟨f, h3, h4⟩ := bind_ok.1 (show (fit c.mean g >>= fun f => bestFit c.mean (pre.length + 1) gs
      (better best pre.length f)) = .ok b from h2)
    have := ih (pre ++ [g]) _ b (better_isBest h1 (fit_ok h3)) (by rw [List.length_append]; exact h4)
    rwa [List.append_assoc, List.singleton_append] at this

theorem bestFit_zero {n : ℕ} {c : Comp n} {gs : List (Plan n)} {b : Option (ℕ × ℝ)}
    (h : bestFit c.mean 0 gs none = .ok b) : IsBest c gs b :=
  bestFit_isBest gs [] none b ⟨fun _ => rfl, fun _ _ h => (nomatch h)⟩ h

theorem matchIdx_some {thr : Option ℝ} {b : Option (ℕ × ℝ)} {j : ℕ} (h : matchIdx thr b = some j) :
    ∃ f t, b = some (j, f) ∧ thr = some t ∧ f < t := by
  unfold matchIdx at h
  cases b with
  | none => exact (nomatch h)
  | some b =>
    rw [Option.bind_some] at h
    split at h
    · rename_i hb
      cases thr with
      | none => exact absurd hb (by simp)
      | some t =>
        obtain ⟨j', f⟩ := b
        cases h
        exact ⟨f, t, rfl, rfl, by simpa using hb⟩
    · exact (nomatch h)

theorem matchIdx_none {thr : Option ℝ} {b : Option (ℕ × ℝ)} (h : matchIdx thr b = none) :
    ∀ j f t, b = some (j, f) → thr = some t → t ≤ f := by
  rintro j f t rfl rfl
  unfold matchIdx at h
  rw [Option.bind_some] at h
  split at h
  · exact (nomatch h)
  · rename_i hb
    simpa using hb

/-- One measurement. -/
theorem initOne_ok {n : ℕ} {thr : Option ℝ} {h : ℕ} {est : Est n} {ii : ℕ} {c : Comp n} {gs gs' : List (Plan n)} {p : Plan n}
    (hok : initOne thr h est ii c gs = .ok (p, gs')) :
    h ≠ 0 ∧
    ((gs' = gs ∧ freshPlan h est ii c = .ok p ∧ ∀ t, thr = some t → ∀ g ∈ gs, t ≤ planDist c g) ∨
     (∃ (j : ℕ) (g0 g : Plan n) (t : ℝ), gs[0]? = some g0 ∧ gs[j]? = some g ∧ gs' = gs.eraseIdx j ∧
        warmPlan h c g g0.ctrlInputs.cols = .ok p ∧ thr = some t ∧ planDist c g < t ∧
        ∀ (j' : ℕ) (g' : Plan n), gs[j']? = some g' → planDist c g ≤ planDist c g' ∧ (j' < j → planDist c g < planDist c g'))) := by
  unfold initOne at hok
  obtain ⟨b, h1, h2⟩ := bind_ok.1 hok
  have hb := bestFit_zero h1
  by_cases hh : h = 0
  · rw [if_pos hh] at h2; exact (nomatch h2)
  rw [if_neg hh] at h2
  refine ⟨hh, ?_⟩
  cases hm : matchIdx thr b with
  | none =>
    rw [hm] at h2
    obtain ⟨q, h3, h4⟩ := bind_ok.1 h2
    cases h4
    refine Or.inl ⟨rfl, h3, ?_⟩
    intro t ht g hg
    cases b with
    | none => rw [hb.1 rfl] at hg; exact absurd hg (by simp)
    | some b =>
      obtain ⟨g0, _, _, h6⟩ := hb.2 b.1 b.2 rfl
      obtain ⟨j', hj', hg'⟩ := List.getElem_of_mem hg
      have := (h6 j' g (by rw [List.getElem?_eq_getElem hj', hg'])).1
      exact (matchIdx_none hm b.1 b.2 t rfl ht).trans this
  | some j =>
    rw [hm] at h2
    obtain ⟨g0, h3, h4⟩ := bind_ok.1 h2
    obtain ⟨g, h5, h6⟩ := bind_ok.1 h4
    obtain ⟨q, h7, h8⟩ := bind_ok.1 h6
    cases h8
    obtain ⟨f, t, rfl, ht, hft⟩ := matchIdx_some hm
    obtain ⟨g1, e1, e2, e3⟩ := hb.2 j f rfl
    rw [getE_ok] at h3 h5
    rw [h5] at e1
    cases e1
    subst e2
    exact Or.inr ⟨j, g0, g, t, h3, h5, rfl, h7, ht, hft, e3⟩

theorem initLoop_cons {n : ℕ} (thr : Option ℝ) (h : ℕ) (est : Est n) (ii : ℕ) (c : Comp n) (cs : List (Comp n))
    (gs : List (Plan n)) : initLoop thr h est ii (c :: cs) gs =
      match initOne thr h est ii c gs with
      | .error e => ⟨some e, [], gs⟩
      | .ok (p, gs') => ⟨(initLoop thr h est (ii + 1) cs gs').err, p :: (initLoop thr h est (ii + 1) cs gs').new,
          (initLoop thr h est (ii + 1) cs gs').old⟩ := by
  rw [initLoop]
  cases initOne thr h est ii c gs with
  | error e => rfl
  | ok r => rfl

/-- What is known about one new plan: `l` are the plans at the start with their numbers, `a` the choices. -/
structure Chosen {n : ℕ} (thr : Option ℝ) (h : ℕ) (est : Est n) (l : List (Plan n × ℕ)) (a : List (Option ℕ)) (ii k : ℕ)
    (c : Comp n) (p : Plan n) : Prop where
  horizon : h ≠ 0
  fresh : a[k]? = some none → freshPlan h est (ii + k) c = .ok p ∧
    ∀ t, thr = some t → ∀ x ∈ l, Free a k x.2 → t ≤ planDist c x.1
  warm : ∀ j, a[k]? = some (some j) → ∃ (g g0 : Plan n) (j0 : ℕ) (t : ℝ), (g, j) ∈ l ∧ Free a k j ∧ (g0, j0) ∈ l ∧ Free a k j0 ∧
    (∀ x ∈ l, Free a k x.2 → j0 ≤ x.2) ∧ warmPlan h c g g0.ctrlInputs.cols = .ok p ∧ thr = some t ∧ planDist c g < t ∧
    ∀ x ∈ l, Free a k x.2 → planDist c g ≤ planDist c x.1 ∧ (x.2 < j → planDist c g < planDist c x.1)

theorem free_zero (a : List (Option ℕ)) (j : ℕ) : Free a 0 j := fun i hi => absurd hi (by omega)

theorem free_succ (o : Option ℕ) (a : List (Option ℕ)) (k j : ℕ) : Free (o :: a) (k + 1) j ↔ o ≠ some j ∧ Free a k j := by
  unfold Free
  constructor
  · intro h
    refine ⟨fun e => h 0 (by omega) (by simp [e]), fun i hi => ?_⟩
    have := h (i + 1) (by omega)
    rwa [List.getElem?_cons_succ] at this
  · rintro ⟨h1, h2⟩ i hi
    cases i with
    | zero => rw [List.getElem?_cons_zero]; exact fun e => h1 (Option.some.inj e)
    | succ i => rw [List.getElem?_cons_succ]; exact h2 i (by omega)

theorem zipIdx_pairwise {α : Type} (l : List α) : l.zipIdx.Pairwise fun x y => x.2 < y.2 := by
  rw [List.pairwise_iff_getElem]
  intro i j hi hj hij
  simpa using hij

theorem initLoop_ok {n : ℕ} {thr : Option ℝ} {h : ℕ} {est : Est n} : ∀ (cs : List (Comp n)) (ii : ℕ) (l : List (Plan n × ℕ)),
    l.Pairwise (fun x y => x.2 < y.2) → (initLoop thr h est ii cs (l.map Prod.fst)).err = none →
    ∃ a : List (Option ℕ), a.length = cs.length ∧ (initLoop thr h est ii cs (l.map Prod.fst)).new.length = cs.length ∧
      (initLoop thr h est ii cs (l.map Prod.fst)).old = (l.filter fun x => some x.2 ∉ a).map Prod.fst ∧
      ∀ (k : ℕ) (c : Comp n) (p : Plan n), cs[k]? = some c → (initLoop thr h est ii cs (l.map Prod.fst)).new[k]? = some p →
        Chosen thr h est l a ii k c p := by
  intro cs
  induction cs with
  | nil =>
    intro ii l hl _
    refine ⟨[], rfl, rfl, ?_, fun k c p h => by simp at h⟩
    show l.map Prod.fst = _
    simp
  | cons c cs ih =>
    intro ii l hl hok
    rw [initLoop_cons] at hok ⊢
    cases ho : initOne thr h est ii c (l.map Prod.fst) with
    | error e => rw [ho] at hok; exact (nomatch hok)
    | ok r =>
      obtain ⟨p, gs'⟩ := r
      rw [ho] at hok
      dsimp only at hok ⊢
      obtain ⟨hh, hcase⟩ := initOne_ok ho
      rcases hcase with ⟨rfl, hf, hthr⟩ | ⟨j, g0, g, t, e0, e1, rfl, e2, e3, e4, e5⟩
      · obtain ⟨a, a1, a2, a3, a4⟩ := ih (ii + 1) l hl hok
        refine ⟨none :: a, by simp [a1], by simp [a2], ?_, ?_⟩
        · rw [a3]
          congr 1
          apply List.filter_congr
          intro x _
          simp
        · intro k c' p' hc hp
          cases k with
          | zero =>
            simp only [List.getElem?_cons_zero, Option.some.injEq] at hc hp
            subst hc; subst hp
            refine ⟨hh, fun _ => ⟨hf, fun t ht x hx _ => hthr t ht x.1 (List.mem_map_of_mem hx)⟩, fun j hj => ?_⟩
            simp at hj
          | succ k =>
            simp only [List.getElem?_cons_succ] at hc hp
            have := a4 k c' p' hc hp
            refine ⟨hh, fun hk => ?_, fun j hj => ?_⟩
            · obtain ⟨b1, b2⟩ := this.fresh (by simpa using hk)
              refine ⟨by rw [← b1]; congr 1; omega, fun t ht x hx hx' => b2 t ht x hx ((free_succ _ _ _ _).1 hx').2⟩
            · obtain ⟨g, g0, j0, t, b1, b2, b3, b4, b5, b6, b7, b8, b9⟩ := this.warm j (by simpa using hj)
              have hn : ∀ i, (none : Option ℕ) ≠ some i := fun i h => (nomatch h)
              exact ⟨g, g0, j0, t, b1, (free_succ _ _ _ _).2 ⟨hn _, b2⟩, b3, (free_succ _ _ _ _).2 ⟨hn _, b4⟩,
                fun x hx hx' => b5 x hx ((free_succ _ _ _ _).1 hx').2, b6, b7, b8,
                fun x hx hx' => b9 x hx ((free_succ _ _ _ _).1 hx').2⟩
      · rw [List.getElem?_map, Option.map_eq_some_iff] at e0 e1
        obtain ⟨⟨g0', j0⟩, e0, rfl⟩ := e0
        obtain ⟨⟨g', jn⟩, e1, rfl⟩ := e1
        have hnd : (l.map Prod.snd).Nodup := by
          rw [List.Nodup, List.pairwise_map]
          exact hl.imp fun h => h.ne
        have hsub : (l.eraseIdx j).Sublist l := List.eraseIdx_sublist ..
        have hmem : ∀ x, x ∈ l.eraseIdx j ↔ x ∈ l ∧ x.2 ≠ jn := by
          intro x
          obtain ⟨hj, hj'⟩ := List.getElem?_eq_some_iff.1 e1
          rw [List.mem_eraseIdx_iff_getElem]
          constructor
          · rintro ⟨i, hi, hne, rfl⟩
            refine ⟨List.getElem_mem _, ?_⟩
            intro he
            apply hne
            have h1 : (l.map Prod.snd)[i]'(by simpa using hi) = (l.map Prod.snd)[j]'(by simpa using hj) := by
              simp [he, hj']
            exact (hnd.getElem_inj_iff.1 h1)
          · rintro ⟨hx, hne⟩
            obtain ⟨i, hi, rfl⟩ := List.getElem_of_mem hx
            refine ⟨i, hi, ?_, rfl⟩
            rintro rfl
            rw [hj'] at hne
            exact hne rfl
        have herase : (l.map Prod.fst).eraseIdx j = (l.eraseIdx j).map Prod.fst := by
          rw [List.eraseIdx_map]
        rw [herase] at hok ⊢
        obtain ⟨a, a1, a2, a3, a4⟩ := ih (ii + 1) (l.eraseIdx j) (hl.sublist hsub) hok
        have hfilt : l.eraseIdx j = l.filter fun x => x.2 ≠ jn := by
          apply List.Perm.eq_of_pairwise (le := fun x y : Plan n × ℕ => x.2 < y.2)
          · intro x y _ _ h1 h2; omega
          · exact hl.sublist hsub
          · exact hl.sublist List.filter_sublist
          · have hnl : l.Nodup := List.Nodup.of_map _ hnd
            rw [List.perm_ext_iff_of_nodup (hnl.sublist hsub) (hnl.sublist List.filter_sublist)]
            intro x
            rw [hmem, List.mem_filter]
            simp
        refine ⟨some jn :: a, by simp [a1], by simp [a2], ?_, ?_⟩
        · rw [a3, hfilt, List.filter_filter]
          congr 1
          apply List.filter_congr
          intro x _
          by_cases h1 : x.2 = jn <;> simp [h1]
        · intro k c' p' hc hp
          cases k with
          | zero =>
            simp only [List.getElem?_cons_zero, Option.some.injEq] at hc hp
            subst hc; subst hp
            refine ⟨hh, fun h => by simp at h, fun j' hj' => ?_⟩
            simp only [List.getElem?_cons_zero, Option.some.injEq] at hj'
            subst hj'
            have hjm : ∀ x ∈ l, planDist c g' ≤ planDist c x.1 ∧ (x.2 < jn → planDist c g' < planDist c x.1) := by
              intro x hx
              obtain ⟨i, hi, rfl⟩ := List.getElem_of_mem hx
              have := e5 i l[i].1 (by rw [List.getElem?_map, List.getElem?_eq_getElem hi]; rfl)
              refine ⟨this.1, fun hlt => this.2 ?_⟩
              by_contra hji
              obtain ⟨hj, hj'⟩ := List.getElem?_eq_some_iff.1 e1
              rcases Nat.lt_or_eq_of_le (not_lt.1 hji) with h' | h'
              · have := (List.pairwise_iff_getElem.1 hl) j i hj hi h'
                rw [hj'] at this
                exact absurd this (by simpa using hlt.le)
              · subst h'
                rw [hj'] at hlt
                exact lt_irrefl _ hlt
            refine ⟨g', g0', j0, t, List.mem_of_getElem? e1, free_zero _ _, List.mem_of_getElem? e0, free_zero _ _, ?_, e2, e3,
              e4, fun x hx _ => hjm x hx⟩
            intro x hx _
            obtain ⟨i, hi, rfl⟩ := List.getElem_of_mem hx
            obtain ⟨h0, h0'⟩ := List.getElem?_eq_some_iff.1 e0
            rcases Nat.eq_zero_or_pos i with rfl | hpos
            · rw [h0']
            · have := (List.pairwise_iff_getElem.1 hl) 0 i h0 hi hpos
              rw [h0'] at this
              exact this.le
          | succ k =>
            simp only [List.getElem?_cons_succ] at hc hp
            have := a4 k c' p' hc hp
            refine ⟨hh, fun hk => ?_, fun j' hj' => ?_⟩
            · obtain ⟨b1, b2⟩ := this.fresh (by simpa using hk)
              refine ⟨by rw [← b1]; congr 1; omega, fun t ht x hx hx' => ?_⟩
              obtain ⟨f1, f2⟩ := (free_succ _ _ _ _).1 hx'
              exact b2 t ht x ((hmem x).2 ⟨hx, fun h => f1 (by rw [h])⟩) f2
            · obtain ⟨g, g0, j0', t, b1, b2, b3, b4, b5, b6, b7, b8, b9⟩ := this.warm j' (by simpa using hj')
              have m1 := (hmem _).1 b1
              have m3 := (hmem _).1 b3
              refine ⟨g, g0, j0', t, m1.1, (free_succ _ _ _ _).2 ⟨fun h => m1.2 (Option.some.inj h).symm, b2⟩, m3.1,
                (free_succ _ _ _ _).2 ⟨fun h => m3.2 (Option.some.inj h).symm, b4⟩, ?_, b6, b7, b8, ?_⟩
              · intro x hx hx'
                obtain ⟨f1, f2⟩ := (free_succ _ _ _ _).1 hx'
                exact b5 x ((hmem x).2 ⟨hx, fun h => f1 (by rw [h])⟩) f2
              · intro x hx hx'
                obtain ⟨f1, f2⟩ := (free_succ _ _ _ _).1 hx'
                exact b9 x ((hmem x).2 ⟨hx, fun h => f1 (by rw [h])⟩) f2

end Gasur.Elqr
