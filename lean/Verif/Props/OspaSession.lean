import Verif.Model.OspaSession
import Verif.Props.Ospa

/-!
# C150: what a filter reports of its OSPA calculations

`Gasur.OspaSession.run` gives the filters, saved states and parameter dictionaries after any history of constructions,
extractions, OSPA and OSPA(2) calculations, savings and restorings.
-/

namespace Gasur.Props.OspaHist

open Gasur.Ospa Gasur.OspaSession Gasur.Spec

variable {E : Type*} {s : ℕ}

/-! ### Specification -/

/-- The history restores nothing. -/
def LoadFree (h : List (Event E s)) : Prop := ∀ ev ∈ h, ∀ k j, ev ≠ .load k j

/-- From the world `w` on, filter `k` is not constructed or restored again, and none of its further calls of `calculate_ospa`
returns. -/
def NoNew (lsa : Lsa) (v : View E s) (k : ℕ) : World E → List (Event E s) → Prop
  | _, [] => True
  | w, ev :: h =>
    (∀ e, ev ≠ .create k e) ∧ (∀ j, ev ≠ .load k j) ∧
    (∀ a f, ev = .ospa k a → w.filts k = some f → ∃ x, calc1 lsa v f.est a = .error x) ∧
    NoNew lsa v k (step lsa v w ev) h

/-- The same for `calculate_ospa2`. -/
def NoNew2 (lsa : Lsa) (v : View E s) (k : ℕ) : World E → List (Event E s) → Prop
  | _, [] => True
  | w, ev :: h =>
    (∀ e, ev ≠ .create k e) ∧ (∀ j, ev ≠ .load k j) ∧
    (∀ a wl f, ev = .ospa2 k a wl → w.filts k = some f → ∃ x, calc2 lsa v f.est a wl = .error x) ∧
    NoNew2 lsa v k (step lsa v w ev) h

/-! ### The arrays -/

theorem upd_same {α : Type*} (f : ℕ → α) (k : ℕ) (x : α) : upd f k x k = x := by simp [upd]

theorem upd_ne {α : Type*} (f : ℕ → α) {k i : ℕ} (x : α) (h : i ≠ k) : upd f k x i = f i := by simp [upd, h]

/-- A step that assigns nothing to `ospa` of filter `k`. -/
theorem step_ospa (lsa : Lsa) (v : View E s) (w : World E) (ev : Event E s) (k : ℕ) (f : Filt E)
    (hf : w.filts k = some f) (h1 : ∀ e, ev ≠ .create k e) (h2 : ∀ j, ev ≠ .load k j)
    (h3 : ∀ a f, ev = .ospa k a → w.filts k = some f → ∃ x, calc1 lsa v f.est a = .error x) :
    ∃ f', (step lsa v w ev).filts k = some f' ∧ f'.ospa = f.ospa ∧ f'.params = f.params ∧ f'.params2 = f.params2 := by
  cases ev with
  | create k' e =>
    have : k ≠ k' := fun h => h1 e (by rw [h])
    exact ⟨f, by simp only [step]; rw [upd_ne _ _ this]; exact hf, rfl, rfl, rfl⟩
  | report k' e =>
    by_cases hk : k = k'
    · subst hk
      simp only [step, hf]
      exact ⟨_, upd_same _ _ _, rfl, rfl, rfl⟩
    · simp only [step]
      split
      · exact ⟨f, hf, rfl, rfl, rfl⟩
      · exact ⟨f, by dsimp only; rw [upd_ne _ _ hk]; exact hf, rfl, rfl, rfl⟩
  | ospa k' a =>
    by_cases hk : k = k'
    · subst hk
      obtain ⟨x, hx⟩ := h3 a f rfl hf
      have : step lsa v w (.ospa k a) = w := by simp only [step, hf, hx]
      rw [this]
      exact ⟨f, hf, rfl, rfl, rfl⟩
    · simp only [step]
      split
      · exact ⟨f, hf, rfl, rfl, rfl⟩
      · split
        · exact ⟨f, hf, rfl, rfl, rfl⟩
        · exact ⟨f, by dsimp only; rw [upd_ne _ _ hk]; exact hf, rfl, rfl, rfl⟩
  | ospa2 k' a wl =>
    by_cases hk : k = k'
    · subst hk
      simp only [step, hf]
      split
      · exact ⟨f, hf, rfl, rfl, rfl⟩
      · exact ⟨_, upd_same _ _ _, rfl, rfl, rfl⟩
    · simp only [step]
      split
      · exact ⟨f, hf, rfl, rfl, rfl⟩
      · split
        · exact ⟨f, hf, rfl, rfl, rfl⟩
        · exact ⟨f, by dsimp only; rw [upd_ne _ _ hk]; exact hf, rfl, rfl, rfl⟩
  | save k' j =>
    simp only [step]
    split
    · exact ⟨f, hf, rfl, rfl, rfl⟩
    · exact ⟨f, hf, rfl, rfl, rfl⟩
  | load k' j =>
    have hk : k ≠ k' := fun h => h2 j (by rw [h])
    simp only [step]
    split
    · exact ⟨f, by dsimp only; rw [upd_ne _ _ hk]; exact hf, rfl, rfl, rfl⟩
    · exact ⟨f, hf, rfl, rfl, rfl⟩

/-- A step that assigns nothing to `ospa2` of filter `k`. -/
theorem step_ospa2 (lsa : Lsa) (v : View E s) (w : World E) (ev : Event E s) (k : ℕ) (f : Filt E)
    (hf : w.filts k = some f) (h1 : ∀ e, ev ≠ .create k e) (h2 : ∀ j, ev ≠ .load k j)
    (h3 : ∀ a wl f, ev = .ospa2 k a wl → w.filts k = some f → ∃ x, calc2 lsa v f.est a wl = .error x) :
    ∃ f', (step lsa v w ev).filts k = some f' ∧ f'.ospa2 = f.ospa2 ∧ f'.params = f.params ∧ f'.params2 = f.params2 := by
  cases ev with
  | create k' e =>
    have : k ≠ k' := fun h => h1 e (by rw [h])
    exact ⟨f, by simp only [step]; rw [upd_ne _ _ this]; exact hf, rfl, rfl, rfl⟩
  | report k' e =>
    by_cases hk : k = k'
    · subst hk
      simp only [step, hf]
      exact ⟨_, upd_same _ _ _, rfl, rfl, rfl⟩
    · simp only [step]
      split
      · exact ⟨f, hf, rfl, rfl, rfl⟩
      · exact ⟨f, by dsimp only; rw [upd_ne _ _ hk]; exact hf, rfl, rfl, rfl⟩
  | ospa2 k' a wl =>
    by_cases hk : k = k'
    · subst hk
      obtain ⟨x, hx⟩ := h3 a wl f rfl hf
      have : step lsa v w (.ospa2 k a wl) = w := by simp only [step, hf, hx]
      rw [this]
      exact ⟨f, hf, rfl, rfl, rfl⟩
    · simp only [step]
      split
      · exact ⟨f, hf, rfl, rfl, rfl⟩
      · split
        · exact ⟨f, hf, rfl, rfl, rfl⟩
        · exact ⟨f, by dsimp only; rw [upd_ne _ _ hk]; exact hf, rfl, rfl, rfl⟩
  | ospa k' a =>
    by_cases hk : k = k'
    · subst hk
      simp only [step, hf]
      split
      · exact ⟨f, hf, rfl, rfl, rfl⟩
      · exact ⟨_, upd_same _ _ _, rfl, rfl, rfl⟩
    · simp only [step]
      split
      · exact ⟨f, hf, rfl, rfl, rfl⟩
      · split
        · exact ⟨f, hf, rfl, rfl, rfl⟩
        · exact ⟨f, by dsimp only; rw [upd_ne _ _ hk]; exact hf, rfl, rfl, rfl⟩
  | save k' j =>
    simp only [step]
    split
    · exact ⟨f, hf, rfl, rfl, rfl⟩
    · exact ⟨f, hf, rfl, rfl, rfl⟩
  | load k' j =>
    have hk : k ≠ k' := fun h => h2 j (by rw [h])
    simp only [step]
    split
    · exact ⟨f, by dsimp only; rw [upd_ne _ _ hk]; exact hf, rfl, rfl, rfl⟩
    · exact ⟨f, hf, rfl, rfl, rfl⟩

theorem fold_ospa (lsa : Lsa) (v : View E s) (k : ℕ) : ∀ (h : List (Event E s)) (w : World E) (f : Filt E),
    w.filts k = some f → NoNew lsa v k w h →
    ∃ f', (h.foldl (step lsa v) w).filts k = some f' ∧ f'.ospa = f.ospa := by
  intro h
  induction h with
  | nil => exact fun w f hf _ => ⟨f, hf, rfl⟩
  | cons ev h ih =>
    rintro w f hf ⟨h1, h2, h3, h4⟩
    obtain ⟨f', e1, e2, _⟩ := step_ospa lsa v w ev k f hf h1 h2 h3
    obtain ⟨f'', e3, e4⟩ := ih _ f' e1 h4
    exact ⟨f'', e3, e4.trans e2⟩

theorem fold_ospa2 (lsa : Lsa) (v : View E s) (k : ℕ) : ∀ (h : List (Event E s)) (w : World E) (f : Filt E),
    w.filts k = some f → NoNew2 lsa v k w h →
    ∃ f', (h.foldl (step lsa v) w).filts k = some f' ∧ f'.ospa2 = f.ospa2 := by
  intro h
  induction h with
  | nil => exact fun w f hf _ => ⟨f, hf, rfl⟩
  | cons ev h ih =>
    rintro w f hf ⟨h1, h2, h3, h4⟩
    obtain ⟨f', e1, e2, _⟩ := step_ospa2 lsa v w ev k f hf h1 h2 h3
    obtain ⟨f'', e3, e4⟩ := ih _ f' e1 h4
    exact ⟨f'', e3, e4.trans e2⟩

/-- **C150** (values). For every history, with any savings and restorings of any filters: the `ospa` arrays of a filter are
those of its last call of `calculate_ospa` that returned, as long as it is not constructed or restored again; calls that
raise, calls of `calculate_ospa2` and whatever happens to other filters do not matter. The same for OSPA(2). -/
theorem C150_last_values (lsa : Lsa) (v : View E s) (h1 h2 : List (Event E s)) (k : ℕ) (a : Args s) (f : Filt E)
    (r : Res) (hf : (run lsa v h1).filts k = some f) :
    (calc1 lsa v f.est a = .ok r → NoNew lsa v k (run lsa v (h1 ++ [.ospa k a])) h2 →
      ∃ f', (run lsa v (h1 ++ .ospa k a :: h2)).filts k = some f' ∧ f'.ospa = some r.vals) ∧
    ∀ wl, calc2 lsa v f.est a wl = .ok r → NoNew2 lsa v k (run lsa v (h1 ++ [.ospa2 k a wl])) h2 →
      ∃ f', (run lsa v (h1 ++ .ospa2 k a wl :: h2)).filts k = some f' ∧ f'.ospa2 = some r.vals := by
  constructor
  · intro hr hn
    have hs : ∀ t, run lsa v (h1 ++ .ospa k a :: t) = t.foldl (step lsa v) (step lsa v (run lsa v h1) (.ospa k a)) := by
      intro t; simp only [run, List.foldl_append, List.foldl_cons]
    rw [hs] at hn ⊢
    have he : (step lsa v (run lsa v h1) (.ospa k a)).filts k = some { f with ospa := some r.vals } := by
      simp only [step, hf, hr]; exact upd_same _ _ _
    obtain ⟨f', e1, e2⟩ := fold_ospa lsa v k h2 _ _ he hn
    exact ⟨f', e1, e2⟩
  · intro wl hr hn
    have hs : ∀ t, run lsa v (h1 ++ .ospa2 k a wl :: t)
        = t.foldl (step lsa v) (step lsa v (run lsa v h1) (.ospa2 k a wl)) := by
      intro t; simp only [run, List.foldl_append, List.foldl_cons]
    rw [hs] at hn ⊢
    have he : (step lsa v (run lsa v h1) (.ospa2 k a wl)).filts k = some { f with ospa2 := some r.vals } := by
      simp only [step, hf, hr]; exact upd_same _ _ _
    obtain ⟨f', e1, e2⟩ := fold_ospa2 lsa v k h2 _ _ he hn
    exact ⟨f', e1, e2⟩

/-! ### The parameters, when nothing is restored -/

/-- No two filters share a dictionary and no OSPA dictionary has a window length. -/
structure Inv (w : World E) : Prop where
  lt : ∀ k f, w.filts k = some f → f.params < w.next ∧ f.params2 < w.next
  cross : ∀ k f k' f', w.filts k = some f → w.filts k' = some f' → f.params ≠ f'.params2
  inj : ∀ k f k' f', w.filts k = some f → w.filts k' = some f' → f.params = f'.params → k = k'
  inj2 : ∀ k f k' f', w.filts k = some f → w.filts k' = some f' → f.params2 = f'.params2 → k = k'
  noWin : ∀ k f, w.filts k = some f → (w.mem f.params).winLen = none
  filled : ∀ k f, w.filts k = some f → f.ospa = none → (w.mem f.params).core = none

/-- Changing the attributes of one filter but not its addresses, and its dictionaries. -/
theorem Inv.upd_filt {w : World E} (hi : Inv w) (k : ℕ) (f g : Filt E) (hf : w.filts k = some f)
    (h1 : g.params = f.params) (h2 : g.params2 = f.params2) (mem : ℕ → Params)
    (hm : ∀ k' f', w.filts k' = some f' → (mem f'.params).winLen = none)
    (hn : ∀ k' f', w.filts k' = some f' → k' ≠ k → f'.ospa = none → (mem f'.params).core = none)
    (hn' : g.ospa = none → (mem g.params).core = none) :
    Inv { w with filts := upd w.filts k (some g), mem := mem } := by
  have key : ∀ k' f', upd w.filts k (some g) k' = some f' →
      ∃ f0, w.filts k' = some f0 ∧ f'.params = f0.params ∧ f'.params2 = f0.params2 := by
    intro k' f' h
    by_cases hk : k' = k
    · subst hk
      rw [upd_same] at h
      obtain rfl := Option.some.inj h
      exact ⟨f, hf, h1, h2⟩
    · rw [upd_ne _ _ hk] at h
      exact ⟨f', h, rfl, rfl⟩
  constructor
  · intro k' f' h
    obtain ⟨f0, a, b, c⟩ := key k' f' h
    rw [b, c]; exact hi.lt k' f0 a
  · intro k' f' k'' f'' h h'
    obtain ⟨f0, a, b, c⟩ := key k' f' h
    obtain ⟨f1, a', b', c'⟩ := key k'' f'' h'
    rw [b, c']; exact hi.cross k' f0 k'' f1 a a'
  · intro k' f' k'' f'' h h' he
    obtain ⟨f0, a, b, c⟩ := key k' f' h
    obtain ⟨f1, a', b', c'⟩ := key k'' f'' h'
    rw [b, b'] at he; exact hi.inj k' f0 k'' f1 a a' he
  · intro k' f' k'' f'' h h' he
    obtain ⟨f0, a, b, c⟩ := key k' f' h
    obtain ⟨f1, a', b', c'⟩ := key k'' f'' h'
    rw [c, c'] at he; exact hi.inj2 k' f0 k'' f1 a a' he
  · intro k' f' h
    obtain ⟨f0, a, b, c⟩ := key k' f' h
    dsimp only
    rw [b]; exact hm k' f0 a
  · intro k' f' h ho
    dsimp only at h ⊢
    by_cases hk : k' = k
    · subst hk
      rw [upd_same] at h
      obtain rfl := Option.some.inj h
      exact hn' ho
    · rw [upd_ne _ _ hk] at h
      exact hn k' f' h hk ho

theorem Inv.step {lsa : Lsa} {v : View E s} {w : World E} (hi : Inv w) (ev : Event E s)
    (hl : ∀ k j, ev ≠ .load k j) : Inv (step lsa v w ev) := by
  cases ev with
  | create k e =>
    have key : ∀ k' f', upd w.filts k (some ⟨e, none, none, w.next, w.next + 1⟩) k' = some f' →
        (k' = k ∧ f' = ⟨e, none, none, w.next, w.next + 1⟩) ∨ (k' ≠ k ∧ w.filts k' = some f') := by
      intro k' f' h
      by_cases hk : k' = k
      · subst hk
        rw [upd_same] at h
        exact .inl ⟨rfl, (Option.some.inj h).symm⟩
      · rw [upd_ne _ _ hk] at h
        exact .inr ⟨hk, h⟩
    have hmem : ∀ i, i < w.next → upd (upd w.mem w.next {}) (w.next + 1) ({} : Params) i = w.mem i := by
      intro i hl
      rw [upd_ne _ _ (by omega), upd_ne _ _ (by omega)]
    simp only [OspaSession.step]
    constructor
    · intro k' f' h
      rcases key k' f' h with ⟨_, rfl⟩ | ⟨_, h⟩
      · dsimp only; omega
      · have := hi.lt k' f' h; dsimp only; omega
    · intro k' f' k'' f'' h h'
      rcases key k' f' h with ⟨_, rfl⟩ | ⟨_, h⟩ <;> rcases key k'' f'' h' with ⟨_, rfl⟩ | ⟨_, h'⟩
      · dsimp only; omega
      · have := hi.lt k'' f'' h'; dsimp only; omega
      · have := hi.lt k' f' h; dsimp only; omega
      · exact hi.cross k' f' k'' f'' h h'
    · intro k' f' k'' f'' h h' he
      rcases key k' f' h with ⟨e1, rfl⟩ | ⟨_, h⟩ <;> rcases key k'' f'' h' with ⟨e2, rfl⟩ | ⟨_, h'⟩
      · rw [e1, e2]
      · have := hi.lt k'' f'' h'; dsimp only at he; omega
      · have := hi.lt k' f' h; dsimp only at he; omega
      · exact hi.inj k' f' k'' f'' h h' he
    · intro k' f' k'' f'' h h' he
      rcases key k' f' h with ⟨e1, rfl⟩ | ⟨_, h⟩ <;> rcases key k'' f'' h' with ⟨e2, rfl⟩ | ⟨_, h'⟩
      · rw [e1, e2]
      · have := hi.lt k'' f'' h'; dsimp only at he; omega
      · have := hi.lt k' f' h; dsimp only at he; omega
      · exact hi.inj2 k' f' k'' f'' h h' he
    · intro k' f' h
      rcases key k' f' h with ⟨_, rfl⟩ | ⟨_, h⟩
      · dsimp only; rw [upd_ne _ _ (by omega), upd_same]
      · dsimp only; rw [hmem _ (hi.lt k' f' h).1]; exact hi.noWin k' f' h
    · intro k' f' h ho
      rcases key k' f' h with ⟨_, rfl⟩ | ⟨_, h⟩
      · dsimp only; rw [upd_ne _ _ (by omega), upd_same]
      · dsimp only; rw [hmem _ (hi.lt k' f' h).1]; exact hi.filled k' f' h ho
  | report k e =>
    simp only [OspaSession.step]
    split
    · exact hi
    · next f hf =>
      exact hi.upd_filt k f ⟨e, f.ospa, f.ospa2, f.params, f.params2⟩ hf rfl rfl w.mem hi.noWin
        (fun k' f' h _ => hi.filled k' f' h) (hi.filled k f hf)
  | ospa k a =>
    simp only [OspaSession.step]
    split
    · exact hi
    · next f hf =>
      split
      · exact hi
      · next r hr =>
        refine hi.upd_filt k f ⟨f.est, some r.vals, f.ospa2, f.params, f.params2⟩ hf rfl rfl _ ?_ ?_ (fun h => (nomatch h))
        · intro k' f' h
          by_cases hk : f'.params = f.params
          · rw [hk, upd_same]; exact hi.noWin k f hf
          · rw [upd_ne _ _ hk]; exact hi.noWin k' f' h
        · intro k' f' h hk
          rw [upd_ne _ _ (fun he => hk (hi.inj k' f' k f h hf he))]
          exact hi.filled k' f' h
  | ospa2 k a wl =>
    simp only [OspaSession.step]
    split
    · exact hi
    · next f hf =>
      split
      · exact hi
      · next r hr =>
        refine hi.upd_filt k f ⟨f.est, f.ospa, some r.vals, f.params, f.params2⟩ hf rfl rfl _ ?_ ?_ ?_
        · intro k' f' h
          rw [upd_ne _ _ (hi.cross k' f' k f h hf)]; exact hi.noWin k' f' h
        · intro k' f' h hk
          rw [upd_ne _ _ (hi.cross k' f' k f h hf)]; exact hi.filled k' f' h
        · dsimp only
          rw [upd_ne _ _ (hi.cross k f k f hf hf)]; exact hi.filled k f hf
  | save k j =>
    simp only [OspaSession.step]
    split
    · exact hi
    · exact ⟨hi.lt, hi.cross, hi.inj, hi.inj2, hi.noWin, hi.filled⟩
  | load k j => exact absurd rfl (hl k j)

theorem Inv.fold {lsa : Lsa} {v : View E s} : ∀ (h : List (Event E s)) (w : World E), Inv w → LoadFree h →
    Inv (h.foldl (OspaSession.step lsa v) w) := by
  intro h
  induction h with
  | nil => exact fun w hi _ => hi
  | cons ev h ih =>
    intro w hi hl
    exact ih _ (hi.step ev (hl ev (by simp))) fun e he => hl e (by simp [he])

theorem Inv.run (lsa : Lsa) (v : View E s) (h : List (Event E s)) (hl : LoadFree h) : Inv (run lsa v h) :=
  Inv.fold h _ ⟨fun _ _ h => (nomatch h), fun _ _ _ _ h => (nomatch h), fun _ _ _ _ h => (nomatch h),
    fun _ _ _ _ h => (nomatch h), fun _ _ h => (nomatch h), fun _ _ h => (nomatch h)⟩ hl

/-- A step that records no parameters for `calculate_ospa` of filter `k`. -/
theorem step_params (lsa : Lsa) (v : View E s) (w : World E) (hi : Inv w) (ev : Event E s) (k : ℕ) (f : Filt E)
    (hf : w.filts k = some f) (h2 : ∀ k j, ev ≠ .load k j)
    (h3 : ∀ a f, ev = .ospa k a → w.filts k = some f → ∃ x, calc1 lsa v f.est a = .error x) :
    (step lsa v w ev).mem f.params = w.mem f.params := by
  cases ev with
  | create k' e =>
    have := (hi.lt k f hf).1
    simp only [step]
    rw [upd_ne _ _ (by omega), upd_ne _ _ (by omega)]
  | report k' e => simp only [step]; split <;> rfl
  | ospa k' a =>
    simp only [step]
    split
    · rfl
    · next f' hf' =>
      split
      · rfl
      · next r hr =>
        by_cases hk : k = k'
        · subst hk
          obtain ⟨x, hx⟩ := h3 a f' rfl hf'
          rw [hx] at hr; exact nomatch hr
        · dsimp only
          rw [upd_ne _ _ (fun he => hk (hi.inj k f k' f' hf hf' he))]
  | ospa2 k' a wl =>
    simp only [step]
    split
    · rfl
    · next f' hf' =>
      split
      · rfl
      · dsimp only
        rw [upd_ne _ _ (hi.cross k f k' f' hf hf')]
  | save k' j => simp only [step]; split <;> rfl
  | load k' j => exact absurd rfl (h2 k' j)

/-- A step that records no parameters for `calculate_ospa2` of filter `k`. -/
theorem step_params2 (lsa : Lsa) (v : View E s) (w : World E) (hi : Inv w) (ev : Event E s) (k : ℕ) (f : Filt E)
    (hf : w.filts k = some f) (h2 : ∀ k j, ev ≠ .load k j)
    (h3 : ∀ a wl f, ev = .ospa2 k a wl → w.filts k = some f → ∃ x, calc2 lsa v f.est a wl = .error x) :
    (step lsa v w ev).mem f.params2 = w.mem f.params2 := by
  cases ev with
  | create k' e =>
    have := (hi.lt k f hf).2
    simp only [step]
    rw [upd_ne _ _ (by omega), upd_ne _ _ (by omega)]
  | report k' e => simp only [step]; split <;> rfl
  | ospa2 k' a wl =>
    simp only [step]
    split
    · rfl
    · next f' hf' =>
      split
      · rfl
      · next r hr =>
        by_cases hk : k = k'
        · subst hk
          obtain ⟨x, hx⟩ := h3 a wl f' rfl hf'
          rw [hx] at hr; exact nomatch hr
        · dsimp only
          rw [upd_ne _ _ (fun he => hk (hi.inj2 k f k' f' hf hf' he))]
  | ospa k' a =>
    simp only [step]
    split
    · rfl
    · next f' hf' =>
      split
      · rfl
      · dsimp only
        rw [upd_ne _ _ (hi.cross k' f' k f hf' hf).symm]
  | save k' j => simp only [step]; split <;> rfl
  | load k' j => exact absurd rfl (h2 k' j)

theorem fold_params (lsa : Lsa) (v : View E s) (k : ℕ) : ∀ (h : List (Event E s)) (w : World E) (f : Filt E),
    Inv w → w.filts k = some f → NoNew lsa v k w h → LoadFree h →
    ∃ f', (h.foldl (step lsa v) w).filts k = some f' ∧ f'.ospa = f.ospa ∧
      (h.foldl (step lsa v) w).mem f'.params = w.mem f.params := by
  intro h
  induction h with
  | nil => exact fun w f _ hf _ _ => ⟨f, hf, rfl, rfl⟩
  | cons ev h ih =>
    rintro w f hi hf ⟨h1, h2, h3, h4⟩ hl
    have hl0 := hl ev (by simp)
    obtain ⟨f', e1, e2, e3, _⟩ := step_ospa lsa v w ev k f hf h1 h2 h3
    obtain ⟨f'', e4, e5, e6⟩ := ih _ f' (hi.step ev hl0) e1 h4 fun e he => hl e (by simp [he])
    refine ⟨f'', e4, e5.trans e2, ?_⟩
    rw [List.foldl_cons, e6, e3]
    exact step_params lsa v w hi ev k f hf hl0 h3

theorem fold_params2 (lsa : Lsa) (v : View E s) (k : ℕ) : ∀ (h : List (Event E s)) (w : World E) (f : Filt E),
    Inv w → w.filts k = some f → NoNew2 lsa v k w h → LoadFree h →
    ∃ f', (h.foldl (step lsa v) w).filts k = some f' ∧ f'.ospa2 = f.ospa2 ∧
      (h.foldl (step lsa v) w).mem f'.params2 = w.mem f.params2 := by
  intro h
  induction h with
  | nil => exact fun w f _ hf _ _ => ⟨f, hf, rfl, rfl⟩
  | cons ev h ih =>
    rintro w f hi hf ⟨h1, h2, h3, h4⟩ hl
    have hl0 := hl ev (by simp)
    obtain ⟨f', e1, e2, _, e3⟩ := step_ospa2 lsa v w ev k f hf h1 h2 h3
    obtain ⟨f'', e4, e5, e6⟩ := ih _ f' (hi.step ev hl0) e1 h4 fun e he => hl e (by simp [he])
    refine ⟨f'', e4, e5.trans e2, ?_⟩
    rw [List.foldl_cons, e6, e3]
    exact step_params2 lsa v w hi ev k f hf hl0 h3

/-- **C150** (parameters; for histories in which nothing is restored, see C151 for the others). The parameters in the title of the
OSPA plot and `ospa_method` are those of the last call of `calculate_ospa` that returned. The same for the OSPA(2) plot. -/
theorem C150_last_params (lsa : Lsa) (v : View E s) (h1 h2 : List (Event E s)) (k : ℕ) (a : Args s) (f : Filt E)
    (r : Res) (hf : (run lsa v h1).filts k = some f) (hl1 : LoadFree h1) (hl2 : LoadFree h2) :
    (calc1 lsa v f.est a = .ok r → NoNew lsa v k (run lsa v (h1 ++ [.ospa k a])) h2 →
      title (run lsa v (h1 ++ .ospa k a :: h2)) k = some (.ok (r.core, r.cutoff, r.power)) ∧
      ospaMethod (run lsa v (h1 ++ .ospa k a :: h2)) k = some r.core) ∧
    ∀ wl, calc2 lsa v f.est a wl = .ok r → NoNew2 lsa v k (run lsa v (h1 ++ [.ospa2 k a wl])) h2 →
      title2 (run lsa v (h1 ++ .ospa2 k a wl :: h2)) k = some (.ok (r.core, r.cutoff, r.power, wl)) := by
  have hi := Inv.run lsa v h1 hl1
  constructor
  · intro hr hn
    have hs : ∀ t, run lsa v (h1 ++ .ospa k a :: t) = t.foldl (step lsa v) (step lsa v (run lsa v h1) (.ospa k a)) := by
      intro t; simp only [run, List.foldl_append, List.foldl_cons]
    rw [hs] at hn ⊢
    have he : (step lsa v (run lsa v h1) (.ospa k a)).filts k = some { f with ospa := some r.vals } := by
      simp only [step, hf, hr]; exact upd_same _ _ _
    have hm : (step lsa v (run lsa v h1) (.ospa k a)).mem f.params
        = { (run lsa v h1).mem f.params with core := some r.core, cutoff := some r.cutoff, power := some r.power } := by
      simp only [step, hf, hr]; exact upd_same _ _ _
    obtain ⟨f', e1, e2, e3⟩ := fold_params lsa v k h2 _ _ (hi.step (.ospa k a) (by simp)) he hn hl2
    dsimp only at e2 e3
    rw [hm] at e3
    constructor
    · unfold title; simp only [e1, e2, e3]
    · unfold ospaMethod; simp only [e1, e3]
  · intro wl hr hn
    have hs : ∀ t, run lsa v (h1 ++ .ospa2 k a wl :: t)
        = t.foldl (step lsa v) (step lsa v (run lsa v h1) (.ospa2 k a wl)) := by
      intro t; simp only [run, List.foldl_append, List.foldl_cons]
    rw [hs] at hn ⊢
    have he : (step lsa v (run lsa v h1) (.ospa2 k a wl)).filts k = some { f with ospa2 := some r.vals } := by
      simp only [step, hf, hr]; exact upd_same _ _ _
    have hm : (step lsa v (run lsa v h1) (.ospa2 k a wl)).mem f.params2
        = ⟨some r.core, some r.cutoff, some r.power, some wl⟩ := by
      simp only [step, hf, hr]; exact upd_same _ _ _
    obtain ⟨f', e1, e2, e3⟩ := fold_params2 lsa v k h2 _ _ (hi.step (.ospa2 k a wl) (by simp)) he hn hl2
    dsimp only at e2 e3
    rw [hm] at e3
    unfold title2; simp only [e1, e2, e3]

/-- **C150**: before the first call that returns there is nothing: no plot and no method. -/
theorem C150_nothing_yet (lsa : Lsa) (v : View E s) (h1 h2 : List (Event E s)) (k : ℕ) (e : E)
    (hl1 : LoadFree h1) (hl2 : LoadFree h2) (hn : NoNew lsa v k (run lsa v (h1 ++ [.create k e])) h2) :
    title (run lsa v (h1 ++ .create k e :: h2)) k = none ∧ ospaMethod (run lsa v (h1 ++ .create k e :: h2)) k = none := by
  have hi := Inv.run lsa v h1 hl1
  have hs : ∀ t, run lsa v (h1 ++ .create k e :: t) = t.foldl (step lsa v) (step lsa v (run lsa v h1) (.create k e)) := by
    intro t; simp only [run, List.foldl_append, List.foldl_cons]
  rw [hs] at hn ⊢
  have he : (step lsa v (run lsa v h1) (.create k e)).filts k
      = some ⟨e, none, none, (run lsa v h1).next, (run lsa v h1).next + 1⟩ := by
    simp only [step]; exact upd_same _ _ _
  obtain ⟨f', e1, e2, e3⟩ := fold_params lsa v k h2 _ _ (hi.step (.create k e) (by simp)) he hn hl2
  have hm : (step lsa v (run lsa v h1) (.create k e)).mem (run lsa v h1).next = {} := by
    simp only [step]; rw [upd_ne _ _ (by omega), upd_same]
  dsimp only at e2 e3
  rw [hm] at e3
  constructor
  · unfold title; simp only [e1, e2]
  · unfold ospaMethod; simp only [e1, e3]

/-! ### The recorded parameters reproduce the values -/

theorem effMethod_eff (m : Option Method) (t e : Bool) : effMethod (some (effMethod m t e)) t e = effMethod m t e := by
  rcases m with _ | m
  · rfl
  · cases m <;> cases t <;> cases e <;> rfl

theorem effCut_eff (m : Method) (c : ℝ) : effCut m (effCut m c) = effCut m c := by
  unfold effCut
  split
  · simp
  · rfl

/-- **C150**: calculating again with the parameters that a call recorded gives the same values and records the same
parameters. -/
theorem C150_recorded_params (lsa : Lsa) (v : View E s) (e : E) (a : Args s) (r : Res) :
    (calc1 lsa v e a = .ok r → calc1 lsa v e ⟨a.truth, r.cutoff, r.power, some r.core, a.trueCovs⟩ = .ok r) ∧
    ∀ wl, calc2 lsa v e a wl = .ok r → calc2 lsa v e ⟨a.truth, r.cutoff, r.power, some r.core, a.trueCovs⟩ wl = .ok r := by
  constructor
  · intro h
    unfold calc1 calcWith at h ⊢
    dsimp only at h ⊢
    split at h
    · next hd =>
      rw [if_pos hd]
      split at h
      · exact nomatch h
      · next vals hv =>
        obtain rfl := Except.ok.inj h
        dsimp only
        rw [effMethod_eff, effCut_eff]
        have : (fun em tm : List (Row (Obj s)) => callOspa lsa em tm (effCut (effMethod a.method a.trueCovs (v.saveCovs e)) a.c) a.p
            (some (effMethod a.method a.trueCovs (v.saveCovs e))) a.trueCovs (v.saveCovs e))
            = fun em tm : List (Row (Obj s)) => callOspa lsa em tm a.c a.p a.method a.trueCovs (v.saveCovs e) := by
          funext em tm
          unfold callOspa ospaGiven
          rw [effMethod_eff, effCut_eff]
        rw [this, hv]
    · next hd =>
      rw [if_neg hd]
      obtain rfl := Except.ok.inj h
      dsimp only
      rw [effMethod_eff]
  · intro wl h
    unfold calc2 calcWith at h ⊢
    dsimp only at h ⊢
    split at h
    · next hd =>
      rw [if_pos hd]
      split at h
      · exact nomatch h
      · next vals hv =>
        obtain rfl := Except.ok.inj h
        dsimp only
        rw [effMethod_eff, effCut_eff]
        have : (fun em tm : List (Row (Obj s)) => callOspa2 lsa em tm (effCut (effMethod a.method a.trueCovs (v.saveCovs e)) a.c) a.p wl
            (some (effMethod a.method a.trueCovs (v.saveCovs e))) a.trueCovs (v.saveCovs e))
            = fun em tm : List (Row (Obj s)) => callOspa2 lsa em tm a.c a.p wl a.method a.trueCovs (v.saveCovs e) := by
          funext em tm
          unfold callOspa2
          rw [effMethod_eff, effCut_eff]
        rw [this, hv]
    · next hd =>
      rw [if_neg hd]
      obtain rfl := Except.ok.inj h
      dsimp only
      rw [effMethod_eff]

/-! ### Restoring -/

/-- **C151** (refuted as stated for OSPA(2)). Restoring a saved filter into another one (or itself), after any history in
which nothing was restored before: the title of the OSPA plot and `ospa_method` are those of the saved filter, and so are
all values; but the OSPA(2) plot raises `KeyError` whenever there is something to plot. -/
theorem C151_restored_titles_partial (lsa : Lsa) (v : View E s) (h : List (Event E s)) (hl : LoadFree h) (k k' j : ℕ)
    (f f0 : Filt E) (hf : (run lsa v h).filts k = some f) (hk : (run lsa v h).filts k' = some f0) :
    title (run lsa v (h ++ [.save k j, .load k' j])) k' = title (run lsa v h) k ∧
    ospaMethod (run lsa v (h ++ [.save k j, .load k' j])) k' = ospaMethod (run lsa v h) k ∧
    (∃ g, (run lsa v (h ++ [.save k j, .load k' j])).filts k' = some g ∧ g.ospa = f.ospa ∧ g.ospa2 = f.ospa2) ∧
    (title2 (run lsa v (h ++ [.save k j, .load k' j])) k' = if f.ospa2 = none then none else some (.error .key)) := by
  have hi := Inv.run lsa v h hl
  have hw := hi.noWin k f hf
  have hs : run lsa v (h ++ [.save k j, .load k' j])
      = { run lsa v h with saved := upd (run lsa v h).saved j (some f.save),
                           filts := upd (run lsa v h).filts k' (some f.save) } := by
    have : run lsa v (h ++ [.save k j, .load k' j])
        = step lsa v (step lsa v (run lsa v h) (.save k j)) (.load k' j) := by
      simp only [run, List.foldl_append, List.foldl_cons, List.foldl_nil]
    rw [this]
    have e1 : step lsa v (run lsa v h) (.save k j)
        = { run lsa v h with saved := upd (run lsa v h).saved j (some f.save) } := by simp only [step, hf]
    rw [e1]
    simp only [step, hk, upd_same]
  rw [hs]
  refine ⟨?_, ?_, ⟨_, upd_same _ _ _, rfl, rfl⟩, ?_⟩
  · unfold title; simp only [upd_same, hf, Filt.save]
  · unfold ospaMethod; simp only [upd_same, hf, Filt.save]
  · unfold title2
    simp only [upd_same, Filt.save, hw]
    cases h2 : f.ospa2 with
    | none => simp
    | some x => simp

/-- **C151**: and the two filters then share the parameters: when `calculate_ospa2` returns for the restored filter, the title
of the *OSPA* plot and `ospa_method` of both filters show the parameters of that OSPA(2) calculation, although neither `ospa`
has changed. -/
theorem C151_shared (lsa : Lsa) (v : View E s) (h : List (Event E s)) (k k' j wl : ℕ) (a : Args s)
    (f f0 : Filt E) (hf : (run lsa v h).filts k = some f) (hk : (run lsa v h).filts k' = some f0) (r : Res)
    (hr : calc2 lsa v f.est a wl = .ok r) (hne : f.ospa ≠ none) :
    (∀ i, i = k ∨ i = k' →
      title (run lsa v (h ++ [.save k j, .load k' j, .ospa2 k' a wl])) i = some (.ok (r.core, r.cutoff, r.power)) ∧
      ospaMethod (run lsa v (h ++ [.save k j, .load k' j, .ospa2 k' a wl])) i = some r.core ∧
      ∃ g, (run lsa v (h ++ [.save k j, .load k' j, .ospa2 k' a wl])).filts i = some g ∧ g.ospa = f.ospa) := by
  obtain ⟨x, hx⟩ := Option.ne_none_iff_exists'.1 hne
  have hs : run lsa v (h ++ [.save k j, .load k' j, .ospa2 k' a wl])
      = { run lsa v h with saved := upd (run lsa v h).saved j (some f.save),
                           filts := upd (upd (run lsa v h).filts k' (some f.save)) k'
                             (some { f.save with ospa2 := some r.vals }),
                           mem := upd (run lsa v h).mem f.params
                             ⟨some r.core, some r.cutoff, some r.power, some wl⟩ } := by
    have : run lsa v (h ++ [.save k j, .load k' j, .ospa2 k' a wl])
        = step lsa v (step lsa v (step lsa v (run lsa v h) (.save k j)) (.load k' j)) (.ospa2 k' a wl) := by
      simp only [run, List.foldl_append, List.foldl_cons, List.foldl_nil]
    rw [this]
    have e1 : step lsa v (run lsa v h) (.save k j)
        = { run lsa v h with saved := upd (run lsa v h).saved j (some f.save) } := by simp only [step, hf]
    rw [e1]
    have e2 : step lsa v { run lsa v h with saved := upd (run lsa v h).saved j (some f.save) } (.load k' j)
        = { run lsa v h with saved := upd (run lsa v h).saved j (some f.save),
                             filts := upd (run lsa v h).filts k' (some f.save) } := by
      simp only [step, hk, upd_same]
    rw [e2]
    have hr' : calc2 lsa v f.save.est a wl = .ok r := hr
    simp only [step, upd_same, hr']
    rfl
  rw [hs]
  intro i hik
  by_cases hkk : i = k'
  · subst hkk
    refine ⟨?_, ?_, _, upd_same _ _ _, rfl⟩
    · unfold title; simp only [upd_same, Filt.save, hx]
    · unfold ospaMethod; simp only [upd_same, Filt.save]
  · have hik : i = k := by rcases hik with h | h; exacts [h, absurd h hkk]
    subst hik
    have hfl : upd (upd (run lsa v h).filts k' (some f.save)) k' (some { f.save with ospa2 := some r.vals }) i = some f := by
      rw [upd_ne _ _ hkk, upd_ne _ _ hkk]; exact hf
    refine ⟨?_, ?_, f, hfl, rfl⟩
    · unfold title; simp only [hfl, hx, upd_same]
    · unfold ospaMethod; simp only [hfl, upd_same]

/-! ### The values -/

/-- For the PHD filters and a known dimension the values are those of `Ospa.filterOspa`, for the GLMB filters those of
`Ospa.glmbOspa`, about which the claims C39-C43 and C142 are. -/
theorem C150_is_filter_ospa (lsa : Lsa) (est truth : List (List (Option (Obj s)))) (b : Bool) (c : ℝ) (p : ℕ)
    (m : Option Method) (t : Bool) (r : Res) {L : Type*} [DecidableEq L] (labels : List (List L)) (ge : List (List (Obj s))) :
    (dimKnown (phdView s) (est, b) truth = true → calc1 lsa (phdView s) (est, b) ⟨truth, c, p, m, t⟩ = .ok r →
      filterOspa lsa est truth c p m t b = .ok r.vals) ∧
    (dimKnown (glmbView s L) (labels, ge, b) truth = true →
      calc1 lsa (glmbView s L) (labels, ge, b) ⟨truth, c, p, m, t⟩ = .ok r →
      glmbOspa lsa labels ge truth c p m t b = .ok r.vals) := by
  constructor
  · intro hd h
    unfold calc1 calcWith at h
    rw [if_pos hd] at h
    split at h
    · exact nomatch h
    · next l hl =>
      obtain rfl := Except.ok.inj h
      unfold withMats at hl
      unfold filterOspa
      dsimp only [phdView] at hl
      cases h1 : setupMat truth with
      | error x => rw [h1] at hl; exact nomatch hl
      | ok tm =>
        rw [h1] at hl
        cases h2 : setupMat est with
        | error x => rw [h2] at hl; exact nomatch hl
        | ok em => rw [h2] at hl; exact hl
  · intro hd h
    unfold calc1 calcWith at h
    rw [if_pos hd] at h
    split at h
    · exact nomatch h
    · next l hl =>
      obtain rfl := Except.ok.inj h
      unfold withMats at hl
      unfold glmbOspa
      dsimp only [glmbView] at hl
      cases h1 : setupMat truth with
      | error x => rw [h1] at hl; exact nomatch hl
      | ok tm => rw [h1] at hl; exact hl

theorem setupRows_length {X : Type*} (n : ℕ) : ∀ (l : List (List (Option X))) (rows : List (Row X)),
    setupRows n l = .ok rows → rows.length = l.length := by
  intro l
  induction l with
  | nil => intro rows h; obtain rfl := Except.ok.inj h; rfl
  | cons x l ih =>
    intro rows h
    unfold setupRows at h
    split at h
    · exact nomatch h
    · split at h
      · exact nomatch h
      · next rs hrs =>
        obtain rfl := Except.ok.inj h
        simp [ih _ hrs]

theorem ospaLoop_ok {X Y : Type*} {lsa : Lsa} {c : ℝ} {p : ℕ} {ue : Bool} {d : X → Y → ℝ} : ∀ (est : List (Row X))
    (truth : List (Row Y)) (out : List (ℝ × ℝ)), ospaLoop lsa c p ue d est truth = .ok out →
    out.length = truth.length ∧ truth.length ≤ est.length ∧
      ∀ r ∈ out, ∃ e ∈ est, ∃ t ∈ truth, ospaStep lsa c p ue d e t = .ok r := by
  intro est truth
  induction truth generalizing est with
  | nil =>
    intro out h
    have : out = [] := by cases est <;> simpa [ospaLoop] using h
    subst this; simp
  | cons t ts ih =>
    intro out h
    cases est with
    | nil => exact nomatch h
    | cons e es =>
      unfold ospaLoop at h
      split at h
      · exact nomatch h
      · next r hr =>
        split at h
        · exact nomatch h
        · next l hl =>
          obtain rfl := Except.ok.inj h
          obtain ⟨h1, h2, h3⟩ := ih es l hl
          refine ⟨by simp [h1], by simp [h2], ?_⟩
          intro x hx
          rcases List.mem_cons.1 hx with rfl | hx
          · exact ⟨e, by simp, t, by simp, hr⟩
          · obtain ⟨e', he', t', ht', hh⟩ := h3 x hx
            exact ⟨e', by simp [he'], t', by simp [ht'], hh⟩

/-- **C150** (values of `calculate_ospa`). A call that returns has recorded one value per time step of the truth, with both
components between 0 and the recorded cut-off; if no state is known at all it has recorded one zero per time step of the
*filter*. (The Hellinger method needs positive definite covariances.) -/
theorem C150_values (lsa : Lsa) (hl : ∀ m n D, IsOptimal D (lsa m n D)) (v : View E s) (e : E) (a : Args s) (r : Res)
    (hc : 0 ≤ a.c) (hp : 1 ≤ a.p) (hr : calc1 lsa v e a = .ok r)
    (hpd : r.core = .hellinger → ∀ em tm, v.setup e = .ok em → setupMat a.truth = .ok tm → AllPD em ∧ AllPD tm) :
    r.power = a.p ∧ r.cutoff ≤ a.c ∧
    (∀ x ∈ r.vals, 0 ≤ x.1 ∧ x.1 ≤ r.cutoff ∧ 0 ≤ x.2 ∧ x.2 ≤ r.cutoff) ∧
    (((∃ l ∈ a.truth, ∃ x, some x ∈ l) ∨ v.known e = true) → r.vals.length = a.truth.length) ∧
    (¬ ((∃ l ∈ a.truth, ∃ x, some x ∈ l) ∨ v.known e = true) → r.vals = List.replicate (v.steps e) (0, 0)) := by
  have hdk : dimKnown v e a.truth = true ↔ (∃ l ∈ a.truth, ∃ x, some x ∈ l) ∨ v.known e = true := by
    unfold dimKnown
    simp only [Bool.or_eq_true, List.any_eq_true, Option.isSome_iff_exists]
    constructor
    · rintro (⟨l, h1, o, h2, x, rfl⟩ | h)
      · exact .inl ⟨l, h1, x, h2⟩
      · exact .inr h
    · rintro (⟨l, h1, x, h2⟩ | h)
      · exact .inl ⟨l, h1, _, h2, x, rfl⟩
      · exact .inr h
  unfold calc1 calcWith at hr
  by_cases hd : dimKnown v e a.truth = true
  · rw [if_pos hd] at hr
    split at hr
    · exact nomatch hr
    · next vals hv =>
      obtain rfl := Except.ok.inj hr
      have hb := effCut_bounds (effMethod a.method a.trueCovs (v.saveCovs e)) hc
      unfold withMats at hv
      split at hv
      · exact nomatch hv
      · next tm htm =>
        split at hv
        · exact nomatch hv
        · next em hem =>
          unfold callOspa at hv
          dsimp only at hv
          split at hv
          · exact nomatch hv
          · obtain ⟨h1, h2, h3⟩ := ospaLoop_ok _ _ _ hv
            refine ⟨rfl, hb.2, ?_, fun _ => h1.trans (setupRows_length _ _ _ htm), fun h => absurd (hdk.1 hd) h⟩
            intro x hx
            obtain ⟨er, her, tr, htr, hs⟩ := h3 x hx
            obtain ⟨l, rr, g1, g2, g3, g4⟩ := ospaStep_bounds hl hb.1 (by omega : a.p ≠ 0)
              (coreDist (effMethod a.method a.trueCovs (v.saveCovs e))) er tr
              (fun x hx y hy => coreDist_nonneg _ _ _ fun h =>
                ⟨(hpd h em tm hem htm).1 er her x hx, (hpd h em tm hem htm).2 tr htr y hy⟩)
            rw [g1] at hs
            obtain rfl := Except.ok.inj hs
            obtain ⟨g5, g6⟩ := le_of_pow_add hb.1 (by omega) g2 g3 g4
            exact ⟨g2, g5, g3, g6⟩
  · rw [if_neg hd] at hr
    obtain rfl := Except.ok.inj hr
    refine ⟨rfl, le_rfl, ?_, fun h => absurd (hdk.2 h) hd, fun _ => rfl⟩
    intro x hx
    obtain rfl := List.eq_of_mem_replicate hx
    exact ⟨le_rfl, hc, le_rfl, hc⟩

/-! ### A concrete history -/

/-- Two GLMB filters without any estimates at one time step; the truth has one object. -/
def exHist : List (Event (List (List ℕ) × List (List (Obj 1)) × Bool) 1) :=
  [.create 0 ([[]], [[]], false), .ospa 0 ⟨[[some (pt 0)]], 2, 1, none, false⟩,
   .ospa2 0 ⟨[[some (pt 0)]], 3, 1, some .manhattan, false⟩ 5, .create 1 ([[]], [[]], false)]

theorem exCalc (lsa : Lsa) (c : ℝ) (m : Option Method) (hm : m = none ∨ m = some .manhattan) :
    calc1 lsa (glmbView 1 ℕ) ([[]], [[]], false) ⟨[[some (pt 0)]], c, 1, m, false⟩
      = .ok ⟨[(0, c)], effMethod m false false, c, 1⟩ ∧
    ∀ wl, ∃ r, calc2 lsa (glmbView 1 ℕ) ([[]], [[]], false) ⟨[[some (pt 0)]], c, 1, m, false⟩ wl
      = .ok ⟨r, effMethod m false false, c, 1⟩ := by
  have hts : setupMat [[some (pt 0)]] = .ok [[some (pt 0)]] := rfl
  have hes : setupLabels ([[]] : List (List ℕ)) ([[]] : List (List (Obj 1))) = [[]] := rfl
  have hne : effMethod m false false ≠ .hellinger := by rcases hm with rfl | rfl <;> simp [effMethod]
  have hcut : effCut (effMethod m false false) c = c := by unfold effCut; rw [if_neg hne]
  constructor
  · unfold calc1 calcWith
    rw [if_pos (by rfl)]
    simp only [withMats, hts, glmbView, hes]
    unfold callOspa
    rw [if_neg (fun h => hne h.1)]
    unfold ospaGiven
    rw [hcut]
    simp [ospaLoop, ospaStep, Ospa.count]
  · intro wl
    unfold calc2 calcWith
    rw [if_pos (by rfl)]
    simp only [withMats, hts, glmbView, hes]
    unfold callOspa2
    rw [if_neg (fun h => hne h.1), hcut]
    have h0 : ospaLoop lsa c 1 false (coreDist (effMethod m false false)) [[]] [[some (pt 0)]] = .ok [(0, c)] := by
      simp [ospaLoop, ospaStep, Ospa.count]
    have h1 : validHist ([[]] : List (Row (Obj 1))) (window 0 wl) = [] := by simp [validHist, numSlots]
    have h2 : ∀ ts, ∃ x, ospa2Step lsa c 1 (coreDist (effMethod m false false)) ([] : List (List (Option (Obj 1)))) ts
        = .ok x := by
      intro ts
      unfold ospa2Step
      split
      · exact ⟨_, rfl⟩
      · rw [if_pos (.inr rfl)]
        exact ⟨_, rfl⟩
    obtain ⟨x, hx⟩ := h2 (validHist [[some (pt 0)]] (window 0 wl))
    refine ⟨[x], ?_⟩
    have h3 : ospa2 lsa c 1 wl (coreDist (effMethod m false false)) [[]] [[some (pt 0)]] = .ok [.ok x] := by
      unfold ospa2
      rw [h0]
      simp only [one_ne_zero, if_false, List.length_singleton, List.range_one, List.map_cons, List.map_nil, h1, hx]
    rw [h3]
    rfl

/-- The hypotheses of `C150_last_values`, `C150_last_params`, `C151_restored_titles_partial` and `C151_shared` hold for
`exHist`, with both distances calculated. -/
theorem exHist_ok (lsa : Lsa) : ∃ f f0, (run lsa (glmbView 1 ℕ) exHist).filts 0 = some f ∧
    (run lsa (glmbView 1 ℕ) exHist).filts 1 = some f0 ∧ f.est = ([[]], [[]], false) ∧ f.ospa = some [(0, 2)] ∧
    f.ospa2 ≠ none ∧ LoadFree exHist ∧
    title (run lsa (glmbView 1 ℕ) exHist) 0 = some (.ok (.euclidean, 2, 1)) ∧
    title2 (run lsa (glmbView 1 ℕ) exHist) 0 = some (.ok (.manhattan, 3, 1, 5)) := by
  obtain ⟨r, hr⟩ := (exCalc lsa 3 (some .manhattan) (.inr rfl)).2 5
  have h1 := (exCalc lsa 2 none (.inl rfl)).1
  have : run lsa (glmbView 1 ℕ) exHist = step lsa (glmbView 1 ℕ) (step lsa (glmbView 1 ℕ) (step lsa (glmbView 1 ℕ)
      (step lsa (glmbView 1 ℕ) World.empty (.create 0 ([[]], [[]], false)))
      (.ospa 0 ⟨[[some (pt 0)]], 2, 1, none, false⟩)) (.ospa2 0 ⟨[[some (pt 0)]], 3, 1, some .manhattan, false⟩ 5))
      (.create 1 ([[]], [[]], false)) := rfl
  rw [this]
  simp only [step, upd_same, h1, hr, World.empty]
  refine ⟨_, _, rfl, rfl, rfl, rfl, by simp, ?_, rfl, rfl⟩
  intro ev hev k j
  simp only [exHist, List.mem_cons, List.not_mem_nil, or_false] at hev
  rcases hev with rfl | rfl | rfl | rfl <;> simp

/-- **C151**, the property is false: a GLMB filter is saved and restored into a second one. The first one can plot its OSPA(2)
history, the second one raises `KeyError`; after the second one has calculated the OSPA(2) again, `ospa_method` of the first
one says Manhattan, although its `ospa` was calculated with the Euclidean distance. -/
theorem C151_refuted (lsa : Lsa) :
    (∃ t, title2 (run lsa (glmbView 1 ℕ) exHist) 0 = some (.ok t)) ∧
    title2 (run lsa (glmbView 1 ℕ) (exHist ++ [.save 0 0, .load 1 0])) 1 = some (.error .key) ∧
    ospaMethod (run lsa (glmbView 1 ℕ) exHist) 0 = some .euclidean ∧
    ospaMethod (run lsa (glmbView 1 ℕ) (exHist ++ [.save 0 0, .load 1 0,
      .ospa2 1 ⟨[[some (pt 0)]], 3, 1, some .manhattan, false⟩ 5])) 0 = some .manhattan := by
  obtain ⟨f, f0, h1, h2, h3, h4, h5, h6, h7, h8⟩ := exHist_ok lsa
  obtain ⟨r, hr⟩ := (exCalc lsa 3 (some .manhattan) (.inr rfl)).2 5
  refine ⟨⟨_, h8⟩, ?_, ?_, ?_⟩
  · rw [(C151_restored_titles_partial lsa _ exHist h6 0 1 0 f f0 h1 h2).2.2.2, if_neg h5]
  · have := h7
    unfold title at this
    unfold ospaMethod
    simp only [h1, h4] at this ⊢
    split at this
    · next m c p e1 e2 e3 =>
      simp only [Option.some.injEq, Except.ok.injEq, Prod.mk.injEq] at this
      rw [e1, this.1]
    · simp at this
  · have := (C151_shared lsa _ exHist 0 1 0 5 ⟨[[some (pt 0)]], 3, 1, some .manhattan, false⟩ f f0 h1 h2 _
      (by rw [h3]; exact hr) (by rw [h4]; simp) 0 (.inl rfl)).2.1
    exact this

end Gasur.Props.OspaHist
