import Mathlib.Data.List.FinRange
import Verif.Spec.Rearr
import Verif.Props.ElqrSweep
import Verif.Model.Quadratize

/-!
# Property C83: the plans do not depend on the order of the measured components
-/

namespace Gasur.Props

open Matrix Gasur.Spec Gasur.Guidance Gasur.Elqr

theorem rearr_lt {α : Type} {σ : Equiv.Perm ℕ} {l l' : List α} (h : Rearr σ l l') (k : ℕ) : k < l'.length ↔ σ k < l.length := by
  have := h k
  constructor
  · intro hk
    rw [List.getElem?_eq_getElem hk] at this
    exact (List.getElem?_eq_some_iff.1 this.symm).1
  · intro hk
    rw [List.getElem?_eq_getElem hk] at this
    exact (List.getElem?_eq_some_iff.1 this).1

theorem ofFn_perm {α : Type} {M N : ℕ} (f : Fin N → α) (e : Fin M ≃ Fin N) : (List.ofFn f).Perm (List.ofFn (f ∘ e)) := by
  obtain rfl : M = N := by simpa using Fintype.card_congr e
  exact (Equiv.Perm.ofFn_comp_perm e f).symm

/-- The positions. -/
def rearrEquiv {M N : ℕ} (σ : Equiv.Perm ℕ) (h : ∀ k, k < M ↔ σ k < N) : Fin M ≃ Fin N :=
  ⟨fun k => ⟨σ k, (h k).1 k.2⟩, fun k => ⟨σ.symm k, (h _).2 (by simp)⟩, fun k => by simp, fun k => by simp⟩

theorem rearr_perm {α : Type} {σ : Equiv.Perm ℕ} {l l' : List α} (h : Rearr σ l l') : l.Perm l' := by
  have := ofFn_perm l.get (rearrEquiv σ (rearr_lt h))
  rw [List.ofFn_get] at this
  have h2 : (l.get ∘ rearrEquiv σ (rearr_lt h)) = l'.get := by
    funext k
    have := h k
    rw [List.getElem?_eq_getElem k.2, List.getElem?_eq_getElem ((rearr_lt h k).1 k.2)] at this
    exact (Option.some.inj this).symm
  rw [h2, List.ofFn_get] at this
  exact this

theorem rearr_length {α : Type} {σ : Equiv.Perm ℕ} {l l' : List α} (h : Rearr σ l l') : l'.length = l.length :=
  (rearr_perm h).length_eq.symm

/-- Lists of the same length in the same new order. -/
theorem rearr_exists {α β : Type} {σ : Equiv.Perm ℕ} {l l' : List α} (h : Rearr σ l l') {m : List β} (hm : m.length = l.length) :
    ∃ m', Rearr σ m m' := by
  have hk : ∀ k : Fin l'.length, σ k < m.length := fun k => by rw [hm]; exact (rearr_lt h k).1 k.2
  refine ⟨List.ofFn fun k : Fin l'.length => m[σ k]'(hk k), ?_⟩
  intro k
  by_cases hkl : k < l'.length
  · rw [List.getElem?_eq_getElem (by simpa using hkl), List.getElem_ofFn, List.getElem?_eq_getElem (hk ⟨k, hkl⟩)]
  · have h2 : ¬ σ k < m.length := by rw [hm]; exact fun h3 => hkl ((rearr_lt h k).2 h3)
    rw [List.getElem?_eq_none (by simpa using hkl), List.getElem?_eq_none (by omega)]

theorem mapIdxE_of {α β : Type} {f : ℕ → α → Except GErr β} : ∀ {i : ℕ} {as : List α} {bs : List β}, bs.length = as.length →
    (∀ (k : ℕ) (a : α) (b : β), as[k]? = some a → bs[k]? = some b → f (i + k) a = .ok b) → mapIdxE f i as = .ok bs := by
  intro i as
  induction as generalizing i with
  | nil =>
    intro bs hl _
    rw [List.length_eq_zero_iff.1 hl]; rfl
  | cons a as ih =>
    intro bs hl h
    cases bs with
    | nil => simp at hl
    | cons b bs =>
      have h1 := h 0 a b rfl rfl
      rw [Nat.add_zero] at h1
      have h2 : mapIdxE f (i + 1) as = .ok bs := ih (by simpa using hl) fun k a' b' ha hb => by
        have := h (k + 1) a' b' ha hb
        rwa [show i + (k + 1) = i + 1 + k by omega] at this
      show (f i a >>= fun b => mapIdxE f (i + 1) as >>= fun bs => .ok (b :: bs)) = _
      rw [h1]
      show (mapIdxE f (i + 1) as >>= fun bs => .ok (b :: bs)) = _
      rw [h2]
      rfl

/-- A loop over the list in another order. -/
theorem mapIdxE_rearr {α β : Type} {σ : Equiv.Perm ℕ} {f f' : ℕ → α → Except GErr β} {as as' : List α} {bs : List β}
    (h : mapIdxE f 0 as = .ok bs) (hr : Rearr σ as as')
    (hf : ∀ (k : ℕ) (a : α) (b : β), as'[k]? = some a → f (σ k) a = .ok b → f' k a = .ok b) :
    ∃ bs', mapIdxE f' 0 as' = .ok bs' ∧ Rearr σ bs bs' := by
  obtain ⟨e1, e2⟩ := mapIdxE_ok h
  obtain ⟨bs', hb⟩ := rearr_exists hr e1
  refine ⟨bs', mapIdxE_of (by rw [rearr_length hb, rearr_length hr, e1]) ?_, hb⟩
  intro k a b ha hbk
  rw [Nat.zero_add]
  refine hf k a b ha ?_
  have := e2 (σ k) a b (by rw [← hr k]; exact ha) (by rw [← hb k]; exact hbk)
  rwa [Nat.zero_add] at this

theorem passIn_rearr {n : ℕ} {σ : Equiv.Perm ℕ} {kk src ii : ℕ} {all all' xs xs' : List (Vec n)} {g : Plan n} {i : PassIn n}
    (ha : Rearr σ all all') (hx : Rearr σ xs xs') (h : passIn kk src all xs (σ ii) g = .ok i) :
    ∃ i', passIn kk src all' xs' ii g = .ok i' ∧ SameCall σ i i' := by
  unfold passIn at h ⊢
  obtain ⟨x', b1, h⟩ := bind_ok.1 h
  obtain ⟨t', b2, h⟩ := bind_ok.1 h
  obtain ⟨u', b3, h⟩ := bind_ok.1 h
  obtain ⟨fb, b4, h⟩ := bind_ok.1 h
  obtain ⟨ff, b5, h⟩ := bind_ok.1 h
  obtain ⟨ccm, b6, h⟩ := bind_ok.1 h
  obtain ⟨ccv, b7, h⟩ := bind_ok.1 h
  obtain ⟨cgm, b8, h⟩ := bind_ok.1 h
  obtain ⟨cgv, b9, h⟩ := bind_ok.1 h
  obtain ⟨x0, b10, h⟩ := bind_ok.1 h
  have b11 : getE xs' ii = .ok x0 := by rw [getE_ok, hx ii]; exact getE_ok.1 b10
  rw [b1, ok_bind, b2, ok_bind, b3, ok_bind, b4, ok_bind, b5, ok_bind, b6, ok_bind, b7, ok_bind, b8, ok_bind, b9, ok_bind,
    b11, ok_bind]
  cases h
  exact ⟨_, rfl, ha, rfl, rfl⟩

theorem fwdStep_rearr {n : ℕ} {σ : Equiv.Perm ℕ} {ext ext' : Ext n} (he : SameMethods σ ext ext') {xs xs' : List (Vec n)}
    (hx : Rearr σ xs xs') {kk : ℕ} {gs gs' hs : List (Plan n)} (hg : Rearr σ gs gs') (h : fwdStep ext xs kk gs = .ok hs) :
    ∃ hs', fwdStep ext' xs' kk gs' = .ok hs' ∧ Rearr σ hs hs' := by
  unfold fwdStep at h ⊢
  obtain ⟨cur, h1, h⟩ := bind_ok.1 h
  obtain ⟨g1, h2, h⟩ := bind_ok.1 h
  obtain ⟨cur', e1, r1⟩ := mapIdxE_rearr (f' := fun _ g => getE g.means kk) h1 hg fun _ _ _ _ h => h
  obtain ⟨g1', e2, r2⟩ := mapIdxE_rearr (f' := fun _ g => ctrlStep kk kk g) h2 hg fun _ _ _ _ h => h
  rw [e1, ok_bind, e2, ok_bind]
  refine mapIdxE_rearr h r2 ?_
  intro k g g' _ ho
  unfold fwdOne at ho ⊢
  obtain ⟨i, a1, ho⟩ := bind_ok.1 ho
  obtain ⟨o, a2, ho⟩ := bind_ok.1 ho
  obtain ⟨i', a3, a4⟩ := passIn_rearr r1 hx a1
  rw [a3, ok_bind, he.fwd i i' a4, a2]
  exact ho

theorem bwdStep_rearr {n : ℕ} {σ : Equiv.Perm ℕ} {ext ext' : Ext n} (he : SameMethods σ ext ext') {xs xs' : List (Vec n)}
    (hx : Rearr σ xs xs') {kk : ℕ} {gs gs' hs : List (Plan n)} (hg : Rearr σ gs gs') (h : bwdStep ext xs kk gs = .ok hs) :
    ∃ hs', bwdStep ext' xs' kk gs' = .ok hs' ∧ Rearr σ hs hs' := by
  unfold bwdStep at h ⊢
  obtain ⟨g1, h2, h⟩ := bind_ok.1 h
  obtain ⟨prev, h1, h⟩ := bind_ok.1 h
  obtain ⟨g1', e2, r2⟩ := mapIdxE_rearr (f' := fun _ g => ctrlStep kk (kk + 1) g) h2 hg fun _ _ _ _ h => h
  obtain ⟨prev', e1, r1⟩ := mapIdxE_rearr (f' := fun _ g => prevState kk g) h1 r2 fun _ _ _ _ h => h
  rw [e2, ok_bind, e1, ok_bind]
  refine mapIdxE_rearr h r2 ?_
  intro k g g' _ ho
  unfold bwdOne at ho ⊢
  obtain ⟨i, a1, ho⟩ := bind_ok.1 ho
  obtain ⟨o, a2, ho⟩ := bind_ok.1 ho
  obtain ⟨i', a3, a4⟩ := passIn_rearr r1 hx a1
  rw [a3, ok_bind, he.bwd i i' a4, a2]
  exact ho

theorem loopE_rearr {n : ℕ} {σ : Equiv.Perm ℕ} {f f' : ℕ → List (Plan n) → Except GErr (List (Plan n))}
    (hf : ∀ (k : ℕ) (a a' b : List (Plan n)), Rearr σ a a' → f k a = .ok b → ∃ b', f' k a' = .ok b' ∧ Rearr σ b b') :
    ∀ {ks : List ℕ} {a a' b : List (Plan n)}, Rearr σ a a' → loopE f ks a = .ok b → ∃ b', loopE f' ks a' = .ok b' ∧ Rearr σ b b' := by
  intro ks
  induction ks with
  | nil => intro a a' b hr h; cases h; exact ⟨a', rfl, hr⟩
  | cons k ks ih =>
    intro a a' b hr h
    obtain ⟨c, h1, h⟩ := bind_ok.1 (show (f k a >>= fun s' => loopE f ks s') = .ok b from h)
    obtain ⟨c', h2, r2⟩ := hf k a a' c hr h1
    obtain ⟨b', h3, r3⟩ := ih r2 h
    refine ⟨b', ?_, r3⟩
    show (f' k a' >>= fun s' => loopE f' ks s') = _
    rw [h2]
    exact h3

/-- Pairs of lists. -/
theorem objects_iff {n : ℕ} : ∀ {gs : List (Plan n)} {xs : List (Vec n)} {os : List (Comp n)}, xs.length = gs.length →
    (objects gs xs = .ok os ↔ os.length = gs.length ∧ ∀ (i : ℕ) (g : Plan n) (x : Vec n) (o : Comp n), gs[i]? = some g →
      xs[i]? = some x → os[i]? = some o → o.mean = x ∧ o.cov = g.cov ∧ g.weight = some o.weight) := by
  intro gs
  induction gs with
  | nil =>
    intro xs os hl
    rw [List.length_eq_zero_iff.1 hl]
    constructor
    · intro h; cases h; exact ⟨rfl, fun i g x o h => by simp at h⟩
    · rintro ⟨h, _⟩; rw [List.length_eq_zero_iff.1 h]; rfl
  | cons g gs ih =>
    intro xs os hl
    cases xs with
    | nil => simp at hl
    | cons x xs =>
      have hl' : xs.length = gs.length := by simpa using hl
      constructor
      · intro h
        obtain ⟨w, h1, h⟩ := bind_ok.1 (show (weightE g >>= fun w => objects gs xs >>= fun os => .ok (⟨x, g.cov, w⟩ :: os)) = .ok os from h)
        obtain ⟨os', h2, h⟩ := bind_ok.1 h
        cases h
        obtain ⟨e1, e2⟩ := (ih hl').1 h2
        refine ⟨by simp [e1], ?_⟩
        intro i g' x' o a b c
        cases i with
        | zero =>
          simp only [List.getElem?_cons_zero, Option.some.injEq] at a b c
          subst a; subst b; subst c
          refine ⟨rfl, rfl, ?_⟩
          unfold weightE at h1
          cases hw : g.weight with
          | none => rw [hw] at h1; exact (nomatch h1)
          | some v => rw [hw] at h1; exact congrArg some (Except.ok.inj h1)
        | succ i =>
          simp only [List.getElem?_cons_succ] at a b c
          exact e2 i g' x' o a b c
      · rintro ⟨h1, h2⟩
        cases os with
        | nil => simp at h1
        | cons o os =>
          obtain ⟨a1, a2, a3⟩ := h2 0 g x o rfl rfl rfl
          have h3 := (ih hl').2 ⟨by simpa using h1, fun i g' x' o' a b c => h2 (i + 1) g' x' o' a b c⟩
          show (weightE g >>= fun w => objects gs xs >>= fun os => .ok (⟨x, g.cov, w⟩ :: os)) = _
          have hw : weightE g = .ok o.weight := by unfold weightE; rw [a3]
          rw [hw, ok_bind, h3, ok_bind, ← a1, ← a2]

theorem objects_rearr {n : ℕ} {σ : Equiv.Perm ℕ} {gs gs' : List (Plan n)} {xs xs' : List (Vec n)} {os : List (Comp n)}
    (hl : xs.length = gs.length) (hg : Rearr σ gs gs') (hx : Rearr σ xs xs') (h : objects gs xs = .ok os) :
    ∃ os', objects gs' xs' = .ok os' ∧ os.Perm os' := by
  obtain ⟨e1, e2⟩ := (objects_iff hl).1 h
  obtain ⟨os', ho⟩ := rearr_exists hg e1
  refine ⟨os', (objects_iff (by rw [rearr_length hx, rearr_length hg, hl])).2
    ⟨by rw [rearr_length ho, rearr_length hg, e1], ?_⟩, rearr_perm ho⟩
  intro i g x o a b c
  exact e2 (σ i) g x o (by rw [← hg i]; exact a) (by rw [← hx i]; exact b) (by rw [← ho i]; exact c)

theorem rollAll_iff {n m k : ℕ} : ∀ {gs : List (Plan n)} {xs ys : List (Vec n)}, xs.length = gs.length →
    (rollAll m k gs xs = .ok ys ↔ ys.length = gs.length ∧ ∀ (i : ℕ) (g : Plan n) (x y : Vec n), gs[i]? = some g →
      xs[i]? = some x → ys[i]? = some y → rollOne m k g x = .ok y) := by
  intro gs
  induction gs with
  | nil =>
    intro xs ys hl
    rw [List.length_eq_zero_iff.1 hl]
    constructor
    · intro h; cases h; exact ⟨rfl, fun i g x o h => by simp at h⟩
    · rintro ⟨h, _⟩; rw [List.length_eq_zero_iff.1 h]; rfl
  | cons g gs ih =>
    intro xs ys hl
    cases xs with
    | nil => simp at hl
    | cons x xs =>
      have hl' : xs.length = gs.length := by simpa using hl
      constructor
      · intro h
        obtain ⟨y, h1, h⟩ := bind_ok.1 (show (rollOne m k g x >>= fun y => rollAll m k gs xs >>= fun ys => .ok (y :: ys)) = .ok ys from h)
        obtain ⟨ys', h2, h⟩ := bind_ok.1 h
        cases h
        obtain ⟨e1, e2⟩ := (ih hl').1 h2
        refine ⟨by simp [e1], ?_⟩
        intro i g' x' o a b c
        cases i with
        | zero =>
          simp only [List.getElem?_cons_zero, Option.some.injEq] at a b c
          subst a; subst b; subst c
          exact h1
        | succ i =>
          simp only [List.getElem?_cons_succ] at a b c
          exact e2 i g' x' o a b c
      · rintro ⟨h1, h2⟩
        cases ys with
        | nil => simp at h1
        | cons y ys =>
          have a1 := h2 0 g x y rfl rfl rfl
          have h3 := (ih hl').2 ⟨by simpa using h1, fun i g' x' o' a b c => h2 (i + 1) g' x' o' a b c⟩
          show (rollOne m k g x >>= fun y => rollAll m k gs xs >>= fun ys => .ok (y :: ys)) = _
          rw [a1, ok_bind, h3, ok_bind]

theorem rollAll_rearr {n m k : ℕ} {σ : Equiv.Perm ℕ} {gs gs' : List (Plan n)} {xs xs' ys : List (Vec n)}
    (hl : xs.length = gs.length) (hg : Rearr σ gs gs') (hx : Rearr σ xs xs') (h : rollAll m k gs xs = .ok ys) :
    ∃ ys', rollAll m k gs' xs' = .ok ys' ∧ Rearr σ ys ys' := by
  obtain ⟨e1, e2⟩ := (rollAll_iff hl).1 h
  obtain ⟨ys', ho⟩ := rearr_exists hg e1
  refine ⟨ys', (rollAll_iff (by rw [rearr_length hx, rearr_length hg, hl])).2
    ⟨by rw [rearr_length ho, rearr_length hg, e1], ?_⟩, ho⟩
  intro i g x o a b c
  exact e2 (σ i) g x o (by rw [← hg i]; exact a) (by rw [← hx i]; exact b) (by rw [← ho i]; exact c)

theorem realCost_rearr {n m : ℕ} {σ : Equiv.Perm ℕ} {d : Density n} {gs gs' : List (Plan n)} (hg : Rearr σ gs gs') :
    ∀ {ks : List ℕ} {xs xs' ys : List (Vec n)} {c c' : ℝ}, xs.length = gs.length → Rearr σ xs xs' →
    realCost d m gs ks xs c = .ok (ys, c') → ∃ ys', realCost d m gs' ks xs' c = .ok (ys', c') ∧ Rearr σ ys ys' := by
  intro ks
  induction ks with
  | nil => intro xs xs' ys c c' _ hx h; cases h; exact ⟨xs', rfl, hx⟩
  | cons k ks ih =>
    intro xs xs' ys c c' hl hx h
    obtain ⟨os, h1, h⟩ := bind_ok.1 (show (objects gs xs >>= fun os => densityCost d os >>= fun j => rollAll m k gs xs >>= fun zs =>
      realCost d m gs ks zs (c + j)) = .ok (ys, c') from h)
    obtain ⟨j, h2, h⟩ := bind_ok.1 h
    obtain ⟨zs, h3, h⟩ := bind_ok.1 h
    obtain ⟨os', a1, a2⟩ := objects_rearr hl hg hx h1
    obtain ⟨zs', b1, b2⟩ := rollAll_rearr hl hg hx h3
    obtain ⟨ys', c1, c2⟩ := ih ((rollAll_iff hl).1 h3).1 b2 h
    refine ⟨ys', ?_, c2⟩
    show (objects gs' xs' >>= fun os => densityCost d os >>= fun j => rollAll m k gs' xs' >>= fun zs =>
      realCost d m gs' ks zs (c + j)) = _
    rw [a1, ok_bind, ← C47_order d d os os' a2 (List.Perm.refl _) rfl rfl, h2, ok_bind, b1, ok_bind]
    exact c1

theorem finalCost_perm {n : ℕ} {ext : Ext n} {ts : List (Comp n)} {xs ys : List (Vec n)} (hp : xs.Perm ys) :
    ∀ {f : ℝ}, finalCost ext ts xs = .ok f → finalCost ext ts ys = .ok f := by
  have hc : ∀ (x : Vec n) (xs : List (Vec n)), finalCost ext ts (x :: xs) = (ext.final x (nearestTarget ts x) >>= fun a =>
    finalCost ext ts xs >>= fun b => .ok (a + b)) := fun _ _ => rfl
  induction hp with
  | nil => intro f h; exact h
  | cons x _ ih =>
    intro f h
    rw [hc] at h ⊢
    obtain ⟨a, h1, h⟩ := bind_ok.1 h
    obtain ⟨b, h2, h⟩ := bind_ok.1 h
    rw [h1, ok_bind, ih h2, ok_bind]
    exact h
  | swap x y l =>
    intro f h
    rw [hc, hc] at h ⊢
    obtain ⟨a, h1, h⟩ := bind_ok.1 h
    obtain ⟨b, h2, h⟩ := bind_ok.1 h
    obtain ⟨a', h3, h2⟩ := bind_ok.1 h2
    obtain ⟨b', h4, h2⟩ := bind_ok.1 h2
    cases h2
    cases h
    rw [h3, ok_bind, h1, ok_bind, h4, ok_bind, ok_bind]
    congr 1
    ring
  | trans _ _ ih1 ih2 => intro f h; exact ih2 (ih1 h)

/-- A round with the plans in another order. -/
theorem round_rearr {n : ℕ} {σ : Equiv.Perm ℕ} {cf cf' : Conf n} (he : SameMethods σ cf.ext cf'.ext) (hd : cf'.dens = cf.dens)
    (hh : cf'.horizon = cf.horizon) (h2 : 2 ≤ cf.horizon) {m : ℕ} (hm : ∀ i o, cf.ext.bwd i = .ok o → o.feedback.rows = m)
    {gs gs' hs : List (Plan n)} {xs xs' ys : List (Vec n)} {c : ℝ} (hl : xs.length = gs.length) (hg : Rearr σ gs gs')
    (hx : Rearr σ xs xs') (h : round cf gs xs = .ok (hs, ys, c)) :
    ∃ hs' ys', round cf' gs' xs' = .ok (hs', ys', c) ∧ Rearr σ hs hs' ∧ Rearr σ ys ys' := by
  have hsw := C81_sweeps cf gs hs xs ys c h
  have hfr := round_frame h
  obtain ⟨g1, g2, m', c', f, a1, a2, a3, a4, a5, a6, rfl⟩ := round_ok h
  obtain ⟨g1', b1, r1⟩ := loopE_rearr (f' := fwdStep cf'.ext xs') (fun k a a' b ha hb => fwdStep_rearr he hx ha hb) hg a1
  obtain ⟨g2', b2, r2⟩ := mapIdxE_rearr (f' := fun _ g => finalOne cf'.ext cf.dens.targets g) a2 r1 fun k g g' _ hf => by
    unfold finalOne at hf ⊢
    rw [he.quadFinal]
    exact hf
  obtain ⟨hs', b3, r3⟩ := loopE_rearr (f' := bwdStep cf'.ext xs') (fun k a a' b ha hb => bwdStep_rearr he hx ha hb) r2 a3
  have hrows : ∀ p ∈ hs, ∀ K : Arr, p.feedback[0]? = some K → K.rows = m := by
    obtain ⟨F, B, _, _, _, _, hB, hB0⟩ := hsw
    obtain ⟨e1, e2⟩ := hB 0 (by omega)
    intro p hp K hK
    rw [hB0] at e1 e2
    obtain ⟨ii, hii, rfl⟩ := List.getElem_of_mem hp
    obtain ⟨i, o, t, _, _, _, _, e3, _, e4⟩ := e2 ii _ _ (List.getElem?_eq_getElem (by omega)) (List.getElem?_eq_getElem hii)
    rw [e4] at hK
    dsimp only at hK
    rw [List.getElem?_set] at hK
    split at hK
    · split at hK
      · cases hK; exact hm i o e3
      · exact (nomatch hK)
    · rename_i hne; exact absurd rfl hne
  have hlen := rearr_length r3
  have hne : hs ≠ [] := by
    rintro rfl
    unfold firstInputs at a4
    obtain ⟨g, e1, _⟩ := bind_ok.1 a4
    exact (nomatch (getE_ok.1 e1))
  have hpos := List.length_pos_iff.2 hne
  have hm' : m' = m := by
    unfold firstInputs at a4
    obtain ⟨g, e1, a4⟩ := bind_ok.1 a4
    obtain ⟨K, e2, a4⟩ := bind_ok.1 a4
    have := hrows g (List.mem_of_getElem? (getE_ok.1 e1)) K (getE_ok.1 e2)
    have h3 := Except.ok.inj a4
    omega
  subst hm'
  have b4 : firstInputs hs' = .ok m' := by
    have hp' : 0 < hs'.length := by omega
    have hmem : hs'[0] ∈ hs := (rearr_perm r3).mem_iff.2 (List.getElem_mem _)
    have hex : ∃ K, hs'[0].feedback[0]? = some K := by
      obtain ⟨F, B, _, _, _, _, hB, hB0⟩ := hsw
      obtain ⟨e1, e2⟩ := hB 0 (by omega)
      rw [hB0] at e1 e2
      obtain ⟨ii, hii, hpe⟩ := List.getElem_of_mem hmem
      obtain ⟨i, o, t, e5, _, _, _, e3, _, e4⟩ := e2 ii _ _ (List.getElem?_eq_getElem (by omega)) (List.getElem?_eq_getElem hii)
      rw [← hpe, e4]
      refine ⟨o.feedback, ?_⟩
      dsimp only
      exact List.getElem?_set_self (List.getElem?_eq_some_iff.1 e5.feedback).1
    obtain ⟨K, hK⟩ := hex
    unfold firstInputs
    rw [getE_ok.2 (List.getElem?_eq_getElem hp'), ok_bind, getE_ok.2 hK, ok_bind, hrows _ hmem K hK]
  obtain ⟨ys', b5, r5⟩ := realCost_rearr r3 (hl.trans hfr.length.symm) hx a5
  refine ⟨hs', ys', ?_, r3, r5⟩
  unfold Elqr.round
  rw [hd, hh, b1, ok_bind, b2, ok_bind, b3, ok_bind, b4, ok_bind, b5, ok_bind]
  dsimp only
  have b6 : finalCost cf'.ext cf.dens.targets ys' = .ok f := by
    have e1 : ∀ l : List (Vec n), finalCost cf'.ext cf.dens.targets l = finalCost cf.ext cf.dens.targets l := by
      intro l
      induction l with
      | nil => rfl
      | cons x l ih =>
        show (cf'.ext.final x _ >>= fun a => finalCost cf'.ext _ l >>= fun b => .ok (a + b)) =
          (cf.ext.final x _ >>= fun a => finalCost cf.ext _ l >>= fun b => .ok (a + b))
        rw [ih, he.final]
    rw [e1]
    exact finalCost_perm (rearr_perm r5) a6
  rw [b6]
  rfl

theorem round_lengths {n : ℕ} {cf : Conf n} {gs hs : List (Plan n)} {xs ys : List (Vec n)} {c : ℝ} (hl : xs.length = gs.length)
    (h : round cf gs xs = .ok (hs, ys, c)) : ys.length = hs.length := by
  have hfr := round_frame h
  obtain ⟨g1, g2, m', c', f, _, _, _, _, a5, _, rfl⟩ := round_ok h
  have : ∀ {ks : List ℕ} {xs ys : List (Vec n)} {c c' : ℝ}, xs.length = hs.length → realCost cf.dens m' hs ks xs c = .ok (ys, c') →
      ys.length = hs.length := by
    intro ks
    induction ks with
    | nil => intro xs ys c c' hl h; cases h; exact hl
    | cons k ks ih =>
      intro xs ys c c' hl h
      obtain ⟨os, h1, h⟩ := bind_ok.1 (show (objects hs xs >>= fun os => densityCost cf.dens os >>= fun j =>
        rollAll m' k hs xs >>= fun zs => realCost cf.dens m' hs ks zs (c + j)) = .ok (ys, c') from h)
      obtain ⟨j, h2, h⟩ := bind_ok.1 h
      obtain ⟨zs, h3, h⟩ := bind_ok.1 h
      exact ih ((rollAll_iff hl).1 h3).1 h
  exact this (hl.trans hfr.length.symm) a5

theorem iterLoop_rearr {n : ℕ} {σ : Equiv.Perm ℕ} {cf cf' : Conf n} (he : SameMethods σ cf.ext cf'.ext) (hd : cf'.dens = cf.dens)
    (hh : cf'.horizon = cf.horizon) (ht : cf'.tol = cf.tol) (h2 : 2 ≤ cf.horizon) {m : ℕ}
    (hm : ∀ i o, cf.ext.bwd i = .ok o → o.feedback.rows = m) : ∀ (t : ℕ) {old : Option ℝ}
    {gs gs' hs : List (Plan n)} {xs xs' : List (Vec n)} (_ : xs.length = gs.length) (_ : Rearr σ gs gs')
    (_ : Rearr σ xs xs') (_ : iterLoop cf t old gs xs = .ok hs),
    ∃ hs', iterLoop cf' t old gs' xs' = .ok hs' ∧ Rearr σ hs hs' := by
  intro t
  induction t with
  | zero => intro old gs gs' hs xs xs' _ hg _ h; cases h; exact ⟨gs', rfl, hg⟩
  | succ t ih =>
    intro old gs gs' hs xs xs' hl hg hx h
    rw [iterLoop_succ] at h ⊢
    obtain ⟨⟨g1, ys, c⟩, h1, h⟩ := bind_ok.1 h
    obtain ⟨g1', ys', e1, e2, e3⟩ := round_rearr he hd hh h2 hm hl hg hx h1
    rw [e1, ok_bind, ht]
    dsimp only at h ⊢
    by_cases hc : converged cf.tol old c
    · rw [if_pos hc] at h ⊢
      cases h
      exact ⟨g1', rfl, e2⟩
    · rw [if_neg hc] at h ⊢
      exact ih (round_lengths hl h1) e2 e3 h

/-- One new plan per measurement. -/
def newPlan {n : ℕ} (h : ℕ) (est : Est n) (ii : ℕ) (c : Comp n) : Except GErr (Plan n) :=
  if h = 0 then .error .index else freshPlan h est ii c

theorem initOne_nil {n : ℕ} (thr : Option ℝ) (h : ℕ) (est : Est n) (ii : ℕ) (c : Comp n) :
    initOne thr h est ii c [] = (newPlan h est ii c >>= fun p => .ok (p, [])) := by
  unfold initOne newPlan
  show (if h = 0 then _ else _) = _
  by_cases hh : h = 0
  · rw [if_pos hh, if_pos hh]; rfl
  · rw [if_neg hh, if_neg hh]

theorem initLoop_nil {n : ℕ} (thr : Option ℝ) (h : ℕ) (est : Est n) : ∀ (cs : List (Comp n)) (ii : ℕ) (ps : List (Plan n)),
    ((initLoop thr h est ii cs []).err = none ∧ (initLoop thr h est ii cs []).new = ps) ↔ mapIdxE (newPlan h est) ii cs = .ok ps := by
  intro cs
  induction cs with
  | nil =>
    intro ii ps
    constructor
    · rintro ⟨_, rfl⟩; rfl
    · intro h; cases h; exact ⟨rfl, rfl⟩
  | cons c cs ih =>
    intro ii ps
    rw [initLoop_cons, initOne_nil]
    show _ ↔ (newPlan h est ii c >>= fun b => mapIdxE (newPlan h est) (ii + 1) cs >>= fun bs => .ok (b :: bs)) = _
    cases hp : newPlan h est ii c with
    | error e =>
      constructor
      · rintro ⟨h1, _⟩; exact (nomatch h1)
      · intro h; exact (nomatch h)
    | ok p =>
      rw [ok_bind, ok_bind]
      dsimp only
      constructor
      · rintro ⟨h1, h2⟩
        rw [(ih (ii + 1) _).1 ⟨h1, rfl⟩, ok_bind, h2]
      · intro h
        obtain ⟨bs, h1, h⟩ := bind_ok.1 h
        cases h
        obtain ⟨a1, a2⟩ := (ih (ii + 1) _).2 h1
        exact ⟨a1, by rw [a2]⟩

theorem newPlan_rearr {n : ℕ} {σ : Equiv.Perm ℕ} {h : ℕ} {est est' : Est n} (he : RearrEst σ est est') (k : ℕ) (c : Comp n) :
    newPlan h est' k c = newPlan h est (σ k) c := by
  have hget : ∀ {α : Type} {l l' : List α}, Rearr σ l l' → getE l' k = getE l (σ k) := by
    intro α l l' h
    unfold getE
    rw [h k]
  unfold newPlan freshPlan
  rw [hget he.dyn, hget he.invDyn, hget he.nIn]
  have : ∀ m, nominal est' k m = nominal est (σ k) m := by
    intro m
    unfold nominal
    rcases he.nom with ⟨e1, e2⟩ | ⟨l, l', e1, e2, e3⟩
    · rw [e1, e2]
    · rw [e1, e2]; exact hget e3
  simp only [this]

/-- **C83.** The plans do not depend on the order in which the components of the measured mixture are given: for all measured
mixtures, dynamics and settings, if inherited methods treat all plans alike (their results do not depend on the order of the
plans) and their gains have one row per control input, the same for all plans, then an object without previous plans
returns, for the components in another order, the same plans in that order. -/
theorem C83_order {n : ℕ} (σ : Equiv.Perm ℕ) (cf cf' : Conf n) (he : SameMethods σ cf.ext cf'.ext) (hd : cf'.dens = cf.dens)
    (hh : cf'.horizon = cf.horizon) (ht : cf'.tol = cf.tol) (hi : cf'.maxIters = cf.maxIters) (m : ℕ)
    (hm : ∀ i o, cf.ext.bwd i = .ok o → o.feedback.rows = m) (thr : Option ℝ) (est est' : Est n) (hest : RearrEst σ est est')
    (meas meas' : List (Comp n)) (hmeas : Rearr σ meas meas') (ps : List (Plan n)) (h : iterate cf thr est meas [] = .ok ps) :
    ∃ ps', iterate cf' thr est' meas' [] = .ok ps' ∧ Rearr σ ps ps' := by
  obtain ⟨hok, hcase⟩ := iterate_ok h
  set N := (initPlans thr cf.horizon est meas []).new with hN
  have h1 : mapIdxE (newPlan cf.horizon est) 0 meas = .ok N := (initLoop_nil thr cf.horizon est meas 0 N).1 ⟨hok, rfl⟩
  obtain ⟨N', h2, r2⟩ := mapIdxE_rearr (f' := newPlan cf.horizon est') h1 hmeas fun k a b _ hb => by
    rw [newPlan_rearr hest]; exact hb
  obtain ⟨h3, h4⟩ := (initLoop_nil thr cf.horizon est' meas' 0 N').2 h2
  change (initPlans thr cf.horizon est' meas' []).err = none at h3
  change (initPlans thr cf.horizon est' meas' []).new = N' at h4
  have hlen := rearr_length r2
  unfold iterate
  dsimp only
  rw [hh, h3, h4, hi]
  dsimp only
  rcases hcase with ⟨a1, rfl⟩ | ⟨a1, xs, a2, a3⟩
  · rw [a1] at hlen
    have : N' = [] := List.length_eq_zero_iff.1 hlen
    rw [if_pos this]
    exact ⟨[], rfl, fun k => by simp⟩
  · have : N' ≠ [] := by
      intro h0; rw [h0] at hlen; exact a1 (List.length_eq_zero_iff.1 hlen.symm)
    rw [if_neg this]
    obtain ⟨xs', b1, b2⟩ := mapIdxE_rearr (f' := fun _ g => getE g.means 1) a2 r2 fun _ _ _ _ h => h
    rw [b1, ok_bind]
    exact iterLoop_rearr he hd hh ht (two_le_horizon hok a1 a2) hm cf.maxIters (mapIdxE_ok a2).1 r2 b2 a3

/-- The quadratic approximation that the inherited passes use treats all plans alike: with the objects in another order it is
the same for the same object. -/
theorem C83_quadratize {n : ℕ} (σ : Equiv.Perm ℕ) (nu : Numerics n) (d : Density n) (os os' : List (Comp n)) (h : Rearr σ os os')
    (k : ℕ) : quadratize nu d os' k = quadratize nu d os (σ k) := by
  have hmove : ∀ x, densityCost d (moveObj os' k x) = densityCost d (moveObj os (σ k) x) := by
    intro x
    apply C47_order d d _ _ _ (List.Perm.refl _) rfl rfl
    apply List.Perm.symm
    apply rearr_perm (σ := σ)
    intro j
    unfold moveObj
    rw [List.getElem?_modify, List.getElem?_modify, h j]
    by_cases hj : k = j
    · subst hj; simp
    · have : ¬ σ k = σ j := fun e => hj (σ.injective e)
      simp [hj, this]
  unfold quadratize
  rw [show getE os' k = getE os (σ k) by unfold getE; rw [h k]]
  simp only [hmove]

/-- The inherited methods of the example treat all plans alike. -/
example (σ : Equiv.Perm ℕ) : SameMethods σ exExt exExt ∧ ∀ i o, exExt.bwd i = .ok o → o.feedback.rows = 1 := by
  refine ⟨⟨?_, ?_, rfl, rfl⟩, ?_⟩
  · intro i i' h
    rw [h.rest]; rfl
  · intro i i' h
    rw [h.rest]; rfl
  · intro i o h
    cases h; rfl

/-- Two components with one control input each. -/
def exEst2 : Est 1 := ⟨[[fun x _ => x 0 + 1], [fun x _ => x 0 - 1]], [[fun x _ => x 0 - 1], [fun x _ => x 0 + 1]], [1, 1], none⟩

/-- A plan of the example with the dynamics `f` and the inverse `b`. -/
def exQ2 (f b : Dyn 1) (x0 x1 : Vec 1) (u : List ℝ) (M : Arr) : Plan 1 := { exQ x0 x1 u M with
  dyn := [f]
  invDyn := [b] }

theorem exFinal2 (f b : Dyn 1) (x0 x1 : Vec 1) (u : List ℝ) (M : Arr) : ∃ y, finalOne exExt [⟨0, 1, 1⟩] (exQ2 f b x0 x1 u M) =
    .ok (exQ2 f b x0 y u ⟨1, 1, fun _ _ => 1⟩) := by
  show ∃ y, (invE ((fun _ _ => (1 : ℝ) : Mat 1) + fun _ _ => (0 : ℝ)) >>= _) = _
  rw [invE_ok.2 ⟨by rw [det_unique]; show IsUnit ((1 : ℝ) + 0); simp, rfl⟩]
  exact ⟨_, rfl⟩

/-- A measured mixture of two components for which `iterate` returns (one round): the case of `C83_order`. -/
example (thr : Option ℝ) (x y : Vec 1) : ∃ ps, iterate (exConf 1) thr exEst2 [⟨x, 1, 1⟩, ⟨y, 1, 1⟩] [] = .ok ps ∧ ps.length = 2 := by
  set f1 : Dyn 1 := fun x _ => x 0 + 1
  set f2 : Dyn 1 := fun x _ => x 0 - 1
  have h0 : initPlans thr 2 exEst2 [⟨x, 1, 1⟩, ⟨y, 1, 1⟩] [] =
    ⟨none, [exQ2 f1 f2 x x [0] (.zeros 1 1), exQ2 f2 f1 y y [0] (.zeros 1 1)], []⟩ := rfl
  have h1 : ∃ u v, loopE (fwdStep exExt [x, y]) (List.range (2 - 1)) [exQ2 f1 f2 x x [0] (.zeros 1 1), exQ2 f2 f1 y y [0] (.zeros 1 1)]
    = .ok [exQ2 f1 f2 x x u (.zeros 1 1), exQ2 f2 f1 y y v (.zeros 1 1)] := ⟨_, _, rfl⟩
  obtain ⟨u, v, h1⟩ := h1
  obtain ⟨x', h2⟩ := exFinal2 f1 f2 x x u (.zeros 1 1)
  obtain ⟨y', h3⟩ := exFinal2 f2 f1 y y v (.zeros 1 1)
  set M : Arr := ⟨1, 1, fun _ _ => 1⟩
  have h4 : ∃ u' v', loopE (bwdStep exExt [x, y]) (List.range (2 - 1)).reverse [exQ2 f1 f2 x x' u M, exQ2 f2 f1 y y' v M]
    = .ok [exQ2 f1 f2 x x' u' M, exQ2 f2 f1 y y' v' M] := ⟨_, _, rfl⟩
  obtain ⟨u', v', h4⟩ := h4
  obtain ⟨vo, vt, _, _, hj⟩ := densityCost_ok Nat.one_pos (⟨[⟨0, 1, 1⟩], 1, 9 / 10⟩ : Density 1) [⟨x, 1, 1⟩, ⟨y, 1, 1⟩] (by simp) (by simp)
    (fun o ho => by
      rcases List.mem_cons.1 ho with rfl | ho
      · exact Matrix.PosDef.one
      · rw [List.mem_singleton.1 ho]; exact Matrix.PosDef.one)
    (fun o ho => by rw [List.mem_singleton.1 ho]; exact Matrix.PosDef.one) (by norm_num)
  refine ⟨[exQ2 f1 f2 x x' u' M, exQ2 f2 f1 y y' v' M], ?_, rfl⟩
  unfold iterate
  rw [show (exConf 1).horizon = 2 from rfl, h0]
  dsimp only
  rw [if_neg (by simp)]
  show iterLoop (exConf 1) 1 none _ [x, y] = _
  have h5 : mapIdxE (fun _ g => finalOne exExt (exConf 1).dens.targets g) 0
      [exQ2 f1 f2 x x u (.zeros 1 1), exQ2 f2 f1 y y v (.zeros 1 1)] = .ok [exQ2 f1 f2 x x' u M, exQ2 f2 f1 y y' v M] := by
    show (finalOne exExt [⟨0, 1, 1⟩] (exQ2 f1 f2 x x u (.zeros 1 1)) >>= _) = _
    rw [h2, ok_bind]
    show ((finalOne exExt [⟨0, 1, 1⟩] (exQ2 f2 f1 y y v (.zeros 1 1)) >>= _) >>= _) = _
    rw [h3]
    rfl
  have h6 : firstInputs [exQ2 f1 f2 x x' u' M, exQ2 f2 f1 y y' v' M] = .ok 1 := rfl
  have h7 : ∃ r, realCost (exConf 1).dens 1 [exQ2 f1 f2 x x' u' M, exQ2 f2 f1 y y' v' M] (List.range (2 - 1)) [x, y] 0 = .ok r := by
    show ∃ r, (densityCost (⟨[⟨0, 1, 1⟩], 1, 9 / 10⟩ : Density 1) [⟨x, 1, 1⟩, ⟨y, 1, 1⟩] >>= _) = _
    rw [hj]
    exact ⟨_, rfl⟩
  obtain ⟨⟨ys, c⟩, h7⟩ := h7
  have h8 : ∀ l : List (Vec 1), ∃ f, finalCost exExt (exConf 1).dens.targets l = .ok f := by
    intro l
    induction l with
    | nil => exact ⟨_, rfl⟩
    | cons x l ih =>
      obtain ⟨f, hf⟩ := ih
      refine ⟨0 + f, ?_⟩
      show (finalCost exExt (exConf 1).dens.targets l >>= fun b => .ok (0 + b)) = _
      rw [hf, ok_bind]
  obtain ⟨f, h8⟩ := h8 ys
  have h9 : round (exConf 1) [exQ2 f1 f2 x x [0] (.zeros 1 1), exQ2 f2 f1 y y [0] (.zeros 1 1)] [x, y] =
      .ok ([exQ2 f1 f2 x x' u' M, exQ2 f2 f1 y y' v' M], ys, c + f) := by
    unfold Elqr.round
    rw [show (exConf 1).ext = exExt from rfl, show (exConf 1).horizon = 2 from rfl, h1, ok_bind, h5, ok_bind, h4, ok_bind,
      h6, ok_bind, h7, ok_bind]
    dsimp only
    rw [h8]
    rfl
  rw [iterLoop_succ, h9, ok_bind]
  dsimp only
  split
  · rfl
  · rfl

end Gasur.Props
