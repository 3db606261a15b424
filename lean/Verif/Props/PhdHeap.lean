import Verif.Model.PhdHeap
import Mathlib.Data.List.Forall2

/-!
# C155: the PHD filter and the objects of the caller

Calls on the filter leave every object of the caller and everything already reported unchanged; what the caller does with its own
objects does not change what the filter reports. The model with references computes what the model with values computes.
-/

namespace Gasur.Props.PhdHeap

open Gasur.Phd Gasur.Crash Gasur.PhdHeap

variable {K V P Z : Type*}

/-! ### Representation -/

/-- An array (numpy object). -/
def IsArr : Cell K V P Z → Prop
  | .vec _ => True
  | .mat _ => True
  | .obs _ => True
  | .nums _ => False
  | .refs _ => False

/-- Position `l` holds a list whose arrays have the values `xs`; list and arrays satisfy `A`. -/
def IsList {α : Type*} (h : List (Cell K V P Z)) (A : ℕ → Prop) (mk : α → Cell K V P Z) (l : ℕ) (xs : List α) : Prop :=
  A l ∧ ∃ rs, h[l]? = some (.refs rs) ∧ List.Forall₂ (fun r x => h[r]? = some (mk x)) rs xs ∧ ∀ r ∈ rs, A r

/-- Proof context: `n0` objects exist at the start of the call, `A` are the objects the filter may refer to, `W` those it may
change. -/
structure Ctx where
  n0 : ℕ
  A : ℕ → Prop
  W : ℕ → Prop
  hA : ∀ i, n0 ≤ i → A i
  hW : ∀ i, n0 ≤ i → W i

/-- A list that is not one of the lists of the mixture. -/
def Side {α : Type*} (h : List (Cell K V P Z)) (A : ℕ → Prop) (x : HMix) (mk : α → Cell K V P Z) (l : ℕ) (xs : List α) : Prop :=
  IsList h A mk l xs ∧ l ≠ x.m ∧ l ≠ x.p

/-- A birth term with its values. -/
def BirthOk (h : List (Cell K V P Z)) (A : ℕ → Prop) (x b : HMix) (v : Mix K V P) : Prop :=
  A b.w ∧ h[b.w]? = some (.nums v.ws) ∧ b.w ≠ x.w ∧ Side h A x Cell.vec b.m v.ms ∧ Side h A x Cell.mat b.p v.ps

/-- The reference state `s` stands for the object `o`, with birth terms `bs`. -/
structure Rep (c : Ctx) (bs : List (Mix K V P)) (s : HS K V P Z) (o : Obj K V P Z) : Prop where
  len : c.n0 ≤ s.heap.length
  Aw : c.A s.mix.w
  Ww : c.W s.mix.w
  Wm : c.W s.mix.m
  Wp : c.W s.mix.p
  ws : s.heap[s.mix.w]? = some (.nums o.mix.ws)
  ms : IsList s.heap c.A Cell.vec s.mix.m o.mix.ms
  ps : IsList s.heap c.A Cell.mat s.mix.p o.mix.ps
  ne : s.mix.m ≠ s.mix.p
  births : List.Forall₂ (BirthOk s.heap c.A s.mix) s.births bs
  states : List.Forall₂ (fun q v => Side s.heap c.A s.mix Cell.vec q.1 v.1 ∧ Side s.heap c.A s.mix Cell.mat q.2 v.2)
    s.states o.states
  meas : List.Forall₂ (fun l v => Side s.heap c.A s.mix Cell.obs l v) s.meas o.meas

/-- What one statement may change. -/
structure Kept (s s' : HS K V P Z) : Prop where
  le : s.heap.length ≤ s'.heap.length
  arr : ∀ (i : ℕ) (c : Cell K V P Z), IsArr c → s.heap[i]? = some c → s'.heap[i]? = some c
  rest : ∀ i, i < s.heap.length → i ≠ s.mix.w → i ≠ s.mix.m → i ≠ s.mix.p → s'.heap[i]? = s.heap[i]?
  w : s'.mix.w = s.mix.w ∨ s.heap.length ≤ s'.mix.w
  m : s'.mix.m = s.mix.m ∨ s.heap.length ≤ s'.mix.m
  p : s'.mix.p = s.mix.p ∨ s.heap.length ≤ s'.mix.p
  births : s'.births = s.births

/-- What a piece of code changes. -/
structure F (c : Ctx) (s s' : HS K V P Z) : Prop where
  frame : ∀ i, ¬ c.W i → s'.heap[i]? = s.heap[i]?
  arr : ∀ (i : ℕ) (x : Cell K V P Z), IsArr x → s.heap[i]? = some x → s'.heap[i]? = some x
  births : s'.births = s.births
  states : s.states <+: s'.states
  meas : s.meas <+: s'.meas

theorem F.refl (c : Ctx) (s : HS K V P Z) : F c s s :=
  ⟨fun _ _ => rfl, fun _ _ _ h => h, rfl, List.prefix_refl _, List.prefix_refl _⟩

theorem F.trans {c : Ctx} {s s' s'' : HS K V P Z} (h1 : F c s s') (h2 : F c s' s'') : F c s s'' :=
  ⟨fun i hi => (h2.frame i hi).trans (h1.frame i hi), fun i x hx h => h2.arr i x hx (h1.arr i x hx h),
    h2.births.trans h1.births, h1.states.trans h2.states, h1.meas.trans h2.meas⟩

theorem lt_of_get {α : Type*} {l : List α} {i : ℕ} {x : α} (h : l[i]? = some x) : i < l.length := by
  obtain ⟨hi, _⟩ := List.getElem?_eq_some_iff.1 h
  exact hi

theorem Kept.toF {c : Ctx} {bs : List (Mix K V P)} {s s' : HS K V P Z} {o : Obj K V P Z} (hr : Rep c bs s o) (h : Kept s s')
    (hs : s.states <+: s'.states) (hm : s.meas <+: s'.meas) : F c s s' := by
  refine ⟨fun i hi => h.rest i ?_ ?_ ?_ ?_, h.arr, h.births, hs, hm⟩
  · by_contra hlt
    exact hi (c.hW i (hr.len.trans (not_lt.1 hlt)))
  · rintro rfl; exact hi hr.Ww
  · rintro rfl; exact hi hr.Wm
  · rintro rfl; exact hi hr.Wp

theorem IsList.keep {α : Type*} {h h' : List (Cell K V P Z)} {A : ℕ → Prop} {mk : α → Cell K V P Z} (hmk : ∀ x, IsArr (mk x))
    {l : ℕ} {xs : List α} (hl : IsList h A mk l xs) (harr : ∀ (i : ℕ) (c : Cell K V P Z), IsArr c → h[i]? = some c → h'[i]? = some c)
    (hc : h'[l]? = h[l]?) : IsList h' A mk l xs := by
  obtain ⟨hA, rs, h1, h2, h3⟩ := hl
  exact ⟨hA, rs, hc.trans h1, h2.imp fun r x hx => harr r _ (hmk x) hx, h3⟩

theorem Side.keep {α : Type*} {A : ℕ → Prop} {mk : α → Cell K V P Z} (hmk : ∀ x, IsArr (mk x)) {s s' : HS K V P Z} {wsv : List K}
    (hw : s.heap[s.mix.w]? = some (.nums wsv)) (hk : Kept s s') {l : ℕ} {xs : List α} (hl : Side s.heap A s.mix mk l xs) :
    Side s'.heap A s'.mix mk l xs := by
  obtain ⟨hl, h1, h2⟩ := hl
  obtain ⟨_, rs, hc, _⟩ := id hl
  have hlt := lt_of_get hc
  refine ⟨hl.keep hmk hk.arr (hk.rest l hlt ?_ h1 h2), ?_, ?_⟩
  · rintro rfl
    rw [hw] at hc
    cases hc
  · rcases hk.m with h | h
    · rw [h]; exact h1
    · omega
  · rcases hk.p with h | h
    · rw [h]; exact h2
    · omega

theorem BirthOk.keep {A : ℕ → Prop} {s s' : HS K V P Z} {wsv : List K} (hw : s.heap[s.mix.w]? = some (.nums wsv))
    {m p : List ℕ} (hm : s.heap[s.mix.m]? = some (.refs m)) (hp : s.heap[s.mix.p]? = some (.refs p))
    (hk : Kept s s') {b : HMix} {v : Mix K V P} (hb : BirthOk s.heap A s.mix b v) : BirthOk s'.heap A s'.mix b v := by
  obtain ⟨h1, h2, h3, h4, h5⟩ := hb
  refine ⟨h1, ?_, ?_, h4.keep (by intro _; trivial) hw hk, h5.keep (by intro _; trivial) hw hk⟩
  · rw [hk.rest b.w (lt_of_get h2) h3 ?_ ?_]
    · exact h2
    · rintro h; rw [h, hm] at h2; cases h2
    · rintro h; rw [h, hp] at h2; cases h2
  · rcases hk.w with h | h
    · rw [h]; exact h3
    · have := lt_of_get h2
      omega

theorem Rep.step {c : Ctx} {bs : List (Mix K V P)} {s s' : HS K V P Z} {o : Obj K V P Z} (hr : Rep c bs s o) (hk : Kept s s')
    (mix : Mix K V P) (hws : s'.heap[s'.mix.w]? = some (.nums mix.ws)) (hms : IsList s'.heap c.A Cell.vec s'.mix.m mix.ms)
    (hps : IsList s'.heap c.A Cell.mat s'.mix.p mix.ps) (hne : s'.mix.m ≠ s'.mix.p) (hs : s'.states = s.states)
    (hm : s'.meas = s.meas) : Rep c bs s' { o with mix := mix } := by
  obtain ⟨_, rm, hrm, _⟩ := hr.ms
  obtain ⟨_, rp, hrp, _⟩ := hr.ps
  refine ⟨hr.len.trans hk.le, ?_, ?_, ?_, ?_, hws, hms, hps, hne, ?_, ?_, ?_⟩
  · rcases hk.w with h | h
    · rw [h]; exact hr.Aw
    · exact c.hA _ (hr.len.trans h)
  · rcases hk.w with h | h
    · rw [h]; exact hr.Ww
    · exact c.hW _ (hr.len.trans h)
  · rcases hk.m with h | h
    · rw [h]; exact hr.Wm
    · exact c.hW _ (hr.len.trans h)
  · rcases hk.p with h | h
    · rw [h]; exact hr.Wp
    · exact c.hW _ (hr.len.trans h)
  · rw [hk.births]
    exact hr.births.imp fun b v h => h.keep hr.ws hrm hrp hk
  · rw [hs]
    exact hr.states.imp fun q v h => ⟨h.1.keep (by intro _; trivial) hr.ws hk, h.2.keep (by intro _; trivial) hr.ws hk⟩
  · rw [hm]
    exact hr.meas.imp fun q v h => h.keep (by intro _; trivial) hr.ws hk

/-! ### Simulation -/

/-- Results of the same kind. -/
def RelRes {α β : Type*} (R : α → β → Prop) : Res α → Res β → Prop
  | .ok a, .ok b => R a b
  | .raised, .raised => True
  | .nan, .nan => True
  | _, _ => False

/-- The code `x` with references does from `s` what the code `y` with values does from `o`. -/
def Sim {α β : Type*} (c : Ctx) (bs : List (Mix K V P)) (s : HS K V P Z) (o : Obj K V P Z) (x : M (HS K V P Z) α)
    (y : M (Obj K V P Z) β) (R : HS K V P Z → α → β → Prop) : Prop :=
  Rep c bs (x s).1 (y o).1 ∧ F c s (x s).1 ∧ RelRes (R (x s).1) (x s).2 (y o).2

section sim
variable {c : Ctx} {bs : List (Mix K V P)} {s : HS K V P Z} {o : Obj K V P Z} {α β γ δ : Type*}

theorem sim_bind {x : M (HS K V P Z) α} {y : M (Obj K V P Z) β} {R : HS K V P Z → α → β → Prop} {f : α → M (HS K V P Z) γ}
    {g : β → M (Obj K V P Z) δ} {Q : HS K V P Z → γ → δ → Prop} (h : Sim c bs s o x y R)
    (hk : ∀ s' o' a b, Rep c bs s' o' → F c s s' → R s' a b → Sim c bs s' o' (f a) (g b) Q) :
    Sim c bs s o (andThen x f) (andThen y g) Q := by
  obtain ⟨h1, h2, h3⟩ := h
  unfold Sim andThen
  rcases hx : x s with ⟨s', r⟩
  rcases hy : y o with ⟨o', q⟩
  rw [hx] at h1 h2
  rw [hy] at h1
  rw [hx, hy] at h3
  cases r with
  | ok a =>
    cases q with
    | ok b =>
      obtain ⟨h4, h5, h6⟩ := hk s' o' a b h1 h2 h3
      exact ⟨h4, h2.trans h5, h6⟩
    | raised => exact h3.elim
    | nan => exact h3.elim
  | raised =>
    cases q with
    | ok b => exact h3.elim
    | raised => exact ⟨h1, h2, trivial⟩
    | nan => exact h3.elim
  | nan =>
    cases q with
    | ok b => exact h3.elim
    | raised => exact h3.elim
    | nan => exact ⟨h1, h2, trivial⟩

theorem sim_left {x : M (HS K V P Z) α} {f : α → M (HS K V P Z) γ} {y : M (Obj K V P Z) δ} {Q : HS K V P Z → γ → δ → Prop}
    {s' : HS K V P Z} {a : α} (hx : x s = (s', .ok a)) (hF : F c s s') (h : Sim c bs s' o (f a) y Q) :
    Sim c bs s o (andThen x f) y Q := by
  obtain ⟨h4, h5, h6⟩ := h
  have : andThen x f s = f a s' := by unfold andThen; rw [hx]
  unfold Sim
  rw [this]
  exact ⟨h4, hF.trans h5, h6⟩

theorem sim_get {sel : Cell K V P Z → Option α} {r : ℕ} {cell : Cell K V P Z} {a : α} {f : α → M (HS K V P Z) γ}
    {y : M (Obj K V P Z) δ} {Q : HS K V P Z → γ → δ → Prop} (hc : s.heap[r]? = some cell) (ha : sel cell = some a)
    (h : Sim c bs s o (f a) y Q) : Sim c bs s o (andThen (Gasur.PhdHeap.get sel r) f) y Q := by
  refine sim_left (s' := s) (a := a) ?_ (F.refl _ _) h
  unfold Gasur.PhdHeap.get
  rw [hc, Option.bind_some, ha]

theorem sim_look {g : HS K V P Z → α} {f : α → M (HS K V P Z) γ} {y : M (Obj K V P Z) δ} {Q : HS K V P Z → γ → δ → Prop}
    (h : Sim c bs s o (f (g s)) y Q) : Sim c bs s o (andThen (look g) f) y Q := h

theorem sim_lookR {g : Obj K V P Z → β} {f : β → M (Obj K V P Z) δ} {x : M (HS K V P Z) γ} {Q : HS K V P Z → γ → δ → Prop}
    (h : Sim c bs s o x (f (g o)) Q) : Sim c bs s o x (andThen (look g) f) Q := h

theorem sim_done {a : α} {b : β} {Q : HS K V P Z → α → β → Prop} (hr : Rep c bs s o) (h : Q s a b) :
    Sim c bs s o (done a) (done b) Q := ⟨hr, F.refl _ _, h⟩

theorem sim_fail {Q : HS K V P Z → α → β → Prop} (hr : Rep c bs s o) : Sim c bs s o (fail : M _ α) (fail : M _ β) Q :=
  ⟨hr, F.refl _ _, trivial⟩

theorem sim_nan {Q : HS K V P Z → α → β → Prop} (hr : Rep c bs s o) :
    Sim c bs s o (eval .nan : M _ α) (eval .nan : M _ β) Q := ⟨hr, F.refl _ _, trivial⟩

/-! ### New objects -/

theorem get_append_left {l l' : List α} {i : ℕ} (h : i < l.length) : (l ++ l')[i]? = l[i]? := List.getElem?_append_left h

theorem kept_new (cell : Cell K V P Z) : Kept s { s with heap := s.heap ++ [cell] } := by
  refine ⟨by simp, fun i x _ h => ?_, fun i h _ _ _ => get_append_left h, .inl rfl, .inl rfl, .inl rfl, rfl⟩
  rw [get_append_left (lt_of_get h)]
  exact h

theorem rep_new (hr : Rep c bs s o) (cell : Cell K V P Z) : Rep c bs { s with heap := s.heap ++ [cell] } o := by
  have hk : Kept s { s with heap := s.heap ++ [cell] } := kept_new cell
  obtain ⟨_, rm, hrm, _⟩ := hr.ms
  obtain ⟨_, rp, hrp, _⟩ := hr.ps
  exact hr.step hk o.mix ((get_append_left (lt_of_get hr.ws)).trans hr.ws)
    (hr.ms.keep (by intro _; trivial) hk.arr (get_append_left (lt_of_get hrm)))
    (hr.ps.keep (by intro _; trivial) hk.arr (get_append_left (lt_of_get hrp))) hr.ne rfl rfl

theorem sim_new {cell : Cell K V P Z} {f : ℕ → M (HS K V P Z) γ} {y : M (Obj K V P Z) δ} {Q : HS K V P Z → γ → δ → Prop}
    (hr : Rep c bs s o)
    (h : ∀ s' r, Rep c bs s' o → F c s s' → s'.heap[r]? = some cell → c.A r → Sim c bs s' o (f r) y Q) :
    Sim c bs s o (andThen (new cell) f) y Q :=
  sim_left (x := new cell) rfl ((kept_new cell).toF hr (List.prefix_refl _) (List.prefix_refl _))
    (h _ _ (rep_new hr cell) ((kept_new cell).toF hr (List.prefix_refl _) (List.prefix_refl _)) (by simp)
      (c.hA _ hr.len))

/-! ### Changing the mixture -/

theorem set_other {l : List α} {i j : ℕ} (x : α) (h : i ≠ j) : (l.set j x)[i]? = l[i]? := List.getElem?_set_ne h.symm

theorem set_same {l : List α} {j : ℕ} (x : α) (h : j < l.length) : (l.set j x)[j]? = some x := List.getElem?_set_self h

theorem kept_put {r : ℕ} {x y : Cell K V P Z} (hx : s.heap[r]? = some x) (hxa : ¬ IsArr x)
    (hown : r = s.mix.w ∨ r = s.mix.m ∨ r = s.mix.p) : Kept s { s with heap := s.heap.set r y } := by
  refine ⟨by simp, fun i z hz h => ?_, fun i h h1 h2 h3 => set_other _ ?_, .inl rfl, .inl rfl, .inl rfl, rfl⟩
  · refine (set_other _ ?_).trans h
    rintro rfl
    rw [hx] at h
    cases h
    exact hxa hz
  · rintro rfl
    rcases hown with h | h | h <;> contradiction

theorem sim_putW (hr : Rep c bs s o) (l : List K) :
    Sim c bs s o (put s.mix.w (.nums l)) (setMix fun m => { m with ws := l }) (fun _ _ _ => True) := by
  have hk : Kept s { s with heap := s.heap.set s.mix.w (.nums l) } := kept_put hr.ws (fun h => h) (.inl rfl)
  obtain ⟨_, rm, hrm, _⟩ := id hr.ms
  obtain ⟨_, rp, hrp, _⟩ := id hr.ps
  have h1 : s.mix.m ≠ s.mix.w := by intro h; rw [h, hr.ws] at hrm; cases hrm
  have h2 : s.mix.p ≠ s.mix.w := by intro h; rw [h, hr.ws] at hrp; cases hrp
  exact ⟨hr.step hk { o.mix with ws := l } (set_same _ (lt_of_get hr.ws)) (hr.ms.keep (by intro _; trivial) hk.arr (set_other _ h1))
    (hr.ps.keep (by intro _; trivial) hk.arr (set_other _ h2)) hr.ne rfl rfl,
    hk.toF hr (List.prefix_refl _) (List.prefix_refl _), trivial⟩

theorem sim_putM (hr : Rep c bs s o) {rs : List ℕ} {l : List V}
    (hl : List.Forall₂ (fun r x => s.heap[r]? = some (Cell.vec x)) rs l) (hA : ∀ r ∈ rs, c.A r) :
    Sim c bs s o (put s.mix.m (.refs rs)) (setMix fun m => { m with ms := l }) (fun _ _ _ => True) := by
  obtain ⟨hAm, rm, hrm, _⟩ := id hr.ms
  obtain ⟨_, rp, hrp, _⟩ := id hr.ps
  have hk : Kept s { s with heap := s.heap.set s.mix.m (.refs rs) } := kept_put hrm (fun h => h) (.inr (.inl rfl))
  have h1 : s.mix.w ≠ s.mix.m := by intro h; rw [← h, hr.ws] at hrm; cases hrm
  exact ⟨hr.step hk { o.mix with ms := l } ((set_other _ h1).trans hr.ws)
    ⟨hAm, rs, set_same _ (lt_of_get hrm), hl.imp fun r x hx => hk.arr r (Cell.vec x) trivial hx, hA⟩
    (hr.ps.keep (by intro _; trivial) hk.arr (set_other _ hr.ne.symm)) hr.ne rfl rfl,
    hk.toF hr (List.prefix_refl _) (List.prefix_refl _), trivial⟩

theorem sim_putP (hr : Rep c bs s o) {rs : List ℕ} {l : List P}
    (hl : List.Forall₂ (fun r x => s.heap[r]? = some (Cell.mat x)) rs l) (hA : ∀ r ∈ rs, c.A r) :
    Sim c bs s o (put s.mix.p (.refs rs)) (setMix fun m => { m with ps := l }) (fun _ _ _ => True) := by
  obtain ⟨_, rm, hrm, _⟩ := id hr.ms
  obtain ⟨hAm, rp, hrp, _⟩ := id hr.ps
  have hk : Kept s { s with heap := s.heap.set s.mix.p (.refs rs) } := kept_put hrp (fun h => h) (.inr (.inr rfl))
  have h1 : s.mix.w ≠ s.mix.p := by intro h; rw [← h, hr.ws] at hrp; cases hrp
  exact ⟨hr.step hk { o.mix with ps := l } ((set_other _ h1).trans hr.ws)
    (hr.ms.keep (by intro _; trivial) hk.arr (set_other _ hr.ne))
    ⟨hAm, rs, set_same _ (lt_of_get hrp), hl.imp fun r x hx => hk.arr r (Cell.mat x) trivial hx, hA⟩ hr.ne rfl rfl,
    hk.toF hr (List.prefix_refl _) (List.prefix_refl _), trivial⟩

theorem new_self (l : List α) (x : α) : (l ++ [x])[l.length]? = some x := by simp

theorem sim_newW (hr : Rep c bs s o) (l : List K) :
    Sim c bs s o (newW l) (setMix fun m => { m with ws := l }) (fun _ _ _ => True) := by
  obtain ⟨_, rm, hrm, _⟩ := id hr.ms
  obtain ⟨_, rp, hrp, _⟩ := id hr.ps
  have hk : Kept s { s with heap := s.heap ++ [.nums l], mix := { s.mix with w := s.heap.length } } :=
    ⟨(kept_new _).le, (kept_new _).arr, (kept_new _).rest, .inr le_rfl, .inl rfl, .inl rfl, rfl⟩
  exact ⟨hr.step hk { o.mix with ws := l } (new_self _ _)
    (hr.ms.keep (by intro _; trivial) hk.arr (get_append_left (lt_of_get hrm)))
    (hr.ps.keep (by intro _; trivial) hk.arr (get_append_left (lt_of_get hrp))) hr.ne rfl rfl,
    hk.toF hr (List.prefix_refl _) (List.prefix_refl _), trivial⟩

theorem sim_newM (hr : Rep c bs s o) {rs : List ℕ} {l : List V}
    (hl : List.Forall₂ (fun r x => s.heap[r]? = some (Cell.vec x)) rs l) (hA : ∀ r ∈ rs, c.A r) :
    Sim c bs s o (newM rs) (setMix fun m => { m with ms := l }) (fun _ _ _ => True) := by
  obtain ⟨_, rm, hrm, _⟩ := id hr.ms
  obtain ⟨_, rp, hrp, _⟩ := id hr.ps
  have hk : Kept s { s with heap := s.heap ++ [.refs rs], mix := { s.mix with m := s.heap.length } } :=
    ⟨(kept_new _).le, (kept_new _).arr, (kept_new _).rest, .inl rfl, .inr le_rfl, .inl rfl, rfl⟩
  have hp := lt_of_get hrp
  exact ⟨hr.step hk { o.mix with ms := l } ((get_append_left (lt_of_get hr.ws)).trans hr.ws)
    ⟨c.hA _ hr.len, rs, new_self _ _, hl.imp fun r x hx => hk.arr r (Cell.vec x) trivial hx, hA⟩
    (hr.ps.keep (by intro _; trivial) hk.arr (get_append_left (lt_of_get hrp))) (by dsimp only; omega) rfl rfl,
    hk.toF hr (List.prefix_refl _) (List.prefix_refl _), trivial⟩

theorem sim_newP (hr : Rep c bs s o) {rs : List ℕ} {l : List P}
    (hl : List.Forall₂ (fun r x => s.heap[r]? = some (Cell.mat x)) rs l) (hA : ∀ r ∈ rs, c.A r) :
    Sim c bs s o (newP rs) (setMix fun m => { m with ps := l }) (fun _ _ _ => True) := by
  obtain ⟨_, rm, hrm, _⟩ := id hr.ms
  obtain ⟨_, rp, hrp, _⟩ := id hr.ps
  have hk : Kept s { s with heap := s.heap ++ [.refs rs], mix := { s.mix with p := s.heap.length } } :=
    ⟨(kept_new _).le, (kept_new _).arr, (kept_new _).rest, .inl rfl, .inl rfl, .inr le_rfl, rfl⟩
  have hm := lt_of_get hrm
  exact ⟨hr.step hk { o.mix with ps := l } ((get_append_left (lt_of_get hr.ws)).trans hr.ws)
    (hr.ms.keep (by intro _; trivial) hk.arr (get_append_left (lt_of_get hrm)))
    ⟨c.hA _ hr.len, rs, new_self _ _, hl.imp fun r x hx => hk.arr r (Cell.mat x) trivial hx, hA⟩
    (by dsimp only; omega) rfl rfl,
    hk.toF hr (List.prefix_refl _) (List.prefix_refl _), trivial⟩

/-! ### Lists of arrays -/

/-- References with their values. -/
def Rd {α : Type*} (h : List (Cell K V P Z)) (A : ℕ → Prop) (mk : α → Cell K V P Z) (rs : List ℕ) (xs : List α) : Prop :=
  List.Forall₂ (fun r x => h[r]? = some (mk x)) rs xs ∧ ∀ r ∈ rs, A r

theorem Rd.mono {mk : α → Cell K V P Z} (hmk : ∀ x, IsArr (mk x)) {s' : HS K V P Z} (hF : F c s s') {rs : List ℕ} {xs : List α}
    (h : Rd s.heap c.A mk rs xs) : Rd s'.heap c.A mk rs xs :=
  ⟨h.1.imp fun r x hx => hF.arr r _ (hmk x) hx, h.2⟩

theorem Rd.append {h : List (Cell K V P Z)} {A : ℕ → Prop} {mk : α → Cell K V P Z} {rs rs' : List ℕ} {xs xs' : List α}
    (h1 : Rd h A mk rs xs) (h2 : Rd h A mk rs' xs') : Rd h A mk (rs ++ rs') (xs ++ xs') :=
  ⟨List.rel_append h1.1 h2.1, fun r hr => (List.mem_append.1 hr).elim (h1.2 r) (h2.2 r)⟩

theorem Rd.nil {h : List (Cell K V P Z)} {A : ℕ → Prop} {mk : α → Cell K V P Z} : Rd h A mk [] [] :=
  ⟨List.Forall₂.nil, fun r hr => nomatch hr⟩

theorem Rd.cons {h : List (Cell K V P Z)} {A : ℕ → Prop} {mk : α → Cell K V P Z} {r : ℕ} {x : α} {rs : List ℕ} {xs : List α}
    (h1 : h[r]? = some (mk x)) (hA : A r) (h2 : Rd h A mk rs xs) : Rd h A mk (r :: rs) (x :: xs) :=
  ⟨List.Forall₂.cons h1 h2.1, fun q hq => by rcases List.mem_cons.1 hq with rfl | h; exacts [hA, h2.2 q h]⟩

theorem getAll_ok {sel : Cell K V P Z → Option α} {mk : α → Cell K V P Z} (hs : ∀ x, sel (mk x) = some x) {rs : List ℕ}
    {xs : List α} (h : List.Forall₂ (fun r x => s.heap[r]? = some (mk x)) rs xs) : getAll sel rs s = (s, .ok xs) := by
  induction h with
  | nil => rfl
  | @cons r x rs xs h1 _ ih =>
    unfold getAll andThen Gasur.PhdHeap.get
    rw [h1, Option.bind_some, hs]
    dsimp only
    rw [ih]
    rfl

theorem copyAll_ok {sel : Cell K V P Z → Option α} {mk : α → Cell K V P Z} (hs : ∀ x, sel (mk x) = some x)
    (hmk : ∀ x, IsArr (mk x)) : ∀ {rs : List ℕ} {xs : List α} {s : HS K V P Z}, Rep c bs s o →
    List.Forall₂ (fun r x => s.heap[r]? = some (mk x)) rs xs →
    ∃ s' l, copyAll sel mk rs s = (s', .ok l) ∧ Rep c bs s' o ∧ F c s s' ∧ Rd s'.heap c.A mk l xs
  | _, _, s, hr, .nil => ⟨s, [], rfl, hr, F.refl _ _, Rd.nil⟩
  | r :: rs, x :: xs, s, hr, .cons h1 h2 => by
    have hF : F c s { s with heap := s.heap ++ [mk x] } := (kept_new _).toF hr (List.prefix_refl _) (List.prefix_refl _)
    obtain ⟨s', l, h3, h4, h5, h6⟩ := copyAll_ok hs hmk (rep_new hr (mk x)) (h2.imp fun r x hx => hF.arr r _ (hmk x) hx)
    refine ⟨s', s.heap.length :: l, ?_, h4, hF.trans h5, h6.cons (h5.arr _ _ (hmk x) (new_self _ _)) (c.hA _ hr.len)⟩
    unfold copyAll andThen Gasur.PhdHeap.get new
    rw [h1, Option.bind_some, hs]
    dsimp only
    rw [h3]
    rfl

theorem sim_mix {f : List K × List ℕ × List ℕ → M (HS K V P Z) γ} {y : M (Obj K V P Z) δ} {Q : HS K V P Z → γ → δ → Prop}
    (hr : Rep c bs s o)
    (h : ∀ rm rp, Rd s.heap c.A Cell.vec rm o.mix.ms → Rd s.heap c.A Cell.mat rp o.mix.ps →
      Sim c bs s o (f (o.mix.ws, rm, rp)) y Q) : Sim c bs s o (andThen lookMix f) y Q := by
  obtain ⟨_, rm, hrm, h1⟩ := id hr.ms
  obtain ⟨_, rp, hrp, h2⟩ := id hr.ps
  refine sim_left (s' := s) (a := (o.mix.ws, rm, rp)) ?_ (F.refl _ _) (h rm rp h1 h2)
  unfold lookMix andThen look Gasur.PhdHeap.get
  dsimp only
  rw [hr.ws]
  dsimp only [Option.bind_some, Cell.nums?]
  rw [hrm]
  dsimp only [Option.bind_some, Cell.refs?]
  rw [hrp]
  rfl

theorem Rd.get {h : List (Cell K V P Z)} {A : ℕ → Prop} {mk : α → Cell K V P Z} {rs : List ℕ} {xs : List α}
    (hl : Rd h A mk rs xs) (j : ℕ) : (rs[j]? = none ∧ xs[j]? = none) ∨
      ∃ r x, rs[j]? = some r ∧ xs[j]? = some x ∧ h[r]? = some (mk x) ∧ A r := by
  obtain ⟨h1, h2⟩ := hl
  induction h1 generalizing j with
  | nil => left; simp
  | @cons r x rs xs hx hl ih =>
    cases j with
    | zero => exact .inr ⟨r, x, rfl, rfl, hx, h2 r (List.mem_cons_self ..)⟩
    | succ j => exact ih j (fun r hr => h2 r (List.mem_cons_of_mem _ hr))

theorem Rd.length {h : List (Cell K V P Z)} {A : ℕ → Prop} {mk : α → Cell K V P Z} {rs : List ℕ} {xs : List α}
    (hl : Rd h A mk rs xs) : rs.length = xs.length := hl.1.length_eq

theorem forall₂_eraseIdx {R : α → β → Prop} {l : List α} {l' : List β} (h : List.Forall₂ R l l') (i : ℕ) :
    List.Forall₂ R (l.eraseIdx i) (l'.eraseIdx i) := by
  induction h generalizing i with
  | nil => simp
  | cons hx hl ih =>
    cases i with
    | zero => exact hl
    | succ i => exact .cons hx (ih i)

theorem Rd.eraseIdx {h : List (Cell K V P Z)} {A : ℕ → Prop} {mk : α → Cell K V P Z} {rs : List ℕ} {xs : List α}
    (hl : Rd h A mk rs xs) (i : ℕ) : Rd h A mk (rs.eraseIdx i) (xs.eraseIdx i) :=
  ⟨forall₂_eraseIdx hl.1 i, fun r hr => hl.2 r (List.mem_of_mem_eraseIdx hr)⟩

theorem Rd.replicate {h : List (Cell K V P Z)} {A : ℕ → Prop} {mk : α → Cell K V P Z} {r : ℕ} {x : α}
    (h1 : h[r]? = some (mk x)) (hA : A r) : ∀ n, Rd h A mk (List.replicate n r) (List.replicate n x)
  | 0 => Rd.nil
  | n + 1 => (Rd.replicate h1 hA n).cons h1 hA

end sim

end Gasur.Props.PhdHeap
