import Verif.Props.PhdHeapOps
import Verif.Props.PhdCrash

/-!
# C155: the PHD filter and the objects of the caller, whole histories
-/

namespace Gasur.Props.PhdHeap

open Gasur.Phd Gasur.Crash Gasur.PhdHeap
open Gasur.Props.PhdCrash (exInv exSort exCrashPr exPFilt)

variable {K V P Z : Type*}

/-! ### Specification -/

/-- Position `l` of the heap holds a list of arrays with the values `xs`. -/
def ListReads {α : Type*} (h : List (Cell K V P Z)) (mk : α → Cell K V P Z) (l : ℕ) (xs : List α) : Prop :=
  ∃ rs, h[l]? = some (.refs rs) ∧ List.Forall₂ (fun r x => h[r]? = some (mk x)) rs xs

/-- The mixture `b` on the heap has the values `v`. -/
def MixReads (h : List (Cell K V P Z)) (b : HMix) (v : Mix K V P) : Prop :=
  h[b.w]? = some (.nums v.ws) ∧ ListReads h Cell.vec b.m v.ms ∧ ListReads h Cell.mat b.p v.ps

/-- The call `o` with references is the call `v` with values: birth terms `bs`, measurements read now. -/
inductive SameOp (bs : List (Mix K V P)) (h : List (Cell K V P Z)) : HOp K V P Z → COp K V P Z → Prop
  | predict (f : PFilt K V P Z) : SameOp bs h (.predict f) (.predict f bs)
  | correct (f : PFilt K V P Z) (z : ℕ) (zs : List Z) (hz : ListReads h Cell.obs z zs) : SameOp bs h (.correct f z) (.correct f zs)
  | cleanup (a b c d : Bool) : SameOp bs h (.cleanup a b c d) (.cleanup a b c d)
  | extract : SameOp bs h .extract .extract

section spec
variable [Field K] [LinearOrder K] [FloorRing K] [AddCommGroup V] [Module K V] [AddCommGroup P] [Module K P]

/-- A history of the heap. `A` are the objects that the filter has made. Between the calls the caller (or any other code) may
change all other objects and make new ones (`outside`). The lists are the calls with their values and whether they ended
normally. -/
inductive Exec (inv : P → Option (V → K)) (argsort : List K → List ℕ) (pr : Params K) (bs : List (Mix K V P)) :
    HS K V P Z → (ℕ → Prop) → List (COp K V P Z) → List Bool → HS K V P Z → (ℕ → Prop) → Prop
  | nil (s : HS K V P Z) (A : ℕ → Prop) : Exec inv argsort pr bs s A [] [] s A
  | outside (s : HS K V P Z) (A : ℕ → Prop) (h : List (Cell K V P Z)) (os : List (COp K V P Z)) (fl : List Bool)
      (s' : HS K V P Z) (A' : ℕ → Prop) (hlen : s.heap.length ≤ h.length) (hA : ∀ i, A i → h[i]? = s.heap[i]?)
      (hrest : Exec inv argsort pr bs { s with heap := h } A os fl s' A') : Exec inv argsort pr bs s A os fl s' A'
  | ended (s : HS K V P Z) (A : ℕ → Prop) (x : HOp K V P Z) (v : COp K V P Z) (s1 : HS K V P Z) (os : List (COp K V P Z))
      (fl : List Bool) (s' : HS K V P Z) (A' : ℕ → Prop) (hx : SameOp bs s.heap x v)
      (hcall : hcall inv argsort pr x s = (s1, .ok ()))
      (hrest : Exec inv argsort pr bs s1 (fun i => A i ∨ s.heap.length ≤ i ∧ i < s1.heap.length) os fl s' A') :
      Exec inv argsort pr bs s A (v :: os) (true :: fl) s' A'
  | raised (s : HS K V P Z) (A : ℕ → Prop) (x : HOp K V P Z) (v : COp K V P Z) (s1 : HS K V P Z) (os : List (COp K V P Z))
      (fl : List Bool) (s' : HS K V P Z) (A' : ℕ → Prop) (hx : SameOp bs s.heap x v)
      (hcall : hcall inv argsort pr x s = (s1, .raised))
      (hrest : Exec inv argsort pr bs s1 (fun i => A i ∨ s.heap.length ≤ i ∧ i < s1.heap.length) os fl s' A') :
      Exec inv argsort pr bs s A (v :: os) (false :: fl) s' A'

end spec

/-! ### The invariant between calls -/

/-- The context of a call from `s`. -/
def ctxOf (A : ℕ → Prop) (s : HS K V P Z) : Ctx :=
  { n0 := s.heap.length
    A := fun i => A i ∨ s.heap.length ≤ i
    W := fun i => (i = s.mix.w ∨ i = s.mix.m ∨ i = s.mix.p) ∨ s.heap.length ≤ i
    hA := fun _ h => .inr h
    hW := fun _ h => .inr h }

/-- The invariant between calls. -/
def Top (A : ℕ → Prop) (bs : List (Mix K V P)) (s : HS K V P Z) (o : Obj K V P Z) : Prop := Rep (ctxOf A s) bs s o

theorem IsList.weak {α : Type*} {h : List (Cell K V P Z)} {A A' : ℕ → Prop} (hA : ∀ i, A i → A' i) {mk : α → Cell K V P Z} {l : ℕ}
    {xs : List α} (hl : IsList h A mk l xs) : IsList h A' mk l xs := by
  obtain ⟨h1, rs, h2, h3, h4⟩ := hl
  exact ⟨hA _ h1, rs, h2, h3, fun r hr => hA _ (h4 r hr)⟩

theorem Side.weak {α : Type*} {h : List (Cell K V P Z)} {A A' : ℕ → Prop} (hA : ∀ i, A i → A' i) {mk : α → Cell K V P Z} {x : HMix}
    {l : ℕ} {xs : List α} (hl : Side h A x mk l xs) : Side h A' x mk l xs := ⟨hl.1.weak hA, hl.2⟩

theorem Rep.weak {c c' : Ctx} {bs : List (Mix K V P)} {s : HS K V P Z} {o : Obj K V P Z} (hr : Rep c bs s o)
    (hA : ∀ i, c.A i → c'.A i) (hn : c'.n0 ≤ s.heap.length) (h1 : c'.W s.mix.w) (h2 : c'.W s.mix.m) (h3 : c'.W s.mix.p) :
    Rep c' bs s o :=
  ⟨hn, hA _ hr.Aw, h1, h2, h3, hr.ws, hr.ms.weak hA, hr.ps.weak hA, hr.ne,
    hr.births.imp fun _ _ h => ⟨hA _ h.1, h.2.1, h.2.2.1, h.2.2.2.1.weak hA, h.2.2.2.2.weak hA⟩,
    hr.states.imp fun _ _ h => ⟨h.1.weak hA, h.2.weak hA⟩, hr.meas.imp fun _ _ h => h.weak hA⟩

theorem IsList.move {α : Type*} {h h' : List (Cell K V P Z)} {A A' : ℕ → Prop} {mk : α → Cell K V P Z} {l : ℕ} {xs : List α}
    (hl : IsList h A mk l xs) (hm : ∀ i, A i → i < h.length → A' i ∧ h'[i]? = h[i]?) : IsList h' A' mk l xs := by
  obtain ⟨h1, rs, h2, h3, h4⟩ := hl
  have hl := hm l h1 (lt_of_get h2)
  refine ⟨hl.1, rs, hl.2.trans h2, ?_, ?_⟩
  · clear h2
    induction h3 with
    | nil => exact .nil
    | @cons r x rs xs hx _ ih =>
      refine .cons ((hm r (h4 r (List.mem_cons_self ..)) (lt_of_get hx)).2.trans hx)
        (ih fun q hq => h4 q (List.mem_cons_of_mem _ hq))
  · intro r hr
    obtain ⟨i, hi, rfl⟩ := List.getElem_of_mem hr
    have hi' : i < xs.length := h3.length_eq ▸ hi
    exact (hm _ (h4 _ hr) (lt_of_get (h3.get hi hi'))).1

theorem Top.move {A : ℕ → Prop} {bs : List (Mix K V P)} {s : HS K V P Z} {o : Obj K V P Z} (ht : Top A bs s o)
    {h : List (Cell K V P Z)} (hlen : s.heap.length ≤ h.length) (hA : ∀ i, A i → h[i]? = s.heap[i]?) :
    Top A bs { s with heap := h } o := by
  have hm : ∀ i, (ctxOf A s).A i → i < s.heap.length → (ctxOf A { s with heap := h }).A i ∧ h[i]? = s.heap[i]? := by
    intro i hi hlt
    rcases hi with hi | hi
    · exact ⟨.inl hi, hA i hi⟩
    · omega
  have hw := hm _ ht.Aw (lt_of_get ht.ws)
  refine ⟨le_rfl, hw.1, .inl (.inl rfl), .inl (.inr (.inl rfl)), .inl (.inr (.inr rfl)), hw.2.trans ht.ws, ht.ms.move hm,
    ht.ps.move hm, ht.ne, ht.births.imp fun b v hb => ?_, ht.states.imp fun q v hq => ?_, ht.meas.imp fun l v hl => ?_⟩
  · have := hm _ hb.1 (lt_of_get hb.2.1)
    exact ⟨this.1, this.2.trans hb.2.1, hb.2.2.1, ⟨hb.2.2.2.1.1.move hm, hb.2.2.2.1.2⟩, ⟨hb.2.2.2.2.1.move hm, hb.2.2.2.2.2⟩⟩
  · exact ⟨⟨hq.1.1.move hm, hq.1.2⟩, ⟨hq.2.1.move hm, hq.2.2⟩⟩
  · exact ⟨hl.1.move hm, hl.2⟩

section run
variable [Field K] [LinearOrder K] [FloorRing K] [AddCommGroup V] [Module K V] [AddCommGroup P] [Module K P]
variable {inv : P → Option (V → K)} {argsort : List K → List ℕ} {pr : Params K} {bs : List (Mix K V P)}

theorem sim_call {c : Ctx} {s : HS K V P Z} {o : Obj K V P Z} {x : HOp K V P Z} {v : COp K V P Z} (hr : Rep c bs s o)
    (hx : SameOp bs s.heap x v) : Sim c bs s o (hcall inv argsort pr x) (call inv argsort pr v) fun _ _ _ => True := by
  cases hx with
  | predict f => exact sim_predict pr f hr
  | correct f z zs hz =>
    obtain ⟨rs, h1, h2⟩ := hz
    exact sim_correct pr f hr h1 h2
  | cleanup a b c d => exact sim_cleanup inv argsort pr a b c d hr
  | extract => exact sim_extract pr hr

/-- One call from a state that satisfies the invariant. -/
theorem top_call {A : ℕ → Prop} {s : HS K V P Z} {o : Obj K V P Z} {x : HOp K V P Z} {v : COp K V P Z} (ht : Top A bs s o)
    (hx : SameOp bs s.heap x v) :
    Top (fun i => A i ∨ s.heap.length ≤ i ∧ i < (hcall inv argsort pr x s).1.heap.length) bs (hcall inv argsort pr x s).1
      (call inv argsort pr v o).1 ∧
    F (ctxOf A s) s (hcall inv argsort pr x s).1 ∧
    RelRes (fun _ _ => True) (hcall inv argsort pr x s).2 (call inv argsort pr v o).2 := by
  obtain ⟨h1, h2, h3⟩ := sim_call (inv := inv) (argsort := argsort) (pr := pr) ht hx
  refine ⟨h1.weak (fun i hi => ?_) le_rfl (.inl (.inl rfl)) (.inl (.inr (.inl rfl))) (.inl (.inr (.inr rfl))), h2, h3⟩
  rcases hi with hi | hi
  · exact .inl (.inl hi)
  · by_cases hlt : i < (hcall inv argsort pr x s).1.heap.length
    · exact .inl (.inr ⟨hi, hlt⟩)
    · exact .inr (not_lt.1 hlt)

/-- What stays the same for a recorded list. -/
def Fixed (s s' : HS K V P Z) (l : ℕ) : Prop :=
  s'.heap[l]? = s.heap[l]? ∧ ∀ rs, s.heap[l]? = some (.refs rs) → ∀ r ∈ rs, s'.heap[r]? = s.heap[r]?

omit [Field K] [LinearOrder K] [FloorRing K] [AddCommGroup V] [Module K V] [AddCommGroup P] [Module K P] in
theorem Fixed.trans {s s' s'' : HS K V P Z} {l : ℕ} (h1 : Fixed s s' l) (h2 : Fixed s' s'' l) : Fixed s s'' l :=
  ⟨h2.1.trans h1.1, fun rs hrs r hr => (h2.2 rs (h1.1.trans hrs) r hr).trans (h1.2 rs hrs r hr)⟩

omit [Field K] [LinearOrder K] [FloorRing K] [AddCommGroup V] [Module K V] [AddCommGroup P] [Module K P] in
theorem fixed_call {α : Type*} {mk : α → Cell K V P Z} (hmk : ∀ x, IsArr (mk x)) {A : ℕ → Prop} {s s' : HS K V P Z}
    {o : Obj K V P Z} (ht : Top A bs s o) (hF : F (ctxOf A s) s s') {l : ℕ} {xs : List α}
    (hl : Side s.heap (ctxOf A s).A s.mix mk l xs) : Fixed s s' l := by
  obtain ⟨⟨_, rs, h2, h3, h4⟩, hm, hp⟩ := hl
  refine ⟨hF.frame l ?_, ?_⟩
  · rintro ((rfl | h | h) | h)
    · rw [ht.ws] at h2; cases h2
    · exact hm h
    · exact hp h
    · have := lt_of_get h2
      omega
  · intro rs' hrs' r hr
    rw [h2] at hrs'
    obtain rfl : rs = rs' := by cases hrs'; rfl
    obtain ⟨i, hi, rfl⟩ := List.getElem_of_mem hr
    have hi' : i < xs.length := h3.length_eq ▸ hi
    have := h3.get hi hi'
    simp only [List.get_eq_getElem] at this
    rw [hF.arr _ _ (hmk _) this, this]

omit [Field K] [LinearOrder K] [FloorRing K] [AddCommGroup V] [Module K V] [AddCommGroup P] [Module K P] in
theorem fixed_move {α : Type*} {mk : α → Cell K V P Z} {A : ℕ → Prop} {s : HS K V P Z}
    {h : List (Cell K V P Z)} (hA : ∀ i, A i → h[i]? = s.heap[i]?) {l : ℕ} {xs : List α}
    (hl : IsList s.heap (ctxOf A s).A mk l xs) : Fixed s { s with heap := h } l := by
  obtain ⟨h1, rs, h2, h3, h4⟩ := hl
  have hm : ∀ i, (ctxOf A s).A i → i < s.heap.length → h[i]? = s.heap[i]? := by
    intro i hi hlt
    rcases hi with hi | hi
    · exact hA i hi
    · omega
  refine ⟨hm l h1 (lt_of_get h2), ?_⟩
  intro rs' hrs' r hr
  rw [h2] at hrs'
  obtain rfl : rs = rs' := by cases hrs'; rfl
  obtain ⟨i, hi, rfl⟩ := List.getElem_of_mem hr
  have hi' : i < xs.length := h3.length_eq ▸ hi
  exact hm _ (h4 _ hr) (lt_of_get (h3.get hi hi'))

omit [Field K] [LinearOrder K] [FloorRing K] [AddCommGroup V] [Module K V] [AddCommGroup P] [Module K P] in
theorem forall₂_left {α β : Type*} {R : α → β → Prop} {l : List α} {l' : List β} (h : List.Forall₂ R l l') {a : α} (ha : a ∈ l) :
    ∃ b, R a b := by
  induction h with
  | nil => exact nomatch ha
  | cons h _ ih =>
    rcases List.mem_cons.1 ha with rfl | ha
    · exact ⟨_, h⟩
    · exact ih ha

/-- Everything recorded stays as it is. -/
structure Record (s s' : HS K V P Z) : Prop where
  states : s.states <+: s'.states
  meas : s.meas <+: s'.meas
  fst : ∀ q ∈ s.states, Fixed s s' q.1
  snd : ∀ q ∈ s.states, Fixed s s' q.2
  obs : ∀ l ∈ s.meas, Fixed s s' l

omit [Field K] [LinearOrder K] [FloorRing K] [AddCommGroup V] [Module K V] [AddCommGroup P] [Module K P] in
theorem Record.trans {s s' s'' : HS K V P Z} (h1 : Record s s') (h2 : Record s' s'') : Record s s'' :=
  ⟨h1.states.trans h2.states, h1.meas.trans h2.meas,
    fun q hq => (h1.fst q hq).trans (h2.fst q (h1.states.subset hq)),
    fun q hq => (h1.snd q hq).trans (h2.snd q (h1.states.subset hq)),
    fun q hq => (h1.obs q hq).trans (h2.obs q (h1.meas.subset hq))⟩

omit [Field K] [LinearOrder K] [FloorRing K] [AddCommGroup V] [Module K V] [AddCommGroup P] [Module K P] in
theorem record_call {A : ℕ → Prop} {s s' : HS K V P Z} {o : Obj K V P Z} (ht : Top A bs s o) (hF : F (ctxOf A s) s s') :
    Record s s' := by
  refine ⟨hF.states, hF.meas, fun q hq => ?_, fun q hq => ?_, fun l hl => ?_⟩
  · obtain ⟨v, h⟩ := forall₂_left ht.states hq
    exact fixed_call (by intro _; trivial) ht hF h.1
  · obtain ⟨v, h⟩ := forall₂_left ht.states hq
    exact fixed_call (by intro _; trivial) ht hF h.2
  · obtain ⟨v, h⟩ := forall₂_left ht.meas hl
    exact fixed_call (by intro _; trivial) ht hF h

omit [Field K] [LinearOrder K] [FloorRing K] [AddCommGroup V] [Module K V] [AddCommGroup P] [Module K P] in
theorem record_move {A : ℕ → Prop} {s : HS K V P Z} {o : Obj K V P Z} (ht : Top A bs s o) {h : List (Cell K V P Z)}
    (hA : ∀ i, A i → h[i]? = s.heap[i]?) : Record s { s with heap := h } := by
  refine ⟨List.prefix_refl _, List.prefix_refl _, fun q hq => ?_, fun q hq => ?_, fun l hl => ?_⟩
  · obtain ⟨v, h⟩ := forall₂_left ht.states hq
    exact fixed_move hA h.1.1
  · obtain ⟨v, h⟩ := forall₂_left ht.states hq
    exact fixed_move hA h.2.1
  · obtain ⟨v, h⟩ := forall₂_left ht.meas hl
    exact fixed_move hA h.1

/-- The invariant along a history. -/
theorem exec_top {s s' : HS K V P Z} {A A' : ℕ → Prop} {ops : List (COp K V P Z)} {fl : List Bool}
    (h : Exec inv argsort pr bs s A ops fl s' A') : ∀ o, Top A bs s o →
    ∃ o', play inv argsort pr o ops = some (o', fl) ∧ Top A' bs s' o' ∧ Record s s' := by
  induction h with
  | nil s A =>
    intro o ht
    exact ⟨o, rfl, ht, record_call ht (F.refl _ _)⟩
  | outside s A h os fl s' A' hlen hA _ ih =>
    intro o ht
    obtain ⟨o', h1, h2, h3⟩ := ih o (ht.move hlen hA)
    exact ⟨o', h1, h2, (record_move ht hA).trans h3⟩
  | ended s A x v s1 os fl s' A' hx hc _ ih =>
    intro o ht
    obtain ⟨h1, h2, h3⟩ := top_call (inv := inv) (argsort := argsort) (pr := pr) ht hx
    rw [hc] at h1 h2 h3
    rcases hv : call inv argsort pr v o with ⟨o1, r⟩
    rw [hv] at h1 h3
    obtain ⟨o', h4, h5, h6⟩ := ih o1 h1
    refine ⟨o', ?_, h5, (record_call ht h2).trans h6⟩
    unfold play
    rw [hv]
    cases r with
    | ok a => dsimp only; rw [h4]; rfl
    | raised => exact h3.elim
    | nan => exact h3.elim
  | raised s A x v s1 os fl s' A' hx hc _ ih =>
    intro o ht
    obtain ⟨h1, h2, h3⟩ := top_call (inv := inv) (argsort := argsort) (pr := pr) ht hx
    rw [hc] at h1 h2 h3
    rcases hv : call inv argsort pr v o with ⟨o1, r⟩
    rw [hv] at h1 h3
    obtain ⟨o', h4, h5, h6⟩ := ih o1 h1
    refine ⟨o', ?_, h5, (record_call ht h2).trans h6⟩
    unfold play
    rw [hv]
    cases r with
    | ok a => exact h3.elim
    | raised => dsimp only; rw [h4]; rfl
    | nan => exact h3.elim

end run

/-! ### The constructor -/

theorem copyAll_grow {α : Type*} {sel : Cell K V P Z → Option α} {mk : α → Cell K V P Z} (hs : ∀ x, sel (mk x) = some x) :
    ∀ {rs : List ℕ} {xs : List α} {s : HS K V P Z}, List.Forall₂ (fun r x => s.heap[r]? = some (mk x)) rs xs →
    ∃ e l, copyAll sel mk rs s = ({ s with heap := s.heap ++ e }, .ok l) ∧
      List.Forall₂ (fun r x => (s.heap ++ e)[r]? = some (mk x)) l xs ∧ ∀ r ∈ l, s.heap.length ≤ r
  | _, _, s, .nil => ⟨[], [], by simp [copyAll, done], .nil, fun r hr => nomatch hr⟩
  | r :: rs, x :: xs, s, .cons h1 h2 => by
    obtain ⟨e, l, h3, h4, h5⟩ := copyAll_grow hs (s := { s with heap := s.heap ++ [mk x] })
      (h2.imp fun r x hx => (get_append_left (lt_of_get hx)).trans hx)
    refine ⟨mk x :: e, s.heap.length :: l, ?_, .cons (by simp) ?_, ?_⟩
    · unfold copyAll andThen Gasur.PhdHeap.get new
      rw [h1, Option.bind_some, hs]
      dsimp only
      rw [h3]
      simp [done]
    · simpa using h4
    · intro q hq
      rcases List.mem_cons.1 hq with rfl | hq
      · exact le_rfl
      · have := h5 q hq
        simp at this
        omega

theorem listReads_append {α : Type*} {h : List (Cell K V P Z)} {mk : α → Cell K V P Z} {l : ℕ} {xs : List α}
    (hl : ListReads h mk l xs) (e : List (Cell K V P Z)) : ListReads (h ++ e) mk l xs := by
  obtain ⟨rs, h1, h2⟩ := hl
  exact ⟨rs, (get_append_left (lt_of_get h1)).trans h1, h2.imp fun r x hx => (get_append_left (lt_of_get hx)).trans hx⟩

theorem mixReads_append {h : List (Cell K V P Z)} {b : HMix} {v : Mix K V P} (hb : MixReads h b v) (e : List (Cell K V P Z)) :
    MixReads (h ++ e) b v :=
  ⟨(get_append_left (lt_of_get hb.1)).trans hb.1, listReads_append hb.2.1 e, listReads_append hb.2.2 e⟩

/-- A list with its arrays made at position `n` or later. -/
def NewList {α : Type*} (n : ℕ) (h : List (Cell K V P Z)) (mk : α → Cell K V P Z) (l : ℕ) (xs : List α) : Prop :=
  IsList h (fun i => n ≤ i) mk l xs

theorem newList_append {α : Type*} {n : ℕ} {h : List (Cell K V P Z)} {mk : α → Cell K V P Z} {l : ℕ} {xs : List α}
    (hl : NewList n h mk l xs) (e : List (Cell K V P Z)) : NewList n (h ++ e) mk l xs := by
  obtain ⟨h0, rs, h1, h2, h3⟩ := hl
  exact ⟨h0, rs, (get_append_left (lt_of_get h1)).trans h1,
    h2.imp fun r x hx => (get_append_left (lt_of_get hx)).trans hx, h3⟩

theorem copyBirths_ok (n : ℕ) : ∀ {bl : List HMix} {vl : List (Mix K V P)} {s : HS K V P Z}, n ≤ s.heap.length →
    List.Forall₂ (MixReads s.heap) bl vl →
    ∃ e l, copyBirths bl s = ({ s with heap := s.heap ++ e }, .ok l) ∧
      List.Forall₂ (fun b v => n ≤ b.w ∧ (s.heap ++ e)[b.w]? = some (Cell.nums v.ws) ∧
        NewList n (s.heap ++ e) Cell.vec b.m v.ms ∧ NewList n (s.heap ++ e) Cell.mat b.p v.ps) l vl
  | _, _, s, _, .nil => ⟨[], [], by simp [copyBirths, done], .nil⟩
  | b :: bl, v :: vl, s, hn, .cons h1 h2 => by
    obtain ⟨hw, ⟨rm, hm, hm'⟩, ⟨rp, hp, hp'⟩⟩ := h1
    obtain ⟨e1, cm, k1, k2, k3⟩ := copyAll_grow (sel := Cell.vec?) (fun _ => rfl) hm'
    obtain ⟨e2, cp, k4, k5, k6⟩ := copyAll_grow (sel := Cell.mat?) (fun _ => rfl) (s := { s with heap := s.heap ++ e1 })
      (hp'.imp fun r x hx => (get_append_left (lt_of_get hx)).trans hx)
    dsimp only at k4 k5 k6
    have h2' : List.Forall₂ (MixReads (s.heap ++ e1 ++ e2 ++ [.nums v.ws] ++ [.refs cm] ++ [.refs cp])) bl vl := by
      refine h2.imp fun b v hb => ?_
      simp only [List.append_assoc]
      exact mixReads_append hb _
    obtain ⟨e, l, k7, k8⟩ := copyBirths_ok n
      (s := { s with heap := s.heap ++ e1 ++ e2 ++ [.nums v.ws] ++ [.refs cm] ++ [.refs cp] }) (by simp; omega) h2'
    refine ⟨e1 ++ e2 ++ [.nums v.ws] ++ [.refs cm] ++ [.refs cp] ++ e,
      ⟨(s.heap ++ e1 ++ e2).length, (s.heap ++ e1 ++ e2 ++ [Cell.nums (V := V) (P := P) (Z := Z) v.ws]).length,
        (s.heap ++ e1 ++ e2 ++ [Cell.nums (V := V) (P := P) (Z := Z) v.ws] ++ [Cell.refs cm]).length⟩ :: l, ?_, .cons ⟨?_, ?_, ?_, ?_⟩ ?_⟩
    · unfold copyBirths andThen Gasur.PhdHeap.get
      rw [hw]
      dsimp only [Option.bind_some, Cell.nums?]
      rw [hm]
      dsimp only [Option.bind_some, Cell.refs?]
      rw [hp]
      dsimp only [Option.bind_some, Cell.refs?]
      rw [k1]
      dsimp only
      rw [k4]
      dsimp only [new]
      rw [k7]
      simp [done]
    · simp; omega
    · have : (s.heap ++ (e1 ++ e2 ++ [.nums v.ws] ++ [.refs cm] ++ [.refs cp] ++ e)) =
          (s.heap ++ e1 ++ e2) ++ ([.nums v.ws] ++ [.refs cm] ++ [.refs cp] ++ e) := by simp
      rw [this]
      simp
    · refine ⟨?_, cm, ?_, k2.imp fun r x hx => ?_, fun r hr => hn.trans (k3 r hr)⟩
      · simp; omega
      · simp only [List.append_assoc]
        rw [← List.append_assoc s.heap, ← List.append_assoc (s.heap ++ e1), ← List.append_assoc (s.heap ++ e1 ++ e2)]
        simp
      · rw [show s.heap ++ (e1 ++ e2 ++ [.nums v.ws] ++ [.refs cm] ++ [.refs cp] ++ e) =
          (s.heap ++ e1) ++ (e2 ++ [.nums v.ws] ++ [.refs cm] ++ [.refs cp] ++ e) by simp]
        exact (get_append_left (lt_of_get hx)).trans hx
    · refine ⟨?_, cp, ?_, k5.imp fun r x hx => ?_, fun r hr => ?_⟩
      · simp; omega
      · rw [show s.heap ++ (e1 ++ e2 ++ [.nums v.ws] ++ [.refs cm] ++ [.refs cp] ++ e) =
          (s.heap ++ e1 ++ e2 ++ [.nums v.ws] ++ [.refs cm]) ++ ([.refs cp] ++ e) by simp]
        rw [List.getElem?_append_right (by simp)]
        simp
      · rw [show s.heap ++ (e1 ++ e2 ++ [.nums v.ws] ++ [.refs cm] ++ [.refs cp] ++ e) =
          (s.heap ++ e1 ++ e2) ++ ([.nums v.ws] ++ [.refs cm] ++ [.refs cp] ++ e) by simp]
        exact (get_append_left (lt_of_get hx)).trans hx
      · have := k6 r hr
        simp at this
        omega
    · simpa using k8

/-- The state after the constructor. -/
theorem construct_ok {h : List (Cell K V P Z)} {bl : List HMix} {bs : List (Mix K V P)} (hb : List.Forall₂ (MixReads h) bl bs) :
    ∃ s, construct h bl = (s, .ok ()) ∧ Top (fun i => h.length ≤ i ∧ i < s.heap.length) bs s fresh ∧
      h.length ≤ s.heap.length ∧ ∀ i, i < h.length → s.heap[i]? = h[i]? := by
  obtain ⟨e, l, k1, k2⟩ := copyBirths_ok h.length (s := ⟨h, ⟨0, 0, 0⟩, [], [], []⟩) le_rfl hb
  dsimp only at k1 k2
  have hH1 : h.length ≤ (h ++ e).length := by simp
  have hH2 : ∀ i, i < h.length → (h ++ e)[i]? = h[i]? := fun i hi => get_append_left hi
  generalize h ++ e = H at k1 k2 hH1 hH2
  have hc : construct h bl = (⟨H ++ [.nums [], .refs [], .refs []], ⟨H.length, H.length + 1, H.length + 2⟩, l, [], []⟩, .ok ()) := by
    unfold construct andThen
    rw [k1]
    simp [new, assign]
  have g0 : (H ++ [Cell.nums (V := V) (P := P) (Z := Z) ([] : List K), .refs [], .refs []])[H.length]? = some (.nums []) := by simp
  have g1 : (H ++ [Cell.nums (V := V) (P := P) (Z := Z) ([] : List K), .refs [], .refs []])[H.length + 1]? = some (.refs []) := by
    rw [List.getElem?_append_right (by omega), Nat.add_sub_cancel_left]; rfl
  have g2 : (H ++ [Cell.nums (V := V) (P := P) (Z := Z) ([] : List K), .refs [], .refs []])[H.length + 2]? = some (.refs []) := by
    rw [List.getElem?_append_right (by omega), Nat.add_sub_cancel_left]; rfl
  have gl : ∀ i, i < H.length → (H ++ [Cell.nums (V := V) (P := P) (Z := Z) ([] : List K), .refs [], .refs []])[i]? = H[i]? :=
    fun i hi => get_append_left hi
  have glen : (H ++ [Cell.nums (V := V) (P := P) (Z := Z) ([] : List K), .refs [], .refs []]).length = H.length + 3 := by simp
  have gnl : ∀ {α : Type _} {mk : α → Cell K V P Z} {l : ℕ} {xs : List α}, NewList h.length H mk l xs →
      NewList h.length (H ++ [Cell.nums (V := V) (P := P) (Z := Z) ([] : List K), .refs [], .refs []]) mk l xs :=
    fun hl => newList_append hl _
  have gnp : ∀ {l : ℕ} {xs : List P}, NewList h.length H Cell.mat l xs →
      NewList h.length (H ++ [Cell.nums (V := V) (P := P) (Z := Z) ([] : List K), .refs [], .refs []]) Cell.mat l xs :=
    fun hl => newList_append hl _
  generalize H ++ [Cell.nums (V := V) (P := P) (Z := Z) ([] : List K), .refs [], .refs []] = G at *
  refine ⟨_, hc, ?_, by dsimp only; omega, fun i hi => (gl i (by omega)).trans (hH2 i hi)⟩
  have hA : ∀ i, h.length ≤ i → (h.length ≤ i ∧ i < G.length) ∨ G.length ≤ i := by intro i hi; omega
  refine ⟨le_rfl, hA _ hH1, .inl (.inl rfl), .inl (.inr (.inl rfl)), .inl (.inr (.inr rfl)), g0,
    ⟨hA _ (by dsimp only; omega), [], g1, .nil, fun r hr => nomatch hr⟩,
    ⟨hA _ (by dsimp only; omega), [], g2, .nil, fun r hr => nomatch hr⟩, by simp, ?_, .nil, .nil⟩
  refine k2.imp fun b v hbv => ?_
  obtain ⟨h1, h2, h3, h4⟩ := hbv
  have h3' := lt_of_get h3.2.choose_spec.1
  have h4' := lt_of_get h4.2.choose_spec.1
  have h2' := lt_of_get h2
  exact ⟨hA _ h1, (gl _ h2').trans h2, by dsimp only; omega, ⟨(gnl h3).weak hA, by dsimp only; omega, by dsimp only; omega⟩,
    ⟨(gnp h4).weak hA, by dsimp only; omega, by dsimp only; omega⟩⟩

/-! ### The property -/

section main
variable [Field K] [LinearOrder K] [FloorRing K] [AddCommGroup V] [Module K V] [AddCommGroup P] [Module K P]
variable (inv : P → Option (V → K)) (argsort : List K → List ℕ) (pr : Params K) (h : List (Cell K V P Z)) (bl : List HMix)
variable (bs : List (Mix K V P))

/-- **C155**: whatever happens to the objects that the filter did not make (in between the calls, by whomever), what the filter
reports is what it would report for the values that the birth terms had when the filter was constructed and that the
measurements had when they were passed; calls raise exactly when they would raise there. -/
theorem C155_values_partial (hb : List.Forall₂ (MixReads h) bl bs) (s0 : HS K V P Z) (r0 : Res Unit)
    (h0 : construct h bl = (s0, r0)) (ops : List (COp K V P Z)) (fl : List Bool) (s : HS K V P Z) (A : ℕ → Prop)
    (hE : Exec inv argsort pr bs s0 (fun i => h.length ≤ i ∧ i < s0.heap.length) ops fl s A) :
    ∃ o, play inv argsort pr fresh ops = some (o, fl) ∧
      List.Forall₂ (fun q v => ListReads s.heap Cell.vec q.1 v.1 ∧ ListReads s.heap Cell.mat q.2 v.2) s.states o.states ∧
      List.Forall₂ (ListReads s.heap Cell.obs) s.meas o.meas ∧
      MixReads s.heap s.mix o.mix ∧
      ∀ x v, SameOp bs s.heap x v →
        RelRes (fun _ _ => True) (hcall inv argsort pr x s).2 (call inv argsort pr v o).2 := by
  obtain ⟨s1, h1, ht, _⟩ := construct_ok hb
  rw [h0] at h1
  obtain ⟨rfl, _⟩ := Prod.mk.inj h1
  obtain ⟨o, h2, h3, _⟩ := exec_top hE _ ht
  have hL : ∀ {α : Type _} {A : ℕ → Prop} {mk : α → Cell K V P Z} {l : ℕ} {xs : List α}, IsList s.heap A mk l xs →
      ListReads s.heap mk l xs := fun ⟨_, rs, h, h', _⟩ => ⟨rs, h, h'⟩
  have hLp : ∀ {A : ℕ → Prop} {l : ℕ} {xs : List P}, IsList s.heap A Cell.mat l xs →
      ListReads s.heap Cell.mat l xs := fun ⟨_, rs, h, h', _⟩ => ⟨rs, h, h'⟩
  have hLz : ∀ {A : ℕ → Prop} {l : ℕ} {xs : List Z}, IsList s.heap A Cell.obs l xs →
      ListReads s.heap Cell.obs l xs := fun ⟨_, rs, h, h', _⟩ => ⟨rs, h, h'⟩
  exact ⟨o, h2, h3.states.imp fun q v hq => ⟨hL hq.1.1, hLp hq.2.1⟩, h3.meas.imp fun l v hl => hLz hl.1,
    ⟨h3.ws, hL h3.ms, hLp h3.ps⟩, fun x v hx => (top_call h3 hx).2.2⟩

/-- **C155**: no call changes an object that the filter did not make: the birth terms and measurements of the caller, their lists
and arrays stay as they are. -/
theorem C155_caller (hb : List.Forall₂ (MixReads h) bl bs) (s0 : HS K V P Z) (r0 : Res Unit)
    (h0 : construct h bl = (s0, r0)) (ops : List (COp K V P Z)) (fl : List Bool) (s : HS K V P Z) (A : ℕ → Prop)
    (hE : Exec inv argsort pr bs s0 (fun i => h.length ≤ i ∧ i < s0.heap.length) ops fl s A) :
    (r0 = .ok () ∧ ∀ i, i < h.length → s0.heap[i]? = h[i]?) ∧
    ∀ x v, SameOp bs s.heap x v → ∀ i, i < s.heap.length → ¬ A i → (hcall inv argsort pr x s).1.heap[i]? = s.heap[i]? := by
  obtain ⟨s1, h1, ht, h2, h3⟩ := construct_ok hb
  rw [h0] at h1
  obtain ⟨rfl, rfl⟩ := Prod.mk.inj h1
  refine ⟨⟨rfl, h3⟩, fun x v hx i hi hA => ?_⟩
  obtain ⟨o, _, h5, _⟩ := exec_top hE _ ht
  refine (top_call (inv := inv) (argsort := argsort) (pr := pr) h5 hx).2.1.frame i ?_
  have hAi : ¬ (ctxOf A s).A i := by
    rintro (h | h)
    · exact hA h
    · omega
  rintro ((rfl | rfl | rfl) | h)
  · exact hAi h5.Aw
  · exact hAi h5.ms.1
  · exact hAi h5.ps.1
  · omega

/-- **C155**: what has been reported stays as it is: later calls only append to the record, and the lists and arrays in it never
change. -/
theorem C155_record (hb : List.Forall₂ (MixReads h) bl bs) (s0 : HS K V P Z) (r0 : Res Unit)
    (h0 : construct h bl = (s0, r0)) (ops : List (COp K V P Z)) (fl : List Bool) (s : HS K V P Z) (A : ℕ → Prop)
    (hE : Exec inv argsort pr bs s0 (fun i => h.length ≤ i ∧ i < s0.heap.length) ops fl s A)
    (ops' : List (COp K V P Z)) (fl' : List Bool) (s' : HS K V P Z) (A' : ℕ → Prop)
    (hE' : Exec inv argsort pr bs s A ops' fl' s' A') :
    (s.states <+: s'.states ∧ s.meas <+: s'.meas) ∧
    ∀ l, (l ∈ s.meas ∨ ∃ q ∈ s.states, l = q.1 ∨ l = q.2) →
      s'.heap[l]? = s.heap[l]? ∧ ∀ rs, s.heap[l]? = some (.refs rs) → ∀ r ∈ rs, s'.heap[r]? = s.heap[r]? := by
  obtain ⟨s1, h1, ht, h2, h3⟩ := construct_ok hb
  rw [h0] at h1
  obtain ⟨rfl, rfl⟩ := Prod.mk.inj h1
  obtain ⟨o, _, h5, _⟩ := exec_top hE _ ht
  obtain ⟨o', _, _, h6⟩ := exec_top hE' _ h5
  refine ⟨⟨h6.states, h6.meas⟩, ?_⟩
  rintro l (hl | ⟨q, hq, rfl | rfl⟩)
  · exact h6.obs l hl
  · exact h6.fst q hq
  · exact h6.snd q hq

end main

/-! ### Example and counterexample -/

/-- Several calls that end normally. -/
def calls (s : HS ℚ ℚ ℚ ℚ) : List (HOp ℚ ℚ ℚ ℚ) → Option (HS ℚ ℚ ℚ ℚ)
  | [] => some s
  | x :: xs =>
    match hcall exInv exSort exCrashPr x s with
    | (s', .ok _) => calls s' xs
    | _ => none

/-- The reported means. -/
def reported (s : HS ℚ ℚ ℚ ℚ) : List (List (Option ℚ)) :=
  s.states.map fun q => (((s.heap[q.1]?).bind Cell.refs?).getD []).map fun r => (s.heap[r]?).bind Cell.vec?

/-- The heap of the caller: one birth term and two lists of measurements. -/
def exHeap : List (Cell ℚ ℚ ℚ ℚ) :=
  [.vec 0, .mat 1, .nums [1], .refs [0], .refs [1], .obs 1, .refs [5], .obs 2, .refs [7]]

theorem exHeap_births : List.Forall₂ (MixReads exHeap) [⟨2, 3, 4⟩] [⟨[1], [0], [1]⟩] :=
  .cons ⟨rfl, ⟨[0], rfl, .cons rfl .nil⟩, ⟨[1], rfl, .cons rfl .nil⟩⟩ .nil

/-- The state after the constructor and one round. -/
def exRound1 : Option (HS ℚ ℚ ℚ ℚ) :=
  calls (construct exHeap [⟨2, 3, 4⟩]).1 [.predict exPFilt, .correct exPFilt 6, .cleanup true true true true]

/-- A further round. -/
def exRound2 (s : HS ℚ ℚ ℚ ℚ) : Option (HS ℚ ℚ ℚ ℚ) :=
  calls s [.predict exPFilt, .correct exPFilt 8, .cleanup true true true true]

/-- **C155** fails for what the filter hands out: `states` returns the arrays of the mixture themselves. Here the caller writes
50 into the array it got from `states` after the first round; then the second round reports nothing where it reports a target without
the write, and the record of the first round has changed. -/
theorem C155_refuted : ∃ s : HS ℚ ℚ ℚ ℚ, exRound1 = some s ∧ s.states = [(34, 35)] ∧ (s.heap[34]?).bind Cell.refs? = some [29] ∧
    reported s = [[some (9 / 20)]] ∧
    (exRound2 s).map reported = some [[some (9 / 20)], [some (25249 / 23620)]] ∧
    (exRound2 { s with heap := s.heap.set 29 (.vec 50) }).map reported = some [[some 50], []] := by
  refine ⟨exRound1.get (by decide +kernel), by simp, ?_⟩
  decide +kernel

/-- Changes that the caller makes to its own birth term and to measurements it has passed. -/
def exOutside (s : HS ℚ ℚ ℚ ℚ) : HS ℚ ℚ ℚ ℚ :=
  { s with heap := (((s.heap.set 0 (.vec 50)).set 2 (.nums [7])).set 3 (.refs [])).set 5 (.obs 33) }

/-- The caller changes its own objects between the rounds; the second round reports the same. -/
example : ((exRound1.bind fun s => exRound2 (exOutside s)).map reported) = (exRound1.bind exRound2).map reported := by
  decide +kernel

deriving instance DecidableEq for Cell

/-- The call ended normally. -/
def endedOk : Res Unit → Bool
  | .ok _ => true
  | _ => false

theorem ended_ok {x : HOp ℚ ℚ ℚ ℚ} {s : HS ℚ ℚ ℚ ℚ} (h : endedOk (hcall exInv exSort exCrashPr x s).2 = true) :
    hcall exInv exSort exCrashPr x s = ((hcall exInv exSort exCrashPr x s).1, .ok ()) := by
  rcases hc : hcall exInv exSort exCrashPr x s with ⟨s', r⟩
  rw [hc] at h
  cases r with
  | ok a => rfl
  | raised => exact absurd h (by simp [endedOk])
  | nan => exact absurd h (by simp [endedOk])

/-- The state after the constructor, after `predict` and the changes of the caller, and after `correct`. -/
def exS0 : HS ℚ ℚ ℚ ℚ := (construct exHeap [⟨2, 3, 4⟩]).1

/-- See `exS0`. -/
def exS1 : HS ℚ ℚ ℚ ℚ := (hcall exInv exSort exCrashPr (.predict exPFilt) exS0).1

/-- See `exS0`: the caller overwrites its birth term and makes a new array. -/
def exS2 : HS ℚ ℚ ℚ ℚ := { exS1 with heap := exS1.heap.set 0 (.vec 50) ++ [.vec 7] }

/-- See `exS0`. -/
def exS3 : HS ℚ ℚ ℚ ℚ := (hcall exInv exSort exCrashPr (.correct exPFilt 6) exS2).1

/-- See `exS0`. -/
def exS4 : HS ℚ ℚ ℚ ℚ := (hcall exInv exSort exCrashPr (.cleanup true true true true) exS3).1

/-- A history as in the theorems: constructor, `predict`, changes by the caller, `correct`, `cleanup`. -/
example : (∃ A, Exec exInv exSort exCrashPr [⟨[1], [0], [1]⟩] exS0 (fun i => exHeap.length ≤ i ∧ i < exS0.heap.length)
      [.predict exPFilt [⟨[1], [0], [1]⟩], .correct exPFilt [1], .cleanup true true true true] [true, true, true] exS4 A) ∧
    reported exS4 = [[some (9 / 20)]] := by
  refine ⟨⟨_, .ended _ _ _ _ exS1 _ _ _ _ (.predict exPFilt) (ended_ok (by decide +kernel))
    (.outside _ _ exS2.heap _ _ _ _ (by decide +kernel) (fun i hi => ?_)
      (.ended _ _ _ _ exS3 _ _ _ _ (.correct exPFilt 6 [1] ⟨[5], by decide +kernel, .cons (by decide +kernel) .nil⟩)
        (ended_ok (s := exS2) (by decide +kernel))
        (.ended _ _ _ _ exS4 _ _ _ _ (.cleanup true true true true) (ended_ok (by decide +kernel)) (.nil _ _))))⟩,
    by decide +kernel⟩
  have h1 : 9 ≤ i := by
    rcases hi with hi | hi
    · exact hi.1
    · have : 9 ≤ exS0.heap.length := by decide +kernel
      omega
  have h2 : i < exS1.heap.length := by
    rcases hi with hi | hi
    · have : exS0.heap.length ≤ exS1.heap.length := by decide +kernel
      omega
    · exact hi.2
  unfold exS2
  dsimp only
  rw [get_append_left (by simpa using h2), set_other _ (by omega)]

end Gasur.Props.PhdHeap
