import Verif.Model.GlmbHeap
import Verif.Props.GlmbCoord

/-!
# Property C156: the GLMB filter and the arrays of the caller (lemmas)
-/

namespace Gasur.Props.GlmbHeap

open Gasur.Glmb Gasur.Spec Gasur.GlmbHeap

variable {K τ F S C Z : Type*} {α β γ : Type*}

/-- `m'` has all arrays of `m`, unchanged. -/
structure Le (m m' : Mem S C Z) : Prop where
  ns : m.ns ≤ m'.ns
  nc : m.nc ≤ m'.nc
  nz : m.nz ≤ m'.nz
  s : ∀ a < m.ns, m'.s a = m.s a
  c : ∀ a < m.nc, m'.c a = m.c a
  z : ∀ a < m.nz, m'.z a = m.z a

theorem Le.refl (m : Mem S C Z) : Le m m := ⟨le_rfl, le_rfl, le_rfl, fun _ _ => rfl, fun _ _ => rfl, fun _ _ => rfl⟩

theorem Le.trans {m m' m'' : Mem S C Z} (h : Le m m') (h' : Le m' m'') : Le m m'' :=
  ⟨h.ns.trans h'.ns, h.nc.trans h'.nc, h.nz.trans h'.nz,
    fun a ha => (h'.s a (ha.trans_le h.ns)).trans (h.s a ha),
    fun a ha => (h'.c a (ha.trans_le h.nc)).trans (h.c a ha),
    fun a ha => (h'.z a (ha.trans_le h.nz)).trans (h.z a ha)⟩

/-- Facts about new state arrays. -/
structure NewS (m : Mem S C Z) (l : List S) (x : Mem S C Z × List ℕ) : Prop where
  le : Le m x.1
  val : x.2.map x.1.s = l
  rng : ∀ a ∈ x.2, m.ns ≤ a ∧ a < x.1.ns
  nc : x.1.nc = m.nc
  nz : x.1.nz = m.nz
  len : x.1.ns = m.ns + l.length

theorem newS_ok (l : List S) : ∀ m : Mem S C Z, NewS m l (newS m l) := by
  induction l with
  | nil => exact fun m => ⟨Le.refl m, rfl, by simp [newS], rfl, rfl, rfl⟩
  | cons v l ih =>
    intro m
    have h := ih { m with s := Function.update m.s m.ns v, ns := m.ns + 1 }
    have h0 : Le m { m with s := Function.update m.s m.ns v, ns := m.ns + 1 } :=
      ⟨Nat.le_succ _, le_rfl, le_rfl, fun a ha => Function.update_of_ne ha.ne _ _, fun _ _ => rfl, fun _ _ => rfl⟩
    refine ⟨h0.trans h.le, ?_, ?_, h.nc, h.nz, ?_⟩
    · show _ :: _ = _
      rw [show (newS m (v :: l)).1 = (newS { m with s := Function.update m.s m.ns v, ns := m.ns + 1 } l).1 from rfl]
      rw [h.val, h.le.s m.ns (Nat.lt_succ_self _)]
      simp
    · intro a ha
      rcases List.mem_cons.1 ha with rfl | ha
      · exact ⟨le_rfl, Nat.lt_of_succ_le h.le.ns⟩
      · exact ⟨(Nat.le_succ _).trans (h.rng a ha).1, (h.rng a ha).2⟩
    · have := h.len
      show (newS { m with s := Function.update m.s m.ns v, ns := m.ns + 1 } l).1.ns = _
      rw [this, List.length_cons]
      show m.ns + 1 + _ = _
      omega

/-- Facts about new covariance arrays. -/
structure NewC (m : Mem S C Z) (l : List C) (x : Mem S C Z × List ℕ) : Prop where
  le : Le m x.1
  val : x.2.map x.1.c = l
  rng : ∀ a ∈ x.2, m.nc ≤ a ∧ a < x.1.nc
  ns : x.1.ns = m.ns
  nz : x.1.nz = m.nz

theorem newC_ok (l : List C) : ∀ m : Mem S C Z, NewC m l (newC m l) := by
  induction l with
  | nil => exact fun m => ⟨Le.refl m, rfl, by simp [newC], rfl, rfl⟩
  | cons v l ih =>
    intro m
    have h := ih { m with c := Function.update m.c m.nc v, nc := m.nc + 1 }
    have h0 : Le m { m with c := Function.update m.c m.nc v, nc := m.nc + 1 } :=
      ⟨le_rfl, Nat.le_succ _, le_rfl, fun _ _ => rfl, fun a ha => Function.update_of_ne ha.ne _ _, fun _ _ => rfl⟩
    refine ⟨h0.trans h.le, ?_, ?_, h.ns, h.nz⟩
    · show _ :: _ = _
      rw [show (newC m (v :: l)).1 = (newC { m with c := Function.update m.c m.nc v, nc := m.nc + 1 } l).1 from rfl]
      rw [h.val, h.le.c m.nc (Nat.lt_succ_self _)]
      simp
    · intro a ha
      rcases List.mem_cons.1 ha with rfl | ha
      · exact ⟨le_rfl, Nat.lt_of_succ_le h.le.nc⟩
      · exact ⟨(Nat.le_succ _).trans (h.rng a ha).1, (h.rng a ha).2⟩

/-- Facts about new measurement arrays. -/
structure NewZ (m : Mem S C Z) (l : List Z) (x : Mem S C Z × List ℕ) : Prop where
  le : Le m x.1
  val : x.2.map x.1.z = l
  rng : ∀ a ∈ x.2, m.nz ≤ a ∧ a < x.1.nz
  ns : x.1.ns = m.ns
  nc : x.1.nc = m.nc

theorem newZ_ok (l : List Z) : ∀ m : Mem S C Z, NewZ m l (newZ m l) := by
  induction l with
  | nil => exact fun m => ⟨Le.refl m, rfl, by simp [newZ], rfl, rfl⟩
  | cons v l ih =>
    intro m
    have h := ih { m with z := Function.update m.z m.nz v, nz := m.nz + 1 }
    have h0 : Le m { m with z := Function.update m.z m.nz v, nz := m.nz + 1 } :=
      ⟨le_rfl, le_rfl, Nat.le_succ _, fun _ _ => rfl, fun _ _ => rfl, fun a ha => Function.update_of_ne ha.ne _ _⟩
    refine ⟨h0.trans h.le, ?_, ?_, h.ns, h.nc⟩
    · show _ :: _ = _
      rw [show (newZ m (v :: l)).1 = (newZ { m with z := Function.update m.z m.nz v, nz := m.nz + 1 } l).1 from rfl]
      rw [h.val, h.le.z m.nz (Nat.lt_succ_self _)]
      simp
    · intro a ha
      rcases List.mem_cons.1 ha with rfl | ha
      · exact ⟨le_rfl, Nat.lt_of_succ_le h.le.nz⟩
      · exact ⟨(Nat.le_succ _).trans (h.rng a ha).1, (h.rng a ha).2⟩

/-! ### Which references an object holds -/

/-- References to states satisfy `P`, references to covariances `Q`. -/
structure EIn (P Q : ℕ → Prop) (e : Entry K τ F ℕ ℕ) : Prop where
  s : ∀ l ∈ e.sHist, ∀ a ∈ l, P a
  c : ∀ l ∈ e.cHist, ∀ a ∈ l, Q a

/-- The same for extraction histories. -/
structure XIn (P Q : ℕ → Prop) (e : Ext τ ℕ ℕ) : Prop where
  s : ∀ a ∈ e.states, P a
  c : ∀ a ∈ e.covs, Q a

/-- The same for the filter state. -/
structure StIn (P Q : ℕ → Prop) (s : St K τ F ℕ ℕ) : Prop where
  tab : ∀ e ∈ s.tab, EIn P Q e
  ext : ∀ e ∈ s.ext, XIn P Q e
  states : ∀ l ∈ s.states, ∀ a ∈ l, P a
  covs : ∀ l ∈ s.covs, ∀ a ∈ l, Q a

variable {P Q P' Q' : ℕ → Prop} {m m' m'' : Mem S C Z}

theorem maps_congr {f g : ℕ → α} {L : List (List ℕ)} (h : ∀ l ∈ L, ∀ a ∈ l, P a) (hf : ∀ a, P a → f a = g a) :
    L.map (List.map f) = L.map (List.map g) :=
  List.map_congr_left fun l hl => List.map_congr_left fun a ha => hf a (h l hl a ha)

theorem readEntry_congr {e : Entry K τ F ℕ ℕ} (h : EIn P Q e) (hs : ∀ a, P a → m.s a = m'.s a)
    (hc : ∀ a, Q a → m.c a = m'.c a) : readEntry m e = readEntry m' e := by
  unfold readEntry
  rw [maps_congr h.s hs, maps_congr h.c hc]

theorem readExt_congr {e : Ext τ ℕ ℕ} (h : XIn P Q e) (hs : ∀ a, P a → m.s a = m'.s a)
    (hc : ∀ a, Q a → m.c a = m'.c a) : readExt m e = readExt m' e := by
  unfold readExt
  rw [List.map_congr_left fun a ha => hs a (h.s a ha), List.map_congr_left fun a ha => hc a (h.c a ha)]

theorem readSt_congr {s : St K τ F ℕ ℕ} (h : StIn P Q s) (hs : ∀ a, P a → m.s a = m'.s a)
    (hc : ∀ a, Q a → m.c a = m'.c a) : readSt m s = readSt m' s := by
  unfold readSt
  rw [maps_congr h.states hs, maps_congr h.covs hc, List.map_congr_left fun e he => readEntry_congr (h.tab e he) hs hc,
    List.map_congr_left fun e he => readExt_congr (h.ext e he) hs hc]

theorem EIn.mono {e : Entry K τ F ℕ ℕ} (h : EIn P Q e) (hP : ∀ a, P a → P' a) (hQ : ∀ a, Q a → Q' a) : EIn P' Q' e :=
  ⟨fun l hl a ha => hP a (h.s l hl a ha), fun l hl a ha => hQ a (h.c l hl a ha)⟩

theorem XIn.mono {e : Ext τ ℕ ℕ} (h : XIn P Q e) (hP : ∀ a, P a → P' a) (hQ : ∀ a, Q a → Q' a) : XIn P' Q' e :=
  ⟨fun a ha => hP a (h.s a ha), fun a ha => hQ a (h.c a ha)⟩

theorem StIn.mono {s : St K τ F ℕ ℕ} (h : StIn P Q s) (hP : ∀ a, P a → P' a) (hQ : ∀ a, Q a → Q' a) : StIn P' Q' s :=
  ⟨fun e he => (h.tab e he).mono hP hQ, fun e he => (h.ext e he).mono hP hQ,
    fun l hl a ha => hP a (h.states l hl a ha), fun l hl a ha => hQ a (h.covs l hl a ha)⟩

/-! ### Functions that only move references -/

/-- Forgetting that references satisfy `P` and `Q`. -/
def forget (P Q : ℕ → Prop) : Coords τ F {a // P a} {a // Q a} Z τ F ℕ ℕ Z :=
  { t := id, f := id, s := Subtype.val, c := Subtype.val, z := id }

/-- Reading, as a change of coordinates. -/
def look (m : Mem S C Z) : Coords τ F ℕ ℕ Z τ F S C Z := { t := id, f := id, s := m.s, c := m.c, z := id }

theorem lift_list {f : α → β} : ∀ {l : List β}, (∀ b ∈ l, ∃ a, f a = b) → ∃ l0 : List α, l0.map f = l
  | [], _ => ⟨[], rfl⟩
  | b :: l, h => by
    obtain ⟨a, ha⟩ := h b (by simp)
    obtain ⟨l0, h0⟩ := lift_list (l := l) fun b hb => h b (by simp [hb])
    exact ⟨a :: l0, by rw [List.map_cons, ha, h0]⟩

theorem lift_refs {l : List ℕ} (h : ∀ a ∈ l, P a) : ∃ l0 : List {a // P a}, l0.map Subtype.val = l :=
  lift_list fun a ha => ⟨⟨a, h a ha⟩, rfl⟩

theorem lift_refss {L : List (List ℕ)} (h : ∀ l ∈ L, ∀ a ∈ l, P a) :
    ∃ L0 : List (List {a // P a}), L0.map (List.map Subtype.val) = L :=
  lift_list fun l hl => lift_refs (h l hl)

theorem entry_lift {e : Entry K τ F ℕ ℕ} : EIn P Q e ↔ ∃ e0, (forget P Q : Coords τ F _ _ Z τ F _ _ Z).entry e0 = e := by
  constructor
  · intro h
    obtain ⟨s0, hs⟩ := lift_refss h.s
    obtain ⟨c0, hc⟩ := lift_refss h.c
    exact ⟨⟨e.label, e.wHist, e.fStates, e.mHist, s0, c0, e.tIdx⟩, by simp [Coords.entry, forget, hs, hc]⟩
  · rintro ⟨e0, rfl⟩
    constructor
    · intro l hl a ha
      simp only [Coords.entry, forget, List.mem_map] at hl
      obtain ⟨l0, -, rfl⟩ := hl
      obtain ⟨x, -, rfl⟩ := List.mem_map.1 ha
      exact x.2
    · intro l hl a ha
      simp only [Coords.entry, forget, List.mem_map] at hl
      obtain ⟨l0, -, rfl⟩ := hl
      obtain ⟨x, -, rfl⟩ := List.mem_map.1 ha
      exact x.2

theorem ext_lift {e : Ext τ ℕ ℕ} : XIn P Q e ↔ ∃ e0, (forget P Q : Coords τ F _ _ Z τ F _ _ Z).ext e0 = e := by
  constructor
  · intro h
    obtain ⟨s0, hs⟩ := lift_refs h.s
    obtain ⟨c0, hc⟩ := lift_refs h.c
    exact ⟨{ label := e.label, mHist := e.mHist, states := s0, covs := c0, tIdx := e.tIdx },
      by simp [Coords.ext, forget, hs, hc]⟩
  · rintro ⟨e0, rfl⟩
    constructor
    · intro a ha
      simp only [Coords.ext, forget, List.mem_map] at ha
      obtain ⟨x, -, rfl⟩ := ha
      exact x.2
    · intro a ha
      simp only [Coords.ext, forget, List.mem_map] at ha
      obtain ⟨x, -, rfl⟩ := ha
      exact x.2

theorem st_lift {s : St K τ F ℕ ℕ} : StIn P Q s ↔ ∃ s0, (forget P Q : Coords τ F _ _ Z τ F _ _ Z).st s0 = s := by
  constructor
  · intro h
    obtain ⟨t0, ht⟩ := lift_list fun e he => (entry_lift (Z := Z)).1 (h.tab e he)
    obtain ⟨x0, hx⟩ := lift_list fun e he => (ext_lift (Z := Z) (F := F)).1 (h.ext e he)
    obtain ⟨s0, hs⟩ := lift_refss h.states
    obtain ⟨c0, hc⟩ := lift_refss h.covs
    exact ⟨⟨t0, s.hyps, s.card, s.cntr, x0, s0, s.labels, c0⟩, by simp only [Coords.st, ht, hx]; simp [forget, hs, hc]⟩
  · rintro ⟨s0, rfl⟩
    refine ⟨fun e he => ?_, fun e he => ?_, fun l hl a ha => ?_, fun l hl a ha => ?_⟩
    · obtain ⟨e0, -, rfl⟩ := List.mem_map.1 he
      exact (entry_lift (Z := Z)).2 ⟨e0, rfl⟩
    · obtain ⟨e0, -, rfl⟩ := List.mem_map.1 he
      exact (ext_lift (Z := Z) (F := F)).2 ⟨e0, rfl⟩
    · obtain ⟨e0, -, rfl⟩ := List.mem_map.1 hl
      obtain ⟨x, -, rfl⟩ := List.mem_map.1 ha
      exact x.2
    · obtain ⟨e0, -, rfl⟩ := List.mem_map.1 hl
      obtain ⟨x, -, rfl⟩ := List.mem_map.1 ha
      exact x.2

theorem look_entry (m : Mem S C Z) : (readEntry m : Entry K τ F ℕ ℕ → _) = (look m : Coords τ F ℕ ℕ Z τ F S C Z).entry := by
  funext e
  simp [readEntry, Coords.entry, look]

theorem look_ext (m : Mem S C Z) : (readExt m : Ext τ ℕ ℕ → _) = (look m : Coords τ F ℕ ℕ Z τ F S C Z).ext := by
  funext e
  simp [readExt, Coords.ext, look]

theorem look_st (m : Mem S C Z) : (readSt m : St K τ F ℕ ℕ → _) = (look m : Coords τ F ℕ ℕ Z τ F S C Z).st := by
  funext s
  unfold readSt Coords.st
  rw [look_entry, look_ext (F := F)]
  simp [look]

/-! ### Functions that make arrays -/

/-- A kind of object with references: how it is read and which references it holds. -/
structure Obj (S C Z β γ : Type*) where
  rd : Mem S C Z → β → γ
  inn : (ℕ → Prop) → (ℕ → Prop) → β → Prop
  congr : ∀ {P Q : ℕ → Prop} {b : β} {m m' : Mem S C Z}, inn P Q b → (∀ a, P a → m.s a = m'.s a) →
    (∀ a, Q a → m.c a = m'.c a) → rd m b = rd m' b
  mono : ∀ {P Q P' Q' : ℕ → Prop} {b : β}, inn P Q b → (∀ a, P a → P' a) → (∀ a, Q a → Q' a) → inn P' Q' b

/-- Lists of objects. -/
def Obj.list (o : Obj S C Z β γ) : Obj S C Z (List β) (List γ) where
  rd m l := l.map (o.rd m)
  inn P Q l := ∀ b ∈ l, o.inn P Q b
  congr h hs hc := List.map_congr_left fun b hb => o.congr (h b hb) hs hc
  mono h hP hQ := fun b hb => o.mono (h b hb) hP hQ

/-- Tracks. -/
def entryObj : Obj S C Z (Entry K τ F ℕ ℕ) (Entry K τ F S C) where
  rd := readEntry
  inn := EIn
  congr := readEntry_congr
  mono := EIn.mono

/-- Birth terms. -/
structure BIn (P Q : ℕ → Prop) (b : Birth K F ℕ ℕ) : Prop where
  s : ∀ a ∈ b.states, P a
  c : ∀ a ∈ b.covs, Q a

/-- Birth terms. -/
def birthObj : Obj S C Z (Birth K F ℕ ℕ) (Birth K F S C) where
  rd := readBirth
  inn := BIn
  congr h hs hc := by
    unfold readBirth
    rw [List.map_congr_left fun a ha => hs a (h.s a ha), List.map_congr_left fun a ha => hc a (h.c a ha)]
  mono h hP hQ := ⟨fun a ha => hP a (h.s a ha), fun a ha => hQ a (h.c a ha)⟩

/-- Corrected tracks, possibly missing, with their costs. -/
def corObj : Obj S C Z (Option (Entry K τ F ℕ ℕ) × K) (Option (Entry K τ F S C) × K) where
  rd m x := (x.1.map (readEntry m), x.2)
  inn P Q x := ∀ e, x.1 = some e → EIn P Q e
  congr {P Q b m m'} h hs hc := by
    obtain ⟨_ | e, k⟩ := b
    · rfl
    · show (some (readEntry m e), k) = (some (readEntry m' e), k)
      rw [readEntry_congr (h e rfl) hs hc]
  mono h hP hQ := fun e he => (h e he).mono hP hQ

/-- New references satisfy `P` and `Q`. -/
structure Fresh (m m' : Mem S C Z) (P Q : ℕ → Prop) : Prop where
  s : ∀ a, m.ns ≤ a → a < m'.ns → P a
  c : ∀ a, m.nc ≤ a → a < m'.nc → Q a

/-- Existing references. -/
def Bnd (m : Mem S C Z) : (ℕ → Prop) × (ℕ → Prop) := (fun a => a < m.ns, fun a => a < m.nc)

theorem fresh_bnd (m m' : Mem S C Z) : Fresh m m' (Bnd m').1 (Bnd m').2 := ⟨fun _ _ h => h, fun _ _ h => h⟩

theorem Fresh.left (h : Fresh m m'' P Q) (h2 : Le m' m'') : Fresh m m' P Q :=
  ⟨fun a h1 h3 => h.s a h1 (h3.trans_le h2.ns), fun a h1 h3 => h.c a h1 (h3.trans_le h2.nc)⟩

theorem Fresh.right (h : Fresh m m'' P Q) (h1 : Le m m') : Fresh m' m'' P Q :=
  ⟨fun a h2 h3 => h.s a (h1.ns.trans h2) h3, fun a h2 h3 => h.c a (h1.nc.trans h2) h3⟩

/-- `x` does with references what `y` does with values: same exception, or same value; old arrays are unchanged; the result holds
references of the inputs (`inp`) and new ones. -/
structure Outcome (o : Obj S C Z β γ) (m : Mem S C Z) (inp : (ℕ → Prop) → (ℕ → Prop) → Prop)
    (x : Except GErr (Mem S C Z × β)) (y : Except GErr γ) : Prop where
  err : ∀ e, x = .error e → y = .error e
  le : ∀ m' b, x = .ok (m', b) → Le m m'
  val : ∀ m' b, x = .ok (m', b) → y = .ok (o.rd m' b)
  refs : ∀ m' b, x = .ok (m', b) → ∀ P Q, Fresh m m' P Q → inp P Q → o.inn P Q b

theorem Outcome.bnd {o : Obj S C Z β γ} {inp : (ℕ → Prop) → (ℕ → Prop) → Prop} {x : Except GErr (Mem S C Z × β)}
    {y : Except GErr γ} (h : Outcome o m inp x y)
    (hm : ∀ {P Q P' Q' : ℕ → Prop}, inp P Q → (∀ a, P a → P' a) → (∀ a, Q a → Q' a) → inp P' Q')
    (hi : inp (Bnd m).1 (Bnd m).2) {b : β} (hx : x = .ok (m', b)) : o.inn (Bnd m').1 (Bnd m').2 b :=
  h.refs m' b hx _ _ (fresh_bnd m m') (hm hi (fun a ha => lt_of_lt_of_le (show a < m.ns from ha) (h.le _ _ hx).ns)
    fun a ha => lt_of_lt_of_le (show a < m.nc from ha) (h.le _ _ hx).nc)

theorem Outcome.error (o : Obj S C Z β γ) (m : Mem S C Z) (inp : (ℕ → Prop) → (ℕ → Prop) → Prop) (e : GErr) :
    Outcome o m inp (.error e) (.error e) :=
  ⟨fun e' h => by rw [Except.error.inj h], fun _ _ h => (nomatch h), fun _ _ h => (nomatch h), fun _ _ h => (nomatch h)⟩

theorem Obj.stable (o : Obj S C Z β γ) {b : β} (h : o.inn (Bnd m).1 (Bnd m).2 b) (hl : Le m m') : o.rd m' b = o.rd m b :=
  o.congr h (fun a ha => hl.s a ha) fun a ha => hl.c a ha

theorem thread_outcome {o : Obj S C Z β γ} {f : Mem S C Z → α → Except GErr (Mem S C Z × β)} {g : α → Except GErr γ}
    {inp : α → (ℕ → Prop) → (ℕ → Prop) → Prop}
    (hm : ∀ a {P Q P' Q' : ℕ → Prop}, inp a P Q → (∀ a, P a → P' a) → (∀ a, Q a → Q' a) → inp a P' Q') :
    ∀ (l : List α) (m : Mem S C Z), (∀ a ∈ l, inp a (Bnd m).1 (Bnd m).2) →
      (∀ m0 a, Le m m0 → a ∈ l → Outcome o m0 (inp a) (f m0 a) (g a)) →
      Outcome o.list m (fun P Q => ∀ a ∈ l, inp a P Q) (thread f m l) (traverseE g l) := by
  intro l
  induction l with
  | nil =>
    intro m _ _
    refine ⟨fun e h => (nomatch h), ?_, ?_, ?_⟩
    all_goals
      intro m' b h
      obtain ⟨rfl, rfl⟩ := Prod.mk.inj (Except.ok.inj h)
    · exact Le.refl _
    · rfl
    · intro _ _ _ _ b hb
      exact absurd hb (by simp)
  | cons a l ih =>
    intro m hin hf
    have h1 := hf m a (Le.refl m) (by simp)
    unfold thread traverseE
    cases hx : f m a with
    | error e =>
      refine ⟨?_, fun _ _ h => (nomatch h), fun _ _ h => (nomatch h), fun _ _ h => (nomatch h)⟩
      intro e' he
      rw [h1.err e hx]
      exact congrArg _ (Except.error.inj he)
    | ok mb =>
      obtain ⟨m1, b⟩ := mb
      have hle := h1.le _ _ hx
      have h2 := ih m1 (fun a' ha' => hm a' (hin a' (by simp [ha'])) (fun x hx => lt_of_lt_of_le hx hle.ns)
        fun x hx => lt_of_lt_of_le hx hle.nc) fun m0 a' h0 ha' => hf m0 a' (hle.trans h0) (by simp [ha'])
      rw [h1.val _ _ hx]
      dsimp only
      cases hy : thread f m1 l with
      | error e =>
        refine ⟨?_, fun _ _ h => (nomatch h), fun _ _ h => (nomatch h), fun _ _ h => (nomatch h)⟩
        intro e' he
        rw [h2.err e hy]
        exact congrArg _ (Except.error.inj he)
      | ok mr =>
        obtain ⟨m2, r⟩ := mr
        have hb := h1.bnd (hm a) (hin a (by simp)) hx
        have hle2 := h2.le _ _ hy
        refine ⟨fun e h => (nomatch h), ?_, ?_, ?_⟩
        all_goals
          intro m' b' h
          obtain ⟨rfl, rfl⟩ := Prod.mk.inj (Except.ok.inj h)
        · exact hle.trans hle2
        · rw [h2.val _ _ hy]
          show Except.ok (_ :: _) = Except.ok (_ :: _)
          rw [o.stable hb hle2]
          rfl
        · intro P Q hfr hi x hx'
          rcases List.mem_cons.1 hx' with rfl | hx'
          · exact h1.refs _ _ hx P Q (hfr.left hle2) (hi a (by simp))
          · exact h2.refs _ _ hy P Q (hfr.right hle) (fun a' ha' => hi a' (by simp [ha'])) x hx'

theorem copyBirth_outcome (b : Birth K F ℕ ℕ) (m0 m : Mem S C Z) (hl : Le m0 m) (hb : BIn (Bnd m0).1 (Bnd m0).2 b) :
    Outcome birthObj m (fun _ _ => True) (copyBirth m b) (.ok (readBirth m0 b)) := by
  have hS := newS_ok (b.states.map m.s) m
  have hC := newC_ok (b.covs.map m.c) (newS m (b.states.map m.s)).1
  refine ⟨fun e h => (nomatch h), ?_, ?_, ?_⟩
  all_goals
    intro m' b' h
    obtain ⟨rfl, rfl⟩ := Prod.mk.inj (Except.ok.inj h)
  · exact hS.le.trans hC.le
  · rw [show readBirth m0 b = readBirth m b from (birthObj.stable (b := b) hb hl).symm]
    show Except.ok (readBirth m b) = Except.ok (readBirth _ _)
    unfold readBirth
    dsimp only
    rw [hC.val, List.map_congr_left fun a ha => hC.le.s a (hS.rng a ha).2, hS.val]
  · intro P Q hfr _
    refine ⟨fun a ha => hfr.s a (hS.rng a ha).1 ?_, fun a ha => hfr.c a ?_ (hC.rng a ha).2⟩
    · have h2 : a < (newS m (b.states.map m.s)).1.ns := (hS.rng a ha).2
      exact lt_of_lt_of_le h2 hC.le.ns
    · rw [← hS.nc]
      exact (hC.rng a ha).1

theorem readEntry_last (m : Mem S C Z) (e : Entry K τ F ℕ ℕ) :
    (readEntry m e).sHist.getLast? = e.sHist.getLast?.map (List.map m.s) := by
  unfold readEntry
  exact List.getLast?_map

/-- The two lists of new arrays of a track. -/
theorem new_both (m : Mem S C Z) (ss : List S) (cs : List C) :
    Le m (newC (newS m ss).1 cs).1 ∧ (newS m ss).2.map (newC (newS m ss).1 cs).1.s = ss ∧
      (newC (newS m ss).1 cs).2.map (newC (newS m ss).1 cs).1.c = cs ∧
      ∀ P Q, Fresh m (newC (newS m ss).1 cs).1 P Q → (∀ a ∈ (newS m ss).2, P a) ∧ ∀ a ∈ (newC (newS m ss).1 cs).2, Q a := by
  have hS := newS_ok ss m
  have hC := newC_ok cs (newS m ss).1
  refine ⟨hS.le.trans hC.le, ?_, hC.val, fun P Q hfr => ⟨fun a ha => hfr.s a (hS.rng a ha).1 ?_, fun a ha =>
    hfr.c a ?_ (hC.rng a ha).2⟩⟩
  · rw [List.map_congr_left fun a ha => hC.le.s a (hS.rng a ha).2, hS.val]
  · exact lt_of_lt_of_le (hS.rng a ha).2 hC.le.ns
  · rw [← hS.nc]
    exact (hC.rng a ha).1

section field
variable [Field K] [LinearOrder K]

theorem hPredictEntry_outcome (env : Env K τ F S C Z) (e : Entry K τ F ℕ ℕ) (m0 m : Mem S C Z) (hl : Le m0 m)
    (he : EIn (Bnd m0).1 (Bnd m0).2 e) :
    Outcome entryObj m (fun P Q => EIn P Q e) (hPredictEntry env m e) (predictEntry env (readEntry m0 e)) := by
  rw [show readEntry m0 e = readEntry m e from (entryObj.stable (b := e) he hl).symm]
  have hbm : EIn (Bnd m).1 (Bnd m).2 e := he.mono (fun a h => lt_of_lt_of_le (show a < m0.ns from h) hl.ns)
    fun a h => lt_of_lt_of_le (show a < m0.nc from h) hl.nc
  unfold hPredictEntry predictEntry
  rw [readEntry_last]
  show Outcome entryObj m _ _ (match Option.map (List.map m.s) e.sHist.getLast?, e.wHist.getLast? with
    | some s, some w => _
    | _, _ => _)
  cases hs : e.sHist.getLast? with
  | none => exact Outcome.error _ _ _ _
  | some s =>
    cases hw : e.wHist.getLast? with
    | none => exact Outcome.error _ _ _ _
    | some w =>
      dsimp only [Option.map_some]
      by_cases hlen : e.fStates.length = s.length
      · have hlen' : (readEntry m e).fStates.length = (s.map m.s).length := by rw [List.length_map]; exact hlen
        rw [if_pos hlen, if_pos hlen']
        set rs := List.zipWith (fun f x => env.predF f (m.s x)) e.fStates s with hrs
        obtain ⟨h1, h2, h3, h4⟩ := new_both m (rs.map fun r => r.2.1) (rs.map fun r => r.2.2)
        refine ⟨fun e h => (nomatch h), ?_, ?_, ?_⟩
        all_goals
          intro m' b' h
          obtain ⟨rfl, rfl⟩ := Prod.mk.inj (Except.ok.inj h)
        · exact h1
        · show _ = Except.ok (readEntry _ _)
          rw [show List.zipWith (fun f x => (env.predF f x).1) (readEntry m e).fStates (s.map m.s) = rs.map fun r => r.1 by
              rw [hrs, List.map_zipWith, List.zipWith_map_right]; rfl,
            show List.zipWith (fun f x => (env.predF f x).2.1) (readEntry m e).fStates (s.map m.s) = rs.map fun r => r.2.1 by
              rw [hrs, List.map_zipWith, List.zipWith_map_right]; rfl,
            show List.zipWith (fun f x => (env.predF f x).2.2) (readEntry m e).fStates (s.map m.s) = rs.map fun r => r.2.2 by
              rw [hrs, List.map_zipWith, List.zipWith_map_right]; rfl]
          unfold readEntry
          dsimp only
          rw [List.map_append, List.map_append, List.map_singleton, List.map_singleton, h2, h3,
            maps_congr hbm.s fun a ha => h1.s a ha, maps_congr hbm.c fun a ha => h1.c a ha]
        · intro P Q hfr hi
          obtain ⟨g1, g2⟩ := h4 P Q hfr
          refine ⟨fun l hl => ?_, fun l hl => ?_⟩
          · rcases List.mem_append.1 hl with hl | hl
            · exact hi.s l hl
            · rw [List.mem_singleton.1 hl]
              exact g1
          · rcases List.mem_append.1 hl with hl | hl
            · exact hi.c l hl
            · rw [List.mem_singleton.1 hl]
              exact g2
      · have hlen' : ¬ (readEntry m e).fStates.length = (s.map m.s).length := by rw [List.length_map]; exact hlen
        rw [if_neg hlen, if_neg hlen']
        exact Outcome.error _ _ _ _

theorem hCorrectEntry_outcome (env : Env K τ F S C Z) (pr : Params K) (z : Z) (e : Entry K τ F ℕ ℕ) (m0 m : Mem S C Z)
    (hl : Le m0 m) (he : EIn (Bnd m0).1 (Bnd m0).2 e) :
    Outcome corObj m (fun P Q => EIn P Q e) (hCorrectEntry env pr z m e) (correctEntry env pr z (readEntry m0 e)) := by
  rw [show readEntry m0 e = readEntry m e from (entryObj.stable (b := e) he hl).symm]
  have hbm : EIn (Bnd m).1 (Bnd m).2 e := he.mono (fun a h => lt_of_lt_of_le (show a < m0.ns from h) hl.ns)
    fun a h => lt_of_lt_of_le (show a < m0.nc from h) hl.nc
  unfold hCorrectEntry correctEntry
  rw [readEntry_last]
  show Outcome corObj m _ _ (match Option.map (List.map m.s) e.sHist.getLast?, e.wHist.getLast? with
    | some s, some w => _
    | _, _ => _)
  cases hs : e.sHist.getLast? with
  | none => exact Outcome.error _ _ _ _
  | some s =>
    cases hw : e.wHist.getLast? with
    | none => exact Outcome.error _ _ _ _
    | some w =>
      dsimp only [Option.map_some]
      have hcond : ((readEntry m e).fStates.length = (s.map m.s).length ∧ (s.map m.s).length = w.length ∧
          (readEntry m e).cHist ≠ []) ↔ (e.fStates.length = s.length ∧ s.length = w.length ∧ e.cHist ≠ []) := by
        rw [List.length_map]
        simp [readEntry]
      by_cases hlen : e.fStates.length = s.length ∧ s.length = w.length ∧ e.cHist ≠ []
      · rw [if_pos hlen, if_pos (hcond.2 hlen)]
        show Outcome corObj m _ _ (match traverseE (fun x : F × S × K => optE (env.corF z x.1 x.2.1 x.2.2))
          (e.fStates.zip ((s.map m.s).zip w)) with
            | .error _ => _
            | .ok rs => _)
        cases hr : traverseE (fun x : F × S × K => optE (env.corF z x.1 x.2.1 x.2.2)) (e.fStates.zip ((s.map m.s).zip w)) with
        | error _ =>
          refine ⟨fun e h => (nomatch h), ?_, ?_, ?_⟩
          all_goals
            intro m' b' h
            obtain ⟨rfl, rfl⟩ := Prod.mk.inj (Except.ok.inj h)
          · exact Le.refl _
          · rfl
          · intro P Q _ _ e' he'
            exact (nomatch he')
        | ok rs =>
          dsimp only
          by_cases h0 : rs ≠ [] ∧ (rs.map fun r => r.2.2.2 + pr.eps).sum = 0
          · rw [if_pos h0, if_pos h0]
            exact Outcome.error _ _ _ _
          · rw [if_neg h0, if_neg h0]
            obtain ⟨h1, h2, h3, h4⟩ := new_both m (rs.map fun r => r.2.1) (rs.map fun r => r.2.2.1)
            refine ⟨fun e h => (nomatch h), ?_, ?_, ?_⟩
            all_goals
              intro m' b' h
              obtain ⟨rfl, rfl⟩ := Prod.mk.inj (Except.ok.inj h)
            · exact h1
            · show _ = Except.ok (some (readEntry _ _), _)
              unfold readEntry
              dsimp only
              rw [List.map_append, List.map_append, List.map_singleton, List.map_singleton, h2, h3,
                List.map_dropLast, List.map_dropLast,
                maps_congr hbm.s fun a ha => h1.s a ha, maps_congr hbm.c fun a ha => h1.c a ha]
            · intro P Q hfr hi
              obtain ⟨g1, g2⟩ := h4 P Q hfr
              rintro e' ⟨⟩
              refine ⟨fun l hl => ?_, fun l hl => ?_⟩
              · rcases List.mem_append.1 hl with hl | hl
                · exact hi.s l (List.mem_of_mem_dropLast hl)
                · rw [List.mem_singleton.1 hl]
                  exact g1
              · rcases List.mem_append.1 hl with hl | hl
                · exact hi.c l (List.mem_of_mem_dropLast hl)
                · rw [List.mem_singleton.1 hl]
                  exact g2
      · rw [if_neg hlen, if_neg fun h => hlen (hcond.1 h)]
        exact Outcome.error _ _ _ _

theorem readEntry_addMeas (m : Mem S C Z) (o : Option ℕ) (e : Entry K τ F ℕ ℕ) :
    readEntry m (addMeas o e) = addMeas o (readEntry m e) := rfl

theorem hCorBlock_outcome (env : Env K τ F S C Z) (pr : Params K) (tab : List (Entry K τ F ℕ ℕ)) (ze : Z × ℕ)
    (m0 m : Mem S C Z) (hl : Le m0 m) (ht : ∀ e ∈ tab, EIn (Bnd m0).1 (Bnd m0).2 e) :
    Outcome corObj.list m (fun P Q => ∀ e ∈ tab, EIn P Q e) (hCorBlock env pr tab m ze)
      (corBlock env pr (tab.map (readEntry m0)) ze) := by
  have h := thread_outcome (o := corObj) (f := hCorrectEntry env pr ze.1)
    (g := fun e => correctEntry env pr ze.1 (readEntry m0 e)) (inp := fun e P Q => EIn P Q e)
    (fun _ _ _ _ _ h hP hQ => EIn.mono h hP hQ) tab m (fun e he => (ht e he).mono
      (fun a h => lt_of_lt_of_le (show a < m0.ns from h) hl.ns) fun a h => lt_of_lt_of_le (show a < m0.nc from h) hl.nc)
    fun m1 e h1 he => hCorrectEntry_outcome env pr ze.1 e m0 m1 (hl.trans h1) (ht e he)
  have ht' : traverseE (correctEntry env pr ze.1) (tab.map (readEntry m0)) =
      traverseE (fun e => correctEntry env pr ze.1 (readEntry m0 e)) tab :=
    traverseE_same tab fun _ _ => rfl
  unfold hCorBlock corBlock
  rw [ht']
  cases hx : thread (hCorrectEntry env pr ze.1) m tab with
  | error e =>
    rw [h.err e hx]
    exact Outcome.error _ _ _ _
  | ok mr =>
    obtain ⟨m1, l⟩ := mr
    rw [h.val _ _ hx]
    refine ⟨fun e h => (nomatch h), ?_, ?_, ?_⟩
    all_goals
      intro m' b' hb
      obtain ⟨rfl, rfl⟩ := Prod.mk.inj (Except.ok.inj hb)
    · exact h.le _ _ hx
    · show Except.ok (List.map _ (List.map _ _)) = Except.ok (List.map _ (List.map _ _))
      rw [List.map_map, List.map_map]
      refine congrArg _ (List.map_congr_left fun x _ => ?_)
      obtain ⟨_ | e, k⟩ := x
      · rfl
      · rfl
    · intro P Q hfr hi x hx'
      obtain ⟨y, hy, rfl⟩ := List.mem_map.1 hx'
      intro e he
      obtain ⟨_ | e0, k⟩ := y
      · exact (nomatch he)
      · obtain rfl := Option.some.inj he
        have := h.refs _ _ hx P Q hfr hi _ hy e0 rfl
        exact ⟨this.s, this.c⟩

end field

end Gasur.Props.GlmbHeap
