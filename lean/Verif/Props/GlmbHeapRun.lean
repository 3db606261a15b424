import Verif.Props.GlmbHeapOps
import Verif.Props.GlmbTrack

/-!
# Property C156: the GLMB filter and the arrays of the caller
-/

namespace Gasur.Props.GlmbHeap

open Gasur.Glmb Gasur.Spec Gasur.GlmbHeap

variable {K τ F S C Z : Type*}

/-- The filter holds only existing arrays that the program has not made. -/
structure Inv (h : HF K τ F S C Z) (w : Own) : Prop where
  st : StIn (fun a => a < h.mem.ns ∧ a ∉ w.s) (fun a => a < h.mem.nc ∧ a ∉ w.c) h.st
  meas : ∀ l ∈ h.meas, ∀ a ∈ l, a < h.mem.nz ∧ a ∉ w.z
  ws : ∀ a ∈ w.s, a < h.mem.ns
  wc : ∀ a ∈ w.c, a < h.mem.nc
  wz : ∀ a ∈ w.z, a < h.mem.nz

theorem Inv.bnd {h : HF K τ F S C Z} {w : Own} (i : Inv h w) : StIn (Bnd h.mem).1 (Bnd h.mem).2 h.st :=
  i.st.mono (fun _ h => h.1) fun _ h => h.1

section field
variable [Field K] [LinearOrder K] [FloorRing K] [DecidableEq τ]

/-- The measurement table after a call. -/
theorem hStep_meas (pr : Params K) (sm : Bool) (o : HOp K τ F S C Z) (h h' : HF K τ F S C Z) (w : Own) (i : Inv h w)
    (ho : ArgsExist h.mem o) (hx : hStep pr sm h o = .ok h') :
    (∀ l ∈ h'.meas, ∀ a ∈ l, a < h'.mem.nz ∧ a ∉ w.z) ∧
      (sm = true → h'.readMeas = h.readMeas ++ measGiven [o.read h.mem]) ∧ (sm = false → h'.meas = h.meas) := by
  have hsame : h'.meas = h.meas → Le h.mem h'.mem →
      (∀ l ∈ h'.meas, ∀ a ∈ l, a < h'.mem.nz ∧ a ∉ w.z) ∧ h'.readMeas = h.readMeas := by
    intro e hl
    constructor
    · intro l hl' a ha
      rw [e] at hl'
      exact ⟨(i.meas l hl' a ha).1.trans_le hl.nz, (i.meas l hl' a ha).2⟩
    · unfold HF.readMeas
      rw [e]
      exact maps_congr i.meas fun a ha => hl.z a ha.1
  cases o with
  | predict env lab births =>
    have h1 : h'.meas = h.meas := by
      unfold hStep hPredict at hx
      dsimp only at hx
      repeat' split at hx
      all_goals first
        | (cases hx; done)
        | (cases hx; rfl)
    have : h'.meas = h.meas ∧ Le h.mem h'.mem := ⟨h1, (hStep_call pr sm (.predict env lab births) h i.bnd ho).le h' hx⟩
    obtain ⟨h1, h2⟩ := hsame this.1 this.2
    exact ⟨h1, fun _ => by rw [h2]; exact (List.append_nil _).symm, fun _ => this.1⟩
  | correct env zs =>
    obtain ⟨hc, hm⟩ := hCorrect_call env pr sm zs h i.bnd
    have hl := hc.le h' hx
    obtain ⟨e, hn⟩ := hm h' hx
    cases sm with
    | false =>
      have e' : h'.meas = h.meas := e
      exact ⟨(hsame e' hl).1, fun h => (nomatch h), fun _ => e'⟩
    | true =>
      have e' : h'.meas = h.meas ++ [(newZ h.mem (zs.map h.mem.z)).2] := e
      have hN := newZ_ok (zs.map h.mem.z) h.mem
      have hl2 := hn rfl
      refine ⟨?_, fun _ => ?_, fun h => (nomatch h)⟩
      · intro l hl' a ha
        rw [e'] at hl'
        rcases List.mem_append.1 hl' with hl' | hl'
        · exact ⟨(i.meas l hl' a ha).1.trans_le hl.nz, (i.meas l hl' a ha).2⟩
        · rw [List.mem_singleton.1 hl'] at ha
          exact ⟨(hN.rng a ha).2.trans_le hl2.nz, fun hw => absurd (i.wz a hw) (by have := (hN.rng a ha).1; omega)⟩
      · unfold HF.readMeas
        rw [e', List.map_append, maps_congr i.meas fun a ha => hl.z a ha.1, List.map_singleton,
          List.map_congr_left fun a ha => hl2.z a (hN.rng a ha).2, hN.val]
        rfl
  | cleanup env bp bc be u c =>
    have : h'.meas = h.meas ∧ Le h.mem h'.mem := by
      unfold hStep at hx
      dsimp only at hx
      split at hx
      · exact (nomatch hx)
      · obtain rfl := Except.ok.inj hx
        exact ⟨rfl, Le.refl _⟩
    obtain ⟨h1, h2⟩ := hsame this.1 this.2
    exact ⟨h1, fun _ => by rw [h2]; exact (List.append_nil _).symm, fun _ => this.1⟩
  | extract u c =>
    have : h'.meas = h.meas ∧ Le h.mem h'.mem := by
      unfold hStep at hx
      dsimp only at hx
      split at hx
      · exact (nomatch hx)
      · obtain rfl := Except.ok.inj hx
        exact ⟨rfl, Le.refl _⟩
    obtain ⟨h1, h2⟩ := hsame this.1 this.2
    exact ⟨h1, fun _ => by rw [h2]; exact (List.append_nil _).symm, fun _ => this.1⟩

/-- One action: the invariant is kept, and the filter sees only the calls. -/
theorem act_ok (pr : Params K) (sm : Bool) (h : HF K τ F S C Z) (w : Own) (i : Inv h w) (a : Act K τ F S C Z)
    (ha : FairAct h.mem w a) (h' : HF K τ F S C Z) (hx : act pr sm h a = .ok h') :
    Inv h' (w.after h.mem a) ∧ ((∀ o, a ≠ .call o) → h'.read = h.read ∧ h'.readMeas = h.readMeas) := by
  have keep : ∀ {w' : Own} {m' : Mem S C Z}, Le h.mem m' → (∀ b, b < h.mem.ns → b ∉ w.s → b ∉ w'.s) →
      (∀ b, b < h.mem.nc → b ∉ w.c → b ∉ w'.c) → (∀ b, b < h.mem.nz → b ∉ w.z → b ∉ w'.z) →
      (∀ b ∈ w'.s, b < m'.ns) → (∀ b ∈ w'.c, b < m'.nc) → (∀ b ∈ w'.z, b < m'.nz) →
      Inv { h with mem := m' } w' ∧ (HF.read { h with mem := m' } = h.read ∧ HF.readMeas { h with mem := m' } = h.readMeas) := by
    intro w' m' hl h1 h2 h3 h4 h5 h6
    refine ⟨⟨i.st.mono (fun b hb => ⟨hb.1.trans_le hl.ns, h1 b hb.1 hb.2⟩) fun b hb => ⟨hb.1.trans_le hl.nc, h2 b hb.1 hb.2⟩,
      fun l hl' b hb => ⟨(i.meas l hl' b hb).1.trans_le hl.nz, h3 b (i.meas l hl' b hb).1 (i.meas l hl' b hb).2⟩, h4, h5, h6⟩,
      readSt_le i.bnd hl, ?_⟩
    exact maps_congr i.meas fun b hb => hl.z b hb.1
  cases a with
  | newS v =>
    obtain rfl := Except.ok.inj hx
    have hl : Le h.mem (newS h.mem [v]).1 := (newS_ok [v] h.mem).le
    obtain ⟨h1, h2⟩ := keep (w' := { w with s := h.mem.ns :: w.s }) hl
      (fun b hb hn => by
        rw [List.mem_cons, not_or]
        exact ⟨hb.ne, hn⟩) (fun _ _ h => h) (fun _ _ h => h)
      (fun b hb => by
        rcases List.mem_cons.1 hb with rfl | hb
        · exact Nat.lt_succ_self _
        · exact (i.ws b hb).trans_le hl.ns) (fun b hb => (i.wc b hb).trans_le hl.nc) fun b hb => (i.wz b hb).trans_le hl.nz
    exact ⟨h1, fun _ => h2⟩
  | newC v =>
    obtain rfl := Except.ok.inj hx
    have hl : Le h.mem (newC h.mem [v]).1 := (newC_ok [v] h.mem).le
    obtain ⟨h1, h2⟩ := keep (w' := { w with c := h.mem.nc :: w.c }) hl (fun _ _ h => h)
      (fun b hb hn => by
        rw [List.mem_cons, not_or]
        exact ⟨hb.ne, hn⟩) (fun _ _ h => h) (fun b hb => (i.ws b hb).trans_le hl.ns)
      (fun b hb => by
        rcases List.mem_cons.1 hb with rfl | hb
        · exact Nat.lt_succ_self _
        · exact (i.wc b hb).trans_le hl.nc) fun b hb => (i.wz b hb).trans_le hl.nz
    exact ⟨h1, fun _ => h2⟩
  | newZ v =>
    obtain rfl := Except.ok.inj hx
    have hl : Le h.mem (newZ h.mem [v]).1 := (newZ_ok [v] h.mem).le
    obtain ⟨h1, h2⟩ := keep (w' := { w with z := h.mem.nz :: w.z }) hl (fun _ _ h => h) (fun _ _ h => h)
      (fun b hb hn => by
        rw [List.mem_cons, not_or]
        exact ⟨hb.ne, hn⟩) (fun b hb => (i.ws b hb).trans_le hl.ns) (fun b hb => (i.wc b hb).trans_le hl.nc)
      (fun b hb => by
        rcases List.mem_cons.1 hb with rfl | hb
        · exact Nat.lt_succ_self _
        · exact (i.wz b hb).trans_le hl.nz)
    exact ⟨h1, fun _ => h2⟩
  | setS r v =>
    obtain rfl := Except.ok.inj hx
    refine ⟨⟨i.st, i.meas, i.ws, i.wc, i.wz⟩, fun _ => ⟨?_, rfl⟩⟩
    exact readSt_congr i.st (fun b hb => Function.update_of_ne (fun e : b = r => hb.2 (e ▸ ha)) _ _) fun _ _ => rfl
  | setC r v =>
    obtain rfl := Except.ok.inj hx
    refine ⟨⟨i.st, i.meas, i.ws, i.wc, i.wz⟩, fun _ => ⟨?_, rfl⟩⟩
    exact readSt_congr i.st (fun _ _ => rfl) fun b hb => Function.update_of_ne (fun e : b = r => hb.2 (e ▸ ha)) _ _
  | setZ r v =>
    obtain rfl := Except.ok.inj hx
    refine ⟨⟨i.st, i.meas, i.ws, i.wc, i.wz⟩, fun _ => ⟨rfl, ?_⟩⟩
    exact maps_congr i.meas fun b hb => Function.update_of_ne (fun e : b = r => hb.2 (e ▸ ha)) _ _
  | call o =>
    have hc := hStep_call pr sm o h i.bnd ha
    have hl := hc.le h' hx
    refine ⟨⟨hc.refs h' hx _ _ ?_ ?_, (hStep_meas pr sm o h h' w i ha hx).1, fun b hb => (i.ws b hb).trans_le hl.ns,
      fun b hb => (i.wc b hb).trans_le hl.nc, fun b hb => (i.wz b hb).trans_le hl.nz⟩, fun hn => absurd rfl (hn o)⟩
    · exact ⟨fun b h1 h2 => ⟨h2, fun hb => absurd (i.ws b hb) (by omega)⟩,
        fun b h1 h2 => ⟨h2, fun hb => absurd (i.wc b hb) (by omega)⟩⟩
    · exact i.st.mono (fun b hb => ⟨hb.1.trans_le hl.ns, hb.2⟩) fun b hb => ⟨hb.1.trans_le hl.nc, hb.2⟩

/-- Actions other than calls do not raise. -/
theorem act_total (pr : Params K) (sm : Bool) (h : HF K τ F S C Z) (a : Act K τ F S C Z) (hn : ∀ o, a ≠ .call o) :
    ∃ h', act pr sm h a = .ok h' := by
  cases a with
  | call o => exact absurd rfl (hn o)
  | newS v => exact ⟨_, rfl⟩
  | newC v => exact ⟨_, rfl⟩
  | newZ v => exact ⟨_, rfl⟩
  | setS r v => exact ⟨_, rfl⟩
  | setC r v => exact ⟨_, rfl⟩
  | setZ r v => exact ⟨_, rfl⟩

theorem callsOf_other (pr : Params K) (sm : Bool) (h h' : HF K τ F S C Z) (a : Act K τ F S C Z) (hn : ∀ o, a ≠ .call o)
    (hx : act pr sm h a = .ok h') (l : List (Act K τ F S C Z)) : callsOf pr sm h (a :: l) = callsOf pr sm h' l := by
  rw [callsOf, hx]
  cases a with
  | call o => exact absurd rfl (hn o)
  | _ => rfl

theorem measOf_cons (o : Op K τ F S C Z) (l : List (Op K τ F S C Z)) : measGiven (o :: l) = measGiven [o] ++ measGiven l := by
  cases o <;> rfl

/-- A fair program from a state where nothing is shared. -/
theorem acts_ok (pr : Params K) (sm : Bool) : ∀ (l : List (Act K τ F S C Z)) (h : HF K τ F S C Z) (w : Own), Inv h w →
    Fair pr sm h w l →
    (acts pr sm h l).map HF.read = Glmb.run pr h.read (callsOf pr sm h l) ∧
      ∀ h', acts pr sm h l = .ok h' → Inv h' (ownAtEnd pr sm h w l) ∧
        (sm = true → h'.readMeas = h.readMeas ++ measGiven (callsOf pr sm h l)) ∧ (sm = false → h'.meas = h.meas) := by
  intro l
  induction l with
  | nil =>
    intro h w i _
    refine ⟨rfl, fun h' e => ?_⟩
    obtain rfl := Except.ok.inj e
    exact ⟨i, fun _ => (List.append_nil _).symm, fun _ => rfl⟩
  | cons a l ih =>
    intro h w i hf
    obtain ⟨hfa, hfl⟩ := hf
    by_cases hn : ∀ o, a ≠ .call o
    · obtain ⟨h1, hx⟩ := act_total pr sm h a hn
      obtain ⟨i1, hr⟩ := act_ok pr sm h w i a hfa h1 hx
      obtain ⟨g1, g2⟩ := ih h1 _ i1 (hfl h1 hx)
      rw [callsOf_other pr sm h h1 a hn hx l]
      unfold acts ownAtEnd
      rw [hx]
      dsimp only
      rw [← (hr hn).1, ← (hr hn).2]
      refine ⟨g1, fun h' e => ?_⟩
      obtain ⟨k1, k2, k3⟩ := g2 h' e
      refine ⟨k1, k2, fun hs => (k3 hs).trans ?_⟩
      cases a with
      | call o => exact absurd rfl (hn o)
      | _ =>
        obtain rfl := Except.ok.inj hx
        rfl
    · push Not at hn
      obtain ⟨o, rfl⟩ := hn
      have hc := hStep_call pr sm o h i.bnd hfa
      rw [callsOf, show act pr sm h (.call o) = hStep pr sm h o from rfl]
      unfold acts ownAtEnd
      show Except.map HF.read (match hStep pr sm h o with
        | .error e => .error e
        | .ok h' => acts pr sm h' l) = _ ∧ _
      cases hx : hStep pr sm h o with
      | error e =>
        dsimp only
        rw [show callOf h.mem (.call o) = [o.read h.mem] from rfl, List.singleton_append]
        unfold Glmb.run
        rw [hc.err e hx]
        refine ⟨rfl, fun h' e' => ?_⟩
        rw [show act pr sm h (.call o) = .error e from hx] at e'
        exact (nomatch e')
      | ok h1 =>
        obtain ⟨i1, -⟩ := act_ok pr sm h w i (.call o) hfa h1 hx
        obtain ⟨g1, g2⟩ := ih h1 _ i1 (hfl h1 hx)
        obtain ⟨-, m2, m3⟩ := hStep_meas pr sm o h h1 w i hfa hx
        dsimp only
        rw [show callOf h.mem (.call o) = [o.read h.mem] from rfl, List.singleton_append]
        unfold Glmb.run
        rw [hc.val h1 hx]
        refine ⟨g1, fun h' e' => ?_⟩
        rw [show act pr sm h (.call o) = .ok h1 from hx] at e' ⊢
        obtain ⟨k1, k2, k3⟩ := g2 h' e'
        refine ⟨k1, fun hs => ?_, fun hs => (k3 hs).trans (m3 hs)⟩
        rw [k2 hs, m2 hs, measOf_cons (o.read h.mem) (callsOf pr sm h1 l), List.append_assoc]

theorem newFilter_inv (s : ℕ → S) (c : ℕ → C) (z : ℕ → Z) :
    Inv (newFilter s c z : HF K τ F S C Z) ⟨[], [], []⟩ := by
  refine ⟨⟨?_, ?_, ?_, ?_⟩, ?_, ?_, ?_, ?_⟩ <;> intro x hx <;> exact (nomatch hx)

/-- **C156, what the filter computes.** A program makes arrays, changes its own arrays in place whenever it likes, and calls the
filter with birth terms and measurements. Then every call gives (or raises) what it gives for the contents the arrays had at the
time of the calls: changing an array after it was handed over has no effect. -/
theorem C156_values_partial (pr : Params K) (sm : Bool) (s : ℕ → S) (c : ℕ → C) (z : ℕ → Z) (prog : List (Act K τ F S C Z))
    (hf : Fair pr sm (newFilter s c z) ⟨[], [], []⟩ prog) :
    (acts pr sm (newFilter s c z) prog).map HF.read = Glmb.run pr Glmb.init (callsOf pr sm (newFilter s c z) prog) :=
  (acts_ok pr sm prog _ _ (newFilter_inv s c z) hf).1

/-- **C156, recorded measurements.** With `save_measurements` the filter has the measurements as they were at the time of the
calls, in this order. -/
theorem C156_measurements (pr : Params K) (s : ℕ → S) (c : ℕ → C) (z : ℕ → Z) (prog : List (Act K τ F S C Z))
    (hf : Fair pr true (newFilter s c z) ⟨[], [], []⟩ prog) (h : HF K τ F S C Z)
    (hx : acts pr true (newFilter s c z) prog = .ok h) :
    h.readMeas = measGiven (callsOf pr true (newFilter s c z) prog) :=
  ((acts_ok pr true prog _ _ (newFilter_inv s c z) hf).2 h hx).2.1 rfl

/-- **C156, arrays of the caller stay with the caller.** No array of the program becomes part of the filter or of its reports. -/
theorem C156_separate (pr : Params K) (sm : Bool) (s : ℕ → S) (c : ℕ → C) (z : ℕ → Z) (prog : List (Act K τ F S C Z))
    (hf : Fair pr sm (newFilter s c z) ⟨[], [], []⟩ prog) (h : HF K τ F S C Z)
    (hx : acts pr sm (newFilter s c z) prog = .ok h) (a : ℕ) :
    (a ∈ (ownAtEnd pr sm (newFilter s c z) ⟨[], [], []⟩ prog).s →
      (∀ e ∈ h.st.tab, ∀ l ∈ e.sHist, a ∉ l) ∧ (∀ e ∈ h.st.ext, a ∉ e.states) ∧ ∀ l ∈ h.st.states, a ∉ l) ∧
    (a ∈ (ownAtEnd pr sm (newFilter s c z) ⟨[], [], []⟩ prog).c →
      (∀ e ∈ h.st.tab, ∀ l ∈ e.cHist, a ∉ l) ∧ (∀ e ∈ h.st.ext, a ∉ e.covs) ∧ ∀ l ∈ h.st.covs, a ∉ l) ∧
    (a ∈ (ownAtEnd pr sm (newFilter s c z) ⟨[], [], []⟩ prog).z → ∀ l ∈ h.meas, a ∉ l) := by
  obtain ⟨i, -, -⟩ := (acts_ok pr sm prog _ _ (newFilter_inv s c z) hf).2 h hx
  exact ⟨fun ha => ⟨fun e he l hl hm => ((i.st.tab e he).s l hl a hm).2 ha, fun e he hm => ((i.st.ext e he).s a hm).2 ha,
      fun l hl hm => (i.st.states l hl a hm).2 ha⟩,
    fun ha => ⟨fun e he l hl hm => ((i.st.tab e he).c l hl a hm).2 ha, fun e he hm => ((i.st.ext e he).c a hm).2 ha,
      fun l hl hm => (i.st.covs l hl a hm).2 ha⟩,
    fun ha l hl hm => (i.meas l hl a hm).2 ha⟩

/-- **C156, no call changes an array.** After any fair program, a call leaves all existing arrays as they are: those of the caller
and those the filter has handed out. -/
theorem C156_unchanged (pr : Params K) (sm : Bool) (s : ℕ → S) (c : ℕ → C) (z : ℕ → Z) (prog : List (Act K τ F S C Z))
    (hf : Fair pr sm (newFilter s c z) ⟨[], [], []⟩ prog) (h : HF K τ F S C Z)
    (hx : acts pr sm (newFilter s c z) prog = .ok h) (o : HOp K τ F S C Z) (ho : ArgsExist h.mem o) (h' : HF K τ F S C Z)
    (hy : hStep pr sm h o = .ok h') :
    (∀ a < h.mem.ns, h'.mem.s a = h.mem.s a) ∧ (∀ a < h.mem.nc, h'.mem.c a = h.mem.c a) ∧
      (∀ a < h.mem.nz, h'.mem.z a = h.mem.z a) ∧ h.st.states.map (List.map h'.mem.s) = h.read.states := by
  obtain ⟨i, -, -⟩ := (acts_ok pr sm prog _ _ (newFilter_inv s c z) hf).2 h hx
  have hl := (hStep_call pr sm o h i.bnd ho).le h' hy
  exact ⟨hl.s, hl.c, hl.z, maps_congr i.bnd.states fun a ha => hl.s a ha⟩

end field

/-! ### Example -/

/-- A program: arrays for a birth term and two measurements, the first time step; then the caller reuses its arrays for the next
time step. -/
def exProg : List (Act ℚ ℕ Unit ℚ Unit ℚ) :=
  [.newS 0, .newC (), .newZ 4, .newZ 8, .call (.predict exTrackEnv 0 [⟨[()], [1], [0], [0], 9 / 10⟩]),
    .setS 0 10, .call (.correct exTrackEnv [0, 1]), .setZ 0 6, .call (.cleanup exTrackEnv true true true true true),
    .call (.predict exTrackEnv 1 [⟨[()], [1], [0], [0], 9 / 10⟩]), .call (.correct exTrackEnv [0])]

/-- The new filter of the example. -/
def exNew : HF ℚ ℕ Unit ℚ Unit ℚ := newFilter (fun _ => 0) (fun _ => ()) fun _ => 0

/-- Checking fairness of an action. -/
def fairActB (m : Mem S C Z) (w : Own) : Act K τ F S C Z → Bool
  | .setS a _ => decide (a ∈ w.s)
  | .setC a _ => decide (a ∈ w.c)
  | .setZ a _ => decide (a ∈ w.z)
  | .call (.predict _ _ births) => births.all fun b => b.states.all (fun a => decide (a < m.ns)) && b.covs.all fun a => decide (a < m.nc)
  | .call (.correct _ zs) => zs.all fun a => decide (a < m.nz)
  | _ => true

theorem fairActB_ok (m : Mem S C Z) (w : Own) (a : Act K τ F S C Z) (h : fairActB m w a = true) : FairAct m w a := by
  cases a with
  | call o =>
    cases o with
    | predict env lab births => simpa [fairActB, FairAct, ArgsExist] using h
    | correct env zs => simpa [fairActB, FairAct, ArgsExist] using h
    | _ => trivial
  | setS a v => exact (of_decide_eq_true h : a ∈ w.s)
  | setC a v => exact (of_decide_eq_true h : a ∈ w.c)
  | setZ a v => exact (of_decide_eq_true h : a ∈ w.z)
  | _ => trivial

/-- Checking fairness of a program. -/
def fairB [Field K] [LinearOrder K] [FloorRing K] [DecidableEq τ] (pr : Params K) (sm : Bool) :
    HF K τ F S C Z → Own → List (Act K τ F S C Z) → Bool
  | _, _, [] => true
  | h, w, a :: l => fairActB h.mem w a &&
    match act pr sm h a with
    | .ok h' => fairB pr sm h' (w.after h.mem a) l
    | .error _ => true

theorem fairB_ok [Field K] [LinearOrder K] [FloorRing K] [DecidableEq τ] (pr : Params K) (sm : Bool) :
    ∀ (l : List (Act K τ F S C Z)) (h : HF K τ F S C Z) (w : Own), fairB pr sm h w l = true → Fair pr sm h w l := by
  intro l
  induction l with
  | nil => exact fun _ _ _ => trivial
  | cons a l ih =>
    intro h w hb
    unfold fairB at hb
    rw [Bool.and_eq_true] at hb
    refine ⟨fairActB_ok _ _ _ hb.1, fun h' hx => ih h' _ ?_⟩
    rw [hx] at hb
    exact hb.2

/-- The example is fair, succeeds, and the filter has used the contents at the time of the calls: the first birth was at 0 and the
second at 10, the measurements were 4, 8 and then 6. -/
example : Fair exTrackPr true exNew ⟨[], [], []⟩ exProg ∧
    (callsOf exTrackPr true exNew exProg).length = 5 ∧ measGiven (callsOf exTrackPr true exNew exProg) = [[4, 8], [6]] ∧
    ∃ h, acts exTrackPr true exNew exProg = .ok h ∧ h.read.tab.map (fun e => e.sHist) = [[[2], [3]], [[4], [5]], [[8]]] ∧
      h.readMeas = [[4, 8], [6]] := by
  refine ⟨fairB_ok _ _ _ _ _ (by decide +kernel), by decide +kernel, by decide +kernel, ?_⟩
  have : (acts exTrackPr true exNew exProg).toOption.any (fun h =>
      h.read.tab.map (fun e => e.sHist) == [[[2], [3]], [[4], [5]], [[8]]] && h.readMeas == [[4, 8], [6]]) = true := by
    decide +kernel
  cases hr : acts exTrackPr true exNew exProg with
  | error e => rw [hr] at this; simp [Except.toOption] at this
  | ok h =>
    rw [hr] at this
    simp only [Except.toOption, Option.any_some, Bool.and_eq_true, beq_iff_eq] at this
    exact ⟨h, rfl, this.1, this.2⟩

/-- **C156 is false for arrays that the filter hands out.** After the first time step the caller changes an array of `states` in
place: the next prediction of the filter starts from the changed array. -/
theorem C156_refuted : ∃ (h : HF ℚ ℕ Unit ℚ Unit ℚ) (a : ℕ) (o : HOp ℚ ℕ Unit ℚ Unit ℚ) (h1 h2 : HF ℚ ℕ Unit ℚ Unit ℚ),
    acts exTrackPr true exNew (exProg.take 9) = .ok h ∧ (∃ l ∈ h.st.states, a ∈ l) ∧
      acts exTrackPr true h [.call o] = .ok h1 ∧ acts exTrackPr true h [.setS a 100, .call o] = .ok h2 ∧
      h1.read.tab.map (fun e => e.sHist) = [[[10]], [[0], [1]], [[2], [3]], [[4], [5]]] ∧
      h2.read.tab.map (fun e => e.sHist) = [[[10]], [[0], [1]], [[100], [101]], [[4], [5]]] := by
  have h0 : (acts exTrackPr true exNew (exProg.take 9)).toOption.any (fun h => h.st.states == [[2]] &&
      (acts exTrackPr true h [.call (.predict exTrackEnv 1 [⟨[()], [1], [0], [0], 9 / 10⟩])]).toOption.any (fun h1 =>
        h1.read.tab.map (fun e => e.sHist) == [[[10]], [[0], [1]], [[2], [3]], [[4], [5]]]) &&
      (acts exTrackPr true h [.setS 2 100, .call (.predict exTrackEnv 1 [⟨[()], [1], [0], [0], 9 / 10⟩])]).toOption.any (fun h2 =>
        h2.read.tab.map (fun e => e.sHist) == [[[10]], [[0], [1]], [[100], [101]], [[4], [5]]])) = true := by
    decide +kernel
  rw [Option.any_eq_true] at h0
  obtain ⟨h, hh, h0⟩ := h0
  simp only [Bool.and_eq_true, Option.any_eq_true, beq_iff_eq] at h0
  obtain ⟨⟨hs, h1, e1, g1⟩, h2, e2, g2⟩ := h0
  have conv : ∀ {x : Except GErr (HF ℚ ℕ Unit ℚ Unit ℚ)} {y}, x.toOption = some y → x = .ok y := by
    intro x y hxy
    cases x with
    | error e => exact (nomatch hxy)
    | ok z => exact congrArg _ (Option.some.inj hxy)
  exact ⟨h, 2, _, h1, h2, conv hh, ⟨[2], by rw [hs]; simp, by simp⟩, conv e1, conv e2, g1, g2⟩

end Gasur.Props.GlmbHeap
