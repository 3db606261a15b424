import Verif.Props.JglmbHeap
import Verif.Props.JglmbTrack

/-!
# Property C157: the joint GLMB filter and the arrays of the caller
-/

namespace Gasur.Props.JglmbHeap

open Gasur.Glmb Gasur.Jglmb Gasur.Spec Gasur.GlmbHeap Gasur.JglmbHeap Gasur.Props.GlmbHeap

variable {K τ F S C Z : Type*}

/-- The filter holds only existing arrays that the program has not made. -/
structure JInv (h : JHF K τ F S C Z) (w : Own) : Prop where
  st : StIn (fun a => a < h.mem.ns ∧ a ∉ w.s) (fun a => a < h.mem.nc ∧ a ∉ w.c) h.st.g
  meas : ∀ l ∈ h.meas, ∀ a ∈ l, a < h.mem.nz ∧ a ∉ w.z
  ws : ∀ a ∈ w.s, a < h.mem.ns
  wc : ∀ a ∈ w.c, a < h.mem.nc
  wz : ∀ a ∈ w.z, a < h.mem.nz

theorem JInv.bnd {h : JHF K τ F S C Z} {w : Own} (i : JInv h w) : StIn (Bnd h.mem).1 (Bnd h.mem).2 h.st.g :=
  i.st.mono (fun _ h => h.1) fun _ h => h.1

section field
variable [Field K] [LinearOrder K] [FloorRing K] [DecidableEq τ]

/-- The measurement table after a call. -/
theorem jhStep_meas (jp : JParams K) (o : JHOp K τ F S C Z) (h h' : JHF K τ F S C Z) (w : Own) (i : JInv h w)
    (ho : JArgsExist h.mem o) (hx : jhStep jp h o = .ok h') :
    (∀ l ∈ h'.meas, ∀ a ∈ l, a < h'.mem.nz ∧ a ∉ w.z) ∧ h'.readMeas = h.readMeas ++ jmeasGiven [o.read h.mem] := by
  have hl := (jhStep_call jp o h i.bnd ho).le h' hx
  have hsame : h'.meas = h.meas → (∀ l ∈ h'.meas, ∀ a ∈ l, a < h'.mem.nz ∧ a ∉ w.z) ∧ h'.readMeas = h.readMeas ++ [] := by
    intro e
    constructor
    · intro l hl' a ha
      rw [e] at hl'
      exact ⟨(i.meas l hl' a ha).1.trans_le hl.nz, (i.meas l hl' a ha).2⟩
    · unfold JHF.readMeas
      rw [e, List.append_nil]
      exact maps_congr i.meas fun a ha => hl.z a ha.1
  cases o with
  | predict env lab births =>
    refine hsame ?_
    unfold jhStep jhPredict at hx
    dsimp only at hx
    repeat' split at hx
    all_goals first
      | (cases hx; done)
      | (cases hx; rfl)
  | correct env births draws zs =>
    obtain ⟨-, hm⟩ := jhCorrect_call env jp births draws zs h i.bnd fun b hb => ⟨(ho.1 b hb).1, (ho.1 b hb).2⟩
    obtain ⟨e', hl2⟩ := hm h' hx
    have hN := newZ_ok (zs.map h.mem.z) h.mem
    constructor
    · intro l hl' a ha
      rw [e'] at hl'
      rcases List.mem_append.1 hl' with hl' | hl'
      · exact ⟨(i.meas l hl' a ha).1.trans_le hl.nz, (i.meas l hl' a ha).2⟩
      · rw [List.mem_singleton.1 hl'] at ha
        exact ⟨(hN.rng a ha).2.trans_le hl2.nz, fun hw => absurd (i.wz a hw) (by have := (hN.rng a ha).1; omega)⟩
    · unfold JHF.readMeas
      rw [e', List.map_append, maps_congr i.meas fun a ha => hl.z a ha.1, List.map_singleton,
        List.map_congr_left fun a ha => hl2.z a (hN.rng a ha).2, hN.val]
      rfl
  | cleanup env bp bc be u c =>
    refine hsame ?_
    unfold jhStep at hx
    dsimp only at hx
    split at hx
    · exact (nomatch hx)
    · obtain rfl := Except.ok.inj hx
      rfl
  | extract u c =>
    refine hsame ?_
    unfold jhStep at hx
    dsimp only at hx
    split at hx
    · exact (nomatch hx)
    · obtain rfl := Except.ok.inj hx
      rfl

omit [Field K] [LinearOrder K] [FloorRing K] [DecidableEq τ] in
/-- Changing arrays: the invariant is kept, and the filter sees nothing. -/
theorem memAct_ok (h : JHF K τ F S C Z) (w : Own) (i : JInv h w) (a : MemAct S C Z)
    (ha : JFairAct h.mem w (.mem a : JAct K τ F S C Z)) :
    JInv { h with mem := memAct h.mem a } (w.afterJ h.mem (.mem a : JAct K τ F S C Z)) ∧
      JHF.read { h with mem := memAct h.mem a } = h.read ∧ JHF.readMeas { h with mem := memAct h.mem a } = h.readMeas := by
  have keep : ∀ {w' : Own} {m' : Mem S C Z}, Le h.mem m' → (∀ b, b < h.mem.ns → b ∉ w.s → b ∉ w'.s) →
      (∀ b, b < h.mem.nc → b ∉ w.c → b ∉ w'.c) → (∀ b, b < h.mem.nz → b ∉ w.z → b ∉ w'.z) →
      (∀ b ∈ w'.s, b < m'.ns) → (∀ b ∈ w'.c, b < m'.nc) → (∀ b ∈ w'.z, b < m'.nz) →
      JInv { h with mem := m' } w' ∧ (JHF.read { h with mem := m' } = h.read ∧ JHF.readMeas { h with mem := m' } = h.readMeas) := by
    intro w' m' hl h1 h2 h3 h4 h5 h6
    refine ⟨⟨i.st.mono (fun b hb => ⟨hb.1.trans_le hl.ns, h1 b hb.1 hb.2⟩) fun b hb => ⟨hb.1.trans_le hl.nc, h2 b hb.1 hb.2⟩,
      fun l hl' b hb => ⟨(i.meas l hl' b hb).1.trans_le hl.nz, h3 b (i.meas l hl' b hb).1 (i.meas l hl' b hb).2⟩, h4, h5, h6⟩,
      ?_, ?_⟩
    · unfold JHF.read
      dsimp only
      rw [readSt_le i.bnd hl]
    · exact maps_congr i.meas fun b hb => hl.z b hb.1
  cases a with
  | newS v =>
    have hl : Le h.mem (newS h.mem [v]).1 := (newS_ok [v] h.mem).le
    exact keep (w' := { w with s := h.mem.ns :: w.s }) hl
      (fun b hb hn => by
        rw [List.mem_cons, not_or]
        exact ⟨hb.ne, hn⟩) (fun _ _ h => h) (fun _ _ h => h)
      (fun b hb => by
        rcases List.mem_cons.1 hb with rfl | hb
        · exact Nat.lt_succ_self _
        · exact (i.ws b hb).trans_le hl.ns) (fun b hb => (i.wc b hb).trans_le hl.nc) fun b hb => (i.wz b hb).trans_le hl.nz
  | newC v =>
    have hl : Le h.mem (newC h.mem [v]).1 := (newC_ok [v] h.mem).le
    exact keep (w' := { w with c := h.mem.nc :: w.c }) hl (fun _ _ h => h)
      (fun b hb hn => by
        rw [List.mem_cons, not_or]
        exact ⟨hb.ne, hn⟩) (fun _ _ h => h) (fun b hb => (i.ws b hb).trans_le hl.ns)
      (fun b hb => by
        rcases List.mem_cons.1 hb with rfl | hb
        · exact Nat.lt_succ_self _
        · exact (i.wc b hb).trans_le hl.nc) fun b hb => (i.wz b hb).trans_le hl.nz
  | newZ v =>
    have hl : Le h.mem (newZ h.mem [v]).1 := (newZ_ok [v] h.mem).le
    exact keep (w' := { w with z := h.mem.nz :: w.z }) hl (fun _ _ h => h) (fun _ _ h => h)
      (fun b hb hn => by
        rw [List.mem_cons, not_or]
        exact ⟨hb.ne, hn⟩) (fun b hb => (i.ws b hb).trans_le hl.ns) (fun b hb => (i.wc b hb).trans_le hl.nc)
      (fun b hb => by
        rcases List.mem_cons.1 hb with rfl | hb
        · exact Nat.lt_succ_self _
        · exact (i.wz b hb).trans_le hl.nz)
  | setS r v =>
    refine ⟨⟨i.st, i.meas, i.ws, i.wc, i.wz⟩, ?_, rfl⟩
    have := readSt_congr (m := memAct h.mem (.setS r v)) (m' := h.mem) i.st
      (fun b hb => Function.update_of_ne (fun e : b = r => hb.2 (e ▸ ha)) _ _) fun _ _ => rfl
    unfold JHF.read
    dsimp only
    rw [this]
  | setC r v =>
    refine ⟨⟨i.st, i.meas, i.ws, i.wc, i.wz⟩, ?_, rfl⟩
    have := readSt_congr (m := memAct h.mem (.setC r v)) (m' := h.mem) i.st (fun _ _ => rfl)
      fun b hb => Function.update_of_ne (fun e : b = r => hb.2 (e ▸ ha)) _ _
    unfold JHF.read
    dsimp only
    rw [this]
  | setZ r v =>
    refine ⟨⟨i.st, i.meas, i.ws, i.wc, i.wz⟩, rfl, ?_⟩
    exact maps_congr i.meas fun b hb => Function.update_of_ne (fun e : b = r => hb.2 (e ▸ ha)) _ _

/-- A call keeps the invariant. -/
theorem jcall_inv (jp : JParams K) (h h' : JHF K τ F S C Z) (w : Own) (i : JInv h w) (o : JHOp K τ F S C Z)
    (ha : JArgsExist h.mem o) (hx : jhStep jp h o = .ok h') : JInv h' w := by
  have hc := jhStep_call jp o h i.bnd ha
  have hl := hc.le h' hx
  refine ⟨hc.refs h' hx _ _ ?_ ?_, (jhStep_meas jp o h h' w i ha hx).1, fun b hb => (i.ws b hb).trans_le hl.ns,
    fun b hb => (i.wc b hb).trans_le hl.nc, fun b hb => (i.wz b hb).trans_le hl.nz⟩
  · exact ⟨fun b h1 h2 => ⟨h2, fun hb => absurd (i.ws b hb) (by omega)⟩,
      fun b h1 h2 => ⟨h2, fun hb => absurd (i.wc b hb) (by omega)⟩⟩
  · exact i.st.mono (fun b hb => ⟨hb.1.trans_le hl.ns, hb.2⟩) fun b hb => ⟨hb.1.trans_le hl.nc, hb.2⟩

omit [FloorRing K] [DecidableEq τ] [LinearOrder K] [Field K] in
theorem jmeas_cons (o : JOp K τ F S C Z) (l : List (JOp K τ F S C Z)) : jmeasGiven (o :: l) = jmeasGiven [o] ++ jmeasGiven l := by
  cases o <;> rfl

/-- A fair program from a state where nothing is shared. -/
theorem jacts_ok (jp : JParams K) : ∀ (l : List (JAct K τ F S C Z)) (h : JHF K τ F S C Z) (w : Own), JInv h w →
    JFair jp h w l →
    (jacts jp h l).map JHF.read = Jglmb.run jp h.read (jcallsOf jp h l) ∧
      ∀ h', jacts jp h l = .ok h' → JInv h' (jownAtEnd jp h w l) ∧
        h'.readMeas = h.readMeas ++ jmeasGiven (jcallsOf jp h l) := by
  intro l
  induction l with
  | nil =>
    intro h w i _
    refine ⟨rfl, fun h' e => ?_⟩
    obtain rfl := Except.ok.inj e
    exact ⟨i, (List.append_nil _).symm⟩
  | cons a l ih =>
    intro h w i hf
    obtain ⟨hfa, hfl⟩ := hf
    cases a with
    | mem a =>
      obtain ⟨i1, hr, hm⟩ := memAct_ok h w i a hfa
      obtain ⟨g1, g2⟩ := ih { h with mem := memAct h.mem a } _ i1 (hfl _ rfl)
      rw [hr] at g1
      rw [hm] at g2
      exact ⟨g1, g2⟩
    | call o =>
      have hc := jhStep_call jp o h i.bnd hfa
      rw [jcallsOf, show jact jp h (.call o) = jhStep jp h o from rfl]
      unfold jacts jownAtEnd
      rw [show jact jp h (.call o) = jhStep jp h o from rfl]
      cases hx : jhStep jp h o with
      | error e =>
        dsimp only
        rw [show jcallOf h.mem (.call o) = [o.read h.mem] from rfl, List.singleton_append]
        unfold Jglmb.run
        rw [hc.err e hx]
        exact ⟨rfl, fun h' e' => (nomatch e')⟩
      | ok h1 =>
        have i1 := jcall_inv jp h h1 w i o hfa hx
        obtain ⟨g1, g2⟩ := ih h1 _ i1 (hfl h1 hx)
        obtain ⟨-, m2⟩ := jhStep_meas jp o h h1 w i hfa hx
        dsimp only
        rw [show jcallOf h.mem (.call o) = [o.read h.mem] from rfl, List.singleton_append]
        unfold Jglmb.run
        rw [hc.val h1 hx]
        refine ⟨g1, fun h' e' => ?_⟩
        obtain ⟨k1, k2⟩ := g2 h' e'
        refine ⟨k1, ?_⟩
        rw [k2, m2, jmeas_cons (o.read h.mem) (jcallsOf jp h1 l), List.append_assoc]

omit [LinearOrder K] [FloorRing K] [DecidableEq τ] in
theorem newJoint_inv (s : ℕ → S) (c : ℕ → C) (z : ℕ → Z) :
    JInv (newJoint s c z : JHF K τ F S C Z) ⟨[], [], []⟩ := by
  refine ⟨⟨?_, ?_, ?_, ?_⟩, ?_, ?_, ?_, ?_⟩ <;> intro x hx <;> exact (nomatch hx)

/-- **C157, what the filter computes.** A program makes arrays, changes its own arrays in place whenever it likes, and calls the
joint GLMB filter. The filter does what it would do if it had been given the contents of the arrays at the time of each call.
Missing: arrays that the filter hands out (`C157_refuted`). -/
theorem C157_values_partial (jp : JParams K) (s : ℕ → S) (c : ℕ → C) (z : ℕ → Z) (prog : List (JAct K τ F S C Z))
    (hf : JFair jp (newJoint s c z) ⟨[], [], []⟩ prog) :
    (jacts jp (newJoint s c z) prog).map JHF.read = Jglmb.run jp Jglmb.init (jcallsOf jp (newJoint s c z) prog) :=
  (jacts_ok jp prog _ _ (newJoint_inv s c z) hf).1

/-- **C157, recorded measurements.** The filter has the measurements as they were at the time of the calls, in this order. -/
theorem C157_measurements (jp : JParams K) (s : ℕ → S) (c : ℕ → C) (z : ℕ → Z) (prog : List (JAct K τ F S C Z))
    (hf : JFair jp (newJoint s c z) ⟨[], [], []⟩ prog) (h : JHF K τ F S C Z)
    (hx : jacts jp (newJoint s c z) prog = .ok h) :
    h.readMeas = jmeasGiven (jcallsOf jp (newJoint s c z) prog) :=
  ((jacts_ok jp prog _ _ (newJoint_inv s c z) hf).2 h hx).2

/-- **C157, arrays of the caller stay with the caller.** No array of the program becomes part of the filter or of its reports. -/
theorem C157_separate (jp : JParams K) (s : ℕ → S) (c : ℕ → C) (z : ℕ → Z) (prog : List (JAct K τ F S C Z))
    (hf : JFair jp (newJoint s c z) ⟨[], [], []⟩ prog) (h : JHF K τ F S C Z)
    (hx : jacts jp (newJoint s c z) prog = .ok h) (a : ℕ) :
    (a ∈ (jownAtEnd jp (newJoint s c z) ⟨[], [], []⟩ prog).s →
      (∀ e ∈ h.st.g.tab, ∀ l ∈ e.sHist, a ∉ l) ∧ (∀ e ∈ h.st.g.ext, a ∉ e.states) ∧ ∀ l ∈ h.st.g.states, a ∉ l) ∧
    (a ∈ (jownAtEnd jp (newJoint s c z) ⟨[], [], []⟩ prog).c →
      (∀ e ∈ h.st.g.tab, ∀ l ∈ e.cHist, a ∉ l) ∧ (∀ e ∈ h.st.g.ext, a ∉ e.covs) ∧ ∀ l ∈ h.st.g.covs, a ∉ l) ∧
    (a ∈ (jownAtEnd jp (newJoint s c z) ⟨[], [], []⟩ prog).z → ∀ l ∈ h.meas, a ∉ l) := by
  obtain ⟨i, -⟩ := (jacts_ok jp prog _ _ (newJoint_inv s c z) hf).2 h hx
  exact ⟨fun ha => ⟨fun e he l hl hm => ((i.st.tab e he).s l hl a hm).2 ha, fun e he hm => ((i.st.ext e he).s a hm).2 ha,
      fun l hl hm => (i.st.states l hl a hm).2 ha⟩,
    fun ha => ⟨fun e he l hl hm => ((i.st.tab e he).c l hl a hm).2 ha, fun e he hm => ((i.st.ext e he).c a hm).2 ha,
      fun l hl hm => (i.st.covs l hl a hm).2 ha⟩,
    fun ha l hl hm => (i.meas l hl a hm).2 ha⟩

/-- **C157, calls change no array.** A call leaves the contents of all arrays as they are; in particular states that were reported
before stay the same. -/
theorem C157_unchanged (jp : JParams K) (s : ℕ → S) (c : ℕ → C) (z : ℕ → Z) (prog : List (JAct K τ F S C Z))
    (hf : JFair jp (newJoint s c z) ⟨[], [], []⟩ prog) (h : JHF K τ F S C Z)
    (hx : jacts jp (newJoint s c z) prog = .ok h) (o : JHOp K τ F S C Z) (ho : JArgsExist h.mem o) (h' : JHF K τ F S C Z)
    (hy : jhStep jp h o = .ok h') :
    (∀ a < h.mem.ns, h'.mem.s a = h.mem.s a) ∧ (∀ a < h.mem.nc, h'.mem.c a = h.mem.c a) ∧
      (∀ a < h.mem.nz, h'.mem.z a = h.mem.z a) ∧ h.st.g.states.map (List.map h'.mem.s) = h.read.g.states := by
  obtain ⟨i, -⟩ := (jacts_ok jp prog _ _ (newJoint_inv s c z) hf).2 h hx
  have hl := (jhStep_call jp o h i.bnd ho).le h' hy
  exact ⟨hl.s, hl.c, hl.z, maps_congr i.bnd.states fun a ha => hl.s a ha⟩

/-- **C157, missed tracks get arrays of their own.** After a correction without measurements no array is shared between the new
track table and any array that existed before the call, so later changes of one do not reach the other. -/
theorem C157_missed (env : Env K τ F S C Z) (jp : JParams K) (births : List (Birth K F ℕ ℕ)) (draws : ℕ → ℕ → ℕ → K)
    (h h' : JHF K τ F S C Z) (hst : StIn (Bnd h.mem).1 (Bnd h.mem).2 h.st.g)
    (hx : jhCorrect env jp births draws [] h = .ok h') :
    ∀ e ∈ h'.st.g.tab, (∀ l ∈ e.sHist, ∀ a ∈ l, h.mem.ns ≤ a) ∧ ∀ l ∈ e.cHist, ∀ a ∈ l, h.mem.nc ≤ a := by
  unfold jhCorrect at hx
  dsimp only at hx
  rw [show ([] : List ℕ).map h.mem.z = [] from rfl, show newZ h.mem ([] : List Z) = (h.mem, []) from rfl] at hx
  dsimp only at hx
  obtain ⟨hlc, -, hcr⟩ := copyTab_ok h.st.g.tab h.mem h.mem (Le.refl _) hst.tab
  generalize threadP copyEntry h.mem h.st.g.tab = c at hlc hcr hx
  rw [show thread (hCorBlock env jp.base h.st.g.tab) c.1 ([] : List Z).zipIdx = .ok (c.1, []) from rfl] at hx
  dsimp only at hx
  have key := hcr (fun a => h.mem.ns ≤ a) (fun a => h.mem.nc ≤ a) ⟨fun _ h _ => h, fun _ h _ => h⟩
  split at hx
  · exact (nomatch hx)
  split at hx
  · exact (nomatch hx)
  split at hx
  · exact (nomatch hx)
  split at hx
  · exact (nomatch hx)
  · rename_i tab' hs' hc
    obtain rfl := Except.ok.inj hx
    intro e he
    have := cleanUpd_in (P := fun a => h.mem.ns ≤ a) (Q := fun a => h.mem.nc ≤ a) hc (fun e he => by
      rcases List.mem_append.1 he with he | he
      · obtain ⟨e0, he0, h1⟩ := List.mem_map.1 he
        obtain rfl := Option.some.inj h1
        have := key e0 he0
        exact ⟨this.s, this.c⟩
      · exact absurd he (by simp)) e he
    exact ⟨this.s, this.c⟩

end field

/-! ### Example -/

/-- The random numbers of the example. -/
def exDraws : ℕ → ℕ → ℕ → ℚ := fun _ s _ => if s % 2 = 0 then 1 / 2 else 9 / 10

/-- A program: arrays for a birth term and two measurements, the first time step; then the caller reuses its arrays for the next
time step. -/
def exJProg : List (JAct ℚ ℕ Unit ℚ Unit ℚ) :=
  [.mem (.newS 0), .mem (.newC ()), .mem (.newZ 4), .mem (.newZ 8),
    .call (.predict exTrackEnv 0 [⟨[()], [1], [0], [0], 9 / 10⟩]), .mem (.setS 0 10),
    .call (.correct exTrackEnv [⟨[()], [1], [0], [0], 9 / 10⟩] exDraws [0, 1]), .mem (.setZ 0 6),
    .call (.cleanup exTrackEnv true true true true true), .call (.predict exTrackEnv 1 [⟨[()], [1], [0], [0], 9 / 10⟩]),
    .call (.correct exTrackEnv [⟨[()], [1], [0], [0], 9 / 10⟩] exDraws [0])]

/-- The new filter of the example. -/
def exJNew : JHF ℚ ℕ Unit ℚ Unit ℚ := newJoint (fun _ => 0) (fun _ => ()) fun _ => 0

/-- Checking fairness of an action. -/
def jfairActB (m : Mem S C Z) (w : Own) : JAct K τ F S C Z → Bool
  | .mem (.setS a _) => decide (a ∈ w.s)
  | .mem (.setC a _) => decide (a ∈ w.c)
  | .mem (.setZ a _) => decide (a ∈ w.z)
  | .mem _ => true
  | .call (.predict _ _ births) =>
    births.all fun b => b.states.all (fun a => decide (a < m.ns)) && b.covs.all fun a => decide (a < m.nc)
  | .call (.correct _ births _ zs) =>
    (births.all fun b => b.states.all (fun a => decide (a < m.ns)) && b.covs.all fun a => decide (a < m.nc)) &&
      zs.all fun a => decide (a < m.nz)
  | _ => true

theorem jfairActB_ok (m : Mem S C Z) (w : Own) (a : JAct K τ F S C Z) (h : jfairActB m w a = true) : JFairAct m w a := by
  cases a with
  | call o =>
    cases o with
    | predict env lab births => simpa [jfairActB, JFairAct, JArgsExist] using h
    | correct env births draws zs => simpa [jfairActB, JFairAct, JArgsExist] using h
    | _ => trivial
  | mem a =>
    cases a with
    | setS a v => exact (of_decide_eq_true h : a ∈ w.s)
    | setC a v => exact (of_decide_eq_true h : a ∈ w.c)
    | setZ a v => exact (of_decide_eq_true h : a ∈ w.z)
    | _ => trivial

/-- Checking fairness of a program. -/
def jfairB [Field K] [LinearOrder K] [FloorRing K] [DecidableEq τ] (jp : JParams K) :
    JHF K τ F S C Z → Own → List (JAct K τ F S C Z) → Bool
  | _, _, [] => true
  | h, w, a :: l => jfairActB h.mem w a &&
    match jact jp h a with
    | .ok h' => jfairB jp h' (w.afterJ h.mem a) l
    | .error _ => true

theorem jfairB_ok [Field K] [LinearOrder K] [FloorRing K] [DecidableEq τ] (jp : JParams K) :
    ∀ (l : List (JAct K τ F S C Z)) (h : JHF K τ F S C Z) (w : Own), jfairB jp h w l = true → JFair jp h w l := by
  intro l
  induction l with
  | nil => exact fun _ _ _ => trivial
  | cons a l ih =>
    intro h w hb
    unfold jfairB at hb
    rw [Bool.and_eq_true] at hb
    refine ⟨jfairActB_ok _ _ _ hb.1, fun h' hx => ih h' _ ?_⟩
    rw [hx] at hb
    exact hb.2

theorem toOption_some {ε α : Type*} {x : Except ε α} {y : α} (h : x.toOption = some y) : x = .ok y := by
  cases x with
  | error e => exact (nomatch h)
  | ok z => exact congrArg _ (Option.some.inj h)

/-- The example is fair, succeeds, and the filter has used the contents at the time of the calls: the first birth was at 0 and the
second at 10, the measurements were 4, 8 and then 6. -/
example : JFair exJPr exJNew ⟨[], [], []⟩ exJProg ∧
    (jcallsOf exJPr exJNew exJProg).length = 5 ∧ jmeasGiven (jcallsOf exJPr exJNew exJProg) = [[4, 8], [6]] ∧
    ∃ h, jacts exJPr exJNew exJProg = .ok h ∧
      h.read.g.tab.map (fun e => e.sHist) = [[[10]], [[0], [1]], [[2], [3]], [[4], [5]], [[8]]] ∧
      h.readMeas = [[4, 8], [6]] := by
  refine ⟨jfairB_ok _ _ _ _ (by decide +kernel), by decide +kernel, by decide +kernel, ?_⟩
  have : (jacts exJPr exJNew exJProg).toOption.any (fun h =>
      h.read.g.tab.map (fun e => e.sHist) == [[[10]], [[0], [1]], [[2], [3]], [[4], [5]], [[8]]] &&
        h.readMeas == [[4, 8], [6]]) = true := by
    decide +kernel
  rw [Option.any_eq_true] at this
  obtain ⟨h, hh, h0⟩ := this
  simp only [Bool.and_eq_true, beq_iff_eq] at h0
  exact ⟨h, toOption_some hh, h0.1, h0.2⟩

/-- `C157_missed` applies to the example: a correction without measurements after the second prediction. -/
example : ∃ h h', jacts exJPr exJNew (exJProg.take 10) = .ok h ∧ StIn (Bnd h.mem).1 (Bnd h.mem).2 h.st.g ∧
    jhCorrect exTrackEnv exJPr [⟨[()], [1], [0], [0], 9 / 10⟩] exDraws [] h = .ok h' ∧ h'.st.g.tab.length = 4 := by
  have : (jacts exJPr exJNew (exJProg.take 10)).toOption.any (fun h =>
      (jhCorrect exTrackEnv exJPr [⟨[()], [1], [0], [0], 9 / 10⟩] exDraws [] h).toOption.any fun h' =>
        h'.st.g.tab.length == 4) = true := by
    decide +kernel
  rw [Option.any_eq_true] at this
  obtain ⟨h, hh, h0⟩ := this
  rw [Option.any_eq_true] at h0
  obtain ⟨h', hh', h0⟩ := h0
  have hf : JFair exJPr exJNew ⟨[], [], []⟩ (exJProg.take 10) := jfairB_ok _ _ _ _ (by decide +kernel)
  exact ⟨h, h', toOption_some hh, ((jacts_ok exJPr _ _ _ (newJoint_inv _ _ _) hf).2 h (toOption_some hh)).1.bnd,
    toOption_some hh', beq_iff_eq.1 h0⟩

/-- **C157 is false for arrays that the filter hands out.** After the first time step the caller changes an array of `states` in
place: the next prediction of the filter starts from the changed array. -/
theorem C157_refuted : ∃ (h : JHF ℚ ℕ Unit ℚ Unit ℚ) (a : ℕ) (o : JHOp ℚ ℕ Unit ℚ Unit ℚ) (h1 h2 : JHF ℚ ℕ Unit ℚ Unit ℚ),
    jacts exJPr exJNew (exJProg.take 9) = .ok h ∧ (∃ l ∈ h.st.g.states, a ∈ l) ∧
      jacts exJPr h [.call o] = .ok h1 ∧ jacts exJPr h [.mem (.setS a 100), .call o] = .ok h2 ∧
      h1.read.g.tab.map (fun e => e.sHist) = [[[10]], [[0], [1]], [[2], [3]], [[4], [5]]] ∧
      h2.read.g.tab.map (fun e => e.sHist) = [[[10]], [[0], [1]], [[100], [101]], [[4], [5]]] := by
  have h0 : (jacts exJPr exJNew (exJProg.take 9)).toOption.any (fun h => h.st.g.states == [[3]] &&
      (jacts exJPr h [.call (.predict exTrackEnv 1 [⟨[()], [1], [0], [0], 9 / 10⟩])]).toOption.any (fun h1 =>
        h1.read.g.tab.map (fun e => e.sHist) == [[[10]], [[0], [1]], [[2], [3]], [[4], [5]]]) &&
      (jacts exJPr h [.mem (.setS 3 100), .call (.predict exTrackEnv 1 [⟨[()], [1], [0], [0], 9 / 10⟩])]).toOption.any (fun h2 =>
        h2.read.g.tab.map (fun e => e.sHist) == [[[10]], [[0], [1]], [[100], [101]], [[4], [5]]])) = true := by
    decide +kernel
  rw [Option.any_eq_true] at h0
  obtain ⟨h, hh, h0⟩ := h0
  simp only [Bool.and_eq_true, Option.any_eq_true, beq_iff_eq] at h0
  obtain ⟨⟨hs, h1, e1, g1⟩, h2, e2, g2⟩ := h0
  exact ⟨h, 3, _, h1, h2, toOption_some hh, ⟨[3], by rw [hs]; simp, by simp⟩, toOption_some e1, toOption_some e2, g1, g2⟩

end Gasur.Props.JglmbHeap
