import Verif.Model.GatedRun
import Verif.Proofs.Gating
import Verif.Props.Phd

/-!
# C152: runs of the PHD and CPHD filters with gating
-/

namespace Gasur.Props.Gate

open Gasur.Gating Gasur.Gated

variable {σ F O Z Er V P K : Type*} [Field K] [LinearOrder K]

/-! ### Specification -/

/-- The measurements given to the calls of `correct`, in order. -/
def given : List (Gated.Op F O Z V P K) → List (List Z)
  | [] => []
  | .correct _ _ zs :: ops => zs :: given ops
  | .other _ :: ops => given ops
  | .setGate _ _ :: ops => given ops

/-- The run of the filter without gating: the calls of `correct` get their measurements from the list. -/
def plain (M : Machine σ F O Z Er V P) : σ → List (Gated.Op F O Z V P K) → List (List Z) → Except Er σ
  | s, .correct f _ _ :: ops, zs =>
    match M.correct f (zs.headD []) s with
    | .error e => .error e
    | .ok s' => plain M s' ops zs.tail
  | s, .other o :: ops, zs =>
    match M.other o s with
    | .error e => .error e
    | .ok s' => plain M s' ops zs
  | s, .setGate _ _ :: ops, zs => plain M s ops zs
  | s, [], _ => .ok s

/-- The filter's own state. -/
def core : Except Er (GState σ Z K) → Except Er σ
  | .error e => .error e
  | .ok st => .ok st.s

/-! ### Theorems -/

/-- **C152**: one call of `correct` with gating on uses exactly the measurements, in order, whose distance to some component
of the mixture at that time is below the gate. -/
theorem C152_used (M : Machine σ F O Z Er V P) (st : GState σ Z K) (d : V → P → Z → K) (meas : List Z) :
    (st.on = false → used M st d meas = meas) ∧
    (st.on = true → (used M st d meas).Sublist meas ∧
      used M st d meas = meas.filter (fun z => (M.comps st.s).any fun mp => decide (d mp.1 mp.2 z < st.gate))) := by
  refine ⟨fun h => by simp [used, h], fun h => ?_⟩
  have : used M st d meas = meas.filter (fun z => (M.comps st.s).any fun mp => decide (d mp.1 mp.2 z < st.gate)) := by
    unfold used
    rw [if_pos h, gateMeas_eq]
    simp [List.any_map, Function.comp_def]
  exact ⟨this ▸ List.filter_sublist, this⟩

theorem used_sublist (M : Machine σ F O Z Er V P) (st : GState σ Z K) (d : V → P → Z → K) (meas : List Z) :
    (used M st d meas).Sublist meas := by
  cases h : st.on
  · rw [(C152_used M st d meas).1 h]
  · exact ((C152_used M st d meas).2 h).1

/-- **C152**: a run with gating, however the gate is switched and moved on the way, is a run without gating on sublists of the
given measurements, and `_meas_tab` holds exactly the lists that were used. -/
theorem C152_refines (M : Machine σ F O Z Er V P) (ops : List (Gated.Op F O Z V P K)) (st : GState σ Z K) :
    ∃ zs, List.Forall₂ List.Sublist zs (given ops) ∧ core (run M st ops) = plain M st.s ops zs ∧
      ∀ st', run M st ops = .ok st' → st'.meas = st.meas ++ zs := by
  induction ops generalizing st with
  | nil => exact ⟨[], .nil, rfl, fun st' h => by obtain rfl := Except.ok.inj h; simp⟩
  | cons o ops ih =>
    cases o with
    | correct f d meas =>
      cases hc : M.correct f (used M st d meas) st.s with
      | error e =>
        refine ⟨used M st d meas :: (given ops).map fun _ => [], ?_, ?_, ?_⟩
        · refine .cons (used_sublist M st d meas) ?_
          induction given ops with
          | nil => exact .nil
          | cons a l ih => exact .cons (List.nil_sublist a) ih
        · simp only [run, step, hc, plain, List.headD_cons, core]
        · intro st' h; simp only [run, step, hc] at h; exact nomatch h
      | ok s' =>
        obtain ⟨zs, h1, h2, h3⟩ := ih { st with s := s', meas := st.meas ++ [used M st d meas] }
        refine ⟨used M st d meas :: zs, .cons (used_sublist M st d meas) h1, ?_, ?_⟩
        · simp only [run, step, hc, plain, List.headD_cons, List.tail_cons]; exact h2
        · intro st' h
          simp only [run, step, hc] at h
          rw [h3 st' h]; simp
    | other o =>
      cases hc : M.other o st.s with
      | error e =>
        refine ⟨(given ops).map fun _ => [], ?_, ?_, ?_⟩
        · show List.Forall₂ _ _ (given ops)
          induction given ops with
          | nil => exact .nil
          | cons a l ih => exact .cons (List.nil_sublist a) ih
        · simp only [run, step, hc, plain, core]
        · intro st' h; simp only [run, step, hc] at h; exact nomatch h
      | ok s' =>
        obtain ⟨zs, h1, h2, h3⟩ := ih { st with s := s' }
        refine ⟨zs, h1, ?_, ?_⟩
        · simp only [run, step, hc, plain]; exact h2
        · intro st' h
          simp only [run, step, hc] at h
          exact h3 st' h
    | setGate on g =>
      obtain ⟨zs, h1, h2, h3⟩ := ih { st with on := on, gate := g }
      refine ⟨zs, h1, ?_, ?_⟩
      · simp only [run, step, plain]; exact h2
      · intro st' h
        simp only [run, step] at h
        exact h3 st' h

/-- **C152**: with gating on, a gate that is not positive, and distances that are not negative, no measurement is ever used:
the run is the one in which every call of `correct` gets an empty list, whatever the measurements. -/
theorem C152_closed_gate (M : Machine σ F O Z Er V P) (ops : List (Gated.Op F O Z V P K)) (st : GState σ Z K)
    (hon : st.on = true) (hg : st.gate ≤ 0) (hset : ∀ on g, Gated.Op.setGate on g ∉ ops)
    (hd : ∀ f d zs, Gated.Op.correct f d zs ∈ ops → ∀ v p, ∀ z ∈ zs, 0 ≤ d v p z) :
    core (run M st ops) = plain M st.s ops [] ∧
      ∀ st', run M st ops = .ok st' → st'.meas = st.meas ++ List.replicate (given ops).length [] := by
  induction ops generalizing st with
  | nil => exact ⟨rfl, fun st' h => by obtain rfl := Except.ok.inj h; simp [given]⟩
  | cons o ops ih =>
    have hset' : ∀ on g, Gated.Op.setGate on g ∉ ops := fun on g h => hset on g (List.mem_cons_of_mem _ h)
    have hd' : ∀ f d zs, Gated.Op.correct f d zs ∈ ops → ∀ v p, ∀ z ∈ zs, 0 ≤ d v p z :=
      fun f d zs h => hd f d zs (List.mem_cons_of_mem _ h)
    cases o with
    | correct f d meas =>
      have hu : used M st d meas = [] := by
        rw [((C152_used M st d meas).2 hon).2, List.filter_eq_nil_iff]
        intro z hz h
        obtain ⟨mp, _, h⟩ := List.any_eq_true.1 h
        have := hd f d meas List.mem_cons_self mp.1 mp.2 z hz
        exact absurd (lt_of_lt_of_le (of_decide_eq_true h) hg) (not_lt.2 this)
      cases hc : M.correct f [] st.s with
      | error e =>
        refine ⟨by simp only [run, step, hu, hc, plain, List.headD_nil, core], ?_⟩
        intro st' h; simp only [run, step, hu, hc] at h; exact nomatch h
      | ok s' =>
        obtain ⟨h2, h3⟩ := ih { st with s := s', meas := st.meas ++ [[]] } hon hg hset' hd'
        refine ⟨by simp only [run, step, hu, hc, plain, List.headD_nil, List.tail_nil]; exact h2, ?_⟩
        intro st' h
        simp only [run, step, hu, hc] at h
        rw [h3 st' h]
        simp [given, List.replicate_succ]
    | other o =>
      cases hc : M.other o st.s with
      | error e =>
        refine ⟨by simp only [run, step, hc, plain, core], ?_⟩
        intro st' h; simp only [run, step, hc] at h; exact nomatch h
      | ok s' =>
        obtain ⟨h2, h3⟩ := ih { st with s := s' } hon hg hset' hd'
        refine ⟨by simp only [run, step, hc, plain]; exact h2, ?_⟩
        intro st' h
        simp only [run, step, hc] at h
        exact h3 st' h
    | setGate on g => exact absurd List.mem_cons_self (hset on g)

/-- **C152**: with a gate that is wider than all distances, gating changes nothing (but `_meas_tab`), if the measurements do not
matter to a filter without components; `I` is an invariant of the filter. -/
theorem C152_wide_gate (M : Machine σ F O Z Er V P) (I : σ → Prop)
    (hempty : ∀ s f zs, I s → M.comps s = [] → M.correct f zs s = M.correct f [] s)
    (ops : List (Gated.Op F O Z V P K)) (st : GState σ Z K) (hI : I st.s)
    (hstep : ∀ o ∈ ops, ∀ st' st'' : GState σ Z K, I st'.s → step M st' o = .ok st'' → I st''.s)
    (hset : ∀ on g, Gated.Op.setGate on g ∉ ops)
    (hd : ∀ f d zs, Gated.Op.correct f d zs ∈ ops → ∀ v p, ∀ z ∈ zs, d v p z < st.gate) :
    core (run M st ops) = plain M st.s ops (given ops) := by
  induction ops generalizing st with
  | nil => rfl
  | cons o ops ih =>
    have hset' : ∀ on g, Gated.Op.setGate on g ∉ ops := fun on g h => hset on g (List.mem_cons_of_mem _ h)
    have hstep' : ∀ o ∈ ops, ∀ st' st'' : GState σ Z K, I st'.s → step M st' o = .ok st'' → I st''.s :=
      fun o h => hstep o (List.mem_cons_of_mem _ h)
    have hd' : ∀ f d zs, Gated.Op.correct f d zs ∈ ops → ∀ v p, ∀ z ∈ zs, d v p z < st.gate :=
      fun f d zs h => hd f d zs (List.mem_cons_of_mem _ h)
    cases o with
    | correct f d meas =>
      have hu : M.correct f (used M st d meas) st.s = M.correct f meas st.s := by
        by_cases hc : M.comps st.s = []
        · rw [hempty st.s f _ hI hc, hempty st.s f meas hI hc]
        · congr 1
          cases hon : st.on
          · exact (C152_used M st d meas).1 hon
          · rw [((C152_used M st d meas).2 hon).2, List.filter_eq_self]
            intro z hz
            obtain ⟨mp, hmp⟩ := List.exists_mem_of_ne_nil _ hc
            exact List.any_eq_true.2 ⟨mp, hmp, decide_eq_true (hd f d meas List.mem_cons_self mp.1 mp.2 z hz)⟩
      cases hc : M.correct f meas st.s with
      | error e => simp only [run, step, hu, hc, plain, given, List.headD_cons, core]
      | ok s' =>
        have hs : step M st (.correct f d meas) = .ok { st with s := s', meas := st.meas ++ [used M st d meas] } := by
          simp only [step, hu, hc]
        have h2 := ih { st with s := s', meas := st.meas ++ [used M st d meas] }
          (hstep _ List.mem_cons_self st _ hI hs) hstep' hset' hd'
        simp only [run, hs, plain, given, List.headD_cons, List.tail_cons, hc]
        exact h2
    | other o =>
      cases hc : M.other o st.s with
      | error e => simp only [run, step, hc, plain, core]
      | ok s' =>
        have hs : step M st (.other o) = .ok { st with s := s' } := by simp only [step, hc]
        have h2 := ih { st with s := s' } (hstep _ List.mem_cons_self st _ hI hs) hstep' hset' hd'
        simp only [run, hs, plain, given, hc]
        exact h2
    | setGate on g => exact absurd List.mem_cons_self (hset on g)

/-- The distance that the code computes (Model/Gating) is never negative, so `C152_closed_gate` applies to it. -/
theorem compDist_nonneg [IsStrictOrderedRing K] {dz ds : ℕ} (chol : Matrix (Fin dz) (Fin dz) K → Matrix (Fin dz) (Fin dz) K)
    (H : (Fin ds → K) → Matrix (Fin dz) (Fin ds) K) (est : (Fin ds → K) → Fin dz → K) (R : Matrix (Fin dz) (Fin dz) K)
    (mp : (Fin ds → K) × Matrix (Fin ds) (Fin ds) K) (z : Fin dz → K) : 0 ≤ compDist chol H est R mp z := by
  unfold compDist codeDist
  exact Finset.sum_nonneg fun _ _ => sq_nonneg _

/-! ### The PHD filter -/

section phd
open Gasur.Phd Gasur.Spec
variable [IsStrictOrderedRing K] [AddCommGroup V] [Module K V] [AddCommGroup P] [Module K P] [FloorRing K]

/-- The calls with the measurements from a list, as calls of Model/Phd. -/
def phdOps : List (Gated.Op (Filt K V P Z) (PhdOther K V P Z) Z V P K) → List (List Z) → List (Phd.Op K V P Z)
  | .correct f _ _ :: ops, zs => .correct f (zs.headD []) :: phdOps ops zs.tail
  | .other o :: ops, zs => o.op :: phdOps ops zs
  | .setGate _ _ :: ops, zs => phdOps ops zs
  | [], _ => []

theorem plain_phd (env : Env K V P Z) (pr : Params K) (ops : List (Gated.Op (Filt K V P Z) (PhdOther K V P Z) Z V P K)) :
    ∀ (s : PState K V P) (zs : List (List Z)), plain (phd env pr) s ops zs = Phd.run env pr s (phdOps ops zs) := by
  induction ops with
  | nil => intro s zs; rfl
  | cons o ops ih =>
    intro s zs
    cases o with
    | correct f d m =>
      simp only [plain, phdOps, Phd.run, phd]
      cases Phd.step env pr s (.correct f (zs.headD [])) with
      | error e => rfl
      | ok s' => exact ih s' zs.tail
    | other o =>
      simp only [plain, phdOps, Phd.run, phd]
      cases Phd.step env pr s o.op with
      | error e => rfl
      | ok s' => exact ih s' zs
    | setGate on g => exact ih s zs

/-- **C152 (PHD).** A run of the PHD filter with gating is a run of the filter without gating on sublists of the measurements;
so everything that is proved about runs of `Model/Phd` holds for it. -/
theorem C152_phd (env : Env K V P Z) (pr : Params K) (ops : List (Gated.Op (Filt K V P Z) (PhdOther K V P Z) Z V P K))
    (st : GState (PState K V P) Z K) :
    ∃ zs, List.Forall₂ List.Sublist zs (given ops) ∧ core (run (phd env pr) st ops) = Phd.run env pr st.s (phdOps ops zs) ∧
      ∀ st', run (phd env pr) st ops = .ok st' → st'.meas = st.meas ++ zs := by
  obtain ⟨zs, h1, h2, h3⟩ := C152_refines (phd env pr) ops st
  exact ⟨zs, h1, by rw [h2, plain_phd], h3⟩

/-- **C152 (PHD).** After assigning the attributes, `correct` uses and records the measurements that are near enough to some
component of the mixture. -/
theorem C152_phd_correct (env : Env K V P Z) (pr : Params K) (st st' : GState (PState K V P) Z K) (g : K)
    (f : Filt K V P Z) (d : V → P → Z → K) (meas : List Z)
    (h : run (phd env pr) st [.setGate true g, .correct f d meas] = .ok st') :
    st'.on = true ∧ st'.gate = g ∧
    st'.meas = st.meas ++ [meas.filter fun z => (st.s.mix.ms.zip st.s.mix.ps).any fun mp => decide (d mp.1 mp.2 z < g)] ∧
    Phd.correct pr f (meas.filter fun z => (st.s.mix.ms.zip st.s.mix.ps).any fun mp => decide (d mp.1 mp.2 z < g))
      st.s.mix = .ok st'.s.mix ∧ st'.s.states = st.s.states := by
  have hu := ((C152_used (phd env pr) ⟨st.s, st.meas, true, g⟩ d meas).2 rfl).2
  dsimp only [phd] at hu
  simp only [Gated.run, Gated.step, phd] at h
  rw [hu] at h
  simp only [Phd.step] at h
  cases hc : Phd.correct pr f (meas.filter fun z => (st.s.mix.ms.zip st.s.mix.ps).any fun mp => decide (d mp.1 mp.2 z < g))
      st.s.mix with
  | error e => rw [hc] at h; exact nomatch h
  | ok m =>
    rw [hc] at h
    obtain rfl := Except.ok.inj h
    exact ⟨rfl, rfl, rfl, rfl, rfl⟩

/-- **C152 (PHD).** A PHD filter that was constructed with gating on, whatever gate was passed, never uses a measurement until
the attributes are assigned: the estimates after any calls are those without any measurements. -/
theorem C152_phd_blind (env : Env K V P Z) (pr : Params K) (g e p m : K) (n : ℕ)
    (ops : List (Gated.Op (Filt K V P Z) (PhdOther K V P Z) Z V P K)) (hset : ∀ on g, Gated.Op.setGate on g ∉ ops)
    (hd : ∀ f d zs, Gated.Op.correct f d zs ∈ ops → ∀ v p, ∀ z ∈ zs, 0 ≤ d v p z) :
    core (run (phd env pr) (phdNew (phdInit true g e p m n)) ops) = Phd.run env pr Phd.init (phdOps ops []) := by
  rw [← plain_phd]
  exact (C152_closed_gate (phd env pr) ops (phdNew (phdInit true g e p m n)) rfl le_rfl hset hd).1

theorem correct_empty (pr : Params K) (f : Filt K V P Z) (zs : List Z) (m : Mix K V P) (h : m.ms = []) :
    Phd.correct pr f zs m = Phd.correct pr f [] m := by
  have : ∀ zs, correctDensity pr f m zs = .ok ⟨[], [], []⟩ := by
    intro zs
    induction zs with
    | nil => rfl
    | cons z zs ih => simp [correctDensity, h, corOne, normalise, ih]
  simp only [Phd.correct, this]

/-- **C152 (PHD).** With a gate that is wider than all distances, well-formed calls on a new PHD filter have the same outcome
with gating as without. -/
theorem C152_phd_wide {env : Env K V P Z} (he : OkEnv env) {pr : Params K} (hpr : OkParams pr) (on : Bool) (gate : K)
    (ops : List (Gated.Op (Filt K V P Z) (PhdOther K V P Z) Z V P K)) (hset : ∀ on g, Gated.Op.setGate on g ∉ ops)
    (hops : ∀ o ∈ phdOps ops (given ops), OkOp o)
    (hd : ∀ f d zs, Gated.Op.correct f d zs ∈ ops → ∀ v p, ∀ z ∈ zs, d v p z < gate) :
    core (run (phd env pr) ⟨Phd.init, [], on, gate⟩ ops) = Phd.run env pr Phd.init (phdOps ops (given ops)) := by
  rw [← plain_phd]
  have hcor : ∀ ops : List (Gated.Op (Filt K V P Z) (PhdOther K V P Z) Z V P K), (∀ o ∈ phdOps ops (given ops), OkOp o) →
      (∀ f d zs, Gated.Op.correct f d zs ∈ ops → ∀ zs', OkOp (Phd.Op.correct f zs' : Phd.Op K V P Z)) ∧
      (∀ o, Gated.Op.other o ∈ ops → OkOp o.op) := by
    intro ops
    induction ops with
    | nil => intro _; exact ⟨fun _ _ _ h => absurd h (by simp), fun _ h => absurd h (by simp)⟩
    | cons o ops ih =>
      intro h
      have h' : ∀ o ∈ phdOps ops (given ops), OkOp o := by
        intro x hx
        apply h
        cases o <;> simp [phdOps, given, hx]
      obtain ⟨i1, i2⟩ := ih h'
      constructor
      · intro f d zs hm zs'
        rcases List.mem_cons.1 hm with rfl | hm
        · exact h (.correct f zs) (by simp [phdOps, given])
        · exact i1 f d zs hm zs'
      · intro x hm
        rcases List.mem_cons.1 hm with rfl | hm
        · exact h x.op (by simp [phdOps, given])
        · exact i2 x hm
  obtain ⟨i1, i2⟩ := hcor ops hops
  refine C152_wide_gate (phd env pr) (fun s => Good s.mix) ?_ ops ⟨Phd.init, [], on, gate⟩
    ⟨by simp [Aligned, Phd.init], by simp [Phd.init]⟩ ?_ hset hd
  · intro s f zs hI hc
    have hms : s.mix.ms = [] := by
      have := hI.1.2
      have hl : (s.mix.ms.zip s.mix.ps).length = 0 := by rw [show s.mix.ms.zip s.mix.ps = [] from hc]; rfl
      rw [List.length_zip, this, min_self] at hl
      exact List.eq_nil_of_length_eq_zero (this.trans hl)
    simp only [phd, Phd.step]
    rw [correct_empty pr f zs s.mix hms]
  · intro o ho st' st'' hI h
    cases o with
    | correct f d meas =>
      simp only [Gated.step, phd] at h
      rcases step_good he hpr hI _ (i1 f d meas ho (used (phd env pr) st' d meas)) with ⟨s', e1, e2⟩ | e1
      · unfold phd at e1
        rw [e1] at h
        obtain rfl := Except.ok.inj h
        exact e2
      · unfold phd at e1
        rw [e1] at h; exact nomatch h
    | other o =>
      simp only [Gated.step, phd] at h
      rcases step_good he hpr hI _ (i2 o ho) with ⟨s', e1, e2⟩ | e1
      · rw [e1] at h
        obtain rfl := Except.ok.inj h
        exact e2
      · rw [e1] at h; exact nomatch h
    | setGate on g => exact absurd ho (hset on g)

/-- A concrete case: two components at 0 and 5, a gate of 5, squared distances; the measurement 20 is dropped, the others are
kept in order. -/
example : used (phd exEnv exParams) ⟨⟨⟨[1, 1 / 2], [0, 5], [1, 1]⟩, []⟩, [], true, (5 : ℚ)⟩ (fun v _ z => (z - v) ^ 2)
    [1, 20, 7] = [1, 7] := by
  rw [((C152_used _ _ _ _).2 rfl).2]
  decide +kernel

/-- A concrete case of `C152_phd_blind`: the run without measurements returns, with one round of estimates; the same calls with
the measurements leave other weights. -/
example : (∀ (v p : ℚ), ∀ z ∈ ([1, 7] : List ℚ), 0 ≤ (fun (v _ z : ℚ) => (z - v) ^ 2) v p z) ∧
    (Phd.run exEnv exParams Phd.init (phdOps [.other (.predict exFilt [⟨[1, 1 / 2], [0, 5], [1, 1]⟩]),
      .correct exFilt (fun v _ z => (z - v) ^ 2) [1, 7], .other .extract] [])).toOption.map (fun s => s.mix.ws.length) = some 2 ∧
    (Phd.run exEnv exParams Phd.init (phdOps [.other (.predict exFilt [⟨[1, 1 / 2], [0, 5], [1, 1]⟩]),
      .correct exFilt (fun v _ z => (z - v) ^ 2) [1, 7], .other .extract] [[1, 7]])).toOption.map
        (fun s => s.mix.ws.length) = some 6 := by
  refine ⟨fun v _ z _ => sq_nonneg _, ?_, ?_⟩ <;> decide +kernel

end phd

/-! ### The CPHD filter -/

section cphd
open Gasur.Phd Gasur.Cphd
variable [AddCommGroup V] [Module ℝ V] [AddCommGroup P] [Module ℝ P]

/-- The calls with the measurements from a list, as calls of Model/Cphd. -/
def cphdOps : List (Gated.Op (Filt ℝ V P Z) (CphdOther V P Z) Z V P ℝ) → List (List Z) → List (Cphd.Op V P Z)
  | .correct f _ _ :: ops, zs => .correct f (zs.headD []) :: cphdOps ops zs.tail
  | .other o :: ops, zs => o.op :: cphdOps ops zs
  | .setGate _ _ :: ops, zs => cphdOps ops zs
  | [], _ => []

theorem plain_cphd (env : Env ℝ V P Z) (esf : List ℝ → List ℝ) (pr : Params ℝ)
    (ops : List (Gated.Op (Filt ℝ V P Z) (CphdOther V P Z) Z V P ℝ)) :
    ∀ (s : CState V P) (zs : List (List Z)), plain (cphd env esf pr) s ops zs = Cphd.run env esf pr s (cphdOps ops zs) := by
  induction ops with
  | nil => intro s zs; rfl
  | cons o ops ih =>
    intro s zs
    cases o with
    | correct f d m =>
      simp only [plain, cphdOps, Cphd.run, cphd]
      cases Cphd.step env esf pr s (.correct f (zs.headD [])) with
      | error e => rfl
      | ok s' => exact ih s' zs.tail
    | other o =>
      simp only [plain, cphdOps, Cphd.run, cphd]
      cases Cphd.step env esf pr s o.op with
      | error e => rfl
      | ok s' => exact ih s' zs
    | setGate on g => exact ih s zs

/-- **C152 (CPHD).** As `C152_phd`. -/
theorem C152_cphd (env : Env ℝ V P Z) (esf : List ℝ → List ℝ) (pr : Params ℝ)
    (ops : List (Gated.Op (Filt ℝ V P Z) (CphdOther V P Z) Z V P ℝ)) (st : GState (CState V P) Z ℝ) :
    ∃ zs, List.Forall₂ List.Sublist zs (given ops) ∧
      core (run (cphd env esf pr) st ops) = Cphd.run env esf pr st.s (cphdOps ops zs) ∧
      ∀ st', run (cphd env esf pr) st ops = .ok st' → st'.meas = st.meas ++ zs := by
  obtain ⟨zs, h1, h2, h3⟩ := C152_refines (cphd env esf pr) ops st
  exact ⟨zs, h1, by rw [h2, plain_cphd], h3⟩

/-- **C152 (CPHD).** As `C152_phd_correct`. -/
theorem C152_cphd_correct (env : Env ℝ V P Z) (esf : List ℝ → List ℝ) (pr : Params ℝ) (st st' : GState (CState V P) Z ℝ)
    (g : ℝ) (f : Filt ℝ V P Z) (d : V → P → Z → ℝ) (meas : List Z)
    (h : run (cphd env esf pr) st [.setGate true g, .correct f d meas] = .ok st') :
    st'.on = true ∧ st'.gate = g ∧
    st'.meas = st.meas ++ [meas.filter fun z => (st.s.mix.ms.zip st.s.mix.ps).any fun mp => decide (d mp.1 mp.2 z < g)] ∧
    Cphd.correct esf pr f
      (meas.filter fun z => (st.s.mix.ms.zip st.s.mix.ps).any fun mp => decide (d mp.1 mp.2 z < g)) st.s = .ok st'.s := by
  have hu := ((C152_used (cphd env esf pr) ⟨st.s, st.meas, true, g⟩ d meas).2 rfl).2
  dsimp only [cphd] at hu
  simp only [Gated.run, Gated.step, cphd] at h
  rw [hu] at h
  simp only [Cphd.step] at h
  cases hc : Cphd.correct esf pr f
      (meas.filter fun z => (st.s.mix.ms.zip st.s.mix.ps).any fun mp => decide (d mp.1 mp.2 z < g)) st.s with
  | error e => rw [hc] at h; exact nomatch h
  | ok m =>
    rw [hc] at h
    obtain rfl := Except.ok.inj h
    exact ⟨rfl, rfl, rfl, rfl⟩

/-- **C152 (CPHD).** As `C152_phd_blind`. -/
theorem C152_cphd_blind (env : Env ℝ V P Z) (esf : List ℝ → List ℝ) (pr : Params ℝ) (g e p m : ℝ) (n N : ℕ)
    (ops : List (Gated.Op (Filt ℝ V P Z) (CphdOther V P Z) Z V P ℝ)) (hset : ∀ on g, Gated.Op.setGate on g ∉ ops)
    (hd : ∀ f d zs, Gated.Op.correct f d zs ∈ ops → ∀ v p, ∀ z ∈ zs, 0 ≤ d v p z) :
    core (run (cphd env esf pr) (cphdNew (phdInit true g e p m n) N) ops)
      = Cphd.run env esf pr (Cphd.init N) (cphdOps ops []) := by
  rw [← plain_cphd]
  exact (C152_closed_gate (cphd env esf pr) ops (cphdNew (phdInit true g e p m n) N) rfl le_rfl hset hd).1

end cphd

end Gasur.Props.Gate
