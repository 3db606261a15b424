import Verif.Props.CphdHeap
import Verif.Props.CphdHistory

/-!
# Property C158: the cardinalized PHD filter and the arrays of the caller
-/

namespace Gasur.Props.CphdHeap

open Gasur.Phd Gasur.Cphd Gasur.Spec Gasur.GlmbHeap Gasur.JglmbHeap Gasur.CphdHeap Gasur.Props.GlmbHeap

variable {V P Z : Type*}

/-! ### Calls -/

/-- What a call does to references: `x` is its outcome from `h`, `y` the outcome of the call on values. -/
structure COk (h : HX V P Z) (x : Except CErr (HX V P Z)) (y : Except CErr (CState V P)) : Prop where
  val : x.map HX.read = y
  le : ∀ h', x = .ok h' → Le h.mem h'.mem
  births : ∀ h', x = .ok h' → h'.births = h.births
  refs : ∀ h', x = .ok h' → ∀ A B : ℕ → Prop, (∀ a, h.mem.ns ≤ a → a < h'.mem.ns → A a) →
    (∀ a, h.mem.nc ≤ a → a < h'.mem.nc → B a) → SIn A B h.st → (∀ b ∈ h.births, MIn A B b) → SIn A B h'.st

/-- All references of the filter exist. -/
structure Ex (h : HX V P Z) : Prop where
  st : SIn (fun a => a < h.mem.ns) (fun a => a < h.mem.nc) h.st
  births : ∀ b ∈ h.births, MIn (fun a => a < h.mem.ns) (fun a => a < h.mem.nc) b

theorem firstWeights_read (m : Mem V P Z) : ∀ bs : List (Mix ℝ ℕ ℕ), firstWeights (bs.map (readMix m)) = firstWeights bs
  | [] => rfl
  | b :: bs => by
    rw [List.map_cons]
    unfold firstWeights
    rw [firstWeights_read m bs, show (readMix m b).ws = b.ws from rfl]

theorem readMix_le {m m' : Mem V P Z} (hl : Le m m') {x : Mix ℝ ℕ ℕ} (h : MIn (fun a => a < m.ns) (fun a => a < m.nc) x) :
    readMix m' x = readMix m x :=
  readMix_congr h (fun a ha => hl.s a ha) fun a ha => hl.c a ha

theorem readSt_le {m m' : Mem V P Z} (hl : Le m m') {s : CState ℕ ℕ} (h : SIn (fun a => a < m.ns) (fun a => a < m.nc) s) :
    CphdHeap.readSt m' s = CphdHeap.readSt m s :=
  readSt_congr h (fun a ha => hl.s a ha) fun a ha => hl.c a ha

/-- New arrays for the means and covariances of a mixture. -/
theorem newMix_ok (m : Mem V P Z) (ms : List V) (ps : List P) (ws : List ℝ) :
    Le m (newC (newS m ms).1 ps).1 ∧
      readMix (newC (newS m ms).1 ps).1 ⟨ws, (newS m ms).2, (newC (newS m ms).1 ps).2⟩ = ⟨ws, ms, ps⟩ ∧
      ∀ A B : ℕ → Prop, (∀ a, m.ns ≤ a → a < (newC (newS m ms).1 ps).1.ns → A a) →
        (∀ a, m.nc ≤ a → a < (newC (newS m ms).1 ps).1.nc → B a) →
        MIn A B ⟨ws, (newS m ms).2, (newC (newS m ms).1 ps).2⟩ := by
  have h1 := newS_ok ms m
  have h2 := newC_ok ps (newS m ms).1
  refine ⟨h1.le.trans h2.le, ?_, fun A B hA hB => MIn.of _ (fun a ha => ?_) fun a ha => ?_⟩
  · unfold readMix
    dsimp only
    rw [h2.val, List.map_congr_left fun a ha => h2.le.s a (h1.rng a ha).2, h1.val]
  · exact hA a (h1.rng a ha).1 ((h1.rng a ha).2.trans_le h2.le.ns)
  · exact hB a (by have := (h2.rng a ha).1; rwa [h1.nc] at this) (h2.rng a ha).2

theorem foldl_extend_in {A B : ℕ → Prop} : ∀ (bs : List (Mix ℝ ℕ ℕ)) (x : Mix ℝ ℕ ℕ), MIn A B x → (∀ b ∈ bs, MIn A B b) →
    MIn A B (bs.foldl extend x)
  | [], _, h, _ => h
  | b :: bs, x, h, hb => by
    refine foldl_extend_in bs _ (MIn.of _ (fun a ha => ?_) fun a ha => ?_) fun c hc => hb c (List.mem_cons_of_mem _ hc)
    · rcases List.mem_append.1 ha with ha | ha
      · exact h.ms a ha
      · exact (hb b List.mem_cons_self).ms a ha
    · rcases List.mem_append.1 ha with ha | ha
      · exact h.ps a ha
      · exact (hb b List.mem_cons_self).ps a ha

theorem predict_ok (pr : Params ℝ) (f : Filt ℝ V P Z) (h : HX V P Z) (i : Ex h) :
    COk h (CphdHeap.hPredict pr f h) (Cphd.predict pr f (h.births.map (readMix h.mem)) h.read) := by
  unfold CphdHeap.hPredict Cphd.predict
  rw [firstWeights_read]
  cases firstWeights h.births with
  | error e => exact ⟨rfl, fun _ h => (nomatch h), fun _ h => (nomatch h), fun _ h => (nomatch h)⟩
  | ok l =>
    dsimp only
    rw [show maxCard h.read = maxCard h.st from rfl, show h.read.card = h.st.card from rfl]
    cases cardPredict (maxCard h.st) pr.probSurvive (probDeath pr) l.sum h.st.card with
    | error e => exact ⟨rfl, fun _ h => (nomatch h), fun _ h => (nomatch h), fun _ h => (nomatch h)⟩
    | ok c =>
      dsimp only
      generalize hrs : (h.st.mix.ms.zip h.st.mix.ps).map (fun x => f.fpred (h.mem.s x.1) (h.mem.c x.2)) = rs
      obtain ⟨hl, hv, hr⟩ := newMix_ok h.mem (rs.map Prod.fst) (rs.map Prod.snd) (h.st.mix.ws.map fun x => pr.probSurvive * x)
      refine ⟨?_, ?_, ?_, ?_⟩
      · show Except.ok _ = Except.ok _
        congr 1
        unfold HX.read CphdHeap.readSt
        dsimp only
        congr 1
        · show mapMix _ _ (List.foldl extend _ _) = _
          rw [← births_map, show mapMix _ _ _ = _ from hv]
          unfold Phd.predict predictDensity
          congr 1
          · subst hrs
            show Mix.mk _ _ _ = Mix.mk _ _ _
            congr 1
            · simp only [readMix, List.zip_map, List.map_map]
              rfl
            · simp only [readMix, List.zip_map, List.map_map]
              rfl
          · exact List.map_congr_left fun b hb => readMix_le hl (i.births b hb)
        · have := readSt_le hl i.st
          exact congrArg CState.states this
      · intro h' e
        obtain rfl := Except.ok.inj e
        exact hl
      · intro h' e
        obtain rfl := Except.ok.inj e
        rfl
      · intro h' e A B hA hB hs hb
        obtain rfl := Except.ok.inj e
        exact hs.set (foldl_extend_in _ _ (hr A B hA hB) hb) _ _

theorem flatMap_const {α β : Type*} (X : List β) : ∀ L : List α, (L.flatMap fun _ => X) = (List.replicate L.length X).flatten
  | [] => rfl
  | a :: L => by
    rw [List.flatMap_cons, List.length_cons, List.replicate_succ, List.flatten_cons, flatMap_const X L]

/-- The covariances after a correction: those of the missed components, then the entries of `cov_temp` for every measurement. -/
theorem correctComps_cov {esf : List ℝ → List ℝ} {pr : Params ℝ} {f : Filt ℝ V P Z} {zs : List Z} {cs cs' : List (ℝ × V × P)}
    {card c : List ℝ} (h : correctComps esf pr f zs cs card = .ok (cs', c)) :
    cs'.map (fun y => y.2.2) = cs.map (fun y => y.2.2) ++ (List.replicate zs.length (covTemp f cs zs)).flatten := by
  unfold correctComps at h
  dsimp only at h
  split at h
  · exact (nomatch h)
  split at h
  · exact (nomatch h)
  split at h
  · exact (nomatch h)
  split at h
  · exact (nomatch h)
  split at h
  · exact (nomatch h)
  · obtain ⟨rfl, rfl⟩ := Prod.mk.inj (Except.ok.inj h)
    rw [List.map_append]
    congr 1
    · unfold missWeights
      rw [List.zipWith_map_left, List.zipWith_self, List.map_map]
      rfl
    · rw [List.map_flatMap]
      have : ∀ ze ∈ zs.zipIdx, ∀ r : ℝ, (detComps pr.probDetection pr.clutterDen r f (zs.getLast?.getD ze.1) ze.1 cs).map
          (fun y => y.2.2) = covTemp f cs zs := by
        intro ze hz r
        unfold detComps covTemp
        cases hzs : zs.getLast? with
        | none =>
          rw [List.getLast?_eq_none_iff.1 hzs] at hz
          exact (nomatch hz)
        | some z =>
          rw [List.map_map]
          rfl
      rw [List.flatMap_congr fun ze hz => this ze hz _, flatMap_const, List.length_zipIdx]

theorem comps_ps {x : Mix ℝ V P} (h : x.ws.length = x.ms.length ∧ x.ms.length = x.ps.length) :
    (comps x).map (fun y => y.2.2) = x.ps := by
  unfold comps
  rw [show (fun y : ℝ × V × P => y.2.2) = Prod.snd ∘ Prod.snd from rfl, ← List.map_map, List.map_snd_zip, List.map_snd_zip]
  · exact h.2.ge
  · rw [List.length_zip, ← h.2, min_self]
    exact h.1.ge

/-- The outcome of a correction. -/
theorem correct_ok (esf : List ℝ → List ℝ) (pr : Params ℝ) (f : Filt ℝ V P Z) (zs : List ℕ) (h : HX V P Z) (i : Ex h) :
    COk h (CphdHeap.hCorrect esf pr f zs h) (Cphd.correct esf pr f (zs.map h.mem.z) h.read) ∧
      ∀ h', CphdHeap.hCorrect esf pr f zs h = .ok h' → h'.meas = h.meas ++ [(newZ h.mem (zs.map h.mem.z)).2] ∧
        Le (newZ h.mem (zs.map h.mem.z)).1 h'.mem := by
  unfold CphdHeap.hCorrect Cphd.correct
  rw [show h.read.mix = readMix h.mem h.st.mix from rfl, show h.read.card = h.st.card from rfl]
  dsimp only
  split
  · rename_i hlen
    cases hc : correctComps esf pr f (zs.map h.mem.z) (comps (readMix h.mem h.st.mix)) h.st.card with
    | error e => exact ⟨⟨rfl, fun _ h => (nomatch h), fun _ h => (nomatch h), fun _ h => (nomatch h)⟩, fun _ h => (nomatch h)⟩
    | ok r =>
      obtain ⟨cs, c⟩ := r
      have hcov := correctComps_cov hc
      dsimp only
      have hd := newZ_ok (zs.map h.mem.z) h.mem
      generalize newZ h.mem (zs.map h.mem.z) = d at hd
      have ha := newS_ok (cs.map fun y => y.2.1) d.1
      generalize newS d.1 (cs.map fun y => y.2.1) = a at ha
      have hb := newC_ok (readMix h.mem h.st.mix).ps a.1
      generalize newC a.1 (readMix h.mem h.st.mix).ps = b at hb
      have hq := newC_ok (covTemp f (comps (readMix h.mem h.st.mix)) (zs.map h.mem.z)) b.1
      generalize newC b.1 (covTemp f (comps (readMix h.mem h.st.mix)) (zs.map h.mem.z)) = q at hq
      have hl1 : Le d.1 q.1 := (ha.le.trans hb.le).trans hq.le
      have hl : Le h.mem q.1 := hd.le.trans hl1
      refine ⟨⟨?_, ?_, ?_, ?_⟩, ?_⟩
      · show Except.ok _ = Except.ok _
        congr 1
        unfold HX.read CphdHeap.readSt
        dsimp only
        congr 1
        · unfold readMix mixOf
          dsimp only
          congr 1
          · rw [List.map_congr_left fun x hx => (hb.le.trans hq.le).s x (ha.rng x hx).2, ha.val]
          · rw [hcov, comps_ps hlen, List.map_append, List.map_congr_left fun x hx => hq.le.c x (hb.rng x hx).2, hb.val,
              List.map_flatten, List.map_replicate, hq.val, List.length_map]
        · exact congrArg CState.states (readSt_le hl i.st)
      · intro h' e
        obtain rfl := Except.ok.inj e
        exact hl
      · intro h' e
        obtain rfl := Except.ok.inj e
        rfl
      · intro h' e A B hA hB hs _
        obtain rfl := Except.ok.inj e
        refine hs.set (MIn.of _ (fun x hx => ?_) fun x hx => ?_) _ _
        · exact hA x (hd.le.ns.trans (ha.rng x hx).1) ((ha.rng x hx).2.trans_le (hb.le.trans hq.le).ns)
        · rcases List.mem_append.1 hx with hx | hx
          · exact hB x ((hd.le.trans ha.le).nc.trans (hb.rng x hx).1) ((hb.rng x hx).2.trans_le hq.le.nc)
          · obtain ⟨l, hl', hx⟩ := List.mem_flatten.1 hx
            rw [(List.mem_replicate.1 hl').2] at hx
            exact hB x (((hd.le.trans ha.le).trans hb.le).nc.trans (hq.rng x hx).1) (hq.rng x hx).2
      · intro h' e
        obtain rfl := Except.ok.inj e
        exact ⟨rfl, hl1⟩
  · exact ⟨⟨rfl, fun _ h => (nomatch h), fun _ h => (nomatch h), fun _ h => (nomatch h)⟩, fun _ h => (nomatch h)⟩

theorem extract_read (argsort : List ℝ → List ℕ) (m : Mem V P Z) (s : CState ℕ ℕ) :
    Cphd.extract argsort (CphdHeap.readSt m s) = (Cphd.extract argsort s).map (CphdHeap.readSt m) :=
  extract_map m.s m.c argsort s

theorem extract_ok (argsort : List ℝ → List ℕ) (h : HX V P Z) :
    COk h (match Cphd.extract argsort h.st with
      | .error e => .error e
      | .ok s => .ok { h with st := s }) (Cphd.extract argsort h.read) := by
  rw [show h.read = CphdHeap.readSt h.mem h.st from rfl, extract_read]
  cases hx : Cphd.extract argsort h.st with
  | error e => exact ⟨rfl, fun _ h => (nomatch h), fun _ h => (nomatch h), fun _ h => (nomatch h)⟩
  | ok s =>
    refine ⟨rfl, ?_, ?_, ?_⟩
    · intro h' e
      obtain rfl := Except.ok.inj e
      exact Le.refl _
    · intro h' e
      obtain rfl := Except.ok.inj e
      rfl
    · intro h' e A B _ _ hs _
      obtain rfl := Except.ok.inj e
      exact extract_in hs hx

section module
variable [AddCommGroup V] [Module ℝ V] [AddCommGroup P] [Module ℝ P]

theorem merge_ok (env : Env ℝ V P Z) (pr : Params ℝ) (b : Bool) (m : Mem V P Z) (x : Mix ℝ ℕ ℕ) :
    (hMerge env pr b m x).map (fun y => readMix y.1 y.2) = liftE (optStep b (merge env.quad pr) (readMix m x)) ∧
      ∀ m' y, hMerge env pr b m x = .ok (m', y) → Le m m' ∧ ∀ A B : ℕ → Prop, (∀ a, m.ns ≤ a → a < m'.ns → A a) →
        (∀ a, m.nc ≤ a → a < m'.nc → B a) → MIn A B x → MIn A B y := by
  unfold hMerge optStep
  cases b with
  | false =>
    refine ⟨rfl, fun m' y e => ?_⟩
    obtain ⟨rfl, rfl⟩ := Prod.mk.inj (Except.ok.inj e)
    exact ⟨Le.refl _, fun _ _ _ _ h => h⟩
  | true =>
    rw [if_pos rfl, if_pos rfl]
    cases liftE (merge env.quad pr (readMix m x)) with
    | error e => exact ⟨rfl, fun _ _ h => (nomatch h)⟩
    | ok z =>
      obtain ⟨h1, h2, h3⟩ := newMix_ok m z.ms z.ps z.ws
      refine ⟨congrArg Except.ok h2, fun m' y e => ?_⟩
      obtain ⟨rfl, rfl⟩ := Prod.mk.inj (Except.ok.inj e)
      exact ⟨h1, fun A B hA hB _ => h3 A B hA hB⟩

theorem cleanup_ok (env : Env ℝ V P Z) (pr : Params ℝ) (bp bm bc be : Bool) (h : HX V P Z) (i : Ex h) :
    COk h (hCleanup env pr bp bm bc be h) (Cphd.cleanup env pr bp bm bc be h.read) := by
  unfold hCleanup Cphd.cleanup
  rw [show h.read.mix = mapMix h.mem.s h.mem.c h.st.mix from rfl, optStep_map _ _ bp (prune_map _ _ pr h.st.mix)]
  cases h1 : liftE (optStep bp (prune pr) h.st.mix) with
  | error e => exact ⟨rfl, fun _ h => (nomatch h), fun _ h => (nomatch h), fun _ h => (nomatch h)⟩
  | ok m1 =>
    have i1 : ∀ A B : ℕ → Prop, SIn A B h.st → MIn A B m1 := fun A B hs =>
      delAll_in hs.mix bp (f := prune pr) (fun g k x => prune_map g k pr x) h1
    obtain ⟨hv, hm⟩ := merge_ok env pr bm h.mem m1
    dsimp only [Except.map]
    rw [show mapMix h.mem.s h.mem.c m1 = readMix h.mem m1 from rfl, ← hv]
    cases h2 : hMerge env pr bm h.mem m1 with
    | error e => exact ⟨rfl, fun _ h => (nomatch h), fun _ h => (nomatch h), fun _ h => (nomatch h)⟩
    | ok r =>
      obtain ⟨mem, m2⟩ := r
      obtain ⟨hl, hin⟩ := hm mem m2 h2
      dsimp only [Except.map]
      rw [show readMix mem m2 = mapMix mem.s mem.c m2 from rfl, optStep_map _ _ bc (cap_map _ _ env.argsort pr m2)]
      cases h3 : liftE (optStep bc (cap env.argsort pr) m2) with
      | error e => exact ⟨rfl, fun _ h => (nomatch h), fun _ h => (nomatch h), fun _ h => (nomatch h)⟩
      | ok m3 =>
        have i3 : ∀ A B : ℕ → Prop, MIn A B m2 → MIn A B m3 := fun A B hs =>
          delAll_in hs bc (f := cap env.argsort pr) (fun g k x => cap_map g k env.argsort pr x) h3
        have hst : { h.read with mix := mapMix mem.s mem.c m3 } = CphdHeap.readSt mem { h.st with mix := m3 } := by
          unfold HX.read
          rw [← readSt_le hl i.st]
          rfl
        dsimp only [Except.map]
        rw [hst]
        cases be with
        | false =>
          refine ⟨rfl, ?_, ?_, ?_⟩
          · intro h' e
            obtain rfl := Except.ok.inj e
            exact hl
          · intro h' e
            obtain rfl := Except.ok.inj e
            rfl
          · intro h' e A B hA hB hs _
            obtain rfl := Except.ok.inj e
            exact hs.set (i3 A B (hin A B hA hB (i1 A B hs))) _ _
        | true =>
          rw [if_pos rfl, if_pos rfl, extract_read]
          cases h4 : Cphd.extract env.argsort { h.st with mix := m3 } with
          | error e => exact ⟨rfl, fun _ h => (nomatch h), fun _ h => (nomatch h), fun _ h => (nomatch h)⟩
          | ok s =>
            refine ⟨rfl, ?_, ?_, ?_⟩
            · intro h' e
              obtain rfl := Except.ok.inj e
              exact hl
            · intro h' e
              obtain rfl := Except.ok.inj e
              rfl
            · intro h' e A B hA hB hs _
              obtain rfl := Except.ok.inj e
              exact extract_in (hs.set (i3 A B (hin A B hA hB (i1 A B hs))) _ _) h4

/-- A call with the contents of the arrays. -/
def valOp (bs : List (Mix ℝ V P)) (m : Mem V P Z) : XOp V P Z → Cphd.Op V P Z
  | .predict f => .predict f bs
  | .correct f zs => .correct f (zs.map m.z)
  | .cleanup p g c e => .cleanup p g c e
  | .extract => .extract
  | .setMax n => .setMax n

theorem step_ok (env : Env ℝ V P Z) (esf : List ℝ → List ℝ) (pr : Params ℝ) (o : XOp V P Z) (h : HX V P Z) (i : Ex h) :
    COk h (hStep env esf pr h o) (Cphd.step env esf pr h.read (valOp (h.births.map (readMix h.mem)) h.mem o)) := by
  cases o with
  | predict f => exact predict_ok pr f h i
  | correct f zs => exact (correct_ok esf pr f zs h i).1
  | cleanup bp bm bc be => exact cleanup_ok env pr bp bm bc be h i
  | extract => exact extract_ok env.argsort h
  | setMax n =>
    refine ⟨rfl, ?_, ?_, ?_⟩
    · intro h' e
      obtain rfl := Except.ok.inj e
      exact Le.refl _
    · intro h' e
      obtain rfl := Except.ok.inj e
      rfl
    · intro h' e A B _ _ hs _
      obtain rfl := Except.ok.inj e
      exact hs.set hs.mix _ _

/-! ### Programs -/

/-- The filter holds only existing arrays that the program has not made; the birth terms are `bs`. -/
structure CInv (bs : List (Mix ℝ V P)) (h : HX V P Z) (w : Own) : Prop where
  st : SIn (fun a => a < h.mem.ns ∧ a ∉ w.s) (fun a => a < h.mem.nc ∧ a ∉ w.c) h.st
  births : ∀ b ∈ h.births, MIn (fun a => a < h.mem.ns ∧ a ∉ w.s) (fun a => a < h.mem.nc ∧ a ∉ w.c) b
  bs : h.births.map (readMix h.mem) = bs
  meas : ∀ l ∈ h.meas, ∀ a ∈ l, a < h.mem.nz ∧ a ∉ w.z
  own : OwnExists h.mem w

variable {bs : List (Mix ℝ V P)}

omit [AddCommGroup V] [Module ℝ V] [AddCommGroup P] [Module ℝ P] in
theorem CInv.ex {h : HX V P Z} {w : Own} (i : CInv bs h w) : Ex h :=
  ⟨i.st.mono (fun _ h => h.1) fun _ h => h.1, fun b hb => (i.births b hb).mono (fun _ h => h.1) fun _ h => h.1⟩

/-- The measurement table after a call. -/
theorem step_meas (env : Env ℝ V P Z) (esf : List ℝ → List ℝ) (pr : Params ℝ) (o : XOp V P Z) (h h' : HX V P Z) (w : Own)
    (i : CInv bs h w) (hx : hStep env esf pr h o = .ok h') :
    (∀ l ∈ h'.meas, ∀ a ∈ l, a < h'.mem.nz ∧ a ∉ w.z) ∧ h'.readMeas = h.readMeas ++ xmeasGiven [valOp bs h.mem o] := by
  have hl := (step_ok env esf pr o h i.ex).le h' hx
  have hsame : h'.meas = h.meas → (∀ l ∈ h'.meas, ∀ a ∈ l, a < h'.mem.nz ∧ a ∉ w.z) ∧ h'.readMeas = h.readMeas ++ [] := by
    intro e
    constructor
    · intro l hl' a ha
      rw [e] at hl'
      exact ⟨(i.meas l hl' a ha).1.trans_le hl.nz, (i.meas l hl' a ha).2⟩
    · unfold HX.readMeas
      rw [e, List.append_nil]
      exact maps_congr i.meas fun a ha => hl.z a ha.1
  cases o with
  | predict f =>
    refine hsame ?_
    unfold CphdHeap.hStep CphdHeap.hPredict at hx
    dsimp only at hx
    repeat' split at hx
    all_goals first
      | (cases hx; done)
      | (cases hx; rfl)
  | correct f zs =>
    obtain ⟨e', hl2⟩ := (correct_ok esf pr f zs h i.ex).2 h' hx
    have hN := newZ_ok (zs.map h.mem.z) h.mem
    constructor
    · intro l hl' a ha
      rw [e'] at hl'
      rcases List.mem_append.1 hl' with hl' | hl'
      · exact ⟨(i.meas l hl' a ha).1.trans_le hl.nz, (i.meas l hl' a ha).2⟩
      · rw [List.mem_singleton.1 hl'] at ha
        exact ⟨(hN.rng a ha).2.trans_le hl2.nz, fun hw => absurd (i.own.z a hw) (by have := (hN.rng a ha).1; omega)⟩
    · unfold HX.readMeas
      rw [e', List.map_append, maps_congr i.meas fun a ha => hl.z a ha.1, List.map_singleton,
        List.map_congr_left fun a ha => hl2.z a (hN.rng a ha).2, hN.val]
      rfl
  | cleanup bp bm bc be =>
    refine hsame ?_
    unfold CphdHeap.hStep hCleanup at hx
    dsimp only at hx
    repeat' split at hx
    all_goals first
      | (cases hx; done)
      | (cases hx; rfl)
  | extract =>
    refine hsame ?_
    unfold CphdHeap.hStep at hx
    dsimp only at hx
    split at hx
    · exact (nomatch hx)
    · obtain rfl := Except.ok.inj hx
      rfl
  | setMax n =>
    refine hsame ?_
    obtain rfl := Except.ok.inj hx
    rfl

/-- A call keeps the invariant. -/
theorem step_inv (env : Env ℝ V P Z) (esf : List ℝ → List ℝ) (pr : Params ℝ) (o : XOp V P Z) (h h' : HX V P Z) (w : Own)
    (i : CInv bs h w) (hx : hStep env esf pr h o = .ok h') : CInv bs h' w := by
  have hc := step_ok env esf pr o h i.ex
  have hl := hc.le h' hx
  have hb := hc.births h' hx
  have mono : ∀ {x : Mix ℝ ℕ ℕ}, MIn (fun a => a < h.mem.ns ∧ a ∉ w.s) (fun a => a < h.mem.nc ∧ a ∉ w.c) x →
      MIn (fun a => a < h'.mem.ns ∧ a ∉ w.s) (fun a => a < h'.mem.nc ∧ a ∉ w.c) x := fun hx =>
    hx.mono (fun b hb => ⟨hb.1.trans_le hl.ns, hb.2⟩) fun b hb => ⟨hb.1.trans_le hl.nc, hb.2⟩
  refine ⟨?_, ?_, ?_, (step_meas env esf pr o h h' w i hx).1, fun b hb => (i.own.s b hb).trans_le hl.ns,
    fun b hb => (i.own.c b hb).trans_le hl.nc, fun b hb => (i.own.z b hb).trans_le hl.nz⟩
  · refine hc.refs h' hx _ _ ?_ ?_ ?_ ?_
    · exact fun b h1 h2 => ⟨h2, fun hb => absurd (i.own.s b hb) (by omega)⟩
    · exact fun b h1 h2 => ⟨h2, fun hb => absurd (i.own.c b hb) (by omega)⟩
    · exact i.st.mono (fun b hb => ⟨hb.1.trans_le hl.ns, hb.2⟩) fun b hb => ⟨hb.1.trans_le hl.nc, hb.2⟩
    · exact fun b hb => mono (i.births b hb)
  · rw [hb]
    exact fun b hb => mono (i.births b hb)
  · rw [hb, ← i.bs]
    exact List.map_congr_left fun b hb => readMix_le hl (i.ex.births b hb)

omit [AddCommGroup V] [Module ℝ V] [AddCommGroup P] [Module ℝ P] in
/-- Changing arrays: the invariant is kept, and the filter sees nothing. -/
theorem mem_ok (h : HX V P Z) (w : Own) (i : CInv bs h w) (a : MemAct V P Z) (ha : XFairAct h.mem w (.mem a)) :
    CInv bs { h with mem := memAct h.mem a } (w.afterX h.mem (.mem a : XAct V P Z)) ∧
      HX.read { h with mem := memAct h.mem a } = h.read ∧ HX.readMeas { h with mem := memAct h.mem a } = h.readMeas := by
  have keep : ∀ {w' : Own} {m' : Mem V P Z}, Le h.mem m' → (∀ b, b < h.mem.ns → b ∉ w.s → b ∉ w'.s) →
      (∀ b, b < h.mem.nc → b ∉ w.c → b ∉ w'.c) → (∀ b, b < h.mem.nz → b ∉ w.z → b ∉ w'.z) → OwnExists m' w' →
      CInv bs { h with mem := m' } w' ∧ (HX.read { h with mem := m' } = h.read ∧ HX.readMeas { h with mem := m' } = h.readMeas) := by
    intro w' m' hl h1 h2 h3 h4
    refine ⟨⟨i.st.mono (fun b hb => ⟨hb.1.trans_le hl.ns, h1 b hb.1 hb.2⟩) fun b hb => ⟨hb.1.trans_le hl.nc, h2 b hb.1 hb.2⟩,
      fun b hb => (i.births b hb).mono (fun b hb => ⟨hb.1.trans_le hl.ns, h1 b hb.1 hb.2⟩)
        fun b hb => ⟨hb.1.trans_le hl.nc, h2 b hb.1 hb.2⟩, ?_,
      fun l hl' b hb => ⟨(i.meas l hl' b hb).1.trans_le hl.nz, h3 b (i.meas l hl' b hb).1 (i.meas l hl' b hb).2⟩, h4⟩,
      ?_, ?_⟩
    · rw [← i.bs]
      exact List.map_congr_left fun b hb => readMix_le hl (i.ex.births b hb)
    · exact readSt_le hl i.ex.st
    · exact maps_congr i.meas fun b hb => hl.z b hb.1
  have same : ∀ {m' : Mem V P Z}, m'.ns = h.mem.ns → m'.nc = h.mem.nc → m'.nz = h.mem.nz →
      (∀ b, b < h.mem.ns ∧ b ∉ w.s → m'.s b = h.mem.s b) → (∀ b, b < h.mem.nc ∧ b ∉ w.c → m'.c b = h.mem.c b) →
      (∀ b, b < h.mem.nz ∧ b ∉ w.z → m'.z b = h.mem.z b) →
      CInv bs { h with mem := m' } w ∧ (HX.read { h with mem := m' } = h.read ∧ HX.readMeas { h with mem := m' } = h.readMeas) := by
    intro m' e1 e2 e3 hs hc hz
    refine ⟨⟨?_, ?_, ?_, ?_, ?_⟩, ?_, ?_⟩
    · show SIn (fun a => a < m'.ns ∧ _) (fun a => a < m'.nc ∧ _) _
      rw [e1, e2]
      exact i.st
    · show ∀ b ∈ h.births, MIn (fun a => a < m'.ns ∧ _) (fun a => a < m'.nc ∧ _) b
      rw [e1, e2]
      exact i.births
    · rw [← i.bs]
      exact List.map_congr_left fun b hb => readMix_congr (m := m') (m' := h.mem) (i.births b hb) hs hc
    · show ∀ l ∈ h.meas, ∀ a ∈ l, a < m'.nz ∧ _
      rw [e3]
      exact i.meas
    · exact ⟨fun b hb => (i.own.s b hb).trans_eq e1.symm, fun b hb => (i.own.c b hb).trans_eq e2.symm,
        fun b hb => (i.own.z b hb).trans_eq e3.symm⟩
    · exact readSt_congr (m := m') (m' := h.mem) i.st hs hc
    · exact maps_congr i.meas hz
  have grow : ∀ {l : List ℕ} {n : ℕ}, (∀ a ∈ l, a < n) → ∀ b ∈ n :: l, b < n + 1 := by
    intro l n hl b hb
    rcases List.mem_cons.1 hb with rfl | hb
    · exact Nat.lt_succ_self _
    · exact (hl b hb).trans (Nat.lt_succ_self _)
  have fresh : ∀ {l : List ℕ} {n : ℕ} (b : ℕ), b < n → b ∉ l → b ∉ n :: l := by
    intro l n b hb hn
    rw [List.mem_cons, not_or]
    exact ⟨hb.ne, hn⟩
  cases a with
  | newS v =>
    exact keep (w' := { w with s := h.mem.ns :: w.s }) (newS_ok [v] h.mem).le fresh (fun _ _ h => h) (fun _ _ h => h)
      ⟨grow i.own.s, i.own.c, i.own.z⟩
  | newC v =>
    exact keep (w' := { w with c := h.mem.nc :: w.c }) (newC_ok [v] h.mem).le (fun _ _ h => h) fresh (fun _ _ h => h)
      ⟨i.own.s, grow i.own.c, i.own.z⟩
  | newZ v =>
    exact keep (w' := { w with z := h.mem.nz :: w.z }) (newZ_ok [v] h.mem).le (fun _ _ h => h) (fun _ _ h => h) fresh
      ⟨i.own.s, i.own.c, grow i.own.z⟩
  | setS r v =>
    exact same (m' := memAct h.mem (.setS r v)) rfl rfl rfl
      (fun b hb => Function.update_of_ne (fun e : b = r => hb.2 (e ▸ ha)) _ _) (fun _ _ => rfl) fun _ _ => rfl
  | setC r v =>
    exact same (m' := memAct h.mem (.setC r v)) rfl rfl rfl (fun _ _ => rfl)
      (fun b hb => Function.update_of_ne (fun e : b = r => hb.2 (e ▸ ha)) _ _) fun _ _ => rfl
  | setZ r v =>
    exact same (m' := memAct h.mem (.setZ r v)) rfl rfl rfl (fun _ _ => rfl) (fun _ _ => rfl)
      fun b hb => Function.update_of_ne (fun e : b = r => hb.2 (e ▸ ha)) _ _

omit [AddCommGroup V] [Module ℝ V] [AddCommGroup P] [Module ℝ P] in
theorem xmeas_cons (o : Cphd.Op V P Z) (l : List (Cphd.Op V P Z)) : xmeasGiven (o :: l) = xmeasGiven [o] ++ xmeasGiven l := by
  cases o <;> rfl

omit [AddCommGroup V] [Module ℝ V] [AddCommGroup P] [Module ℝ P] in
theorem xcallOf_call (m : Mem V P Z) (o : XOp V P Z) : xcallOf bs m (.call o) = [valOp bs m o] := by
  cases o <;> rfl

/-- A fair program from a state where nothing is shared. -/
theorem xacts_ok (env : Env ℝ V P Z) (esf : List ℝ → List ℝ) (pr : Params ℝ) : ∀ (l : List (XAct V P Z)) (h : HX V P Z)
    (w : Own), CInv bs h w → XFair env esf pr h w l →
    (xacts env esf pr h l).map HX.read = Cphd.run env esf pr h.read (xcallsOf env esf pr bs h l) ∧
      ∀ h', xacts env esf pr h l = .ok h' → CInv bs h' (xownAtEnd env esf pr h w l) ∧
        h'.readMeas = h.readMeas ++ xmeasGiven (xcallsOf env esf pr bs h l) := by
  intro l
  induction l with
  | nil =>
    intro h w i _
    refine ⟨rfl, fun h' e => ?_⟩
    obtain rfl := Except.ok.inj e
    exact ⟨i, (List.append_nil _).symm⟩
  | cons a l ih =>
    intro h w i hf
    obtain ⟨hfa, hfl⟩ := hf
    cases a with
    | mem a =>
      obtain ⟨i1, hr, hm⟩ := mem_ok h w i a hfa
      obtain ⟨g1, g2⟩ := ih { h with mem := memAct h.mem a } _ i1 (hfl _ rfl)
      rw [hr] at g1
      rw [hm] at g2
      exact ⟨g1, g2⟩
    | call o =>
      have hc := step_ok env esf pr o h i.ex
      rw [i.bs] at hc
      rw [xcallsOf, show xact env esf pr h (.call o) = hStep env esf pr h o from rfl]
      unfold xacts xownAtEnd
      rw [show xact env esf pr h (.call o) = hStep env esf pr h o from rfl, xcallOf_call, List.singleton_append]
      have hv := hc.val
      cases hx : hStep env esf pr h o with
      | error e =>
        dsimp only
        unfold Cphd.run
        rw [hx] at hv
        rw [← hv]
        exact ⟨rfl, fun h' e' => (nomatch e')⟩
      | ok h1 =>
        have i1 := step_inv env esf pr o h h1 w i hx
        obtain ⟨g1, g2⟩ := ih h1 _ i1 (hfl h1 hx)
        obtain ⟨-, m2⟩ := step_meas env esf pr o h h1 w i hx
        dsimp only
        unfold Cphd.run
        rw [hx] at hv
        rw [← hv]
        refine ⟨g1, fun h' e' => ?_⟩
        obtain ⟨k1, k2⟩ := g2 h' e'
        refine ⟨k1, ?_⟩
        rw [k2, m2, xmeas_cons (valOp bs h.mem o) (xcallsOf env esf pr bs h1 l), List.append_assoc]

end module

/-! ### The constructor -/

theorem copyMixes_ok : ∀ (l : List (Mix ℝ ℕ ℕ)) (m0 m : Mem V P Z), Le m0 m → (∀ b ∈ l, ExistingMix m0 b) →
    Le m (threadP copyMix m l).1 ∧ (threadP copyMix m l).2.map (readMix (threadP copyMix m l).1) = l.map (readMix m0) ∧
      ∀ b ∈ (threadP copyMix m l).2, MIn (fun a => m.ns ≤ a ∧ a < (threadP copyMix m l).1.ns)
        (fun a => m.nc ≤ a ∧ a < (threadP copyMix m l).1.nc) b
  | [], _, m, _, _ => ⟨Le.refl m, rfl, fun _ h => (nomatch h)⟩
  | x :: l, m0, m, hl, hx => by
    have h0 := hx x List.mem_cons_self
    have h1 := newS_ok (x.ms.map m.s) m
    have h2 := newC_ok (x.ps.map (newS m (x.ms.map m.s)).1.c) (newS m (x.ms.map m.s)).1
    obtain ⟨g1, g2, g3⟩ := newMix_ok m (x.ms.map m.s) (x.ps.map (newS m (x.ms.map m.s)).1.c) x.ws
    obtain ⟨k1, k2, k3⟩ := copyMixes_ok l m0 (copyMix m x).1 (hl.trans g1) fun b hb => hx b (List.mem_cons_of_mem _ hb)
    unfold threadP
    dsimp only
    have hin := g3 (fun a => m.ns ≤ a ∧ a < (copyMix m x).1.ns) (fun a => m.nc ≤ a ∧ a < (copyMix m x).1.nc)
      (fun a h h' => ⟨h, h'⟩) fun a h h' => ⟨h, h'⟩
    refine ⟨g1.trans k1, ?_, ?_⟩
    · rw [List.map_cons, List.map_cons, k2]
      congr 1
      refine Eq.trans (readMix_le k1 (hin.mono (fun _ h => h.2) fun _ h => h.2)) ?_
      refine Eq.trans g2 ?_
      unfold readMix
      congr 1
      · exact List.map_congr_left fun a ha => hl.s a (h0.1 a ha)
      · exact List.map_congr_left fun a ha => (hl.trans h1.le).c a (h0.2 a ha)
    · intro b hb
      rcases List.mem_cons.1 hb with rfl | hb
      · exact hin.mono (fun _ h => ⟨h.1, h.2.trans_le k1.ns⟩) fun _ h => ⟨h.1, h.2.trans_le k1.nc⟩
      · exact (k3 b hb).mono (fun _ h => ⟨g1.ns.trans h.1, h.2⟩) fun _ h => ⟨g1.nc.trans h.1, h.2⟩

theorem construct_inv (N : ℕ) (m : Mem V P Z) (bs : List (Mix ℝ ℕ ℕ)) (w : Own) (hb : ∀ b ∈ bs, ExistingMix m b)
    (hw : OwnExists m w) : CInv (bs.map (readMix m)) (construct N m bs) w := by
  obtain ⟨h1, h2, h3⟩ := copyMixes_ok bs m m (Le.refl m) hb
  refine ⟨⟨Cphd.init N, rfl⟩, fun b hb => (h3 b hb).mono ?_ ?_, h2, fun _ h => (nomatch h), ?_⟩
  · exact fun a ha => ⟨ha.2, fun hx => absurd (hw.s a hx) (by omega)⟩
  · exact fun a ha => ⟨ha.2, fun hx => absurd (hw.c a hx) (by omega)⟩
  · exact ⟨fun a ha => (hw.s a ha).trans_le h1.ns, fun a ha => (hw.c a ha).trans_le h1.nc, fun a ha => (hw.z a ha).trans_le h1.nz⟩

/-! ### C158 -/

section module
variable [AddCommGroup V] [Module ℝ V] [AddCommGroup P] [Module ℝ P]

/-- **C158, what the filter computes.** A program makes arrays, constructs a CPHD filter with birth terms, changes its own arrays
(also those of the birth terms) in place whenever it likes, and calls the filter. The filter does what it would do if it had been
given the birth terms as they were when it was constructed, and the measurements as they were at the time of each call. Missing:
arrays that the filter hands out (`C158_refuted`). -/
theorem C158_values_partial (env : Env ℝ V P Z) (esf : List ℝ → List ℝ) (pr : Params ℝ) (N : ℕ) (m : Mem V P Z)
    (births : List (Mix ℝ ℕ ℕ)) (w : Own) (hb : ∀ b ∈ births, ExistingMix m b) (hw : OwnExists m w)
    (prog : List (XAct V P Z)) (hf : XFair env esf pr (construct N m births) w prog) :
    (xacts env esf pr (construct N m births) prog).map HX.read =
      Cphd.run env esf pr (Cphd.init N) (xcallsOf env esf pr (births.map (readMix m)) (construct N m births) prog) :=
  (xacts_ok env esf pr prog _ w (construct_inv N m births w hb hw) hf).1

/-- **C158, recorded measurements.** The filter has the measurements as they were at the time of the calls, in this order. -/
theorem C158_measurements (env : Env ℝ V P Z) (esf : List ℝ → List ℝ) (pr : Params ℝ) (N : ℕ) (m : Mem V P Z)
    (births : List (Mix ℝ ℕ ℕ)) (w : Own) (hb : ∀ b ∈ births, ExistingMix m b) (hw : OwnExists m w)
    (prog : List (XAct V P Z)) (hf : XFair env esf pr (construct N m births) w prog) (h : HX V P Z)
    (hx : xacts env esf pr (construct N m births) prog = .ok h) :
    h.readMeas = xmeasGiven (xcallsOf env esf pr (births.map (readMix m)) (construct N m births) prog) :=
  ((xacts_ok env esf pr prog _ w (construct_inv N m births w hb hw) hf).2 h hx).2

/-- **C158, arrays of the caller stay with the caller.** No array of the program becomes part of the mixture, the birth terms, the
reports or the records of the filter. -/
theorem C158_separate (env : Env ℝ V P Z) (esf : List ℝ → List ℝ) (pr : Params ℝ) (N : ℕ) (m : Mem V P Z)
    (births : List (Mix ℝ ℕ ℕ)) (w : Own) (hb : ∀ b ∈ births, ExistingMix m b) (hw : OwnExists m w)
    (prog : List (XAct V P Z)) (hf : XFair env esf pr (construct N m births) w prog) (h : HX V P Z)
    (hx : xacts env esf pr (construct N m births) prog = .ok h) (a : ℕ) :
    (a ∈ (xownAtEnd env esf pr (construct N m births) w prog).s →
      a ∉ h.st.mix.ms ∧ (∀ b ∈ h.births, a ∉ b.ms) ∧ ∀ x ∈ h.st.states, a ∉ x.1) ∧
    (a ∈ (xownAtEnd env esf pr (construct N m births) w prog).c →
      a ∉ h.st.mix.ps ∧ (∀ b ∈ h.births, a ∉ b.ps) ∧ ∀ x ∈ h.st.states, a ∉ x.2) ∧
    (a ∈ (xownAtEnd env esf pr (construct N m births) w prog).z → ∀ l ∈ h.meas, a ∉ l) := by
  obtain ⟨i, -⟩ := (xacts_ok env esf pr prog _ w (construct_inv N m births w hb hw) hf).2 h hx
  exact ⟨fun ha => ⟨fun hm => (i.st.mix.ms a hm).2 ha, fun b hb hm => ((i.births b hb).ms a hm).2 ha,
      fun x hx hm => ((i.st.states x hx).1 a hm).2 ha⟩,
    fun ha => ⟨fun hm => (i.st.mix.ps a hm).2 ha, fun b hb hm => ((i.births b hb).ps a hm).2 ha,
      fun x hx hm => ((i.st.states x hx).2 a hm).2 ha⟩,
    fun ha l hl hm => (i.meas l hl a hm).2 ha⟩

/-- **C158, calls change no array.** A call leaves the contents of all arrays as they are; in particular states and covariances that
were reported before stay the same. -/
theorem C158_unchanged (env : Env ℝ V P Z) (esf : List ℝ → List ℝ) (pr : Params ℝ) (N : ℕ) (m : Mem V P Z)
    (births : List (Mix ℝ ℕ ℕ)) (w : Own) (hb : ∀ b ∈ births, ExistingMix m b) (hw : OwnExists m w)
    (prog : List (XAct V P Z)) (hf : XFair env esf pr (construct N m births) w prog) (h : HX V P Z)
    (hx : xacts env esf pr (construct N m births) prog = .ok h) (o : XOp V P Z) (h' : HX V P Z)
    (hy : hStep env esf pr h o = .ok h') :
    (∀ a < h.mem.ns, h'.mem.s a = h.mem.s a) ∧ (∀ a < h.mem.nc, h'.mem.c a = h.mem.c a) ∧
      (∀ a < h.mem.nz, h'.mem.z a = h.mem.z a) ∧
      h.st.states.map (fun x => (x.1.map h'.mem.s, x.2.map h'.mem.c)) = h.read.states := by
  obtain ⟨i, -⟩ := (xacts_ok env esf pr prog _ w (construct_inv N m births w hb hw) hf).2 h hx
  have hl := (step_ok env esf pr o h i.ex).le h' hy
  exact ⟨hl.s, hl.c, hl.z, congrArg CState.states (readSt_le hl i.ex.st)⟩

end module

end Gasur.Props.CphdHeap
