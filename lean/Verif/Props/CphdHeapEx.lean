import Verif.Props.CphdHeapRun

/-!
# Property C158: the cardinalized PHD filter and the arrays of the caller (sharing inside the filter, examples)
-/

namespace Gasur.Props.CphdHeap

open Gasur.Phd Gasur.Cphd Gasur.Spec Gasur.GlmbHeap Gasur.JglmbHeap Gasur.CphdHeap Gasur.Props.GlmbHeap

variable {V P Z : Type*}

theorem newS_refs (l : List V) : ∀ m : Mem V P Z, (newS m l).2 = List.range' m.ns l.length := by
  induction l with
  | nil => exact fun _ => rfl
  | cons v l ih =>
    intro m
    show m.ns :: (newS _ l).2 = _
    rw [ih, List.length_cons, List.range'_succ]

theorem newC_refs (l : List P) : ∀ m : Mem V P Z, (newC m l).2 = List.range' m.nc l.length := by
  induction l with
  | nil => exact fun _ => rfl
  | cons v l ih =>
    intro m
    show m.nc :: (newC _ l).2 = _
    rw [ih, List.length_cons, List.range'_succ]

/-- **C158, which arrays a correction makes.** After a correction of a mixture with `n` components all arrays of the mixture are
new. All means are different arrays. The covariances are: `n` arrays for the missed components, and, if there is a measurement,
`n` further arrays, all different, that are used again for *every* measurement. -/
theorem C158_correct_arrays (esf : List ℝ → List ℝ) (pr : Params ℝ) (f : Filt ℝ V P Z) (zs : List ℕ) (h h' : HX V P Z)
    (hx : CphdHeap.hCorrect esf pr f zs h = .ok h') :
    h'.st.mix.ms.Nodup ∧ (∀ a ∈ h'.st.mix.ms, h.mem.ns ≤ a ∧ a < h'.mem.ns) ∧
      (∀ a ∈ h'.st.mix.ps, h.mem.nc ≤ a ∧ a < h'.mem.nc) ∧
      ∃ miss det : List ℕ, h'.st.mix.ps = miss ++ (List.replicate zs.length det).flatten ∧ (miss ++ det).Nodup ∧
        miss.length = h.st.mix.ps.length ∧ (zs ≠ [] → det.length = h.st.mix.ps.length) := by
  unfold CphdHeap.hCorrect at hx
  dsimp only at hx
  split at hx
  · rename_i hlen
    split at hx
    · exact (nomatch hx)
    · rename_i cs c hc
      obtain rfl := Except.ok.inj hx
      dsimp only
      have hd := newZ_ok (zs.map h.mem.z) h.mem
      generalize newZ h.mem (zs.map h.mem.z) = d at hd
      have ha := newS_ok (cs.map fun y => y.2.1) d.1
      have ra := newS_refs (cs.map fun y => y.2.1) d.1
      generalize newS d.1 (cs.map fun y => y.2.1) = a at ha ra
      have hb := newC_ok (readMix h.mem h.st.mix).ps a.1
      have rb := newC_refs (readMix h.mem h.st.mix).ps a.1
      generalize newC a.1 (readMix h.mem h.st.mix).ps = b at hb rb
      have hq := newC_ok (covTemp f (comps (readMix h.mem h.st.mix)) (zs.map h.mem.z)) b.1
      have rq := newC_refs (covTemp f (comps (readMix h.mem h.st.mix)) (zs.map h.mem.z)) b.1
      generalize newC b.1 (covTemp f (comps (readMix h.mem h.st.mix)) (zs.map h.mem.z)) = q at hq rq
      refine ⟨?_, ?_, ?_, b.2, q.2, rfl, ?_, ?_, ?_⟩
      · rw [ra]
        exact List.nodup_range'
      · exact fun x hx => ⟨hd.le.ns.trans (ha.rng x hx).1, (ha.rng x hx).2.trans_le (hb.le.trans hq.le).ns⟩
      · intro x hx
        rcases List.mem_append.1 hx with hx | hx
        · exact ⟨(hd.le.trans ha.le).nc.trans (hb.rng x hx).1, (hb.rng x hx).2.trans_le hq.le.nc⟩
        · obtain ⟨l, hl', hx⟩ := List.mem_flatten.1 hx
          rw [(List.mem_replicate.1 hl').2] at hx
          exact ⟨((hd.le.trans ha.le).trans hb.le).nc.trans (hq.rng x hx).1, (hq.rng x hx).2⟩
      · rw [List.nodup_append]
        refine ⟨by rw [rb]; exact List.nodup_range', by rw [rq]; exact List.nodup_range', fun x hx y hy e => ?_⟩
        have h1 := (hb.rng x hx).2
        have h2 := (hq.rng y hy).1
        omega
      · rw [rb, List.length_range']
        exact List.length_map _
      · intro hz
        rw [rq, List.length_range', covTemp]
        cases hg : (zs.map h.mem.z).getLast? with
        | none => exact absurd (List.map_eq_nil_iff.1 (List.getLast?_eq_none_iff.1 hg)) hz
        | some z =>
          dsimp only
          have := congrArg List.length (comps_ps hlen)
          rw [List.length_map] at this ⊢
          rw [this]
          exact List.length_map _
  · exact (nomatch hx)

theorem getElem?_replicate_flatten {α : Type*} (l : List α) {j : ℕ} (hj : j < l.length) : ∀ {n i : ℕ}, i < n →
    ((List.replicate n l).flatten)[l.length * i + j]? = l[j]?
  | n + 1, 0, _ => by
    rw [List.replicate_succ, List.flatten_cons, Nat.mul_zero, Nat.zero_add, List.getElem?_append_left hj]
  | n + 1, i + 1, h => by
    rw [List.replicate_succ, List.flatten_cons, List.getElem?_append_right (by rw [Nat.mul_succ]; omega),
      show l.length * (i + 1) + j - l.length = l.length * i + j by rw [Nat.mul_succ]; omega]
    exact getElem?_replicate_flatten l hj (Nat.lt_of_succ_lt_succ h)

/-- **C158, covariances are shared between measurements.** After a correction of a mixture with `n` components, changing the
covariance array of component `j` for measurement `i` in place changes the covariance of component `j` for every measurement
`k`. -/
theorem C158_shared (esf : List ℝ → List ℝ) (pr : Params ℝ) (f : Filt ℝ V P Z) (zs : List ℕ) (h h' : HX V P Z)
    (hx : CphdHeap.hCorrect esf pr f zs h = .ok h') (n i k j : ℕ) (hn : n = h.st.mix.ps.length) (hi : i < zs.length)
    (hk : k < zs.length) (hj : j < n) : ∃ a, h'.st.mix.ps[n * (i + 1) + j]? = some a ∧
      ∀ v, (readMix (memAct h'.mem (.setC a v)) h'.st.mix).ps[n * (k + 1) + j]? = some v := by
  obtain ⟨-, -, -, miss, det, hps, -, h1, h2⟩ := C158_correct_arrays esf pr f zs h h' hx
  have hz : zs ≠ [] := by
    rintro rfl
    exact absurd hi (Nat.not_lt_zero _)
  have h2 := h2 hz
  rw [← hn] at h1 h2
  have key : ∀ x, x < zs.length → h'.st.mix.ps[n * (x + 1) + j]? = det[j]? := by
    intro x hx
    rw [hps, List.getElem?_append_right (by rw [h1, Nat.mul_succ]; omega), h1,
      show n * (x + 1) + j - n = det.length * x + j by rw [h2, Nat.mul_succ]; omega]
    exact getElem?_replicate_flatten det (by rw [h2]; exact hj) hx
  have hjd : j < det.length := by rw [h2]; exact hj
  refine ⟨det[j], by rw [key i hi, List.getElem?_eq_getElem hjd], fun v => ?_⟩
  show ((h'.st.mix.ps.map _)[_]?) = _
  rw [List.getElem?_map, key k hk, List.getElem?_eq_getElem hjd]
  show some (Function.update h'.mem.c det[j] v det[j]) = _
  rw [Function.update_self]

/-! ### Examples -/

/-- Arrays of the caller: one mean, one covariance, one measurement. -/
def exMem : Mem ℝ ℝ ℝ := ⟨fun _ => 0, fun _ => 1, fun _ => 0, 1, 1, 1⟩

/-- A call that succeeds on values succeeds on references. -/
theorem call_next {env : Env ℝ ℝ ℝ ℝ} {esf : List ℝ → List ℝ} {pr : Params ℝ} {bs : List (Mix ℝ ℝ ℝ)} {h : HX ℝ ℝ ℝ} {w : Own}
    (i : CInv bs h w) (o : XOp ℝ ℝ ℝ) {s : CState ℝ ℝ} (hs : Cphd.step env esf pr h.read (valOp bs h.mem o) = .ok s) :
    ∃ h', hStep env esf pr h o = .ok h' ∧ h'.read = s ∧ CInv bs h' w ∧ Le h.mem h'.mem := by
  have hc := step_ok env esf pr o h i.ex
  rw [i.bs, hs] at hc
  cases hx : hStep env esf pr h o with
  | error e =>
    have := hc.val
    rw [hx] at this
    exact (nomatch this)
  | ok h' =>
    have hv := hc.val
    rw [hx] at hv
    exact ⟨h', rfl, Except.ok.inj hv, step_inv env esf pr o h h' w i hx, hc.le h' hx⟩

/-- The program of the example: prediction; the caller uses the arrays of its birth term for something else; correction; the
caller reuses the measurement array; extraction. -/
def exXProg : List (XAct ℝ ℝ ℝ) :=
  [.call (.predict exCF), .mem (.setS 0 7), .mem (.setC 0 8), .call (.correct exCF [0]), .mem (.setZ 0 9), .call .extract]

/-- The hypotheses of C158 are met by a program that runs to its end and reports a state. -/
example : (∀ b ∈ [(⟨[1], [0], [0]⟩ : Mix ℝ ℕ ℕ)], ExistingMix exMem b) ∧ OwnExists exMem ⟨[0], [0], [0]⟩ ∧
    ∃ env h, XFair env exEsf exCp (construct 2 exMem [⟨[1], [0], [0]⟩]) ⟨[0], [0], [0]⟩ exXProg ∧
      xacts env exEsf exCp (construct 2 exMem [⟨[1], [0], [0]⟩]) exXProg = .ok h ∧ h.st.states.length = 1 ∧
      h.readMeas = [[0]] := by
  have hb : ∀ b ∈ [(⟨[1], [0], [0]⟩ : Mix ℝ ℕ ℕ)], ExistingMix exMem b := by
    simp [ExistingMix, exMem]
  have hw : OwnExists exMem ⟨[0], [0], [0]⟩ := by constructor <;> simp [exMem]
  refine ⟨hb, hw, ?_⟩
  obtain ⟨env, s, henv, hrun, hs, -⟩ := cphdExRun
  refine ⟨env, ?_⟩
  have i0 := construct_inv 2 exMem [⟨[1], [0], [0]⟩] ⟨[0], [0], [0]⟩ hb hw
  have e0 : (construct 2 exMem [(⟨[1], [0], [0]⟩ : Mix ℝ ℕ ℕ)]).read = Cphd.init 2 := rfl
  have em : (construct 2 exMem [(⟨[1], [0], [0]⟩ : Mix ℝ ℕ ℕ)]).readMeas = [] := rfl
  have ez : (construct 2 exMem [(⟨[1], [0], [0]⟩ : Mix ℝ ℕ ℕ)]).mem.nz = 1 := rfl
  have ez0 : (construct 2 exMem [(⟨[1], [0], [0]⟩ : Mix ℝ ℕ ℕ)]).mem.z 0 = 0 := rfl
  rw [show [(⟨[1], [0], [0]⟩ : Mix ℝ ℕ ℕ)].map (readMix exMem) = [exBirth] from rfl] at i0
  generalize construct 2 exMem [(⟨[1], [0], [0]⟩ : Mix ℝ ℕ ℕ)] = h0 at i0 e0 em ez ez0 ⊢
  unfold Cphd.run at hrun
  cases v1 : Cphd.step env exEsf exCp (Cphd.init 2) (.predict exCF [exBirth]) with
  | error e =>
    rw [v1] at hrun
    exact (nomatch hrun)
  | ok s1 =>
  rw [v1] at hrun
  dsimp only at hrun
  unfold Cphd.run at hrun
  cases v2 : Cphd.step env exEsf exCp s1 (.correct exCF [0]) with
  | error e =>
    rw [v2] at hrun
    exact (nomatch hrun)
  | ok s2 =>
  rw [v2] at hrun
  dsimp only at hrun
  unfold Cphd.run at hrun
  cases v3 : Cphd.step env exEsf exCp s2 .extract with
  | error e =>
    rw [v3] at hrun
    exact (nomatch hrun)
  | ok s3 =>
  rw [v3] at hrun
  obtain rfl := Except.ok.inj hrun
  obtain ⟨h1, x1, r1, i1, l1⟩ := call_next (esf := exEsf) (pr := exCp) i0 (.predict exCF) (by rw [e0]; exact v1)
  have m1 := (step_meas env exEsf exCp (.predict exCF) h0 h1 _ i0 x1).2
  obtain ⟨j1, q1, p1⟩ := mem_ok h1 _ i1 (.setS 0 7) (by simp [XFairAct])
  obtain ⟨j2, q2, p2⟩ := mem_ok { h1 with mem := memAct h1.mem (.setS 0 7) } _ j1 (.setC 0 8) (by simp [XFairAct, Own.afterX])
  generalize hh2 : ({ { h1 with mem := memAct h1.mem (.setS 0 7) } with
    mem := memAct (memAct h1.mem (.setS 0 7)) (.setC 0 8) } : HX ℝ ℝ ℝ) = h2 at j2 q2 p2
  have z2 : h2.mem.z = h1.mem.z := by rw [← hh2]; rfl
  have n2 : h2.mem.nz = h1.mem.nz := by rw [← hh2]; rfl
  have zz : h2.mem.z 0 = 0 := by
    rw [z2, l1.z 0 (by rw [ez]; exact Nat.one_pos), ez0]
  obtain ⟨h3, x3, r3, i3, l3⟩ := call_next (esf := exEsf) (pr := exCp) j2 (.correct exCF [0]) (s := s2)
    (by
      rw [q2, q1, r1]
      show Cphd.step env exEsf exCp s1 (.correct exCF [h2.mem.z 0]) = _
      rw [zz]
      exact v2)
  have m3 := (step_meas env exEsf exCp (.correct exCF [0]) h2 h3 _ j2 x3).2
  obtain ⟨j4, q4, p4⟩ := mem_ok h3 _ i3 (.setZ 0 9) (by simp [XFairAct, Own.afterX])
  obtain ⟨h5, x5, r5, i5, -⟩ := call_next (esf := exEsf) (pr := exCp) j4 .extract (by rw [q4, r3]; exact v3)
  have m5 := (step_meas env exEsf exCp .extract _ h5 _ j4 x5).2
  have hf : XFair env exEsf exCp h0 ⟨[0], [0], [0]⟩ exXProg := by
    refine ⟨trivial, fun g1 e1 => ?_⟩
    obtain rfl := Except.ok.inj (e1.symm.trans x1)
    refine ⟨by simp [XFairAct, Own.afterX], fun g2 e2 => ?_⟩
    obtain rfl := Except.ok.inj e2
    refine ⟨by simp [XFairAct, Own.afterX], fun g3 e3 => ?_⟩
    obtain rfl := Except.ok.inj (e3.symm.trans (congrArg Except.ok hh2))
    refine ⟨?_, fun g4 e4 => ?_⟩
    · intro a ha
      rw [List.mem_singleton.1 ha, n2]
      exact lt_of_lt_of_le (by rw [ez]; exact Nat.one_pos) l1.nz
    obtain rfl := Except.ok.inj (e4.symm.trans x3)
    refine ⟨by simp [XFairAct, Own.afterX], fun g5 e5 => ?_⟩
    obtain rfl := Except.ok.inj e5
    exact ⟨trivial, fun _ _ => trivial⟩
  refine ⟨h5, hf, ?_, ?_, ?_⟩
  · show xacts env exEsf exCp h0 exXProg = _
    unfold exXProg
    unfold xacts
    rw [show xact env exEsf exCp h0 (.call (.predict exCF)) = .ok h1 from x1]
    show xacts env exEsf exCp ({ { h1 with mem := memAct h1.mem (.setS 0 7) } with
      mem := memAct (memAct h1.mem (.setS 0 7)) (.setC 0 8) } : HX ℝ ℝ ℝ) _ = _
    rw [hh2]
    unfold xacts
    rw [show xact env exEsf exCp h2 (.call (.correct exCF [0])) = .ok h3 from x3]
    show xacts env exEsf exCp { h3 with mem := memAct h3.mem (.setZ 0 9) } [.call .extract] = _
    unfold xacts
    rw [show xact env exEsf exCp { h3 with mem := memAct h3.mem (.setZ 0 9) } (.call .extract) = .ok h5 from x5]
    rfl
  · have := congrArg (fun s => s.states.length) r5
    rw [← hs]
    refine Eq.trans ?_ this
    exact (List.length_map _).symm
  · rw [m5, p4, m3, p2, p1, m1, em]
    show [[h2.mem.z 0]] = _
    rw [zz]

/-- The distribution of one object from a birth term of weight two. -/
theorem exCard : ∃ c, cardPredict 1 (1 / 2) (1 / 2) 2 (zeroCard 1) = .ok c ∧ argmax c = some 1 ∧ c.length = 2 := by
  have hE := Real.exp_pos 2
  have h0 : cdnPredict 1 (1 / 2) (1 / 2) 2 (zeroCard 1) 0 = Real.exp 2 := by
    simp [cdnPredict, survPredict, logFact, Finset.sum_range_succ, at', zeroCard, Finset.sum_Ico_eq_sum_range]
  have h1 : cdnPredict 1 (1 / 2) (1 / 2) 2 (zeroCard 1) 1 = Real.exp 2 * 2 := by
    simp [cdnPredict, survPredict, logFact, Finset.sum_range_succ, at', zeroCard, Finset.sum_Ico_eq_sum_range, Real.exp_add,
      Real.exp_log]
  have hl : (List.range (1 + 1)).map (cdnPredict 1 (1 / 2) (1 / 2) 2 (zeroCard 1)) = [Real.exp 2, Real.exp 2 * 2] := by
    rw [show List.range (1 + 1) = [0, 1] from rfl, List.map_cons, List.map_cons, List.map_nil, h0, h1]
  have hs : ([Real.exp 2, Real.exp 2 * 2] : List ℝ).sum = Real.exp 2 * 3 := by
    simp only [List.sum_cons, List.sum_nil]
    ring
  have hp : (0 : ℝ) < Real.exp 2 * 3 := by linarith
  refine ⟨[Real.exp 2 / (Real.exp 2 * 3), Real.exp 2 * 2 / (Real.exp 2 * 3)], ?_, ?_, rfl⟩
  · unfold cardPredict
    rw [if_neg (by norm_num), hl]
    unfold Cphd.normalize
    rw [hs, if_neg hp.ne']
    rfl
  · have : Real.exp 2 / (Real.exp 2 * 3) < Real.exp 2 * 2 / (Real.exp 2 * 3) := by
      rw [div_lt_div_iff_of_pos_right hp]
      linarith
    simp [argmax, this]

theorem predict_mix {pr : Params ℝ} {f : Filt ℝ V P Z} {b : List (Mix ℝ V P)} {s s' : CState V P}
    (h : Cphd.predict pr f b s = .ok s') : s'.mix = Phd.predict pr f b s.mix := by
  unfold Cphd.predict at h
  split at h
  · exact (nomatch h)
  · split at h
    · exact (nomatch h)
    · obtain rfl := Except.ok.inj h
      rfl

/-- **C158 is false for arrays that the filter hands out.** After a prediction and an extraction the caller changes the array in
`states` in place: this array is the mean of the filter's birth term, so the next prediction starts from the changed value and
every later birth has it, too. -/
theorem C158_refuted : ∃ (env : Env ℝ ℝ ℝ ℝ) (h : HX ℝ ℝ ℝ) (a : ℕ) (h1 h2 : HX ℝ ℝ ℝ),
    xacts env exEsf exCp (construct 1 exMem [⟨[2], [0], [0]⟩]) [.call (.predict exCF), .call .extract] = .ok h ∧
      (∃ x ∈ h.st.states, a ∈ x.1) ∧ xacts env exEsf exCp h [.call (.predict exCF)] = .ok h1 ∧
      xacts env exEsf exCp h [.mem (.setS a 5), .call (.predict exCF)] = .ok h2 ∧
      h1.read.mix.ms = [0, 0] ∧ h2.read.mix.ms = [5, 5] ∧ h2.births.map (readMix h2.mem) = [⟨[2], [5], [1]⟩] := by
  obtain ⟨argsort, ha⟩ := argsort_exists
  obtain ⟨c, hc, hm, hlen⟩ := exCard
  have hsort : argsort [2] = [0] := List.perm_singleton.1 (ha [2]).1
  have hpr : exCp.probSurvive = 1 / 2 ∧ probDeath exCp = 1 / 2 := by norm_num [exCp, probDeath]
  have hr : pyRound (2 : ℝ) = 2 := by
    have : ⌊(2 : ℝ)⌋ = 2 := by exact_mod_cast Int.floor_natCast (R := ℝ) 2
    unfold pyRound
    rw [this, if_pos (by norm_num)]
  obtain ⟨m, hmem⟩ : ∃ m, m = (construct 1 exMem [(⟨[2], [0], [0]⟩ : Mix ℝ ℕ ℕ)]).mem := ⟨_, rfl⟩
  have e1 : CphdHeap.hPredict exCp exCF (construct 1 exMem [(⟨[2], [0], [0]⟩ : Mix ℝ ℕ ℕ)]) =
      .ok { mem := m, births := [⟨[2], [1], [1]⟩], meas := []
            st := { mix := ⟨[2], [1], [1]⟩, card := c, hist := [], states := [], agents := [] } } := by
    unfold CphdHeap.hPredict
    rw [show (construct 1 exMem [(⟨[2], [0], [0]⟩ : Mix ℝ ℕ ℕ)]).births = [⟨[2], [1], [1]⟩] from rfl]
    rw [show firstWeights [(⟨[2], [1], [1]⟩ : Mix ℝ ℕ ℕ)] = .ok [2] from rfl]
    dsimp only
    rw [show maxCard (construct 1 exMem [(⟨[2], [0], [0]⟩ : Mix ℝ ℕ ℕ)]).st = 1 from rfl,
      show (construct 1 exMem [(⟨[2], [0], [0]⟩ : Mix ℝ ℕ ℕ)]).st.card = zeroCard 1 from rfl, hpr.1, hpr.2, List.sum_singleton, hc,
      hmem]
    rfl
  have e2 : Cphd.extract argsort { mix := (⟨[2], [1], [1]⟩ : Mix ℝ ℕ ℕ), card := c, hist := [], states := [], agents := [] } =
      .ok { mix := ⟨[2], [1], [1]⟩, card := c, hist := [], states := [([1], [1])], agents := [2] } := by
    unfold Cphd.extract
    dsimp only
    rw [hsort]
    unfold cardinality
    dsimp only
    rw [hm]
    unfold Cphd.extractLoop
    simp [hr, Cphd.extractLoop]
  have ex0 := (construct_inv 1 exMem [⟨[2], [0], [0]⟩] ⟨[], [], []⟩ (by simp [ExistingMix, exMem])
    ⟨fun _ h => (nomatch h), fun _ h => (nomatch h), fun _ h => (nomatch h)⟩).ex
  have hd : IsDist 1 c := by
    have hv := (predict_ok exCp exCF _ ex0).val
    rw [e1] at hv
    have hi : IsDist _ c := (predict_inv exCp_ok (by
      intro b hb
      rw [show (construct 1 exMem [(⟨[2], [0], [0]⟩ : Mix ℝ ℕ ℕ)]).births = [⟨[2], [1], [1]⟩] from rfl] at hb
      rw [List.mem_singleton.1 hb]
      simp [readMix, Aligned]) (init_inv 1) hv.symm).1
    rw [show maxCard (HX.read _) = c.length - 1 from rfl, hlen] at hi
    exact hi
  have next : ∀ m' : Mem ℝ ℝ ℝ, m'.ns = 2 → m'.nc = 2 → m'.c 1 = 1 → ∃ h', xacts ⟨fun _ _ => 0, argsort⟩ exEsf exCp
      (⟨m', ⟨⟨[2], [1], [1]⟩, c, [], [([1], [1])], [2]⟩, [⟨[2], [1], [1]⟩], []⟩ : HX ℝ ℝ ℝ) [.call (.predict exCF)] = .ok h' ∧
      h'.read.mix.ms = [m'.s 1, m'.s 1] ∧ h'.births.map (readMix h'.mem) = [⟨[2], [m'.s 1], [1]⟩] := by
    intro m' en ec e1
    have ex : Ex (⟨m', ⟨⟨[2], [1], [1]⟩, c, [], [([1], [1])], [2]⟩, [⟨[2], [1], [1]⟩], []⟩ : HX ℝ ℝ ℝ) := by
      constructor
      · show SIn (fun a => a < m'.ns) (fun a => a < m'.nc) _
        rw [en, ec]
        exact ⟨⟨⟨[2], [⟨1, by norm_num⟩], [⟨1, by norm_num⟩]⟩, c, [], [([⟨1, by norm_num⟩], [⟨1, by norm_num⟩])], [2]⟩, rfl⟩
      · show ∀ b ∈ [(⟨[2], [1], [1]⟩ : Mix ℝ ℕ ℕ)], MIn (fun a => a < m'.ns) (fun a => a < m'.nc) b
        rw [en, ec]
        intro b hb
        rw [List.mem_singleton.1 hb]
        exact ⟨⟨[2], [⟨1, by norm_num⟩], [⟨1, by norm_num⟩]⟩, rfl⟩
    have hk := predict_ok exCp exCF _ ex
    obtain ⟨s', hs'⟩ := C36_predict_total exCp_ok exCF [(⟨[2], [m'.s 1], [m'.c 1]⟩ : Mix ℝ ℝ ℝ)] (by simp) (by simp)
      (HX.read (⟨m', ⟨⟨[2], [1], [1]⟩, c, [], [([1], [1])], [2]⟩, [⟨[2], [1], [1]⟩], []⟩ : HX ℝ ℝ ℝ)) 1 le_rfl hd
    have hmix := predict_mix hs'
    have hval := hk.val
    rw [show List.map (readMix m') [(⟨[2], [1], [1]⟩ : Mix ℝ ℕ ℕ)] = [(⟨[2], [m'.s 1], [m'.c 1]⟩ : Mix ℝ ℝ ℝ)] from rfl, hs'] at hval
    cases hx : CphdHeap.hPredict exCp exCF
        (⟨m', ⟨⟨[2], [1], [1]⟩, c, [], [([1], [1])], [2]⟩, [⟨[2], [1], [1]⟩], []⟩ : HX ℝ ℝ ℝ) with
    | error e =>
      rw [hx] at hval
      exact (nomatch hval)
    | ok h' =>
      rw [hx] at hval
      have hread : h'.read = s' := Except.ok.inj hval
      refine ⟨h', ?_, ?_, ?_⟩
      · unfold xacts
        rw [show xact ⟨fun _ _ => 0, argsort⟩ exEsf exCp
          (⟨m', ⟨⟨[2], [1], [1]⟩, c, [], [([1], [1])], [2]⟩, [⟨[2], [1], [1]⟩], []⟩ : HX ℝ ℝ ℝ) (.call (.predict exCF)) = .ok h' from hx]
        rfl
      · rw [hread, hmix]
        rfl
      · have hl := hk.le h' hx
        rw [hk.births h' hx, List.map_congr_left fun b hb => readMix_le hl (ex.births b hb)]
        show [(⟨[2], [m'.s 1], [m'.c 1]⟩ : Mix ℝ ℝ ℝ)] = _
        rw [e1]
  have hs1 : m.s 1 = 0 := by rw [hmem]; rfl
  have hc1 : m.c 1 = 1 := by rw [hmem]; rfl
  have hn : m.ns = 2 := by rw [hmem]; rfl
  have hnc : m.nc = 2 := by rw [hmem]; rfl
  obtain ⟨h1, g1, g2, -⟩ := next m hn hnc hc1
  obtain ⟨h2, k1, k2, k3⟩ := next (memAct m (.setS 1 5)) hn hnc hc1
  rw [hs1] at g2
  rw [show (memAct m (.setS 1 5)).s 1 = 5 from Function.update_self (β := fun _ => ℝ) 1 5 m.s] at k2 k3
  refine ⟨⟨fun _ _ => 0, argsort⟩, ⟨m, ⟨⟨[2], [1], [1]⟩, c, [], [([1], [1])], [2]⟩, [⟨[2], [1], [1]⟩], []⟩, 1, h1, h2, ?_,
    ⟨([1], [1]), by simp, by simp⟩, g1, k1, g2, k2, k3⟩
  unfold xacts
  rw [show xact ⟨fun _ _ => 0, argsort⟩ exEsf exCp (construct 1 exMem [(⟨[2], [0], [0]⟩ : Mix ℝ ℕ ℕ)]) (.call (.predict exCF)) = _
    from e1]
  unfold xacts xact CphdHeap.hStep
  dsimp only
  rw [e2]
  rfl

/-- The hypotheses of `C158_shared` are met: two measurements and one component. -/
example : ∃ h', CphdHeap.hCorrect exEsf exCp2 exCF [0, 0] (⟨exMem, ⟨⟨[1 / 2], [0], [0]⟩, [1 / 2, 1 / 2], [], [], []⟩, [], []⟩ :
    HX ℝ ℝ ℝ) = .ok h' ∧ h'.st.mix.ps.length = 3 := by
  have ex : Ex (⟨exMem, ⟨⟨[1 / 2], [0], [0]⟩, [1 / 2, 1 / 2], [], [], []⟩, [], []⟩ : HX ℝ ℝ ℝ) :=
    ⟨⟨⟨⟨[1 / 2], [⟨0, Nat.one_pos⟩], [⟨0, Nat.one_pos⟩]⟩, [1 / 2, 1 / 2], [], [], []⟩, rfl⟩, fun _ h => (nomatch h)⟩
  obtain ⟨s', hs'⟩ : ∃ s', Cphd.correct exEsf exCp2 exCF [0, 0] exCS = .ok s' := by
    refine C36_correct_total exEsf_ok exCp2_ok exCF (fun _ _ _ => zero_le_one) _ exCS 1 exCS_dist ⟨rfl, rfl⟩ ?_ (by norm_num [exCS])
    intro w hw
    simp only [exCS, List.mem_cons, List.not_mem_nil, or_false] at hw
    rw [hw]; norm_num
  have hv := (correct_ok exEsf exCp2 exCF [0, 0] _ ex).1.val
  rw [show Cphd.correct exEsf exCp2 exCF _ (HX.read _) = Cphd.correct exEsf exCp2 exCF [0, 0] exCS from rfl, hs'] at hv
  cases hx : CphdHeap.hCorrect exEsf exCp2 exCF [0, 0]
      (⟨exMem, ⟨⟨[1 / 2], [0], [0]⟩, [1 / 2, 1 / 2], [], [], []⟩, [], []⟩ : HX ℝ ℝ ℝ) with
  | error e =>
    rw [hx] at hv
    exact (nomatch hv)
  | ok h' =>
    refine ⟨h', rfl, ?_⟩
    obtain ⟨-, -, -, miss, det, e, -, l1, l2⟩ := C158_correct_arrays _ _ _ _ _ _ hx
    have l2 := l2 (by simp)
    rw [e, List.length_append, List.length_flatten, List.map_replicate, List.sum_replicate, l1, l2]
    rfl

end Gasur.Props.CphdHeap
