import Verif.Props.EmptyScan

/-!
# Property C168: the CPHD filter forgets objects that are no longer measured
-/

set_option linter.unusedSectionVars false

namespace Gasur.Props

open Gasur.Cphd Gasur.Phd Gasur.Spec

section C168

variable {V P Z : Type*} [AddCommGroup V] [Module ℝ V] [AddCommGroup P] [Module ℝ P]

/-- Calls without predictions and measurements: `correct` with an empty scan, any clean-ups, extractions. -/
def IsWatchC : Cphd.Op V P Z → Prop
  | .correct _ meas => meas = []
  | .cleanup _ _ _ _ => True
  | .extract => True
  | _ => False

/-- Whether a call is an update. -/
def isUpdateC : Cphd.Op V P Z → Bool
  | .correct _ _ => true
  | _ => false

theorem cleanup_card {env : Env ℝ V P Z} {pr : Params ℝ} {bp bm bc be : Bool} {s s' : CState V P}
    (h : Cphd.cleanup env pr bp bm bc be s = .ok s') : s'.card = s.card := by
  unfold Cphd.cleanup at h
  split at h
  · simp at h
  split at h
  · simp at h
  split at h
  · simp at h
  split at h
  · exact (extract_frame h).2
  · simp only [Except.ok.injEq] at h
    rw [← h]

/-- One empty scan. -/
theorem empty_card {esf : List ℝ → List ℝ} (he : IsEsf esf) {pr : Phd.Params ℝ} {f : Filt ℝ V P Z} {s s' : CState V P}
    (h : Cphd.correct esf pr f [] s = .ok s') : 0 < probDeath pr ∧
      (∑ m ∈ Finset.range s.card.length, at' s.card m * probDeath pr ^ m) ≠ 0 ∧
      s'.card = (List.range s.card.length).map fun n => at' s.card n * probDeath pr ^ n /
        ∑ m ∈ Finset.range s.card.length, at' s.card m * probDeath pr ^ m := by
  unfold Cphd.correct at h
  split at h
  swap
  · simp at h
  split at h
  · simp at h
  rename_i cs' c' hc
  simp only [Except.ok.injEq] at h
  obtain ⟨xs, W, d0, rfl, rfl, -, -, -, hq, -, hd0, hd0', hcard, -⟩ := correctComps_ok he hc
  have hU : ∀ n, U0 pr.clutterRate (probDeath pr) ((comps s.mix).map fun c => c.1).sum ([] : List ℝ) n =
      Real.exp (-pr.clutterRate) * probDeath pr ^ n := by
    intro n
    simp [U0, es_zero]
  simp only [List.map_nil, hU] at hd0 hcard
  have hE := (Real.exp_pos (-pr.clutterRate)).ne'
  have hd1 : d0 = Real.exp (-pr.clutterRate) * ∑ m ∈ Finset.range s.card.length, at' s.card m * probDeath pr ^ m := by
    rw [hd0, Finset.mul_sum]
    exact Finset.sum_congr rfl fun m _ => by ring
  have hS : (∑ m ∈ Finset.range s.card.length, at' s.card m * probDeath pr ^ m) ≠ 0 := by
    intro h0
    rw [h0, mul_zero] at hd1
    exact hd0' hd1
  refine ⟨hq, hS, ?_⟩
  rw [← h]
  show c' = _
  rw [hcard]
  refine List.map_congr_left fun n _ => ?_
  rw [hd1]
  field_simp

/-- **C168.** The CPHD filter forgets objects that are no longer measured. If in a run without predictions all scans are
empty, whatever clean-ups are made, then after `k` updates the cardinality distribution is proportional to the first one
times `(1 - p_S) ^ (k n)` (the code uses the death probability where the probability of a miss belongs, see C37); and for
every `n`, the probability that there are more than `n` objects is at most `(1 - p_S) ^ k` divided by the probability at
the beginning that there were `n`. -/
theorem C168_forget (env : Env ℝ V P Z) {esf : List ℝ → List ℝ} (he : IsEsf esf) {pr : Phd.Params ℝ} (hpr : OkC pr)
    (s s' : CState V P) (N : ℕ) (hd : IsDist N s.card) (ops : List (Cphd.Op V P Z)) (hops : ∀ o ∈ ops, IsWatchC o)
    (h : Cphd.run env esf pr s ops = .ok s') :
    IsNormalised N (fun n => (s.card[n]?).getD 0 * (1 - pr.probSurvive) ^ (ops.countP isUpdateC * n)) s'.card ∧
    ∀ n, (s'.card.drop (n + 1)).sum * (s.card[n]?).getD 0 ≤ (1 - pr.probSurvive) ^ ops.countP isUpdateC := by
  have hq0 : 0 < 1 - pr.probSurvive := by linarith [hpr.ps1]
  have hq1 : 1 - pr.probSurvive ≤ 1 := by linarith [hpr.ps0]
  have hrun : ∀ (ops : List (Cphd.Op V P Z)) (t s' : CState V P) (k : ℕ), (∀ o ∈ ops, IsWatchC o) →
      IsNormalised N (fun n => at' s.card n * probDeath pr ^ (k * n)) t.card → Cphd.run env esf pr t ops = .ok s' →
      IsNormalised N (fun n => at' s.card n * probDeath pr ^ ((k + ops.countP isUpdateC) * n)) s'.card := by
    intro ops
    induction ops with
    | nil =>
      intro t s' k _ ht h
      simp only [Cphd.run, Except.ok.injEq] at h
      rw [← h]
      exact ht
    | cons o ops ih =>
      intro t s' k ho ht h
      unfold Cphd.run at h
      split at h
      · simp at h
      rename_i t1 h1
      have hrest := fun x hx => ho x (List.mem_cons_of_mem _ hx)
      have hw := ho o List.mem_cons_self
      cases o with
      | predict f b => exact hw.elim
      | setMax n => exact hw.elim
      | extract =>
        have := ih t1 s' k hrest (by rw [(extract_frame h1).2]; exact ht) h
        simpa [isUpdateC] using this
      | cleanup bp bm bc be =>
        have := ih t1 s' k hrest (by rw [cleanup_card h1]; exact ht) h
        simpa [isUpdateC] using this
      | correct f z =>
        obtain rfl : z = [] := hw
        obtain ⟨-, hS, hc⟩ := empty_card he h1
        obtain ⟨k1, k2⟩ := ht
        have hlen : t.card.length = N + 1 := by rw [k2]; simp
        rw [hlen] at hS hc
        set S0 := ∑ m ∈ Finset.range (N + 1), at' s.card m * probDeath pr ^ (k * m) with hS0
        have hat : ∀ n < N + 1, at' t.card n = at' s.card n * probDeath pr ^ (k * n) / S0 := by
          intro n hn
          rw [k2, at'_map_range _ _ hn]
        have hsum : (∑ m ∈ Finset.range (N + 1), at' t.card m * probDeath pr ^ m) =
            (∑ m ∈ Finset.range (N + 1), at' s.card m * probDeath pr ^ ((k + 1) * m)) / S0 := by
          rw [Finset.sum_div]
          refine Finset.sum_congr rfl fun m hm => ?_
          rw [hat m (Finset.mem_range.1 hm), add_mul, one_mul, pow_add]
          ring
        have hnext : IsNormalised N (fun n => at' s.card n * probDeath pr ^ ((k + 1) * n)) t1.card := by
          rw [hsum] at hS hc
          have hS1 : (∑ m ∈ Finset.range (N + 1), at' s.card m * probDeath pr ^ ((k + 1) * m)) ≠ 0 := by
            intro h0
            rw [h0, zero_div] at hS
            exact hS rfl
          refine ⟨hS1, ?_⟩
          rw [hc]
          refine List.map_congr_left fun n hn => ?_
          rw [hat n (List.mem_range.1 hn)]
          dsimp only
          rw [add_mul, one_mul, pow_add]
          field_simp
        have := ih t1 s' (k + 1) hrest hnext h
        rw [List.countP_cons]
        simpa [isUpdateC, add_assoc, add_comm] using this
  have h0 : IsNormalised N (fun n => at' s.card n * probDeath pr ^ (0 * n)) s.card := by
    have h1 : (∑ m ∈ Finset.range (N + 1), at' s.card m) = 1 := by rw [← hd.length, ← sum_eq_at', hd.sum]
    unfold IsNormalised
    simp only [zero_mul, pow_zero, mul_one, h1, div_one]
    refine ⟨one_ne_zero, List.ext_getElem (by simp [hd.length]) fun i h1 h2 => ?_⟩
    simp [at', List.getElem?_eq_getElem h1]
  have hk := hrun ops s s' 0 hops h0 h
  rw [zero_add] at hk
  refine ⟨hk, fun n => ?_⟩
  set k := ops.countP isUpdateC
  have hnn : ∀ i, 0 ≤ at' s.card i := at'_nonneg hd.nonneg
  obtain ⟨k1, k2⟩ := hk
  unfold probDeath at k1 k2
  set q := 1 - pr.probSurvive
  set S := ∑ m ∈ Finset.range (N + 1), at' s.card m * q ^ (k * m) with hS
  have hS0 : 0 < S := lt_of_le_of_ne (Finset.sum_nonneg fun m _ => mul_nonneg (hnn m) (pow_nonneg hq0.le _)) (Ne.symm k1)
  show (s'.card.drop (n + 1)).sum * at' s.card n ≤ q ^ k
  rcases Nat.lt_or_ge N n with hn | hn
  · have h1 : s'.card.drop (n + 1) = [] := List.drop_eq_nil_of_le (by rw [k2]; simp; omega)
    rw [h1, List.sum_nil, zero_mul]
    exact pow_nonneg hq0.le _
  -- more than `n`
  have e1 : (s'.card.drop (n + 1)).sum ≤ q ^ (k * n + k) / S := by
    rw [k2, ← List.map_drop]
    have h2 : (((List.range (N + 1)).drop (n + 1)).map fun m => at' s.card m * q ^ (k * m) / S).sum ≤
        (((List.range (N + 1)).drop (n + 1)).map fun m => at' s.card m * (q ^ (k * n + k) / S)).sum := by
      refine List.sum_le_sum fun m hm => ?_
      rw [List.range_eq_range', List.drop_range', List.mem_range'_1] at hm
      rw [mul_div_assoc]
      refine mul_le_mul_of_nonneg_left (div_le_div_of_nonneg_right (pow_le_pow_of_le_one hq0.le hq1 ?_) hS0.le) (hnn m)
      calc k * n + k = k * (n + 1) := by ring
        _ ≤ k * m := Nat.mul_le_mul_left _ (by omega)
    refine h2.trans ?_
    rw [List.sum_map_mul_right]
    refine mul_le_of_le_one_left (div_nonneg (pow_nonneg hq0.le _) hS0.le) ?_
    have h3 : (((List.range (N + 1)).map (at' s.card)).take (n + 1)).sum +
        (((List.range (N + 1)).map (at' s.card)).drop (n + 1)).sum = 1 := by
      rw [List.sum_take_add_sum_drop, sum_map_range, ← hd.length, ← sum_eq_at', hd.sum]
    have h4 : 0 ≤ (((List.range (N + 1)).map (at' s.card)).take (n + 1)).sum :=
      List.sum_nonneg fun x hx => by
        obtain ⟨i, -, rfl⟩ := List.mem_map.1 (List.mem_of_mem_take hx)
        exact hnn i
    rw [List.map_drop]
    linarith
  have e2 : at' s.card n * q ^ (k * n) ≤ S :=
    Finset.single_le_sum (f := fun m => at' s.card m * q ^ (k * m)) (fun m _ => mul_nonneg (hnn m) (pow_nonneg hq0.le _))
      (Finset.mem_range.2 (by omega))
  have hP : 0 < q ^ (k * n) := pow_pos hq0 _
  have hA : 0 ≤ (s'.card.drop (n + 1)).sum := List.sum_nonneg fun x hx => by
    have := List.mem_of_mem_drop hx
    rw [k2] at this
    obtain ⟨i, -, rfl⟩ := List.mem_map.1 this
    exact div_nonneg (mul_nonneg (hnn i) (pow_nonneg hq0.le _)) hS0.le
  rw [le_div_iff₀ hS0] at e1
  have e3 := (mul_le_mul_of_nonneg_left e2 hA).trans e1
  rw [pow_add, ← mul_assoc, mul_comm (q ^ (k * n))] at e3
  exact le_of_mul_le_mul_right e3 hP

/-- **C168, limit.** If it was possible that there were `n` objects, then for every `ε > 0` there is a number of empty scans
after which it is always less probable than `ε` that there are more than `n`. -/
theorem C168_limit (env : Env ℝ V P Z) {esf : List ℝ → List ℝ} (he : IsEsf esf) {pr : Phd.Params ℝ} (hpr : OkC pr)
    (s : CState V P) (N : ℕ) (hd : IsDist N s.card) (n : ℕ) (v : ℝ) (hn : s.card[n]? = some v) (hv : 0 < v) (ε : ℝ)
    (hε : 0 < ε) :
    ∃ k0, ∀ (ops : List (Cphd.Op V P Z)) (s' : CState V P), (∀ o ∈ ops, IsWatchC o) → k0 ≤ ops.countP isUpdateC →
      Cphd.run env esf pr s ops = .ok s' → (s'.card.drop (n + 1)).sum < ε := by
  obtain ⟨k0, hk0⟩ := exists_pow_lt_of_lt_one (mul_pos hε hv) (show 1 - pr.probSurvive < 1 by linarith [hpr.ps0])
  refine ⟨k0, fun ops s' hops hk h => ?_⟩
  have h1 := (C168_forget env he hpr s s' N hd ops hops h).2 n
  rw [hn] at h1
  have h2 : (1 - pr.probSurvive) ^ ops.countP isUpdateC ≤ (1 - pr.probSurvive) ^ k0 :=
    pow_le_pow_of_le_one (by linarith [hpr.ps1]) (by linarith [hpr.ps0]) hk
  exact lt_of_mul_lt_mul_right (h1.trans_lt (h2.trans_lt hk0)) hv.le

/-- **C168, reported.** If `n` is the smallest number of objects that was possible, then from some number of empty scans on
`cardinality` is `n`; if `n = 0`, then from then on `extract_states` reports no objects. -/
theorem C168_reported (env : Env ℝ V P Z) {esf : List ℝ → List ℝ} (he : IsEsf esf) {pr : Phd.Params ℝ} (hpr : OkC pr)
    (s : CState V P) (N : ℕ) (hd : IsDist N s.card) (n : ℕ) (v : ℝ) (hn : s.card[n]? = some v) (hv : 0 < v)
    (hmin : ∀ i < n, s.card[i]? = some 0) :
    ∃ k0, ∀ (ops : List (Cphd.Op V P Z)) (s' : CState V P), (∀ o ∈ ops, IsWatchC o) → k0 ≤ ops.countP isUpdateC →
      Cphd.run env esf pr s ops = .ok s' → Cphd.cardinality s' = n ∧
        (n = 0 → ∀ argsort, ∃ s'', Cphd.extract argsort s' = .ok s'' ∧ s''.states = s'.states ++ [([], [])]) := by
  obtain ⟨k0, hk0⟩ := C168_limit env he hpr s N hd n v hn hv (1 / 2) (by norm_num)
  refine ⟨k0, fun ops s' hops hk h => ?_⟩
  have hlt := hk0 ops s' hops hk h
  obtain ⟨⟨k1, k2⟩, -⟩ := C168_forget env he hpr s s' N hd ops hops h
  set u : ℕ → ℝ := fun m => (s.card[m]?).getD 0 * (1 - pr.probSurvive) ^ (ops.countP isUpdateC * m) with hu
  set S := ∑ m ∈ Finset.range (N + 1), u m with hS
  have hq0 : 0 < 1 - pr.probSurvive := by linarith [hpr.ps1]
  have hnn : ∀ i, 0 ≤ u i := fun i => mul_nonneg (at'_nonneg hd.nonneg i) (pow_nonneg hq0.le _)
  have hS0 : 0 < S := lt_of_le_of_ne (Finset.sum_nonneg fun m _ => hnn m) (Ne.symm k1)
  have hnN : n < N + 1 := by
    have := (List.getElem?_eq_some_iff.1 hn).1
    rwa [hd.length] at this
  have hlen : s'.card.length = N + 1 := by rw [k2]; simp
  have hat : ∀ m < N + 1, s'.card[m]? = some (u m / S) := fun m hm => by rw [k2]; simp [hm]
  have hsum : s'.card.sum = 1 := by rw [k2, sum_map_range, ← Finset.sum_div, div_self k1]
  have hzero : ∀ i < n, u i = 0 := fun i hi => by simp only [hu, hmin i hi, Option.getD_some, zero_mul]
  have hnon : ∀ x ∈ s'.card, 0 ≤ x := by
    intro x hx
    rw [k2] at hx
    obtain ⟨i, -, rfl⟩ := List.mem_map.1 hx
    exact div_nonneg (hnn i) hS0.le
  -- the probability of exactly `n` is more than one half
  have htake : (s'.card.take (n + 1)).sum = u n / S := by
    rw [k2, ← List.map_take, List.take_range, min_eq_left (by omega), sum_map_range, Finset.sum_range_succ,
      Finset.sum_eq_zero fun i hi => by rw [hzero i (Finset.mem_range.1 hi), zero_div], zero_add]
  have hhalf : 1 / 2 < u n / S := by
    have := List.sum_take_add_sum_drop s'.card (n + 1)
    rw [hsum, htake] at this
    linarith
  have hmode : Cphd.cardinality s' = n := by
    obtain ⟨p, m1, m2, m3⟩ := argmax_mode (c := s'.card) (by
      intro h0
      rw [h0] at hlen
      simp at hlen)
    change s'.card[Cphd.cardinality s']? = some p at m1
    have hp := m2 _ (List.mem_of_getElem? (hat n hnN))
    by_contra hne
    rcases Nat.lt_or_gt_of_ne hne with hc | hc
    · rw [hat _ (by omega), hzero _ hc, zero_div, Option.some.injEq] at m1
      linarith
    · have h1 : p ∈ s'.card.drop (n + 1) := by
        refine List.mem_of_getElem? (i := Cphd.cardinality s' - (n + 1)) ?_
        rw [List.getElem?_drop, show n + 1 + (Cphd.cardinality s' - (n + 1)) = Cphd.cardinality s' by omega]
        exact m1
      have h2 := List.single_le_sum (fun x hx => hnon x (List.mem_of_mem_drop hx)) p h1
      linarith
  refine ⟨hmode, ?_⟩
  rintro rfl argsort
  unfold Cphd.extract
  rw [hmode]
  have h0 : ∀ l : List ℕ, Cphd.extractLoop s'.mix ((0 : ℕ) : ℤ) l 0 = .ok [] := by
    intro l
    cases l with
    | nil => rfl
    | cons i l =>
      unfold Cphd.extractLoop
      rw [if_neg (by simp)]
  rw [h0]
  exact ⟨_, rfl, rfl⟩

/-- An empty scan succeeds and keeps the conditions for the next one. -/
theorem watchC_step {esf : List ℝ → List ℝ} (he : IsEsf esf) {pr : Phd.Params ℝ} (hpr : OkC pr) (hpm : 0 < pr.probMiss)
    (f : Filt ℝ V P Z) (hf : ∀ z s p, 0 ≤ (f.fcor z s p).2.1) (s : CState V P) (N : ℕ) (hd : IsDist N s.card)
    (hal : Aligned s.mix) (hne : s.mix.ws ≠ []) (hw : ∀ w ∈ s.mix.ws, 0 < w) (h1 : 0 < at' s.card 1) :
    ∃ s', Cphd.correct esf pr f [] s = .ok s' ∧ IsDist N s'.card ∧ Aligned s'.mix ∧ s'.mix.ws ≠ [] ∧
      (∀ w ∈ s'.mix.ws, 0 < w) ∧ 0 < at' s'.card 1 := by
  have hpos := List.sum_pos _ hw hne
  have hw0 : ∀ w ∈ s.mix.ws, 0 ≤ w := fun w hx => (hw w hx).le
  obtain ⟨s', h⟩ := C36_correct_total he hpr f hf [] s N hd hal hw0 hpos
  obtain ⟨cs, hcs, hw'⟩ := (good_iff s.mix).1 ⟨hal, hw0⟩
  obtain ⟨hq, hS, hc⟩ := empty_card he h
  have hnn : ∀ i, 0 ≤ at' s.card i := at'_nonneg hd.nonneg
  have hS0 : 0 < ∑ m ∈ Finset.range s.card.length, at' s.card m * probDeath pr ^ m :=
    lt_of_le_of_ne (Finset.sum_nonneg fun m _ => mul_nonneg (hnn m) (pow_nonneg hq.le _)) (Ne.symm hS)
  have hN : 1 < s.card.length := by
    by_contra hcon
    unfold at' at h1
    rw [List.getElem?_eq_none (by omega)] at h1
    simp at h1
  have hd' : IsDist N s'.card := by
    refine ⟨by rw [hc]; simp [hd.length], ?_, by rw [hc, sum_map_range, ← Finset.sum_div, div_self hS]⟩
    intro x hx
    rw [hc] at hx
    obtain ⟨i, -, rfl⟩ := List.mem_map.1 hx
    exact div_nonneg (mul_nonneg (hnn i) (pow_nonneg hq.le _)) hS0.le
  have h1' : 0 < at' s'.card 1 := by
    rw [hc, at'_map_range _ _ hN]
    exact div_pos (mul_pos h1 (pow_pos hq _)) hS0
  refine ⟨s', h, hd', ?_⟩
  unfold Cphd.correct at h
  rw [if_pos ⟨hal.1, hal.2⟩, hcs, comps_ofComps] at h
  split at h
  · simp at h
  rename_i cs' c' hcc
  simp only [Except.ok.injEq] at h
  obtain ⟨xs, W, d0, rfl, rfl, hcsne, -, hl, hp, hW, hd0, hd0', hcard, hcs'⟩ := correctComps_ok he hcc
  simp only [List.map_nil, List.zipIdx_nil, List.flatMap_nil, List.append_nil] at hcs' hd0
  have hx : ∀ x ∈ ([] : List ℝ), (0 : ℝ) ≤ x := by simp
  have hd0p : 0 < d0 := by
    refine lt_of_le_of_ne ?_ (Ne.symm hd0')
    rw [hd0]
    exact Finset.sum_nonneg fun n _ => mul_nonneg (U0_pos hl hp hW hx n).le (hnn n)
  have hd1p : 0 < ∑ n ∈ Finset.range s.card.length,
      U1 pr.clutterRate (probDeath pr) (cs.map fun c => c.1).sum ([] : List ℝ) n * at' s.card n :=
    Finset.sum_pos' (fun n _ => mul_nonneg (U1_nonneg hl hp hW hx n) (hnn n))
      ⟨1, Finset.mem_range.2 hN, mul_pos (U1_pos hl hp hW hx le_rfl) h1⟩
  have hmix : s'.mix = mixOf cs' := by rw [← h]
  rw [hmix, hcs']
  refine ⟨⟨by simp [mixOf], by simp [mixOf]⟩, ?_, ?_, h1'⟩
  · simpa [mixOf] using hcsne
  · intro w hwm
    simp only [mixOf, List.map_map, List.mem_map, Function.comp_apply] at hwm
    obtain ⟨c, hcm, rfl⟩ := hwm
    refine mul_pos (mul_pos (div_pos hd1p hd0p) hpm) (hw c.1 ?_)
    rw [hcs]
    exact List.mem_map_of_mem hcm

/-- The conditions of C168 can be met: zero or one object with probability 1/2 each; the filter runs for any number of empty
scans, and from some number on it reports no objects. -/
example (env : Env ℝ ℝ ℝ ℝ) : ∃ k0, ∀ k, k0 ≤ k → ∃ s', Cphd.run env exEsf exCp exCS
    (List.replicate k (.correct exCF [])) = .ok s' ∧ Cphd.cardinality s' = 0 := by
  obtain ⟨k0, hk⟩ := C168_reported env exEsf_ok exCp_ok exCS 1 exCS_dist 0 (1 / 2) rfl (by norm_num) (by simp)
  refine ⟨k0, fun k hkk => ?_⟩
  have hrun : ∀ (k : ℕ) (s : CState ℝ ℝ), IsDist 1 s.card → Aligned s.mix → s.mix.ws ≠ [] → (∀ w ∈ s.mix.ws, 0 < w) →
      0 < at' s.card 1 → ∃ s', Cphd.run env exEsf exCp s (List.replicate k (.correct exCF [])) = .ok s' := by
    intro k
    induction k with
    | zero => exact fun s _ _ _ _ _ => ⟨s, rfl⟩
    | succ k ih =>
      intro s h1 h2 h3 h4 h5
      obtain ⟨t, g0, g1, g2, g3, g4, g5⟩ := watchC_step exEsf_ok exCp_ok (by norm_num [exCp]) exCF
        (fun _ _ _ => zero_le_one) s 1 h1 h2 h3 h4 h5
      obtain ⟨s', hs'⟩ := ih t g1 g2 g3 g4 g5
      exact ⟨s', by simp only [List.replicate_succ, Cphd.run, Cphd.step, g0, hs']⟩
  obtain ⟨s', h⟩ := hrun k exCS exCS_dist ⟨rfl, rfl⟩ (by simp [exCS]) (by
    intro w hw
    simp only [exCS, List.mem_cons, List.not_mem_nil, or_false] at hw
    rw [hw]; norm_num) (by norm_num [at', exCS])
  refine ⟨s', h, (hk _ s' ?_ ?_ h).1⟩
  · intro o ho
    rw [(List.mem_replicate.1 ho).2]
    exact rfl
  · rw [List.countP_replicate]
    simpa [isUpdateC] using hkk

end C168

end Gasur.Props
