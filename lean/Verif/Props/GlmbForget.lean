import Verif.Props.EmptyScan

/-!
# Property C165: objects that are no longer measured are forgotten
-/

set_option linter.unusedSectionVars false

namespace Gasur.Props

open Gasur.Glmb Gasur.Spec

variable {K τ F S C Z : Type*} [Field K] [LinearOrder K] [IsStrictOrderedRing K] [FloorRing K]
  [DecidableEq τ]

/-- Calls without predictions and measurements: `correct` with the environment `env` and an empty scan, `cleanup` without
pruning and capping, extractions. -/
def IsWatch (env : Env K τ F S C Z) : Op K τ F S C Z → Prop
  | .predict _ _ _ => False
  | .correct env' meas => env' = env ∧ meas = []
  | .cleanup _ bp bc _ _ _ => bp = false ∧ bc = false
  | .extract _ _ => True

/-- Whether a call is an update. -/
def isUpdate : Op K τ F S C Z → Bool
  | .correct _ _ => true
  | _ => false

/-- `st'` is `st` after `k` empty scans by Bayes' rule, for the detection probability `q`: the same hypotheses, with weights
proportional to `prob * (1 - q) ^ (k * number of tracks)`. -/
def AfterEmpty (q : K) (k : ℕ) (st st' : St K τ F S C) : Prop :=
  List.Forall₂ (fun p h' => h'.tracks.length = p.tracks.length ∧
    h'.prob = p.prob * (1 - q) ^ (k * p.tracks.length) /
      (st.hyps.map fun p => p.prob * (1 - q) ^ (k * p.tracks.length)).sum) st.hyps st'.hyps

theorem emptySum_pos {q : K} (hq1 : q < 1) (k : ℕ) {hyps : List (Hyp K)} (hp : ∀ h ∈ hyps, 0 < h.prob) (hne : hyps ≠ []) :
    0 < (hyps.map fun p => p.prob * (1 - q) ^ (k * p.tracks.length)).sum := by
  refine List.sum_pos _ ?_ (by simpa using hne)
  intro v hv
  obtain ⟨p, hpm, rfl⟩ := List.mem_map.1 hv
  exact mul_pos (hp p hpm) (pow_pos (sub_pos.2 hq1) _)

theorem watch_run (env : Env K τ F S C Z) (pr : Params K)
    (hadd : ∀ x y, env.num.expNeg (x + y) = env.num.expNeg x * env.num.expNeg y)
    (hzero : env.num.expNeg 0 = 1) (hinv : ∀ x, 0 < x → env.num.expNeg (env.num.negLog x) = x)
    (hanti : ∀ x y, x ≤ y → env.num.expNeg y ≤ env.num.expNeg x) (hexp : ∀ x, 0 < env.num.expNeg x)
    (hsqrt : ∀ x, 0 ≤ env.num.sqrt x) (q : K) (hq0 : 0 < q) (hq1 : q < 1) (hpd : ∀ e, env.pdet e = q)
    (st : St K τ F S C) (hp : ∀ h ∈ st.hyps, 0 < h.prob) :
    ∀ (ops : List (Op K τ F S C Z)) (s st' : St K τ F S C) (k : ℕ), (∀ o ∈ ops, IsWatch env o) → IdxInv s →
      AfterEmpty q k st s → Glmb.run pr s ops = .ok st' → AfterEmpty q (k + ops.countP isUpdate) st st' := by
  intro ops
  induction ops with
  | nil =>
    intro s st' k _ _ hk h
    obtain rfl := Except.ok.inj h
    exact hk
  | cons o ops ih =>
    intro s st' k ho hI hk h
    unfold Glmb.run at h
    cases hs : Glmb.step pr s o with
    | error e => rw [hs] at h; exact (nomatch h)
    | ok s1 =>
      rw [hs] at h
      have hrest := fun x hx => ho x (List.mem_cons_of_mem _ hx)
      have hw := ho o List.mem_cons_self
      cases o with
      | predict env' lab births => exact hw.elim
      | extract u c =>
        have hh : s1.hyps = s.hyps ∧ s1.tab = s.tab := by
          simp only [Glmb.step] at hs
          cases he : Glmb.extract u c s with
          | error e => rw [he] at hs; exact (nomatch hs)
          | ok r =>
            rw [he] at hs
            obtain rfl := Except.ok.inj hs
            exact ⟨(Glmb.extract_frame he).2.1, (Glmb.extract_frame he).1⟩
        have := ih s1 st' k hrest ⟨by rw [hh.1, hh.2]; exact hI.range, by rw [hh.1]; exact hI.nodup⟩ (by
          unfold AfterEmpty at hk ⊢
          rwa [hh.1]) h
        simpa [isUpdate] using this
      | cleanup env' bp bc be u c =>
        obtain ⟨rfl, rfl⟩ := hw
        have hh : s1.hyps = s.hyps ∧ s1.tab = s.tab := by
          simp only [Glmb.step] at hs
          obtain ⟨t1, t2, h1, h2, h3⟩ := cleanup_ok hs
          simp at h1 h2
          subst h1
          subst h2
          rcases h3 with ⟨-, rfl⟩ | ⟨-, o, h3⟩
          · exact ⟨rfl, rfl⟩
          · exact ⟨(Glmb.extract_frame h3).2.1, (Glmb.extract_frame h3).1⟩
        have := ih s1 st' k hrest ⟨by rw [hh.1, hh.2]; exact hI.range, by rw [hh.1]; exact hI.nodup⟩ (by
          unfold AfterEmpty at hk ⊢
          rwa [hh.1]) h
        simpa [isUpdate] using this
      | correct env' meas =>
        obtain ⟨rfl, rfl⟩ := hw
        simp only [Glmb.step] at hs
        have hq : 0 < 1 - q := sub_pos.2 hq1
        have hnn : ∀ x ∈ s.hyps, 0 ≤ x.prob := by
          intro x hx
          obtain ⟨p, hpm, -, e⟩ := forall₂_mem_right hk hx
          rw [e]
          refine div_nonneg (mul_pos (hp p hpm) (pow_pos hq _)).le ?_
          exact (emptySum_pos hq1 k hp (List.ne_nil_of_mem hpm)).le
        obtain ⟨Zc, -, z2, hF⟩ := empty_update env' pr hadd hzero hinv hanti hexp hsqrt s s1 q hq0 hq1
          (fun e _ => hpd e) hI.range hnn hs
        have hstep : AfterEmpty q (k + 1) st s1 := by
          rcases eq_or_ne st.hyps [] with h0 | hne
          · unfold AfterEmpty at hk ⊢
            rw [h0] at hk ⊢
            have : s.hyps = [] := List.length_eq_zero_iff.1 hk.length_eq.symm
            rw [this] at hF
            have : s1.hyps = [] := List.length_eq_zero_iff.1 hF.length_eq.symm
            rw [this]
            exact .nil
          set Sk := (st.hyps.map fun p => p.prob * (1 - q) ^ (k * p.tracks.length)).sum with hSk
          set Sk' := (st.hyps.map fun p => p.prob * (1 - q) ^ ((k + 1) * p.tracks.length)).sum with hSk'
          have hS : 0 < Sk := emptySum_pos hq1 k hp hne
          have hS' : 0 < Sk' := emptySum_pos hq1 (k + 1) hp hne
          have hB := hexp pr.clutterRate
          have key : ∀ p h' : Hyp K, h'.tracks.length = p.tracks.length →
              h'.prob = p.prob * (1 - q) ^ (k * p.tracks.length) / Sk →
              h'.prob * (1 - q) ^ h'.tracks.length = p.prob * (1 - q) ^ ((k + 1) * p.tracks.length) / Sk := by
            intro p h' e1 e2
            rw [e1, e2, add_mul, one_mul, pow_add]
            ring
          have hZ : Zc = env'.num.expNeg pr.clutterRate * (Sk' / Sk) := by
            rw [z2, List.sum_map_mul_left]
            congr 1
            rw [← map_eq_of_forall₂ (f := fun p : Hyp K => p.prob * (1 - q) ^ ((k + 1) * p.tracks.length) / Sk)
              (hk.imp fun p h' e => (key p h' e.1 e.2).symm)]
            simp only [div_eq_mul_inv]
            rw [List.sum_map_mul_right]
          have comb : ∀ (a b c : List (Hyp K)), List.Forall₂ (fun p h' => h'.tracks.length = p.tracks.length ∧
              h'.prob = p.prob * (1 - q) ^ (k * p.tracks.length) / Sk) a b →
              List.Forall₂ (fun p h' => h'.prob * Zc = env'.num.expNeg pr.clutterRate * (p.prob * (1 - q) ^ p.tracks.length) ∧
                h'.tracks.length = p.tracks.length) b c →
              List.Forall₂ (fun p h' => h'.tracks.length = p.tracks.length ∧
                h'.prob = p.prob * (1 - q) ^ ((k + 1) * p.tracks.length) / Sk') a c := by
            intro a b c hab
            induction hab generalizing c with
            | nil => rintro ⟨⟩; exact .nil
            | cons h1 _ ih =>
              rintro (_ | ⟨h2, t2⟩)
              refine .cons ⟨h2.2.trans h1.1, ?_⟩ (ih _ t2)
              have e := h2.1
              rw [key _ _ h1.1 h1.2, hZ] at e
              have hBne := hB.ne'
              have hSne := hS.ne'
              have hSne' := hS'.ne'
              rw [eq_div_iff hSne']
              field_simp at e
              linarith
          exact comb _ _ _ hk hF
        have := ih s1 st' (k + 1) hrest (correct_idx hI hs) hstep h
        rw [List.countP_cons]
        simpa [isUpdate, add_assoc, add_comm] using this

/-- **C165.** Objects that are no longer measured are forgotten. If in a run without predictions all scans are empty and
nothing is pruned or capped, then after `k` updates each hypothesis has the Bayes weight, proportional to its first weight
times `(1 - q) ^ k` for each of its tracks (`q` the detection probability of all tracks); and for every `n`, the probability
that there are more than `n` objects is at most `(1 - q) ^ k` divided by the probability that there were `n` objects. -/
theorem C165_forget (env : Env K τ F S C Z) (pr : Params K)
    (hadd : ∀ x y, env.num.expNeg (x + y) = env.num.expNeg x * env.num.expNeg y)
    (hzero : env.num.expNeg 0 = 1) (hinv : ∀ x, 0 < x → env.num.expNeg (env.num.negLog x) = x)
    (hanti : ∀ x y, x ≤ y → env.num.expNeg y ≤ env.num.expNeg x) (hexp : ∀ x, 0 < env.num.expNeg x)
    (hsqrt : ∀ x, 0 ≤ env.num.sqrt x) (q : K) (hq0 : 0 < q) (hq1 : q < 1) (hpd : ∀ e, env.pdet e = q)
    (st st' : St K τ F S C) (hI : IdxInv st) (hp : ∀ h ∈ st.hyps, 0 < h.prob) (hsum : (st.hyps.map Hyp.prob).sum = 1)
    (ops : List (Op K τ F S C Z)) (hops : ∀ o ∈ ops, IsWatch env o) (h : Glmb.run pr st ops = .ok st') :
    AfterEmpty q (ops.countP isUpdate) st st' ∧
    ∀ n, ((st'.hyps.filter fun h => n < h.tracks.length).map Hyp.prob).sum *
      ((st.hyps.filter fun h => h.tracks.length = n).map Hyp.prob).sum ≤ (1 - q) ^ ops.countP isUpdate := by
  have h0 : AfterEmpty q 0 st st := by
    unfold AfterEmpty
    simp only [zero_mul, pow_zero, mul_one]
    refine List.forall₂_same.2 fun p _ => ⟨rfl, ?_⟩
    rw [show (st.hyps.map fun p => p.prob) = st.hyps.map Hyp.prob from rfl, hsum, div_one]
  have hk := watch_run env pr hadd hzero hinv hanti hexp hsqrt q hq0 hq1 hpd st hp ops st st' 0 hops hI h0 h
  rw [zero_add] at hk
  refine ⟨hk, fun n => ?_⟩
  set k := ops.countP isUpdate
  have hq : 0 < 1 - q := sub_pos.2 hq1
  have hqle : 1 - q ≤ 1 := by linarith
  have hne : st.hyps ≠ [] := by
    intro h0
    rw [h0] at hsum
    simp at hsum
  set Sk := (st.hyps.map fun p => p.prob * (1 - q) ^ (k * p.tracks.length)).sum with hSk
  have hS : 0 < Sk := emptySum_pos hq1 k hp hne
  -- more than `n` objects after the run
  have e1 : ∀ (l l' : List (Hyp K)), (∀ p ∈ l, 0 < p.prob) → List.Forall₂ (fun p h' => h'.tracks.length = p.tracks.length ∧
      h'.prob = p.prob * (1 - q) ^ (k * p.tracks.length) / Sk) l l' →
      ((l'.filter fun h => n < h.tracks.length).map Hyp.prob).sum ≤ (l.map Hyp.prob).sum * (1 - q) ^ (k * n + k) / Sk := by
    intro l l' hl hf
    induction hf with
    | nil => simp
    | @cons p h' l l' h1 _ ih =>
      have ih' := ih fun p hp => hl p (List.mem_cons_of_mem _ hp)
      have hpp := hl p List.mem_cons_self
      rw [List.map_cons, List.sum_cons, List.filter_cons, add_mul, add_div]
      split
      · rename_i hn
        rw [List.map_cons, List.sum_cons]
        refine add_le_add ?_ ih'
        rw [h1.2]
        refine div_le_div_of_nonneg_right (mul_le_mul_of_nonneg_left (pow_le_pow_of_le_one hq.le hqle ?_) hpp.le) hS.le
        have hn' : n + 1 ≤ p.tracks.length := by
          rw [← h1.1]
          exact of_decide_eq_true hn
        calc k * n + k = k * (n + 1) := by ring
          _ ≤ k * p.tracks.length := Nat.mul_le_mul_left _ hn'
      · have : 0 ≤ p.prob * (1 - q) ^ (k * n + k) / Sk := (div_pos (mul_pos hpp (pow_pos hq _)) hS).le
        linarith
  have e2 : ∀ l : List (Hyp K), (∀ p ∈ l, 0 < p.prob) →
      ((l.filter fun h => h.tracks.length = n).map Hyp.prob).sum * (1 - q) ^ (k * n) ≤
        (l.map fun p => p.prob * (1 - q) ^ (k * p.tracks.length)).sum := by
    intro l hl
    induction l with
    | nil => simp
    | cons p l ih =>
      have ih' := ih fun p hp => hl p (List.mem_cons_of_mem _ hp)
      have hpp := hl p List.mem_cons_self
      rw [List.map_cons, List.sum_cons, List.filter_cons]
      split
      · rename_i hn
        rw [List.map_cons, List.sum_cons, add_mul, of_decide_eq_true hn]
        linarith
      · have := mul_pos hpp (pow_pos hq (k * p.tracks.length))
        linarith
  have f1 := e1 _ _ hp hk
  have f2 := e2 _ hp
  rw [hsum, one_mul, le_div_iff₀ hS] at f1
  set A := ((st'.hyps.filter fun h => n < h.tracks.length).map Hyp.prob).sum
  set M := ((st.hyps.filter fun h => h.tracks.length = n).map Hyp.prob).sum
  have hA : 0 ≤ A := by
    refine List.sum_nonneg fun y hy => ?_
    obtain ⟨x, hx, rfl⟩ := List.mem_map.1 hy
    obtain ⟨p, hpm, -, e⟩ := forall₂_mem_right hk (List.mem_filter.1 hx).1
    rw [e]
    exact (div_pos (mul_pos (hp p hpm) (pow_pos hq _)) hS).le
  have hP : 0 < (1 - q) ^ (k * n) := pow_pos hq _
  have f3 : A * (M * (1 - q) ^ (k * n)) ≤ (1 - q) ^ (k * n + k) := (mul_le_mul_of_nonneg_left f2 hA).trans f1
  rw [pow_add, ← mul_assoc, mul_comm ((1 - q) ^ (k * n))] at f3
  exact le_of_mul_le_mul_right f3 hP

/-- **C165, limit.** If it was possible that there were exactly `n` objects, then for every `ε > 0` there is a number of empty
scans after which it is always less probable than `ε` that there are more than `n`. -/
theorem C165_limit (env : Env K τ F S C Z) (pr : Params K)
    (hadd : ∀ x y, env.num.expNeg (x + y) = env.num.expNeg x * env.num.expNeg y)
    (hzero : env.num.expNeg 0 = 1) (hinv : ∀ x, 0 < x → env.num.expNeg (env.num.negLog x) = x)
    (hanti : ∀ x y, x ≤ y → env.num.expNeg y ≤ env.num.expNeg x) (hexp : ∀ x, 0 < env.num.expNeg x)
    (hsqrt : ∀ x, 0 ≤ env.num.sqrt x) (q : K) (hq0 : 0 < q) (hq1 : q < 1) (hpd : ∀ e, env.pdet e = q)
    (st : St K τ F S C) (hI : IdxInv st) (hp : ∀ h ∈ st.hyps, 0 < h.prob) (hsum : (st.hyps.map Hyp.prob).sum = 1)
    (n : ℕ) (hn : ∃ h ∈ st.hyps, h.tracks.length = n) (ε : K) (hε : 0 < ε) :
    ∃ k0, ∀ (ops : List (Op K τ F S C Z)) (st' : St K τ F S C), (∀ o ∈ ops, IsWatch env o) → k0 ≤ ops.countP isUpdate →
      Glmb.run pr st ops = .ok st' → ((st'.hyps.filter fun h => n < h.tracks.length).map Hyp.prob).sum < ε := by
  set M := ((st.hyps.filter fun h => h.tracks.length = n).map Hyp.prob).sum with hM
  have hM0 : 0 < M := by
    obtain ⟨h, hh, e⟩ := hn
    refine List.sum_pos _ ?_ ?_
    · intro y hy
      obtain ⟨x, hx, rfl⟩ := List.mem_map.1 hy
      exact hp x (List.mem_filter.1 hx).1
    · exact List.ne_nil_of_mem (List.mem_map_of_mem (List.mem_filter.2 ⟨hh, decide_eq_true e⟩))
  obtain ⟨k0, hk0⟩ := exists_pow_lt_of_lt_one (mul_pos hε hM0) (show 1 - q < 1 by linarith)
  refine ⟨k0, fun ops st' hops hk h => ?_⟩
  have h1 := (C165_forget env pr hadd hzero hinv hanti hexp hsqrt q hq0 hq1 hpd st st' hI hp hsum ops hops h).2 n
  have h2 : (1 - q) ^ ops.countP isUpdate ≤ (1 - q) ^ k0 := pow_le_pow_of_le_one (by linarith) (by linarith) hk
  exact lt_of_mul_lt_mul_right (h1.trans_lt (h2.trans_lt hk0)) hM0.le

/-! A concrete case: zero or one object with probability 1/2 each, detection probability 9/10. -/

/-- `k` time steps with empty scans. -/
noncomputable def watchOps (k : ℕ) : List (Op ℝ ℝ Unit Unit Unit Unit) :=
  (List.replicate k [.correct (realEnv (some (1 / 2))) [], .cleanup (realEnv (some (1 / 2))) false false false false false]).flatten

theorem watch_env (tab : List (Entry ℝ ℝ Unit Unit Unit)) : EnvPos (realEnv (some (1 / 2))) (realPr 1 1 3 5) tab :=
  ⟨realEnv_exp _, fun x hx => Real.sqrt_pos.2 hx, fun e _ => .inr (.inr (by
      have h1 := realOdds
      have h2 : (realPr 1 1 3 5).eps = 1 / 2 ^ 52 := rfl
      have h3 : (realEnv (some (1 / 2))).psurv e = 9 / 10 := rfl
      rw [h3, h2]
      change _ ≤ |realNum.negLog _|
      rw [abs_of_nonpos (h1.trans (by norm_num))]
      linarith)), fun e _ => by norm_num [realEnv], fun e _ => by norm_num [realEnv], by
      intro e _ f _ z s w x hx
      simp only [realEnv, Option.map_some, Option.some.injEq] at hx
      subst hx
      norm_num, realArgsort⟩

theorem watch_runs : ∀ (k : ℕ) (st : St ℝ ℝ Unit Unit Unit), TInv 1 st →
    (∀ e ∈ st.tab, e.tIdx + e.mHist.length ≤ st.cntr) → ∃ st', Glmb.run (realPr 1 1 3 5) st (watchOps k) = .ok st'
  | 0, st, _, _ => ⟨st, rfl⟩
  | k + 1, st, hI, hm => by
    obtain ⟨s1, h1, hI1, hc1⟩ := correct_total (pr := realPr 1 1 3 5) (by norm_num [realPr]) (watch_env st.tab)
      (by norm_num [realPr]) [] hI hm
    obtain ⟨s2, h2, hI2, -⟩ := cleanup_total (env := realEnv (some (1 / 2))) (pr := realPr 1 1 3 5) realArgsort
      false false false false false hI1 hc1
    obtain ⟨st', h3⟩ := watch_runs k s2
      ⟨hI2.idx, hI2.ent, fun e he => (hI2.time e he).trans (Nat.le_succ _), fun e he => (hI2.meas e he).trans (Nat.le_succ _),
        hI2.pos, hI2.ext⟩ hI2.meas
    refine ⟨st', ?_⟩
    rw [show watchOps (k + 1) = .correct (realEnv (some (1 / 2))) [] ::
      .cleanup (realEnv (some (1 / 2))) false false false false false :: watchOps k from rfl]
    simp only [Glmb.run, Glmb.step, h1, h2, h3]

/-- The conditions of C165 can be met: the filter runs for any number of empty scans, and the probability of an object falls
below any bound. -/
example (ε : ℝ) (hε : 0 < ε) : ∃ k0, ∀ k, k0 ≤ k → ∃ st', Glmb.run (realPr 1 1 3 5) stHalf (watchOps k) = .ok st' ∧
    ((st'.hyps.filter fun h => 0 < h.tracks.length).map Hyp.prob).sum < ε := by
  obtain ⟨k0, hk⟩ := C165_limit (realEnv (some (1 / 2))) (realPr 1 1 3 5) realNum_add (by simp [realNum, realEnv])
    (fun x hx => by simp only [realEnv, realNum, neg_neg]; exact Real.exp_log hx)
    (fun x y hxy => Real.exp_le_exp.2 (by linarith)) (realEnv_exp _) (fun x => Real.sqrt_nonneg x) (9 / 10)
    (by norm_num) (by norm_num) (fun e => rfl) stHalf stHalf_tinv.idx stHalf_tinv.pos (by norm_num [stHalf]) 0
    ⟨⟨1 / 2, []⟩, by simp [stHalf], rfl⟩ ε hε
  refine ⟨k0, fun k hkk => ?_⟩
  obtain ⟨st', h⟩ := watch_runs k stHalf stHalf_tinv (by
    intro e he
    simp only [stHalf, st1, birthTab, List.zipIdx_cons, List.zipIdx_nil, List.map_cons, List.map_nil, List.mem_singleton] at he
    subst he
    simp [stHalf, st1])
  have hcount : (watchOps k).countP isUpdate = k := by
    clear h hkk
    induction k with
    | zero => rfl
    | succ k ih =>
      rw [show watchOps (k + 1) = .correct (realEnv (some (1 / 2))) [] ::
        .cleanup (realEnv (some (1 / 2))) false false false false false :: watchOps k from rfl, List.countP_cons,
        List.countP_cons, ih]
      simp [isUpdate]
  refine ⟨st', h, hk _ st' ?_ (by rw [hcount]; exact hkk) h⟩
  intro o ho
  obtain ⟨l, hl, ho⟩ := List.mem_flatten.1 ho
  rw [List.eq_of_mem_replicate hl] at ho
  simp only [List.mem_cons, List.not_mem_nil, or_false] at ho
  rcases ho with rfl | rfl
  · exact ⟨rfl, rfl⟩
  · exact ⟨rfl, rfl⟩

end Gasur.Props
