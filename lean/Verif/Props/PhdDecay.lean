import Verif.Props.PhdSize
import Mathlib.Algebra.Order.Archimedean.Basic

/-!
# Property C126: the PHD filter forgets objects that are no longer seen
-/

set_option linter.unusedSectionVars false

namespace Gasur.Props

open Gasur.Phd Gasur.Spec

variable {K V P Z : Type*} [Field K] [LinearOrder K] [IsStrictOrderedRing K]
  [AddCommGroup V] [Module K V] [AddCommGroup P] [Module K P] [FloorRing K]

/-- A time step without births and measurements that prunes. -/
structure QuietRound (r : PhdRound K V P Z) : Prop where
  births : r.births = []
  meas : r.meas = []
  prunes : r.flags.1 = true
  lik : ∀ z s p, 0 ≤ (r.fc.fcor z s p).2.1

theorem QuietRound.ok {r : PhdRound K V P Z} (h : QuietRound r) : ∀ o ∈ r.ops, OkOp o ∧ PruneFirst o := by
  intro o ho
  simp only [PhdRound.ops, List.mem_cons, List.not_mem_nil, or_false] at ho
  rcases ho with rfl | rfl | rfl
  · exact ⟨by simp [OkOp, h.births], trivial⟩
  · exact ⟨h.lik, trivial⟩
  · exact ⟨trivial, Or.inl h.prunes⟩

theorem quiet_massBound (pr : Params K) : ∀ (quiet : List (PhdRound K V P Z)), (∀ r ∈ quiet, QuietRound r) → ∀ N,
    massBound pr N (quiet.flatMap PhdRound.ops) = (pr.probSurvive * pr.probMiss) ^ quiet.length * N
  | [], _, N => by simp [massBound]
  | r :: rs, h, N => by
    have hr := h r List.mem_cons_self
    rw [List.flatMap_cons, massBound_append, quiet_massBound pr rs (fun x hx => h x (List.mem_cons_of_mem _ hx))]
    simp only [PhdRound.ops, massBound, hr.births, hr.meas, List.map_nil, List.sum_nil, List.length_nil, Nat.cast_zero,
      List.length_cons, pow_succ]
    ring

theorem run_append' {env : Env K V P Z} {pr : Params K} : ∀ (a b : List (Op K V P Z)) {s s' : PState K V P},
    run env pr s (a ++ b) = .ok s' → ∃ s1, run env pr s a = .ok s1 ∧ run env pr s1 b = .ok s'
  | [], b, s, s', h => ⟨s, rfl, h⟩
  | o :: os, b, s, s', h => by
    rw [List.cons_append] at h
    obtain ⟨s1, h1, h2⟩ := run_cons env pr _ _ _ h
    obtain ⟨s2, h3, h4⟩ := run_append' os b h2
    exact ⟨s2, by simp only [run, h1, h3], h4⟩

/-- **C126, decay.** In every time step without births and measurements the total weight goes down at least by the
factor `p_S (1 - p_D)`, starting from any reachable state. -/
theorem C126_decay {env : Env K V P Z} (he : OkEnv env) {pr : Params K} (hpr : OkParams pr)
    (ops : List (Op K V P Z)) (hops : ∀ o ∈ ops, OkOp o) (quiet : List (PhdRound K V P Z))
    (hq : ∀ r ∈ quiet, QuietRound r) (s0 s : PState K V P) (h0 : run env pr init ops = .ok s0)
    (h : run env pr s0 (quiet.flatMap PhdRound.ops) = .ok s) :
    s.mix.ws.sum ≤ (pr.probSurvive * pr.probMiss) ^ quiet.length * s0.mix.ws.sum := by
  obtain ⟨g0, _⟩ := run_bound he hpr ops init s0 0 hops ⟨by simp [Aligned, init], by simp [init]⟩ (by simp [init]) h0
  obtain ⟨_, h2⟩ := run_bound he hpr _ s0 s _ (fun o ho => by
    obtain ⟨r, hr, ho⟩ := List.mem_flatMap.1 ho
    exact ((hq r hr).ok o ho).1) g0 (le_refl _) h
  rwa [quiet_massBound pr quiet hq] at h2

/-- If all components together weigh less than the threshold, a quiet time step removes them all. -/
theorem quiet_empty {env : Env K V P Z} (he : OkEnv env) {pr : Params K} (hpr : OkParams pr)
    {r : PhdRound K V P Z} (hr : QuietRound r) {s s' : PState K V P} (hg : Good s.mix)
    (hlt : pr.probSurvive * pr.probMiss * s.mix.ws.sum < pr.pruneThreshold)
    (h : run env pr s r.ops = .ok s') : s'.mix = ⟨[], [], []⟩ := by
  unfold PhdRound.ops at h
  obtain ⟨s1, k1, h⟩ := run_cons env pr _ _ _ h
  obtain ⟨s2, k2, h⟩ := run_cons env pr _ _ _ h
  obtain ⟨s3, k3, h⟩ := run_cons env pr _ _ _ h
  obtain rfl := Except.ok.inj h
  have o1 := (hr.ok (.predict r.fp r.births) (by simp [PhdRound.ops])).1
  have o2 := (hr.ok (.correct r.fc r.meas) (by simp [PhdRound.ops])).1
  obtain ⟨g1, b1⟩ := step_bound he hpr hg o1 k1 (le_refl _)
  obtain ⟨g2, b2⟩ := step_bound he hpr g1 o2 k2 b1
  simp only [massBound, hr.births, hr.meas, List.map_nil, List.sum_nil, List.length_nil, Nat.cast_zero, add_zero] at b2
  have hlt2 : s2.mix.ws.sum < pr.pruneThreshold := by
    refine lt_of_le_of_lt b2 ?_
    rw [← mul_assoc, mul_comm pr.probMiss]
    exact hlt
  obtain ⟨cs, hcs, hw⟩ := (good_iff s2.mix).1 g2
  have hall : ∀ c ∈ cs, c.1 < pr.pruneThreshold := by
    intro c hc
    refine lt_of_le_of_lt ?_ hlt2
    rw [hcs]
    exact List.single_le_sum (fun x hx => by
      obtain ⟨y, hy, rfl⟩ := List.mem_map.1 hx
      exact hw y hy) _ (List.mem_map.2 ⟨c, hc, rfl⟩)
  have hpr0 : prune pr s2.mix = .ok (⟨[], [], []⟩ : Mix K V P) := by
    rw [hcs, prune_ofComps, List.filter_eq_nil_iff.2 (fun c hc => by simpa using hall c hc)]
    rfl
  simp only [step, cleanup, optStep, hr.prunes, if_true, hpr0] at k3
  have hm : (if r.flags.2.1 = true then merge env.quad pr (⟨[], [], []⟩ : Mix K V P) else .ok ⟨[], [], []⟩) =
      .ok ⟨[], [], []⟩ := by
    split
    · simp [merge, mergeLoop]
    · rfl
  rw [hm] at k3
  dsimp only at k3
  have hc : (if r.flags.2.2.1 = true then cap env.argsort pr (⟨[], [], []⟩ : Mix K V P) else .ok ⟨[], [], []⟩) =
      .ok ⟨[], [], []⟩ := by
    split
    · simp [cap]
    · rfl
  rw [hc] at k3
  dsimp only at k3
  split at k3
  · exact doExtract_mix k3
  · obtain rfl := Except.ok.inj k3
    rfl

/-- **C126, forgetting.** If `p_S (1 - p_D) < 1`, then after any calls there is a number of time steps after which, if
nothing is born or measured any more, the mixture is empty: all objects are forgotten. Such a number is every `N` with
`(p_S (1 - p_D))^N M < threshold`, where `M` is the total weight before. No call fails. -/
theorem C126_forgotten {env : Env K V P Z} (he : OkEnv env) {pr : Params K} (hpr : OkParams pr)
    (hκ : 0 < clutter pr) (hthr : 0 < pr.pruneThreshold) (hlt : pr.probSurvive * pr.probMiss < 1)
    (ops : List (Op K V P Z)) (hops : ∀ o ∈ ops, OkOp o ∧ PruneFirst o) :
    ∃ s0, run env pr init ops = .ok s0 ∧
      (∃ N : ℕ, (pr.probSurvive * pr.probMiss) ^ N * s0.mix.ws.sum < pr.pruneThreshold) ∧
      ∀ N : ℕ, (pr.probSurvive * pr.probMiss) ^ N * s0.mix.ws.sum < pr.pruneThreshold →
        ∀ quiet : List (PhdRound K V P Z), (∀ r ∈ quiet, QuietRound r) → quiet ≠ [] → N ≤ quiet.length →
          ∃ s, run env pr s0 (quiet.flatMap PhdRound.ops) = .ok s ∧ s.mix = ⟨[], [], []⟩ := by
  obtain ⟨s0, h0, _⟩ := C27_never_fails he hpr hκ hthr ops hops
  obtain ⟨g0, _⟩ := run_bound he hpr ops init s0 0 (fun o ho => (hops o ho).1) ⟨by simp [Aligned, init], by simp [init]⟩
    (by simp [init]) h0
  have hM : 0 ≤ s0.mix.ws.sum := List.sum_nonneg g0.2
  have hq0 : 0 ≤ pr.probSurvive * pr.probMiss := mul_nonneg hpr.ps hpr.pm
  refine ⟨s0, h0, ?_, ?_⟩
  · rcases hM.eq_or_lt with hM | hM
    · exact ⟨0, by rw [← hM]; simpa using hthr⟩
    · haveI : Archimedean K := FloorRing.archimedean K
      obtain ⟨N, hN⟩ := exists_pow_lt_of_lt_one (div_pos hthr hM) hlt
      exact ⟨N, by rwa [lt_div_iff₀ hM] at hN⟩
  · intro N hN quiet hq hne hlen
    obtain ⟨s, hs, _⟩ := C27_never_fails he hpr hκ hthr (ops ++ quiet.flatMap PhdRound.ops) (by
      intro o ho
      rcases List.mem_append.1 ho with ho | ho
      · exact hops o ho
      · obtain ⟨r, hr, ho⟩ := List.mem_flatMap.1 ho
        exact (hq r hr).ok o ho)
    obtain ⟨s1, h1, h2⟩ := run_append' ops _ hs
    obtain rfl := Except.ok.inj (h0.symm.trans h1)
    refine ⟨s, h2, ?_⟩
    obtain ⟨init', last, rfl⟩ := List.eq_nil_or_concat quiet |>.resolve_left hne |>.imp fun _ h => h
    rw [List.concat_eq_append] at *
    rw [List.flatMap_append] at h2
    obtain ⟨s2, h3, h4⟩ := run_append' _ _ h2
    simp only [List.flatMap_cons, List.flatMap_nil, List.append_nil] at h4
    have hqi : ∀ r ∈ init', QuietRound r := fun r hr => hq r (List.mem_append_left _ hr)
    have hb := C126_decay he hpr ops (fun o ho => (hops o ho).1) init' hqi s0 s2 h0 h3
    obtain ⟨g2, _⟩ := run_bound he hpr _ s0 s2 _ (fun o ho => by
      obtain ⟨r, hr, ho⟩ := List.mem_flatMap.1 ho
      exact ((hqi r hr).ok o ho).1) g0 (le_refl _) h3
    refine quiet_empty he hpr (hq last (by simp)) g2 ?_ h4
    rw [List.length_append, List.length_singleton] at hlen
    calc pr.probSurvive * pr.probMiss * s2.mix.ws.sum
        ≤ pr.probSurvive * pr.probMiss * ((pr.probSurvive * pr.probMiss) ^ init'.length * s0.mix.ws.sum) :=
          mul_le_mul_of_nonneg_left hb hq0
      _ = (pr.probSurvive * pr.probMiss) ^ (init'.length + 1) * s0.mix.ws.sum := by ring
      _ ≤ (pr.probSurvive * pr.probMiss) ^ N * s0.mix.ws.sum :=
          mul_le_mul_of_nonneg_right (pow_le_pow_of_le_one hq0 hlt.le hlen) hM
      _ < pr.pruneThreshold := hN

/-- **C126, silence.** Once the mixture is empty, it stays empty while nothing is born, whatever is measured, and every
report is empty; no call fails. -/
theorem C126_silence (env : Env K V P Z) (pr : Params K) (rounds : List (PhdRound K V P Z))
    (hb : ∀ r ∈ rounds, r.births = []) (s : PState K V P) (hs : s.mix = ⟨[], [], []⟩) :
    run env pr s (rounds.flatMap PhdRound.ops) =
      .ok ⟨⟨[], [], []⟩, s.states ++ List.replicate (rounds.countP fun r => r.flags.2.2.2) ([], [])⟩ := by
  induction rounds generalizing s with
  | nil =>
    obtain ⟨m, st⟩ := s
    obtain rfl := hs
    simp [run]
  | cons r rs ih =>
    have hcor : ∀ zs : List Z, correctDensity pr r.fc (⟨[], [], []⟩ : Mix K V P) zs = .ok ⟨[], [], []⟩ := by
      intro zs
      induction zs with
      | nil => rfl
      | cons z zs ih => simp [correctDensity, corOne, normalise, ih]
    have h1 : run env pr s r.ops = .ok ⟨⟨[], [], []⟩, s.states ++ if r.flags.2.2.2 then [([], [])] else []⟩ := by
      obtain ⟨m, st⟩ := s
      obtain rfl := hs
      simp only [PhdRound.ops, run, step, hb r List.mem_cons_self, predict, predictDensity, correct, hcor, cleanup,
        List.map_nil, List.zip_nil_left, List.foldl_nil, List.append_nil]
      have hp : optStep r.flags.1 (prune pr) (⟨[], [], []⟩ : Mix K V P) = .ok ⟨[], [], []⟩ := by
        unfold optStep
        split
        · simp [prune, whereIdx, sortDesc, delAll]
        · rfl
      have hm : optStep r.flags.2.1 (merge env.quad pr) (⟨[], [], []⟩ : Mix K V P) = .ok ⟨[], [], []⟩ := by
        unfold optStep
        split
        · simp [merge, mergeLoop]
        · rfl
      have hc : optStep r.flags.2.2.1 (cap env.argsort pr) (⟨[], [], []⟩ : Mix K V P) = .ok ⟨[], [], []⟩ := by
        unfold optStep
        split
        · simp [cap]
        · rfl
      rw [hp]
      dsimp only
      rw [hm]
      dsimp only
      rw [hc]
      dsimp only
      cases hf : r.flags.2.2.2
      · simp
      · simp [doExtract, extract, whereIdx, extractLoop]
    have happ : ∀ (a b : List (Op K V P Z)) (s s1 : PState K V P), run env pr s a = .ok s1 →
        run env pr s (a ++ b) = run env pr s1 b := by
      intro a
      induction a with
      | nil =>
        intro b s s1 h
        obtain rfl := Except.ok.inj h
        rfl
      | cons o os ih =>
        intro b s s1 h
        obtain ⟨s2, g1, g2⟩ := run_cons env pr _ _ _ h
        rw [List.cons_append]
        simp only [run, g1]
        exact ih b s2 s1 g2
    rw [List.flatMap_cons, happ _ _ _ _ h1, ih (fun x hx => hb x (List.mem_cons_of_mem _ hx)) _ rfl, List.countP_cons]
    congr 2
    rw [List.append_assoc]
    congr 1
    split <;> simp [List.replicate_succ]

/-! Non-vacuity -/

/-- A time step in which nothing is born and nothing is measured. -/
def exQuiet : PhdRound ℚ ℚ ℚ ℚ := ⟨exFilt, [], exFilt, [], (true, true, true, true)⟩

theorem exQuiet_ok : QuietRound exQuiet :=
  ⟨rfl, rfl, rfl, fun z s p => by
    show 0 ≤ (exFilt.fcor z s p).2.1
    simp only [exFilt]
    positivity⟩

/-- The hypotheses of `C126_forgotten` hold for a filter that tracks two objects: there is something to forget. -/
example : 0 < clutter exParams ∧ 0 < exParams.pruneThreshold ∧ exParams.probSurvive * exParams.probMiss < 1 ∧
    (∀ o ∈ (exPhdRound [1, 7]).ops, OkOp o ∧ PruneFirst o) ∧
    (run exEnv exParams init (exPhdRound [1, 7]).ops).toOption.map (fun s => s.mix.ws.length) = some 2 := by
  refine ⟨by norm_num [clutter, exParams], by norm_num [exParams], by norm_num [exParams], fun o ho =>
    ⟨exPhdRound_ok _ o ho, ?_⟩, by decide +kernel⟩
  simp only [PhdRound.ops, exPhdRound, List.mem_cons, List.not_mem_nil, or_false] at ho
  rcases ho with rfl | rfl | rfl
  · trivial
  · trivial
  · exact Or.inl rfl

/-- Two objects are tracked; one quiet step leaves them, the fourth has removed them. -/
example : (run exEnv exParams init ((exPhdRound [1, 7]).ops ++ exQuiet.ops)).toOption.map
      (fun s => s.mix.ws.length) = some 2 ∧
    (run exEnv exParams init ((exPhdRound [1, 7]).ops ++ (List.replicate 4 exQuiet).flatMap PhdRound.ops)).toOption.map
      (fun s => (s.mix.ws, s.states.length)) = some ([], 5) := by
  decide +kernel

end Gasur.Props
