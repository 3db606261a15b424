import Verif.Props.Cphd
import Verif.Props.GlmbHist

/-!
# Properties C64-C67: posterior, history, components and extracted states of the cardinalized PHD filter
-/

set_option linter.unusedSectionVars false

namespace Gasur.Props

open Gasur.Phd Gasur.Spec Gasur.Cphd

variable {V P Z : Type*} [AddCommGroup V] [Module ℝ V] [AddCommGroup P] [Module ℝ P]

/-! ### C38, births -/

/-- **C38 is false of this code (2)**: a birth term with two Gaussians of weight one counts as one expected birth, not
as two. -/
theorem C38_births_refuted : ∃ (b : Mix ℝ ℝ ℝ) (s' : CState ℝ ℝ), b.ws = [1, 1] ∧
    Cphd.predict exCp exCF [b] (Cphd.init 3) = .ok s' ∧
    ¬ IsNormalised 3 (predicted 3 exCp.probSurvive 2 fun i => ((Cphd.init 3 : CState ℝ ℝ).card[i]?).getD 0) s'.card := by
  obtain ⟨s', hs'⟩ := C36_predict_total exCp_ok exCF [(⟨[1, 1], [0, 0], [1, 1]⟩ : Mix ℝ ℝ ℝ)] (by simp) (by simp)
    (Cphd.init 3) 3 (by norm_num) (zeroCard_dist 3)
  refine ⟨_, s', rfl, hs', fun h => ?_⟩
  have hprior : ∀ n : ℕ, 2 ≤ n → ((Cphd.init 3 : CState ℝ ℝ).card[n]?).getD 0 = 0 := by
    intro n hn
    simp only [Cphd.init, zeroCard]
    cases n with
    | zero => omega
    | succ n =>
      rw [List.getElem?_cons_succ, List.getElem?_replicate]
      split <;> rfl
  have hb : ∃ s'', Cphd.predict exCp exCF [exBirth] (Cphd.init 3) = .ok s'' ∧ s''.card = s'.card := by
    unfold Cphd.predict at hs' ⊢
    have e1 : firstWeights [(⟨[1, 1], [0, 0], [1, 1]⟩ : Mix ℝ ℝ ℝ)] = .ok [1] := rfl
    have e2 : firstWeights [exBirth] = .ok [1] := rfl
    rw [e1] at hs'
    rw [e2]
    dsimp only at hs' ⊢
    split at hs'
    · simp at hs'
    · rename_i c hc
      simp only [Except.ok.injEq] at hs'
      exact ⟨_, rfl, by rw [← hs']⟩
  obtain ⟨s'', hs'', hcard⟩ := hb
  have h1 := C38_prediction_partial exCF [exBirth] (by simp [exBirth]) (Cphd.init 3) s'' 3 (by norm_num)
    (zeroCard_dist 3) hprior hs''
  rw [hcard] at h1
  have r1 := ratio_of_normalised h (by norm_num)
  have r2 := ratio_of_normalised h1 (by norm_num)
  have p : ∀ b, predicted 3 exCp.probSurvive b (fun i => ((Cphd.init 3 : CState ℝ ℝ).card[i]?).getD 0) 0 =
      Real.exp (-b) := by
    intro b
    simp [predicted, thinned, poisson, Finset.sum_range_succ, exCp, Cphd.init, zeroCard]
  have q : ∀ b, predicted 3 exCp.probSurvive b (fun i => ((Cphd.init 3 : CState ℝ ℝ).card[i]?).getD 0) 1 =
      Real.exp (-b) * b := by
    intro b
    simp [predicted, thinned, poisson, Finset.sum_range_succ, exCp, Cphd.init, zeroCard]
  simp only [exBirth, List.map_cons, List.map_nil, List.sum_cons, List.sum_nil, add_zero] at r2
  rw [p, q] at r1 r2
  have hE := Real.exp_ne_zero (-1)
  have hE2 := Real.exp_ne_zero (-2)
  have k1 : at' s'.card 1 = at' s'.card 0 * 2 := by
    apply mul_right_cancel₀ hE2
    linarith
  have k2 : at' s'.card 1 = at' s'.card 0 := by
    apply mul_right_cancel₀ hE
    linarith
  have k0 : at' s'.card 0 = 0 := by linarith
  obtain ⟨g1, g2⟩ := h1
  rw [g2, at'_map_range _ _ (by norm_num)] at k0
  rcases div_eq_zero_iff.1 k0 with k | k
  · simp only [exBirth, List.map_cons, List.map_nil, List.sum_cons, List.sum_nil, add_zero] at k
    rw [p] at k
    exact hE k
  · exact g1 k

/-- **C28 for the CPHD filter.** Its prediction of the intensity is that of the PHD filter: the old weights times the
survival probability, then all births; predicted means and covariances; the mass follows. -/
theorem C28_cphd_predict (pr : Params ℝ) (f : Filt ℝ V P Z) (births : List (Mix ℝ V P)) (s s' : CState V P)
    (h : Cphd.predict pr f births s = .ok s') :
    s'.mix.ws.sum = pr.probSurvive * s.mix.ws.sum + (births.map fun b => b.ws.sum).sum ∧
    s'.mix.ws = (s.mix.ws.map fun w => pr.probSurvive * w) ++ births.flatMap (fun b => b.ws) ∧
    (Aligned s.mix →
      s'.mix.ms = (List.zipWith (fun v p => (f.fpred v p).1) s.mix.ms s.mix.ps) ++ births.flatMap (fun b => b.ms) ∧
      s'.mix.ps = (List.zipWith (fun v p => (f.fpred v p).2) s.mix.ms s.mix.ps) ++ births.flatMap (fun b => b.ps)) ∧
    s'.hist = s.hist ∧ s'.states = s.states := by
  unfold Cphd.predict at h
  split at h
  · simp at h
  · split at h
    · simp at h
    · simp only [Except.ok.injEq] at h
      rw [← h]
      obtain ⟨h1, h2, h3⟩ := C28_predict_mass pr f births s.mix
      exact ⟨h1, h2, h3, rfl, rfl⟩

/-! ### C64 -/

/-- What `correct` does to the cardinality distribution: Bayes' rule, with the death probability as the probability of
a missed detection. -/
theorem posterior {esf : List ℝ → List ℝ} (he : IsEsf esf) (pr : Params ℝ) (f : Filt ℝ V P Z) (zs : List Z)
    (cs : List (ℝ × V × P)) (s s' : CState V P) (hmix : s.mix = ofComps cs) (N : ℕ) (hN : s.card.length = N + 1)
    (h : Cphd.correct esf pr f zs s = .ok s') :
    IsNormalised N (fun n => measDensity pr.clutterRate pr.clutterDen (1 - pr.probSurvive)
        (fun z => pr.probDetection * (cs.map fun c => c.1 * (f.fcor z c.2.1 c.2.2).2.1).sum / (cs.map fun c => c.1).sum) n zs *
        (s.card[n]?).getD 0) s'.card := by
  unfold Cphd.correct at h
  rw [hmix, if_pos (by simp [ofComps]), comps_ofComps] at h
  split at h
  · simp at h
  rename_i cs' c' hc
  simp only [Except.ok.injEq] at h
  obtain ⟨xs, W, d0, hxs, hW, _, hden, hl, hp, hW0, hd0, hd0', hcard, _⟩ := correctComps_ok he hc
  have hg : (fun z => pr.probDetection * (cs.map fun c => c.1 * (f.fcor z c.2.1 c.2.2).2.1).sum /
      (cs.map fun c => c.1).sum) =
      fun z => xi (pr.probDetection / pr.clutterDen) f cs z * pr.clutterDen / W := by
    funext z
    unfold xi
    rw [hW]
    field_simp
  have hu : ∀ n, measDensity pr.clutterRate pr.clutterDen (1 - pr.probSurvive)
        (fun z => pr.probDetection * (cs.map fun c => c.1 * (f.fcor z c.2.1 c.2.2).2.1).sum / (cs.map fun c => c.1).sum) n zs *
        (s.card[n]?).getD 0 =
      pr.clutterDen ^ zs.length * (U0 pr.clutterRate (probDeath pr) W xs n * at' s.card n) := by
    intro n
    rw [hg, measDensity_eq _ _ _ _ hW0.ne', ← hxs]
    unfold probDeath at'
    ring
  have hk : pr.clutterDen ^ zs.length ≠ 0 := pow_ne_zero _ hden
  unfold IsNormalised
  rw [Finset.sum_congr rfl fun n _ => hu n, ← Finset.mul_sum, ← hN, ← hd0]
  refine ⟨mul_ne_zero hk hd0', ?_⟩
  rw [← h]
  show c' = _
  rw [hcard]
  apply List.map_congr_left
  intro n _
  beta_reduce
  rw [hu, mul_div_mul_left _ _ hk]

/-- **C64, partial.** If the missed-detection probability equals the death probability, the cardinality distribution
after `correct` is the Bayes posterior: proportional to the prior probability of `n` objects times the density of the
measurement set given `n` objects that are independently distributed with the normalised intensity.
*Missing:* as in C37 the code uses the death probability where the missed-detection probability is meant
(`C64_refuted`). -/
theorem C64_posterior_partial {esf : List ℝ → List ℝ} (he : IsEsf esf) (pr : Params ℝ) (f : Filt ℝ V P Z) (zs : List Z)
    (cs : List (ℝ × V × P)) (s s' : CState V P) (hmix : s.mix = ofComps cs) (N : ℕ) (hN : s.card.length = N + 1)
    (heq : pr.probMiss = 1 - pr.probSurvive) (h : Cphd.correct esf pr f zs s = .ok s') :
    IsNormalised N (fun n => measDensity pr.clutterRate pr.clutterDen pr.probMiss
        (fun z => pr.probDetection * (cs.map fun c => c.1 * (f.fcor z c.2.1 c.2.2).2.1).sum / (cs.map fun c => c.1).sum) n zs *
        (s.card[n]?).getD 0) s'.card := by
  rw [heq]
  exact posterior he pr f zs cs s s' hmix N hN h

/-- Parameters with equal death and missed-detection probability. -/
noncomputable def exCp2 : Params ℝ := ⟨1 / 2, 1 / 2, 1 / 2, 1, 1, 1 / 2, 1 / 100000, 4, 100⟩

theorem exCp2_ok : OkC exCp2 := by
  constructor <;> norm_num [exCp2]

/-- The hypotheses of C37 and C64 are met by an example with two measurements. -/
example : exCS.mix = ofComps [((1 / 2 : ℝ), (0 : ℝ), (1 : ℝ))] ∧ exCp2.probMiss = 1 - exCp2.probSurvive ∧
    ∃ s', Cphd.correct exEsf exCp2 exCF [0, 1] exCS = .ok s' := by
  refine ⟨rfl, by norm_num [exCp2], ?_⟩
  refine C36_correct_total exEsf_ok exCp2_ok exCF (fun _ _ _ => zero_le_one) _ exCS 1 exCS_dist ⟨rfl, rfl⟩ ?_
    (by norm_num [exCS])
  intro w hw
  simp only [exCS, List.mem_cons, List.not_mem_nil, or_false] at hw
  rw [hw]; norm_num

/-- **C64 is false of this code**: one component, zero or one object with probability 1/2 each, no measurement: with
detection probability 9/10 and survival probability 1/2 the new distribution is not the posterior. -/
theorem C64_refuted : ∃ s', Cphd.correct exEsf exCp exCF [] exCS = .ok s' ∧
    ¬ IsNormalised 1 (fun n => measDensity exCp.clutterRate exCp.clutterDen exCp.probMiss
        (fun z => exCp.probDetection * ([((1 / 2 : ℝ), (0 : ℝ), (1 : ℝ))].map fun c => c.1 * (exCF.fcor z c.2.1 c.2.2).2.1).sum /
          ([((1 / 2 : ℝ), (0 : ℝ), (1 : ℝ))].map fun c => c.1).sum) n [] * (exCS.card[n]?).getD 0) s'.card := by
  obtain ⟨s', hs'⟩ : ∃ s', Cphd.correct exEsf exCp exCF [] exCS = .ok s' := by
    refine C36_correct_total exEsf_ok exCp_ok exCF (fun _ _ _ => zero_le_one) _ exCS 1 exCS_dist ⟨rfl, rfl⟩ ?_
      (by norm_num [exCS])
    intro w hw
    simp only [exCS, List.mem_cons, List.not_mem_nil, or_false] at hw
    rw [hw]; norm_num
  refine ⟨s', hs', fun h => ?_⟩
  have h2 := posterior exEsf_ok exCp exCF [] [((1 / 2 : ℝ), (0 : ℝ), (1 : ℝ))] exCS s' rfl 1 rfl hs'
  have r1 := ratio_of_normalised h le_rfl
  have r2 := ratio_of_normalised h2 le_rfl
  obtain ⟨g1, g2⟩ := h2
  have hE := Real.exp_pos (-1)
  simp [measDensity, exCp, exCS] at r1 r2
  have k0 : at' s'.card 0 = 0 := by
    have : at' s'.card 0 * Real.exp (-1) = 0 := by nlinarith
    rcases mul_eq_zero.1 this with h | h
    · exact h
    · exact absurd h hE.ne'
  rw [g2, at'_map_range _ _ (by norm_num)] at k0
  rcases div_eq_zero_iff.1 k0 with k | k
  · simp [measDensity, exCp, exCS] at k
  · exact g1 k

/-! ### C65 -/

theorem argmax_mode {c : List ℝ} (hc : c ≠ []) : IsMode c ((argmax c).getD 0) := by
  obtain ⟨j, w, h1, h2, h3⟩ := argmax_some hc
  rw [h1]
  refine ⟨w, h2, fun x hx => ?_, fun k x hk hx => argmax_first h1 h2 k x hk hx⟩
  first
    | exact h3 x hx
    | (obtain ⟨i, hi⟩ := List.getElem?_of_mem hx
       exact h3 i x hi)

/-- What the loop of `extract_states` collects from the components `srt`: the longest prefix such that each component
rounds to at least one agent and before each component the number of agents is below `card`. -/
theorem extractLoop_spec (cs : List (ℝ × V × P)) (card : ℤ) : ∀ (is : List ℕ) (srt : List (ℝ × V × P)) (tot : ℤ),
    List.Forall₂ (fun i c => cs[i]? = some c) is srt →
    ∃ k, k ≤ srt.length ∧
      Cphd.extractLoop (ofComps cs) card is tot =
        .ok ((srt.take k).map fun c => (c.2.1, c.2.2, pyRound c.1)) ∧
      (∀ c ∈ srt.take k, 1 ≤ pyRound c.1) ∧
      (∀ i < k, tot + ((srt.take i).map fun c => pyRound c.1).sum < card) ∧
      (k = srt.length ∨ card ≤ tot + ((srt.take k).map fun c => pyRound c.1).sum ∨
        ∃ c, srt[k]? = some c ∧ pyRound c.1 ≤ 0)
  | [], _, tot, .nil => ⟨0, by simp, by simp [Cphd.extractLoop], by simp, by simp, .inl rfl⟩
  | i :: is, c :: srt, tot, .cons h1 h2 => by
    unfold Cphd.extractLoop
    by_cases ht : tot < card
    · rw [if_pos ht]
      have e1 : (ofComps cs).ws[i]? = some c.1 := by simp [ofComps, h1]
      have e2 : (ofComps cs).ms[i]? = some c.2.1 := by simp [ofComps, h1]
      have e3 : (ofComps cs).ps[i]? = some c.2.2 := by simp [ofComps, h1]
      rw [e1]
      dsimp only
      by_cases hr : pyRound c.1 ≤ 0
      · rw [if_pos hr]
        exact ⟨0, by simp, by simp, by simp, by simp, .inr (.inr ⟨c, rfl, hr⟩)⟩
      · rw [if_neg hr, e2, e3]
        dsimp only
        obtain ⟨k, k1, k2, k3, k4, k5⟩ := extractLoop_spec cs card is srt (tot + pyRound c.1) h2
        rw [k2]
        refine ⟨k + 1, by simpa using k1, by simp, ?_, ?_, ?_⟩
        · intro c' hc'
          rw [List.take_succ_cons, List.mem_cons] at hc'
          rcases hc' with rfl | hc'
          · omega
          · exact k3 c' hc'
        · intro j hj
          cases j with
          | zero => simpa using ht
          | succ j =>
            have := k4 j (by omega)
            rw [List.take_succ_cons, List.map_cons, List.sum_cons]
            omega
        · rcases k5 with h | h | h
          · left; simp [h]
          · right; left
            rw [List.take_succ_cons, List.map_cons, List.sum_cons]
            omega
          · right; right
            simpa using h
    · rw [if_neg ht]
      exact ⟨0, by simp, by simp, by simp, by simp, .inr (.inl (by simpa using not_lt.1 ht))⟩

/-- **C65.** `extract_states` never fails on an aligned mixture. It takes the components from the largest to the smallest
weight (any order among ties) as long as the number of agents is below the most probable number of objects and the
weight rounds to at least one; it appends their means and covariances as one entry of the estimates and the number of
agents of each, the rounded weight, is `agents_per_state`. -/
theorem C65_extract {argsort : List ℝ → List ℕ} (ha : ∀ ws, IsArgsort ws (argsort ws)) (cs : List (ℝ × V × P))
    (s : CState V P) (hmix : s.mix = ofComps cs) (hc : s.card ≠ []) :
    ∃ (srt : List (ℝ × V × P)) (k n : ℕ) (s' : CState V P), Cphd.extract argsort s = .ok s' ∧
      srt.Perm cs ∧ srt.Pairwise (fun a b => b.1 ≤ a.1) ∧ IsMode s.card n ∧ k ≤ srt.length ∧
      s'.states = s.states ++ [((srt.take k).map fun c => c.2.1, (srt.take k).map fun c => c.2.2)] ∧
      s'.agents = (srt.take k).map (fun c => pyRound c.1) ∧
      (∀ c ∈ srt.take k, 1 ≤ pyRound c.1) ∧
      (∀ i < k, ((srt.take i).map fun c => pyRound c.1).sum < n) ∧
      (k = srt.length ∨ n ≤ ((srt.take k).map fun c => pyRound c.1).sum ∨
        ∃ c, srt[k]? = some c ∧ pyRound c.1 ≤ 0) := by
  have hperm := (ha s.mix.ws).1
  have hsort := (ha s.mix.ws).2
  have hlen : s.mix.ws.length = cs.length := by rw [hmix]; simp [ofComps]
  rw [hlen] at hperm
  have hws : ∀ i : ℕ, s.mix.ws[i]? = (cs[i]?).map fun c => c.1 := by
    intro i; rw [hmix]; simp [ofComps]
  set is := argsort s.mix.ws with his
  have hlt : ∀ i ∈ is, i < cs.length := fun i hi => List.mem_range.1 (hperm.subset hi)
  -- the components in the order of `is`
  have hf : List.Forall₂ (fun i c => cs[i]? = some c) is (is.filterMap fun i => cs[i]?) := by
    clear_value is
    clear hsort hperm his
    induction is with
    | nil => exact .nil
    | cons i is ih =>
      have hi := hlt i (by simp)
      have e : cs[i]? = some cs[i] := List.getElem?_eq_getElem hi
      rw [List.filterMap_cons_some e]
      exact .cons e (ih fun j hj => hlt j (by simp [hj]))
  have hrange : (List.range cs.length).filterMap (fun i => cs[i]?) = cs := by
    clear hf hlt hperm hws hlen hmix
    induction cs using List.reverseRecOn with
    | nil => rfl
    | append_singleton cs c ih =>
      rw [List.length_append, List.length_singleton, List.range_succ, List.filterMap_append]
      congr 1
      · conv_rhs => rw [← ih]
        apply List.filterMap_congr
        intro i hi
        rw [List.getElem?_append_left (List.mem_range.1 hi)]
      · simp
  have hpermS : (is.filterMap fun i => cs[i]?).Perm cs := by
    have := hperm.filterMap (fun i => cs[i]?)
    rwa [hrange] at this
  have hsortS : (is.filterMap fun i => cs[i]?).Pairwise (fun a b => a.1 ≤ b.1) := by
    rw [List.pairwise_filterMap]
    refine hsort.imp ?_
    intro i j hij a ha b hb
    exact hij a.1 b.1 (by rw [hws, ha]; rfl) (by rw [hws, hb]; rfl)
  obtain ⟨k, k1, k2, k3, k4, k5⟩ := extractLoop_spec cs (cardinality s) is.reverse
    (is.filterMap fun i => cs[i]?).reverse 0 (List.forall₂_reverse_iff.2 hf)
  refine ⟨(is.filterMap fun i => cs[i]?).reverse, k, cardinality s, ⟨s.mix, s.card, s.hist, s.states ++
      [(((is.filterMap fun i => cs[i]?).reverse.take k).map fun c => c.2.1,
        ((is.filterMap fun i => cs[i]?).reverse.take k).map fun c => c.2.2)],
      ((is.filterMap fun i => cs[i]?).reverse.take k).map fun c => pyRound c.1⟩, ?_, (List.reverse_perm _).trans hpermS,
    List.pairwise_reverse.2 hsortS, argmax_mode hc, k1, ?_⟩
  · unfold Cphd.extract
    rw [← his, hmix, k2]
    simp only [List.map_map]
    rfl
  · refine ⟨rfl, rfl, k3, ?_, ?_⟩
    · intro i hi
      have := k4 i hi
      simpa using this
    · rcases k5 with h | h | h
      · exact .inl h
      · exact .inr (.inl (by simpa using h))
      · exact .inr (.inr h)

/-- Such an `argsort` exists, so that the hypothesis of C65 can be met: sorting the positions by weight. -/
theorem argsort_exists : ∃ argsort : List ℝ → List ℕ, ∀ ws, IsArgsort ws (argsort ws) := by
  classical
  refine ⟨fun ws => (List.range ws.length).insertionSort fun i j => at' ws i ≤ at' ws j, fun ws => ⟨?_, ?_⟩⟩
  · exact List.perm_insertionSort _ _
  · haveI : Std.Total (fun i j : ℕ => at' ws i ≤ at' ws j) := ⟨fun i j => le_total _ _⟩
    haveI : IsTrans ℕ (fun i j : ℕ => at' ws i ≤ at' ws j) := ⟨fun i j k => le_trans⟩
    refine (List.pairwise_insertionSort (fun i j => at' ws i ≤ at' ws j) (List.range ws.length)).imp ?_
    intro i j h a b ha hb
    unfold at' at h
    rw [ha, hb] at h
    exact h

/-- A concrete case of C65: weights 2 and 1, certainly two objects: one state, with two agents. -/
example : ∃ (argsort : List ℝ → List ℕ) (s' : CState ℝ ℝ),
    Cphd.extract argsort ⟨⟨[2, 1], [10, 20], [1, 1]⟩, [0, 0, 1], [], [], []⟩ = .ok s' ∧ s'.states = [([10], [1])] ∧
      s'.agents = [2] := by
  obtain ⟨argsort, ha⟩ := argsort_exists
  obtain ⟨srt, k, n, s', h, hperm, hsort, hmode, hk, h1, h2, h3, h4, h5⟩ :=
    C65_extract ha [(2, 10, 1), (1, 20, 1)] (⟨⟨[2, 1], [10, 20], [1, 1]⟩, [0, 0, 1], [], [], []⟩ : CState ℝ ℝ) rfl (by simp)
  have r2 : pyRound (2 : ℝ) = 2 := by 
    have h := Glmb.pyRound_natCast (K := ℝ) 2
    simpa using h
  have hn : n = 2 := by
    obtain ⟨p, p1, p2, p3⟩ := hmode
    have hp : (1 : ℝ) ≤ p := p2 1 (by simp)
    have hlt := (List.getElem?_eq_some_iff.1 p1).1
    simp only [List.length_cons, List.length_nil] at hlt
    have : n = 0 ∨ n = 1 ∨ n = 2 := by omega
    rcases this with rfl | rfl | rfl
    · simp at p1; linarith
    · simp at p1; linarith
    · rfl
  have hs : srt = [(2, 10, 1), (1, 20, 1)] := by
    have := List.Perm.eq_of_pairwise (le := fun a b : ℝ × ℝ × ℝ => b.1 ≤ a.1) ?_ hsort ?_ hperm
    · exact this
    · intro a b ha hb h1 h2
      have ha' := hperm.subset ha
      simp only [List.mem_cons, List.not_mem_nil, or_false] at ha' hb
      rcases ha' with rfl | rfl <;> rcases hb with rfl | rfl <;> first | rfl | (norm_num at h1 h2; done) | (exfalso; linarith)
    · simp
  subst hs hn
  refine ⟨argsort, s', h, ?_⟩
  have hk1 : k = 1 := by
    simp only [List.length_cons, List.length_nil] at hk
    have : k = 0 ∨ k = 1 ∨ k = 2 := by omega
    rcases this with rfl | rfl | rfl
    · simp at h5
      rw [r2] at h5
      norm_num at h5
    · rfl
    · have := h4 1 (by norm_num)
      simp [r2] at this
  subst hk1
  rw [h1, h2]
  simp [r2]

/-! ### C66 -/

/-- **C66, partial.** Each `correct` appends one entry to the cardinality history; its first component is the most
probable number of objects of the new distribution.
*Missing:* the second component should be the standard deviation of the number of objects; the code takes the standard
deviation of the list of probabilities (`C66_refuted`). -/
theorem C66_history_partial {esf : List ℝ → List ℝ} (he : IsEsf esf) (pr : Params ℝ) (f : Filt ℝ V P Z) (zs : List Z)
    (s s' : CState V P) (hc : s.card ≠ []) (h : Cphd.correct esf pr f zs s = .ok s') :
    ∃ n σ, s'.hist = s.hist ++ [(n, σ)] ∧ IsMode s'.card n := by
  unfold Cphd.correct at h
  split at h
  · split at h
    · simp at h
    · rename_i cs' c' hc'
      simp only [Except.ok.injEq] at h
      rw [← h]
      refine ⟨_, _, rfl, argmax_mode ?_⟩
      obtain ⟨xs, W, d0, _, _, _, _, _, _, _, _, _, hcard, _⟩ := correctComps_ok he hc'
      intro h0
      change c' = [] at h0
      rw [h0] at hcard
      have := congrArg List.length hcard
      simp at this
      exact hc (List.length_eq_zero_iff.1 this.symm)
  · simp at h

/-- One component, and certainly no object. -/
noncomputable def exCert : CState ℝ ℝ := ⟨⟨[1 / 2], [0], [1]⟩, [1, 0], [], [], []⟩

/-- **C66 is false of this code**: if the filter is, and stays, certain that there is no object, the recorded standard
deviation is 1/2, while that of the number of objects is zero. -/
theorem C66_refuted (zs : List ℝ) : ∃ s', Cphd.correct exEsf exCp exCF zs exCert = .ok s' ∧ s'.card = [1, 0] ∧
    cardStd s'.card = 0 ∧ s'.hist = [(0, 1 / 2)] := by
  have hd : IsDist 1 exCert.card := by
    refine ⟨rfl, ?_, by simp [exCert]⟩
    intro x hx
    simp only [exCert, List.mem_cons, List.not_mem_nil, or_false] at hx
    rcases hx with rfl | rfl <;> norm_num
  obtain ⟨s', hs'⟩ : ∃ s', Cphd.correct exEsf exCp exCF zs exCert = .ok s' := by
    refine C36_correct_total exEsf_ok exCp_ok exCF (fun _ _ _ => zero_le_one) _ exCert 1 hd ⟨rfl, rfl⟩ ?_
      (by norm_num [exCert])
    intro w hw
    simp only [exCert, List.mem_cons, List.not_mem_nil, or_false] at hw
    rw [hw]; norm_num
  have hpost := posterior exEsf_ok exCp exCF zs [((1 / 2 : ℝ), (0 : ℝ), (1 : ℝ))] exCert s' rfl 1 rfl hs'
  have hcard : s'.card = [1, 0] := by
    obtain ⟨g1, g2⟩ := hpost
    rw [g2]
    rw [Finset.sum_range_succ, Finset.sum_range_one] at g1 ⊢
    simp only [exCert, List.getElem?_cons_zero, List.getElem?_cons_succ, Option.getD_some, mul_one, mul_zero, add_zero]
      at g1 ⊢
    show [_, _] = _
    simp only [List.getElem?_cons_zero, List.getElem?_cons_succ, Option.getD_some, mul_one, mul_zero, zero_div]
    rw [div_self g1]
  refine ⟨s', hs', hcard, ?_, ?_⟩
  · rw [hcard]
    simp [cardStd, cardMean]
  · unfold Cphd.correct at hs'
    split at hs'
    · split at hs'
      · simp at hs'
      · rename_i cs' c' hc'
        simp only [Except.ok.injEq] at hs'
        rw [← hs'] at hcard ⊢
        dsimp only at hcard ⊢
        rw [hcard]
        have e1 : (argmax ([1, 0] : List ℝ)).getD 0 = 0 := by
          simp only [argmax]
          norm_num
        have e2 : npStd [1, 0] = 1 / 2 := by
          unfold npStd
          rw [Real.sqrt_eq_iff_mul_self_eq] <;> norm_num
        rw [e1, e2]
        rfl
    · simp at hs'

/-! ### C67 -/

/-- **C67, partial.** If the covariance that the inner filter computes does not depend on the measurement (as for a
Kalman filter), then after `correct` the mixture consists of the predicted components, unchanged but for a common
factor of the weights, followed, for each measurement in order, by one component per predicted component, in order, with
the mean and covariance that the inner filter computes from this component and this measurement; its weight is the
predicted weight times the likelihood times a factor that depends on the measurement only. No factor is negative.
*Missing:* other inner filters (`C67_refuted`). -/
theorem C67_components_partial {esf : List ℝ → List ℝ} (he : IsEsf esf) {pr : Params ℝ} (hpr : OkC pr) (f : Filt ℝ V P Z)
    (hf : ∀ z s p, 0 ≤ (f.fcor z s p).2.1) (hcov : ∀ z z' v p, (f.fcor z v p).2.2 = (f.fcor z' v p).2.2) (zs : List Z)
    (cs : List (ℝ × V × P)) (hw : ∀ c ∈ cs, 0 ≤ c.1)
    (s s' : CState V P) (hmix : s.mix = ofComps cs) (hcard : ∀ x ∈ s.card, 0 ≤ x)
    (h : Cphd.correct esf pr f zs s = .ok s') :
    ∃ (a : ℝ) (b : ℕ → ℝ), 0 ≤ a ∧ (∀ i, 0 ≤ b i) ∧
      s'.mix = ofComps (cs.map (fun c => (a * c.1, c.2)) ++
        (zs.zipIdx).flatMap fun z => cs.map fun c =>
          (b z.2 * ((f.fcor z.1 c.2.1 c.2.2).2.1 * c.1), (f.fcor z.1 c.2.1 c.2.2).1, (f.fcor z.1 c.2.1 c.2.2).2.2)) := by
  unfold Cphd.correct at h
  rw [hmix, if_pos (by simp [ofComps]), comps_ofComps] at h
  split at h
  · simp at h
  rename_i cs' c' hc
  simp only [Except.ok.injEq] at h
  obtain ⟨xs, W, d0, hxs, hW, _, hden, hl, hp, hW0, hd0, hd0', _, hcs'⟩ := correctComps_ok he hc
  have hx : ∀ x ∈ xs, 0 ≤ x := by
    intro x hx
    rw [hxs] at hx
    obtain ⟨z, _, rfl⟩ := List.mem_map.1 hx
    exact xi_nonneg (div_nonneg hpr.pd hpr.den.le) hf hw z
  have hd : 0 ≤ d0 := by
    rw [hd0]
    exact Finset.sum_nonneg fun n _ => mul_nonneg (U0_pos hl hp hW0 hx n).le (at'_nonneg hcard n)
  refine ⟨(∑ n ∈ Finset.range s.card.length, U1 pr.clutterRate (probDeath pr) W xs n * at' s.card n) / d0 * pr.probMiss,
    fun i => (∑ n ∈ Finset.range s.card.length, U1 pr.clutterRate (probDeath pr) W (xs.eraseIdx i) n * at' s.card n) / d0 *
      (pr.probDetection / pr.clutterDen), ?_, ?_, ?_⟩
  · exact mul_nonneg (div_nonneg (Finset.sum_nonneg fun n _ => mul_nonneg (U1_nonneg hl hp hW0 hx n)
      (at'_nonneg hcard n)) hd) hpr.pm
  · intro i
    refine mul_nonneg (div_nonneg (Finset.sum_nonneg fun n _ => mul_nonneg (U1_nonneg hl hp hW0 (fun x hx' => ?_) n)
      (at'_nonneg hcard n)) hd) (div_nonneg hpr.pd hpr.den.le)
    exact hx x (List.mem_of_mem_eraseIdx hx')
  · rw [← h]
    show mixOf cs' = _
    rw [mixOf_eq, hcs']
    congr 1
    congr 1
    apply List.flatMap_congr
    intro z _
    unfold detComps
    apply List.map_congr_left
    intro c _
    rw [hcov (zs.getLast?.getD z.1) z.1]
    congr 1
    ring

/-- An inner filter whose covariance is the measurement. -/
def exCZ : Filt ℝ ℝ ℝ ℝ := ⟨fun m p => (m, p), fun z m _ => (m, 1, z)⟩

/-- **C67 is false of this code** if the covariance depends on the measurement: the covariance computed for the last
measurement is used for all measurements. -/
theorem C67_refuted : ∃ s', Cphd.correct exEsf exCp exCZ [0, 1] exCS = .ok s' ∧ s'.mix.ps = [1, 1, 1] ∧
    (exCZ.fcor 0 0 1).2.2 = 0 := by
  obtain ⟨s', hs'⟩ : ∃ s', Cphd.correct exEsf exCp exCZ [0, 1] exCS = .ok s' := by
    refine C36_correct_total exEsf_ok exCp_ok exCZ (fun _ _ _ => zero_le_one) _ exCS 1 exCS_dist ⟨rfl, rfl⟩ ?_
      (by norm_num [exCS])
    intro w hw
    simp only [exCS, List.mem_cons, List.not_mem_nil, or_false] at hw
    rw [hw]; norm_num
  refine ⟨s', hs', ?_, rfl⟩
  unfold Cphd.correct at hs'
  split at hs'
  · split at hs'
    · simp at hs'
    · rename_i cs' c' hc
      simp only [Except.ok.injEq] at hs'
      obtain ⟨xs, W, d0, _, _, _, _, _, _, _, _, _, _, hcs'⟩ := correctComps_ok exEsf_ok hc
      rw [← hs']
      show (mixOf cs').ps = _
      rw [hcs']
      simp [mixOf, detComps, exCZ, comps, exCS]
  · simp at hs'

end Gasur.Props
