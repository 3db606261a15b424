import Verif.Proofs.GlmbWitness
import Mathlib.Analysis.SpecialFunctions.Log.Basic
import Mathlib.Analysis.SpecialFunctions.Sqrt
import Mathlib.Analysis.Complex.ExponentialBounds

/-!
# Properties C14-C22, C50: the GLMB filter

`run pr init ops` executes a sequence of `predict`, `correct`, `cleanup` and `extract_states` calls on a
new filter; parameters that may change between calls (inner filter, probabilities of survival and
detection, births, measurements) are part of the calls. Witnesses use the real functions `sqrt`, `log`,
`exp` (`realNum`).
-/

set_option linter.unusedSectionVars false

namespace Gasur.Props

open Gasur.Glmb Gasur.Spec

variable {K τ F S C Z : Type*} [Field K] [LinearOrder K] [IsStrictOrderedRing K] [FloorRing K]
  [DecidableEq τ]

/-! ### C14 -/

/-- **C14.** After any sequence of calls that returned, every hypothesis lists pairwise distinct indices of
existing track-table entries. -/
theorem C14_tracks_valid (pr : Params K) (heps : 0 < pr.eps) (ops : List (Op K τ F S C Z))
    (st : St K τ F S C) (h : run pr init ops = .ok st) :
    ∀ hyp ∈ st.hyps, hyp.tracks.Nodup ∧ ∀ i ∈ hyp.tracks, i < st.tab.length := by
  have hI := run_induct (pr := pr) IdxInv (fun _ _ o hI hs => step_idx heps o hI hs) ops init st init_idx h
  exact fun hyp hh => ⟨hI.nodup hyp hh, hI.range hyp hh⟩

/-! ### C15 -/

/-- **C15, partial.** If the rounded times of the `predict` calls are pairwise different, then in every
reachable state the tracks of a hypothesis have pairwise different labels. *Missing:* strictly increasing
times are not enough, because the label contains the rounded time, see `C15_refuted`. -/
theorem C15_labels_partial {T : Type*} (rnd : T → τ) (pr : Params K) (heps : 0 < pr.eps)
    (ops : List (Op K τ F S C Z)) (times : List T) (htimes : ops.flatMap Op.labels = times.map rnd)
    (hdist : (times.map rnd).Nodup) (st : St K τ F S C) (h : run pr init ops = .ok st) :
    ∀ hyp ∈ st.hyps, ∀ i ∈ hyp.tracks, ∀ j ∈ hyp.tracks, i ≠ j →
      ∃ e e', st.tab[i]? = some e ∧ st.tab[j]? = some e' ∧ e.label ≠ e'.label := by
  obtain ⟨past, hL⟩ := run_lab heps ops [] init st init_lab (htimes ▸ hdist) (by simp) h
  intro hyp hh i hi j hj hij
  have hi' := hL.idx.range hyp hh i hi
  have hj' := hL.idx.range hyp hh j hj
  exact ⟨_, _, List.getElem?_eq_getElem hi', List.getElem?_eq_getElem hj', fun hee =>
    hij (hL.uniq hyp hh i hi j hj _ _ (List.getElem?_eq_getElem hi') (List.getElem?_eq_getElem hj') hee)⟩

/-- The real functions used by the code. -/
noncomputable def realNum : Num ℝ := ⟨Real.sqrt, fun x => -Real.log x, fun x => Real.exp (-x)⟩

/-- A filter environment over the reals: survival and detection probability 0.9, an inner filter that
leaves the state alone, and a likelihood `lik` (`none`: depletion). Filter states, states, covariances and
measurements are trivial. -/
noncomputable def realEnv (lik : Option ℝ) : Env ℝ ℝ Unit Unit Unit Unit :=
  { num := realNum, sortInds := fun _ _ => Equiv.refl _
    argsort := fun ws => (List.range ws.length).mergeSort fun i j =>
      decide ((ws[i]?).getD 0 ≤ (ws[j]?).getD 0)
    predF := fun _ _ => ((), (), ()), corF := fun _ _ _ _ => lik.map fun q => ((), (), (), q)
    psurv := fun _ => 9 / 10, pdet := fun _ => 9 / 10 }

/-- Filter parameters: `eps = 2^-52`. -/
noncomputable def realPr (nb ns nu mh : ℕ) : Params ℝ :=
  { reqBirths := nb, reqSurv := ns, reqUpd := nu, pruneThreshold := 1 / 1000, maxHyps := mh,
    clutterRate := 1, clutterDen := 1, eps := 1 / 2 ^ 52, fmax := 2 ^ 1000 }

/-- A birth term with one component. -/
noncomputable def realBirth (p : ℝ) : Birth ℝ Unit Unit Unit :=
  { fStates := [()], ws := [1], states := [()], covs := [()], prob := p }

/-- Rounding to `d` decimal places. -/
noncomputable def roundDec (d : ℕ) (t : ℝ) : ℝ := (Phd.pyRound (t * 10 ^ d) : ℝ) / 10 ^ d

theorem realOdds : realNum.negLog ((9 / 10 : ℝ) / (1 - 9 / 10)) ≤ -(1 / 2 ^ 52) := by
  have h1 : ((9 / 10 : ℝ) / (1 - 9 / 10)) = 9 := by norm_num
  have h2 : (1 : ℝ) - 9⁻¹ ≤ Real.log 9 := Real.one_sub_inv_le_log_of_pos (by norm_num)
  simp only [realNum]
  rw [h1]
  have : (1 / 2 ^ 52 : ℝ) ≤ 1 - 9⁻¹ := by norm_num
  linarith

theorem realBirth_wf {p : ℝ} (h0 : 0 < p) (h1 : p < 1) : BirthWF (realBirth p) :=
  ⟨rfl, rfl, rfl, by simp [realBirth], h0.le, h1⟩

theorem realEnv_exp (lik : Option ℝ) (x : ℝ) : 0 < (realEnv lik).num.expNeg x := Real.exp_pos _

theorem roundDec_tie : roundDec 2 0 = roundDec 2 (1 / 1000) := by
  unfold roundDec Phd.pyRound
  have h1 : ⌊(0 : ℝ) * 10 ^ 2⌋ = 0 := by norm_num
  have h2 : ⌊(1 / 1000 : ℝ) * 10 ^ 2⌋ = 0 := by rw [Int.floor_eq_zero_iff]; constructor <;> norm_num
  rw [h1, h2]
  norm_num

/-- **C15 is false of this code** for steps shorter than the rounding: two consecutive time steps 1 ms
apart with the default two decimal places give two tracks of one hypothesis the same label. -/
theorem C15_refuted : ∃ (t1 t2 : ℝ) (env : Env ℝ ℝ Unit Unit Unit Unit) (pr : Params ℝ)
    (births : List (Birth ℝ Unit Unit Unit)) (st : St ℝ ℝ Unit Unit Unit), t1 < t2 ∧
    run pr init [.predict env (roundDec 2 t1) births, .correct env [],
      .cleanup env false false false false false, .predict env (roundDec 2 t2) births] = .ok st ∧
    ∃ hyp ∈ st.hyps, 0 ∈ hyp.tracks ∧ 1 ∈ hyp.tracks ∧
      ∃ e e', st.tab[0]? = some e ∧ st.tab[1]? = some e' ∧ e.label = e'.label := by
  have heps : (0 : ℝ) < (realPr 1 1 1 1).eps := by norm_num [realPr]
  obtain ⟨st, h1, h2, e0, e1, h3, h4, h5⟩ := predict_st2 (env := realEnv none) (pr := realPr 1 1 1 1) heps
    rfl rfl (roundDec 2 0) (roundDec 2 (1 / 1000)) (b := realBirth (9 / 10))
    (realBirth_wf (by norm_num) (by norm_num)) (by norm_num [realBirth]) (realEnv_exp none) realOdds Real.sqrt_one
    (p := 9 / 10) (by norm_num) (by norm_num) (fun _ => rfl) realOdds
  refine ⟨0, 1 / 1000, realEnv none, realPr 1 1 1 1, [realBirth (9 / 10)], st, by norm_num, ?_,
    ⟨1, [0, 1]⟩, by rw [h2]; simp, by simp, by simp, e0, e1, by rw [h3]; rfl, by rw [h3]; rfl, ?_⟩
  · simp only [run, step]
    rw [predict_st1 heps rfl (roundDec 2 0) (b := realBirth (9 / 10)) (by norm_num [realBirth])
      (by norm_num [realBirth]) (realEnv_exp none) realOdds]
    simp only
    rw [correct_st1 _ (realEnv_exp none) (fun _ => by norm_num [realEnv])]
    simp only
    rw [cleanup_st1]
    simp only
    rw [h1]
  · rw [h4, h5, roundDec_tie]

/-! ### C16 -/

/-- **C16, prediction.** Whatever `predict` returns from non-negative weights has non-negative weights
that sum to one (unless no hypothesis is left). -/
theorem C16_predict (env : Env K τ F S C Z) (hexp : ∀ x, 0 ≤ env.num.expNeg x)
    (hdet : ∀ e, env.pdet e ≤ 1) (pr : Params K) (heps : 0 < pr.eps) (lab : τ)
    (births : List (Birth K F S C)) (st st' : St K τ F S C) (hw : ∀ h ∈ st.hyps, 0 ≤ h.prob)
    (h : predict env pr lab births st = .ok st') :
    (∀ h ∈ st'.hyps, 0 ≤ h.prob) ∧ (st'.hyps ≠ [] → (st'.hyps.map fun h => h.prob).sum = 1) := by
  have := predict_winv ⟨hexp, hdet⟩ heps hw h
  exact ⟨this.nonneg, this.sum⟩

/-- **C16, correction, partial.** After `correct` the weights are non-negative and sum to at most one; they
sum to one if no inner filter reported depletion. *Missing:* with depletion they may sum to less than one,
see `C16_refuted`. -/
theorem C16_correct_partial (env : Env K τ F S C Z) (hexp : ∀ x, 0 ≤ env.num.expNeg x)
    (hdet : ∀ e, env.pdet e ≤ 1) (pr : Params K) (meas : List Z) (st st' : St K τ F S C)
    (hidx : ∀ h ∈ st.hyps, h.tracks.Nodup ∧ ∀ i ∈ h.tracks, i < st.tab.length)
    (hw : ∀ h ∈ st.hyps, 0 ≤ h.prob) (h : correct env pr meas st = .ok st') :
    (∀ h ∈ st'.hyps, 0 ≤ h.prob) ∧ (st'.hyps.map fun h => h.prob).sum ≤ 1 ∧
    ((∀ z f s w, env.corF z f s w ≠ none) → st'.hyps ≠ [] →
      (st'.hyps.map fun h => h.prob).sum = 1) := by
  obtain ⟨h1, h2⟩ := correct_nonneg ⟨hexp, hdet⟩ hw h
  exact ⟨h1, h2, fun hd hne => (correct_winv ⟨hexp, hdet⟩ hd
    ⟨fun h hh => (hidx h hh).2, fun h hh => (hidx h hh).1⟩ hw h).sum hne⟩

/-- **C16, prune and cap.** Pruning non-negative weights, and capping, give weights that sum to one. -/
theorem C16_prune_cap (env : Env K τ F S C Z) (pr : Params K) (st st' : St K τ F S C)
    (hw : ∀ h ∈ st.hyps, 0 ≤ h.prob) :
    (prune pr st = .ok st' → (∀ h ∈ st'.hyps, 0 ≤ h.prob) ∧
      (st'.hyps ≠ [] → (st'.hyps.map fun h => h.prob).sum = 1)) ∧
    (cap env pr st = .ok st' → pr.maxHyps < st.hyps.length → (∀ h ∈ st'.hyps, 0 ≤ h.prob) ∧
      (st'.hyps ≠ [] → (st'.hyps.map fun h => h.prob).sum = 1)) := by
  constructor
  · intro h
    have := prune_winv hw h
    exact ⟨this.nonneg, this.sum⟩
  · intro h hlt
    rcases cap_ok h with ⟨hle, _⟩ | ⟨_, kept, hs, hk, hn, rfl⟩
    · omega
    · have := normHyps_winv hn fun x hx => hw x (pick_subset hk hx)
      exact ⟨this.nonneg, this.sum⟩

/-- **C16 is false of this code**: a track whose inner filter reports depletion for the only measurement
leaves a hypothesis list whose weights sum to less than one. -/
theorem C16_refuted : ∃ (env : Env ℝ ℝ Unit Unit Unit Unit) (pr : Params ℝ)
    (births : List (Birth ℝ Unit Unit Unit)) (st : St ℝ ℝ Unit Unit Unit),
    run pr init [.predict env 0 births, .correct env [()]] = .ok st ∧ st.hyps ≠ [] ∧
    (st.hyps.map fun h => h.prob).sum < 1 := by
  have heps : (0 : ℝ) < (realPr 1 1 2 1).eps := by norm_num [realPr]
  obtain ⟨st, h1, ⟨w, hw0, hw1, h2⟩, _⟩ := correct_depl (env := realEnv none) (pr := realPr 1 1 2 1) heps
    (by norm_num [realPr]) rfl (0 : ℝ) (b := realBirth (9 / 10))
    (realBirth_wf (by norm_num) (by norm_num)) () (fun _ _ _ => rfl) (realEnv_exp none)
    (fun _ => by norm_num [realEnv]) Real.sqrt_one
  refine ⟨realEnv none, realPr 1 1 2 1, [realBirth (9 / 10)], st, ?_, by rw [h2]; simp, by rw [h2]; simpa⟩
  simp only [run, step]
  rw [predict_st1 heps rfl (0 : ℝ) (b := realBirth (9 / 10)) (by norm_num [realBirth])
      (by norm_num [realBirth]) (realEnv_exp none) realOdds]
  simp only
  rw [h1]

/-! ### C17 -/

/-- **C17.** Every hypothesis after `correct` comes from a hypothesis `p` before it and an assignment `a` of
at most one measurement to each of its tracks, no measurement to two tracks; it has the same tracks in the
same order (label, birth step), and the entry of each track is the old entry updated with the assigned
measurement (`corF`), or left alone for a missed detection, with the assignment appended to its history. -/
theorem C17_update_structure (env : Env K τ F S C Z) (pr : Params K) (meas : List Z)
    (st st' : St K τ F S C) (hidx : ∀ h ∈ st.hyps, h.tracks.Nodup ∧ ∀ i ∈ h.tracks, i < st.tab.length)
    (h : correct env pr meas st = .ok st') (h') (hh : h' ∈ st'.hyps) :
    ∃ p ∈ st.hyps, ∃ a : Fin p.tracks.length → Option ℕ,
      (∀ i i' m, a i = some m → a i' = some m → i = i') ∧
      (∀ i m, a i = some m → m < meas.length) ∧
      ∃ hlen : h'.tracks.length = p.tracks.length,
      ∀ i : Fin p.tracks.length, ∃ e e', st.tab[p.tracks[i]]? = some e ∧
        st'.tab[h'.tracks[i.val]'(by rw [hlen]; exact i.isLt)]? = some e' ∧
        e'.label = e.label ∧ e'.tIdx = e.tIdx ∧ e'.mHist = e.mHist ++ [a i] ∧
        (a i = none → e'.sHist = e.sHist ∧ e'.wHist = e.wHist ∧ e'.fStates = e.fStates) ∧
        (∀ m, a i = some m → ∃ z rs s w, meas[m]? = some z ∧ e.sHist.getLast? = some s ∧
          e.wHist.getLast? = some w ∧
          List.Forall₂ (fun x r => env.corF z x.1 x.2.1 x.2.2 = some r) (e.fStates.zip (s.zip w)) rs ∧
          e'.fStates = rs.map (fun r => r.1) ∧
          e'.sHist = e.sHist.dropLast ++ [rs.map fun r => r.2.1] ∧
          e'.wHist = e.wHist.dropLast ++ [rs.map fun r => (r.2.2.2 + pr.eps) /
            (rs.map fun r => r.2.2.2 + pr.eps).sum]) := by
  obtain ⟨p, hp, a, h1, h2, hlen, h3⟩ := correct_hyp
    ⟨fun h hh => (hidx h hh).2, fun h hh => (hidx h hh).1⟩ h hh
  refine ⟨p, hp, a, h1, h2, hlen, ?_⟩
  intro i
  obtain ⟨e, e', g1, g2, hu⟩ := h3 i
  obtain ⟨l1, l2, l3⟩ := hu.label
  refine ⟨e, e', g1, g2, l1, l2, l3, ?_, ?_⟩
  · intro hn
    rcases hu with ⟨_, rfl⟩ | ⟨j, _, _, _, hj, _⟩
    · exact ⟨rfl, rfl, rfl⟩
    · rw [hn] at hj; simp at hj
  · intro m hm
    rcases hu with ⟨hn, _⟩ | ⟨j, z, e0, c, hj, hz, hc, rfl⟩
    · rw [hm] at hn; simp at hn
    · rw [hm, Option.some.injEq] at hj
      subst hj
      unfold correctEntry at hc
      split at hc
      · rename_i s w hs hw
        split at hc
        · split at hc
          · simp at hc
          · rename_i rs hrs
            split at hc
            · simp at hc
            · simp only [Except.ok.injEq, Prod.mk.injEq, Option.some.injEq] at hc
              obtain ⟨rfl, _⟩ := hc
              exact ⟨z, rs, s, w, hz, hs, hw,
                traverseE_optE (fun x : F × S × K => env.corF z x.1 x.2.1 x.2.2) hrs, rfl, rfl, rfl⟩
        · simp at hc
      · simp at hc

/-! ### C18 -/

/-- **C18, the clean-up.** For every list of hypotheses: after the clean-up no two hypotheses have the same
track set (as multisets), and for every track set the total probability is what it was before. -/
theorem C18_cleanup (hyps : List (Hyp K)) :
    (cleanPred hyps).Pairwise (fun a b => ¬ a.tracks.Perm b.tracks) ∧
    ∀ T : List ℕ, (((cleanPred hyps).filter fun h => decide (h.tracks.Perm T)).map fun h => h.prob).sum =
      ((hyps.filter fun h => decide (h.tracks.Perm T)).map fun h => h.prob).sum := by
  refine ⟨cleanPred_keys hyps, ?_⟩
  intro T
  exact cleanPred_massOf (fun l => l.Perm T)
    (fun a b hab => ⟨fun h => hab.symm.trans h, fun h => hab.trans h⟩) hyps

/-- **C18.** After `predict` no two hypotheses contain the same set of tracks. -/
theorem C18_predict (env : Env K τ F S C Z) (pr : Params K) (heps : 0 < pr.eps) (lab : τ)
    (births : List (Birth K F S C)) (st st' : St K τ F S C)
    (hidx : ∀ h ∈ st.hyps, h.tracks.Nodup ∧ ∀ i ∈ h.tracks, i < st.tab.length)
    (h : predict env pr lab births st = .ok st') :
    st'.hyps.Pairwise fun a b => a.tracks.toFinset ≠ b.tracks.toFinset := by
  have hI := predict_idx heps ⟨fun h hh => (hidx h hh).2, fun h hh => (hidx h hh).1⟩ h
  obtain ⟨costs, paths, bh, survTab, sh, hs, h1, h2, h3, h4, h5, h6, rfl⟩ := predict_ok h
  refine (cleanPred_keys hs).imp_of_mem ?_
  intro a b ha hb hab he
  exact hab (List.perm_of_nodup_nodup_toFinset_eq (hI.nodup a ha) (hI.nodup b hb) he)

example : ((cleanPred [(⟨1 / 4, [0, 2]⟩ : Hyp ℚ), ⟨1 / 4, [1]⟩, ⟨1 / 2, [2, 0]⟩]).map fun h =>
    (h.prob, h.tracks)) = [(3 / 4, [0, 2]), (1 / 4, [1])] := by decide +kernel

/-! ### C19 -/

/-- **C19, partial.** For every table (with missing entries) and hypothesis list with indices in range, the
clean-up returns: the hypotheses that use no missing entry, in order, with unchanged probability, and each
index of such a hypothesis now points to the same entry as before; the new table contains only entries
that were used by some hypothesis of the given list, each once and in order. If no hypothesis uses a missing
entry, every new entry is used by a remaining hypothesis. *Missing:* the last sentence without its
condition, see `C19_refuted`. -/
theorem C19_clean_updates_partial (tab : List (Option (Entry K τ F S C))) (hyps : List (Hyp K))
    (hr : ∀ h ∈ hyps, ∀ i ∈ h.tracks, i < tab.length) :
    ∃ tab' hyps' pos, cleanUpd tab hyps = .ok (tab', hyps') ∧
      List.Forall₂ (fun (h h' : Hyp K) => h'.prob = h.prob ∧
        List.Forall₂ (fun i i' => ∃ e, tab[i]? = some (some e) ∧ tab'[i']? = some e) h.tracks h'.tracks)
        (hyps.filter fun h => h.tracks.all fun i => (tab[i]?).any Option.isSome) hyps' ∧
      pos.Pairwise (· < ·) ∧ List.Forall₂ (fun i e => tab[i]? = some (some e) ∧ ∃ h ∈ hyps, i ∈ h.tracks) pos tab' ∧
      ((∀ h ∈ hyps, ∀ i ∈ h.tracks, tab[i]? ≠ some none) →
        ∀ k, k < tab'.length → ∃ h' ∈ hyps', k ∈ h'.tracks) := by
  have hok : ∃ r, cleanUpd tab hyps = .ok r := by
    unfold cleanUpd
    rw [if_neg]
    · exact ⟨_, rfl⟩
    · intro hc
      rw [List.any_eq_true] at hc
      obtain ⟨x, hx, hc⟩ := hc
      rw [List.any_eq_true] at hc
      obtain ⟨i, hi, hc⟩ := hc
      have := hr x hx i hi
      have h2 : tab.length ≤ i := by simpa using hc
      omega
  obtain ⟨⟨tab', hyps'⟩, hok⟩ := hok
  obtain ⟨_, c2, c3, c4, c5⟩ := cleanUpd_ok hok
  have hfilter : hyps.filter (fun h => h.tracks.all fun i => decide (i ∈ usedInds tab hyps)) =
      hyps.filter fun h => h.tracks.all fun i => (tab[i]?).any Option.isSome := by
    apply List.filter_congr
    intro h hh
    rw [Bool.eq_iff_iff, List.all_eq_true, List.all_eq_true]
    have : ∀ i ∈ h.tracks, (decide (i ∈ usedInds tab hyps) = true ↔
        (tab[i]?).any Option.isSome = true) := by
      intro i hi
      rw [decide_eq_true_iff, mem_usedInds, Option.any_eq_true]
      constructor
      · rintro ⟨⟨e, he⟩, _⟩; exact ⟨some e, he, rfl⟩
      · rintro ⟨o, ho, hs⟩
        obtain ⟨e, rfl⟩ := Option.isSome_iff_exists.1 hs
        exact ⟨⟨e, ho⟩, h, hh, hi⟩
    exact ⟨fun hx i hi => (this i hi).1 (hx i hi), fun hx i hi => (this i hi).2 (hx i hi)⟩
  refine ⟨tab', hyps', usedInds tab hyps, hok, ?_, ?_, ?_, ?_⟩
  · rw [c5, hfilter, List.forall₂_map_right_iff]
    apply List.forall₂_same.2
    intro h hh
    refine ⟨rfl, ?_⟩
    simp only
    rw [List.forall₂_map_right_iff]
    apply List.forall₂_same.2
    intro i hi
    rw [← hfilter, List.mem_filter, List.all_eq_true] at hh
    have hu : i ∈ usedInds tab hyps := by simpa using hh.2 i hi
    obtain ⟨e, he⟩ := (mem_usedInds.1 hu).1
    have := (c3 i hu).2
    rw [he, Option.some.injEq] at this
    exact ⟨e, he, this⟩
  · exact (List.pairwise_lt_range).filter _
  · rw [List.forall₂_iff_get]
    refine ⟨c2.symm, ?_⟩
    intro k h1 h2
    simp only [List.get_eq_getElem]
    obtain ⟨i, hi, hik, hie⟩ := c4 k _ (List.getElem?_eq_getElem h2)
    have : (usedInds tab hyps)[k] = i := by
      subst hik
      exact List.getElem_idxOf _
    rw [this]
    exact ⟨hie, (mem_usedInds.1 hi).2⟩
  · intro hno k hk
    obtain ⟨i, hi, hik, hie⟩ := c4 k _ (List.getElem?_eq_getElem hk)
    obtain ⟨h, hh, hih⟩ := (mem_usedInds.1 hi).2
    refine ⟨⟨h.prob, h.tracks.map fun i => (usedInds tab hyps).idxOf i⟩, ?_,
      List.mem_map.2 ⟨i, hih, hik⟩⟩
    rw [c5]
    refine List.mem_map.2 ⟨h, List.mem_filter.2 ⟨hh, ?_⟩, rfl⟩
    rw [List.all_eq_true]
    intro j hj
    rw [decide_eq_true_iff, mem_usedInds]
    refine ⟨?_, h, hh, hj⟩
    have hjl := hr h hh j hj
    cases hjt : tab[j] with
    | none => exact absurd (List.getElem?_eq_getElem hjl ▸ congrArg some hjt) (hno h hh j hj)
    | some e => exact ⟨e, by rw [List.getElem?_eq_getElem hjl, hjt]⟩

/-- An entry for examples. -/
def exEntry (k : ℕ) : Entry ℚ ℕ Unit Unit Unit :=
  { label := (0, k), wHist := [[1]], fStates := [()], mHist := [], sHist := [[()]], cHist := [[()]],
    tIdx := 0 }

/-- **The second half of C19 is false of this code**: an entry whose only hypothesis is dropped because of
another, depleted, track stays in the table although no hypothesis uses it. -/
theorem C19_refuted : ∃ tab' hyps',
    cleanUpd [some (exEntry 0), none] [(⟨1, [0, 1]⟩ : Hyp ℚ)] = .ok (tab', hyps') ∧
    tab'.length = 1 ∧ hyps' = [] := ⟨_, _, rfl, by decide +kernel, by
      simp [usedInds, isUsed, exEntry, List.range_succ]⟩

/-! ### C20 -/

/-- **C20.** Pruning keeps exactly the hypotheses whose probability exceeds the threshold, in order and with
their tracks, divides their probabilities by their sum and changes nothing else but the cardinality
distribution; with positive probabilities it never fails, and it leaves an empty list if none survives. -/
theorem C20_prune (pr : Params K) (st : St K τ F S C) (hw : ∀ h ∈ st.hyps, 0 < h.prob) :
    ∃ st', prune pr st = .ok st' ∧
      List.Forall₂ (fun (h h' : Hyp K) => h'.tracks = h.tracks ∧ h'.prob = h.prob /
          ((st.hyps.filter fun h => decide (pr.pruneThreshold < h.prob)).map fun h => h.prob).sum)
        (st.hyps.filter fun h => decide (pr.pruneThreshold < h.prob)) st'.hyps ∧
      st'.tab = st.tab ∧ st'.ext = st.ext ∧ st'.cntr = st.cntr ∧ st'.states = st.states ∧
      st'.labels = st.labels ∧
      ((∀ h ∈ st.hyps, h.prob ≤ pr.pruneThreshold) → st'.hyps = []) := by
  have hfp : ∀ x ∈ st.hyps.filter (fun h => decide (pr.pruneThreshold < h.prob)), 0 < x.prob :=
    fun x hx => hw x (List.mem_filter.1 hx).1
  obtain ⟨hs, hn⟩ := normHyps_total hfp
  have h2 := (normHyps_ok hn).2
  refine ⟨{ st with hyps := hs, card := calcCard hs }, by unfold prune; rw [hn], ?_, rfl, rfl, rfl, rfl, rfl, ?_⟩
  · simp only
    rw [h2, List.forall₂_map_right_iff]
    exact List.forall₂_same.2 fun h _ => ⟨rfl, rfl⟩
  · intro hall
    simp only
    rw [h2, List.map_eq_nil_iff, List.filter_eq_nil_iff]
    intro h hh hc
    have h3 : pr.pruneThreshold < h.prob := by simpa using hc
    exact absurd (hall h hh) (not_le.2 h3)

/-! ### C21 -/

/-- **C21.** A list not longer than `max_hyps` is unchanged. A longer one is reduced to exactly `max_hyps`
hypotheses: the list is, up to order, `kept ++ dropped`, no dropped hypothesis is more probable than a kept
one, and the result is `kept` with the probabilities divided by their sum, which makes them sum to one
(unless `max_hyps = 0`). -/
theorem C21_cap (env : Env K τ F S C Z) (pr : Params K) (ha : ∀ ws, IsArgsort ws (env.argsort ws))
    (st : St K τ F S C) (hw : ∀ h ∈ st.hyps, 0 < h.prob) :
    (st.hyps.length ≤ pr.maxHyps → cap env pr st = .ok st) ∧
    (pr.maxHyps < st.hyps.length → ∃ st' kept dropped, cap env pr st = .ok st' ∧
      (kept ++ dropped).Perm st.hyps ∧ kept.length = pr.maxHyps ∧
      (∀ x ∈ kept, ∀ y ∈ dropped, y.prob ≤ x.prob) ∧
      List.Forall₂ (fun (h h' : Hyp K) => h'.tracks = h.tracks ∧
        h'.prob = h.prob / (kept.map fun h => h.prob).sum) kept st'.hyps ∧
      (0 < pr.maxHyps → (st'.hyps.map fun h => h.prob).sum = 1) ∧ st'.tab = st.tab) := by
  refine ⟨fun hle => by unfold cap; rw [if_neg (not_lt.2 hle)], ?_⟩
  intro hlt
  obtain ⟨hperm, hsort⟩ := ha (st.hyps.map fun h => h.prob)
  rw [List.length_map] at hperm
  set idx := env.argsort (st.hyps.map fun h => h.prob) with hidx
  have hrange : ∀ i ∈ idx, i < st.hyps.length := fun i hi => by
    have := hperm.subset hi
    simpa using this
  -- all hypotheses, in order of decreasing probability
  let g : ℕ → Hyp K := fun i => (st.hyps[i]?).getD ⟨0, []⟩
  have hg : ∀ i ∈ idx, st.hyps[i]? = some (g i) := by
    intro i hi
    have := hrange i hi
    simp [g, List.getElem?_eq_getElem this]
  have hgr : (List.range st.hyps.length).map g = st.hyps := by
    apply List.ext_getElem
    · simp
    · intro i h1 h2
      simp [g, List.getElem?_eq_getElem h2]
  have hmapperm : (idx.reverse.map g).Perm st.hyps := by
    have h := ((List.reverse_perm idx).trans hperm).map g
    rwa [hgr] at h
  have hlen : idx.length = st.hyps.length := by simpa using hperm.length_eq
  have hsorted : (idx.reverse.map g).Pairwise fun x y => y.prob ≤ x.prob := by
    rw [List.pairwise_map, List.pairwise_reverse]
    refine hsort.imp_of_mem ?_
    intro i j hi hj hij
    exact hij _ _ (by rw [List.getElem?_map, hg i hi]; rfl) (by rw [List.getElem?_map, hg j hj]; rfl)
  have hkeep : traverseE (getE st.hyps) (idx.reverse.take pr.maxHyps) =
      .ok ((idx.reverse.take pr.maxHyps).map g) := by
    rw [traverseE_ok, List.forall₂_map_right_iff]
    apply List.forall₂_same.2
    intro i hi
    exact getE_ok.2 (hg i (List.mem_reverse.1 (List.mem_of_mem_take hi)))
  have hk2 : ∀ x ∈ (idx.reverse.take pr.maxHyps).map g, 0 < x.prob := by
    intro x hx
    obtain ⟨i, hi, rfl⟩ := List.mem_map.1 hx
    exact hw _ (List.mem_of_getElem? (hg i (List.mem_reverse.1 (List.mem_of_mem_take hi))))
  obtain ⟨hs, hn⟩ := normHyps_total hk2
  have hklen : ((idx.reverse.take pr.maxHyps).map g).length = pr.maxHyps := by
    simp [hlen]; omega
  refine ⟨{ st with hyps := hs, card := calcCard hs }, (idx.reverse.take pr.maxHyps).map g,
    (idx.reverse.drop pr.maxHyps).map g, ?_, ?_, hklen, ?_, ?_, ?_, rfl⟩
  · unfold cap
    rw [if_pos hlt, ← hidx, hkeep]
    simp only
    rw [hn]
  · rw [← List.map_append, List.take_append_drop]
    exact hmapperm
  · intro x hx y hy
    rw [← List.take_append_drop pr.maxHyps idx.reverse, List.map_append, List.pairwise_append] at hsorted
    exact hsorted.2.2 x hx y hy
  · simp only
    rw [(normHyps_ok hn).2, List.forall₂_map_right_iff]
    exact List.forall₂_same.2 fun h _ => ⟨rfl, rfl⟩
  · intro hpos
    apply normHyps_sum hn
    intro h0
    have := congrArg List.length (normHyps_ok hn).2
    rw [h0, List.length_map, hklen] at this
    simp at this
    omega

/-! ### C22 -/

/-- **C22, partial.** After prune, after a cap that removed something and after a correction without
depletion the cardinality distribution at `n` is the total probability of the hypotheses with `n` tracks
(if any hypothesis is left). *Missing:* it is false after `predict` and after a correction with depletion
(`C22_refuted_predict`, `C22_refuted_correct`); for an empty hypothesis list the code reports `[1]`. -/
theorem C22_cardinality_partial (env : Env K τ F S C Z) (pr : Params K) (meas : List Z)
    (st st' : St K τ F S C) (hidx : ∀ h ∈ st.hyps, h.tracks.Nodup ∧ ∀ i ∈ h.tracks, i < st.tab.length)
    (h : prune pr st = .ok st' ∨ (cap env pr st = .ok st' ∧ pr.maxHyps < st.hyps.length) ∨
      (correct env pr meas st = .ok st' ∧ ∀ z f s w, env.corF z f s w ≠ none))
    (hne : st'.hyps ≠ []) (n : ℕ) :
    ((st'.card)[n]?).getD 0 =
      ((st'.hyps.filter fun h => decide (h.tracks.length = n)).map fun h => h.prob).sum := by
  have : st'.card = calcCard st'.hyps := by
    rcases h with h | ⟨h, hlt⟩ | ⟨h, hd⟩
    · obtain ⟨hs, _, rfl⟩ := prune_ok h; rfl
    · rcases cap_ok h with ⟨hle, _⟩ | ⟨_, kept, hs, _, _, rfl⟩
      · omega
      · rfl
    · exact correct_card hd ⟨fun h hh => (hidx h hh).2, fun h hh => (hidx h hh).1⟩ h
  rw [this]
  exact calcCard_get st'.hyps hne n

/-- **C22 is false after `predict`**: the distribution ignores the births. After the first prediction with
one likely birth every hypothesis has one track, but the reported distribution says "no target". -/
theorem C22_refuted_predict : ∃ (env : Env ℝ ℝ Unit Unit Unit Unit) (pr : Params ℝ)
    (births : List (Birth ℝ Unit Unit Unit)) (st : St ℝ ℝ Unit Unit Unit),
    run pr init [.predict env 0 births] = .ok st ∧ st.card = [1] ∧ st.hyps = [⟨1, [0]⟩] := by
  refine ⟨realEnv none, realPr 1 1 1 1, [realBirth (9 / 10)], st1 0 (realBirth (9 / 10)), ?_, rfl, rfl⟩
  simp only [run, step]
  rw [predict_st1 (pr := realPr 1 1 1 1) (by norm_num [realPr]) rfl (0 : ℝ) (b := realBirth (9 / 10)) (by norm_num [realBirth])
      (by norm_num [realBirth]) (realEnv_exp none) realOdds]

/-- **C22 is false after `correct` with depletion**: the distribution is computed before the hypotheses with
a depleted track are dropped. -/
theorem C22_refuted_correct : ∃ (env : Env ℝ ℝ Unit Unit Unit Unit) (pr : Params ℝ)
    (births : List (Birth ℝ Unit Unit Unit)) (st : St ℝ ℝ Unit Unit Unit),
    run pr init [.predict env 0 births, .correct env [()]] = .ok st ∧ st.card = [0, 1] ∧
    ∃ w < 1, st.hyps = [⟨w, [0]⟩] := by
  have heps : (0 : ℝ) < (realPr 1 1 2 1).eps := by norm_num [realPr]
  obtain ⟨st, h1, ⟨w, hw0, hw1, h2⟩, h3⟩ := correct_depl (env := realEnv none) (pr := realPr 1 1 2 1) heps
    (by norm_num [realPr]) rfl (0 : ℝ) (b := realBirth (9 / 10))
    (realBirth_wf (by norm_num) (by norm_num)) () (fun _ _ _ => rfl) (realEnv_exp none)
    (fun _ => by norm_num [realEnv]) Real.sqrt_one
  refine ⟨realEnv none, realPr 1 1 2 1, [realBirth (9 / 10)], st, ?_, h3, w, hw1, h2⟩
  simp only [run, step]
  rw [predict_st1 heps rfl (0 : ℝ) (b := realBirth (9 / 10)) (by norm_num [realBirth])
      (by norm_num [realBirth]) (realEnv_exp none) realOdds]
  simp only
  rw [h1]

end Gasur.Props
