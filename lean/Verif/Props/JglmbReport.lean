import Verif.Props.JglmbTrack
import Verif.Props.JglmbSize

/-!
# Property C125: what the joint GLMB filter reports
-/

set_option linter.unusedSectionVars false
set_option synthInstance.maxSize 2000
set_option synthInstance.maxHeartbeats 400000

namespace Gasur.Props

open Gasur.Glmb Gasur.Jglmb Gasur.Spec

variable {K τ F S C Z : Type*} [Field K] [LinearOrder K] [IsStrictOrderedRing K] [FloorRing K]
  [DecidableEq τ]

/-- Every extraction of states comes after a `correct` call that follows the last `predict` call. `b` says whether this
is so before the first of the calls. -/
def ExtractsCorrected : Bool → List (JOp K τ F S C Z) → Prop
  | _, [] => True
  | _, .predict .. :: os => ExtractsCorrected false os
  | _, .correct .. :: os => ExtractsCorrected true os
  | b, .cleanup _ _ _ be _ _ :: os => (be = true → b = true) ∧ ExtractsCorrected b os
  | b, .extract .. :: os => b = true ∧ ExtractsCorrected b os

/-- What holds after the calls `pre` on a joint filter. -/
structure JRep (jp : JParams K) (pre : List (Op K τ F S C Z)) (past : List τ) (b : Bool) (st : JSt K τ F S C) :
    Prop where
  lab : JLab past st
  ext : ExtInv st.g
  life : JLifeInv jp pre st
  reps : ExtLives jp.base pre st.g.ext
  settled : b = true → st.oldLen = st.g.tab.length

theorem JRep.labInv {jp : JParams K} {pre : List (Op K τ F S C Z)} {past : List τ} {b : Bool} {st : JSt K τ F S C}
    (h : JRep jp pre past b st) (hb : b = true) : LabInv past st.g := by
  have h0 := h.settled hb
  refine ⟨⟨fun x hx i hi => h0 ▸ h.lab.idx.range x hx i hi, h.lab.idx.nodup⟩, h.lab.past, ?_⟩
  intro x hx i hi j hj
  have key : ∀ i ∈ x.tracks, i ∈ tinds (st.g.tab.length - st.oldLen) x := fun i hi =>
    mem_tinds.2 (Or.inr ⟨i, hi, by omega⟩)
  exact h.lab.uniq x hx i (key i hi) j (key j hj)

/-- The state before the extraction that the call makes, and what is known of it. -/
theorem jextract_rep {jp : JParams K} {pre : List (Op K τ F S C Z)} {past : List τ} {b : Bool} {st st' : JSt K τ F S C}
    (hR : JRep jp pre past b st) (o : JOp K τ F S C Z) (u c : Bool)
    (ho : o = .extract u c ∨ ∃ env bp bc, o = .cleanup env bp bc true u c) (hb : b = true)
    (h : Jglmb.step jp st o = .ok st') :
    ∃ s2 out, extract u c s2 = .ok (st'.g, out) ∧ ExtInv st'.g ∧ s2.tab = st.g.tab ∧ s2.ext = st.g.ext := by
  have hL := hR.labInv hb
  rcases ho with rfl | ⟨env, bp, bc, rfl⟩
  · simp only [Jglmb.step] at h
    split at h
    · exact (nomatch h)
    · rename_i g out hx
      obtain rfl := Except.ok.inj h
      exact ⟨_, out, hx, extract_inv hL hR.ext hx, rfl, rfl⟩
  · simp only [Jglmb.step] at h
    split at h
    · exact (nomatch h)
    · rename_i g hg
      obtain rfl := Except.ok.inj h
      obtain ⟨s2, k1, k2, _, ⟨hf, _⟩ | ⟨_, out, k4⟩⟩ := cleanup_pre hg
      · exact (nomatch hf)
      · exact ⟨s2, out, k4, extract_inv (k1.lab hL) ⟨by rw [k2]; exact hR.ext.len, by rw [k2]; exact hR.ext.nodup⟩ k4,
          k1.tab, k2⟩

theorem jstep_rep {jp : JParams K} {pre : List (Op K τ F S C Z)} {past : List τ} {b : Bool} {st st' : JSt K τ F S C}
    (hR : JRep jp pre past b st) (o : JOp K τ F S C Z) (hok : o.ok) (hbirth : ∀ x ∈ birthsOf (asOp o), BirthOk x)
    (hl : ∀ t ∈ o.labels, t ∉ past) {os : List (JOp K τ F S C Z)} (hS : ExtractsCorrected b (o :: os))
    (h : Jglmb.step jp st o = .ok st') :
    ∃ b', JRep jp (pre ++ [asOp o]) (o.labels ++ past) b' st' ∧ ExtractsCorrected b' os := by
  have h1 := Jglmb.step_lab o hok hR.lab hl h
  have h2 := jstep_life o hbirth hR.life h
  cases o with
  | predict env lab births =>
    obtain ⟨_, survTab, _, rfl⟩ := Jglmb.predict_ok h
    exact ⟨false, ⟨h1, ⟨hR.ext.len, hR.ext.nodup⟩, h2, hR.reps.mono _, fun hf => (nomatch hf)⟩, hS⟩
  | correct env births draws meas =>
    obtain ⟨blocks, ls, hs, _, _, _, _, _, h6⟩ := Jglmb.correct_ok h
    have e1 : st'.g.ext = st.g.ext := by rw [h6]
    refine ⟨true, ⟨h1, ⟨by rw [e1]; exact hR.ext.len, by rw [e1]; exact hR.ext.nodup⟩, h2, by rw [e1]; exact hR.reps.mono _,
      fun _ => by rw [h6]⟩, hS⟩
  | cleanup env bp bc be u c =>
    have hse : b = true → st'.oldLen = st'.g.tab.length := by
      intro hb
      simp only [Jglmb.step] at h
      split at h
      · exact (nomatch h)
      · rename_i g hg
        obtain rfl := Except.ok.inj h
        dsimp only
        rw [(cleanup_shrinks hg).tab]
        exact hR.settled hb
    refine ⟨b, ?_, hS.2⟩
    cases be with
    | true =>
      obtain ⟨s2, out, hx, hE, t1, t2⟩ := jextract_rep hR _ u c (Or.inr ⟨env, bp, bc, rfl⟩) (hS.1 rfl) h
      refine ⟨h1, hE, h2, extract_lives ?_ ?_ hx, hse⟩
      · have := h2.lives
        rwa [(Glmb.extract_frame hx).1] at this
      · rw [t2]
        exact hR.reps.mono _
    | false =>
      have e1 : st'.g.ext = st.g.ext := by
        simp only [Jglmb.step] at h
        split at h
        · exact (nomatch h)
        · rename_i g hg
          obtain rfl := Except.ok.inj h
          obtain ⟨s2, _, k2, _, ⟨_, rfl⟩ | ⟨hf, _⟩⟩ := cleanup_pre hg
          · exact k2
          · exact (nomatch hf)
      exact ⟨h1, ⟨by rw [e1]; exact hR.ext.len, by rw [e1]; exact hR.ext.nodup⟩, h2, by rw [e1]; exact hR.reps.mono _, hse⟩
  | extract u c =>
    obtain ⟨s2, out, hx, hE, t1, t2⟩ := jextract_rep hR _ u c (Or.inl rfl) hS.1 h
    refine ⟨b, ⟨h1, hE, h2, extract_lives ?_ ?_ hx, ?_⟩, hS.2⟩
    · have := h2.lives
      rwa [(Glmb.extract_frame hx).1] at this
    · rw [t2]
      exact hR.reps.mono _
    · intro hb
      have := hR.settled hb
      simp only [Jglmb.step] at h
      split at h
      · exact (nomatch h)
      · rename_i g out hg
        obtain rfl := Except.ok.inj h
        dsimp only
        rw [(Glmb.extract_frame hg).1]
        exact this

theorem jrun_rep {jp : JParams K} (rest : List (JOp K τ F S C Z)) : ∀ (ops : List (JOp K τ F S C Z))
    (pre : List (Op K τ F S C Z)) (past : List τ) (b : Bool) (st st' : JSt K τ F S C), (∀ o ∈ ops, o.ok) →
    (∀ o ∈ ops, ∀ x ∈ birthsOf (asOp o), BirthOk x) → (ops.flatMap JOp.labels).Nodup →
    (∀ t ∈ ops.flatMap JOp.labels, t ∉ past) → JRep jp pre past b st → ExtractsCorrected b (ops ++ rest) →
    Jglmb.run jp st ops = .ok st' →
    ∃ past' b', JRep jp (pre ++ ops.map asOp) past' b' st' ∧ ExtractsCorrected b' rest
  | [], pre, past, b, st, st', _, _, _, _, hR, hS, h => by
    obtain rfl := Except.ok.inj h
    exact ⟨past, b, by simpa using hR, hS⟩
  | o :: os, pre, past, b, st, st', hok, hb, hnd, hd, hR, hS, h => by
    unfold Jglmb.run at h
    split at h
    · exact (nomatch h)
    · rename_i s hs
      rw [List.flatMap_cons, List.nodup_append] at hnd
      rw [List.flatMap_cons] at hd
      obtain ⟨b', h1, h2⟩ := jstep_rep hR o (hok o List.mem_cons_self) (hb o List.mem_cons_self)
        (fun t ht => hd t (List.mem_append_left _ ht)) hS hs
      have := jrun_rep rest os (pre ++ [asOp o]) (o.labels ++ past) b' s st'
        (fun x hx => hok x (List.mem_cons_of_mem _ hx)) (fun x hx => hb x (List.mem_cons_of_mem _ hx)) hnd.2.1 (by
          intro t ht hc
          rcases List.mem_append.1 hc with hc | hc
          · exact hnd.2.2 t hc t ht rfl
          · exact hd t (List.mem_append_right _ ht) hc) h1 h2 h
      simpa using this

theorem jrun_snoc {jp : JParams K} (last : JOp K τ F S C Z) {st : JSt K τ F S C} : ∀ (ops : List (JOp K τ F S C Z))
    (s0 : JSt K τ F S C), Jglmb.run jp s0 (ops ++ [last]) = .ok st →
      ∃ s1, Jglmb.run jp s0 ops = .ok s1 ∧ Jglmb.step jp s1 last = .ok st
  | [], s0, h => by
    simp only [List.nil_append, Jglmb.run] at h
    cases hs : Jglmb.step jp s0 last with
    | error e => rw [hs] at h; exact (nomatch h)
    | ok s =>
      rw [hs] at h
      obtain rfl := Except.ok.inj h
      exact ⟨s0, rfl, hs⟩
  | o :: os, s0, h => by
    simp only [List.cons_append, Jglmb.run] at h ⊢
    cases hs : Jglmb.step jp s0 o with
    | error e => rw [hs] at h; exact (nomatch h)
    | ok s =>
      rw [hs] at h
      exact jrun_snoc last os s h

theorem jlast_rep {jp : JParams K} {ops : List (JOp K τ F S C Z)} (hok : ∀ o ∈ ops, o.ok)
    (hb : ∀ o ∈ ops, ∀ b ∈ birthsOf (asOp o), BirthOk b) (hdist : (ops.flatMap JOp.labels).Nodup)
    {last : JOp K τ F S C Z} {u c : Bool}
    (hlast : last = .extract u c ∨ ∃ env bp bc, last = .cleanup env bp bc true u c)
    (hS : ExtractsCorrected true (ops ++ [last]))
    {st : JSt K τ F S C} (h : Jglmb.run jp Jglmb.init (ops ++ [last]) = .ok st) :
    ∃ s2 o, extract u c s2 = .ok (st.g, o) ∧ ExtInv st.g ∧ ExtLives jp.base ((ops ++ [last]).map asOp) st.g.ext := by
  obtain ⟨s1, hr, hs⟩ := jrun_snoc last ops Jglmb.init h
  obtain ⟨past, b, hR, hS1⟩ := jrun_rep [last] ops [] [] true Jglmb.init s1 hok hb hdist (by simp)
    ⟨Jglmb.init_lab, ⟨by simp [Jglmb.init, Glmb.init], by simp [Jglmb.init, Glmb.init]⟩,
      ⟨rfl, by simp [Jglmb.init, Glmb.init]⟩, by simp [ExtLives, Jglmb.init, Glmb.init],
      fun _ => by simp [Jglmb.init, Glmb.init]⟩ hS hr
  have hbt : b = true := by
    rcases hlast with rfl | ⟨env, bp, bc, rfl⟩
    · exact hS1.1
    · exact hS1.1 rfl
  obtain ⟨s2, out, hx, hE, t1, t2⟩ := jextract_rep hR last u c hlast hbt hs
  refine ⟨s2, out, hx, hE, ?_⟩
  have hok' : last.ok ∧ (∀ x ∈ birthsOf (asOp last), BirthOk x) ∧ ∀ t ∈ last.labels, t ∉ past := by
    rcases hlast with rfl | ⟨env, bp, bc, rfl⟩ <;> exact ⟨trivial, by simp [birthsOf, asOp], by simp [JOp.labels]⟩
  obtain ⟨_, hR', _⟩ := jstep_rep hR last hok'.1 hok'.2.1 hok'.2.2 (os := []) hS1 hs
  simpa using hR'.reps

/-- **C125, histories.** Consider any calls on a new joint filter with different rounded times of the `predict` calls,
in which states are extracted only after `correct` and not between `predict` and `correct`, and whose last call extracts
states. Then the reported states, labels and covariances have one entry per time step, the three entries of a step have
the same length and its labels are distinct; they consist of track histories with distinct labels, each reported at
consecutive steps from its birth step on. This is C24 for the joint filter. -/
theorem C125_joint_history_partial (jp : JParams K) (ops : List (JOp K τ F S C Z)) (hok : ∀ o ∈ ops, o.ok)
    (hb : ∀ o ∈ ops, ∀ b ∈ birthsOf (asOp o), BirthOk b) (hdist : (ops.flatMap JOp.labels).Nodup)
    (last : JOp K τ F S C Z) (u c : Bool)
    (hlast : last = .extract u c ∨ ∃ env bp bc, last = .cleanup env bp bc true u c)
    (hS : ExtractsCorrected true (ops ++ [last]))
    (st : JSt K τ F S C) (h : Jglmb.run jp Jglmb.init (ops ++ [last]) = .ok st) :
    st.g.states.length = st.g.cntr ∧ st.g.labels.length = st.g.cntr ∧ st.g.covs.length = st.g.cntr ∧
    ∃ H : List ((τ × ℕ) × ℕ × List S), (H.map fun e => e.1).Nodup ∧
    ∀ t : ℕ, t < st.g.cntr → ∃ ss ls cs, st.g.states[t]? = some ss ∧ st.g.labels[t]? = some ls ∧
      st.g.covs[t]? = some cs ∧ ss.length = ls.length ∧ cs.length = ls.length ∧ ls.Nodup ∧
      ∀ s lab, (s, lab) ∈ ss.zip ls ↔ ∃ b hist, (lab, b, hist) ∈ H ∧ b ≤ t ∧ hist[t - b]? = some s := by
  obtain ⟨s2, o, hx, hE, _⟩ := jlast_rep hok hb hdist hlast hS h
  exact history_core hx hE

/-- **C125, tracks.** Under the same conditions, everything reported is the best estimate of a single-object track that
the filter had after some of the calls; the tracks have distinct labels and each is reported at every time step it has.
This is C117 for the joint filter. -/
theorem C125_joint_reported_tracks_partial (jp : JParams K) (ops : List (JOp K τ F S C Z)) (hok : ∀ o ∈ ops, o.ok)
    (hb : ∀ o ∈ ops, ∀ b ∈ birthsOf (asOp o), BirthOk b) (hdist : (ops.flatMap JOp.labels).Nodup)
    (last : JOp K τ F S C Z) (u c : Bool)
    (hlast : last = .extract u c ∨ ∃ env bp bc, last = .cleanup env bp bc true u c)
    (hS : ExtractsCorrected true (ops ++ [last]))
    (st : JSt K τ F S C) (h : Jglmb.run jp Jglmb.init (ops ++ [last]) = .ok st) :
    ∃ H : List (Life K τ F S C), (H.map fun l => l.label).Nodup ∧
      (∀ l ∈ H, ∃ pre, pre <+: (ops ++ [last]).map asOp ∧ Lives jp.base pre l) ∧
      (∀ (t i : ℕ) (ss : List S) (ls : List (τ × ℕ)) (cs : List C) (s : S) (lab : τ × ℕ) (cov : C),
        st.g.states[t]? = some ss → st.g.labels[t]? = some ls → st.g.covs[t]? = some cs →
        ss[i]? = some s → ls[i]? = some lab → cs[i]? = some cov →
        ∃ l ∈ H, l.label = lab ∧ l.born ≤ t ∧ BestAt l (t - l.born) s cov) ∧
      ∀ l ∈ H, ∀ k : ℕ, k ≤ l.past.length → ∃ (i : ℕ) (ss : List S) (ls : List (τ × ℕ)) (cs : List C) (s : S) (cov : C),
        st.g.states[l.born + k]? = some ss ∧ st.g.labels[l.born + k]? = some ls ∧ st.g.covs[l.born + k]? = some cs ∧
        ss[i]? = some s ∧ ls[i]? = some l.label ∧ cs[i]? = some cov ∧ BestAt l k s cov := by
  obtain ⟨s2, o, hx, hE, hEL⟩ := jlast_rep hok hb hdist hlast hS h
  refine report_core hx hE (P := fun l => ∃ pre, pre <+: (ops ++ [last]).map asOp ∧ Lives jp.base pre l) ?_
  intro x hx
  obtain ⟨pre, l, h1, h2, h3⟩ := hEL x hx
  exact ⟨l, ⟨pre, h1, h2⟩, h3⟩

/-- **C124 for the joint filter's reports.** Under the same conditions, the labels reported for time step `t` are labels
of birth terms of `predict` calls of the time steps up to `t`, each at most once. -/
theorem C124_joint_reported (jp : JParams K) (ops : List (JOp K τ F S C Z)) (hok : ∀ o ∈ ops, o.ok)
    (hb : ∀ o ∈ ops, ∀ b ∈ birthsOf (asOp o), BirthOk b) (hdist : (ops.flatMap JOp.labels).Nodup)
    (last : JOp K τ F S C Z) (u c : Bool)
    (hlast : last = .extract u c ∨ ∃ env bp bc, last = .cleanup env bp bc true u c)
    (hS : ExtractsCorrected true (ops ++ [last]))
    (st : JSt K τ F S C) (h : Jglmb.run jp Jglmb.init (ops ++ [last]) = .ok st)
    (t : ℕ) (ls : List (τ × ℕ)) (hls : st.g.labels[t]? = some ls) :
    ls ⊆ bornBy t 0 ((ops ++ [last]).map asOp) ∧ ls.length ≤ (bornBy t 0 ((ops ++ [last]).map asOp)).length := by
  obtain ⟨c1, c2, c3, H', _, hH'⟩ := C125_joint_history_partial jp ops hok hb hdist last u c hlast hS st h
  have ht : t < st.g.cntr := by
    rw [← c2]
    exact (List.getElem?_eq_some_iff.1 hls).1
  obtain ⟨ss, ls', cs, e1, e2, e3, e4, e5, hnd, _⟩ := hH' t ht
  obtain rfl := Option.some.inj (hls.symm.trans e2)
  obtain ⟨H, _, h1, h2, _⟩ := C125_joint_reported_tracks_partial jp ops hok hb hdist last u c hlast hS st h
  have hsub : ls ⊆ bornBy t 0 ((ops ++ [last]).map asOp) := by
    intro lab hlab
    obtain ⟨i, hi, rfl⟩ := List.getElem_of_mem hlab
    obtain ⟨l, hl, q1, q2, _⟩ := h2 t i ss ls cs ss[i] ls[i] cs[i] e1 e2 e3 (by simp) (by simp) (by simp)
    obtain ⟨pre, ⟨post, hpre⟩, hlv⟩ := h1 l hl
    rw [← q1, ← hpre, bornBy_append]
    exact List.mem_append_left _ (lives_born hlv q2)
  exact ⟨hsub, (List.subperm_of_subset hnd hsub).length_le⟩

theorem exJOps_ok : ∀ o ∈ exJOps, o.ok := by
  have hd : DrawsOk (fun (_ : ℕ) (s : ℕ) (_ : ℕ) => if s % 2 = 0 then (1 / 2 : ℚ) else 9 / 10) := by
    intro n s v
    dsimp only
    split <;> norm_num
  intro o ho
  simp only [exJOps, List.mem_cons, List.not_mem_nil, or_false] at ho
  rcases ho with rfl | rfl | rfl | rfl | rfl
  · trivial
  · exact ⟨exTrackEnv_exp, hd⟩
  · trivial
  · trivial
  · exact ⟨exTrackEnv_exp, hd⟩

theorem exJOps_births : ∀ o ∈ exJOps, ∀ b ∈ birthsOf (asOp o), BirthOk b := by
  intro o ho b hb
  simp only [exJOps, List.mem_cons, List.not_mem_nil, or_false] at ho
  rcases ho with rfl | rfl | rfl | rfl | rfl <;>
    simp only [birthsOf, asOp, List.mem_singleton, List.not_mem_nil] at hb <;>
    subst hb <;> exact ⟨rfl, rfl, rfl⟩

/-- Non-vacuity: the hypotheses hold for the calls `exJOps` followed by `cleanup`, which report one object in the first
time step and two in the second. -/
example : (∀ o ∈ exJOps, o.ok) ∧ (∀ o ∈ exJOps, ∀ b ∈ birthsOf (asOp o), BirthOk b) ∧
    (exJOps.flatMap JOp.labels).Nodup ∧
    ExtractsCorrected true (exJOps ++ [.cleanup exTrackEnv true true true true true]) ∧
    (Jglmb.run exJPr Jglmb.init (exJOps ++ [.cleanup exTrackEnv true true true true true])).toOption.map
      (fun st => (st.g.labels, st.g.states)) = some ([[(0, 0)], [(1, 0), (0, 0)]], [[2], [8, 3]]) := by
  refine ⟨exJOps_ok, exJOps_births, by decide, ?_, by decide +kernel⟩
  simp [exJOps, ExtractsCorrected]

/-- **C125, refuted without the condition on extractions.** After a time step `predict`, `cleanup` without `correct` (for
example because there is no scan), the joint filter can report the same label twice in a time step: here `(0, 0)` twice
in each of the three time steps, while the object `(1, 0)` is no longer reported in the last one. `extract_states` reads
the table at the indices of the hypotheses without the shift by the number of births (C54). -/
theorem C125_refuted : ∃ (jp : JParams ℚ) (ops : List (JOp ℚ ℕ Unit ℚ Unit ℚ)) (last : JOp ℚ ℕ Unit ℚ Unit ℚ)
    (st : JSt ℚ ℕ Unit ℚ Unit), (∀ o ∈ ops, o.ok) ∧ (∀ o ∈ ops, ∀ b ∈ birthsOf (asOp o), BirthOk b) ∧
      (ops.flatMap JOp.labels).Nodup ∧ last = .cleanup exTrackEnv true true true true true ∧
      Jglmb.run jp Jglmb.init (ops ++ [last]) = .ok st ∧
      st.g.labels = [[(0, 0), (0, 0)], [(1, 0), (0, 0), (0, 0)], [(0, 0), (0, 0)]] := by
  have h : (Jglmb.run exJPr Jglmb.init ((exJOps ++ [.cleanup exTrackEnv true true true true true,
      .predict exTrackEnv 2 [⟨[()], [1], [0], [()], 9 / 10⟩]]) ++
      [.cleanup exTrackEnv true true true true true])).toOption.map (fun st => st.g.labels) =
        some [[(0, 0), (0, 0)], [(1, 0), (0, 0), (0, 0)], [(0, 0), (0, 0)]] := by
    decide +kernel
  cases hr : Jglmb.run exJPr Jglmb.init ((exJOps ++ [.cleanup exTrackEnv true true true true true,
      .predict exTrackEnv 2 [⟨[()], [1], [0], [()], 9 / 10⟩]]) ++
      [.cleanup exTrackEnv true true true true true]) with
  | error e => rw [hr] at h; simp [Except.toOption] at h
  | ok st =>
    rw [hr] at h
    refine ⟨exJPr, _, _, st, ?_, ?_, by decide, rfl, hr, by simpa [Except.toOption] using h⟩
    · intro o ho
      rcases List.mem_append.1 ho with ho | ho
      · exact exJOps_ok o ho
      · simp only [List.mem_cons, List.not_mem_nil, or_false] at ho
        rcases ho with rfl | rfl <;> trivial
    · intro o ho b hb
      rcases List.mem_append.1 ho with ho | ho
      · exact exJOps_births o ho b hb
      · simp only [List.mem_cons, List.not_mem_nil, or_false] at ho
        rcases ho with rfl | rfl <;> simp only [birthsOf, asOp, List.mem_singleton, List.not_mem_nil] at hb
        subst hb
        exact ⟨rfl, rfl, rfl⟩

end Gasur.Props
