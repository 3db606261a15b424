import Verif.Model.JglmbCrash
import Verif.Props.GlmbCrash
import Verif.Props.CrashHonest
import Verif.Props.JglmbTrack

/-!
# C147: joint GLMB filter calls that raise
-/

namespace Gasur.Props.JglmbCrash

open Gasur.Crash Gasur.GlmbCrash Gasur.JglmbCrash Gasur.Jglmb Gasur.Glmb Gasur.Spec Gasur.Props.PhdCrash
  Gasur.Props.GlmbTrace

variable {K τ F S C Z : Type*}

/-! ### Vocabulary -/

/-- The call of `Verif/Model/Jglmb.lean`. -/
def plainJ : JCOp K τ F S C Z → JOp K τ F S C Z
  | .predict env _ lab b => .predict env lab b
  | .correct env _ b d z => .correct env b d z
  | .cleanup env bp bc be u c => .cleanup env bp bc be u c
  | .extract u c => .extract u c

/-- What is left of a sequence of calls: the `predict` and `correct` calls that ended normally and all clean-ups, without
extraction. -/
def remainingJ : List (JCOp K τ F S C Z) → List Bool → List (JOp K τ F S C Z)
  | .predict env _ lab b :: os, true :: fs => .predict env lab b :: remainingJ os fs
  | .correct env _ b d z :: os, true :: fs => .correct env b d z :: remainingJ os fs
  | .cleanup env bp bc _ _ _ :: os, _ :: fs => .cleanup env bp bc false false false :: remainingJ os fs
  | _ :: os, _ :: fs => remainingJ os fs
  | _, _ => []

/-- The sorting routine sorts. -/
def SortingJ [LinearOrder K] : JCOp K τ F S C Z → Prop
  | .cleanup env _ _ _ _ _ => ∀ ws, IsArgsort ws (env.argsort ws)
  | _ => True

/-- The measurements that a call records. -/
def scanJ : JCOp K τ F S C Z → List (List Z)
  | .correct _ _ _ _ z => [z]
  | _ => []

/-- A `correct` call. -/
def isCorrect : JCOp K τ F S C Z → Bool
  | .correct _ _ _ _ _ => true
  | _ => false

/-- A call has `n` birth terms (if it uses birth terms at all). -/
def BirthCount (n : ℕ) : JCOp K τ F S C Z → Prop
  | .predict _ _ _ b => b.length = n
  | .correct _ _ b _ _ => b.length = n
  | _ => True

/-- The number of `predict` calls that ended normally since the last `correct` call that ended normally (`k` before the
first call of the list). -/
def pending : ℕ → List (JCOp K τ F S C Z × Bool) → ℕ
  | k, [] => k
  | k, (.predict _ _ _ _, true) :: l => pending (k + 1) l
  | _, (.correct _ _ _ _ _, true) :: l => pending 0 l
  | k, _ :: l => pending k l

/-- The state of `Verif/Model/Jglmb.lean`. -/
def jst (s : JObj K τ F S C Z) : JSt K τ F S C := ⟨s.o.st, s.oldLen⟩

/-! ### Pieces -/

theorem onG_eq {α : Type*} {x : M (GObj K τ F S C Z) α} {s s' : JObj K τ F S C Z} {r : Res α} (h : onG x s = (s', r)) :
    x s.o = (s'.o, r) ∧ s'.oldLen = s.oldLen := by
  unfold onG at h
  obtain ⟨h1, h2⟩ := Prod.mk.inj h
  subst h1
  exact ⟨by rw [← h2], rfl⟩

theorem ofJ_ok {α : Type*} {x : Except JErr α} {a : α} (h : ofJ x = .ok a) : x = .ok a := by
  unfold ofJ at h
  split at h <;> cases h
  rfl

theorem lengths_ok {n t : ℕ} (h : lengths n t = .ok ()) : n = t := by
  unfold lengths at h
  split at h
  · assumption
  · split at h <;> cases h

theorem eachE_length {α β : Type*} {f : α → Res β} : ∀ {l : List α} {r : List β}, eachE f l = .ok r → r.length = l.length
  | [], r, h => by
    cases h
    rfl
  | a :: l, r, h => by
    unfold eachE at h
    cases h1 : f a with
    | raised => rw [h1] at h; cases h
    | nan => rw [h1] at h; cases h
    | ok b =>
      rw [h1] at h
      dsimp only at h
      cases h2 : eachE f l with
      | raised => rw [h2] at h; cases h
      | nan => rw [h2] at h; cases h
      | ok r' =>
        rw [h2] at h
        cases h
        simp [eachE_length h2]

section field
variable [Field K] [LinearOrder K] [IsStrictOrderedRing K] [FloorRing K]

/-! ### `predict` -/

theorem jPredict_ok {env : Env K τ F S C Z} {fl : Faults K F S Z} {lab : τ} {births : List (Birth K F S C)}
    {s s' : JObj K τ F S C Z} (h : jPredict env fl lab births s = (s', .ok ())) :
    Jglmb.predict env lab births (jst s) = .ok (jst s') ∧ s'.o.meas = s.o.meas ∧ s'.o.holes = s.o.holes ∧
      s'.oldLen = s.oldLen ∧ s'.o.st.tab.length = births.length + s.o.st.tab.length := by
  unfold jPredict at h
  rw [andThen_of_ok (s1 := s) (a := s.o.st) rfl] at h
  obtain ⟨u, h1, h⟩ := GlmbCrash.evalThen_ok h
  obtain ⟨survTab, h2, h⟩ := GlmbCrash.evalThen_ok h
  have e : s' = ⟨{ s.o with st := { s.o.st with tab := birthTab lab s.o.st.cntr births ++ survTab } }, s.oldLen⟩ :=
    (congrArg Prod.fst h).symm
  subst e
  split at h1
  · cases h1
  split at h1
  · cases h1
  rename_i hb
  refine ⟨?_, rfl, rfl, rfl, ?_⟩
  · unfold Jglmb.predict
    rw [if_neg hb, show (jst s).g.tab = s.o.st.tab from rfl,
      GlmbCrash.eachE_ok (fun a b hab => GlmbCrash.entPred_ok hab) h2]
    rfl
  · rw [List.length_append, eachE_length h2, birthTab_length]

theorem jPredict_raised {env : Env K τ F S C Z} {fl : Faults K F S Z} {lab : τ} {births : List (Birth K F S C)}
    {s s' : JObj K τ F S C Z} (h : jPredict env fl lab births s = (s', .raised)) : s' = s := by
  unfold jPredict at h
  rw [andThen_of_ok (s1 := s) (a := s.o.st) rfl] at h
  rcases GlmbCrash.evalThen_raised h with ⟨-, h1⟩ | ⟨costs, -, h⟩
  · exact h1
  rcases GlmbCrash.evalThen_raised h with ⟨-, h1⟩ | ⟨costs, -, h⟩
  · exact h1
  · cases h

/-! ### `correct` -/

theorem corOne_range {env : Env K τ F S C Z} {jp : JParams K} {births : List (Birth K F S C)} {oldLen tabLen : ℕ}
    {blocks : List (List (Option (Entry K τ F S C) × K))} {ss : K} {u : ℕ → ℕ → K} {h : Hyp K} {out : List (Hyp K)}
    (hc : Jglmb.corOne env jp births oldLen tabLen blocks ss u h = .ok out) :
    ∀ x ∈ out, ∀ i ∈ x.tracks, i < tabLen * (blocks.length + 1) := by
  unfold Jglmb.corOne at hc
  dsimp only at hc
  split at hc
  · exact (nomatch hc)
  rename_i hts
  split at hc
  · exact (nomatch hc)
  split at hc
  · exact (nomatch hc)
  rename_i rows hrows
  split at hc
  · exact (nomatch hc)
  obtain rfl := Except.ok.inj hc
  intro x hx i hi
  obtain ⟨ac, -, rfl⟩ := List.mem_map.1 hx
  dsimp only [rowTracks] at hi
  obtain ⟨k, -, hk⟩ := List.mem_filterMap.1 hi
  have ht : (tinds births.length h)[k] < tabLen := by
    by_contra hn
    apply hts
    rw [List.any_eq_true]
    exact ⟨_, List.getElem_mem _, by simpa using hn⟩
  unfold decode at hk
  split at hk
  · cases hk
  · split at hk
    · cases hk
      rw [Nat.mul_succ]
      omega
    · cases hk
      rename_i hj1 hj2
      have hj := (ac.1 k).isLt
      unfold numCols at hj
      have h3 : (ac.1 k).val - 2 * (tinds births.length h).length + 1 ≤ blocks.length := by
        split at hj
        · omega
        · omega
      rw [Nat.mul_succ]
      exact (Nat.add_lt_add_left ht _).trans_le (Nat.add_le_add_right (Nat.mul_le_mul_left tabLen h3) _)

theorem jCorrect_ok {env : Env K τ F S C Z} {fl : Faults K F S Z} {jp : JParams K} {births : List (Birth K F S C)}
    {draws : ℕ → ℕ → ℕ → K} {meas : List Z} {s s' : JObj K τ F S C Z}
    (h : jCorrect env fl jp births draws meas s = (s', .ok ())) :
    Jglmb.correct env jp births draws meas (jst s) = .ok (jst s') ∧ s'.o.meas = s.o.meas ++ [meas] ∧ s'.o.holes = none ∧
      s'.oldLen = s'.o.st.tab.length ∧ births.length + s.oldLen = s.o.st.tab.length := by
  unfold jCorrect at h
  rw [andThen_of_ok (s1 := (⟨{ s.o with meas := s.o.meas ++ [meas] }, s.oldLen⟩ : JObj K τ F S C Z)) (a := ()) rfl,
    andThen_of_ok (s1 := (⟨{ s.o with meas := s.o.meas ++ [meas] }, s.oldLen⟩ : JObj K τ F S C Z))
      (a := (⟨{ s.o with meas := s.o.meas ++ [meas] }, s.oldLen⟩ : JObj K τ F S C Z)) rfl] at h
  obtain ⟨blocks, h1, h⟩ := GlmbCrash.evalThen_ok h
  obtain ⟨u, h2, h⟩ := GlmbCrash.evalThen_ok h
  obtain ⟨ls, h3, h⟩ := GlmbCrash.evalThen_ok h
  obtain ⟨hs, h4, h⟩ := GlmbCrash.evalThen_ok h
  obtain ⟨s5, u, h5, h⟩ := andThen_ok h
  cases h5
  obtain ⟨s6, u, h6, h⟩ := andThen_ok h
  cases h6
  obtain ⟨s7, u, h7, h⟩ := andThen_ok h
  cases h7
  obtain ⟨s8, u, h8, h⟩ := andThen_ok h
  cases h8
  obtain ⟨s9, hs', h9, h⟩ := andThen_ok h
  cases h9
  obtain ⟨th, h10, h⟩ := GlmbCrash.evalThen_ok h
  cases h
  have hl := lengths_ok h2
  refine ⟨?_, rfl, rfl, rfl, hl⟩
  have hbl : corBlocks env jp.base (jst s).g.tab meas = .ok blocks :=
    GlmbCrash.eachE_ok (fun a b hab => GlmbCrash.blockCor_ok hab) h1
  have h3' := ofJ_ok h3
  have h10' : cleanUpd (upTab s.o.st.tab blocks) (cleanPred hs) = .ok th := GlmbCrash.ofE_ok h10
  unfold Jglmb.correct
  rw [hbl]
  dsimp only
  rw [if_neg (by simpa [jst] using hl)]
  dsimp only [jst] at h3' ⊢
  rw [h3']
  dsimp only
  rw [GlmbCrash.ofE_ok h4]
  dsimp only
  rw [h10']
  rfl

theorem jCorrect_raised {env : Env K τ F S C Z} {fl : Faults K F S Z} {jp : JParams K} {births : List (Birth K F S C)}
    {draws : ℕ → ℕ → ℕ → K} {meas : List Z} {s s' : JObj K τ F S C Z}
    (h : jCorrect env fl jp births draws meas s = (s', .raised)) :
    s' = ⟨{ s.o with meas := s.o.meas ++ [meas] }, s.oldLen⟩ := by
  unfold jCorrect at h
  rw [andThen_of_ok (s1 := (⟨{ s.o with meas := s.o.meas ++ [meas] }, s.oldLen⟩ : JObj K τ F S C Z)) (a := ()) rfl,
    andThen_of_ok (s1 := (⟨{ s.o with meas := s.o.meas ++ [meas] }, s.oldLen⟩ : JObj K τ F S C Z))
      (a := (⟨{ s.o with meas := s.o.meas ++ [meas] }, s.oldLen⟩ : JObj K τ F S C Z)) rfl] at h
  rcases GlmbCrash.evalThen_raised h with ⟨-, h1⟩ | ⟨blocks, hb, h⟩
  · exact h1
  rcases GlmbCrash.evalThen_raised h with ⟨-, h1⟩ | ⟨u, -, h⟩
  · exact h1
  rcases GlmbCrash.evalThen_raised h with ⟨-, h1⟩ | ⟨ls, hls, h⟩
  · exact h1
  rcases GlmbCrash.evalThen_raised h with ⟨-, h1⟩ | ⟨hs, hhs, h⟩
  · exact h1
  exfalso
  rcases andThen_raised h with h1 | ⟨s1, u, h1, h⟩
  · cases h1
  cases h1
  rcases andThen_raised h with h1 | ⟨s1, u, h1, h⟩
  · cases h1
  cases h1
  rcases andThen_raised h with h1 | ⟨s1, u, h1, h⟩
  · cases h1
  cases h1
  rcases andThen_raised h with h1 | ⟨s1, u, h1, h⟩
  · cases h1
  cases h1
  rcases andThen_raised h with h1 | ⟨s1, u, h1, h⟩
  · cases h1
  cases h1
  rcases GlmbCrash.evalThen_raised h with ⟨h1, -⟩ | ⟨th, -, h⟩
  · have hbl : corBlocks env jp.base s.o.st.tab meas = .ok blocks :=
      GlmbCrash.eachE_ok (fun a b hab => GlmbCrash.blockCor_ok hab) hb
    obtain ⟨b1, b2, b3⟩ := corBlocks_ok hbl
    have hrange : ∀ x ∈ cleanPred hs, ∀ i ∈ x.tracks, i < (upTab s.o.st.tab blocks).length := by
      intro x hx i hi
      obtain ⟨y, hy, hyx⟩ := cleanPred_mem hx
      rw [hyx] at hi
      rw [(normHyps_ok (GlmbCrash.ofE_ok hhs)).2] at hy
      obtain ⟨z, hz, rfl⟩ := List.mem_map.1 hy
      obtain ⟨l, hl, hzl⟩ := List.mem_flatten.1 hz
      obtain ⟨hn, -, hn2⟩ := forall₂_mem_right ((traverseE_ok _ _ _).1 (ofJ_ok hls)) hl
      have := corOne_range hn2 z hzl i hi
      rw [upTab_length b2]
      exact this.trans_le (by show s.o.st.tab.length * _ ≤ _; rw [Nat.mul_succ])
    unfold cleanUpd at h1
    rw [if_neg] at h1
    · cases h1
    · intro hc
      rw [List.any_eq_true] at hc
      obtain ⟨x, hx, hc⟩ := hc
      rw [List.any_eq_true] at hc
      obtain ⟨i, hi, hc⟩ := hc
      have := hrange x hx i hi
      simp at hc
      omega
  · cases h

variable [DecidableEq τ]

/-! ### A history of calls -/

theorem jCall_ok {jp : JParams K} {o : JCOp K τ F S C Z} (ho : SortingJ o) {s s' : JObj K τ F S C Z}
    (h : jCall jp o s = (s', .ok ())) : Jglmb.step jp (jst s) (plainJ o) = .ok (jst s') := by
  cases o with
  | predict env fl lab b => exact (jPredict_ok h).1
  | correct env fl b d z => exact (jCorrect_ok h).1
  | cleanup env bp bc be u c =>
    obtain ⟨h1, h2⟩ := onG_eq h
    obtain ⟨t, -, -, -, -, h3, -⟩ := GlmbCrash.gCleanup_eq ho h1 (by simp)
    simp only [plainJ, Jglmb.step]
    rw [show (jst s).g = s.o.st from rfl, h3 rfl]
    simp [jst, h2]
  | extract u c =>
    obtain ⟨h1, h2⟩ := onG_eq h
    obtain ⟨-, h3⟩ := GlmbCrash.gExtract_frame u c s.o
    rw [h1] at h3
    obtain ⟨i, hi⟩ := h3 rfl
    simp only [plainJ, Jglmb.step]
    rw [show (jst s).g = s.o.st from rfl]
    have hi' : extract u c s.o.st = .ok (s'.o.st, i) := hi
    rw [hi']
    simp [jst, h2]

omit [IsStrictOrderedRing K] in
theorem jPlay_cons {jp : JParams K} {s s' : JObj K τ F S C Z} {o : JCOp K τ F S C Z}
    {os : List (JCOp K τ F S C Z)} {fl : List Bool} (h : jPlay jp s (o :: os) = some (s', fl)) :
    ∃ s1 b fl', jPlay jp s1 os = some (s', fl') ∧ fl = b :: fl' ∧
      ((jCall jp o s = (s1, .ok ()) ∧ b = true) ∨ (jCall jp o s = (s1, .raised) ∧ b = false)) := by
  unfold jPlay at h
  split at h
  · cases h
  · rename_i s1 h1
    cases h2 : jPlay jp s1 os with
    | none => rw [h2] at h; cases h
    | some r =>
      rw [h2] at h
      obtain ⟨rfl, rfl⟩ := Prod.mk.inj (Option.some.inj h)
      exact ⟨s1, false, r.2, h2, rfl, .inr ⟨h1, rfl⟩⟩
  · rename_i s1 u h1
    cases h2 : jPlay jp s1 os with
    | none => rw [h2] at h; cases h
    | some r =>
      rw [h2] at h
      obtain ⟨rfl, rfl⟩ := Prod.mk.inj (Option.some.inj h)
      exact ⟨s1, true, r.2, h2, rfl, .inl ⟨h1, rfl⟩⟩

theorem run_cons {jp : JParams K} {t t1 t2 : JSt K τ F S C} {o : JOp K τ F S C Z} {os : List (JOp K τ F S C Z)}
    (h1 : Jglmb.step jp t o = .ok t1) (h2 : Jglmb.run jp t1 os = .ok t2) : Jglmb.run jp t (o :: os) = .ok t2 := by
  simp only [Jglmb.run]
  rw [h1]
  exact h2

/-- One call, seen from the run of the remaining calls. -/
theorem jCall_core {jp : JParams K} {o : JCOp K τ F S C Z} (ho : SortingJ o)
    {s s1 : JObj K τ F S C Z} {t : JSt K τ F S C} (hR : Core t.g s.o.st) (hl : t.oldLen = s.oldLen) (hh : s.o.holes = none)
    {b : Bool} (h : (jCall jp o s = (s1, .ok ()) ∧ b = true) ∨ (jCall jp o s = (s1, .raised) ∧ b = false)) :
    s1.o.meas = s.o.meas ++ scanJ o ∧ s1.o.holes = none ∧
    ∃ t1, Core t1.g s1.o.st ∧ t1.oldLen = s1.oldLen ∧ ∀ (os : List (JCOp K τ F S C Z)) (fl : List Bool) (t2 : JSt K τ F S C),
      Jglmb.run jp t1 (remainingJ os fl) = .ok t2 → Jglmb.run jp t (remainingJ (o :: os) (b :: fl)) = .ok t2 := by
  cases o with
  | predict env flt lab bs =>
    rcases h with ⟨h, rfl⟩ | ⟨h, rfl⟩
    · obtain ⟨g1, g2, g3, -, -⟩ := jPredict_ok h
      obtain ⟨t1, p1, p2, p3⟩ := JglmbTrace.predict_core g1 hR hl
      refine ⟨by simp [scanJ, g2], g3.trans hh, t1, p2, p3, ?_⟩
      intro os fl t2 h2
      exact run_cons (o := .predict env lab bs) p1 h2
    · have := jPredict_raised h
      subst this
      exact ⟨by simp [scanJ], hh, t, hR, hl, fun os fl t2 h2 => h2⟩
  | correct env flt bs d z =>
    rcases h with ⟨h, rfl⟩ | ⟨h, rfl⟩
    · obtain ⟨g1, g2, g3, -, -⟩ := jCorrect_ok h
      obtain ⟨t1, p1, p2, p3⟩ := JglmbTrace.correct_core g1 hR hl
      refine ⟨g2, g3, t1, p2, p3, ?_⟩
      intro os fl t2 h2
      exact run_cons (o := .correct env bs d z) p1 h2
    · have := jCorrect_raised h
      subst this
      exact ⟨rfl, hh, t, hR, hl, fun os fl t2 h2 => h2⟩
  | cleanup env bp bc be u c =>
    obtain ⟨r, hr, h'⟩ : ∃ r : Res Unit, r ≠ .nan ∧ onG (gCleanup env jp.base bp bc be u c) s = (s1, r) := by
      rcases h with ⟨h, -⟩ | ⟨h, -⟩
      · exact ⟨_, by simp, h⟩
      · exact ⟨_, by simp, h⟩
    obtain ⟨h1, h2⟩ := onG_eq h'
    obtain ⟨t0, g1, g2, g3, g4, -, -⟩ := GlmbCrash.gCleanup_eq ho h1 hr
    obtain ⟨t1, p1, p2⟩ := cleanup_core g1 hR
    refine ⟨by simp [scanJ, g3], g4.trans hh, ⟨t1, t.oldLen⟩, p2.trans g2, hl.trans h2.symm, ?_⟩
    intro os fl t2 h3
    have h4 : Jglmb.run jp t (.cleanup env bp bc false false false :: remainingJ os fl) = .ok t2 :=
      run_cons (by simp only [Jglmb.step]; rw [p1]) h3
    cases b <;> exact h4
  | extract u c =>
    obtain ⟨r, h'⟩ : ∃ r : Res Unit, onG (gExtract u c) s = (s1, r) := by
      rcases h with ⟨h, -⟩ | ⟨h, -⟩
      · exact ⟨_, h⟩
      · exact ⟨_, h⟩
    obtain ⟨h1, h2⟩ := onG_eq h'
    obtain ⟨⟨k1, k2, k3, k4, k5, k6⟩, -⟩ := GlmbCrash.gExtract_frame u c s.o
    rw [h1] at k1 k2 k3 k4 k5 k6
    refine ⟨by rw [show s1.o.meas = s.o.meas from k5]; simp [scanJ], k6.trans hh, t,
      ⟨hR.1.trans k1.symm, hR.2.1.trans k2.symm, hR.2.2.1.trans k3.symm, hR.2.2.2.trans k4.symm⟩, hl.trans h2.symm, ?_⟩
    intro os fl t2 h2
    cases b <;> exact h2

theorem jPlay_core {jp : JParams K} : ∀ (ops : List (JCOp K τ F S C Z))
    (flags : List Bool) (s s' : JObj K τ F S C Z) (t : JSt K τ F S C), (∀ o ∈ ops, SortingJ o) →
    Core t.g s.o.st → t.oldLen = s.oldLen → s.o.holes = none → jPlay jp s ops = some (s', flags) →
    flags.length = ops.length ∧ s'.o.meas = s.o.meas ++ ops.flatMap scanJ ∧ s'.o.holes = none ∧
    ∃ t', Jglmb.run jp t (remainingJ ops flags) = .ok t' ∧ Core t'.g s'.o.st ∧ t'.oldLen = s'.oldLen
  | [], flags, s, s', t, _, hR, hl, hh, h => by
    cases h
    exact ⟨rfl, by simp, hh, t, rfl, hR, hl⟩
  | o :: os, flags, s, s', t, ho, hR, hl, hh, h => by
    obtain ⟨s1, b, fl, h2, rfl, hb⟩ := jPlay_cons h
    obtain ⟨g1, g2, t1, g3, g4, g5⟩ := jCall_core (ho o List.mem_cons_self) hR hl hh hb
    obtain ⟨k1, k2, k3, t', k4, k5⟩ := jPlay_core os fl s1 s' t1
      (fun x hx => ho x (List.mem_cons_of_mem _ hx)) g3 g4 g2 h2
    exact ⟨by simp [k1], by rw [k2, g1]; simp, k3, t', g5 os fl t' k4, k5⟩

/-- One call and the length of the tables. -/
theorem jCall_len {jp : JParams K} {n : ℕ} {o : JCOp K τ F S C Z} (ho : SortingJ o) (hn : BirthCount n o)
    {s s1 : JObj K τ F S C Z} {k : ℕ} (hk : s.o.st.tab.length = s.oldLen + n * k) {b : Bool}
    (h : (jCall jp o s = (s1, .ok ()) ∧ b = true) ∨ (jCall jp o s = (s1, .raised) ∧ b = false)) :
    (s1.o.st.tab.length = s1.oldLen + n * pending k [(o, b)]) ∧
      (isCorrect o = true → b = true → n * k = n) := by
  cases o with
  | predict env flt lab bs =>
    rcases h with ⟨h, rfl⟩ | ⟨h, rfl⟩
    · obtain ⟨-, -, -, g1, g2⟩ := jPredict_ok h
      refine ⟨?_, fun h => by cases h⟩
      have hn' : bs.length = n := hn
      rw [g2, g1, hk, hn', pending, pending, Nat.mul_succ]
      omega
    · have := jPredict_raised h
      subst this
      exact ⟨hk, fun h => by cases h⟩
  | correct env flt bs d z =>
    rcases h with ⟨h, rfl⟩ | ⟨h, rfl⟩
    · obtain ⟨-, -, -, g1, g2⟩ := jCorrect_ok h
      have hn' : bs.length = n := hn
      refine ⟨?_, fun _ _ => ?_⟩
      · rw [pending, pending, g1]
        simp
      · omega
    · have := jCorrect_raised h
      subst this
      exact ⟨hk, fun _ h => by cases h⟩
  | cleanup env bp bc be u c =>
    obtain ⟨r, hr, h'⟩ : ∃ r : Res Unit, r ≠ .nan ∧ onG (gCleanup env jp.base bp bc be u c) s = (s1, r) := by
      rcases h with ⟨h, -⟩ | ⟨h, -⟩
      · exact ⟨_, by simp, h⟩
      · exact ⟨_, by simp, h⟩
    obtain ⟨h1, h2⟩ := onG_eq h'
    obtain ⟨t0, g1, g2, g3, g4, -, -⟩ := GlmbCrash.gCleanup_eq ho h1 hr
    refine ⟨?_, fun h => by cases h⟩
    have e : s1.o.st.tab = s.o.st.tab := by rw [← g2.1, (cleanup_shrinks g1).tab]
    rw [e, h2, hk]
    cases b <;> rfl
  | extract u c =>
    obtain ⟨r, h'⟩ : ∃ r : Res Unit, onG (gExtract u c) s = (s1, r) := by
      rcases h with ⟨h, -⟩ | ⟨h, -⟩
      · exact ⟨_, h⟩
      · exact ⟨_, h⟩
    obtain ⟨h1, h2⟩ := onG_eq h'
    obtain ⟨⟨k1, -⟩, -⟩ := GlmbCrash.gExtract_frame u c s.o
    rw [h1] at k1
    refine ⟨?_, fun h => by cases h⟩
    rw [k1, h2, hk]
    cases b <;> rfl

omit [Field K] [LinearOrder K] [IsStrictOrderedRing K] [FloorRing K] [DecidableEq τ] in
theorem pending_cons (k : ℕ) (x : JCOp K τ F S C Z × Bool) (l : List (JCOp K τ F S C Z × Bool)) :
    pending k (x :: l) = pending (pending k [x]) l := by
  obtain ⟨o, b⟩ := x
  cases o <;> cases b <;> rfl

omit [Field K] [LinearOrder K] [IsStrictOrderedRing K] [FloorRing K] [DecidableEq τ] in
theorem pending_append (l' : List (JCOp K τ F S C Z × Bool)) : ∀ (l : List (JCOp K τ F S C Z × Bool)) (k : ℕ),
    pending k (l ++ l') = pending (pending k l) l'
  | [], _ => rfl
  | x :: l, k => by
    rw [List.cons_append, pending_cons, pending_append l' l, ← pending_cons]

/-- The tables along a history, and when a correction can end normally. -/
theorem jPlay_len {jp : JParams K} {n : ℕ} (hn : 0 < n) : ∀ (ops : List (JCOp K τ F S C Z)) (flags : List Bool)
    (s s' : JObj K τ F S C Z) (k : ℕ), (∀ o ∈ ops, SortingJ o) → (∀ o ∈ ops, BirthCount n o) →
    s.o.st.tab.length = s.oldLen + n * k → jPlay jp s ops = some (s', flags) →
    s'.o.st.tab.length = s'.oldLen + n * pending k (ops.zip flags) ∧
    ∀ pre o post, ops.zip flags = pre ++ (o, true) :: post → isCorrect o = true → pending k pre = 1
  | [], flags, s, s', k, _, _, hk, h => by
    cases h
    exact ⟨hk, fun pre o post h => by simp at h⟩
  | o :: os, flags, s, s', k, ho, hc, hk, h => by
    obtain ⟨s1, b, fl, h2, rfl, hb⟩ := jPlay_cons h
    obtain ⟨g1, g2⟩ := jCall_len (ho o List.mem_cons_self) (hc o List.mem_cons_self) hk hb
    obtain ⟨k1, k2⟩ := jPlay_len hn os fl s1 s' _ (fun x hx => ho x (List.mem_cons_of_mem _ hx))
      (fun x hx => hc x (List.mem_cons_of_mem _ hx)) g1 h2
    refine ⟨by rw [List.zip_cons_cons, pending_cons]; exact k1, ?_⟩
    intro pre x post he hx
    cases pre with
    | nil =>
      obtain ⟨h3, -⟩ := List.cons.inj he
      obtain ⟨rfl, rfl⟩ := Prod.mk.inj h3
      exact Nat.eq_of_mul_eq_mul_left hn (by rw [Nat.mul_one]; exact g2 hx rfl)
    | cons p pre =>
      obtain ⟨rfl, h4⟩ := List.cons.inj he
      rw [pending_cons]
      exact k2 pre x post h4 hx

/-! ### The theorems -/

/-- **C147, `predict`.** If `predict` raises, the filter is exactly as before the call. -/
theorem C147_predict (jp : JParams K) (env : Env K τ F S C Z) (fl : Faults K F S Z) (lab : τ)
    (births : List (Birth K F S C)) (s s' : JObj K τ F S C Z)
    (h : jCall jp (.predict env fl lab births) s = (s', .raised)) : s' = s := jPredict_raised h

/-- **C147, `correct`** (partial: `C147_refuted`). If `correct` raises, everything is as before the call except that the
scan is recorded. -/
theorem C147_correct_partial (jp : JParams K) (env : Env K τ F S C Z) (fl : Faults K F S Z) (births : List (Birth K F S C))
    (draws : ℕ → ℕ → ℕ → K) (zs : List Z) (s s' : JObj K τ F S C Z)
    (h : jCall jp (.correct env fl births draws zs) s = (s', .raised)) :
    s' = ⟨{ s.o with meas := s.o.meas ++ [zs] }, s.oldLen⟩ := jCorrect_raised h

/-- **C147, `cleanup` and `extract_states`** are those of the parent class (C145): `extract_states` touches nothing but the
results, whether it raises or not; if `cleanup` raises, the filter is that after the same clean-up without extraction,
except for the results. -/
theorem C147_cleanup_partial (jp : JParams K) (env : Env K τ F S C Z) (ha : ∀ ws, IsArgsort ws (env.argsort ws))
    (bp bc be u c : Bool) (s s' : JObj K τ F S C Z) :
    (∀ r, jCall jp (.extract u c : JCOp K τ F S C Z) s = (s', r) →
      s'.o.st.tab = s.o.st.tab ∧ s'.o.st.hyps = s.o.st.hyps ∧ s'.o.st.card = s.o.st.card ∧ s'.o.st.cntr = s.o.st.cntr ∧
        s'.o.meas = s.o.meas ∧ s'.oldLen = s.oldLen) ∧
    (jCall jp (.cleanup env bp bc be u c) s = (s', .raised) →
      be = true ∧ s'.o.st.cntr = s.o.st.cntr + 1 ∧ s'.o.meas = s.o.meas ∧ s'.oldLen = s.oldLen ∧
      ∃ t, Glmb.step jp.base s.o.st (.cleanup env bp bc false false false) = .ok t ∧
        t.tab = s'.o.st.tab ∧ t.hyps = s'.o.st.hyps ∧ t.card = s'.o.st.card ∧ t.cntr = s'.o.st.cntr) := by
  refine ⟨fun r h => ?_, fun h => ?_⟩
  · obtain ⟨h1, h2⟩ := onG_eq h
    obtain ⟨k1, k2, k3, k4, k5⟩ := GlmbCrash.C145_extract_partial jp.base true u c s.o s'.o r h1
    exact ⟨k1, k2, k3, k4, k5, h2⟩
  · obtain ⟨h1, h2⟩ := onG_eq h
    obtain ⟨k1, k2, k3, k4⟩ := GlmbCrash.C145_cleanup_partial jp.base true env ha bp bc be u c s.o s'.o h1
    exact ⟨k1, k2, k3, h2, k4⟩

/-- **C147, faults reach the caller.** If `predict` ends normally, the inner filter raised neither for the birth terms nor
for a component of a track. If `correct` ends normally, it raised (with an exception that is not one of the three that
the filter understands) for no measurement and no track at a component that was reached. -/
theorem C147_no_hidden_fault (jp : JParams K) (env : Env K τ F S C Z) (fl : Faults K F S Z) (s s' : JObj K τ F S C Z) :
    (∀ lab births, jCall jp (.predict env fl lab births) s = (s', .ok ()) →
      fl.init = false ∧ ∀ e ∈ s.o.st.tab, ∀ x ∈ e.fStates.zip (e.sHist.getLast?.getD []), fl.pred x.1 x.2 = false) ∧
    (∀ births draws meas, jCall jp (.correct env fl births draws meas) s = (s', .ok ()) →
      ∀ z ∈ meas, ∀ e ∈ s.o.st.tab, ∀ pre x post,
        e.fStates.zip ((e.sHist.getLast?.getD []).zip (e.wHist.getLast?.getD [])) = pre ++ x :: post →
        (∀ y ∈ pre, (env.corF z y.1 y.2.1 y.2.2).isSome) → fl.cor z x.1 x.2.1 x.2.2 = false) := by
  refine ⟨fun lab births h => ?_, fun births draws meas h => ?_⟩
  · change jPredict env fl lab births s = _ at h
    unfold jPredict at h
    rw [andThen_of_ok (s1 := s) (a := s.o.st) rfl] at h
    obtain ⟨u, h1, h⟩ := GlmbCrash.evalThen_ok h
    split at h1
    · cases h1
    rename_i hi
    obtain ⟨survTab, h4, h⟩ := GlmbCrash.evalThen_ok h
    refine ⟨by simpa using hi, fun e he x hx => ?_⟩
    obtain ⟨e', h5⟩ := CrashHonest.eachE_each h4 e he
    unfold entPred at h5
    split at h5
    · cases h5
    · rename_i hn
      rw [List.any_eq_true] at hn
      by_contra hc
      exact hn ⟨x, hx, by simpa using hc⟩
  · change jCorrect env fl jp births draws meas s = _ at h
    unfold jCorrect at h
    rw [andThen_of_ok (s1 := (⟨{ s.o with meas := s.o.meas ++ [meas] }, s.oldLen⟩ : JObj K τ F S C Z)) (a := ()) rfl,
      andThen_of_ok (s1 := (⟨{ s.o with meas := s.o.meas ++ [meas] }, s.oldLen⟩ : JObj K τ F S C Z))
        (a := (⟨{ s.o with meas := s.o.meas ++ [meas] }, s.oldLen⟩ : JObj K τ F S C Z)) rfl] at h
    obtain ⟨blocks, h1, -⟩ := GlmbCrash.evalThen_ok h
    intro z hz e he
    obtain ⟨i, hi, rfl⟩ := List.getElem_of_mem hz
    obtain ⟨b, hb⟩ := CrashHonest.eachE_each h1 (meas[i], i) (by
      rw [List.mem_zipIdx_iff_getElem?]
      exact List.getElem?_eq_getElem hi)
    unfold blockCor at hb
    cases h2 : eachE (entCor env fl jp.base meas[i]) s.o.st.tab with
    | raised => rw [show eachE (entCor env fl jp.base (meas[i], i).1) _ = _ from h2] at hb; cases hb
    | nan => rw [show eachE (entCor env fl jp.base (meas[i], i).1) _ = _ from h2] at hb; cases hb
    | ok l =>
      obtain ⟨ec, h3⟩ := CrashHonest.eachE_each h2 e he
      unfold entCor at h3
      split at h3
      · cases h3
      · rename_i hn
        exact CrashHonest.faultAt_false (by simpa using hn)

/-- **C147, agreement.** A call that ends normally does what `Verif/Model/Jglmb.lean` says. -/
theorem C147_agrees (jp : JParams K) (o : JCOp K τ F S C Z) (ho : SortingJ o) (s s' : JObj K τ F S C Z)
    (h : jCall jp o s = (s', .ok ())) :
    Jglmb.step jp ⟨s.o.st, s.oldLen⟩ (plainJ o) = .ok ⟨s'.o.st, s'.oldLen⟩ := jCall_ok ho h

/-- **C147, histories.** Let any sequence of calls be made on a new joint filter, where every exception is caught and the
next call is made all the same. Then the tracks, the hypotheses, the cardinality distribution and the step counter are
those of a filter on which nothing raises: on it the `predict` and `correct` calls that ended normally are made, and all
clean-ups (without extraction). The measurement table has the scans of all `correct` calls, those that raised included. -/
theorem C147_history (jp : JParams K) (ops : List (JCOp K τ F S C Z)) (hs : ∀ o ∈ ops, SortingJ o) (flags : List Bool)
    (s : JObj K τ F S C Z) (h : jPlay jp jFresh ops = some (s, flags)) :
    flags.length = ops.length ∧ s.o.meas = ops.flatMap scanJ ∧ s.o.holes = none ∧
    ∃ t, Jglmb.run jp Jglmb.init (remainingJ ops flags) = .ok t ∧
      t.g.tab = s.o.st.tab ∧ t.g.hyps = s.o.st.hyps ∧ t.g.card = s.o.st.card ∧ t.g.cntr = s.o.st.cntr := by
  obtain ⟨h1, h2, h3, t, h4, h5, -⟩ := jPlay_core ops flags jFresh s Jglmb.init hs ⟨rfl, rfl, rfl, rfl⟩ rfl rfl h
  exact ⟨h1, by simpa [jFresh, gFresh] using h2, h3, t, h4, h5⟩

/-- **C147, one prediction per correction.** Let all calls in a history of a new joint filter use the same positive number
of birth terms. A correction can only end normally if exactly one prediction ended normally since the last correction
that ended normally. -/
theorem C147_one_prediction (jp : JParams K) (n : ℕ) (hn : 0 < n) (ops : List (JCOp K τ F S C Z))
    (hs : ∀ o ∈ ops, SortingJ o) (hb : ∀ o ∈ ops, BirthCount n o) (flags : List Bool) (s : JObj K τ F S C Z)
    (h : jPlay jp jFresh ops = some (s, flags)) (pre post : List (JCOp K τ F S C Z × Bool)) (o : JCOp K τ F S C Z)
    (hz : ops.zip flags = pre ++ (o, true) :: post) (ho : isCorrect o = true) : pending 0 pre = 1 :=
  (jPlay_len hn ops flags jFresh s 0 hs hb (by simp [jFresh, gFresh, Glmb.init]) h).2 pre o post hz ho

omit [Field K] [LinearOrder K] [IsStrictOrderedRing K] [FloorRing K] [DecidableEq τ] in
theorem pending_mono : ∀ (l : List (JCOp K τ F S C Z × Bool)) (k : ℕ), (∀ x ∈ l, isCorrect x.1 = true → x.2 = false) →
    k ≤ pending k l
  | [], _, _ => le_refl _
  | x :: l, k, h => by
    rw [pending_cons]
    refine le_trans ?_ (pending_mono l _ fun y hy => h y (List.mem_cons_of_mem _ hy))
    have := h x List.mem_cons_self
    obtain ⟨o, b⟩ := x
    cases o <;> cases b <;> simp [pending, isCorrect] at this ⊢

/-- **C147, the joint filter does not recover.** Let all calls in a history of a new joint filter use the same positive
number of birth terms. If a correction raised and the next prediction is made all the same, so that two predictions
ended normally without a correction after the first that ended normally, then every later correction raises. -/
theorem C147_stuck (jp : JParams K) (n : ℕ) (hn : 0 < n) (ops : List (JCOp K τ F S C Z))
    (hs : ∀ o ∈ ops, SortingJ o) (hb : ∀ o ∈ ops, BirthCount n o) (flags : List Bool) (s : JObj K τ F S C Z)
    (h : jPlay jp jFresh ops = some (s, flags)) (pre post : List (JCOp K τ F S C Z × Bool))
    (hz : ops.zip flags = pre ++ post) (hp : 2 ≤ pending 0 pre) : ∀ x ∈ post, isCorrect x.1 = true → x.2 = false := by
  suffices key : ∀ (mid rest : List (JCOp K τ F S C Z × Bool)), post = mid ++ rest →
      ∀ x ∈ mid, isCorrect x.1 = true → x.2 = false from key post [] (by simp)
  intro mid
  induction mid using List.reverseRecOn with
  | nil => simp
  | append_singleton l a ih =>
    intro rest hr x hx hxc
    have ih' := ih (a :: rest) (by rw [hr]; simp)
    rcases List.mem_append.1 hx with hx | hx
    · exact ih' x hx hxc
    · rw [List.mem_singleton] at hx
      subst hx
      obtain ⟨o, b⟩ := x
      cases b with
      | false => rfl
      | true =>
        exfalso
        have h1 := C147_one_prediction jp n hn ops hs hb flags s h (pre ++ l) rest o (by rw [hz, hr]; simp) hxc
        rw [pending_append] at h1
        have := pending_mono l (pending 0 pre) ih'
        omega

end field

/-! ### Examples -/

/-- What is shown of a joint filter: the states in the track table, the tracks of the hypotheses, the length of the old
table, the measurement table, and which calls ended normally. -/
structure Shown where
  tab : List (List (List ℚ))
  hyps : List (List ℕ)
  oldLen : ℕ
  meas : List (List ℚ)
  ended : List Bool
  deriving DecidableEq

/-- The example of `Verif/Props/JglmbTrack.lean`, where the caller catches exceptions. -/
def exPlay (ops : List (JCOp ℚ ℕ Unit ℚ Unit ℚ)) : Option Shown :=
  (jPlay exJPr jFresh ops).map fun r => ⟨r.1.o.st.tab.map fun e => e.sHist, r.1.o.st.hyps.map fun h => h.tracks,
    r.1.oldLen, r.1.o.meas, r.2⟩

/-- The random numbers of the example. -/
def exDraws : ℕ → ℕ → ℕ → ℚ := fun _ s _ => if s % 2 = 0 then 1 / 2 else 9 / 10

/-- A history: in the second scan the inner filter raises for the measurement 8; the caller goes on with the next scans,
for which it does not raise. -/
def exHistory : List (JCOp ℚ ℕ Unit ℚ Unit ℚ) :=
  [.predict exTrackEnv GlmbCrash.exNoFaults 0 (GlmbCrash.exBirths 0),
    .correct exTrackEnv GlmbCrash.exFaults (GlmbCrash.exBirths 0) exDraws [4],
    .predict exTrackEnv GlmbCrash.exNoFaults 1 (GlmbCrash.exBirths 10),
    .correct exTrackEnv GlmbCrash.exFaults (GlmbCrash.exBirths 10) exDraws [8],
    .predict exTrackEnv GlmbCrash.exNoFaults 2 (GlmbCrash.exBirths 0),
    .correct exTrackEnv GlmbCrash.exNoFaults (GlmbCrash.exBirths 0) exDraws [6],
    .predict exTrackEnv GlmbCrash.exNoFaults 3 (GlmbCrash.exBirths 0),
    .correct exTrackEnv GlmbCrash.exNoFaults (GlmbCrash.exBirths 0) exDraws [6]]

/-- **C147, refuted.** A correction that raised is not without trace. If it is repeated, the scan is recorded twice. If
the caller goes on with the next time step instead, all further corrections raise, although the inner filter does not
raise any more; the track table grows. -/
theorem C147_refuted :
    exPlay (exHistory.take 4) =
      some ⟨[[[10]], [[0], [1]], [[2], [3]]], [[0], [1]], 2, [[4], [8]], [true, true, true, false]⟩ ∧
    exPlay (exHistory.take 4 ++ [.correct exTrackEnv GlmbCrash.exNoFaults (GlmbCrash.exBirths 10) exDraws [8]]) =
      some ⟨[[[10]], [[0], [1]], [[2], [3]], [[9]]], [[0, 1], [3, 1], [0, 2], [3, 2]], 4, [[4], [8], [8]],
        [true, true, true, false, true]⟩ ∧
    exPlay exHistory =
      some ⟨[[[0]], [[0], [1]], [[10], [11], [12]], [[0], [1], [2], [3]], [[2], [3], [4], [5]]], [[0], [1]], 2,
        [[4], [8], [6], [6]], [true, true, true, false, true, false, true, false]⟩ := by
  refine ⟨?_, ?_, ?_⟩ <;> decide +kernel

/-- The hypotheses of `C147_stuck` are met by this history: after the third prediction two are pending. -/
example : (∀ o ∈ exHistory, SortingJ o) ∧ (∀ o ∈ exHistory, BirthCount 1 o) ∧
    (∃ s, jPlay exJPr jFresh exHistory = some (s, [true, true, true, false, true, false, true, false])) ∧
    pending 0 ((exHistory.take 5).zip [true, true, true, false, true]) = 2 := by
  refine ⟨by simp [exHistory, SortingJ], by simp [exHistory, BirthCount, GlmbCrash.exBirths], ?_, rfl⟩
  have h := C147_refuted.2.2
  unfold exPlay at h
  cases hp : jPlay exJPr jFresh exHistory with
  | none => rw [hp] at h; cases h
  | some r =>
    rw [hp] at h
    have h1 := Option.some.inj h
    have h2 : r.2 = [true, true, true, false, true, false, true, false] := congrArg Shown.ended h1
    exact ⟨r.1, by rw [← h2]⟩

/-- The hypotheses of the other theorems of C147 are met: calls of `predict` and `correct` raise. -/
example : (∃ s', jCall exJPr (.predict exTrackEnv { GlmbCrash.exNoFaults with init := true } 0 (GlmbCrash.exBirths 0))
      (jFresh : JObj ℚ ℕ Unit ℚ Unit ℚ) = (s', .raised)) ∧
    ∃ s', jCall exJPr (.correct exTrackEnv GlmbCrash.exNoFaults (GlmbCrash.exBirths 0 ++ GlmbCrash.exBirths 10) exDraws [4])
      (jFresh : JObj ℚ ℕ Unit ℚ Unit ℚ) = (s', .raised) :=
  ⟨crashes (by decide +kernel), crashes (by decide +kernel)⟩

end Gasur.Props.JglmbCrash
