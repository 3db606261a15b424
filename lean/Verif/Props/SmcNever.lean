import Verif.Props.SmcJoint

/-!
# Property C92: the particle variant of the joint GLMB filter never fails
-/

set_option linter.unusedSectionVars false

namespace Gasur.Props

open Gasur.Glmb Gasur.Jglmb Gasur.Smc Gasur.Spec

variable {K τ X G S C Z : Type*} [Field K] [LinearOrder K] [IsStrictOrderedRing K] [FloorRing K]
  [DecidableEq τ]

/-- The calls of a time step of the SMC-JGLMB filter: `predict`, `correct` (with the random numbers `draws`), `cleanup`. -/
def SmcRound.jround (jp : JParams K) (r : SmcRound K τ X G S C Z) (draws : ℕ → ℕ → ℕ → K) :
    JRound K τ (PState K X G) S C Z :=
  { env := smcEnv r.num r.sortInds r.argsort jp.base.eps r.pf r.ps r.pd, lab := r.lab
    births := r.births.map fun b => smcBirth r.rest b.1 b.2, draws := draws, meas := r.meas, flags := r.flags }

/-- What the user must provide in a time step: particles with normalised weights and a probability strictly between 0 and
1 for each birth, a particle filter that keeps the weights normalised and returns non-negative likelihoods, survival
probabilities in an interval `[a, 1]` with `a > 0`, detection probabilities in `[0, 1]`. -/
structure SmcRound.JOK (r : SmcRound K τ X G S C Z) : Prop where
  births : ∀ b ∈ r.births, IsParticleDist (⟨b.1.parts, b.1.ws, r.rest⟩ : PState K X G) ∧ 0 ≤ b.2 ∧ b.2 < 1
  filter : GoodFilter r.pf
  surv : ∃ a > 0, ∀ xs, (r.ps xs).length = xs.length ∧ ∀ p ∈ r.ps xs, a ≤ p ∧ p ≤ 1
  det : ∀ xs, (r.pd xs).length = xs.length ∧ ∀ p ∈ r.pd xs, 0 ≤ p ∧ p ≤ 1
  exp : ∀ x, 0 < r.num.expNeg x
  sqrt : ∀ x, 0 < x → 0 < r.num.sqrt x
  argsort : ∀ ws, IsArgsort ws (r.argsort ws)

/-- **C92.** Running any number of time steps on a new SMC-JGLMB filter never raises, whatever the measurements, flags and
random numbers, all hypothesis weights stay positive, and the particle weights of every track form a probability
distribution. -/
theorem C92_smc_joint_never_fails (jp : JParams K) (heps : 0 < jp.base.eps)
    (hcl : 0 < jp.base.clutterRate * jp.base.clutterDen)
    (rounds : List (SmcRound K τ X G S C Z × (ℕ → ℕ → ℕ → K)))
    (hok : ∀ r ∈ rounds, r.1.JOK ∧ ∀ n s v, 0 ≤ r.2 n s v ∧ r.2 n s v < 1) :
    ∃ st, Jglmb.run jp Jglmb.init ((rounds.map fun r => r.1.jround jp r.2).flatMap JRound.ops) = .ok st ∧
      (∀ h ∈ st.g.hyps, 0 < h.prob) ∧ ∀ e ∈ st.g.tab, e.fStates ≠ [] ∧ ∀ f ∈ e.fStates, IsParticleDist f := by
  refine C58_joint_never_fails jp heps hcl IsParticleDist _ ?_
  intro r' hr'
  obtain ⟨⟨r, draws⟩, hr, rfl⟩ := List.mem_map.1 hr'
  obtain ⟨⟨h1, h2, ⟨a, ha, h3⟩, h5, h6, h7, h8⟩, hd⟩ := hok _ hr
  refine ⟨?_, h6, h7, ?_, hd, h8, ?_, ?_, ?_⟩
  · intro b' hb'
    obtain ⟨x, hx, rfl⟩ := List.mem_map.1 hb'
    exact ⟨rfl, rfl, rfl, by simp [smcBirth], (h1 x hx).2.1, (h1 x hx).2.2⟩
  · intro z f s w x hf hx
    exact (innerCorrect_dist (w := w) h2 heps (fun xs => (h5 xs).1) (fun xs => (h5 xs).2) hf hx).2
  · intro b' hb' f hf
    obtain ⟨x, hx, rfl⟩ := List.mem_map.1 hb'
    simp only [smcBirth, List.mem_singleton] at hf
    rw [hf]
    exact (h1 x hx).1
  · intro f s hf
    exact innerPredict_dist h2 ha (fun xs => (h3 xs).1) (fun xs => (h3 xs).2) s hf
  · intro z f s w x hf hx
    exact (innerCorrect_dist (w := w) h2 heps (fun xs => (h5 xs).1) (fun xs => (h5 xs).2) hf hx).1

/-- The conditions of C92 can be met by two time steps: two particles at 0 and 1, survival probability 9/10, detection
probability 0 or 1; all random numbers are 1/2. -/
example : ∃ r : SmcRound ℝ ℝ ℝ Unit Unit Unit ℝ, r.JOK ∧ r.births ≠ [] ∧ r.meas ≠ [] ∧
    ∃ st, Jglmb.run smcJp Jglmb.init (([(r, fun _ _ _ => 1 / 2), (r, fun _ _ _ => 1 / 2)].map fun x =>
      x.1.jround smcJp x.2).flatMap JRound.ops) = .ok st := by
  let r : SmcRound ℝ ℝ ℝ Unit Unit Unit ℝ :=
    ⟨realNum, fun _ _ => Equiv.refl _, (realEnv (some (1 / 2))).argsort, smcPf, List.map fun _ => 9 / 10,
    List.map fun x => if x = 0 then 0 else 1, 0, (), [(⟨[0, 1], [1 / 4, 3 / 4], (), ()⟩, 9 / 10)], [0, 1],
    true, true, true, true, true⟩
  have hr : r.JOK := by
    refine ⟨?_, smcPf_good, ⟨9 / 10, by norm_num, ?_⟩, ?_, fun x => Real.exp_pos _, fun x hx => Real.sqrt_pos.2 hx, realArgsort⟩
    · intro b hb
      simp only [r, List.mem_singleton] at hb
      subst hb
      refine ⟨⟨by simp, by simp, ?_, by norm_num⟩, by norm_num, by norm_num⟩
      intro w hw
      simp only [List.mem_cons, List.not_mem_nil, or_false] at hw
      rcases hw with rfl | rfl <;> norm_num
    · intro xs
      refine ⟨by simp [r], ?_⟩
      intro p hp
      obtain ⟨_, _, rfl⟩ := List.mem_map.1 hp
      norm_num
    · intro xs
      refine ⟨by simp [r], ?_⟩
      intro p hp
      obtain ⟨x, _, rfl⟩ := List.mem_map.1 hp
      split <;> norm_num
  refine ⟨r, hr, by simp [r], by simp [r], ?_⟩
  obtain ⟨st, h, _⟩ := C92_smc_joint_never_fails smcJp (by norm_num [smcJp, realPr]) (by norm_num [smcJp, realPr])
    [(r, fun _ _ _ => 1 / 2), (r, fun _ _ _ => 1 / 2)] (by
      intro x hx
      simp only [List.mem_cons, List.not_mem_nil, or_false, or_self] at hx
      subst hx
      exact ⟨hr, fun _ _ _ => by norm_num⟩)
  exact ⟨st, h⟩

end Gasur.Props
