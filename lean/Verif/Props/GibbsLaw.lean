import Verif.Proofs.GibbsFound

/-!
# Properties C94, C95, C96: what the Gibbs sampler samples

`exp` is the real exponential, the costs are real, and the random numbers are independent and uniform in `[0, 1)`
(`Spec.draws` for one iteration, `Spec.allDraws` for all of them). The states of the sampler are the assignments of the
rows to pairwise different columns.
-/

set_option linter.unusedSectionVars false

namespace Gasur.Props

open MeasureTheory Gasur.Gibbs Gasur.Spec

variable {N M : ℕ}

theorem gibbsWeight_nonneg (costs : Fin N → Fin M → ℝ) (a : Fin N → Fin M) : 0 ≤ gibbsWeight costs a := by
  unfold gibbsWeight
  split
  · exact (Real.exp_pos _).le
  · exact le_rfl

/-- **C94.** One iteration of the sampler leaves the distribution proportional to `exp (-(sum of the costs))` invariant:
if the assignment before the iteration has this distribution, so has the assignment after it. -/
theorem C94_stationary (costs : Fin N → Fin M → ℝ) (b : Fin N → Fin M) :
    ∑ a, gibbsTarget costs a *
      (draws N).real {u | sweep (fun x => Real.exp (-x)) costs u (List.finRange N) a = .ok b} = gibbsTarget costs b := by
  have h := sweep_stationary costs (List.finRange N) (List.nodup_finRange N) b
  unfold gibbsTarget
  rw [← h, Finset.sum_div]
  refine Finset.sum_congr rfl fun a _ => ?_
  rw [div_mul_eq_mul_div]
  congr 2
  simp only [← sweep_run]

theorem sum_inj (F : (Fin N → Fin M) → ℝ) (hF : ∀ a, ¬ Function.Injective a → F a = 0) :
    ∑ a, F a = ∑ a : Inj N M, F a.1 := by
  classical
  rw [← Finset.sum_subset (Finset.filter_subset (fun a : Fin N → Fin M => Function.Injective a) Finset.univ)]
  · exact Finset.sum_subtype _ (by simp) F
  · intro a _ ha
    simp only [Finset.mem_filter, Finset.mem_univ, true_and] at ha
    exact hF a ha

theorem target_zero (costs : Fin N → Fin M → ℝ) (a : Fin N → Fin M) (ha : ¬ Function.Injective a) :
    gibbsTarget costs a = 0 := by
  unfold gibbsTarget gibbsWeight
  rw [if_neg ha, zero_div]

theorem target_sum (costs : Fin N → Fin M → ℝ) (a : Fin N → Fin M) (ha : Function.Injective a) :
    ∑ b, gibbsTarget costs b = 1 := by
  unfold gibbsTarget
  rw [← Finset.sum_div]
  refine div_self (ne_of_gt (Finset.sum_pos' (fun b _ => gibbsWeight_nonneg costs b) ⟨a, Finset.mem_univ a, ?_⟩))
  unfold gibbsWeight
  rw [if_pos ha]
  exact Real.exp_pos _

/-- **C95.** Started from any assignment of the rows to pairwise different columns, the assignment after `n` iterations
has approximately the target distribution: the difference of the probabilities decreases geometrically in `n`. -/
theorem C95_converges (costs : Fin N → Fin M → ℝ) (hM : 2 * N ≤ M) :
    ∃ r : ℝ, 0 ≤ r ∧ r < 1 ∧ ∀ (start : Fin N → Fin M), Function.Injective start → ∀ (n : ℕ) (b : Fin N → Fin M),
      |(allDraws N).real {u | ∃ l, iter (fun x => Real.exp (-x)) costs u n 1 start = .ok l ∧
        (start :: l).getLast? = some b} - gibbsTarget costs b| ≤ r ^ (n / 2) := by
  classical
  obtain ⟨r, hr0, hr1, hr⟩ := Doeblin.converges (P := trans costs) (trans_nonneg costs) (trans_sum costs)
    (two_pos costs hM) (p := fun a => gibbsTarget costs a.1)
    (fun a => div_nonneg (gibbsWeight_nonneg _ _) (Finset.sum_nonneg fun b _ => gibbsWeight_nonneg _ _))
    (by rw [← sum_inj _ (target_zero costs), target_sum costs _ (start0 hM).2])
    (by
      intro b
      have h := C94_stationary costs b.1
      rw [sum_inj _ (fun a ha => by rw [target_zero costs a ha, zero_mul])] at h
      exact h) (start0 hM)
  refine ⟨r, hr0, hr1, ?_⟩
  intro start hs n b
  by_cases hb : Function.Injective b
  · have h := hr n ⟨start, hs⟩ ⟨b, hb⟩
    have hset : {u : ℕ → Fin N → ℝ | ∃ l, iter (fun x => Real.exp (-x)) costs u n 1 start = .ok l ∧
        (start :: l).getLast? = some b} =
        {u | RandomRun.run (fun _ => chainStep costs) u (List.range' 1 n) ⟨start, hs⟩ = .ok ⟨b, hb⟩} := by
      ext u
      exact iter_run costs u n 1 ⟨start, hs⟩ ⟨b, hb⟩
    rw [hset, chain_law (chainStep_measurable costs)]
    have hP : (fun a c => (draws N).real {u | chainStep costs a u = .ok c}) = trans costs := by
      funext a c
      unfold Gibbs.trans
      simp only [chainStep_iff]
    rw [hP]
    convert h using 3
  · have hset : {u : ℕ → Fin N → ℝ | ∃ l, iter (fun x => Real.exp (-x)) costs u n 1 start = .ok l ∧
        (start :: l).getLast? = some b} = ∅ := by
      ext u
      simp only [Set.mem_setOf_eq, Set.mem_empty_iff_false, iff_false]
      rintro ⟨l, h1, h2⟩
      have hmem := List.mem_of_getLast? h2
      have hall : ∀ (n sol : ℕ) (a : Fin N → Fin M) (l : List (Fin N → Fin M)), Function.Injective a →
          iter eN costs u n sol a = .ok l → ∀ x ∈ l, Function.Injective x := by
        intro n
        induction n with
        | zero =>
          intro sol a l _ h x hx
          simp only [iter, Except.ok.injEq] at h
          subst h
          simp at hx
        | succ n ih =>
          intro sol a l ha h x hx
          simp only [iter] at h
          split at h
          · simp at h
          · rename_i c hc
            split at h
            · simp at h
            · rename_i l' hl'
              simp only [Except.ok.injEq] at h
              subst h
              have hci := sweep_inj ha hc
              rcases List.mem_cons.1 hx with rfl | hx
              · exact hci
              · exact ih _ _ _ hci hl' x hx
      rcases List.mem_cons.1 hmem with rfl | hm
      · exact hb hs
      · exact hb (hall n 1 start l hs h1 b hm)
    rw [hset, target_zero costs b hb]
    simp
    exact pow_nonneg hr0 _

/-- **C96.** Every assignment of the rows to pairwise different columns is found eventually: the probability that
`gibbs` returns it tends to 1 with the number of iterations. -/
theorem C96_found (costs : Fin N → Fin M → ℝ) (hM : 2 * N ≤ M) (a : Fin N → Fin M) (ha : Function.Injective a) :
    Filter.Tendsto (fun n => (allDraws N).real {u | ∃ out, gibbs (fun x => Real.exp (-x)) costs n u = .ok out ∧
      ∃ c, (a, c) ∈ out}) Filter.atTop (nhds 1) := by
  obtain ⟨r, hr0, hr1, hr⟩ := gibbs_avoid costs hM a ha
  have hlow : ∀ n, 1 - r ^ (n / 2) ≤ (allDraws N).real {u | ∃ out, gibbs (fun x => Real.exp (-x)) costs (n + 1) u = .ok out ∧
      ∃ c, (a, c) ∈ out} := by
    intro n
    obtain ⟨Bad, hB, hae⟩ := hr n
    have hcov : (allDraws N).real Set.univ ≤ (allDraws N).real ({u | ∃ out, gibbs (fun x => Real.exp (-x)) costs (n + 1) u =
        .ok out ∧ ∃ c, (a, c) ∈ out} ∪ Bad) := by
      refine (measureReal_congr ?_).le
      filter_upwards [hae] with u hu
      exact propext ⟨fun _ => hu, fun _ => trivial⟩
    have h1 := hcov.trans (measureReal_union_le _ _)
    have h5 : (allDraws N).real Set.univ = 1 := by simp
    rw [h5] at h1
    linarith
  rw [← Filter.tendsto_add_atTop_iff_nat 1]
  refine tendsto_of_tendsto_of_tendsto_of_le_of_le (g := fun n => 1 - r ^ (n / 2)) (h := fun _ => 1) ?_
    tendsto_const_nhds hlow (fun n => measureReal_le_one)
  have h1 : Filter.Tendsto (fun n : ℕ => r ^ (n / 2)) Filter.atTop (nhds 0) :=
    (tendsto_pow_atTop_nhds_zero_of_lt_one hr0 hr1).comp (Nat.tendsto_div_const_atTop (by norm_num))
  simpa using h1.const_sub 1

/-! A concrete case: one row, two columns with the costs `0` and `log 2`; the target distribution is 2/3, 1/3. -/

/-- The costs of the example. -/
noncomputable def gibbsEx : Fin 1 → Fin 2 → ℝ := fun _ j => if j = 0 then 0 else Real.log 2

theorem gibbsEx_target : gibbsTarget gibbsEx (fun _ => 0) = 2 / 3 := by
  have hinj : ∀ a : Fin 1 → Fin 2, Function.Injective a := fun a i j _ => Subsingleton.elim i j
  have hw : ∀ j : Fin 2, gibbsWeight gibbsEx (fun _ => j) = if j = 0 then 1 else 1 / 2 := by
    intro j
    unfold gibbsWeight
    rw [if_pos (hinj _)]
    fin_cases j
    · simp [gibbsEx]
    · simp [gibbsEx, Real.exp_neg, Real.exp_log]
  unfold gibbsTarget
  have hs : ∑ b : Fin 1 → Fin 2, gibbsWeight gibbsEx b = ∑ j : Fin 2, gibbsWeight gibbsEx (fun _ => j) :=
    Fintype.sum_equiv (Equiv.funUnique (Fin 1) (Fin 2)) _ _ (fun b => by
      congr 1
      funext i
      rw [Subsingleton.elim i default]
      rfl)
  rw [hs]
  simp only [hw, Fin.sum_univ_two]
  norm_num

/-- C94-C96 apply to it: `gibbs` finds the second column eventually, and the first has probability about 2/3. -/
example : Filter.Tendsto (fun n => (allDraws 1).real {u | ∃ out, gibbs (fun x => Real.exp (-x)) gibbsEx n u = .ok out ∧
      ∃ c, ((fun _ => 1), c) ∈ out}) Filter.atTop (nhds 1) ∧
    ∃ r : ℝ, r < 1 ∧ ∀ n : ℕ, |(allDraws 1).real {u | ∃ l, iter (fun x => Real.exp (-x)) gibbsEx u n 1 (fun _ => 1) = .ok l ∧
        ((fun _ => 1) :: l).getLast? = some fun _ => 0} - 2 / 3| ≤ r ^ (n / 2) := by
  have hinj : ∀ a : Fin 1 → Fin 2, Function.Injective a := fun a i j _ => Subsingleton.elim i j
  refine ⟨C96_found gibbsEx (by norm_num) _ (hinj _), ?_⟩
  obtain ⟨r, _, h1, h2⟩ := C95_converges gibbsEx (by norm_num)
  refine ⟨r, h1, fun n => ?_⟩
  rw [← gibbsEx_target]
  exact h2 _ (hinj _) n _

end Gasur.Props
