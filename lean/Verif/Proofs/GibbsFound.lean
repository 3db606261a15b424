import Verif.Proofs.GibbsChain

/-! Gibbs sampling finds every assignment. -/

set_option linter.unusedSectionVars false

namespace Gasur.Gibbs

open MeasureTheory Gasur.Spec

variable {N M : ℕ}

/-- The start of the sampler. -/
def start0 (hM : 2 * N ≤ M) : Inj N M := ⟨fun i => ⟨N + i.val, by omega⟩, by
  intro i j h
  simp only [Fin.mk.injEq] at h
  exact Fin.ext (by omega)⟩

/-- The probability that `gibbs` does not return a given assignment decreases geometrically. -/
theorem gibbs_avoid (costs : Fin N → Fin M → ℝ) (hM : 2 * N ≤ M) (a : Fin N → Fin M) (ha : Function.Injective a) :
    ∃ r : ℝ, 0 ≤ r ∧ r < 1 ∧ ∀ n : ℕ, ∃ Bad : Set (ℕ → Fin N → ℝ), (allDraws N).real Bad ≤ r ^ (n / 2) ∧
      ∀ᵐ u ∂allDraws N, (∃ out, gibbs (fun x => Real.exp (-x)) costs (n + 1) u = .ok out ∧ ∃ c, (a, c) ∈ out) ∨
        u ∈ Bad := by
  classical
  obtain ⟨r, hr0, hr1, hr⟩ := Doeblin.avoid_small (P := trans costs) (trans_nonneg costs) (trans_sum costs)
    (two_pos costs hM) ⟨a, ha⟩
  refine ⟨r, hr0, hr1, fun n => ⟨⋃ b : Inj N M,
    {u | RandomRun.run (fun _ => killStep costs ⟨a, ha⟩) u (List.range' 1 n) (start0 hM) = .ok b}, ?_, ?_⟩⟩
  · have h2 := measureReal_iUnion_fintype_le (μ := allDraws N) (fun b : Inj N M =>
      {u | RandomRun.run (fun _ => killStep costs ⟨a, ha⟩) u (List.range' 1 n) (start0 hM) = .ok b})
    have h4 : ∑ b : Inj N M, (allDraws N).real
        {u | RandomRun.run (fun _ => killStep costs ⟨a, ha⟩) u (List.range' 1 n) (start0 hM) = .ok b} =
        ∑ b, Doeblin.pw (Doeblin.avoid (trans costs) ⟨a, ha⟩) n (start0 hM) b := by
      refine Finset.sum_congr rfl fun b _ => ?_
      rw [chain_law (killStep_measurable costs ⟨a, ha⟩), killStep_prob]
    rw [h4] at h2
    exact h2.trans (hr n (start0 hM)).2
  · filter_upwards [allDraws_cube N] with u hu
    obtain ⟨l, hl, _, _⟩ := iter_ok eN_pos costs hu n 1 (start0 hM).1 (start0 hM).2
    by_cases hal : a ∈ l
    · left
      have hg : gibbs (fun x => Real.exp (-x)) costs (n + 1) u =
          .ok (uniqueRows (((start0 hM).1 :: l).map fun a => (a, rowCost costs a))) := by
        rw [gibbs, if_neg (by omega), dif_pos hM, Nat.add_sub_cancel]
        have : iter (fun x => Real.exp (-x)) costs u n 1 (fun i => ⟨N + i.val, by omega⟩) = .ok l := hl
        rw [this]
        rfl
      refine ⟨_, hg, ?_⟩
      obtain ⟨_, _, _, g4⟩ := uniqueRows_spec (((start0 hM).1 :: l).map fun a => (a, rowCost costs a))
      obtain ⟨⟨b, c⟩, hq, hqe⟩ := g4 (a, rowCost costs a) (List.mem_map_of_mem (List.mem_cons_of_mem _ hal))
      simp only at hqe
      subst hqe
      exact ⟨c, hq⟩
    · right
      obtain ⟨b, hb⟩ := avoid_run costs ⟨a, ha⟩ u n 1 (start0 hM) l hl hal
      exact Set.mem_iUnion.2 ⟨b, hb⟩

end Gasur.Gibbs
