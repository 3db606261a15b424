import Verif.Spec.JointExact

/-! The draws of one hypothesis among the draws of the joint update. -/

namespace Gasur.Spec

open MeasureTheory

/-- The draws of hypothesis `n`, for `N` rows. -/
def slice (n N : ℕ) (d : ℕ → ℕ → ℕ → ℝ) : ℕ → Fin N → ℝ := fun s v => d n s v.val

theorem rows_map (N : ℕ) : (Measure.infinitePi fun _ : ℕ => unif).map (fun x (v : Fin N) => x v.val) = draws N := by
  symm
  unfold draws
  apply Measure.pi_eq
  intro s hs
  have hf : Measurable (fun (x : ℕ → ℝ) (v : Fin N) => x v.val) := by fun_prop
  rw [Measure.map_apply hf (MeasurableSet.univ_pi hs)]
  have hset : (fun (x : ℕ → ℝ) (v : Fin N) => x v.val) ⁻¹' Set.univ.pi s =
      Set.pi (Finset.range N : Set ℕ) (fun i => if h : i < N then s ⟨i, h⟩ else Set.univ) := by
    ext x
    simp only [Set.mem_preimage, Set.mem_pi, Set.mem_univ, forall_true_left, Finset.coe_range, Set.mem_Iio]
    constructor
    · intro h i hi
      rw [dif_pos hi]
      exact h ⟨i, hi⟩
    · intro h v
      have := h v.val v.isLt
      rwa [dif_pos v.isLt] at this
  rw [hset, Measure.infinitePi_pi]
  · rw [Finset.prod_range]
    refine Finset.prod_congr rfl fun v _ => ?_
    rw [dif_pos v.isLt]
  · intro i hi
    rw [dif_pos (Finset.mem_range.1 hi)]
    exact hs _

theorem slice_preserving (n N : ℕ) : MeasurePreserving (slice n N) jointDraws (allDraws N) := by
  have h1 : MeasurePreserving (fun d : ℕ → ℕ → ℕ → ℝ => d n) jointDraws
      (Measure.infinitePi fun _ => Measure.infinitePi fun _ => unif) :=
    measurePreserving_eval_infinitePi (fun _ : ℕ => Measure.infinitePi fun _ : ℕ => Measure.infinitePi fun _ : ℕ => unif) n
  have h2 : MeasurePreserving (fun (d : ℕ → ℕ → ℝ) (s : ℕ) (v : Fin N) => d s v.val)
      (Measure.infinitePi fun _ => Measure.infinitePi fun _ => unif) (allDraws N) := by
    refine ⟨by fun_prop, ?_⟩
    have := Measure.infinitePi_map_pi (μ := fun _ : ℕ => Measure.infinitePi fun _ : ℕ => unif)
      (f := fun _ (x : ℕ → ℝ) (v : Fin N) => x v.val) (fun _ => by fun_prop)
    unfold allDraws
    simp only [rows_map] at this
    exact this
  exact h2.comp h1

theorem jointDraws_cube : ∀ᵐ d ∂jointDraws, ∀ n s v, 0 ≤ d n s v ∧ d n s v < 1 := by
  simp only [ae_all_iff]
  intro n s v
  have h1 : MeasurePreserving (fun d : ℕ → ℕ → ℕ → ℝ => d n) jointDraws _ :=
    measurePreserving_eval_infinitePi (fun _ : ℕ => Measure.infinitePi fun _ : ℕ => Measure.infinitePi fun _ : ℕ => unif) n
  have h2 := measurePreserving_eval_infinitePi (fun _ : ℕ => Measure.infinitePi fun _ : ℕ => unif) s
  have h3 := measurePreserving_eval_infinitePi (fun _ : ℕ => unif) v
  have h4 := (h3.comp h2).comp h1
  have h5 : ∀ᵐ x ∂unif, 0 ≤ x ∧ x < 1 := by
    unfold unif
    rw [ae_restrict_iff' measurableSet_Ico]
    exact Filter.Eventually.of_forall fun x hx => hx
  exact h4.quasiMeasurePreserving.ae h5

end Gasur.Spec
