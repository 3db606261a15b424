import Verif.Model.Mixture
import Verif.Proofs.StudentT

/-!
# Properties C49 and C84: the mixtures
-/

namespace Gasur.Props

open Matrix MeasureTheory Gasur.Guidance Gasur.Mixture Gasur.Spec
open scoped ENNReal RealInnerProductSpace

/-! ### C49 -/

/-- **C49, covariances.** For every Student's t mixture with more than two degrees of freedom there is one covariance for each
scaling matrix, in order, namely the matrix times `dof / (dof - 2)`; and this is the covariance of the distribution: for
every location `m` and direction `v` the mean of `⟨v, x - m⟩²` is `vᵀ C v` (and that of `x - m` is zero). -/
theorem C49_covariances {n : ℕ} (g : TMix n) (h : 2 < g.dof) : ∃ l, g.covariances = .ok l ∧ l.length = g.scalings.length ∧
    ∀ (k : ℕ) (S C : Mat n), g.scalings[k]? = some S → l[k]? = some C → (∀ i j, C i j = S i j * g.dof / (g.dof - 2)) ∧
      (S.PosSemidef → ∀ m v : EuclideanSpace ℝ (Fin n),
        ∫⁻ x, ENNReal.ofReal (⟪v, x - m⟫ ^ 2) ∂studentT g.dof m S = ENNReal.ofReal (v ⬝ᵥ C *ᵥ v) ∧
        ∫ x, (x - m) ∂studentT g.dof m S = 0) := by
  unfold TMix.covariances
  rw [if_neg (by linarith)]
  refine ⟨_, rfl, by simp, ?_⟩
  intro k S C hS hC
  rw [List.getElem?_map, hS] at hC
  have hC' : (g.dof / (g.dof - 2)) • S = C := Option.some.inj hC
  subst hC'
  refine ⟨fun i j => by rw [Matrix.smul_apply, smul_eq_mul]; ring, ?_⟩
  intro hp m v
  refine ⟨?_, studentT_mean m S (by linarith)⟩
  rw [studentT_sq m hp (by linarith), lintegral_inv_gamma (by linarith) (by linarith), ← ENNReal.ofReal_mul
    (by apply div_nonneg <;> linarith), smul_mulVec, dotProduct_smul, smul_eq_mul]
  congr 2
  have : g.dof - 2 ≠ 0 := by linarith
  have : g.dof / 2 - 1 ≠ 0 := by linarith
  field_simp

/-- **C49, no covariance.** With at most two degrees of freedom an error is raised; rightly so, because the distribution has
infinite variance in every direction in which it is not degenerate. -/
theorem C49_no_covariance {n : ℕ} (g : TMix n) (h : g.dof ≤ 2) : g.covariances = .error .runtime ∧
    (0 < g.dof → ∀ S : Mat n, S.PosSemidef → ∀ m v : EuclideanSpace ℝ (Fin n), 0 < v ⬝ᵥ S *ᵥ v →
      ∫⁻ x, ENNReal.ofReal (⟪v, x - m⟫ ^ 2) ∂studentT g.dof m S = ∞) := by
  unfold TMix.covariances
  rw [if_pos h]
  refine ⟨rfl, ?_⟩
  intro h0 S hS m v hv
  rw [studentT_sq m hS h0, lintegral_inv_gamma_top (by linarith) (by linarith) (by linarith),
    ENNReal.top_mul (by simpa using hv)]

/-- The mixture without arguments has three degrees of freedom, so that it has covariances. -/
theorem C49_default {n : ℕ} (scalings : Option (List (Mat n))) : ∃ l, (newTMix (n := n) none scalings none none).covariances = .ok l ∧
    l = (scalings.getD []).map fun S => (3 : ℝ) • S := by
  unfold TMix.covariances
  rw [if_neg (by norm_num [newTMix])]
  refine ⟨_, rfl, ?_⟩
  norm_num [newTMix]

theorem foldl_add {α : Type} (f : α → ℝ) : ∀ (l : List α) (a : ℝ), l.foldl (fun p c => p + f c) a = a + (l.map f).sum := by
  intro l
  induction l with
  | nil => intro a; simp
  | cons c l ih => intro a; rw [List.foldl_cons, ih, List.map_cons, List.sum_cons]; ring

theorem sum_map_zip {n : ℕ} (f : Vec n → Mat n → ℝ) : ∀ (ms : List (Vec n)) (ss : List (Mat n)) (ws : List ℝ),
    ((ms.zip (ss.zip ws)).map fun c => c.2.2 * f c.1 c.2.1).sum =
      ∑ k ∈ Finset.range (min ms.length (min ss.length ws.length)), ws.getD k 0 * f (ms.getD k 0) (ss.getD k 0) := by
  intro ms
  induction ms with
  | nil => intro ss ws; simp
  | cons m ms ih =>
    intro ss ws
    cases ss with
    | nil => simp
    | cons s ss =>
      cases ws with
      | nil => simp
      | cons w ws =>
        simp only [List.zip_cons_cons, List.map_cons, List.sum_cons, List.length_cons]
        rw [ih, show min (ms.length + 1) (min (ss.length + 1) (ws.length + 1)) = min ms.length (min ss.length ws.length) + 1 by omega,
          Finset.sum_range_succ']
        simp only [List.getD_cons_succ, List.getD_cons_zero]
        ring

theorem mixPdf_eq {n : ℕ} (f : Vec n → Mat n → Vec n → ℝ) (ms : List (Vec n)) (ss : List (Mat n)) (ws : List ℝ) (x : Vec n) :
    mixPdf f ms ss ws x =
      ∑ k ∈ Finset.range (min ms.length (min ss.length ws.length)), ws.getD k 0 * f (ms.getD k 0) (ss.getD k 0) x := by
  unfold mixPdf
  rw [foldl_add (fun c : Vec n × Mat n × ℝ => c.2.2 * f c.1 c.2.1 x), zero_add, sum_map_zip (fun m s => f m s x)]

/-- **C49, density.** For every mixture and state, the density is the weighted sum of the densities of the components (as many
as the shortest list has), for Gaussian and for Student's t mixtures. -/
theorem C49_pdf {n : ℕ} (f : Vec n → Mat n → Vec n → ℝ) (F : ℝ → Vec n → Mat n → Vec n → ℝ) (g : GMix n) (t : TMix n) (x : Vec n) :
    g.pdf f x = ∑ k ∈ Finset.range (min g.means.length (min g.covs.length g.weights.length)),
      g.weights.getD k 0 * f (g.means.getD k 0) (g.covs.getD k 0) x ∧
    t.pdf F x = ∑ k ∈ Finset.range (min t.means.length (min t.scalings.length t.weights.length)),
      t.weights.getD k 0 * F t.dof (t.means.getD k 0) (t.scalings.getD k 0) x :=
  ⟨mixPdf_eq f _ _ _ x, mixPdf_eq (F t.dof) _ _ _ x⟩

/-! ### C84 -/

theorem components_ok {n : ℕ} (ms : List (Vec n)) (ss : List (Mat n)) (hl : ms.length ≤ ss.length) : ∀ is : List ℕ,
    (∀ i ∈ is, i < ms.length) → components ms ss is = .ok (is.map fun i => (ms.getD i 0, ss.getD i 0)) := by
  intro is
  induction is with
  | nil => intro _; rfl
  | cons i is ih =>
    intro h
    have hi := h i List.mem_cons_self
    have h1 : component ms ss i = .ok (ms.getD i 0, ss.getD i 0) := by
      unfold component
      rw [List.getD_eq_getElem?_getD, List.getD_eq_getElem?_getD, List.getElem?_eq_getElem hi,
        List.getElem?_eq_getElem (show i < ss.length by omega)]
      rfl
    show (component ms ss i >>= fun c => components ms ss is >>= fun cs => .ok (c :: cs)) = _
    rw [h1, ih fun j hj => h j (List.mem_cons_of_mem _ hj)]
    rfl

theorem mixSample_ok {n : ℕ} (D : Vec n → Mat n → Measure (Vec n)) (ms : List (Vec n)) (ss : List (Mat n)) (ws : List ℝ)
    (h1 : ms.length ≤ ss.length) (h2 : ws.length = ms.length) (h3 : ∀ w ∈ ws, 0 ≤ w) (h4 : ws.sum = 1) :
    mixSample D ms ss ws = .ok (∑ k ∈ Finset.range ms.length, ENNReal.ofReal (ws.getD k 0) • D (ms.getD k 0) (ss.getD k 0)) := by
  have hc : choice ms.length ws = .ok (∑ i ∈ Finset.range ms.length, ENNReal.ofReal (ws.getD i 0) • Measure.dirac i) := by
    unfold choice
    rw [if_neg]
    rintro (h | h | ⟨w, hw, h⟩ | h)
    · rw [h] at h2
      rw [List.length_eq_zero_iff.1 h2] at h4
      norm_num at h4
    · exact h h2
    · exact absurd (h3 w hw) (by linarith)
    · exact h h4
  unfold mixSample
  rw [hc, components_ok ms ss h1 _ fun i hi => List.mem_range.1 hi]
  show Except.ok _ = _
  congr 1
  ext s hs
  rw [Measure.bind_apply hs (Measurable.of_discrete).aemeasurable, lintegral_finsetSum_measure]
  rw [Measure.finsetSum_apply]
  apply Finset.sum_congr rfl
  intro i hi
  rw [lintegral_smul_measure, lintegral_dirac, Measure.smul_apply]
  congr 2
  have hi' := Finset.mem_range.1 hi
  rw [List.getElem?_map, List.getElem?_range hi']
  rfl

/-- **C84, samples.** For every mixture whose lists have the same length and whose weights are non-negative with sum one: if
`scipy`'s draws for each component follow the density that `pdf` uses for it, then `sample` succeeds and its result follows
the density `pdf`, which is never negative; if the draws are from probability distributions, so are the samples, and the
density has integral one. -/
theorem C84_sample {n : ℕ} (D : Vec n → Mat n → Measure (Vec n)) (f : Vec n → Mat n → Vec n → ℝ) (ms : List (Vec n))
    (ss : List (Mat n)) (ws : List ℝ) (h1 : ss.length = ms.length) (h2 : ws.length = ms.length) (h3 : ∀ w ∈ ws, 0 ≤ w)
    (h4 : ws.sum = 1) (hf : ∀ (k : ℕ) (m : Vec n) (s : Mat n), ms[k]? = some m → ss[k]? = some s →
      Measurable (f m s) ∧ (∀ x, 0 ≤ f m s x) ∧ D m s = volume.withDensity fun x => ENNReal.ofReal (f m s x)) :
    ∃ μ, mixSample D ms ss ws = .ok μ ∧ (∀ x, 0 ≤ mixPdf f ms ss ws x) ∧
      μ = (volume.withDensity fun x => ENNReal.ofReal (mixPdf f ms ss ws x)) ∧
      ((∀ (k : ℕ) (m : Vec n) (s : Mat n), ms[k]? = some m → ss[k]? = some s → IsProbabilityMeasure (D m s)) →
        IsProbabilityMeasure μ ∧ ∫⁻ x, ENNReal.ofReal (mixPdf f ms ss ws x) = 1) := by
  have hw : ∀ k, 0 ≤ ws.getD k 0 := by
    intro k
    rw [List.getD_eq_getElem?_getD]
    cases hk : ws[k]? with
    | none => exact le_rfl
    | some w => exact h3 w (List.mem_of_getElem? hk)
  have hk : ∀ k ∈ Finset.range ms.length, ms[k]? = some (ms.getD k 0) ∧ ss[k]? = some (ss.getD k 0) := by
    intro k hk
    have hk' := Finset.mem_range.1 hk
    rw [List.getD_eq_getElem?_getD, List.getD_eq_getElem?_getD, List.getElem?_eq_getElem hk',
      List.getElem?_eq_getElem (show k < ss.length by omega)]
    exact ⟨rfl, rfl⟩
  have hpdf : ∀ x, mixPdf f ms ss ws x = ∑ k ∈ Finset.range ms.length, ws.getD k 0 * f (ms.getD k 0) (ss.getD k 0) x := by
    intro x
    rw [mixPdf_eq, h1, h2, min_self, min_self]
  refine ⟨_, mixSample_ok D ms ss ws (by omega) h2 h3 h4, ?_⟩
  have hdens : (∑ k ∈ Finset.range ms.length, ENNReal.ofReal (ws.getD k 0) • D (ms.getD k 0) (ss.getD k 0)) =
      volume.withDensity fun x => ENNReal.ofReal (mixPdf f ms ss ws x) := by
    ext s hs
    rw [Measure.finsetSum_apply, withDensity_apply _ hs]
    have : ∀ x, ENNReal.ofReal (mixPdf f ms ss ws x) = ∑ k ∈ Finset.range ms.length, ENNReal.ofReal (ws.getD k 0) *
        ENNReal.ofReal (f (ms.getD k 0) (ss.getD k 0) x) := by
      intro x
      rw [hpdf, ENNReal.ofReal_sum_of_nonneg fun k hkr => mul_nonneg (hw k) ((hf k _ _ (hk k hkr).1 (hk k hkr).2).2.1 x)]
      exact Finset.sum_congr rfl fun k _ => ENNReal.ofReal_mul (hw k)
    simp only [this]
    rw [lintegral_finsetSum' _ fun k hkr => ((hf k _ _ (hk k hkr).1 (hk k hkr).2).1.ennreal_ofReal.const_mul _).aemeasurable]
    apply Finset.sum_congr rfl
    intro k hkr
    obtain ⟨e1, _, e3⟩ := hf k _ _ (hk k hkr).1 (hk k hkr).2
    rw [lintegral_const_mul _ e1.ennreal_ofReal, Measure.smul_apply, e3, withDensity_apply _ hs, smul_eq_mul]
  refine ⟨?_, hdens, ?_⟩
  · intro x
    rw [hpdf]
    exact Finset.sum_nonneg fun k hkr => mul_nonneg (hw k) ((hf k _ _ (hk k hkr).1 (hk k hkr).2).2.1 x)
  · intro hp
    have htot : (∑ k ∈ Finset.range ms.length, ENNReal.ofReal (ws.getD k 0) • D (ms.getD k 0) (ss.getD k 0)) Set.univ = 1 := by
      rw [Measure.finsetSum_apply]
      have : ∀ k ∈ Finset.range ms.length, (ENNReal.ofReal (ws.getD k 0) • D (ms.getD k 0) (ss.getD k 0)) Set.univ =
          ENNReal.ofReal (ws.getD k 0) := by
        intro k hkr
        have := (hp k _ _ (hk k hkr).1 (hk k hkr).2).measure_univ
        rw [Measure.smul_apply, this, smul_eq_mul, mul_one]
      rw [Finset.sum_congr rfl this, ← ENNReal.ofReal_sum_of_nonneg fun k _ => hw k]
      have hsum : ∀ l : List ℝ, ∑ k ∈ Finset.range l.length, l.getD k 0 = l.sum := by
        intro l
        induction l with
        | nil => rfl
        | cons a l ih =>
          rw [List.length_cons, Finset.sum_range_succ', List.sum_cons, ← ih]
          simp only [List.getD_cons_succ, List.getD_cons_zero]
          ring
      rw [← h2, hsum, h4, ENNReal.ofReal_one]
    refine ⟨⟨htot⟩, ?_⟩
    rw [hdens, withDensity_apply _ MeasurableSet.univ, setLIntegral_univ] at htot
    exact htot

/-- **C84, failures.** `sample` raises a `ValueError` exactly if the mixture is empty, there are not as many weights as means, a
weight is negative or the weights do not sum to one (such as an intensity, whose weights sum to the expected number of
objects). -/
theorem C84_sample_fails {n : ℕ} (D : Vec n → Mat n → Measure (Vec n)) (ms : List (Vec n)) (ss : List (Mat n)) (ws : List ℝ)
    (h1 : ss.length = ms.length) : mixSample D ms ss ws = .error .value ↔
      ms = [] ∨ ws.length ≠ ms.length ∨ (∃ w ∈ ws, w < 0) ∨ ws.sum ≠ 1 := by
  constructor
  · intro h
    by_contra hc
    push Not at hc
    obtain ⟨_, c2, c3, c4⟩ := hc
    rw [mixSample_ok D ms ss ws (by omega) c2 c3 c4] at h
    exact (nomatch h)
  · intro h
    have : choice ms.length ws = .error .value := by
      unfold choice
      rw [if_pos]
      rwa [List.length_eq_zero_iff]
    unfold mixSample
    rw [this]
    rfl

/-- **C84, for the two classes.** The samples of a Gaussian mixture follow its `pdf`, and those of a Student's t mixture its own
(with the degrees of freedom of the mixture), if the lists have the same length and the weights are non-negative with sum
one; the hypotheses on `D`, `T` are that `scipy` draws from the densities it computes. -/
theorem C84_classes {n : ℕ} (D : Vec n → Mat n → Measure (Vec n)) (f : Vec n → Mat n → Vec n → ℝ)
    (T : ℝ → Vec n → Mat n → Measure (Vec n)) (F : ℝ → Vec n → Mat n → Vec n → ℝ) (g : GMix n) (t : TMix n)
    (hD : ∀ m s, Measurable (f m s) ∧ (∀ x, 0 ≤ f m s x) ∧ D m s = volume.withDensity fun x => ENNReal.ofReal (f m s x))
    (hT : ∀ ν m s, Measurable (F ν m s) ∧ (∀ x, 0 ≤ F ν m s x) ∧
      T ν m s = volume.withDensity fun x => ENNReal.ofReal (F ν m s x)) :
    (g.covs.length = g.means.length → g.weights.length = g.means.length → (∀ w ∈ g.weights, 0 ≤ w) → g.weights.sum = 1 →
      g.sample D = .ok (volume.withDensity fun x => ENNReal.ofReal (g.pdf f x))) ∧
    (t.scalings.length = t.means.length → t.weights.length = t.means.length → (∀ w ∈ t.weights, 0 ≤ w) → t.weights.sum = 1 →
      t.sample T = .ok (volume.withDensity fun x => ENNReal.ofReal (t.pdf F x))) := by
  constructor
  · intro h1 h2 h3 h4
    obtain ⟨μ, e1, _, e2, _⟩ := C84_sample D f g.means g.covs g.weights h1 h2 h3 h4 fun _ m s _ _ => hD m s
    unfold GMix.sample GMix.pdf
    rw [e1, e2]
  · intro h1 h2 h3 h4
    obtain ⟨μ, e1, _, e2, _⟩ := C84_sample (T t.dof) (F t.dof) t.means t.scalings t.weights h1 h2 h3 h4 fun _ m s _ _ =>
      hT t.dof m s
    unfold TMix.sample TMix.pdf
    rw [e1, e2]

/-- The hypotheses of `C84_sample` are met: two uniform distributions on unit cubes, with weights 1/4 and 3/4. -/
example : ∃ (D : Vec 2 → Mat 2 → Measure (Vec 2)) (f : Vec 2 → Mat 2 → Vec 2 → ℝ), (∀ m s, Measurable (f m s) ∧ (∀ x, 0 ≤ f m s x) ∧
    D m s = volume.withDensity fun x => ENNReal.ofReal (f m s x)) ∧ (∀ m s, IsProbabilityMeasure (D m s)) ∧
    ([1 / 4, 3 / 4] : List ℝ).sum = 1 := by
  have hm : ∀ m : Vec 2, MeasurableSet (Set.Icc m (m + 1)) := fun m => measurableSet_Icc
  refine ⟨fun m _ => volume.restrict (Set.Icc m (m + 1)), fun m _ => (Set.Icc m (m + 1)).indicator fun _ => 1, ?_, ?_, by norm_num⟩
  · intro m _
    refine ⟨measurable_const.indicator (hm m), fun x => Set.indicator_nonneg (fun _ _ => zero_le_one) x, ?_⟩
    have : (fun x => ENNReal.ofReal ((Set.Icc m (m + 1)).indicator (fun _ => (1 : ℝ)) x)) = (Set.Icc m (m + 1)).indicator 1 := by
      funext x
      by_cases h : x ∈ Set.Icc m (m + 1)
      · rw [Set.indicator_of_mem h, Set.indicator_of_mem h]; simp
      · rw [Set.indicator_of_notMem h, Set.indicator_of_notMem h]; simp
    rw [this, withDensity_indicator_one (hm m)]
  · intro m _
    refine ⟨?_⟩
    rw [Measure.restrict_apply_univ, Real.volume_Icc_pi]
    simp

/-- There are scaling matrices as in `C49_covariances` and directions as in `C49_no_covariance`. -/
example : (1 : Mat 2).PosSemidef ∧ ∃ v : EuclideanSpace ℝ (Fin 2), 0 < v ⬝ᵥ (1 : Mat 2) *ᵥ v := by
  refine ⟨PosSemidef.one, EuclideanSpace.single 0 1, ?_⟩
  rw [one_mulVec]
  simp [dotProduct]

end Gasur.Props
