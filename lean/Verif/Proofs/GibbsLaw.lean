import Verif.Spec.Gibbs
import Verif.Proofs.RandomRun
import Verif.Props.Gibbs
import Mathlib.MeasureTheory.Constructions.BorelSpace.Order

/-! The law of one iteration of the Gibbs sampler. -/

set_option linter.unusedSectionVars false

namespace Gasur.Gibbs

open MeasureTheory ProbabilityTheory Gasur.Spec Gasur.RandomRun

variable {N M : ℕ}

/-- `exp (-x)`. -/
noncomputable abbrev eN : ℝ → ℝ := fun x => Real.exp (-x)

theorem eN_pos (x : ℝ) : 0 < eN x := Real.exp_pos _

theorem digitize_measurable (bins : List ℝ) : Measurable fun u : ℝ => digitize u bins := by
  induction bins with
  | nil => exact measurable_const
  | cons b l ih =>
    have : (fun u : ℝ => digitize u (b :: l)) = fun u => (if b ≤ u then 1 else 0) + digitize u l := by
      funext u
      unfold digitize
      rw [List.filter_cons]
      by_cases h : b ≤ u
      · simp [h, add_comm]
      · simp [h]
    rw [this]
    refine Measurable.add ?_ ih
    exact Measurable.ite measurableSet_Ici measurable_const measurable_const

theorem newCol_measurable (w : Fin M → ℝ) (j : Fin M) : MeasurableSet {u : ℝ | newCol w u = .ok j} := by
  have h := digitize_measurable (hist ((candidates w).map w))
  have : {u : ℝ | newCol w u = .ok j} = (fun u : ℝ => digitize u (hist ((candidates w).map w))) ⁻¹'
      {k | (if candidates w = [] then (if h : 0 < M then .ok ⟨0, h⟩ else .error .index)
        else match (candidates w)[k - 1]? with
          | some j => .ok j
          | none => .error .index : Except GibErr (Fin M)) = .ok j} := by
    ext u
    rfl
  rw [this]
  exact h (MeasurableSet.of_discrete)

/-- The probability of a column. -/
theorem newCol_prob (w : Fin M → ℝ) (hw : ∀ j, 0 ≤ w j) (hne : ∃ j, 0 < w j) (j : Fin M) :
    unif.real {u : ℝ | newCol w u = .ok j} = w j / ∑ i, w i := by
  unfold unif
  rw [measureReal_restrict_apply (newCol_measurable w j)]
  rcases (hw j).lt_or_eq with hj | hj
  · obtain ⟨lo, h0, h1, h2⟩ := Props.C52_draw w hw j hj
    have hpos : 0 ≤ w j / ∑ i, w i := div_nonneg (hw j) (Finset.sum_nonneg fun i _ => hw i)
    have : {u : ℝ | newCol w u = .ok j} ∩ Set.Ico 0 1 = Set.Ico lo (lo + w j / ∑ i, w i) := by
      ext u
      simp only [Set.mem_inter_iff, Set.mem_setOf_eq, Set.mem_Ico]
      constructor
      · rintro ⟨a, b, c⟩
        exact (h2 u b c).1 a
      · rintro ⟨a, b⟩
        have b1 : 0 ≤ u := h0.trans a
        have b2 : u < 1 := b.trans_le h1
        exact ⟨(h2 u b1 b2).2 ⟨a, b⟩, b1, b2⟩
    rw [this, Real.volume_real_Ico_of_le (by linarith)]
    ring
  · rw [← hj, zero_div]
    have : {u : ℝ | newCol w u = .ok j} ∩ Set.Ico 0 1 = ∅ := by
      ext u
      simp only [Set.mem_inter_iff, Set.mem_setOf_eq, Set.mem_Ico, Set.mem_empty_iff_false, iff_false]
      rintro ⟨a, b, c⟩
      obtain ⟨j', h1, h2⟩ := newCol_ok b c hne
      rw [a] at h1
      simp only [Except.ok.injEq] at h1
      subst h1
      rw [← hj] at h2
      exact lt_irrefl _ h2
    rw [this]
    simp

/-- The update of one row. -/
noncomputable def rowStep (costs : Fin N → Fin M → ℝ) (v : Fin N) (a : Fin N → Fin M) (u : ℝ) :
    Except GibErr (Fin N → Fin M) :=
  match newCol (weights eN costs a v) u with
  | .error e => .error e
  | .ok j => .ok (Function.update a v j)

theorem sweep_run (costs : Fin N → Fin M → ℝ) (u : Fin N → ℝ) : ∀ (vs : List (Fin N)) (a : Fin N → Fin M),
    sweep eN costs u vs a = run (rowStep costs) u vs a
  | [], _ => rfl
  | v :: vs, a => by
    rw [sweep, run, rowStep]
    cases newCol (weights eN costs a v) (u v) with
    | error e => rfl
    | ok j => exact sweep_run costs u vs _

theorem rowStep_iff (costs : Fin N → Fin M → ℝ) (v : Fin N) (a c : Fin N → Fin M) (u : ℝ) :
    rowStep costs v a u = .ok c ↔ c = Function.update a v (c v) ∧ newCol (weights eN costs a v) u = .ok (c v) := by
  unfold rowStep
  cases h : newCol (weights eN costs a v) u with
  | error e => simp
  | ok j =>
    simp only [Except.ok.injEq]
    constructor
    · rintro rfl
      simp
    · rintro ⟨h1, h2⟩
      rw [h1, h2]

theorem rowStep_measurable (costs : Fin N → Fin M → ℝ) (v : Fin N) (a c : Fin N → Fin M) :
    MeasurableSet {u : ℝ | rowStep costs v a u = .ok c} := by
  simp only [rowStep_iff]
  by_cases h : c = Function.update a v (c v)
  · have : {u : ℝ | c = Function.update a v (c v) ∧ newCol (weights eN costs a v) u = .ok (c v)} =
        {u : ℝ | newCol (weights eN costs a v) u = .ok (c v)} := by
      ext u; simp [← h]
    rw [this]
    exact newCol_measurable _ _
  · have : {u : ℝ | c = Function.update a v (c v) ∧ newCol (weights eN costs a v) u = .ok (c v)} = ∅ := by
      ext u; simp [h]
    rw [this]
    exact MeasurableSet.empty

theorem weights_nonneg (costs : Fin N → Fin M → ℝ) (a : Fin N → Fin M) (v : Fin N) (j : Fin M) :
    0 ≤ weights eN costs a v j := by
  unfold weights
  split
  · exact le_rfl
  · exact (eN_pos _).le

theorem weights_self (costs : Fin N → Fin M → ℝ) {a : Fin N → Fin M} (ha : Function.Injective a) (v : Fin N) :
    0 < weights eN costs a v (a v) := by
  unfold weights
  rw [if_neg]
  · exact eN_pos _
  · rintro ⟨i, hi, h⟩
    exact hi (ha h)

theorem rowStep_prob (costs : Fin N → Fin M → ℝ) (v : Fin N) {a : Fin N → Fin M} (ha : Function.Injective a)
    (c : Fin N → Fin M) : unif.real {u : ℝ | rowStep costs v a u = .ok c} =
      if c = Function.update a v (c v) then weights eN costs a v (c v) / ∑ j, weights eN costs a v j else 0 := by
  simp only [rowStep_iff]
  by_cases h : c = Function.update a v (c v)
  · rw [if_pos h]
    have : {u : ℝ | c = Function.update a v (c v) ∧ newCol (weights eN costs a v) u = .ok (c v)} =
        {u : ℝ | newCol (weights eN costs a v) u = .ok (c v)} := by
      ext u; simp [← h]
    rw [this]
    exact newCol_prob _ (weights_nonneg costs a v) ⟨_, weights_self costs ha v⟩ _
  · rw [if_neg h]
    have : {u : ℝ | c = Function.update a v (c v) ∧ newCol (weights eN costs a v) u = .ok (c v)} = ∅ := by
      ext u; simp [h]
    rw [this]
    simp

/-- Weight of an assignment with one row replaced. -/
theorem weight_update (costs : Fin N → Fin M → ℝ) (c : Fin N → Fin M) (v : Fin N) :
    ∃ R : ℝ, ∀ j, gibbsWeight costs (Function.update c v j) = weights eN costs c v j * R := by
  classical
  by_cases hI : Set.InjOn c {v}ᶜ
  · refine ⟨Real.exp (-∑ i ∈ Finset.univ.erase v, costs i (c i)), fun j => ?_⟩
    unfold gibbsWeight weights
    by_cases hj : ∃ i, i ≠ v ∧ c i = j
    · rw [if_neg, if_pos hj, zero_mul]
      obtain ⟨i, hi, rfl⟩ := hj
      intro hinj
      refine hi (hinj ?_)
      rw [Function.update_self, Function.update_of_ne hi]
    · rw [if_pos, if_neg hj]
      · rw [← Finset.add_sum_erase _ _ (Finset.mem_univ v), neg_add, Real.exp_add, Function.update_self]
        congr 3
        refine Finset.sum_congr rfl fun i hi => ?_
        rw [Function.update_of_ne (Finset.ne_of_mem_erase hi)]
      · intro x y hxy
        by_cases hx : x = v
        · by_cases hy : y = v
          · rw [hx, hy]
          · exfalso
            rw [hx, Function.update_self, Function.update_of_ne hy] at hxy
            exact hj ⟨y, hy, hxy.symm⟩
        · by_cases hy : y = v
          · exfalso
            rw [hy, Function.update_self, Function.update_of_ne hx] at hxy
            exact hj ⟨x, hx, hxy⟩
          · rw [Function.update_of_ne hx, Function.update_of_ne hy] at hxy
            exact hI hx hy hxy
  · refine ⟨0, fun j => ?_⟩
    unfold gibbsWeight
    rw [if_neg, mul_zero]
    intro hinj
    refine hI ?_
    intro x hx y hy hxy
    apply hinj
    rw [Function.update_of_ne hx, Function.update_of_ne hy, hxy]

theorem weights_update (costs : Fin N → Fin M → ℝ) (c : Fin N → Fin M) (v : Fin N) (j : Fin M) :
    weights eN costs (Function.update c v j) v = weights eN costs c v := by
  funext k
  unfold weights
  have : (∃ i, i ≠ v ∧ Function.update c v j i = k) ↔ ∃ i, i ≠ v ∧ c i = k := by
    constructor
    · rintro ⟨i, hi, h⟩
      rw [Function.update_of_ne hi] at h
      exact ⟨i, hi, h⟩
    · rintro ⟨i, hi, h⟩
      refine ⟨i, hi, ?_⟩
      rw [Function.update_of_ne hi]
      exact h
  simp only [this]

/-- The update of one row leaves the weights invariant. -/
theorem rowStep_stationary (costs : Fin N → Fin M → ℝ) (v : Fin N) (c : Fin N → Fin M) :
    ∑ a, gibbsWeight costs a * unif.real {u : ℝ | rowStep costs v a u = .ok c} = gibbsWeight costs c := by
  classical
  obtain ⟨R, hR⟩ := weight_update costs c v
  have hterm : ∀ a, gibbsWeight costs a * unif.real {u : ℝ | rowStep costs v a u = .ok c} =
      gibbsWeight costs a * if c = Function.update a v (c v) then
        weights eN costs a v (c v) / ∑ j, weights eN costs a v j else 0 := by
    intro a
    by_cases ha : Function.Injective a
    · rw [rowStep_prob costs v ha]
    · have : gibbsWeight costs a = 0 := by unfold gibbsWeight; rw [if_neg ha]
      rw [this, zero_mul, zero_mul]
  rw [Finset.sum_congr rfl fun a _ => hterm a]
  rw [← Finset.sum_subset (Finset.subset_univ (Finset.univ.image fun j => Function.update c v j)), Finset.sum_image]
  · have : ∀ j : Fin M, (gibbsWeight costs (Function.update c v j) *
        if c = Function.update (Function.update c v j) v (c v) then
          weights eN costs (Function.update c v j) v (c v) / ∑ k, weights eN costs (Function.update c v j) v k else 0) =
        weights eN costs c v j * (R * (weights eN costs c v (c v) / ∑ k, weights eN costs c v k)) := by
      intro j
      rw [if_pos (by simp), hR, weights_update, mul_assoc]
    rw [Finset.sum_congr rfl fun j _ => this j, ← Finset.sum_mul]
    have h1 := hR (c v)
    rw [Function.update_eq_self] at h1
    rw [h1]
    by_cases hW : ∑ k, weights eN costs c v k = 0
    · have h0 := (Finset.sum_eq_zero_iff_of_nonneg fun k _ => weights_nonneg costs c v k).1 hW (c v) (Finset.mem_univ _)
      rw [hW, h0]
      simp
    · field_simp
  · intro j _ j' _ h
    have := congrFun h v
    simpa using this
  · intro a _ ha
    rw [if_neg, mul_zero]
    intro h
    apply ha
    refine Finset.mem_image.2 ⟨a v, Finset.mem_univ _, ?_⟩
    rw [h]
    simp

theorem draws_indep (N : ℕ) : iIndepFun (fun (i : Fin N) (ω : Fin N → ℝ) => ω i) (draws N) :=
  iIndepFun_pi (X := fun _ (x : ℝ) => x) (fun _ => measurable_id.aemeasurable)

theorem draws_eval (v : Fin N) {s : Set ℝ} (hs : MeasurableSet s) :
    (draws N).real {ω | ω v ∈ s} = unif.real s := by
  unfold draws
  exact (measurePreserving_eval (fun _ : Fin N => unif) v).measureReal_preimage hs.nullMeasurableSet

/-- A pass over some rows leaves the weights invariant. -/
theorem sweep_stationary (costs : Fin N → Fin M → ℝ) : ∀ (vs : List (Fin N)), vs.Nodup → ∀ b,
    ∑ a, gibbsWeight costs a * (draws N).real {u | run (rowStep costs) u vs a = .ok b} = gibbsWeight costs b
  | [], _, b => by
    classical
    have : ∀ a : Fin N → Fin M, (draws N).real {u | run (rowStep costs) u [] a = .ok b} = if a = b then 1 else 0 := by
      intro a
      by_cases h : a = b <;> simp [run, h]
    simp only [this]
    simp
  | v :: vs, hnd, b => by
    obtain ⟨hv, hnd'⟩ := List.nodup_cons.1 hnd
    have h1 : ∀ a : Fin N → Fin M, (draws N).real {u | run (rowStep costs) u (v :: vs) a = .ok b} =
        ∑ c, unif.real {u : ℝ | rowStep costs v a u = .ok c} *
          (draws N).real {u | run (rowStep costs) u vs c = .ok b} := by
      intro a
      rw [run_cons_law (draws_indep N) (rowStep_measurable costs) hv]
      refine Finset.sum_congr rfl fun c _ => ?_
      rw [← draws_eval v (rowStep_measurable costs v a c)]
      rfl
    simp only [h1, Finset.mul_sum]
    rw [Finset.sum_comm]
    simp only [← mul_assoc, ← Finset.sum_mul, rowStep_stationary]
    exact sweep_stationary costs vs hnd' b

end Gasur.Gibbs
