import Mathlib.Probability.Independence.InfinitePi
import Mathlib.MeasureTheory.Measure.Real

/-! A recursion driven by independent random inputs: the law of the result is a product of transition matrices. -/

namespace Gasur.RandomRun

open MeasureTheory ProbabilityTheory

variable {ι E A ε : Type*} [MeasurableSpace E] [Fintype A] [DecidableEq A]

/-- Steps `g` driven by the inputs `ω v`, for the indices `v` of a list. -/
def run (g : ι → A → E → Except ε A) (ω : ι → E) : List ι → A → Except ε A
  | [], a => .ok a
  | v :: vs, a =>
    match g v a (ω v) with
    | .error e => .error e
    | .ok c => run g ω vs c

theorem run_cons_eq (g : ι → A → E → Except ε A) (v : ι) (vs : List ι) (a b : A) :
    {ω : ι → E | run g ω (v :: vs) a = .ok b} =
      ⋃ c : A, {ω | g v a (ω v) = .ok c} ∩ {ω | run g ω vs c = .ok b} := by
  ext ω
  simp only [Set.mem_setOf_eq, Set.mem_iUnion, Set.mem_inter_iff, run]
  constructor
  · intro h
    split at h
    · simp at h
    · rename_i c hc
      exact ⟨c, hc, h⟩
  · rintro ⟨c, hc, h⟩
    rw [hc]
    exact h

/-- The information in the inputs with indices in `S`. -/
def sig (E : Type*) [m : MeasurableSpace E] (S : Set ι) : MeasurableSpace (ι → E) :=
  ⨆ i ∈ S, m.comap fun ω : ι → E => ω i

theorem sig_meas {S : Set ι} {v : ι} (hv : v ∈ S) {s : Set E} (hs : MeasurableSet s) :
    MeasurableSet[sig E S] {ω : ι → E | ω v ∈ s} := by
  have hle : (inferInstance : MeasurableSpace E).comap (fun ω : ι → E => ω v) ≤ sig E S :=
    le_iSup₂ (f := fun i (_ : i ∈ S) => (inferInstance : MeasurableSpace E).comap fun ω : ι → E => ω i) v hv
  exact hle _ ⟨s, hs, rfl⟩

theorem run_meas {g : ι → A → E → Except ε A} (hg : ∀ v a c, MeasurableSet {e | g v a e = .ok c}) {S : Set ι} :
    ∀ (vs : List ι), (∀ v ∈ vs, v ∈ S) → ∀ a b, MeasurableSet[sig E S] {ω : ι → E | run g ω vs a = .ok b}
  | [], _, a, b => by
    by_cases h : a = b
    · have : {ω : ι → E | run g ω [] a = .ok b} = Set.univ := by
        ext ω; simp [run, h]
      rw [this]; exact @MeasurableSet.univ _ (sig E S)
    · have : {ω : ι → E | run g ω [] a = .ok b} = ∅ := by
        ext ω; simp [run, h]
      rw [this]; exact @MeasurableSet.empty _ (sig E S)
  | v :: vs, hS, a, b => by
    rw [run_cons_eq]
    refine @MeasurableSet.iUnion _ _ (sig E S) _ _ fun c => ?_
    refine @MeasurableSet.inter _ (sig E S) _ _ (sig_meas (hS v List.mem_cons_self) (hg v a c)) ?_
    exact run_meas hg vs (fun x hx => hS x (List.mem_cons_of_mem _ hx)) c b

theorem sig_le (S : Set ι) : sig E S ≤ (inferInstance : MeasurableSpace (ι → E)) := by
  refine iSup₂_le fun i _ => ?_
  exact (measurable_pi_apply i).comap_le

theorem run_meas' {g : ι → A → E → Except ε A} (hg : ∀ v a c, MeasurableSet {e | g v a e = .ok c}) (vs : List ι)
    (a b : A) : MeasurableSet {ω : ι → E | run g ω vs a = .ok b} :=
  sig_le Set.univ _ (run_meas hg vs (fun _ _ => Set.mem_univ _) a b)

variable {μ : Measure (ι → E)} [IsProbabilityMeasure μ]

/-- One step, then the rest. -/
theorem run_cons_law (hind : iIndepFun (fun (i : ι) (ω : ι → E) => ω i) μ) {g : ι → A → E → Except ε A}
    (hg : ∀ v a c, MeasurableSet {e | g v a e = .ok c}) {v : ι} {vs : List ι} (hv : v ∉ vs) (a b : A) :
    μ.real {ω | run g ω (v :: vs) a = .ok b} =
      ∑ c, μ.real {ω | g v a (ω v) = .ok c} * μ.real {ω | run g ω vs c = .ok b} := by
  rw [run_cons_eq, measureReal_iUnion_fintype]
  · refine Finset.sum_congr rfl fun c _ => ?_
    have hI : Indep (sig E ({v} : Set ι)) (sig E {x | x ∈ vs}) μ := by
      refine indep_iSup_of_disjoint (fun i => (measurable_pi_apply i).comap_le) ?_ ?_
      · exact (iIndepFun_iff_iIndep _ _ _).1 hind
      · rw [Set.disjoint_singleton_left]
        exact hv
    have h1 := (Indep_iff _ _ μ).1 hI {ω | g v a (ω v) = .ok c} {ω | run g ω vs c = .ok b}
      (sig_meas (Set.mem_singleton v) (hg v a c)) (run_meas hg vs (fun _ h => h) c b)
    simp only [measureReal_def]
    rw [h1, ENNReal.toReal_mul]
  · intro c c' hcc
    refine Set.disjoint_left.2 ?_
    rintro ω ⟨h1, _⟩ ⟨h2, _⟩
    simp only [Set.mem_setOf_eq] at h1 h2
    rw [h1] at h2
    exact hcc (by simpa using h2)
  · intro c
    exact ((measurable_pi_apply v) (hg v a c)).inter (run_meas' hg vs c b)

end Gasur.RandomRun
