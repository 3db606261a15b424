import Verif.Proofs.GibbsLaw
import Verif.Proofs.Doeblin

/-! The iterations of the Gibbs sampler as a Markov chain. -/

set_option linter.unusedSectionVars false

namespace Gasur.Gibbs

open MeasureTheory ProbabilityTheory Gasur.Spec Gasur.RandomRun Gasur.Doeblin

variable {N M : ℕ}

/-- The assignments of the rows to pairwise different columns. -/
abbrev Inj (N M : ℕ) := {a : Fin N → Fin M // Function.Injective a}

noncomputable instance : Fintype (Inj N M) := by
  classical
  exact inferInstance

theorem newCol_free {costs : Fin N → Fin M → ℝ} {a : Fin N → Fin M} (ha : Function.Injective a) {v : Fin N} {u : ℝ}
    {j : Fin M} (h : newCol (weights eN costs a v) u = .ok j) : 0 < weights eN costs a v j := by
  have hc : candidates (weights eN costs a v) ≠ [] :=
    List.ne_nil_of_mem (mem_candidates.2 (weights_self costs ha v))
  unfold newCol at h
  rw [if_neg hc] at h
  split at h
  · rename_i x hx
    simp only [Except.ok.injEq] at h
    subst h
    exact mem_candidates.1 (List.mem_of_getElem? hx)
  · simp at h

theorem update_inj {costs : Fin N → Fin M → ℝ} {a : Fin N → Fin M} (ha : Function.Injective a) {v : Fin N} {j : Fin M}
    (h : 0 < weights eN costs a v j) : Function.Injective (Function.update a v j) := by
  have hj : ¬ ∃ i, i ≠ v ∧ a i = j := by
    intro hc
    unfold weights at h
    rw [if_pos hc] at h
    exact lt_irrefl _ h
  intro x y hxy
  by_cases hx : x = v
  · by_cases hy : y = v
    · rw [hx, hy]
    · exfalso
      rw [hx, Function.update_self, Function.update_of_ne hy] at hxy
      exact hj ⟨y, hy, hxy.symm⟩
  · by_cases hy : y = v
    · exfalso
      rw [hy, Function.update_self, Function.update_of_ne hx] at hxy
      exact hj ⟨x, hx, hxy⟩
    · rw [Function.update_of_ne hx, Function.update_of_ne hy] at hxy
      exact ha hxy

theorem sweep_inj {costs : Fin N → Fin M → ℝ} {u : Fin N → ℝ} : ∀ {vs : List (Fin N)} {a b : Fin N → Fin M},
    Function.Injective a → sweep eN costs u vs a = .ok b → Function.Injective b
  | [], a, b, ha, h => by
    simp only [sweep, Except.ok.injEq] at h
    subst h
    exact ha
  | v :: vs, a, b, ha, h => by
    rw [sweep] at h
    split at h
    · simp at h
    · rename_i j hj
      exact sweep_inj (update_inj ha (newCol_free ha hj)) h

/-- One iteration. -/
noncomputable def chainStep (costs : Fin N → Fin M → ℝ) (a : Inj N M) (u : Fin N → ℝ) : Except GibErr (Inj N M) :=
  open Classical in
  match sweep eN costs u (List.finRange N) a.1 with
  | .error e => .error e
  | .ok c => if h : Function.Injective c then .ok ⟨c, h⟩ else .error .index

theorem chainStep_iff (costs : Fin N → Fin M → ℝ) (a b : Inj N M) (u : Fin N → ℝ) :
    chainStep costs a u = .ok b ↔ sweep eN costs u (List.finRange N) a.1 = .ok b.1 := by
  unfold chainStep
  cases h : sweep eN costs u (List.finRange N) a.1 with
  | error e => simp
  | ok c =>
    have hc := sweep_inj a.2 h
    simp only [dif_pos hc, Except.ok.injEq]
    exact Subtype.ext_iff

theorem sweep_measurable (costs : Fin N → Fin M → ℝ) (a b : Fin N → Fin M) :
    MeasurableSet {u | sweep eN costs u (List.finRange N) a = .ok b} := by
  simp only [sweep_run]
  exact run_meas' (rowStep_measurable costs) _ a b

theorem chainStep_measurable (costs : Fin N → Fin M → ℝ) (a b : Inj N M) :
    MeasurableSet {u | chainStep costs a u = .ok b} := by
  simp only [chainStep_iff]
  exact sweep_measurable costs a.1 b.1

/-- The transition matrix. -/
noncomputable def trans (costs : Fin N → Fin M → ℝ) (a b : Inj N M) : ℝ :=
  (draws N).real {u | sweep eN costs u (List.finRange N) a.1 = .ok b.1}

/-- The random numbers lie in `[0, 1)`. -/
theorem draws_cube (N : ℕ) : ∀ᵐ u ∂draws N, ∀ v, 0 ≤ u v ∧ u v < 1 := by
  have h : draws N (Set.univ.pi fun _ => Set.Ico 0 1) = 1 := by
    unfold draws
    rw [Measure.pi_pi]
    simp [unif]
  have := (prob_compl_eq_zero_iff (μ := draws N) (MeasurableSet.univ_pi fun _ => measurableSet_Ico)).2 h
  refine (mem_ae_iff (μ := draws N)).2 ?_
  convert this using 2
  ext u
  simp

theorem trans_sum (costs : Fin N → Fin M → ℝ) (a : Inj N M) : ∑ b, trans costs a b = 1 := by
  classical
  unfold trans
  rw [← measureReal_iUnion_fintype]
  · have : (draws N).real (⋃ b : Inj N M, {u | sweep eN costs u (List.finRange N) a.1 = .ok b.1}) =
        (draws N).real Set.univ := by
      refine measureReal_congr ?_
      filter_upwards [draws_cube N] with u hu
      obtain ⟨c, h1, h2⟩ := sweep_ok eN_pos costs hu (List.finRange N) a.1 a.2
      apply propext
      constructor
      · intro _; trivial
      · intro _
        exact Set.mem_iUnion.2 ⟨⟨c, h2⟩, h1⟩
    rw [this]
    simp
  · intro b b' hb
    refine Set.disjoint_left.2 ?_
    intro u h1 h2
    simp only [Set.mem_setOf_eq] at h1 h2
    rw [h1] at h2
    simp only [Except.ok.injEq] at h2
    exact hb (Subtype.ext h2)
  · intro b
    exact sweep_measurable costs a.1 b.1

theorem trans_nonneg (costs : Fin N → Fin M → ℝ) (a b : Inj N M) : 0 ≤ trans costs a b := measureReal_nonneg

/-- What can happen happens with positive probability. -/
theorem run_pos (costs : Fin N → Fin M → ℝ) : ∀ (vs : List (Fin N)), vs.Nodup → ∀ (a b : Fin N → Fin M),
    Function.Injective a → ∀ u : Fin N → ℝ, run (rowStep costs) u vs a = .ok b →
    0 < (draws N).real {u | run (rowStep costs) u vs a = .ok b}
  | [], _, a, b, _, u, h => by
    simp only [run, Except.ok.injEq] at h
    simp [run, h]
  | v :: vs, hnd, a, b, ha, u, h => by
    obtain ⟨hv, hnd'⟩ := List.nodup_cons.1 hnd
    rw [run_cons_law (draws_indep N) (rowStep_measurable costs) hv]
    rw [run] at h
    split at h
    · simp at h
    · rename_i c hc
      obtain ⟨h1, h2⟩ := (rowStep_iff costs v a c (u v)).1 hc
      have hw := newCol_free ha h2
      have hinj : Function.Injective c := by
        rw [h1]; exact update_inj ha hw
      refine lt_of_lt_of_le ?_ (Finset.single_le_sum (f := fun c => (draws N).real {ω | rowStep costs v a (ω v) = .ok c} *
        (draws N).real {ω | run (rowStep costs) ω vs c = .ok b}) (fun c _ => mul_nonneg measureReal_nonneg
          measureReal_nonneg) (Finset.mem_univ c))
      refine mul_pos ?_ (run_pos costs vs hnd' c b hinj u h)
      have e := draws_eval v (rowStep_measurable costs v a c)
      rw [rowStep_prob costs v ha, if_pos h1] at e
      have : (draws N).real {ω | rowStep costs v a (ω v) = .ok c} = _ := e
      rw [this]
      exact div_pos hw (Finset.sum_pos' (fun j _ => weights_nonneg costs a v j) ⟨_, Finset.mem_univ _, hw⟩)

theorem trans_pos (costs : Fin N → Fin M → ℝ) {a b : Inj N M} {u : Fin N → ℝ}
    (h : sweep eN costs u (List.finRange N) a.1 = .ok b.1) : 0 < trans costs a b := by
  unfold trans
  simp only [sweep_run] at h ⊢
  exact run_pos costs _ (List.nodup_finRange N) a.1 b.1 a.2 u h

/-- In two iterations everything can be reached. -/
theorem two_pos (costs : Fin N → Fin M → ℝ) (hM : 2 * N ≤ M) (a b : Inj N M) :
    0 < ∑ d, trans costs a d * trans costs d b := by
  classical
  -- an intermediate assignment that avoids the columns of `a` and agrees with `b` where it does
  obtain ⟨m, hm1, hm2, hm3⟩ : ∃ m : Fin N → Fin M, Function.Injective m ∧ (∀ i k, m i ≠ a.1 k) ∧
      ∀ i, (∀ k, b.1 i ≠ a.1 k) → m i = b.1 i := by
    let F := {c : Fin M // ∀ k, c ≠ a.1 k}
    have hcard : N ≤ Fintype.card F := by
      have h1 : Fintype.card F = M - N := by
        have : Fintype.card {c : Fin M // ¬ ∃ k, a.1 k = c} = M - N := by
          rw [Fintype.card_subtype_compl]
          simp only [Fintype.card_fin]
          congr 1
          have : Fintype.card {c : Fin M // ∃ k, a.1 k = c} = Fintype.card (Fin N) :=
            Fintype.card_eq.2 ⟨(Equiv.ofInjective a.1 a.2).symm⟩
          rw [this, Fintype.card_fin]
        rw [← this]
        refine Fintype.card_congr (Equiv.subtypeEquivRight ?_)
        intro c
        constructor
        · rintro h ⟨k, rfl⟩
          exact h k rfl
        · intro h k hk
          exact h ⟨k, hk.symm⟩
      omega
    let p : Fin N → Prop := fun i => ∀ k, b.1 i ≠ a.1 k
    let f : {i // p i} → F := fun i => ⟨b.1 i.1, i.2⟩
    have hf : Function.Injective f := by
      intro i j h
      have h' : b.1 i.1 = b.1 j.1 := congrArg (fun x : F => x.1) h
      exact Subtype.ext (b.2 h')
    obtain ⟨g, hg⟩ : ∃ g : {i // ¬ p i} ↪ {c : F // c ∉ Set.range f}, True := by
      have hle : Fintype.card {i // ¬ p i} ≤ Fintype.card {c : F // c ∉ Set.range f} := by
        rw [Fintype.card_subtype_compl, Fintype.card_subtype_compl]
        have e1 : Fintype.card {c : F // c ∈ Set.range f} = Fintype.card {i // p i} :=
          Fintype.card_eq.2 ⟨(Equiv.ofInjective f hf).symm⟩
        rw [e1, Fintype.card_fin]
        omega
      exact ⟨(Function.Embedding.nonempty_of_card_le hle).some, trivial⟩
    refine ⟨fun i => if h : p i then b.1 i else (g ⟨i, h⟩).1.1, ?_, ?_, ?_⟩
    · intro i j hij
      simp only at hij
      by_cases hi : p i
      · by_cases hj : p j
        · rw [dif_pos hi, dif_pos hj] at hij
          exact b.2 hij
        · exfalso
          rw [dif_pos hi, dif_neg hj] at hij
          refine (g ⟨j, hj⟩).2 ⟨⟨i, hi⟩, ?_⟩
          exact Subtype.ext hij
      · by_cases hj : p j
        · exfalso
          rw [dif_neg hi, dif_pos hj] at hij
          refine (g ⟨i, hi⟩).2 ⟨⟨j, hj⟩, ?_⟩
          exact Subtype.ext hij.symm
        · rw [dif_neg hi, dif_neg hj] at hij
          have := g.injective (Subtype.ext (Subtype.ext hij))
          simpa using this
    · intro i k
      by_cases hi : p i
      · simp only [dif_pos hi]
        exact hi k
      · simp only [dif_neg hi]
        exact (g ⟨i, hi⟩).1.2 k
    · intro i hi
      exact dif_pos hi
  obtain ⟨u1, _, hs1⟩ := Props.sweep_reach eN_pos costs a.2 hm1 (fun i j _ h => hm2 j i h.symm)
  obtain ⟨u2, _, hs2⟩ := Props.sweep_reach eN_pos costs hm1 b.2 (by
    intro i j hij h
    have hb : ∀ k, b.1 j ≠ a.1 k := by
      intro k
      rw [← h]
      exact hm2 i k
    rw [← hm3 j hb] at h
    exact hij (hm1 h))
  refine lt_of_lt_of_le ?_ (Finset.single_le_sum (f := fun d => trans costs a d * trans costs d b)
    (fun d _ => mul_nonneg (trans_nonneg _ _ _) (trans_nonneg _ _ _)) (Finset.mem_univ (⟨m, hm1⟩ : Inj N M)))
  exact mul_pos (trans_pos costs (b := ⟨m, hm1⟩) hs1) (trans_pos costs (a := ⟨m, hm1⟩) hs2)

/-! ### All iterations -/

theorem allDraws_indep (N : ℕ) : iIndepFun (fun (i : ℕ) (ω : ℕ → Fin N → ℝ) => ω i) (allDraws N) :=
  iIndepFun_infinitePi (X := fun _ (x : Fin N → ℝ) => x) (fun _ => measurable_id)

theorem allDraws_eval (s : ℕ) {A : Set (Fin N → ℝ)} (hA : MeasurableSet A) :
    (allDraws N).real {ω | ω s ∈ A} = (draws N).real A := by
  unfold allDraws
  exact (measurePreserving_eval_infinitePi (fun _ : ℕ => draws N) s).measureReal_preimage hA.nullMeasurableSet

theorem allDraws_cube (N : ℕ) : ∀ᵐ u ∂allDraws N, ∀ s v, 0 ≤ u s v ∧ u s v < 1 := by
  rw [ae_all_iff]
  intro s
  exact (measurePreserving_eval_infinitePi (fun _ : ℕ => draws N) s).quasiMeasurePreserving.ae (draws_cube N)

/-- The law of a chain driven by the draws. -/
theorem chain_law {g : Inj N M → (Fin N → ℝ) → Except GibErr (Inj N M)}
    (hg : ∀ a b, MeasurableSet {u | g a u = .ok b}) (b : Inj N M) : ∀ (n sol : ℕ) (a : Inj N M),
    (allDraws N).real {ω | run (fun _ => g) ω (List.range' sol n) a = .ok b} =
      open Classical in pw (fun a c => (draws N).real {u | g a u = .ok c}) n a b
  | 0, sol, a => by
    classical
    by_cases h : a = b <;> simp [run, pw, h]
  | n + 1, sol, a => by
    classical
    rw [List.range'_succ, run_cons_law (allDraws_indep N) (fun _ => hg) (by simp)]
    rw [pw]
    refine Finset.sum_congr rfl fun c _ => ?_
    rw [chain_law hg b n (sol + 1) c]
    congr 1
    exact allDraws_eval sol (hg a c)

/-- The iterations follow the chain. -/
theorem iter_run (costs : Fin N → Fin M → ℝ) (u : ℕ → Fin N → ℝ) : ∀ (n sol : ℕ) (a b : Inj N M),
    (∃ l, iter eN costs u n sol a.1 = .ok l ∧ (a.1 :: l).getLast? = some b.1) ↔
      run (fun _ => chainStep costs) u (List.range' sol n) a = .ok b
  | 0, sol, a, b => by
    simp only [iter, Except.ok.injEq, exists_eq_left', List.range'_zero, run]
    simp [Subtype.ext_iff]
  | n + 1, sol, a, b => by
    rw [List.range'_succ, run]
    simp only [iter]
    cases h : sweep eN costs (u sol) (List.finRange N) a.1 with
    | error e =>
      have : chainStep costs a (u sol) = .error e := by
        unfold chainStep
        rw [h]
      rw [this]
      simp
    | ok c =>
      have hc : chainStep costs a (u sol) = .ok ⟨c, sweep_inj a.2 h⟩ := (chainStep_iff _ _ _ _).2 h
      rw [hc]
      simp only
      rw [← iter_run costs u n (sol + 1) ⟨c, sweep_inj a.2 h⟩ b]
      cases iter eN costs u n (sol + 1) c with
      | error e => simp
      | ok l => simp [List.getLast?_cons_cons]

/-- The chain that stops with an error in `t`. -/
noncomputable def killStep (costs : Fin N → Fin M → ℝ) (t : Inj N M) (a : Inj N M) (u : Fin N → ℝ) :
    Except GibErr (Inj N M) :=
  open Classical in
  match chainStep costs a u with
  | .error e => .error e
  | .ok c => if c = t then .error .index else .ok c

theorem killStep_iff (costs : Fin N → Fin M → ℝ) (t a b : Inj N M) (u : Fin N → ℝ) :
    killStep costs t a u = .ok b ↔ b ≠ t ∧ chainStep costs a u = .ok b := by
  unfold killStep
  cases chainStep costs a u with
  | error e => simp
  | ok c =>
    simp only [Except.ok.injEq]
    by_cases h : c = t
    · rw [if_pos h]
      simp only [reduceCtorEq, false_iff, not_and]
      rintro h1 rfl
      exact h1 h
    · rw [if_neg h]
      simp only [Except.ok.injEq]
      constructor
      · rintro rfl; exact ⟨h, rfl⟩
      · rintro ⟨_, rfl⟩; rfl

theorem killStep_measurable (costs : Fin N → Fin M → ℝ) (t a b : Inj N M) :
    MeasurableSet {u | killStep costs t a u = .ok b} := by
  simp only [killStep_iff]
  by_cases h : b = t
  · simp [h]
  · simp only [ne_eq, h, not_false_eq_true, true_and]
    exact chainStep_measurable costs a b

theorem killStep_prob (costs : Fin N → Fin M → ℝ) (t : Inj N M) :
    (fun a c => (draws N).real {u | killStep costs t a u = .ok c}) =
      open Classical in avoid (trans costs) t := by
  funext a c
  unfold avoid trans
  simp only [killStep_iff]
  by_cases h : c = t
  · simp [h]
  · simp only [ne_eq, h, not_false_eq_true, true_and, if_false, chainStep_iff]

/-- A run that avoids `t`. -/
theorem avoid_run (costs : Fin N → Fin M → ℝ) (t : Inj N M) (u : ℕ → Fin N → ℝ) : ∀ (n sol : ℕ) (a : Inj N M)
    (l : List (Fin N → Fin M)), iter eN costs u n sol a.1 = .ok l → t.1 ∉ l →
      ∃ b, run (fun _ => killStep costs t) u (List.range' sol n) a = .ok b
  | 0, sol, a, l, _, _ => ⟨a, rfl⟩
  | n + 1, sol, a, l, h, ht => by
    rw [List.range'_succ]
    simp only [iter] at h
    split at h
    · simp at h
    · rename_i c hc
      split at h
      · simp at h
      · rename_i l' hl'
        simp only [Except.ok.injEq] at h
        subst h
        simp only [List.mem_cons, not_or] at ht
        have hk : killStep costs t a (u sol) = .ok ⟨c, sweep_inj a.2 hc⟩ := by
          rw [killStep_iff]
          refine ⟨?_, (chainStep_iff _ _ _ _).2 hc⟩
          intro he
          exact ht.1 (by rw [← he])
        rw [run, hk]
        exact avoid_run costs t u n (sol + 1) ⟨c, _⟩ l' hl' ht.2

end Gasur.Gibbs
