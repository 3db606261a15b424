import Verif.Proofs.Density
import Mathlib.Data.Real.StarOrdered

/-!
# Properties C44 (first part), C45, C46, C47, C69, C70, C71: density based guidance
-/

namespace Gasur.Props

open Matrix Gasur.Spec Gasur.Guidance

/-! ### C44 -/

/-- **C44, `DensityBased`.** For all arguments: the constructor raises `ValueError` exactly if the reference point is at
least one, and otherwise keeps the arguments (defaults: no targets, safety factor 1, reference point 0.9). -/
theorem C44_density {n : ℕ} (w : Option (List (Comp n))) (s y : Option ℝ) :
    ((∃ v, y = some v ∧ 1 ≤ v) → Density.init w s y = .error .value) ∧
    ((∀ v, y = some v → v < 1) → Density.init w s y = .ok ⟨w.getD [], s.getD 1, y.getD (9 / 10)⟩) := by
  unfold Density.init
  constructor
  · rintro ⟨v, rfl, hv⟩
    rw [if_pos (by simpa using hv)]
  · intro h
    rw [if_neg]
    rw [not_le]
    cases y with
    | none => norm_num
    | some v => exact h v rfl

/-! ### C47 -/

theorem targetCenter_perm {n : ℕ} {a b : List (Comp n)} (h : a.Perm b) : targetCenter a = targetCenter b := by
  have key : ∀ l : List (Comp n), l ≠ [] →
      targetCenter l = .ok fun i => (l.map fun t => t.mean i).sum / (l.length : ℝ) := by
    intro l hl
    obtain ⟨x, xs, rfl⟩ := List.exists_cons_of_ne_nil hl
    rfl
  by_cases ha : a = []
  · subst ha; rw [h.symm.eq_nil]
  · have hb : b ≠ [] := fun hb => ha (by subst hb; exact h.eq_nil)
    rw [key a ha, key b hb]
    congr 1
    funext i
    rw [(h.map _).sum_eq, h.length_eq]

/-- **C47.** The cost does not depend on the order of the objects or on the order of the targets: for all lists of
objects and targets and all permutations of both, the result (or the exception) is the same. -/
theorem C47_order {n : ℕ} (d d' : Density n) (objs objs' : List (Comp n)) (ho : objs.Perm objs')
    (ht : d.targets.Perm d'.targets) (hs : d.safety = d'.safety) (hy : d.yRef = d'.yRef) :
    densityCost d objs = densityCost d' objs' := by
  unfold densityCost
  rw [targetCenter_perm ht, hs, hy, maxVar_perm (ho.map Comp.cov), maxVar_perm (ht.map Comp.cov), pairSum_perm ho ho,
    pairSum_perm ho ht, pairSum_perm ht ht, quadSum_perm ho ht, ho.length_eq, ht.length_eq]
  cases targetCenter d'.targets with
  | error e => rfl
  | ok c =>
    show (if d'.yRef = 0 then _ else _) = (if d'.yRef = 0 then _ else _)
    rw [maxDist_perm (ht.map fun t => Guidance.dist t.mean c), maxDist_perm (ho.map fun o => Guidance.dist c o.mean)]

/-! ### C69 -/

/-- The center as a vector. -/
noncomputable def centerOf {n : ℕ} (ts : List (Comp n)) : Vec n := fun i => (ts.map fun t => t.mean i).sum / ts.length

theorem targetCenter_ok {n : ℕ} {ts : List (Comp n)} (h : ts ≠ []) : targetCenter ts = .ok (centerOf ts) := by
  obtain ⟨x, xs, rfl⟩ := List.exists_cons_of_ne_nil h
  rfl

theorem maxDist_furthest {n : ℕ} (ts : List (Comp n)) (c : Vec n) (h : ts ≠ []) :
    Furthest ts c (maxDist (ts.map fun t => Guidance.dist t.mean c)) := by
  have := maxDist_spec (ds := ts.map fun t => Guidance.dist t.mean c) (by
    intro d hd
    obtain ⟨t, _, rfl⟩ := List.mem_map.1 hd
    exact Guidance.dist_nonneg _ _) (by simpa using h)
  unfold Furthest
  have e : {r | ∃ t ∈ ts, r = Real.sqrt (∑ i, (t.mean i - c i) ^ 2)} =
      {x | x ∈ ts.map fun t => Guidance.dist t.mean c} := by
    ext r
    simp only [Set.mem_setOf_eq, List.mem_map, Guidance.dist_eq, eq_comm]
  rw [e]
  exact this

/-- The cost as a value. -/
theorem densityCost_ok {n : ℕ} (hn : 0 < n) (d : Density n) (objs : List (Comp n)) (ho : objs ≠ []) (ht : d.targets ≠ [])
    (hoc : ∀ o ∈ objs, o.cov.PosDef) (htc : ∀ t ∈ d.targets, t.cov.PosDef) (hy : 0 < d.yRef) :
    ∃ vo vt, LargestVar objs vo ∧ LargestVar d.targets vt ∧ densityCost d objs = .ok (docCost 2 vo vt
      (activator (d.safety * maxDist (d.targets.map fun t => Guidance.dist t.mean (centerOf d.targets))) d.yRef
        (maxDist (objs.map fun o => Guidance.dist (centerOf d.targets) o.mean))) objs d.targets) := by
  obtain ⟨vo, eo, go⟩ := maxVar_ok hn objs ho
  obtain ⟨vt, et, gt⟩ := maxVar_ok hn d.targets ht
  refine ⟨vo, vt, go, gt, ?_⟩
  unfold densityCost
  rw [targetCenter_ok ht, eo, et, pairSum_ok objs objs fun a ha b hb => (hoc a ha).add (hoc b hb),
    pairSum_ok objs d.targets fun a ha b hb => (hoc a ha).add (htc b hb),
    pairSum_ok d.targets d.targets fun a ha b hb => (htc a ha).add (htc b hb), quadSum_eq]
  show (if d.yRef = 0 then _ else _) = _
  rw [if_neg hy.ne']
  show (if d.yRef < 0 then _ else _) = _
  rw [if_neg (not_lt.2 hy.le)]
  unfold docCost
  rw [doubleSum_congr objs objs _ (fun a b => normalDensity a.mean b.mean (a.cov + b.cov))
      fun a ha b hb => gauss_eq _ _ _ ((hoc a ha).add (hoc b hb)),
    doubleSum_congr objs d.targets (fun a b => gauss (a.cov + b.cov) (a.mean - b.mean))
      (fun a b => normalDensity a.mean b.mean (a.cov + b.cov))
      fun a ha b hb => gauss_eq _ _ _ ((hoc a ha).add (htc b hb)),
    doubleSum_congr d.targets d.targets _ (fun a b => normalDensity a.mean b.mean (a.cov + b.cov))
      fun a ha b hb => gauss_eq _ _ _ ((htc a ha).add (htc b hb)),
    doubleSum_congr objs d.targets (fun a b => logTerm (a.cov + b.cov) (a.mean - b.mean))
      (fun a b => Real.log (normalDensity a.mean b.mean (a.cov + b.cov)))
      fun a ha b hb => logTerm_eq _ _ _ ((hoc a ha).add (htc b hb))]

theorem activator_mem (r y d : ℝ) : 0 < activator r y d ∧ activator r y d < 1 := by
  unfold activator
  have := Real.exp_pos (-(d - (r + Real.log (1 / y - 1))))
  refine ⟨by positivity, ?_⟩
  rw [div_lt_one (by linarith)]
  linarith

theorem activator_ref (r y : ℝ) (h0 : 0 < y) (h1 : y < 1) : activator r y r = y := by
  unfold activator
  have : 0 < 1 / y - 1 := by
    rw [sub_pos, lt_div_iff₀ h0]; linarith
  rw [show -(r - (r + Real.log (1 / y - 1))) = Real.log (1 / y - 1) by ring, Real.exp_log this]
  rw [show 1 + (1 / y - 1) = 1 / y by ring, one_div_one_div]

theorem activator_mono (r y : ℝ) {d d' : ℝ} (h : d ≤ d') : activator r y d ≤ activator r y d' := by
  unfold activator
  have h1 := Real.exp_pos (-(d - (r + Real.log (1 / y - 1))))
  have h2 := Real.exp_pos (-(d' - (r + Real.log (1 / y - 1))))
  apply one_div_le_one_div_of_le (by linarith)
  have := Real.exp_le_exp.2 (show -(d' - (r + Real.log (1 / y - 1))) ≤ -(d - (r + Real.log (1 / y - 1))) by linarith)
  linarith

/-- **C69, partial.** For all nonempty lists of objects and targets with positive definite covariances and every
reference point strictly between 0 and 1, the cost is computed without failure and is the documented formula with the
factor 2 in place of the documented 20; the weight `α` of the last term is a function `φ` of the distance of the
furthest object from the centre of the targets that lies strictly between 0 and 1, does not decrease, and takes the
reference value at the radius of influence (safety factor times the distance of the furthest target).
*Missing:* the documented factor (`C69_refuted`). -/
theorem C69_formula_partial {n : ℕ} (hn : 0 < n) (d : Density n) (ht : d.targets ≠ [])
    (htc : ∀ t ∈ d.targets, t.cov.PosDef) (hy0 : 0 < d.yRef) (hy1 : d.yRef < 1) :
    ∃ (φ : ℝ → ℝ) (R : ℝ), Furthest d.targets (centerOf d.targets) R ∧ (∀ x, 0 < φ x ∧ φ x < 1) ∧ Monotone φ ∧
      φ (d.safety * R) = d.yRef ∧
      ∀ objs : List (Comp n), objs ≠ [] → (∀ o ∈ objs, o.cov.PosDef) →
        ∃ vo vt D, LargestVar objs vo ∧ LargestVar d.targets vt ∧ Furthest objs (centerOf d.targets) D ∧
          densityCost d objs = .ok (docCost 2 vo vt (φ D) objs d.targets) := by
  refine ⟨activator (d.safety * maxDist (d.targets.map fun t => Guidance.dist t.mean (centerOf d.targets))) d.yRef, _,
    maxDist_furthest _ _ ht, activator_mem _ _, fun _ _ => activator_mono _ _, activator_ref _ _ hy0 hy1, ?_⟩
  intro objs ho hoc
  obtain ⟨vo, vt, h1, h2, h3⟩ := densityCost_ok hn d objs ho ht hoc htc hy0
  refine ⟨vo, vt, _, h1, h2, maxDist_furthest objs _ ho, ?_⟩
  rw [h3]
  have : (objs.map fun o => Guidance.dist (centerOf d.targets) o.mean) =
      objs.map fun o => Guidance.dist o.mean (centerOf d.targets) :=
    List.map_congr_left fun o _ => Guidance.dist_comm _ _
  rw [this]

theorem largestVar_pos {n : ℕ} {cs : List (Comp n)} {v : ℝ} (h : LargestVar cs v) (hp : ∀ c ∈ cs, c.cov.PosDef) : 0 < v := by
  obtain ⟨⟨c, hc, i, rfl⟩, _⟩ := h
  exact (hp c hc).diag_pos

theorem doubleSum_pos {n : ℕ} {as bs : List (Comp n)} (f : Comp n → Comp n → ℝ) (ha : as ≠ []) (hb : bs ≠ [])
    (hwa : ∀ a ∈ as, 0 < a.weight) (hwb : ∀ b ∈ bs, 0 < b.weight) (hf : ∀ a ∈ as, ∀ b ∈ bs, 0 < f a b) :
    0 < doubleSum as bs f := by
  unfold doubleSum
  refine List.sum_pos _ ?_ (by simpa using ha)
  intro x hx
  obtain ⟨a, ha', rfl⟩ := List.mem_map.1 hx
  refine List.sum_pos _ ?_ (by simpa using hb)
  intro y hy
  obtain ⟨b, hb', rfl⟩ := List.mem_map.1 hy
  have := hwa a ha'
  have := hwb b hb'
  have := hf a ha' b hb'
  positivity

/-- **C69 is false of this code**, for every input: with positive weights and positive definite covariances the cost is
never the value of the documented formula (factor 20), taken with the weight that the code uses for the last term (the
logistic function of the distance `D` of the furthest object, with the value `yRef` at the radius of influence
`safety * R`); the code's value is larger, and is the one of the formula with factor 2. -/
theorem C69_refuted {n : ℕ} (hn : 0 < n) (d : Density n) (objs : List (Comp n)) (ho : objs ≠ []) (ht : d.targets ≠ [])
    (hoc : ∀ o ∈ objs, o.cov.PosDef) (htc : ∀ t ∈ d.targets, t.cov.PosDef) (hy : 0 < d.yRef)
    (hwo : ∀ o ∈ objs, 0 < o.weight) (hwt : ∀ t ∈ d.targets, 0 < t.weight) :
    ∃ vo vt R D J, LargestVar objs vo ∧ LargestVar d.targets vt ∧ Furthest d.targets (centerOf d.targets) R ∧
      Furthest objs (centerOf d.targets) D ∧ densityCost d objs = .ok J ∧
      J = docCost 2 vo vt (1 / (1 + Real.exp (-(D - (d.safety * R + Real.log (1 / d.yRef - 1)))))) objs d.targets ∧
      docCost 20 vo vt (1 / (1 + Real.exp (-(D - (d.safety * R + Real.log (1 / d.yRef - 1)))))) objs d.targets < J := by
  obtain ⟨vo, vt, h1, h2, h3⟩ := densityCost_ok hn d objs ho ht hoc htc hy
  have hcomm : (objs.map fun o => Guidance.dist (centerOf d.targets) o.mean) =
      objs.map fun o => Guidance.dist o.mean (centerOf d.targets) :=
    List.map_congr_left fun o _ => Guidance.dist_comm _ _
  rw [hcomm] at h3
  refine ⟨vo, vt, _, _, _, h1, h2, maxDist_furthest _ _ ht, maxDist_furthest objs _ ho, h3, rfl, ?_⟩
  have p1 := largestVar_pos h1 hoc
  have p2 := largestVar_pos h2 htc
  have p3 : 0 < doubleSum objs d.targets (fun a b => normalDensity a.mean b.mean (a.cov + b.cov)) :=
    doubleSum_pos _ ho ht hwo hwt fun a ha b hb => normalDensity_pos _ _ _ ((hoc a ha).add (htc b hb))
  have p4 : (0 : ℝ) < objs.length := by exact_mod_cast List.length_pos_iff.2 ho
  have p5 : (0 : ℝ) < d.targets.length := by exact_mod_cast List.length_pos_iff.2 ht
  unfold docCost activator
  generalize doubleSum objs d.targets (fun a b => normalDensity a.mean b.mean (a.cov + b.cov)) = S at *
  have : 0 < 10 * (objs.length : ℝ) * vo * (18 * vt * d.targets.length * S) := by positivity
  nlinarith

/-- C69 is about something: two objects and one target in one dimension. -/
example : ∃ (d : Density 1) (objs : List (Comp 1)), objs.length = 2 ∧ d.targets ≠ [] ∧ 0 < d.yRef ∧ d.yRef < 1 ∧
    (∀ o ∈ objs, o.cov.PosDef ∧ 0 < o.weight) ∧ ∀ t ∈ d.targets, t.cov.PosDef ∧ 0 < t.weight := by
  refine ⟨⟨[⟨0, 1, 1⟩], 1, 9 / 10⟩, [⟨0, 1, 1 / 2⟩, ⟨1, 1, 1 / 2⟩], rfl, by simp, by norm_num, by norm_num, ?_, ?_⟩
  · intro o ho
    simp only [List.mem_cons, List.not_mem_nil, or_false] at ho
    rcases ho with rfl | rfl <;> exact ⟨Matrix.PosDef.one, by norm_num⟩
  · intro t ht
    rw [List.mem_singleton.1 ht]
    exact ⟨Matrix.PosDef.one, by norm_num⟩

/-- **C44, reference points that are accepted but useless**: with reference point 0 the cost divides by zero, and with a
negative one it is NaN (whenever everything else is well-formed). -/
theorem C44_reference_not_checked {n : ℕ} (hn : 0 < n) (d : Density n) (objs : List (Comp n)) (ho : objs ≠ [])
    (ht : d.targets ≠ []) (hoc : ∀ o ∈ objs, o.cov.PosDef) (htc : ∀ t ∈ d.targets, t.cov.PosDef) :
    (d.yRef = 0 → densityCost d objs = .error .zerodiv) ∧ (d.yRef < 0 → densityCost d objs = .error .nan) := by
  obtain ⟨vo, eo, go⟩ := maxVar_ok hn objs ho
  obtain ⟨vt, et, gt⟩ := maxVar_ok hn d.targets ht
  constructor
  · intro hy
    unfold densityCost
    rw [targetCenter_ok ht]
    show (if d.yRef = 0 then _ else _) = _
    rw [if_pos hy]
  · intro hy
    unfold densityCost
    rw [targetCenter_ok ht, eo, et, pairSum_ok objs objs fun a ha b hb => (hoc a ha).add (hoc b hb),
      pairSum_ok objs d.targets fun a ha b hb => (hoc a ha).add (htc b hb),
      pairSum_ok d.targets d.targets fun a ha b hb => (htc a ha).add (htc b hb)]
    show (if d.yRef = 0 then _ else _) = _
    rw [if_neg hy.ne]
    show (if d.yRef < 0 then _ else _) = _
    rw [if_pos hy]

/-! ### C71 -/

/-- A component moved by `v`. -/
def moved {n : ℕ} (v : Vec n) (c : Comp n) : Comp n := ⟨c.mean + v, c.cov, c.weight⟩

theorem centerOf_moved {n : ℕ} (v : Vec n) (ts : List (Comp n)) (h : ts ≠ []) :
    centerOf (ts.map (moved v)) = centerOf ts + v := by
  funext i
  unfold centerOf
  rw [Pi.add_apply, List.map_map, List.length_map]
  have hs : (ts.map ((fun t : Comp n => t.mean i) ∘ moved v)).sum = (ts.map fun t => t.mean i).sum + ts.length * v i := by
    clear h
    induction ts with
    | nil => simp
    | cons t ts ih =>
      rw [List.map_cons, List.sum_cons, ih, List.map_cons, List.sum_cons, List.length_cons]
      show t.mean i + v i + _ = _
      push_cast; ring
  rw [hs]
  have : (ts.length : ℝ) ≠ 0 := by exact_mod_cast (List.length_pos_iff.2 h).ne'
  field_simp

/-- **C71.** Moving all objects and all targets by the same displacement changes nothing: for all inputs the result (or
the exception) is the same. -/
theorem C71_translation {n : ℕ} (d : Density n) (objs : List (Comp n)) (v : Vec n) :
    densityCost ⟨d.targets.map (moved v), d.safety, d.yRef⟩ (objs.map (moved v)) = densityCost d objs := by
  have hterm : ∀ a b : Comp n, term (moved v a) (moved v b) = term a b := by
    intro a b
    unfold term moved mvnPdf
    simp only [add_sub_add_right_eq_sub]
  have hpair : ∀ as bs : List (Comp n), pairSum (as.map (moved v)) (bs.map (moved v)) = pairSum as bs := by
    intro as bs
    rw [pairSum_eq, pairSum_eq, List.flatMap_map]
    simp only [List.map_map, Function.comp_def, hterm]
  have hquad : quadSum (objs.map (moved v)) (d.targets.map (moved v)) = quadSum objs d.targets := by
    unfold quadSum
    rw [List.flatMap_map]
    simp only [List.map_map, Function.comp_def, moved, add_sub_add_right_eq_sub]
  have hcov : ∀ as : List (Comp n), (as.map (moved v)).map Comp.cov = as.map Comp.cov := by
    intro as
    rw [List.map_map]; rfl
  unfold densityCost
  dsimp only
  rw [hcov, hcov, hpair, hpair, hpair, hquad, List.length_map, List.length_map]
  by_cases ht : d.targets = []
  · rw [ht]; rfl
  · rw [targetCenter_ok ht, targetCenter_ok (by simpa using ht), centerOf_moved v d.targets ht]
    have e1 : ((d.targets.map (moved v)).map fun t => Guidance.dist t.mean (centerOf d.targets + v)) =
        d.targets.map fun t => Guidance.dist t.mean (centerOf d.targets) := by
      rw [List.map_map]
      exact List.map_congr_left fun t _ => Guidance.dist_add _ _ _
    have e2 : ((objs.map (moved v)).map fun o => Guidance.dist (centerOf d.targets + v) o.mean) =
        objs.map fun o => Guidance.dist (centerOf d.targets) o.mean := by
      rw [List.map_map]
      exact List.map_congr_left fun t _ => Guidance.dist_add _ _ _
    show (if d.yRef = 0 then _ else _) = (if d.yRef = 0 then _ else _)
    rw [e1, e2]

/-! ### C46 -/

/-- **C46, the nearest target.** For all targets and all states: the result is empty exactly if there is no target;
otherwise it is the mean of a target, no target is nearer, and all targets before it are farther. -/
theorem C46_nearest {n : ℕ} (ts : List (Comp n)) (x : Vec n) :
    (ts = [] → nearestTarget ts x = none) ∧
    (ts ≠ [] → ∃ (k : ℕ) (t : Comp n), ts[k]? = some t ∧ nearestTarget ts x = some t.mean ∧
      (∀ u ∈ ts, ∑ i, (x i - t.mean i) ^ 2 ≤ ∑ i, (x i - u.mean i) ^ 2) ∧
      ∀ j < k, ∀ u : Comp n, ts[j]? = some u → ∑ i, (x i - t.mean i) ^ 2 < ∑ i, (x i - u.mean i) ^ 2) := by
  refine ⟨fun h => by subst h; rfl, fun h => ?_⟩
  have hle : ∀ a b : Vec n, Guidance.dist x a ≤ Guidance.dist x b ↔ ∑ i, (x i - a i) ^ 2 ≤ ∑ i, (x i - b i) ^ 2 := by
    intro a b
    rw [Guidance.dist_eq, Guidance.dist_eq]
    exact Real.sqrt_le_sqrt_iff (Finset.sum_nonneg fun i _ => sq_nonneg _)
  set step := fun (best : Option (Vec n × ℝ)) (t : Comp n) =>
    match best with
    | none => some (t.mean, Guidance.dist x t.mean)
    | some (_, m) => if Guidance.dist x t.mean < m then some (t.mean, Guidance.dist x t.mean) else best with hstep
  have main : ∀ (suf pre : List (Comp n)) (k : ℕ) (t : Comp n), pre[k]? = some t →
      (∀ u ∈ pre, Guidance.dist x t.mean ≤ Guidance.dist x u.mean) →
      (∀ j < k, ∀ u : Comp n, pre[j]? = some u → Guidance.dist x t.mean < Guidance.dist x u.mean) →
      ∃ (k' : ℕ) (t' : Comp n), (pre ++ suf)[k']? = some t' ∧
        suf.foldl step (some (t.mean, Guidance.dist x t.mean)) = some (t'.mean, Guidance.dist x t'.mean) ∧
        (∀ u ∈ pre ++ suf, Guidance.dist x t'.mean ≤ Guidance.dist x u.mean) ∧
        (∀ j < k', ∀ u : Comp n, (pre ++ suf)[j]? = some u → Guidance.dist x t'.mean < Guidance.dist x u.mean) := by
    intro suf
    induction suf with
    | nil =>
      intro pre k t h1 h2 h3
      exact ⟨k, t, by simpa using h1, rfl, by simpa using h2, by simpa using h3⟩
    | cons a suf ih =>
      intro pre k t h1 h2 h3
      have happ : pre ++ a :: suf = (pre ++ [a]) ++ suf := by simp
      have hk : k < pre.length := (List.getElem?_eq_some_iff.1 h1).1
      rw [List.foldl_cons, happ]
      by_cases hlt : Guidance.dist x a.mean < Guidance.dist x t.mean
      · have hs : step (some (t.mean, Guidance.dist x t.mean)) a = some (a.mean, Guidance.dist x a.mean) := by
          rw [hstep]; exact if_pos hlt
        rw [hs]
        refine ih (pre ++ [a]) pre.length a (by simp) ?_ ?_
        · intro u hu
          rcases List.mem_append.1 hu with hu | hu
          · exact hlt.le.trans (h2 u hu)
          · rw [List.mem_singleton.1 hu]
        · intro j hj u hu
          rw [List.getElem?_append_left hj] at hu
          exact hlt.trans_le (h2 u (List.mem_of_getElem? hu))
      · have hs : step (some (t.mean, Guidance.dist x t.mean)) a = some (t.mean, Guidance.dist x t.mean) := by
          rw [hstep]; exact if_neg hlt
        rw [hs]
        refine ih (pre ++ [a]) k t ?_ ?_ ?_
        · rw [List.getElem?_append_left hk]; exact h1
        · intro u hu
          rcases List.mem_append.1 hu with hu | hu
          · exact h2 u hu
          · rw [List.mem_singleton.1 hu]; exact not_lt.1 hlt
        · intro j hj u hu
          rw [List.getElem?_append_left (by omega)] at hu
          exact h3 j hj u hu
  obtain ⟨t0, rest, rfl⟩ := List.exists_cons_of_ne_nil h
  obtain ⟨k, t, e1, e2, e3, e4⟩ := main rest [t0] 0 t0 rfl (by simp) (by simp)
  refine ⟨k, t, e1, ?_, fun u hu => (hle _ _).1 (e3 u hu), fun j hj u hu => ?_⟩
  · show ((t0 :: rest).foldl step none).map Prod.fst = _
    rw [List.foldl_cons]
    show (rest.foldl step (some (t0.mean, Guidance.dist x t0.mean))).map Prod.fst = _
    rw [e2]; rfl
  · have := e4 j hj u hu
    exact lt_of_not_ge fun h' => absurd ((hle _ _).2 h') (not_le.2 this)

/-- **C46, the centre.** `target_center` fails exactly if there are no targets; otherwise each coordinate is the
arithmetic mean of that coordinate of the target means. -/
theorem C46_center {n : ℕ} (ts : List (Comp n)) :
    (ts = [] → targetCenter ts = .error .index) ∧
    (ts ≠ [] → ∃ c, targetCenter ts = .ok c ∧ ∀ i, (ts.length : ℝ) * c i = (ts.map fun t => t.mean i).sum) := by
  refine ⟨fun h => by subst h; rfl, fun h => ⟨_, targetCenter_ok h, fun i => ?_⟩⟩
  have : (ts.length : ℝ) ≠ 0 := by exact_mod_cast (List.length_pos_iff.2 h).ne'
  unfold centerOf
  field_simp

end Gasur.Props
