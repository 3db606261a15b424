import Verif.Props.OspaMono

/-!
# Property C122: OSPA does not depend on the coordinate system
-/

set_option linter.unusedSectionVars false

namespace Gasur.Props

open Gasur.Ospa Gasur.Spec

/-! ### Moving all objects -/

section move
variable {X Y X' Y' : Type*} {g : X → X'} {h : Y → Y'} {d : X → Y → ℝ} {d' : X' → Y' → ℝ}

/-- All objects of a state array moved. -/
def moveAll {A B : Type*} (g : A → B) (mat : List (Row A)) : List (Row B) := mat.map (List.map (Option.map g))

theorem count_move {A B : Type*} (g : A → B) (r : Row A) : count (r.map (Option.map g)) = count r := by
  unfold count
  rw [List.countP_map]
  congr 1
  funext o
  cases o <;> rfl

theorem slot_move {A B : Type*} (g : A → B) (r : Row A) (i : ℕ) :
    slot (r.map (Option.map g)) i = (slot r i).map g := by
  unfold slot
  rw [List.getElem?_map]
  cases r[i]? <;> rfl

theorem pairDist_move (hd : ∀ x y, d' (g x) (h y) = d x y) (c : ℝ) (ue : Bool) (a : Option X) (b : Option Y) :
    pairDist c ue d' (a.map g) (b.map h) = pairDist c ue d a b := by
  cases a <;> cases b <;> simp [pairDist, hd]

theorem ospaStep_move (hd : ∀ x y, d' (g x) (h y) = d x y) (lsa : Lsa) (c : ℝ) (p : ℕ) (ue : Bool) (e : Row X)
    (t : Row Y) : ospaStep lsa c p ue d' (e.map (Option.map g)) (t.map (Option.map h)) = ospaStep lsa c p ue d e t := by
  unfold ospaStep
  rw [count_move, count_move]
  simp only [slot_move, pairDist_move hd]

theorem ospaLoop_move (hd : ∀ x y, d' (g x) (h y) = d x y) (lsa : Lsa) (c : ℝ) (p : ℕ) (ue : Bool) :
    ∀ (es : List (Row X)) (ts : List (Row Y)),
      ospaLoop lsa c p ue d' (moveAll g es) (moveAll h ts) = ospaLoop lsa c p ue d es ts
  | [], [] => rfl
  | _ :: _, [] => rfl
  | [], _ :: _ => rfl
  | e :: es, t :: ts => by
    unfold moveAll
    rw [List.map_cons, List.map_cons]
    unfold ospaLoop
    rw [ospaStep_move hd]
    have := ospaLoop_move hd lsa c p ue es ts
    unfold moveAll at this
    rw [this]

theorem hist_move {A B : Type*} (g : A → B) (mat : List (Row A)) (win : List ℕ) (i : ℕ) :
    hist (moveAll g mat) win i = (hist mat win i).map (Option.map g) := by
  unfold hist moveAll
  rw [List.map_map]
  refine List.map_congr_left fun tt _ => ?_
  rw [List.getElem?_map]
  dsimp only [Function.comp]
  cases mat[tt]? with
  | none => rfl
  | some r => exact slot_move g r i

theorem numSlots_move {A B : Type*} (g : A → B) (mat : List (Row A)) : numSlots (moveAll g mat) = numSlots mat := by
  unfold numSlots moveAll
  rw [List.map_map]
  congr 2
  funext r
  simp

theorem validHist_move {A B : Type*} (g : A → B) (mat : List (Row A)) (win : List ℕ) :
    validHist (moveAll g mat) win = (validHist mat win).map (List.map (Option.map g)) := by
  unfold validHist
  rw [numSlots_move, show hist (moveAll g mat) win = fun i => (hist mat win i).map (Option.map g) from
    funext fun i => hist_move g mat win i,
    show (fun i => (hist mat win i).map (Option.map g)) = List.map (Option.map g) ∘ hist mat win from rfl,
    ← List.map_map, List.filter_map]
  congr 1
  refine List.filter_congr fun l _ => ?_
  simp only [Function.comp, List.any_map]
  congr 1
  funext o
  cases o <;> rfl

theorem trackDist_move (hd : ∀ x y, d' (g x) (h y) = d x y) (c : ℝ) (hx : List (Option X)) (hy : List (Option Y)) :
    trackDist c d' (hx.map (Option.map g)) (hy.map (Option.map h)) = trackDist c d hx hy := by
  unfold trackDist
  rw [List.zipWith_map]
  simp only [pairDist_move hd]

theorem ospa2Step_move (hd : ∀ x y, d' (g x) (h y) = d x y) (lsa : Lsa) (c : ℝ) (p : ℕ)
    (es : List (List (Option X))) (ts : List (List (Option Y))) :
    ospa2Step lsa c p d' (es.map (List.map (Option.map g))) (ts.map (List.map (Option.map h))) =
      ospa2Step lsa c p d es ts := by
  have h1 : ∀ i j : ℕ, trackDist c d' (((es.map (List.map (Option.map g)))[i]?).getD [])
      (((ts.map (List.map (Option.map h)))[j]?).getD []) = trackDist c d ((es[i]?).getD []) ((ts[j]?).getD []) := by
    intro i j
    rw [← trackDist_move hd, List.getElem?_map, List.getElem?_map]
    cases es[i]? <;> cases ts[j]? <;> rfl
  unfold ospa2Step
  simp only [h1, List.length_map]

theorem ospa2_move (hd : ∀ x y, d' (g x) (h y) = d x y) (lsa : Lsa) (c : ℝ) (p w : ℕ) (es : List (Row X))
    (ts : List (Row Y)) : ospa2 lsa c p w d' (moveAll g es) (moveAll h ts) = ospa2 lsa c p w d es ts := by
  unfold ospa2
  rw [ospaLoop_move hd]
  cases ospaLoop lsa c 1 false d es ts with
  | error x => rfl
  | ok r =>
    dsimp only
    have hl : (moveAll h ts).length = ts.length := List.length_map _
    simp only [validHist_move, ospa2Step_move hd, hl]

end move

variable {s : ℕ}

/-- An object moved by the affine map `x ↦ A x + b`; its covariance becomes `A P Aᵀ`. -/
noncomputable def affine (A : Matrix (Fin s) (Fin s) ℝ) (b : Fin s → ℝ) (o : Obj s) : Obj s :=
  ⟨A.mulVec o.x + b, A * o.cov * A.transpose⟩

/-- The maps that do not change the core distances of a method: translations for the Manhattan distance, rotations,
reflections and translations for the Euclidean distance and what the code calls Mahalanobis distance, all invertible affine
maps for the Hellinger distance. -/
def KeepsDist (A : Matrix (Fin s) (Fin s) ℝ) : Method → Prop
  | .manhattan => A = 1
  | .euclidean => A.transpose * A = 1
  | .mahalanobis => A.transpose * A = 1
  | .hellinger => A.det ≠ 0

theorem affine_sub (A : Matrix (Fin s) (Fin s) ℝ) (b : Fin s → ℝ) (e t : Obj s) :
    (affine A b e).x - (affine A b t).x = A.mulVec (e.x - t.x) := by
  simp [affine, Matrix.mulVec_sub]

open Matrix in
theorem dot_mulVec (A B : Matrix (Fin s) (Fin s) ℝ) (v w : Fin s → ℝ) :
    (A *ᵥ v) ⬝ᵥ (B *ᵥ w) = v ⬝ᵥ ((Aᵀ * B) *ᵥ w) := by
  rw [← mulVec_mulVec, dotProduct_mulVec, dotProduct_mulVec, vecMul_transpose, ← dotProduct_mulVec]

open Matrix in
theorem coreDist_affine (A : Matrix (Fin s) (Fin s) ℝ) (b : Fin s → ℝ) (M : Method) (hA : KeepsDist A M) (e t : Obj s) :
    coreDist M (affine A b e) (affine A b t) = coreDist M e t := by
  cases M with
  | manhattan =>
    have hA' : A = 1 := hA
    subst hA'
    simp [coreDist, affine]
  | euclidean =>
    have hA' : A.transpose * A = 1 := hA
    have key : ∀ v : Fin s → ℝ, ∑ k, (A *ᵥ v) k ^ 2 = ∑ k, v k ^ 2 := by
      intro v
      have h1 : (A *ᵥ v) ⬝ᵥ (A *ᵥ v) = v ⬝ᵥ v := by
        rw [dot_mulVec, hA', one_mulVec]
      simpa [dotProduct, sq] using h1
    have h2 := affine_sub A b t e
    show Real.sqrt (∑ k, ((affine A b t).x k - (affine A b e).x k) ^ 2) = Real.sqrt (∑ k, (t.x k - e.x k) ^ 2)
    congr 1
    have h3 := key (t.x - e.x)
    simp only [Pi.sub_apply] at h3
    rw [← h3]
    refine Finset.sum_congr rfl fun k _ => ?_
    have := congrFun h2 k
    simp only [Pi.sub_apply] at this
    rw [this]
  | mahalanobis =>
    have hA' : A.transpose * A = 1 := hA
    show Real.sqrt (((affine A b e).x - (affine A b t).x) ⬝ᵥ ((affine A b e).cov *ᵥ ((affine A b e).x - (affine A b t).x))) =
      Real.sqrt ((e.x - t.x) ⬝ᵥ (e.cov *ᵥ (e.x - t.x)))
    rw [affine_sub, mulVec_mulVec, dot_mulVec]
    congr 3
    show Aᵀ * (A * e.cov * Aᵀ * A) = e.cov
    rw [Matrix.mul_assoc (A * e.cov), hA', Matrix.mul_one, ← Matrix.mul_assoc, hA', Matrix.one_mul]
  | hellinger =>
    have hA' : A.det ≠ 0 := hA
    have hu : IsUnit A.det := isUnit_iff_ne_zero.2 hA'
    have hut : IsUnit Aᵀ.det := by rwa [det_transpose]
    have hsum : (affine A b e).cov + (affine A b t).cov = A * (e.cov + t.cov) * Aᵀ := by
      show A * e.cov * Aᵀ + A * t.cov * Aᵀ = _
      rw [Matrix.mul_add, Matrix.add_mul]
    show 1 - Real.sqrt (Real.sqrt ((affine A b e).cov * (affine A b t).cov).det /
        ((1 / 2 : ℝ) • ((affine A b e).cov + (affine A b t).cov)).det) *
      Real.exp (-(1 / 4) * (((affine A b e).x - (affine A b t).x) ⬝ᵥ (((affine A b e).cov + (affine A b t).cov)⁻¹ *ᵥ
        ((affine A b e).x - (affine A b t).x)))) =
      1 - Real.sqrt (Real.sqrt (e.cov * t.cov).det / ((1 / 2 : ℝ) • (e.cov + t.cov)).det) *
      Real.exp (-(1 / 4) * ((e.x - t.x) ⬝ᵥ ((e.cov + t.cov)⁻¹ *ᵥ (e.x - t.x))))
    rw [hsum, affine_sub]
    have h1 : (A *ᵥ (e.x - t.x)) ⬝ᵥ ((A * (e.cov + t.cov) * Aᵀ)⁻¹ *ᵥ (A *ᵥ (e.x - t.x))) =
        (e.x - t.x) ⬝ᵥ ((e.cov + t.cov)⁻¹ *ᵥ (e.x - t.x)) := by
      rw [mulVec_mulVec, dot_mulVec, Matrix.mul_inv_rev, Matrix.mul_inv_rev]
      congr 2
      rw [Matrix.mul_assoc, Matrix.mul_assoc, Matrix.nonsing_inv_mul A hu, Matrix.mul_one, ← Matrix.mul_assoc,
        Matrix.mul_nonsing_inv _ hut, Matrix.one_mul]
    have h2 : ((affine A b e).cov * (affine A b t).cov).det = (A.det ^ 2) ^ 2 * (e.cov * t.cov).det := by
      show (A * e.cov * Aᵀ * (A * t.cov * Aᵀ)).det = _
      simp only [det_mul, det_transpose]
      ring
    have h3 : ((1 / 2 : ℝ) • (A * (e.cov + t.cov) * Aᵀ)).det = A.det ^ 2 * ((1 / 2 : ℝ) • (e.cov + t.cov)).det := by
      simp only [det_smul, det_mul, det_transpose]
      ring
    rw [h1, h2, h3, Real.sqrt_mul (by positivity), Real.sqrt_sq (by positivity),
      mul_div_mul_left _ _ (pow_ne_zero 2 hA')]

theorem meet_move {A B : Type*} (g : A → B) (est truth : List (Row A)) :
    Meet (moveAll g est) (moveAll g truth) = Meet est truth := by
  unfold Meet moveAll
  rw [List.zip_map]
  refine propext ⟨?_, ?_⟩
  · rintro ⟨a, ha, h⟩
    obtain ⟨b, hb, rfl⟩ := List.mem_map.1 ha
    refine ⟨b, hb, ?_⟩
    simpa [count_move] using h
  · rintro ⟨b, hb, h⟩
    exact ⟨_, List.mem_map_of_mem hb, by simpa [count_move] using h⟩

/-- **C122, moving.** If truth and estimates are moved by the same map that keeps the distances of the method that is
used (translations for the Manhattan distance, rotations, reflections and translations for the Euclidean distance, all
invertible affine maps for the Hellinger distance; covariances move along), OSPA stays the same. -/
theorem C122_ospa_moved (lsa : Lsa) (est truth : List (Row (Obj s))) (c : ℝ) (p : ℕ) (useEmpty : Bool)
    (method : Option Method) (hasTrueCov hasEstCov : Bool) (A : Matrix (Fin s) (Fin s) ℝ) (b : Fin s → ℝ)
    (hA : KeepsDist A (effMethod method hasTrueCov hasEstCov)) :
    calculateOspa lsa (moveAll (affine A b) est) (moveAll (affine A b) truth) c p useEmpty method hasTrueCov hasEstCov =
      calculateOspa lsa est truth c p useEmpty method hasTrueCov hasEstCov := by
  unfold calculateOspa
  rw [meet_move]
  congr 1
  exact ospaLoop_move (coreDist_affine A b _ hA) lsa _ p useEmpty est truth

/-- **C122, moving, OSPA(2).** -/
theorem C122_ospa2_moved (lsa : Lsa) (est truth : List (Row (Obj s))) (c : ℝ) (p winLen : ℕ)
    (method : Option Method) (hasTrueCov hasEstCov : Bool) (A : Matrix (Fin s) (Fin s) ℝ) (b : Fin s → ℝ)
    (hA : KeepsDist A (effMethod method hasTrueCov hasEstCov)) :
    calculateOspa2 lsa (moveAll (affine A b) est) (moveAll (affine A b) truth) c p winLen method hasTrueCov hasEstCov =
      calculateOspa2 lsa est truth c p winLen method hasTrueCov hasEstCov := by
  unfold calculateOspa2
  rw [meet_move]
  congr 1
  exact ospa2_move (coreDist_affine A b _ hA) lsa _ p winLen est truth

/-! ### Another unit of length -/

section scale
variable {X Y : Type*} {d d' : X → Y → ℝ} {a : ℝ}

theorem pairDist_scale (ha : 0 < a) (hd : ∀ x y, d' x y = a * d x y) (c : ℝ) (ue : Bool) (x : Option X) (y : Option Y) :
    pairDist (a * c) ue d' x y = (pairDist c ue d x y).map fun v => a * v := by
  have h0 : min 0 (a * c) = a * min 0 c := by
    rw [← mul_zero a, ← mul_min_of_nonneg _ _ ha.le, mul_zero]
  have h1 : ∀ u v : ℝ, min (a * u) (a * v) = a * min u v := fun u v => (mul_min_of_nonneg u v ha.le).symm
  cases x <;> cases y <;> cases ue <;> simp only [pairDist, hd, h1, h0] <;> rfl

theorem matchCost_scale {m n : ℕ} (D : Fin m → Fin n → ℝ) (k : ℝ) (S : Finset (Fin m × Fin n)) :
    matchCost (fun i j => k * D i j) S = k * matchCost D S := by
  unfold matchCost
  rw [Finset.mul_sum]

theorem assignCost_scale {lsa : Lsa} (hl : ∀ m n D, IsOptimal D (lsa m n D)) (ha : 0 < a) (p m n : ℕ)
    {D D' : ℕ → ℕ → Option ℝ} (hD : ∀ i j, D' i j = (D i j).map fun v => a * v) :
    assignCost lsa p m n D' = (assignCost lsa p m n D).map fun v => a ^ p * v := by
  unfold assignCost
  have h1 : (∃ (i : Fin m) (j : Fin n), D' i j = none) ↔ ∃ (i : Fin m) (j : Fin n), D i j = none := by
    simp [hD]
  by_cases hn : ∃ (i : Fin m) (j : Fin n), D i j = none
  · rw [if_pos hn, if_pos (h1.2 hn)]
    rfl
  · rw [if_neg hn, if_neg (mt h1.1 hn)]
    refine congrArg Except.ok ?_
    have h2 : (fun (i : Fin m) (j : Fin n) => ((D' i j).getD 0) ^ p) =
        fun (i : Fin m) (j : Fin n) => a ^ p * ((D i j).getD 0) ^ p := by
      funext i j
      rw [hD, ← mul_pow]
      cases D i j <;> simp
    have h3 := hl m n fun (i : Fin m) (j : Fin n) => ((D i j).getD 0) ^ p
    have h4 := hl m n fun (i : Fin m) (j : Fin n) => ((D' i j).getD 0) ^ p
    have hp : 0 < a ^ p := pow_pos ha p
    have h5 : matchCost (fun (i : Fin m) (j : Fin n) => ((D' i j).getD 0) ^ p)
        (lsa m n fun (i : Fin m) (j : Fin n) => ((D' i j).getD 0) ^ p) =
        a ^ p * matchCost (fun (i : Fin m) (j : Fin n) => ((D i j).getD 0) ^ p)
          (lsa m n fun (i : Fin m) (j : Fin n) => ((D i j).getD 0) ^ p) := by
      refine le_antisymm ?_ ?_
      · refine (h4.2 _ h3.1).trans ?_
        rw [h2, matchCost_scale]
      · have h6 := h3.2 _ h4.1
        refine (mul_le_mul_of_nonneg_left h6 hp.le).trans ?_
        rw [← matchCost_scale, ← h2]
    exact h5

theorem rpow_scale (ha : 0 < a) {p : ℕ} (hp : p ≠ 0) {x : ℝ} (hx : 0 ≤ x) :
    (a ^ p * x) ^ (1 / (p : ℝ)) = a * x ^ (1 / (p : ℝ)) := by
  rw [Real.mul_rpow (pow_nonneg ha.le p) hx]
  congr 1
  rw [one_div]
  exact Real.pow_rpow_inv_natCast ha.le hp

theorem assignCost_nonneg {lsa : Lsa} {p m n : ℕ} {D : ℕ → ℕ → Option ℝ} (hD : ∀ i j v, D i j = some v → 0 ≤ v) {v : ℝ}
    (h : assignCost lsa p m n D = .ok v) : 0 ≤ v := by
  unfold assignCost at h
  split at h
  · exact (nomatch h)
  · obtain rfl := Except.ok.inj h
    refine Finset.sum_nonneg fun x _ => pow_nonneg ?_ p
    cases hx : D x.1 x.2 with
    | none => simp
    | some v => exact hD _ _ v hx

theorem pairDist_nonneg' {c : ℝ} (hc : 0 ≤ c) (hd0 : ∀ x y, 0 ≤ d x y) {ue : Bool} {x : Option X} {y : Option Y} {v : ℝ}
    (h : pairDist c ue d x y = some v) : 0 ≤ v := by
  cases x <;> cases y <;> cases ue <;> simp [pairDist] at h <;> subst h <;> simp [hc, hd0]

theorem ospaStep_scale {lsa : Lsa} (hl : ∀ m n D, IsOptimal D (lsa m n D)) (ha : 0 < a)
    (hd : ∀ x y, d' x y = a * d x y) (hd0 : ∀ x y, 0 ≤ d x y) {c : ℝ} (hc : 0 ≤ c) (p : ℕ) (ue : Bool) (e : Row X)
    (t : Row Y) :
    ospaStep lsa (a * c) p ue d' e t = (ospaStep lsa c p ue d e t).map fun r => (a * r.1, a * r.2) := by
  unfold ospaStep
  by_cases h1 : count t = 0 ∧ count e = 0
  · rw [if_pos h1, if_pos h1]
    simp [Except.map]
  rw [if_neg h1, if_neg h1]
  by_cases h2 : count t = 0 ∨ count e = 0
  · rw [if_pos h2, if_pos h2]
    simp [Except.map]
  rw [if_neg h2, if_neg h2, assignCost_scale hl ha p _ _ (D := fun i j => pairDist c ue d (slot e i) (slot t j))
    fun i j => pairDist_scale ha hd c ue _ _]
  cases hv : assignCost lsa p (count e) (count t) (fun i j => pairDist c ue d (slot e i) (slot t j)) with
  | error x => rfl
  | ok v =>
    have hv0 : 0 ≤ v := assignCost_nonneg (fun i j w hw => pairDist_nonneg' hc hd0 hw) hv
    dsimp only [Except.map]
    by_cases hp : p = 0
    · rw [if_pos hp, if_pos hp]
    · rw [if_neg hp, if_neg hp]
      refine congrArg Except.ok (Prod.ext ?_ ?_)
      · dsimp only
        rw [← rpow_scale ha hp (by positivity)]
        congr 1
        ring
      · dsimp only
        rw [← rpow_scale ha hp (by positivity)]
        congr 1
        rw [mul_pow]
        ring

theorem ospaLoop_scale {lsa : Lsa} (hl : ∀ m n D, IsOptimal D (lsa m n D)) (ha : 0 < a)
    (hd : ∀ x y, d' x y = a * d x y) (hd0 : ∀ x y, 0 ≤ d x y) {c : ℝ} (hc : 0 ≤ c) (p : ℕ) (ue : Bool) :
    ∀ (es : List (Row X)) (ts : List (Row Y)), ospaLoop lsa (a * c) p ue d' es ts =
      (ospaLoop lsa c p ue d es ts).map (List.map fun r => (a * r.1, a * r.2))
  | [], [] => rfl
  | _ :: _, [] => rfl
  | [], _ :: _ => rfl
  | e :: es, t :: ts => by
    unfold ospaLoop
    rw [ospaStep_scale hl ha hd hd0 hc, ospaLoop_scale hl ha hd hd0 hc p ue es ts]
    cases ospaStep lsa c p ue d e t with
    | error x => rfl
    | ok r =>
      cases ospaLoop lsa c p ue d es ts with
      | error x => rfl
      | ok l => rfl

theorem nanmean_scale (a : ℝ) (l : List (Option ℝ)) :
    nanmean (l.map (Option.map fun v => a * v)) = (nanmean l).map fun v => a * v := by
  have h1 : (l.map (Option.map fun v => a * v)).reduceOption = l.reduceOption.map fun v => a * v := by
    rw [List.reduceOption_map]
  unfold nanmean
  rw [h1]
  by_cases h : l.reduceOption = []
  · rw [if_pos h, if_pos (by rw [h]; rfl)]
    rfl
  · rw [if_neg h, if_neg (by simpa using h), List.sum_map_mul_left, List.map_id', List.length_map]
    simp [mul_div_assoc]

theorem trackDist_scale (ha : 0 < a) (hd : ∀ x y, d' x y = a * d x y) (c : ℝ) (hx : List (Option X))
    (hy : List (Option Y)) : trackDist (a * c) d' hx hy = a * trackDist c d hx hy := by
  unfold trackDist
  have h1 : List.zipWith (pairDist (a * c) false d') hx hy =
      (List.zipWith (pairDist c false d) hx hy).map (Option.map fun v => a * v) := by
    rw [List.map_zipWith]
    congr 1
    funext x y
    exact pairDist_scale ha hd c false x y
  rw [h1, nanmean_scale]
  cases nanmean (List.zipWith (pairDist c false d) hx hy) <;> simp

theorem trackDist_nonneg' {c : ℝ} (hc : 0 ≤ c) (hd0 : ∀ x y, 0 ≤ d x y) (hx : List (Option X)) (hy : List (Option Y)) :
    0 ≤ trackDist c d hx hy := by
  unfold trackDist nanmean
  split
  · simp
  · refine div_nonneg (List.sum_nonneg fun v hv => ?_) (Nat.cast_nonneg _)
    rw [List.reduceOption_mem_iff] at hv
    obtain ⟨i, hi, he⟩ := List.getElem_of_mem hv
    rw [List.getElem_zipWith] at he
    exact pairDist_nonneg' hc hd0 he

theorem ospa2Step_scale {lsa : Lsa} (hl : ∀ m n D, IsOptimal D (lsa m n D)) (ha : 0 < a)
    (hd : ∀ x y, d' x y = a * d x y) (hd0 : ∀ x y, 0 ≤ d x y) {c : ℝ} (hc : 0 ≤ c) {p : ℕ} (hp : p ≠ 0)
    (es : List (List (Option X))) (ts : List (List (Option Y))) :
    ospa2Step lsa (a * c) p d' es ts = (ospa2Step lsa c p d es ts).map fun r => (a * r.1, a * r.2) := by
  unfold ospa2Step
  by_cases h1 : ts.length = 0 ∧ es.length = 0
  · rw [if_pos h1, if_pos h1]
    simp [Except.map]
  rw [if_neg h1, if_neg h1]
  have fin : ∀ v : ℝ, 0 ≤ v → (((a ^ p * v / ((max ts.length es.length : ℕ) : ℝ)) ^ (1 / (p : ℝ)),
      ((a * c) ^ p * |(es.length : ℝ) - ts.length| / ((max ts.length es.length : ℕ) : ℝ)) ^ (1 / (p : ℝ))) : ℝ × ℝ) =
      (a * (v / ((max ts.length es.length : ℕ) : ℝ)) ^ (1 / (p : ℝ)),
      a * (c ^ p * |(es.length : ℝ) - ts.length| / ((max ts.length es.length : ℕ) : ℝ)) ^ (1 / (p : ℝ))) := by
    intro v hv
    refine Prod.ext ?_ ?_
    · dsimp only
      rw [← rpow_scale ha hp (by positivity), mul_div_assoc]
    · dsimp only
      rw [← rpow_scale ha hp (by positivity), mul_pow]
      congr 1
      ring
  by_cases h2 : ts.length = 0 ∨ es.length = 0
  · rw [if_pos h2, if_pos h2]
    have := fin 0 le_rfl
    rw [mul_zero] at this
    exact congrArg Except.ok this
  · rw [if_neg h2, if_neg h2, assignCost_scale hl ha p _ _
      (D := fun i j => some (trackDist c d ((es[i]?).getD []) ((ts[j]?).getD []))) fun i j => by
        rw [trackDist_scale ha hd]; rfl]
    cases hv : assignCost lsa p es.length ts.length
        (fun i j => some (trackDist c d ((es[i]?).getD []) ((ts[j]?).getD []))) with
    | error x => rfl
    | ok v =>
      refine congrArg Except.ok (fin v (assignCost_nonneg (fun i j w hw => ?_) hv))
      obtain rfl := Option.some.inj hw
      exact trackDist_nonneg' hc hd0 _ _

theorem ospa2_scale {lsa : Lsa} (hl : ∀ m n D, IsOptimal D (lsa m n D)) (ha : 0 < a)
    (hd : ∀ x y, d' x y = a * d x y) (hd0 : ∀ x y, 0 ≤ d x y) {c : ℝ} (hc : 0 ≤ c) (p w : ℕ) (es : List (Row X))
    (ts : List (Row Y)) :
    ospa2 lsa (a * c) p w d' es ts =
      (ospa2 lsa c p w d es ts).map (List.map fun r => r.map fun r => (a * r.1, a * r.2)) := by
  unfold ospa2
  rw [ospaLoop_scale hl ha hd hd0 hc]
  cases ospaLoop lsa c 1 false d es ts with
  | error x => rfl
  | ok r =>
    dsimp only [Except.map]
    by_cases hp : p = 0
    · rw [if_pos hp, if_pos hp]
    · rw [if_neg hp, if_neg hp]
      refine congrArg Except.ok ?_
      rw [List.map_map]
      refine List.map_congr_left fun tt _ => ?_
      exact ospa2Step_scale hl ha hd hd0 hc hp _ _

end scale

/-- An object in another unit of length. -/
noncomputable def inUnit (a : ℝ) (o : Obj s) : Obj s := ⟨fun k => a * o.x k, (a ^ 2) • o.cov⟩

theorem coreDist_unit {a : ℝ} (ha : 0 < a) {M : Method} (hM : M = .euclidean ∨ M = .manhattan) (e t : Obj s) :
    coreDist M (inUnit a e) (inUnit a t) = a * coreDist M e t := by
  rcases hM with rfl | rfl
  · show Real.sqrt (∑ k, (a * t.x k - a * e.x k) ^ 2) = a * Real.sqrt (∑ k, (t.x k - e.x k) ^ 2)
    rw [← Real.sqrt_sq ha.le, ← Real.sqrt_mul (by positivity), Real.sqrt_sq ha.le, Finset.mul_sum]
    congr 1
    refine Finset.sum_congr rfl fun k _ => ?_
    ring
  · show ∑ k, |a * t.x k - a * e.x k| = a * ∑ k, |t.x k - e.x k|
    rw [Finset.mul_sum]
    refine Finset.sum_congr rfl fun k _ => ?_
    rw [← mul_sub, abs_mul, abs_of_pos ha]

theorem coreDist_nonneg' {M : Method} (hM : M = .euclidean ∨ M = .manhattan) (e t : Obj s) : 0 ≤ coreDist M e t := by
  rcases hM with rfl | rfl
  · exact Real.sqrt_nonneg _
  · exact Finset.sum_nonneg fun k _ => abs_nonneg _

theorem effCut_unit {M : Method} (hM : M = .euclidean ∨ M = .manhattan) (c : ℝ) : effCut M c = c := by
  rcases hM with rfl | rfl <;> simp [effCut]

/-- **C122, units.** For the Euclidean and the Manhattan distance, measuring states and cut-off in another unit of length
multiplies localisation and cardinality part by the same factor. -/
theorem C122_ospa_unit (lsa : Lsa) (hl : ∀ m n D, IsOptimal D (lsa m n D)) (est truth : List (Row (Obj s))) (c : ℝ)
    (hc : 0 ≤ c) (p : ℕ) (useEmpty : Bool) (method : Option Method) (hasTrueCov hasEstCov : Bool)
    (hm : effMethod method hasTrueCov hasEstCov = .euclidean ∨ effMethod method hasTrueCov hasEstCov = .manhattan)
    (a : ℝ) (ha : 0 < a) :
    calculateOspa lsa (moveAll (inUnit a) est) (moveAll (inUnit a) truth) (a * c) p useEmpty method hasTrueCov
        hasEstCov =
      (calculateOspa lsa est truth c p useEmpty method hasTrueCov hasEstCov).map
        (List.map fun r => (a * r.1, a * r.2)) := by
  have hn : effMethod method hasTrueCov hasEstCov = .hellinger → hasEstCov = true :=
    fun h => by rcases hm with hm | hm <;> rw [hm] at h <;> cases h
  rw [calculateOspa_given hn, calculateOspa_given hn]
  unfold ospaGiven
  rw [effCut_unit hm, effCut_unit hm, ← ospaLoop_scale (d' := fun x y => coreDist (effMethod method hasTrueCov hasEstCov)
    (inUnit a x) (inUnit a y)) hl ha (fun x y => coreDist_unit ha hm x y) (coreDist_nonneg' hm) hc]
  exact ospaLoop_move (fun x y => rfl) lsa _ p useEmpty est truth

/-- **C122, units, OSPA(2).** -/
theorem C122_ospa2_unit (lsa : Lsa) (hl : ∀ m n D, IsOptimal D (lsa m n D)) (est truth : List (Row (Obj s))) (c : ℝ)
    (hc : 0 ≤ c) (p winLen : ℕ) (method : Option Method) (hasTrueCov hasEstCov : Bool)
    (hm : effMethod method hasTrueCov hasEstCov = .euclidean ∨ effMethod method hasTrueCov hasEstCov = .manhattan)
    (a : ℝ) (ha : 0 < a) :
    calculateOspa2 lsa (moveAll (inUnit a) est) (moveAll (inUnit a) truth) (a * c) p winLen method hasTrueCov
        hasEstCov =
      (calculateOspa2 lsa est truth c p winLen method hasTrueCov hasEstCov).map
        (List.map fun r => r.map fun r => (a * r.1, a * r.2)) := by
  have hn : effMethod method hasTrueCov hasEstCov = .hellinger → hasEstCov = true :=
    fun h => by rcases hm with hm | hm <;> rw [hm] at h <;> cases h
  rw [calculateOspa2_given hn, calculateOspa2_given hn]
  rw [effCut_unit hm, effCut_unit hm, ← ospa2_scale (d' := fun x y => coreDist (effMethod method hasTrueCov hasEstCov)
    (inUnit a x) (inUnit a y)) hl ha (fun x y => coreDist_unit ha hm x y) (coreDist_nonneg' hm) hc]
  exact ospa2_move (fun x y => rfl) lsa _ p winLen est truth

/-! ### Non-vacuity -/

/-- a quarter turn is allowed for the Euclidean distance, a change of the units of single axes for the Hellinger distance;
optimal matchings exist -/
example : KeepsDist (!![0, -1; 1, 0] : Matrix (Fin 2) (Fin 2) ℝ) (effMethod none false false) ∧
    KeepsDist (!![2, 0; 0, 3] : Matrix (Fin 2) (Fin 2) ℝ) (effMethod (some .hellinger) true true) ∧
    KeepsDist (1 : Matrix (Fin 2) (Fin 2) ℝ) (effMethod (some .manhattan) false false) ∧
    ∃ lsa : Lsa, ∀ m n D, IsOptimal D (lsa m n D) := by
  refine ⟨?_, ?_, rfl, exists_lsa⟩
  · show Matrix.transpose (!![0, -1; 1, 0] : Matrix (Fin 2) (Fin 2) ℝ) * !![0, -1; 1, 0] = 1
    ext i j
    fin_cases i <;> fin_cases j <;> simp [Matrix.mul_apply, Fin.sum_univ_two]
  · show (!![2, 0; 0, 3] : Matrix (Fin 2) (Fin 2) ℝ).det ≠ 0
    simp [Matrix.det_fin_two]

end Gasur.Props
