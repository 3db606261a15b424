import Verif.Model.Quadratize
import Verif.Proofs.Elqr
import Verif.Props.Waypoints

/-!
# Property C80: the quadratic approximation of the density based cost
-/

namespace Gasur.Props

open Matrix Gasur.Spec Gasur.Guidance Gasur.Elqr

/-- The result `(d, V)` of a correct eigenvalue routine for `H`: the columns of `V` are independent eigenvectors, `d` the
eigenvalues (in any order, the eigenvectors with any length). -/
def EigPair {n : ℕ} (H : Mat n) (r : (Fin n → ℝ) × Mat n) : Prop :=
  IsUnit r.2.det ∧ H * r.2 = r.2 * Matrix.diagonal r.1

theorem regularize_eigvec {n : ℕ} {eig : Mat n → (Fin n → ℝ) × Mat n} {H : Mat n} (he : EigPair H (eig H)) :
    ∃ Q, regularize eig H = .ok Q ∧ ∀ (l : ℝ) (v : Vec n), H *ᵥ v = l • v → Q *ᵥ v = max l 0 • v := by
  set d := (eig H).1 with hd
  set V := (eig H).2 with hV
  have hu : IsUnit V.det := he.1
  refine ⟨V * Matrix.diagonal (fun i => if d i < 0 then 0 else d i) * V⁻¹, ?_, ?_⟩
  · unfold regularize
    rw [← hV, ← hd, invE_ok.2 ⟨hu, rfl⟩]
    rfl
  · intro l v hv
    set w := V⁻¹ *ᵥ v with hw
    have hVw : V *ᵥ w = v := by
      rw [hw, mulVec_mulVec, mul_nonsing_inv _ hu, one_mulVec]
    have h1 : V *ᵥ (Matrix.diagonal d *ᵥ w) = V *ᵥ (l • w) := by
      rw [mulVec_mulVec, ← he.2, ← mulVec_mulVec, ← hV, hVw, hv, mulVec_smul, hVw]
    have h2 : Matrix.diagonal d *ᵥ w = l • w := by
      have := congrArg (fun z => V⁻¹ *ᵥ z) h1
      simpa only [mulVec_mulVec, ← Matrix.mul_assoc, nonsing_inv_mul _ hu, one_mulVec, Matrix.one_mul] using this
    have h3 : Matrix.diagonal (fun i => if d i < 0 then 0 else d i) *ᵥ w = max l 0 • w := by
      funext i
      have h4 := congrFun h2 i
      rw [mulVec_diagonal, Pi.smul_apply, smul_eq_mul] at h4 ⊢
      by_cases hwi : w i = 0
      · rw [hwi, mul_zero, mul_zero]
      · have : d i = l := mul_right_cancel₀ hwi h4
        rw [this]
        by_cases hl : l < 0
        · rw [if_pos hl, max_eq_right hl.le]
        · rw [if_neg hl, max_eq_left (not_lt.1 hl)]
    rw [← mulVec_mulVec, ← mulVec_mulVec, ← hw, h3, mulVec_smul, hVw]

/-- A matrix is determined by what it does to orthonormal eigenvectors. -/
theorem eq_of_cols {n : ℕ} {A B V : Mat n} (hV : Vᵀ * V = 1) (h : ∀ i, A *ᵥ V.col i = B *ᵥ V.col i) : A = B := by
  have hVV : V * Vᵀ = 1 := mul_eq_one_comm.1 hV
  have : A * V = B * V := by
    ext i j
    exact congrFun (h j) i
  calc A = A * (V * Vᵀ) := by rw [hVV, Matrix.mul_one]
    _ = B * (V * Vᵀ) := by rw [← Matrix.mul_assoc, this, Matrix.mul_assoc]
    _ = B := by rw [hVV, Matrix.mul_one]

theorem moveObj_eq {n : ℕ} {os : List (Comp n)} {k : ℕ} {o : Comp n} (ho : os[k]? = some o) (x : Vec n) :
    moveObj os k x = os.set k ⟨x, o.cov, o.weight⟩ := by
  obtain ⟨hk, rfl⟩ := List.getElem?_eq_some_iff.1 ho
  unfold moveObj
  rw [List.modify_eq_set_getElem?, List.getElem?_eq_getElem hk]
  rfl

/-- **C80.** For all objects, targets and parameters, if the Hessian that the numerical routine returns is symmetric and the
eigenvalue routine is correct (whatever eigenvectors it chooses): the quadratic approximation `(Q, q)` is computed without
failure; `Q` is symmetric and positive semidefinite; it has the eigenvectors of the Hessian with the eigenvalues cut off at
zero, so that it is the Hessian if that one is positive semidefinite; and the slope `Q x + q` at the current state is the
gradient. -/
theorem C80_quadratize {n : ℕ} (nu : Numerics n) (d : Density n) (os : List (Comp n)) (k : ℕ) (o : Comp n) (ho : os[k]? = some o)
    (H : Mat n) (g : Vec n) (hH : nu.hess (fun x => densityCost d (os.set k ⟨x, o.cov, o.weight⟩)) o.mean = .ok H)
    (hg : nu.grad (fun x => densityCost d (os.set k ⟨x, o.cov, o.weight⟩)) o.mean = .ok g) (hs : H.IsSymm) (he : EigPair H (nu.eig H)) :
    ∃ Q q, quadratize nu d os k = .ok (Q, q) ∧ Q.PosSemidef ∧ Q *ᵥ o.mean + q = g ∧
      (∀ (l : ℝ) (v : Vec n), H *ᵥ v = l • v → Q *ᵥ v = max l 0 • v) ∧ (H.PosSemidef → Q = H) := by
  obtain ⟨Q, hQ, hev⟩ := regularize_eigvec he
  have hh : H.IsHermitian := by
    rw [Matrix.IsHermitian, conjTranspose_eq_transpose_of_trivial]; exact hs
  obtain ⟨V, hV, e, _, hHV⟩ := exists_isEig H hh
  have hVV : V * Vᵀ = 1 := mul_eq_one_comm.1 hV
  have hcol : ∀ i, H *ᵥ V.col i = e i • V.col i := by
    intro i
    funext r
    have := congrFun (congrFun hHV r) i
    rw [mul_diagonal] at this
    rw [Pi.smul_apply, smul_eq_mul, mul_comm]
    exact this
  have hQcol : ∀ i, Q *ᵥ V.col i = max (e i) 0 • V.col i := fun i => hev _ _ (hcol i)
  have hQeq : Q = V * Matrix.diagonal (fun i => max (e i) 0) * Vᵀ := by
    apply eq_of_cols hV
    intro i
    rw [hQcol]
    have : (V * Matrix.diagonal (fun i => max (e i) 0) * Vᵀ) * V = V * Matrix.diagonal (fun i => max (e i) 0) := by
      rw [Matrix.mul_assoc, hV, Matrix.mul_one]
    funext r
    have h2 := congrFun (congrFun this r) i
    rw [mul_diagonal] at h2
    rw [Pi.smul_apply, smul_eq_mul, mul_comm]
    exact h2.symm
  refine ⟨Q, g - Q *ᵥ o.mean, ?_, ?_, by abel, hev, ?_⟩
  · unfold quadratize
    rw [getE_ok.2 ho, show (fun x => densityCost d (moveObj os k x)) = fun x => densityCost d (os.set k ⟨x, o.cov, o.weight⟩) from
      funext fun x => by rw [moveObj_eq ho]]
    show (nu.hess _ _ >>= _) = _
    rw [hH]
    show (regularize _ _ >>= _) = _
    rw [hQ]
    show (nu.grad _ _ >>= _) = _
    rw [hg]
    rfl
  · rw [hQeq]
    have hd : (Matrix.diagonal fun i => max (e i) 0).PosSemidef := Matrix.PosSemidef.diagonal fun i => le_max_right _ _
    have := hd.mul_mul_conjTranspose_same V
    rwa [conjTranspose_eq_transpose_of_trivial] at this
  · intro hp
    apply eq_of_cols hV
    intro i
    rw [hQcol, hcol]
    congr 1
    apply max_eq_left
    have h1 := hp.dotProduct_mulVec_nonneg (V.col i)
    rw [hcol, dotProduct_smul] at h1
    have h2 : star (V.col i) ⬝ᵥ V.col i = 1 := by
      have := congrFun (congrFun hV i) i
      rw [one_apply_eq] at this
      exact this
    rw [h2] at h1
    simpa using h1

/-- The hypotheses can be met: a Hessian with a negative eigenvalue, and a correct eigenvalue routine. -/
example : ∃ (nu : Numerics 2) (H : Mat 2), (∀ f x, nu.hess f x = .ok H) ∧ H.IsSymm ∧ EigPair H (nu.eig H) ∧ ¬ H.PosSemidef := by
  refine ⟨⟨fun _ _ => .ok !![1, 0; 0, -1], fun _ _ => .ok 0, fun _ => (![1, -1], 1)⟩, !![1, 0; 0, -1], fun _ _ => rfl, ?_, ⟨?_, ?_⟩, ?_⟩
  · ext i j; fin_cases i <;> fin_cases j <;> rfl
  · simp
  · ext i j; fin_cases i <;> fin_cases j <;> simp
  · intro h
    have := h.diag_nonneg (i := 1)
    norm_num at this

end Gasur.Props
