import Verif.Props.OspaStable

/-!
# Property C167: the OSPA(2) error is stable
-/

namespace Gasur.Props

open Gasur.Ospa Gasur.Spec

section C167

variable {X Y : Type*} {s : ℕ}

theorem existing_cons (a : Option X) (hx : List (Option X)) (b : Option Y) (hy : List (Option Y)) :
    existing (a :: hx) (b :: hy) =
      if (a.isSome || b.isSome) then (a, b) :: existing hx hy else existing hx hy := by
  unfold existing
  rw [List.zip_cons_cons, List.filter_cons]

theorem existing_moved {c : ℝ} {d : X → Y → ℝ} {R : X → X → Prop} {Q : Y → Y → Prop} {η : ℝ} (hη : 0 ≤ η)
    (hRQ : ∀ x x' y y', R x x' → Q y y' → |d x y - d x' y'| ≤ η) {hx hx' : List (Option X)}
    (h : List.Forall₂ (Option.Rel R) hx hx') : ∀ {hy hy' : List (Option Y)}, List.Forall₂ (Option.Rel Q) hy hy' →
    List.Forall₂ (fun a a' => |errAt c d a - errAt c d a'| ≤ η) (existing hx hy) (existing hx' hy') := by
  induction h with
  | nil => intro hy hy' _; exact .nil
  | cons ha _ ih =>
    intro hy hy' h'
    cases h' with
    | nil => exact .nil
    | cons hb ht =>
      rw [existing_cons, existing_cons]
      cases ha with
      | some hR =>
        cases hb with
        | some hQ =>
          refine .cons ?_ (ih ht)
          simp only [errAt]
          refine (abs_min_sub_min_le_max _ _ _ _).trans ?_
          rw [sub_self, abs_zero]
          exact max_le (hRQ _ _ _ _ hR hQ) hη
        | none => exact .cons (by simpa [errAt] using hη) (ih ht)
      | none =>
        cases hb with
        | some hQ => exact .cons (by simpa [errAt] using hη) (ih ht)
        | none => exact ih ht

theorem sum_moved {A B : Type*} {f : A → ℝ} {g : B → ℝ} {η : ℝ} {l : List A} {l' : List B}
    (h : List.Forall₂ (fun a b => |f a - g b| ≤ η) l l') : |(l.map f).sum - (l'.map g).sum| ≤ l.length * η := by
  induction h with
  | nil => simp
  | cons ha _ ih =>
    rw [List.map_cons, List.map_cons, List.sum_cons, List.sum_cons, List.length_cons]
    push_cast
    rw [abs_le] at ha ih ⊢
    constructor <;> linarith [ha.1, ha.2, ih.1, ih.2]

theorem trackAvg_moved {c : ℝ} {d : X → Y → ℝ} {R : X → X → Prop} {Q : Y → Y → Prop} {η : ℝ} (hη : 0 ≤ η)
    (hRQ : ∀ x x' y y', R x x' → Q y y' → |d x y - d x' y'| ≤ η) {hx hx' : List (Option X)}
    (h : List.Forall₂ (Option.Rel R) hx hx') {hy hy' : List (Option Y)} (h' : List.Forall₂ (Option.Rel Q) hy hy') :
    |trackAvg c d hx hy - trackAvg c d hx' hy'| ≤ η := by
  have he := existing_moved (c := c) (d := d) hη hRQ h h'
  have hs := sum_moved he
  have hlen := he.length_eq
  unfold trackAvg
  rw [← hlen, ← sub_div, abs_div, Nat.abs_cast]
  rcases Nat.eq_zero_or_pos (existing hx hy).length with h0 | h0
  · rw [h0]
    simpa using hη
  · have hpos : (0 : ℝ) < (existing hx hy).length := by exact_mod_cast h0
    rw [div_le_iff₀ hpos, mul_comm]
    exact hs

/-- The error between two lists of tracks. -/
theorem isOspa_moved {c : ℝ} (hc : 0 ≤ c) {p : ℕ} (hp : 1 ≤ p) {A B A' B' : Type*} {d : A → B → ℝ} {d' : A' → B' → ℝ}
    {R : A → A' → Prop} {Q : B → B' → Prop} {η : ℝ} (hη : 0 ≤ η) (hd : ∀ x y, 0 ≤ d x y) (hd' : ∀ x y, 0 ≤ d' x y)
    (hRQ : ∀ x x' y y', R x x' → Q y y' → |d x y - d' x' y'| ≤ η) {xs : List A} {xs' : List A'} {ys : List B} {ys' : List B'}
    (hx : List.Forall₂ R xs xs') (hy : List.Forall₂ Q ys ys') {l r l' r' : ℝ} (h : IsOspa c p d xs ys l r)
    (h' : IsOspa c p d' xs' ys' l' r') : r = r' ∧ |l - l'| ≤ η := by
  have lx := hx.length_eq
  have ly := hy.length_eq
  obtain ⟨v, hv, hl1, hr1⟩ := h
  obtain ⟨w, hw, hl2, hr2⟩ := h'
  refine ⟨by rw [hr1, hr2, lx, ly], ?_⟩
  have hw' : MinCost (fun (i : Fin xs.length) (j : Fin ys.length) =>
      (min (d' (xs'[(i : ℕ)]'(by omega)) (ys'[(j : ℕ)]'(by omega))) c) ^ p) w := by
    exact minCost_reindex (finCongr lx.symm) (finCongr ly.symm) (cutMat c p d' xs' ys') _ (fun i j => rfl) hw
  have hc' : ∀ (i : Fin xs.length) (j : Fin ys.length), |min (d xs[i] ys[j]) c -
      min (d' (xs'[(i : ℕ)]'(by omega)) (ys'[(j : ℕ)]'(by omega))) c| ≤ η := by
    intro i j
    refine (abs_min_sub_min_le_max _ _ _ _).trans ?_
    rw [sub_self, abs_zero]
    exact max_le (hRQ _ _ _ _ ((List.forall₂_iff_get.1 hx).2 i i.2 (by omega))
      ((List.forall₂_iff_get.1 hy).2 j j.2 (by omega))) hη
  have a1 := minCost_stable hη (fun i j => le_min (hd _ _) hc) (fun i j => le_min (hd' _ _) hc)
    (fun i j => by have := (abs_le.1 (hc' i j)).2; linarith) hp hv hw'
  have a2 := minCost_stable hη (fun i j => le_min (hd' _ _) hc) (fun i j => le_min (hd _ _) hc)
    (fun i j => by have := (abs_le.1 (hc' i j)).1; linarith) hp hw' hv
  rw [← hl1, lx, ly, ← hl2] at a1
  rw [← hl1, lx, ly, ← hl2] at a2
  rw [abs_le]
  constructor <;> linarith

theorem row_moved {R : X → X → Prop} {mat mat' : List (Row X)} (h : List.Forall₂ (List.Forall₂ (Option.Rel R)) mat mat') :
    ∀ tt : ℕ, List.Forall₂ (Option.Rel R) ((mat[tt]?).getD []) ((mat'[tt]?).getD []) := by
  induction h with
  | nil => intro tt; exact .nil
  | cons hr _ ih =>
    intro tt
    cases tt with
    | zero => exact hr
    | succ tt => exact ih tt

theorem numSlots_moved {R : X → X → Prop} {mat mat' : List (Row X)}
    (h : List.Forall₂ (List.Forall₂ (Option.Rel R)) mat mat') : numSlots mat = numSlots mat' := by
  induction h with
  | nil => rfl
  | cons hr _ ih =>
    unfold numSlots at ih ⊢
    rw [List.map_cons, List.map_cons, List.foldr_cons, List.foldr_cons, ih, hr.length_eq]

theorem any_moved {R : X → X → Prop} {e e' : List (Option X)} (h : List.Forall₂ (Option.Rel R) e e') :
    e.any Option.isSome = e'.any Option.isSome := by
  induction h with
  | nil => rfl
  | cons hr _ ih =>
    rw [List.any_cons, List.any_cons, ih]
    cases hr <;> rfl

theorem filter_moved {A : Type*} {S : A → A → Prop} {q : A → Bool} (hq : ∀ a b, S a b → q a = q b) {l l' : List A}
    (h : List.Forall₂ S l l') : List.Forall₂ S (l.filter q) (l'.filter q) := by
  induction h with
  | nil => exact .nil
  | cons hr _ ih =>
    rw [List.filter_cons, List.filter_cons, ← hq _ _ hr]
    split
    · exact .cons hr ih
    · exact ih

theorem validHist_moved {R : X → X → Prop} {mat mat' : List (Row X)}
    (h : List.Forall₂ (List.Forall₂ (Option.Rel R)) mat mat') (win : List ℕ) :
    List.Forall₂ (List.Forall₂ (Option.Rel R)) (validHist mat win) (validHist mat' win) := by
  unfold validHist
  rw [← numSlots_moved h]
  refine filter_moved (fun a b hab => any_moved hab) ?_
  rw [List.forall₂_map_left_iff, List.forall₂_map_right_iff, List.forall₂_same]
  intro i _
  unfold hist
  rw [List.forall₂_map_left_iff, List.forall₂_map_right_iff, List.forall₂_same]
  exact fun tt _ => moved_slot (row_moved h tt) i

/-- **C167.** The OSPA(2) error is stable too (orders `p ≥ 1`, cut-offs at least zero, Euclidean or Manhattan method): if at
each time step the estimates move by at most `δ` each and the true objects by at most `ε` each, in the distance of the
method, and the same slots stay occupied, then `calculate_ospa2` still returns if it did, no cardinality component changes,
and the localisation component and the error of each time step change by at most `δ + ε`, for every window length. -/
theorem C167_ospa2_stable (lsa : Lsa) (hl : ∀ m n D, IsOptimal D (lsa m n D)) {est est' truth truth' : List (Row (Obj s))}
    {c : ℝ} (hc : 0 ≤ c) {p winLen : ℕ} (hp : 1 ≤ p) {method : Option Method} {hasTrueCov hasEstCov : Bool}
    {m : Method} (hm : effMethod method hasTrueCov hasEstCov = m) (hem : m = .euclidean ∨ m = .manhattan) {δ ε : ℝ}
    (hδ : 0 ≤ δ) (hε : 0 ≤ ε) (he : Moved (coreDist m) δ est est') (ht : Moved (coreDist m) ε truth truth')
    {out : List (Except OErr (ℝ × ℝ))} (h : calculateOspa2 lsa est truth c p winLen method hasTrueCov hasEstCov = .ok out) :
    ∃ out', calculateOspa2 lsa est' truth' c p winLen method hasTrueCov hasEstCov = .ok out' ∧
      List.Forall₂ (fun a a' => ∃ r r', a = .ok r ∧ a' = .ok r' ∧ r.2 = r'.2 ∧ |r.1 - r'.1| ≤ δ + ε ∧
        |total r - total r'| ≤ δ + ε) out out' := by
  have hnh : effMethod method hasTrueCov hasEstCov = .hellinger → hasEstCov = true := by
    intro h'
    rw [hm] at h'
    subst h'
    rcases hem with h' | h' <;> exact nomatch h'
  rw [calculateOspa2_given hnh, hm] at h ⊢
  have hd : ∀ x y : Obj s, 0 ≤ coreDist m x y := coreDist_nonneg' hem
  have hc' := (effCut_bounds m hc).1
  have hη := add_nonneg hδ hε
  have hRQ := fun x x' y y' (hx : coreDist m x x' ≤ δ) (hy : coreDist m y y' ≤ ε) => core_moved (s := s) hem hx hy
  unfold ospa2 at h ⊢
  split at h
  · exact nomatch h
  · rename_i o hlp
    obtain ⟨o', ho', -⟩ := loop_moved hl hc' le_rfl hd hη hRQ ht he hlp
    rw [ho']
    dsimp only
    rw [if_neg (by omega : ¬ p = 0)] at h ⊢
    simp only [Except.ok.injEq] at h
    subst h
    refine ⟨_, rfl, ?_⟩
    rw [← ht.length_eq, List.forall₂_map_left_iff, List.forall₂_map_right_iff, List.forall₂_same]
    intro tt _
    obtain ⟨l, r, h1, i1⟩ := ospa2Step_ok hl hc' (by omega : p ≠ 0) (coreDist (s := s) m)
      (validHist est (window tt winLen)) (validHist truth (window tt winLen))
    obtain ⟨l', r', h2, i2⟩ := ospa2Step_ok hl hc' (by omega : p ≠ 0) (coreDist (s := s) m)
      (validHist est' (window tt winLen)) (validHist truth' (window tt winLen))
    have hn : ∀ x y, 0 ≤ trackAvg (effCut m c) (coreDist (s := s) m) x y := fun x y =>
      (trackAvg_bounds hc' fun a _ b _ => hd a b).1
    obtain ⟨hr, hloc⟩ := isOspa_moved hc' hp hη hn hn
      (R := List.Forall₂ (Option.Rel fun x x' => coreDist m x x' ≤ δ))
      (Q := List.Forall₂ (Option.Rel fun y y' => coreDist m y y' ≤ ε))
      (fun x x' y y' hx hy => trackAvg_moved hη hRQ hx hy) (validHist_moved he _) (validHist_moved ht _) i1 i2
    refine ⟨_, _, h1, h2, hr, hloc, ?_⟩
    unfold total
    dsimp only
    rw [hr, add_sub_add_right_eq_sub]
    exact hloc

/-- Two tracks; the second object moves by `1` at the first time step. -/
example : Moved (coreDist .euclidean) 1 [[some (pt 0), some (pt 4)], [none, some (pt 5)]]
    [[some (pt 0), some (pt 3)], [none, some (pt 5)]] := by
  refine .cons (.cons (.some ?_) (.cons (.some ?_) .nil)) (.cons (.cons .none (.cons (.some ?_) .nil)) .nil) <;>
  · rw [coreDist_pt]
    norm_num

end C167

end Gasur.Props
