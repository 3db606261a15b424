import Verif.Proofs.OspaSetup
import Verif.Proofs.Hellinger

/-! # Symmetry, and values for special rows -/

namespace Gasur.Ospa

open Gasur.Spec

variable {X Y : Type*}

theorem pairDist_swap (c : ℝ) (ue : Bool) (d : X → Y → ℝ) (a : Option X) (b : Option Y) :
    pairDist c ue (fun y x => d x y) b a = pairDist c ue d a b := by
  cases a <;> cases b <;> rfl

theorem assignCost_swap {lsa : Lsa} (hl : ∀ m n D, IsOptimal D (lsa m n D)) (p m n : ℕ) (D : ℕ → ℕ → Option ℝ) :
    assignCost lsa p n m (fun j i => D i j) = assignCost lsa p m n D := by
  by_cases h : ∃ (i : Fin m) (j : Fin n), D i j = none
  · have h' : ∃ (j : Fin n) (i : Fin m), D i j = none := by
      obtain ⟨i, j, h⟩ := h; exact ⟨j, i, h⟩
    unfold assignCost
    rw [if_pos h, if_pos h']
  · have hs : ∀ (i : Fin m) (j : Fin n), D i j = some ((D i j).getD 0) := by
      intro i j
      cases hh : D i j with
      | none => exact absurd ⟨i, j, hh⟩ h
      | some v => rfl
    obtain ⟨v, hv, hm⟩ := assignCost_ok hl p m n D (fun i j => (D i j).getD 0) hs
    obtain ⟨w, hw, hm'⟩ := assignCost_ok hl p n m (fun j i => D i j) (fun j i => (D i j).getD 0)
      (fun j i => hs i j)
    rw [hv, hw, minCost_unique hm' (minCost_swap hm)]

theorem ospaStep_swap {lsa : Lsa} (hl : ∀ m n D, IsOptimal D (lsa m n D)) (c : ℝ) (p : ℕ) (ue : Bool)
    (d : X → Y → ℝ) (e : Row X) (t : Row Y) :
    ospaStep lsa c p ue (fun y x => d x y) t e = ospaStep lsa c p ue d e t := by
  unfold ospaStep
  have h : assignCost lsa p (count t) (count e)
      (fun i j => pairDist c ue (fun y x => d x y) (slot t i) (slot e j)) =
      assignCost lsa p (count e) (count t) (fun i j => pairDist c ue d (slot e i) (slot t j)) := by
    rw [← assignCost_swap hl]
    congr 1
    funext i j
    exact pairDist_swap c ue d _ _
  rw [h, max_comm (count e), abs_sub_comm]
  simp only [and_comm (a := count e = 0), or_comm (a := count e = 0)]

theorem ospaLoop_swap {lsa : Lsa} (hl : ∀ m n D, IsOptimal D (lsa m n D)) (c : ℝ) (p : ℕ) (ue : Bool)
    (d : X → Y → ℝ) : ∀ (est : List (Row X)) (truth : List (Row Y)), est.length = truth.length →
    ospaLoop lsa c p ue (fun y x => d x y) truth est = ospaLoop lsa c p ue d est truth
  | [], [], _ => rfl
  | [], _ :: _, h => absurd h (by simp)
  | _ :: _, [], h => absurd h (by simp)
  | e :: es, t :: ts, h => by
    rw [ospaLoop_cons, ospaLoop_cons, ospaStep_swap hl, ospaLoop_swap hl c p ue d es ts (by simpa using h)]

theorem ospa2Step_swap {lsa : Lsa} (hl : ∀ m n D, IsOptimal D (lsa m n D)) {c : ℝ} {p : ℕ} (hc : 0 ≤ c)
    (hp : p ≠ 0) (d : X → Y → ℝ) (es : List (List (Option X))) (ts : List (List (Option Y))) :
    ospa2Step lsa c p (fun y x => d x y) ts es = ospa2Step lsa c p d es ts := by
  obtain ⟨l, r, h, ho⟩ := ospa2Step_ok hl hc hp d es ts
  obtain ⟨l', r', h', ho'⟩ := ospa2Step_ok hl hc hp (fun y x => d x y) ts es
  have : IsOspa c p (trackAvg c fun y x => d x y) ts es l r := by
    have := isOspa_swap ho
    have e : (fun y x => trackAvg c d x y) = trackAvg c fun y x => d x y := by
      funext y x; exact (trackAvg_swap c d x y).symm
    rwa [e] at this
  obtain ⟨h1, h2⟩ := isOspa_unique this ho'
  rw [h, h', h1, h2]

theorem ospa2_swap {lsa : Lsa} (hl : ∀ m n D, IsOptimal D (lsa m n D)) {c : ℝ} {p : ℕ} (hc : 0 ≤ c) (w : ℕ)
    (d : X → Y → ℝ) (est : List (Row X)) (truth : List (Row Y)) (hlen : est.length = truth.length) :
    ospa2 lsa c p w (fun y x => d x y) truth est = ospa2 lsa c p w d est truth := by
  unfold ospa2
  rw [ospaLoop_swap hl c 1 false d est truth hlen, hlen]
  cases ospaLoop lsa c 1 false d est truth with
  | error e => rfl
  | ok l =>
    simp only
    by_cases hp : p = 0
    · rw [if_pos hp, if_pos hp]
    · rw [if_neg hp, if_neg hp]
      congr 1
      apply List.map_congr_left
      intro tt _
      exact ospa2Step_swap hl hc hp d _ _

theorem effCut_bounds (m : Method) {c : ℝ} (hc : 0 ≤ c) : 0 ≤ effCut m c ∧ effCut m c ≤ c := by
  unfold effCut
  split
  · exact ⟨le_min zero_le_one hc, min_le_right _ _⟩
  · exact ⟨hc, le_rfl⟩

theorem effCut_pos (m : Method) {c : ℝ} (hc : 0 < c) : 0 < effCut m c := by
  unfold effCut
  split
  · exact lt_min zero_lt_one hc
  · exact hc

/-- The cost of a `1 × 1` step. -/
theorem ospaStep_one {lsa : Lsa} (hl : ∀ m n D, IsOptimal D (lsa m n D)) {c : ℝ} {p : ℕ} (hc : 0 ≤ c) (hp : p ≠ 0)
    (ue : Bool) (d : X → Y → ℝ) (e : Row X) (t : Row Y) (he : count e = 1) (ht : count t = 1) {v : ℝ} (hv0 : 0 ≤ v)
    (hv : pairDist c ue d (slot e 0) (slot t 0) = some v) : ospaStep lsa c p ue d e t = .ok (v, 0) := by
  have z1 : ∀ i : Fin (count e), (i : ℕ) = 0 := fun i => by have := i.2; omega
  have z2 : ∀ i : Fin (count t), (i : ℕ) = 0 := fun i => by have := i.2; omega
  obtain ⟨l, r, w, h, hm, h1, h2⟩ := ospaStep_ok hl hc hp ue d e t (fun _ _ => v)
    (fun i j => by rw [z1 i, z2 j]; exact hv)
  have hw : w = v ^ p := by
    obtain ⟨S, hS, rfl⟩ := hm
    unfold matchCost
    rw [Finset.sum_const, hS.1.size, he, ht]; simp
  rw [h, h1, h2, hw, he, ht]
  simp only [max_self, Nat.cast_one, div_one, sub_self, abs_zero, mul_zero]
  rw [root_pow hv0 hp]
  have : (1 / (p : ℝ)) ≠ 0 := by
    have : (p : ℝ) ≠ 0 := by exact_mod_cast hp
    positivity
  rw [Real.zero_rpow this]

theorem objAt_map_some {Z : Type*} (m : List (List Z)) (tt k : ℕ) (z : Z) :
    objAt (m.map (·.map some)) tt k = some z ↔ ∃ r : List Z, m[tt]? = some r ∧ r[k]? = some z := by
  unfold objAt
  rw [List.getElem?_map]
  cases m[tt]? with
  | none => simp
  | some r =>
    simp only [Option.map_some, Option.bind_some, List.getElem?_map, Option.some.injEq, exists_eq_left']
    cases r[k]? <;> simp

/-! ### Concrete objects -/

/-- A one-dimensional object with unit covariance. -/
def pt (a : ℝ) : Obj 1 := ⟨fun _ => a, 1⟩

theorem coreDist_pt (a b : ℝ) : coreDist .euclidean (pt a) (pt b) = |b - a| := by
  unfold coreDist pt
  simp [Real.sqrt_sq_eq_abs]

theorem minCost_const {m n : ℕ} {D : Fin m → Fin n → ℝ} {k v : ℝ} (hD : ∀ i j, D i j = k) (h : MinCost D v) :
    v = (min m n : ℕ) * k := by
  obtain ⟨S, hS, rfl⟩ := h
  unfold matchCost
  simp only [hD]
  rw [Finset.sum_const, hS.1.size, nsmul_eq_mul]

theorem forall₂_right {α β : Type*} {R : α → β → Prop} {P : β → Prop} {l : List α} {l' : List β}
    (h : List.Forall₂ R l l') (hP : ∀ a b, R a b → P b) : ∀ b ∈ l', P b := by
  induction h with
  | nil => simp
  | cons h _ ih =>
    intro b hb
    rcases List.mem_cons.1 hb with rfl | hb
    · exact hP _ _ h
    · exact ih b hb

theorem forall₂_unique {α β : Type*} {R : α → β → Prop} (hR : ∀ a b b', R a b → R a b' → b = b') {l : List α} :
    ∀ {m m' : List β}, List.Forall₂ R l m → List.Forall₂ R l m' → m = m' := by
  induction l with
  | nil => intro m m' h h'; cases h; cases h'; rfl
  | cons a l ih =>
    intro m m' h h'
    cases h with
    | cons h1 h2 =>
      cases h' with
      | cons h1' h2' => rw [hR _ _ _ h1 h1', ih h2 h2']

end Gasur.Ospa
