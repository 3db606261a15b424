import Verif.Model.Ospa
import Verif.Proofs.OspaMatch
import Mathlib.Tactic.FieldSimp
import Mathlib.Tactic.Ring

/-! # Proofs about the OSPA model -/

namespace Gasur.Ospa

open Gasur.Spec

variable {X Y : Type*}

theorem exists_lsa : ∃ lsa : Lsa, ∀ m n D, IsOptimal D (lsa m n D) :=
  ⟨fun _ _ D => (exists_optimal D).choose, fun _ _ D => (exists_optimal D).choose_spec⟩

theorem assignCost_ok {lsa : Lsa} (hl : ∀ m n D, IsOptimal D (lsa m n D)) (p m n : ℕ) (D : ℕ → ℕ → Option ℝ)
    (f : Fin m → Fin n → ℝ) (h : ∀ (i : Fin m) (j : Fin n), D i j = some (f i j)) :
    ∃ v, assignCost lsa p m n D = .ok v ∧ MinCost (fun i j => f i j ^ p) v := by
  have hf : (fun (i : Fin m) (j : Fin n) => ((D i j).getD 0) ^ p) = fun i j => f i j ^ p := by
    funext i j; rw [h]; rfl
  refine ⟨_, ?_, minCost_of_optimal (hl m n _)⟩
  unfold assignCost
  rw [if_neg (by rintro ⟨i, j, hij⟩; rw [h] at hij; exact absurd hij (by simp)), hf]
  congr 1
  exact Finset.sum_congr rfl fun a _ => by rw [h]; rfl

theorem assignCost_invalid (lsa : Lsa) (p m n : ℕ) (D : ℕ → ℕ → Option ℝ) :
    (∃ e, assignCost lsa p m n D = .error e) ↔ ∃ (i : Fin m) (j : Fin n), D i j = none := by
  unfold assignCost
  by_cases h : ∃ (i : Fin m) (j : Fin n), D i j = none
  · rw [if_pos h]; exact ⟨fun _ => h, fun _ => ⟨_, rfl⟩⟩
  · rw [if_neg h]; exact ⟨fun ⟨_, h'⟩ => by simp at h', fun h' => absurd h' h⟩

theorem rpow_pow_root {x : ℝ} (hx : 0 ≤ x) {p : ℕ} (hp : p ≠ 0) : (x ^ (1 / (p : ℝ))) ^ p = x := by
  rw [one_div]; exact Real.rpow_inv_natCast_pow hx hp

theorem root_pow {c : ℝ} (hc : 0 ≤ c) {p : ℕ} (hp : p ≠ 0) : (c ^ p) ^ (1 / (p : ℝ)) = c := by
  rw [one_div]; exact Real.pow_rpow_inv_natCast hc hp

theorem root_le {x c : ℝ} (hx : 0 ≤ x) (hc : 0 ≤ c) {p : ℕ} (hp : p ≠ 0) (h : x ≤ c ^ p) :
    x ^ (1 / (p : ℝ)) ≤ c := by
  rw [← root_pow hc hp]
  exact Real.rpow_le_rpow hx h (by positivity)

/-- The relation between the two components and the count. -/
theorem components {m n : ℕ} {c v : ℝ} {p : ℕ} (hc : 0 ≤ c) (hp : p ≠ 0) (h0 : 0 ≤ v)
    (hv : v ≤ (min m n : ℕ) * c ^ p) {l r : ℝ} (hl : l = (v / (max m n : ℕ)) ^ (1 / (p : ℝ)))
    (hr : r = (c ^ p * |(m : ℝ) - n| / (max m n : ℕ)) ^ (1 / (p : ℝ))) :
    0 ≤ l ∧ 0 ≤ r ∧ l ^ p + r ^ p ≤ c ^ p := by
  have hcp : 0 ≤ c ^ p := pow_nonneg hc p
  have h1 : 0 ≤ v / (max m n : ℕ) := by positivity
  have h2 : 0 ≤ c ^ p * |(m : ℝ) - n| / (max m n : ℕ) := by positivity
  refine ⟨hl ▸ Real.rpow_nonneg h1 _, hr ▸ Real.rpow_nonneg h2 _, ?_⟩
  rw [hl, hr, rpow_pow_root h1 hp, rpow_pow_root h2 hp, ← add_div]
  rcases Nat.eq_zero_or_pos (max m n) with h | h
  · rw [h]; simpa using hcp
  · have hpos : (0 : ℝ) < (max m n : ℕ) := by exact_mod_cast h
    rw [div_le_iff₀ hpos]
    have hmm : ((min m n : ℕ) : ℝ) + |(m : ℝ) - n| = (max m n : ℕ) := by
      rcases le_total m n with hmn | hmn
      · have : (m : ℝ) ≤ n := by exact_mod_cast hmn
        rw [min_eq_left hmn, max_eq_right hmn, abs_of_nonpos (by linarith)]; ring
      · have : (n : ℝ) ≤ m := by exact_mod_cast hmn
        rw [min_eq_right hmn, max_eq_left hmn, abs_of_nonneg (by linarith)]; ring
    rw [← hmm]; nlinarith

theorem le_of_pow_add {l r c : ℝ} {p : ℕ} (hc : 0 ≤ c) (hp : p ≠ 0) (hl : 0 ≤ l) (hr : 0 ≤ r)
    (h : l ^ p + r ^ p ≤ c ^ p) : l ≤ c ∧ r ≤ c :=
  ⟨(pow_le_pow_iff_left₀ hl hc hp).1 (by have := pow_nonneg hr p; linarith),
   (pow_le_pow_iff_left₀ hr hc hp).1 (by have := pow_nonneg hl p; linarith)⟩

/-- The step of the code in terms of a value of a matching of the slots. -/
theorem ospaStep_ok {lsa : Lsa} (hl : ∀ m n D, IsOptimal D (lsa m n D)) {c : ℝ} {p : ℕ} (hc : 0 ≤ c) (hp : p ≠ 0)
    (ue : Bool) (d : X → Y → ℝ) (e : Row X) (t : Row Y) (f : Fin (count e) → Fin (count t) → ℝ)
    (hf : ∀ (i : Fin (count e)) (j : Fin (count t)), pairDist c ue d (slot e i) (slot t j) = some (f i j)) :
    ∃ l r v, ospaStep lsa c p ue d e t = .ok (l, r) ∧ MinCost (fun i j => f i j ^ p) v ∧
      l = (v / (max (count e) (count t) : ℕ)) ^ (1 / (p : ℝ)) ∧
      r = (c ^ p * |(count e : ℝ) - count t| / (max (count e) (count t) : ℕ)) ^ (1 / (p : ℝ)) := by
  have hp' : (1 / (p : ℝ)) ≠ 0 := by
    have : (p : ℝ) ≠ 0 := by exact_mod_cast hp
    positivity
  obtain ⟨v, hv, hm⟩ := assignCost_ok hl p (count e) (count t)
    (fun i j => pairDist c ue d (slot e i) (slot t j)) f hf
  by_cases h0 : count t = 0 ∧ count e = 0
  · refine ⟨0, 0, v, by unfold ospaStep; rw [if_pos h0], hm, ?_, ?_⟩
    · rw [h0.1, h0.2]; simp [Real.zero_rpow (by exact_mod_cast hp : (p : ℝ) ≠ 0), hp]
    · rw [h0.1, h0.2]; simp [hp]
  · by_cases h1 : count t = 0 ∨ count e = 0
    · have hz : v = 0 := by
        obtain ⟨S, hS, rfl⟩ := hm
        have : S.card = 0 := by
          rw [hS.1.size]; rcases h1 with h | h <;> simp [h]
        rw [Finset.card_eq_zero.1 this]; rfl
      refine ⟨0, c, v, by unfold ospaStep; rw [if_neg h0, if_pos h1], hm, ?_, ?_⟩
      · rw [hz]; simp [hp]
      · have : c ^ p * |(count e : ℝ) - count t| / (max (count e) (count t) : ℕ) = c ^ p := by
          rcases h1 with h | h
          · have he : (count e : ℝ) ≠ 0 := by
              intro h'; exact h0 ⟨h, by exact_mod_cast h'⟩
            rw [h]; simp; field_simp
          · have he : (count t : ℝ) ≠ 0 := by
              intro h'; exact h0 ⟨by exact_mod_cast h', h⟩
            rw [h]; simp; field_simp
        rw [this, root_pow hc hp]
    · refine ⟨_, _, v, by unfold ospaStep; rw [if_neg h0, if_neg h1, hv]; simp only; rw [if_neg hp], hm, ?_, ?_⟩
      · rw [max_comm, one_div, inv_mul_eq_div, max_comm]
      · rw [max_comm (count t), abs_sub_comm]; congr 1; ring

/-- With `use_empty = True` no distance is NaN. -/
noncomputable def pairVal (c : ℝ) (d : X → Y → ℝ) : Option X → Option Y → ℝ
  | some x, some y => min (d x y) c
  | none, none => min 0 c
  | _, _ => min c c

theorem pairDist_true (c : ℝ) (d : X → Y → ℝ) (a : Option X) (b : Option Y) :
    pairDist c true d a b = some (pairVal c d a b) := by
  cases a <;> cases b <;> rfl

theorem pairVal_bounds {c : ℝ} (hc : 0 ≤ c) {d : X → Y → ℝ} {a : Option X} {b : Option Y}
    (hd : ∀ x ∈ a, ∀ y ∈ b, 0 ≤ d x y) : 0 ≤ pairVal c d a b ∧ pairVal c d a b ≤ c := by
  cases a <;> cases b <;> simp [pairVal, hc]
  exact hd _ rfl _ rfl

theorem mem_of_slot {r : Row X} {i : ℕ} {x : X} (h : slot r i = some x) : some x ∈ r := by
  unfold slot at h
  cases hh : r[i]? with
  | none => rw [hh] at h; exact absurd h (by simp)
  | some y => rw [hh] at h; simp at h; subst h; exact List.mem_of_getElem? hh

theorem ospaStep_bounds {lsa : Lsa} (hl : ∀ m n D, IsOptimal D (lsa m n D)) {c : ℝ} {p : ℕ} (hc : 0 ≤ c)
    (hp : p ≠ 0) (d : X → Y → ℝ) (e : Row X) (t : Row Y)
    (hd : ∀ x, some x ∈ e → ∀ y, some y ∈ t → 0 ≤ d x y) :
    ∃ l r, ospaStep lsa c p true d e t = .ok (l, r) ∧ 0 ≤ l ∧ 0 ≤ r ∧ l ^ p + r ^ p ≤ c ^ p := by
  obtain ⟨l, r, v, h, hm, h1, h2⟩ := ospaStep_ok hl hc hp true d e t
    (fun i j => pairVal c d (slot e i) (slot t j)) (fun i j => pairDist_true c d _ _)
  have hb : ∀ (i : Fin (count e)) (j : Fin (count t)),
      0 ≤ pairVal c d (slot e i) (slot t j) ∧ pairVal c d (slot e i) (slot t j) ≤ c := fun i j =>
    pairVal_bounds hc fun x hx y hy => hd x (mem_of_slot hx) y (mem_of_slot hy)
  exact ⟨l, r, h, components hc hp (minCost_nonneg (fun i j => pow_nonneg (hb i j).1 p) hm)
    (minCost_le (fun i j => pow_le_pow_left₀ (hb i j).1 (hb i j).2 p) hm) h1 h2⟩

/-! ### Packed rows -/

theorem packed_count {xs : List X} {k : ℕ} : count (xs.map some ++ List.replicate k none) = xs.length := by
  unfold count
  rw [List.countP_append, List.countP_replicate, List.countP_map]
  simp [Function.comp_def]

theorem packed_slot {xs : List X} {k : ℕ} (i : ℕ) (h : i < xs.length) :
    slot (xs.map some ++ List.replicate k none) i = some xs[i] := by
  unfold slot
  rw [List.getElem?_append_left (by simpa using h)]
  simp [h]

theorem packed_reduce {xs : List X} {k : ℕ} : (xs.map some ++ List.replicate k none).reduceOption = xs := by
  rw [List.reduceOption_append]
  simp [List.reduceOption]

theorem ospaStep_packed {lsa : Lsa} (hl : ∀ m n D, IsOptimal D (lsa m n D)) {c : ℝ} {p : ℕ} (hc : 0 ≤ c)
    (hp : p ≠ 0) (ue : Bool) (d : X → Y → ℝ) {e : Row X} {t : Row Y} (he : Packed e) (ht : Packed t) :
    ∃ l r, ospaStep lsa c p ue d e t = .ok (l, r) ∧ IsOspa c p d e.reduceOption t.reduceOption l r := by
  obtain ⟨xs, k, rfl⟩ := he
  obtain ⟨ys, k', rfl⟩ := ht
  have ex : ∀ (i : Fin (count (xs.map some ++ List.replicate k none))), (i : ℕ) < xs.length := fun i =>
    lt_of_lt_of_eq i.2 packed_count
  have ey : ∀ (i : Fin (count (ys.map some ++ List.replicate k' none))), (i : ℕ) < ys.length := fun i =>
    lt_of_lt_of_eq i.2 packed_count
  obtain ⟨l, r, v, h, hm, h1, h2⟩ := ospaStep_ok hl hc hp ue d (xs.map some ++ List.replicate k none)
    (ys.map some ++ List.replicate k' none) (fun i j => min (d (xs[(i : ℕ)]'(ex i)) (ys[(j : ℕ)]'(ey j))) c)
    (fun i j => by rw [packed_slot _ (ex i), packed_slot _ (ey j)]; rfl)
  refine ⟨l, r, h, v, ?_, ?_, ?_⟩
  · rw [packed_reduce, packed_reduce]
    exact minCost_reindex (finCongr packed_count) (finCongr packed_count) _ _ (fun i j => rfl) hm
  · rw [packed_reduce, packed_reduce, h1, packed_count, packed_count]
  · rw [packed_reduce, packed_reduce, h2, packed_count, packed_count]

/-! ### The loop -/

theorem ospaLoop_forall {lsa : Lsa} {c : ℝ} {p : ℕ} {ue : Bool} {d : X → Y → ℝ}
    (P : Row X → Row Y → ℝ × ℝ → Prop) : ∀ (est : List (Row X)) (truth : List (Row Y)),
    truth.length ≤ est.length →
    (∀ a ∈ est.zip truth, ∃ r, ospaStep lsa c p ue d a.1 a.2 = .ok r ∧ P a.1 a.2 r) →
    ∃ out, ospaLoop lsa c p ue d est truth = .ok out ∧
      List.Forall₂ (fun a r => P a.1 a.2 r) (est.zip truth) out
  | est, [], _, _ => ⟨[], by unfold ospaLoop; rfl, by simp⟩
  | [], _ :: _, h, _ => absurd h (by simp)
  | e :: es, t :: ts, hlen, h => by
    obtain ⟨r, hr, hP⟩ := h (e, t) (by simp)
    obtain ⟨out, ho, hf⟩ := ospaLoop_forall P es ts (by simpa using hlen)
      (fun a ha => h a (by simp [ha]))
    refine ⟨r :: out, ?_, ?_⟩
    · unfold ospaLoop
      simp only at hr
      rw [hr]; simp only; rw [ho]
    · rw [List.zip_cons_cons]
      exact List.Forall₂.cons hP hf

theorem ospaLoop_cons (lsa : Lsa) (c : ℝ) (p : ℕ) (ue : Bool) (d : X → Y → ℝ) (e : Row X) (es : List (Row X))
    (t : Row Y) (ts : List (Row Y)) : ospaLoop lsa c p ue d (e :: es) (t :: ts) =
    match ospaStep lsa c p ue d e t with
    | .error x => .error x
    | .ok r =>
      match ospaLoop lsa c p ue d es ts with
      | .error x => .error x
      | .ok l => .ok (r :: l) := rfl

theorem ospaLoop_error {lsa : Lsa} {c : ℝ} {p : ℕ} {ue : Bool} {d : X → Y → ℝ} :
    ∀ (est : List (Row X)) (truth : List (Row Y)), truth.length ≤ est.length →
    ((∃ x, ospaLoop lsa c p ue d est truth = .error x) ↔
      ∃ a ∈ est.zip truth, ∃ x, ospaStep lsa c p ue d a.1 a.2 = .error x)
  | est, [], _ => by simp [ospaLoop]
  | [], _ :: _, h => absurd h (by simp)
  | e :: es, t :: ts, hlen => by
    have ih := ospaLoop_error (lsa := lsa) (c := c) (p := p) (ue := ue) (d := d) es ts (by simpa using hlen)
    rw [List.zip_cons_cons]
    simp only [List.mem_cons, exists_eq_or_imp]
    rw [← ih, ospaLoop_cons]
    cases h1 : ospaStep lsa c p ue d e t with
    | error x => simp [h1]
    | ok r =>
      simp only [h1]
      cases h2 : ospaLoop lsa c p ue d es ts with
      | error x => simp
      | ok r => simp

end Gasur.Ospa
