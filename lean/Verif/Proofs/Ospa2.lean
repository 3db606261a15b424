import Verif.Proofs.Ospa
import Mathlib.Data.List.FinRange
import Mathlib.Data.List.Forall2

/-! # Proofs about OSPA(2), the value zero, and the matrix set-up -/

namespace Gasur.Spec

open Finset

/-- A matching of equally many rows and columns is a bijection. -/
theorem equiv_of_matching {m n : ℕ} (hmn : m = n) {S : Finset (Fin m × Fin n)} (h : IsMatching S) :
    ∃ σ : Fin m ≃ Fin n, ∀ i, (i, σ i) ∈ S := by
  classical
  subst hmn
  have hc : (S.image Prod.fst).card = m := by
    rw [Finset.card_image_of_injOn fun a ha b hb hab => h.row a ha b hb hab, h.size, min_self]
  have hu : S.image Prod.fst = univ := by
    rw [← Finset.card_eq_iff_eq_univ, hc, Fintype.card_fin]
  have hex : ∀ i : Fin m, ∃ j, (i, j) ∈ S := by
    intro i
    have : i ∈ S.image Prod.fst := by rw [hu]; exact mem_univ _
    obtain ⟨⟨a, b⟩, hab, rfl⟩ := Finset.mem_image.1 this
    exact ⟨b, hab⟩
  choose f hf using hex
  have hinj : Function.Injective f := fun i j hij => by
    have := h.col _ (hf i) _ (hf j) hij
    exact congrArg Prod.fst this
  exact ⟨Equiv.ofBijective f (Finite.injective_iff_bijective.1 hinj), hf⟩

theorem matching_of_equiv {m n : ℕ} (σ : Fin m ≃ Fin n) :
    IsMatching (univ.image fun i => (i, σ i)) := by
  have hmn : m = n := by simpa using Fintype.card_congr σ
  refine ⟨?_, ?_, by
    rw [Finset.card_image_of_injective _ fun _ _ h => congrArg Prod.fst h]; simp [hmn]⟩
  · intro a ha b hb hab
    simp at ha hb
    obtain ⟨i, rfl⟩ := ha
    obtain ⟨j, rfl⟩ := hb
    simp at hab; rw [hab]
  · intro a ha b hb hab
    simp at ha hb
    obtain ⟨i, rfl⟩ := ha
    obtain ⟨j, rfl⟩ := hb
    simp at hab; rw [hab]

theorem perm_of_equiv {X : Type*} {l l' : List X} (σ : Fin l.length ≃ Fin l'.length)
    (h : ∀ i, l'.get (σ i) = l.get i) : l.Perm l' := by
  have hlen : l.length = l'.length := by simpa using Fintype.card_congr σ
  have h1 : l = (List.finRange l.length).map l.get := by
    rw [List.map_get_finRange]
  have h2 : l' = (List.finRange l'.length).map l'.get := by
    rw [List.map_get_finRange]
  rw [h1, h2]
  have h3 : (List.finRange l.length).map l.get = ((List.finRange l.length).map σ).map l'.get := by
    rw [List.map_map]
    exact List.map_congr_left fun i _ => (h i).symm
  rw [h3]
  apply List.Perm.map
  rw [List.perm_ext_iff_of_nodup ((List.nodup_finRange _).map σ.injective) (List.nodup_finRange _)]
  intro a
  simp only [List.mem_map, List.mem_finRange, true_and, iff_true]
  exact ⟨σ.symm a, by simp⟩

theorem isOspa_zero_iff {X Y Z : Type*} {c : ℝ} {p : ℕ} (hc : 0 < c) (hp : p ≠ 0) {d : X → Y → ℝ} {xs : List X}
    {ys : List Y} (hd : ∀ x ∈ xs, ∀ y ∈ ys, 0 ≤ d x y) (f : X → Z) (g : Y → Z)
    (hfg : ∀ x ∈ xs, ∀ y ∈ ys, (d x y = 0 ↔ f x = g y)) {l r : ℝ} (h : IsOspa c p d xs ys l r) :
    l + r = 0 ↔ (xs.map f).Perm (ys.map g) := by
  obtain ⟨v, hv, rfl, rfl⟩ := h
  have hcell : ∀ i j, 0 ≤ cutMat c p d xs ys i j := fun i j =>
    pow_nonneg (le_min (hd _ (List.getElem_mem _) _ (List.getElem_mem _)) hc.le) p
  have hz : ∀ i j, cutMat c p d xs ys i j = 0 ↔ f (xs.get i) = g (ys.get j) := by
    intro i j
    rw [← hfg _ (List.get_mem _ _) _ (List.get_mem _ _)]
    unfold cutMat
    rw [pow_eq_zero_iff hp]
    have h0 : 0 ≤ d xs[i] ys[j] := hd _ (List.getElem_mem _) _ (List.getElem_mem _)
    constructor
    · intro hmin
      rcases min_choice (d xs[i] ys[j]) c with h | h
      · rw [h] at hmin; exact hmin
      · rw [h] at hmin; exact absurd hmin hc.ne'
    · intro h
      have h' : d xs[i] ys[j] = 0 := h
      rw [h']; exact min_eq_left hc.le
  have hv0 := minCost_nonneg hcell hv
  have hp' : (1 / (p : ℝ)) ≠ 0 := by
    have : (p : ℝ) ≠ 0 := by exact_mod_cast hp
    positivity
  have n1 : 0 ≤ v / ((max xs.length ys.length : ℕ) : ℝ) := by positivity
  have n2 : 0 ≤ c ^ p * |(xs.length : ℝ) - ys.length| / ((max xs.length ys.length : ℕ) : ℝ) := by positivity
  rw [add_eq_zero_iff_of_nonneg (Real.rpow_nonneg n1 _) (Real.rpow_nonneg n2 _),
    Real.rpow_eq_zero n1 hp', Real.rpow_eq_zero n2 hp']
  constructor
  · rintro ⟨h1, h2⟩
    have hlen : xs.length = ys.length := by
      rw [div_eq_zero_iff, mul_eq_zero] at h2
      rcases h2 with (h2 | h2) | h2
      · exact absurd h2 (pow_pos hc p).ne'
      · have : (xs.length : ℝ) = ys.length := by linarith [abs_eq_zero.1 h2]
        exact_mod_cast this
      · have : max xs.length ys.length = 0 := by exact_mod_cast h2
        omega
    have hv' : v = 0 := by
      rw [div_eq_zero_iff] at h1
      rcases h1 with h1 | h1
      · exact h1
      · have : max xs.length ys.length = 0 := by exact_mod_cast h1
        have hx : xs.length = 0 := by omega
        have := minCost_le (B := 0) (fun i j => absurd i.2 (by omega)) hv
        have hv2 : v ≤ 0 := by simpa using this
        exact le_antisymm hv2 hv0
    obtain ⟨S, hS, h0⟩ := (minCost_eq_zero hcell hv).1 hv'
    obtain ⟨σ, hσ⟩ := equiv_of_matching hlen hS
    have e1 : (xs.map f).length = xs.length := List.length_map ..
    have e2 : ys.length = (ys.map g).length := (List.length_map ..).symm
    refine perm_of_equiv ((finCongr e1).trans (σ.trans (finCongr e2))) fun i => ?_
    have := (hz _ _).1 (h0 _ (hσ (finCongr e1 i)))
    simp only [List.get_eq_getElem, List.getElem_map]
    exact this.symm
  · intro hperm
    have hlen : xs.length = ys.length := by simpa using hperm.length_eq
    obtain ⟨σ, hσ⟩ := exists_equiv_of_perm hperm
    have e1 : xs.length = (xs.map f).length := (List.length_map ..).symm
    have e2 : (ys.map g).length = ys.length := List.length_map ..
    have hv' : v = 0 := by
      rw [minCost_eq_zero hcell hv]
      refine ⟨_, matching_of_equiv ((finCongr e1).trans (σ.trans (finCongr e2))), ?_⟩
      intro a ha
      simp at ha
      obtain ⟨i, rfl⟩ := ha
      rw [hz]
      have := hσ (finCongr e1 i)
      simp only [List.get_eq_getElem, List.getElem_map] at this
      exact this.symm
    rw [hv', hlen]; simp

end Gasur.Spec

namespace Gasur.Ospa

open Gasur.Spec

variable {X Y : Type*}

/-! ### OSPA(2) -/

theorem zipWith_reduce (c : ℝ) (d : X → Y → ℝ) : ∀ (hx : List (Option X)) (hy : List (Option Y)),
    (List.zipWith (pairDist c false d) hx hy).reduceOption = (existing hx hy).map (errAt c d)
  | [], _ => by simp [existing]
  | _ :: _, [] => by simp [existing]
  | a :: hx, b :: hy => by
    have ih := zipWith_reduce c d hx hy
    rw [List.zipWith_cons_cons]
    have hE : existing (a :: hx) (b :: hy) =
        if (a.isSome || b.isSome) then (a, b) :: existing hx hy else existing hx hy := by
      unfold existing
      rw [List.zip_cons_cons, List.filter_cons]
    rw [hE]
    cases a <;> cases b <;> simp [pairDist, errAt, ih, List.reduceOption_cons_of_some,
      List.reduceOption_cons_of_none]

theorem trackDist_eq (c : ℝ) (d : X → Y → ℝ) (hx : List (Option X)) (hy : List (Option Y)) :
    trackDist c d hx hy = trackAvg c d hx hy := by
  unfold trackDist nanmean trackAvg
  rw [zipWith_reduce]
  by_cases h : (existing hx hy).map (errAt c d) = []
  · rw [if_pos h, List.map_eq_nil_iff.1 h]; simp
  · rw [if_neg h]; simp

theorem sum_bounds {B : ℝ} : ∀ (l : List ℝ), (∀ x ∈ l, 0 ≤ x ∧ x ≤ B) → 0 ≤ l.sum ∧ l.sum ≤ l.length * B
  | [], _ => by simp
  | a :: l, h => by
    have ih := sum_bounds l fun x hx => h x (by simp [hx])
    have ha := h a (by simp)
    rw [List.sum_cons, List.length_cons]
    push_cast
    exact ⟨by linarith [ih.1], by linarith [ih.2]⟩

theorem trackAvg_bounds {c : ℝ} (hc : 0 ≤ c) {d : X → Y → ℝ} {hx : List (Option X)} {hy : List (Option Y)}
    (hd : ∀ x, some x ∈ hx → ∀ y, some y ∈ hy → 0 ≤ d x y) :
    0 ≤ trackAvg c d hx hy ∧ trackAvg c d hx hy ≤ c := by
  have hb : ∀ v ∈ (existing hx hy).map (errAt c d), 0 ≤ v ∧ v ≤ c := by
    intro v hv
    rw [List.mem_map] at hv
    obtain ⟨⟨a, b⟩, hab, rfl⟩ := hv
    unfold existing at hab
    have hab := List.of_mem_zip (List.mem_filter.1 hab).1
    cases a <;> cases b <;> simp [errAt, hc]
    exact hd _ hab.1 _ hab.2
  have hs := sum_bounds _ hb
  rw [List.length_map] at hs
  unfold trackAvg
  rcases Nat.eq_zero_or_pos (existing hx hy).length with h | h
  · rw [h]; simpa using hc
  · have hpos : (0 : ℝ) < (existing hx hy).length := by exact_mod_cast h
    exact ⟨by apply div_nonneg hs.1 hpos.le, by rw [div_le_iff₀ hpos]; linarith [hs.2]⟩

theorem trackAvg_le {c : ℝ} {d : X → Y → ℝ} (hc : 0 ≤ c) (hx : List (Option X)) (hy : List (Option Y)) :
    trackAvg c d hx hy ≤ c := by
  have hb : ∀ v ∈ (existing hx hy).map (errAt c d), v ≤ c := by
    intro v hv
    rw [List.mem_map] at hv
    obtain ⟨⟨a, b⟩, _, rfl⟩ := hv
    cases a <;> cases b <;> simp [errAt]
  have hs : ((existing hx hy).map (errAt c d)).sum ≤ (existing hx hy).length * c := by
    have := List.sum_le_card_nsmul _ c hb
    simpa using this
  unfold trackAvg
  rcases Nat.eq_zero_or_pos (existing hx hy).length with h | h
  · rw [h]; simpa using hc
  · have hpos : (0 : ℝ) < (existing hx hy).length := by exact_mod_cast h
    rw [div_le_iff₀ hpos]; linarith

theorem existing_swap : ∀ (hx : List (Option X)) (hy : List (Option Y)),
    existing hy hx = (existing hx hy).map Prod.swap
  | [], _ => by simp [existing]
  | _ :: _, [] => by simp [existing]
  | a :: hx, b :: hy => by
    have ih := existing_swap hx hy
    unfold existing at ih ⊢
    rw [List.zip_cons_cons, List.zip_cons_cons, List.filter_cons, List.filter_cons, ih]
    cases a <;> cases b <;> simp

theorem trackAvg_swap (c : ℝ) (d : X → Y → ℝ) (hx : List (Option X)) (hy : List (Option Y)) :
    trackAvg c (fun y x => d x y) hy hx = trackAvg c d hx hy := by
  unfold trackAvg
  rw [existing_swap hx hy, List.map_map, List.length_map]
  congr 2
  apply List.map_congr_left
  rintro ⟨a, b⟩ _
  cases a <;> cases b <;> rfl

theorem ospa2Step_ok {lsa : Lsa} (hl : ∀ m n D, IsOptimal D (lsa m n D)) {c : ℝ} {p : ℕ} (hc : 0 ≤ c) (hp : p ≠ 0)
    (d : X → Y → ℝ) (es : List (List (Option X))) (ts : List (List (Option Y))) :
    ∃ l r, ospa2Step lsa c p d es ts = .ok (l, r) ∧ IsOspa c p (trackAvg c d) es ts l r := by
  obtain ⟨v, hv, hm⟩ := assignCost_ok hl p es.length ts.length
    (fun i j => some (trackDist c d ((es[i]?).getD []) ((ts[j]?).getD [])))
    (fun i j => min (trackAvg c d es[i] ts[j]) c) (fun i j => by
      simp [trackDist_eq, min_eq_left (trackAvg_le hc _ _)])
  have hm : MinCost (cutMat c p (trackAvg c d) es ts) v := hm
  by_cases h0 : ts.length = 0 ∧ es.length = 0
  · refine ⟨0, 0, by unfold ospa2Step; rw [if_pos h0], v, hm, ?_, ?_⟩
    · rw [h0.1, h0.2]; simp [hp]
    · rw [h0.1, h0.2]; simp [hp]
  · by_cases h1 : ts.length = 0 ∨ es.length = 0
    · have hz : v = 0 := by
        obtain ⟨S, hS, rfl⟩ := hm
        have : S.card = 0 := by
          rw [hS.1.size]; rcases h1 with h | h <;> simp [h]
        rw [Finset.card_eq_zero.1 this]; rfl
      refine ⟨_, _, by unfold ospa2Step; rw [if_neg h0, if_pos h1], v, hm, ?_, ?_⟩
      · rw [hz, max_comm]
      · rw [max_comm]
    · refine ⟨_, _, by unfold ospa2Step; rw [if_neg h0, if_neg h1, hv], v, hm, ?_, ?_⟩
      · rw [max_comm]
      · rw [max_comm]

theorem slot_eq_objAt (mat : List (Row X)) (tt i : ℕ) : slot ((mat[tt]?).getD []) i = objAt mat tt i := by
  unfold slot objAt
  cases h : mat[tt]? with
  | none => simp
  | some r =>
    simp only [Option.getD_some, Option.bind_some]
    cases r[i]? <;> rfl

theorem window_eq (tt w : ℕ) : window tt w = List.range' (tt + 1 - w) (min w (tt + 1)) := by
  unfold window
  rw [List.range_eq_range', List.drop_range']
  congr 1 <;> omega

theorem validHist_eq (mat : List (Row X)) (tt w : ℕ) :
    validHist mat (window tt w) = liveTracks mat (numSlots mat) tt w := by
  unfold validHist liveTracks hist
  rw [window_eq]
  congr 1
  apply List.map_congr_left
  intro i _
  apply List.map_congr_left
  intro s _
  exact slot_eq_objAt _ _ _

theorem foldr_max_const {N : ℕ} : ∀ {l : List ℕ}, (∀ x ∈ l, x = N) → l ≠ [] → l.foldr max 0 = N
  | [], _, h => absurd rfl h
  | [a], h, _ => by simp [h a (by simp)]
  | a :: b :: l, h, _ => by
    rw [List.foldr_cons, foldr_max_const (l := b :: l) (fun x hx => h x (List.mem_cons_of_mem _ hx)) (by simp),
      h a (by simp)]
    exact max_self N

theorem numSlots_const {mat : List (Row X)} {N : ℕ} (h : ∀ r ∈ mat, r.length = N) (hne : mat ≠ []) :
    numSlots mat = N :=
  foldr_max_const (by simpa using h) (by simpa using hne)

theorem liveTracks_perm {mat mat' : List (Row X)} {N : ℕ} (σ : Equiv.Perm (Fin N))
    (h : ∀ tt (i : Fin N), objAt mat' tt (σ i) = objAt mat tt i) (tt w : ℕ) :
    (liveTracks mat N tt w).Perm (liveTracks mat' N tt w) := by
  unfold liveTracks
  apply List.Perm.filter
  have key : ∀ F : ℕ → List (Option X), (List.range N).map F = (List.finRange N).map fun i : Fin N => F i := by
    intro F
    rw [← List.map_coe_finRange_eq_range, List.map_map]; rfl
  rw [key, key]
  have h2 : ((List.finRange N).map fun (i : Fin N) =>
        (List.range' (tt + 1 - w) (min w (tt + 1))).map fun s => objAt mat s i) =
      ((List.finRange N).map σ).map fun (i : Fin N) =>
        (List.range' (tt + 1 - w) (min w (tt + 1))).map fun s => objAt mat' s i := by
    rw [List.map_map]
    apply List.map_congr_left
    intro i _
    apply List.map_congr_left
    intro s _
    exact (h s i).symm
  rw [h2]
  apply List.Perm.map
  rw [List.perm_ext_iff_of_nodup ((List.nodup_finRange _).map σ.injective) (List.nodup_finRange _)]
  intro a
  simp only [List.mem_map, List.mem_finRange, true_and, iff_true]
  exact ⟨σ.symm a, by simp⟩

theorem validHist_relabel {mat mat' : List (Row X)} (h : Relabelled mat mat') (tt w : ℕ) :
    (validHist mat (window tt w)).Perm (validHist mat' (window tt w)) := by
  obtain ⟨hlen, N, σ, h1, h2, h3⟩ := h
  rw [validHist_eq, validHist_eq]
  by_cases hne : mat = []
  · have hne' : mat' = [] := by
      rw [← List.length_eq_zero_iff, ← hlen, hne]; rfl
    rw [hne, hne']
  · have hne' : mat' ≠ [] := by
      intro h; apply hne; rw [← List.length_eq_zero_iff, hlen, h]; rfl
    rw [numSlots_const h1 hne, numSlots_const h2 hne']
    exact liveTracks_perm σ h3 tt w

theorem mem_validHist {mat : List (Row X)} {win : List ℕ} {h : List (Option X)} (hh : h ∈ validHist mat win)
    {x : X} (hx : some x ∈ h) : ∃ r ∈ mat, some x ∈ r := by
  unfold validHist at hh
  obtain ⟨i, _, rfl⟩ := List.mem_map.1 (List.mem_filter.1 hh).1
  unfold hist at hx
  obtain ⟨tt, _, hs⟩ := List.mem_map.1 hx
  have := mem_of_slot hs
  cases hr : mat[tt]? with
  | none => rw [hr] at this; simp at this
  | some r => rw [hr] at this; exact ⟨r, List.mem_of_getElem? hr, by simpa using this⟩

/-! ### Window of length one -/

theorem hist_one (mat : List (Row X)) {tt : ℕ} {r : Row X} (hr : mat[tt]? = some r) (i : ℕ) :
    hist mat (window tt 1) i = [slot r i] := by
  rw [window_eq]
  have : List.range' (tt + 1 - 1) (min 1 (tt + 1)) = [tt] := by
    rw [Nat.min_eq_left (by omega)]; simp
  rw [this]
  simp [hist, hr]

theorem filter_slots (r : Row X) : ∀ N, r.length ≤ N →
    ((List.range N).map fun i => [slot r i]).filter (fun h => h.any Option.isSome) =
      r.reduceOption.map fun x => [some x] := by
  induction r with
  | nil =>
    intro N _
    have : ((List.range N).map fun i => [slot ([] : Row X) i]) = (List.range N).map fun _ => [none] := by
      apply List.map_congr_left; intro i _; simp [slot]
    rw [this]
    simp
  | cons a r ih =>
    intro N hN
    obtain ⟨N, rfl⟩ : ∃ M, N = M + 1 := ⟨N - 1, by simp at hN; omega⟩
    rw [List.range_succ_eq_map, List.map_cons, List.map_map, List.filter_cons]
    have e : ((fun i => [slot (a :: r) i]) ∘ Nat.succ) = fun i => [slot r i] := by
      funext i; simp [slot]
    rw [e, ih N (by simpa using hN)]
    cases a with
    | none => simp [slot, List.reduceOption_cons_of_none]
    | some x => simp [slot, List.reduceOption_cons_of_some]

theorem le_foldr_max {l : List ℕ} {x : ℕ} (h : x ∈ l) : x ≤ l.foldr max 0 := by
  induction l with
  | nil => simp at h
  | cons a l ih =>
    rw [List.foldr_cons]
    rcases List.mem_cons.1 h with rfl | h
    · exact le_max_left _ _
    · exact (ih h).trans (le_max_right _ _)

theorem validHist_one (mat : List (Row X)) {tt : ℕ} {r : Row X} (hr : mat[tt]? = some r) :
    validHist mat (window tt 1) = r.reduceOption.map fun x => [some x] := by
  unfold validHist
  have : (List.range (numSlots mat)).map (hist mat (window tt 1)) =
      (List.range (numSlots mat)).map fun i => [slot r i] :=
    List.map_congr_left fun i _ => hist_one mat hr i
  rw [this]
  exact filter_slots r _ (le_foldr_max (List.mem_map.2 ⟨r, List.mem_of_getElem? hr, rfl⟩))

theorem trackAvg_one (c : ℝ) (d : X → Y → ℝ) (x : X) (y : Y) :
    trackAvg c d [some x] [some y] = min (d x y) c := by
  simp [trackAvg, existing, errAt]

theorem isOspa_one {c : ℝ} {p : ℕ} {d : X → Y → ℝ} {xs : List X} {ys : List Y} {l r : ℝ}
    (h : IsOspa c p (trackAvg c d) (xs.map fun x => [some x]) (ys.map fun y => [some y]) l r) :
    IsOspa c p d xs ys l r := by
  obtain ⟨v, hv, h1, h2⟩ := h
  have e1 : (xs.map fun x => [some x]).length = xs.length := List.length_map ..
  have e2 : (ys.map fun x => [some x]).length = ys.length := List.length_map ..
  refine ⟨v, ?_, ?_, ?_⟩
  · refine minCost_reindex (finCongr e1) (finCongr e2) _ _ (fun i j => ?_) hv
    unfold cutMat
    simp [trackAvg_one]
  · rw [h1, e1, e2]
  · rw [h2, e1, e2]

end Gasur.Ospa
