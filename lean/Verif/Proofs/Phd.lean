import Verif.Spec.Phd
import Mathlib.Algebra.BigOperators.Group.List.Basic
import Mathlib.Algebra.Order.BigOperators.Group.List
import Mathlib.Algebra.Module.BigOperators
import Mathlib.Data.List.Perm.Basic
import Mathlib.Data.List.Sort
import Mathlib.Data.List.Range
import Mathlib.Tactic.Ring
import Mathlib.Tactic.Linarith
import Mathlib.Tactic.FieldSimp
import Mathlib.Algebra.Module.Basic

/-! Proofs about the PHD model. -/

set_option linter.unusedSectionVars false
set_option linter.unusedSimpArgs false

namespace Gasur.Phd

open Gasur.Spec

variable {K V P Z : Type*}

theorem aligned_iff (m : Mix K V P) : Aligned m ↔ ∃ cs, m = ofComps cs := by
  constructor
  · rintro ⟨h1, h2⟩
    refine ⟨m.ws.zip (m.ms.zip m.ps), ?_⟩
    have hz : (m.ms.zip m.ps).length = m.ms.length := by simp [h2]
    obtain ⟨ws, ms, ps⟩ := m
    simp only at h1 h2 hz
    have e1 : (ws.zip (ms.zip ps)).map Prod.fst = ws := List.map_fst_zip (by simp [h1, h2])
    have e2 : (ws.zip (ms.zip ps)).map Prod.snd = ms.zip ps := List.map_snd_zip (by simp [h1, h2])
    have e3 : (ms.zip ps).map Prod.fst = ms := List.map_fst_zip (by simp [h2])
    have e4 : (ms.zip ps).map Prod.snd = ps := List.map_snd_zip (by simp [h2])
    unfold ofComps
    congr 1
    · exact e1.symm
    · have : (ws.zip (ms.zip ps)).map (fun c => c.2.1) =
          ((ws.zip (ms.zip ps)).map Prod.snd).map Prod.fst := by rw [List.map_map]; rfl
      rw [this, e2, e3]
    · have : (ws.zip (ms.zip ps)).map (fun c => c.2.2) =
          ((ws.zip (ms.zip ps)).map Prod.snd).map Prod.snd := by rw [List.map_map]; rfl
      rw [this, e2, e4]
  · rintro ⟨cs, rfl⟩
    simp [Aligned, ofComps]

section field
variable [Field K] [LinearOrder K] [IsStrictOrderedRing K]

/-! ### predict -/

theorem extend_ofComps (a b : List (K × V × P)) :
    extend (ofComps a) (ofComps b) = ofComps (a ++ b) := by
  simp [extend, ofComps]

theorem foldl_extend (bs : List (List (K × V × P))) : ∀ (a : List (K × V × P)),
    (bs.map ofComps).foldl extend (ofComps a) = ofComps (a ++ bs.flatten) := by
  induction bs with
  | nil => intro a; simp
  | cons b bs ih =>
    intro a
    rw [List.map_cons, List.foldl_cons, extend_ofComps, ih, List.flatten_cons, List.append_assoc]

/-- Predicted component. -/
def predComp (pr : Params K) (f : Filt K V P Z) (c : K × V × P) : K × V × P :=
  (pr.probSurvive * c.1, f.fpred c.2.1 c.2.2)

theorem predictDensity_ofComps (pr : Params K) (f : Filt K V P Z) (cs : List (K × V × P)) :
    predictDensity pr f (ofComps cs) = ofComps (cs.map (predComp pr f)) := by
  unfold predictDensity ofComps
  have : (cs.map fun c => c.2.1).zip (cs.map fun c => c.2.2) = cs.map fun c => c.2 := by
    induction cs with
    | nil => rfl
    | cons c cs ih => simp [ih]
  simp only [this, List.map_map]
  rfl

theorem predict_ofComps (pr : Params K) (f : Filt K V P Z) (bs : List (List (K × V × P)))
    (cs : List (K × V × P)) :
    predict pr f (bs.map ofComps) (ofComps cs) =
      ofComps (cs.map (predComp pr f) ++ bs.flatten) := by
  unfold predict
  rw [predictDensity_ofComps, foldl_extend]

/-! ### correct -/

/-- Unnormalised weight. -/
def rawW (pr : Params K) (f : Filt K V P Z) (z : Z) (c : K × V × P) : K :=
  (f.fcor z c.2.1 c.2.2).2.1 * (pr.probDetection * c.1)

/-- Normaliser for one measurement. -/
def denom (pr : Params K) (f : Filt K V P Z) (cs : List (K × V × P)) (z : Z) : K :=
  pr.clutterRate * pr.clutterDen + (cs.map (rawW pr f z)).sum

/-- Corrected component. -/
def corComp (pr : Params K) (f : Filt K V P Z) (d : K) (z : Z) (c : K × V × P) : K × V × P :=
  (rawW pr f z c / d, (f.fcor z c.2.1 c.2.2).1, (f.fcor z c.2.1 c.2.2).2.2)

theorem corOne_aux (pr : Params K) (f : Filt K V P Z) (z : Z) (cs : List (K × V × P)) :
    ∀ (post pre : List (K × V × P)), cs = pre ++ post →
    corOne f (ofComps cs) ((ofComps cs).ws.map fun x => pr.probDetection * x) z
      (List.range' pre.length post.length) =
    .ok (post.map (fun c => (f.fcor z c.2.1 c.2.2).1), post.map (fun c => (f.fcor z c.2.1 c.2.2).2.2),
      post.map (rawW pr f z)) := by
  intro post
  induction post with
  | nil => intro pre _; rfl
  | cons c post ih =>
    intro pre h
    rw [List.length_cons, List.range'_succ]
    unfold corOne
    have hc : cs[pre.length]? = some c := by rw [h]; simp
    have h1 : (ofComps cs).ps[pre.length]? = some c.2.2 := by
      simp [ofComps, hc]
    have h2 : (ofComps cs).ms[pre.length]? = some c.2.1 := by
      simp [ofComps, hc]
    have h3 : ((ofComps cs).ws.map fun x => pr.probDetection * x)[pre.length]? =
        some (pr.probDetection * c.1) := by
      simp [ofComps, hc]
    rw [h1, h2, h3]
    simp only
    have := ih (pre ++ [c]) (by rw [h]; simp)
    rw [List.length_append, List.length_singleton] at this
    rw [this]
    rfl

theorem corOne_ofComps (pr : Params K) (f : Filt K V P Z) (z : Z) (cs : List (K × V × P)) :
    corOne f (ofComps cs) ((ofComps cs).ws.map fun x => pr.probDetection * x) z
      (List.range (ofComps cs).ms.length) =
    .ok (cs.map (fun c => (f.fcor z c.2.1 c.2.2).1), cs.map (fun c => (f.fcor z c.2.1 c.2.2).2.2),
      cs.map (rawW pr f z)) := by
  have := corOne_aux pr f z cs cs [] rfl
  rw [List.length_nil, ← List.range_eq_range'] at this
  have hl : (ofComps cs).ms.length = cs.length := by simp [ofComps]
  rw [hl]
  exact this

theorem correctDensity_ofComps (pr : Params K) (f : Filt K V P Z) (cs : List (K × V × P))
    (zs : List Z) (hd : ∀ z ∈ zs, cs = [] ∨ denom pr f cs z ≠ 0) :
    correctDensity pr f (ofComps cs) zs =
      .ok (ofComps (zs.flatMap fun z => cs.map (corComp pr f (denom pr f cs z) z))) := by
  induction zs with
  | nil => rfl
  | cons z zs ih =>
    unfold correctDensity
    rw [corOne_ofComps]
    simp only
    have hn : normalise pr (cs.map (rawW pr f z)) =
        .ok ((cs.map (rawW pr f z)).map fun x => x / denom pr f cs z) := by
      unfold normalise
      rw [if_neg]
      · rfl
      · rintro ⟨h1, h2⟩
        rcases hd z List.mem_cons_self with h | h
        · rw [h] at h1; exact h1 rfl
        · exact h h2
    rw [hn]
    simp only
    rw [ih (fun y hy => hd y (List.mem_cons_of_mem _ hy))]
    simp [ofComps, corComp, Function.comp_def]

theorem correct_ofComps (pr : Params K) (f : Filt K V P Z) (cs : List (K × V × P))
    (zs : List Z) (hd : ∀ z ∈ zs, cs = [] ∨ denom pr f cs z ≠ 0) :
    correct pr f zs (ofComps cs) =
      .ok (ofComps ((zs.flatMap fun z => cs.map (corComp pr f (denom pr f cs z) z)) ++
        cs.map fun c => (pr.probMiss * c.1, c.2))) := by
  unfold correct
  rw [correctDensity_ofComps pr f cs zs hd]
  simp [ofComps, Function.comp_def]

theorem correct_zeroDiv (pr : Params K) (f : Filt K V P Z) (cs : List (K × V × P))
    (zs : List Z) (hd : ∃ z ∈ zs, cs ≠ [] ∧ denom pr f cs z = 0) :
    correct pr f zs (ofComps cs) = .error .zeroDiv := by
  have : correctDensity pr f (ofComps cs) zs = .error .zeroDiv := by
    induction zs with
    | nil => obtain ⟨z, hz, _⟩ := hd; simp at hz
    | cons z zs ih =>
      unfold correctDensity
      rw [corOne_ofComps]
      simp only
      by_cases h0 : cs ≠ [] ∧ denom pr f cs z = 0
      · have hn : normalise pr (cs.map (rawW pr f z)) = .error .zeroDiv := by
          unfold normalise
          rw [if_pos]
          exact ⟨by simpa using h0.1, h0.2⟩
        rw [hn]
      · have hn : normalise pr (cs.map (rawW pr f z)) =
            .ok ((cs.map (rawW pr f z)).map fun x => x / denom pr f cs z) := by
          unfold normalise
          rw [if_neg]
          · rfl
          · rintro ⟨h1, h2⟩
            exact h0 ⟨by simpa using h1, h2⟩
        rw [hn]
        simp only
        rw [ih]
        obtain ⟨y, hy, h1⟩ := hd
        rcases List.mem_cons.1 hy with rfl | hy
        · exact absurd h1 h0
        · exact ⟨y, hy, h1⟩
  unfold correct
  rw [this]

/-! ### deleting positions -/

/-- The elements at positions outside `S`, in order. -/
def keep {α : Type*} (S : List ℕ) (l : List α) : List α :=
  (l.zipIdx.filter fun x => decide (x.2 ∉ S)).map Prod.fst

theorem keep_append {α : Type*} (S : List ℕ) (l : List α) (c : α) :
    keep S (l ++ [c]) = keep S l ++ if l.length ∈ S then [] else [c] := by
  unfold keep
  rw [List.zipIdx_append, List.filter_append, List.map_append]
  congr 1
  by_cases h : l.length ∈ S <;> simp [h]

theorem foldl_erase_append {α : Type*} : ∀ (is : List ℕ) (l : List α) (c : α),
    is.Pairwise (· > ·) → (∀ i ∈ is, i < l.length) →
    is.foldl List.eraseIdx (l ++ [c]) = is.foldl List.eraseIdx l ++ [c]
  | [], _, _, _, _ => rfl
  | i :: is, l, c, hp, hl => by
    rw [List.foldl_cons, List.foldl_cons]
    have hi := hl i List.mem_cons_self
    rw [List.eraseIdx_append_of_lt_length hi]
    apply foldl_erase_append is _ _ (List.pairwise_cons.1 hp).2
    intro j hj
    have h1 := (List.pairwise_cons.1 hp).1 j hj
    have h2 := hl j (List.mem_cons_of_mem _ hj)
    rw [List.length_eraseIdx_of_lt hi]
    omega

theorem foldl_erase {α : Type*} (l : List α) : ∀ (is : List ℕ), is.Pairwise (· > ·) →
    (∀ i ∈ is, i < l.length) → is.foldl List.eraseIdx l = keep is l := by
  induction l using List.reverseRecOn with
  | nil =>
    intro is _ hl
    cases is with
    | nil => rfl
    | cons i is => have := hl i List.mem_cons_self; simp at this
  | append_singleton l c ih =>
    intro is hp hl
    rw [keep_append]
    by_cases hm : l.length ∈ is
    · rw [if_pos hm, List.append_nil]
      -- it must be the head
      cases is with
      | nil => simp at hm
      | cons i is =>
        have hi : i = l.length := by
          rcases List.mem_cons.1 hm with h | h
          · exact h.symm
          · have h1 := (List.pairwise_cons.1 hp).1 _ h
            have h2 := hl i List.mem_cons_self
            simp only [List.length_append, List.length_singleton] at h2
            omega
        rw [List.foldl_cons, hi, List.eraseIdx_append_of_length_le (le_refl _)]
        simp only [Nat.sub_self, List.eraseIdx_zero, List.tail_cons, List.append_nil]
        have hlt : ∀ j ∈ is, j < l.length := by
          intro j hj
          have := (List.pairwise_cons.1 hp).1 j hj
          omega
        rw [ih is (List.pairwise_cons.1 hp).2 hlt]
        unfold keep
        congr 1
        apply List.filter_congr
        intro x hx
        obtain ⟨x1, x2⟩ := x
        have := (List.mem_zipIdx' hx).1
        simp only [List.mem_cons, decide_eq_decide]
        constructor
        · intro h hc
          rcases hc with hc | hc
          · omega
          · exact h hc
        · intro h hc
          exact h (.inr hc)
    · rw [if_neg hm]
      have hlt : ∀ i ∈ is, i < l.length := by
        intro i hi
        have h1 := hl i hi
        simp only [List.length_append, List.length_singleton] at h1
        have : i ≠ l.length := fun h => hm (h ▸ hi)
        omega
      rw [foldl_erase_append is l c hp hlt, ih is hp hlt]

theorem delAll_ofComps : ∀ (is : List ℕ) (cs : List (K × V × P)), is.Pairwise (· > ·) →
    (∀ i ∈ is, i < cs.length) → delAll (ofComps cs) is = .ok (ofComps (is.foldl List.eraseIdx cs))
  | [], _, _, _ => rfl
  | i :: is, cs, hp, hl => by
    have hi := hl i List.mem_cons_self
    have h1 : delAt (ofComps cs) i = .ok (ofComps (cs.eraseIdx i)) := by
      unfold delAt
      rw [if_pos (by simp [ofComps, hi])]
      simp only [ofComps, List.eraseIdx_map]
    unfold delAll
    rw [h1]
    simp only
    rw [delAll_ofComps is (cs.eraseIdx i) (List.pairwise_cons.1 hp).2, List.foldl_cons]
    intro j hj
    have h1 := (List.pairwise_cons.1 hp).1 j hj
    rw [List.length_eraseIdx_of_lt hi]
    omega

theorem sortDesc_mem {l : List ℕ} {i : ℕ} : i ∈ sortDesc l ↔ i ∈ l :=
  (List.perm_insertionSort _ l).mem_iff

theorem sortDesc_pairwise {l : List ℕ} (h : l.Nodup) : (sortDesc l).Pairwise (· > ·) := by
  have h1 : (sortDesc l).Pairwise (fun a b => b ≤ a) := by
    haveI : Std.Total (fun a b : ℕ => b ≤ a) := ⟨fun a b => le_total b a⟩
    haveI : IsTrans ℕ (fun a b : ℕ => b ≤ a) := ⟨fun a b c hab hbc => le_trans hbc hab⟩
    exact List.pairwise_insertionSort _ l
  have h2 : (sortDesc l).Nodup := (List.perm_insertionSort _ l).nodup_iff.2 h
  refine (h1.and h2).imp ?_
  rintro a b ⟨hab, hne⟩
  omega

theorem delAll_sortDesc (cs : List (K × V × P)) {S : List ℕ} (hS : S.Nodup)
    (hl : ∀ i ∈ S, i < cs.length) :
    delAll (ofComps cs) (sortDesc S) = .ok (ofComps (keep S cs)) := by
  have hl' : ∀ i ∈ sortDesc S, i < cs.length := fun i hi => hl i (sortDesc_mem.1 hi)
  rw [delAll_ofComps _ _ (sortDesc_pairwise hS) hl', foldl_erase _ _ (sortDesc_pairwise hS) hl']
  congr 2
  unfold keep
  congr 1
  apply List.filter_congr
  intro x _
  simp only [sortDesc_mem]

/-! ### prune -/

theorem mem_whereIdx {q : K → Bool} {ws : List K} {i : ℕ} :
    i ∈ whereIdx q ws ↔ ∃ w, ws[i]? = some w ∧ q w = true := by
  unfold whereIdx
  rw [List.mem_filter, List.mem_range]
  constructor
  · rintro ⟨h1, h2⟩
    rw [List.getElem?_eq_getElem h1, Option.any_some] at h2
    exact ⟨_, List.getElem?_eq_getElem h1, h2⟩
  · rintro ⟨w, h1, h2⟩
    have : i < ws.length := by
      by_contra hc
      rw [List.getElem?_eq_none (by omega)] at h1
      simp at h1
    refine ⟨this, ?_⟩
    rw [h1]
    exact h2

theorem whereIdx_nodup {q : K → Bool} {ws : List K} : (whereIdx q ws).Nodup :=
  List.Nodup.filter _ List.nodup_range

theorem prune_ofComps (pr : Params K) (cs : List (K × V × P)) :
    prune pr (ofComps cs) =
      .ok (ofComps (cs.filter fun c => decide (pr.pruneThreshold ≤ c.1))) := by
  unfold prune
  rw [delAll_sortDesc cs whereIdx_nodup]
  · congr 2
    unfold keep
    have : (cs.zipIdx.filter fun x =>
        decide (x.2 ∉ whereIdx (fun w => decide (w < pr.pruneThreshold)) (ofComps cs).ws)) =
        cs.zipIdx.filter ((fun c => decide (pr.pruneThreshold ≤ c.1)) ∘ Prod.fst) := by
      apply List.filter_congr
      intro x hx
      obtain ⟨c, i⟩ := x
      obtain ⟨h1, h2⟩ := List.mem_zipIdx' hx
      have hw : (ofComps cs).ws[i]? = some c.1 := by
        simp [ofComps, h1, ← h2]
      simp only [Function.comp, decide_eq_decide, mem_whereIdx, hw]
      simp
    rw [this, ← List.filter_map, List.zipIdx_map_fst]
  · intro i hi
    obtain ⟨w, h1, _⟩ := mem_whereIdx.1 hi
    by_contra hc
    rw [List.getElem?_eq_none (by simp [ofComps]; omega)] at h1
    simp at h1

/-! ### cap -/

theorem keep_length {α : Type*} (l : List α) : ∀ (S : List ℕ), S.Nodup → (∀ i ∈ S, i < l.length) →
    (keep S l).length + S.length = l.length := by
  intro S hS hl
  have hS' : (sortDesc S).length = S.length := (List.perm_insertionSort _ S).length_eq
  have h1 : keep S l = keep (sortDesc S) l := by
    unfold keep
    congr 1
    apply List.filter_congr
    intro x _
    simp only [sortDesc_mem]
  rw [h1, ← hS', ← foldl_erase l (sortDesc S) (sortDesc_pairwise hS)
    (fun i hi => hl i (sortDesc_mem.1 hi))]
  have hp := sortDesc_pairwise hS
  have hl' : ∀ i ∈ sortDesc S, i < l.length := fun i hi => hl i (sortDesc_mem.1 hi)
  generalize sortDesc S = is at hp hl'
  clear h1 hS' hl hS
  induction is generalizing l with
  | nil => simp
  | cons i is ih =>
    have hi := hl' i List.mem_cons_self
    rw [List.foldl_cons]
    have := ih (l.eraseIdx i) (List.pairwise_cons.1 hp).2 (by
      intro j hj
      have h1 := (List.pairwise_cons.1 hp).1 j hj
      rw [List.length_eraseIdx_of_lt hi]
      omega)
    rw [List.length_eraseIdx_of_lt hi] at this
    rw [List.length_cons]
    omega

theorem mem_keep {α : Type*} {S : List ℕ} {l : List α} {c : α} :
    c ∈ keep S l ↔ ∃ i, l[i]? = some c ∧ i ∉ S := by
  unfold keep
  rw [List.mem_map]
  constructor
  · rintro ⟨⟨c', i⟩, h, rfl⟩
    rw [List.mem_filter] at h
    obtain ⟨h1, h2⟩ := h
    obtain ⟨h3, h4⟩ := List.mem_zipIdx' h1
    exact ⟨i, by rw [List.getElem?_eq_getElem h3]; exact congrArg some h4.symm, by simpa using h2⟩
  · rintro ⟨i, h1, h2⟩
    refine ⟨(c, i), ?_, rfl⟩
    rw [List.mem_filter]
    refine ⟨?_, by simpa using h2⟩
    rw [List.mk_mem_zipIdx_iff_getElem?]
    exact h1

theorem keep_sublist {α : Type*} (S : List ℕ) (l : List α) : (keep S l).Sublist l := by
  unfold keep
  have := (List.filter_sublist (p := fun x : α × ℕ => decide (x.2 ∉ S)) (l := l.zipIdx)).map Prod.fst
  rwa [List.zipIdx_map_fst] at this

/-- Positions dropped by capping, and what is left. -/
theorem cap_ofComps {argsort : List K → List ℕ} (pr : Params K) (cs : List (K × V × P))
    (ha : IsArgsort (ofComps cs).ws (argsort (ofComps cs).ws)) (hgt : pr.maxGauss < cs.length)
    (hmg : 0 < pr.maxGauss) :
    ∃ S : List ℕ, S.Nodup ∧ (∀ i ∈ S, i < cs.length) ∧ (keep S cs).length = pr.maxGauss ∧
      (∀ i j ci cj, i ∈ S → j ∉ S → cs[i]? = some ci → cs[j]? = some cj → ci.1 ≤ cj.1) ∧
      cap argsort pr (ofComps cs) =
        if mass (keep S cs) = 0 then .error .zeroDiv
        else .ok (ofComps ((keep S cs).map fun c => (c.1 * (mass cs / mass (keep S cs)), c.2))) := by
  obtain ⟨hperm, hsort⟩ := ha
  have hlen : (ofComps cs).ws.length = cs.length := by simp [ofComps]
  have hnd : (argsort (ofComps cs).ws).Nodup := hperm.nodup_iff.2 List.nodup_range
  have hl : (argsort (ofComps cs).ws).length = cs.length := by
    rw [hperm.length_eq, List.length_range, hlen]
  have hmemlt : ∀ i ∈ argsort (ofComps cs).ws, i < cs.length := by
    intro i hi
    have := List.mem_range.1 (hperm.mem_iff.1 hi)
    rwa [hlen] at this
  refine ⟨dropEnd (argsort (ofComps cs).ws) pr.maxGauss, ?_, ?_, ?_, ?_, ?_⟩
  · unfold dropEnd
    rw [if_neg (by omega)]
    exact hnd.sublist (List.take_sublist _ _)
  · intro i hi
    unfold dropEnd at hi
    rw [if_neg (by omega)] at hi
    exact hmemlt i (List.mem_of_mem_take hi)
  · have := keep_length cs (dropEnd (argsort (ofComps cs).ws) pr.maxGauss) (by
      unfold dropEnd
      rw [if_neg (by omega)]
      exact hnd.sublist (List.take_sublist _ _)) (by
      intro i hi
      unfold dropEnd at hi
      rw [if_neg (by omega)] at hi
      exact hmemlt i (List.mem_of_mem_take hi))
    have h2 : (dropEnd (argsort (ofComps cs).ws) pr.maxGauss).length = cs.length - pr.maxGauss := by
      unfold dropEnd
      rw [if_neg (by omega), List.length_take, hl]
      omega
    omega
  · intro i j ci cj hi hj hci hcj
    unfold dropEnd at hi hj
    rw [if_neg (by omega)] at hi hj
    have hjm : j ∈ argsort (ofComps cs).ws := by
      rw [hperm.mem_iff, List.mem_range, hlen]
      by_contra hc
      rw [List.getElem?_eq_none (by omega)] at hcj
      simp at hcj
    have hjd : j ∈ (argsort (ofComps cs).ws).drop
        ((argsort (ofComps cs).ws).length - pr.maxGauss) := by
      have : j ∈ (argsort (ofComps cs).ws).take ((argsort (ofComps cs).ws).length - pr.maxGauss) ++
          (argsort (ofComps cs).ws).drop ((argsort (ofComps cs).ws).length - pr.maxGauss) := by
        rw [List.take_append_drop]; exact hjm
      rcases List.mem_append.1 this with h | h
      · exact absurd h hj
      · exact h
    have hs := hsort
    rw [← List.take_append_drop ((argsort (ofComps cs).ws).length - pr.maxGauss)
      (argsort (ofComps cs).ws), List.pairwise_append] at hs
    apply hs.2.2 i hi j hjd
    · simp [ofComps, hci]
    · simp [ofComps, hcj]
  · unfold cap
    rw [hlen, if_pos hgt, delAll_sortDesc]
    · simp only
      have hne : (ofComps (keep (dropEnd (argsort (ofComps cs).ws) pr.maxGauss) cs)).ws ≠ [] := by
        intro h
        have h2 := keep_length cs (dropEnd (argsort (ofComps cs).ws) pr.maxGauss) (by
          unfold dropEnd
          rw [if_neg (by omega)]
          exact hnd.sublist (List.take_sublist _ _)) (by
          intro i hi
          unfold dropEnd at hi
          rw [if_neg (by omega)] at hi
          exact hmemlt i (List.mem_of_mem_take hi))
        have h3 : (dropEnd (argsort (ofComps cs).ws) pr.maxGauss).length =
            cs.length - pr.maxGauss := by
          unfold dropEnd
          rw [if_neg (by omega), List.length_take, hl]
          omega
        have h4 : (keep (dropEnd (argsort (ofComps cs).ws) pr.maxGauss) cs).length = 0 := by
          have := congrArg List.length h
          simpa [ofComps] using this
        omega
      by_cases h0 : mass (keep (dropEnd (argsort (ofComps cs).ws) pr.maxGauss) cs) = 0
      · rw [if_pos h0, if_pos ⟨hne, h0⟩]
      · rw [if_neg h0, if_neg (fun h => h0 h.2)]
        simp [ofComps, mass, Function.comp_def]
    · unfold dropEnd
      rw [if_neg (by omega)]
      exact hnd.sublist (List.take_sublist _ _)
    · intro i hi
      unfold dropEnd at hi
      rw [if_neg (by omega)] at hi
      exact hmemlt i (List.mem_of_mem_take hi)

theorem cap_zero {argsort : List K → List ℕ} (pr : Params K) (cs : List (K × V × P))
    (hmg : pr.maxGauss = 0) :
    cap argsort pr (ofComps cs) = .ok (ofComps cs) ∨
    cap argsort pr (ofComps cs) = .error .zeroDiv := by
  unfold cap
  split
  · have hd : delAll (ofComps cs) (sortDesc (dropEnd (argsort (ofComps cs).ws) pr.maxGauss)) =
        .ok (ofComps cs) := by
      rw [delAll_sortDesc cs (S := dropEnd (argsort (ofComps cs).ws) pr.maxGauss)]
      · have : keep (dropEnd (argsort (ofComps cs).ws) pr.maxGauss) cs = cs := by
          unfold keep dropEnd
          rw [if_pos hmg]
          simp
        rw [this]
      · unfold dropEnd; rw [if_pos hmg]; exact List.nodup_nil
      · unfold dropEnd; rw [if_pos hmg]; simp
    rw [hd]
    simp only
    by_cases h0 : (ofComps cs).ws ≠ [] ∧ (ofComps cs).ws.sum = 0
    · rw [if_pos h0]; exact .inr rfl
    · rw [if_neg h0]
      left
      by_cases hnil : cs = []
      · subst hnil; rfl
      · have hs : (ofComps cs).ws.sum ≠ 0 := by
          intro h
          apply h0
          refine ⟨?_, h⟩
          simpa [ofComps] using hnil
        rw [div_self hs]
        simp
  · exact .inl rfl

/-! ### extract -/

theorem extractLoop_ofComps [FloorRing K] (cs : List (K × V × P)) : ∀ (is : List ℕ),
    (∀ i ∈ is, i < cs.length) →
    extractLoop (ofComps cs) is = .ok
      (is.flatMap fun i => ((cs[i]?).map fun c => List.replicate (pyRound c.1).toNat c.2.1).getD [],
       is.flatMap fun i => ((cs[i]?).map fun c => List.replicate (pyRound c.1).toNat c.2.2).getD [])
  | [], _ => rfl
  | i :: is, h => by
    have hi := h i List.mem_cons_self
    unfold extractLoop
    have h1 : (ofComps cs).ws[i]? = some cs[i].1 := by simp [ofComps, hi]
    have h2 : (ofComps cs).ms[i]? = some cs[i].2.1 := by simp [ofComps, hi]
    have h3 : (ofComps cs).ps[i]? = some cs[i].2.2 := by simp [ofComps, hi]
    rw [h1, h2, h3]
    simp only
    rw [extractLoop_ofComps cs is (fun j hj => h j (List.mem_cons_of_mem _ hj))]
    simp [List.getElem?_eq_getElem hi]

theorem flatMap_whereIdx {β : Type*} (q : K → Bool) (cs : List (K × V × P))
    (g : K × V × P → List β) :
    ((whereIdx q (ofComps cs).ws).flatMap fun i => ((cs[i]?).map g).getD []) =
      (cs.filter fun c => q c.1).flatMap g := by
  unfold whereIdx
  have hlen : (ofComps cs).ws.length = cs.length := by simp [ofComps]
  rw [hlen]
  induction cs using List.reverseRecOn with
  | nil => rfl
  | append_singleton cs c ih =>
    rw [List.length_append, List.length_singleton, List.range_succ, List.filter_append,
      List.flatMap_append, List.filter_append, List.flatMap_append]
    congr 1
    · rw [← ih (by simp [ofComps])]
      have hf : (List.range cs.length).filter (fun i => ((ofComps (cs ++ [c])).ws[i]?).any q) =
          (List.range cs.length).filter (fun i => ((ofComps cs).ws[i]?).any q) := by
        apply List.filter_congr
        intro i hi
        have := List.mem_range.1 hi
        have : (ofComps (cs ++ [c])).ws[i]? = (ofComps cs).ws[i]? := by
          simp only [ofComps, List.map_append]
          rw [List.getElem?_append_left (by simpa using this)]
        rw [this]
      rw [hf]
      apply List.flatMap_congr
      intro i hi
      have := List.mem_range.1 (List.mem_filter.1 hi).1
      rw [List.getElem?_append_left this]
    · have hw : (ofComps (cs ++ [c])).ws[cs.length]? = some c.1 := by
        simp [ofComps]
      by_cases hq : q c.1 = true
      · simp [hw, hq]
      · simp [hw, hq]

theorem extract_ofComps [FloorRing K] (pr : Params K) (cs : List (K × V × P)) :
    extract pr (ofComps cs) = .ok
      ((cs.filter fun c => decide (pr.extractThreshold ≤ c.1)).flatMap
          (fun c => List.replicate (pyRound c.1).toNat c.2.1),
       (cs.filter fun c => decide (pr.extractThreshold ≤ c.1)).flatMap
          (fun c => List.replicate (pyRound c.1).toNat c.2.2)) := by
  unfold extract
  rw [extractLoop_ofComps]
  · rw [flatMap_whereIdx (fun w => decide (pr.extractThreshold ≤ w)) cs
      (fun c => List.replicate (pyRound c.1).toNat c.2.1),
      flatMap_whereIdx (fun w => decide (pr.extractThreshold ≤ w)) cs
      (fun c => List.replicate (pyRound c.1).toNat c.2.2)]
  · intro i hi
    obtain ⟨w, h1, _⟩ := mem_whereIdx.1 hi
    by_contra hc
    rw [List.getElem?_eq_none (by simp [ofComps]; omega)] at h1
    simp at h1

end field

end Gasur.Phd
