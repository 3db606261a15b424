import Verif.Model.KShortest
import Mathlib.Algebra.Order.Group.Abs
import Mathlib.Algebra.Group.WithOne.Defs
import Mathlib.Algebra.Group.Hom.Defs
import Mathlib.Order.WithBot

/-! `k_shortest` only adds and compares costs: it commutes with order embeddings of the cost domain. -/

set_option linter.unusedSectionVars false
set_option linter.unusedSimpArgs false

namespace Gasur.KNat

open Gasur.Bfm Gasur.KShortest

variable {K L : Type*} [CommRing K] [LinearOrder K] [IsStrictOrderedRing K]
  [CommRing L] [LinearOrder L] [IsStrictOrderedRing L] {N n : ℕ}

/-- The image of a cost. -/
def up (φ : K → L) : WithTop K → WithTop L := WithTop.map φ

/-- An order embedding of additive groups. -/
structure Emb (φ : K → L) : Prop where
  add : ∀ a b, φ (a + b) = φ a + φ b
  mono : StrictMono φ

variable {φ : K → L}

theorem Emb.zero (h : Emb φ) : φ 0 = 0 := by
  have := h.add 0 0
  rw [add_zero] at this
  exact left_eq_add.1 this

theorem Emb.neg (h : Emb φ) (a : K) : φ (-a) = -φ a := by
  have := h.add a (-a)
  rw [add_neg_cancel, h.zero] at this
  exact (neg_eq_of_add_eq_zero_right this.symm).symm

theorem Emb.abs (h : Emb φ) (a : K) : |φ a| = φ |a| := by
  rcases le_total 0 a with ha | ha
  · rw [abs_of_nonneg ha, abs_of_nonneg (by rw [← h.zero]; exact h.mono.monotone ha)]
  · rw [abs_of_nonpos ha, abs_of_nonpos (by rw [← h.zero]; exact h.mono.monotone ha), h.neg]

theorem up_add (h : Emb φ) (a b : WithTop K) : up φ (a + b) = up φ a + up φ b := by
  cases a with
  | top => rfl
  | coe a =>
    cases b with
    | top => rfl
    | coe b => exact congrArg _ (h.add a b)

theorem up_lt (h : Emb φ) (a b : WithTop K) : up φ a < up φ b ↔ a < b := by
  cases a with
  | top => simp [up]
  | coe a =>
    cases b with
    | top => simp [up]
    | coe b => simp [up, h.mono.lt_iff_lt]

theorem up_zero (h : Emb φ) : up φ 0 = 0 := congrArg _ h.zero

theorem up_eq_zero (h : Emb φ) (a : WithTop K) : up φ a = 0 ↔ a = 0 := by
  cases a with
  | top => simp [up]
  | coe a =>
    unfold up
    rw [WithTop.map_coe, WithTop.coe_eq_zero, WithTop.coe_eq_zero]
    constructor
    · intro h0
      exact h.mono.injective (h0.trans h.zero.symm)
    · rintro rfl
      exact h.zero

/-- The image of a matrix. -/
def upM (φ : K → L) (G : Fin N → Fin N → WithTop K) : Fin N → Fin N → WithTop L := fun u v => up φ (G u v)

theorem isArc_up (h : Emb φ) (eps : K) (g : WithTop K) : isArc (φ eps) (up φ g) = isArc eps g := by
  cases g with
  | top => rfl
  | coe x =>
    show decide (φ eps ≤ |φ x|) = decide (eps ≤ |x|)
    rw [h.abs]
    exact decide_eq_decide.2 h.mono.le_iff_le

theorem arcs_up (h : Emb φ) (G : Fin N → Fin N → WithTop K) (eps : K) : arcs (upM φ G) (φ eps) = arcs G eps := by
  unfold arcs upM
  simp only [isArc_up h]

theorem countNonzero_up (h : Emb φ) (G : Fin N → Fin N → WithTop K) : countNonzero (upM φ G) = countNonzero G := by
  unfold countNonzero upM
  simp only [ne_eq, up_eq_zero h]

/-- The image of a state. -/
def upS (φ : K → L) (s : Bfm.St K N) : Bfm.St L N := { D := fun v => up φ (s.D v), p := s.p, optimal := s.optimal }

theorem relax_up (h : Emb φ) (G : Fin N → Fin N → WithTop K) (s : Bfm.St K N) (a : Fin N × Fin N) :
    relax (upM φ G) (upS φ s) a = upS φ (relax G s a) := by
  unfold relax
  have e1 : (upS φ s).D a.1 + upM φ G a.1 a.2 = up φ (s.D a.1 + G a.1 a.2) := (up_add h _ _).symm
  by_cases hc : s.D a.1 + G a.1 a.2 < s.D a.2
  · rw [if_pos hc, if_pos (by rw [e1]; exact (up_lt h _ _).2 hc), e1]
    unfold upS
    simp only [Bfm.St.mk.injEq, and_true]
    funext v
    by_cases hv : v = a.2
    · subst hv; simp
    · simp [hv]
  · rw [if_neg hc, if_neg (by rw [e1]; exact fun hh => hc ((up_lt h _ _).1 hh))]

theorem sweep_up (h : Emb φ) (G : Fin N → Fin N → WithTop K) (eps : K) (s : Bfm.St K N) :
    sweep (upM φ G) (φ eps) (upS φ s) = upS φ (sweep G eps s) := by
  unfold sweep
  rw [arcs_up h]
  have e : ({ upS φ s with optimal := true } : Bfm.St L N) = upS φ { s with optimal := true } := rfl
  rw [e]
  generalize ({ s with optimal := true } : Bfm.St K N) = s0
  induction arcs G eps generalizing s0 with
  | nil => rfl
  | cons a l ih => rw [List.foldl_cons, List.foldl_cons, relax_up h, ih]

theorem sweeps_up (h : Emb φ) (G : Fin N → Fin N → WithTop K) (eps : K) : ∀ (k : ℕ) (s : Bfm.St K N),
    sweeps (upM φ G) (φ eps) k (upS φ s) = upS φ (sweeps G eps k s)
  | 0, _ => rfl
  | k + 1, s => by
    unfold sweeps
    rw [sweep_up h]
    have e : (upS φ (sweep G eps s)).optimal = (sweep G eps s).optimal := rfl
    rw [e]
    split
    · rfl
    · exact sweeps_up h G eps k _

theorem initSt_up (h : Emb φ) (r : Fin N) : (initSt r : Bfm.St L N) = upS φ (initSt r) := by
  unfold initSt upS
  simp only [Bfm.St.mk.injEq, and_true]
  funext v
  split
  · exact (up_zero h).symm
  · rfl

theorem bfmHelper_up (h : Emb φ) (G : Fin N → Fin N → WithTop K) (eps : K) (r : Fin N) :
    bfmHelper (upM φ G) (φ eps) r = (bfmHelper G eps r).map (upS φ) := by
  unfold bfmHelper
  rw [arcs_up h, countNonzero_up h, initSt_up h, sweeps_up h]
  split
  · rfl
  · split <;> rfl

/-- The image of a result of `bfm`. -/
def upB (φ : K → L) (x : WithTop K × List (Fin N) × (Fin N → Fin N)) :
    WithTop L × List (Fin N) × (Fin N → Fin N) := (up φ x.1, x.2)

theorem bfm_up (h : Emb φ) (G : Fin N → Fin N → WithTop K) (eps : K) (src dst : Fin N) (fuel : ℕ) :
    bfm (upM φ G) (φ eps) src dst fuel = (bfm G eps src dst fuel).map (upB φ) := by
  unfold bfm
  rw [bfmHelper_up h]
  cases bfmHelper G eps src with
  | error e => rfl
  | ok s =>
    simp only [Except.map]
    have hD : (upS φ s).D dst = up φ (s.D dst) := rfl
    have hp : (upS φ s).p = s.p := rfl
    rw [hD, hp]
    cases s.D dst with
    | top => rfl
    | coe d =>
      have e : up φ (d : WithTop K) = ((φ d : L) : WithTop L) := rfl
      rw [e]
      simp only
      cases walkBack s.p src fuel dst [dst] with
      | none => rfl
      | some path => rfl

theorem tempMat_up (G : Fin N → Fin N → WithTop K) (rem v' nxts) :
    tempMat (upM φ G) rem v' nxts = upM φ (tempMat G rem v' nxts) := by
  funext u v
  unfold tempMat upM
  dsimp only
  split
  · rfl
  · split <;> rfl

theorem pathCost_up (h : Emb φ) (G : Fin N → Fin N → WithTop K) : ∀ l : List (Fin N),
    pathCost (upM φ G) l = up φ (pathCost G l)
  | [] => by simp only [pathCost]; exact (up_zero h).symm
  | [_] => by simp only [pathCost]; exact (up_zero h).symm
  | a :: b :: l => by
    rw [pathCost, pathCost, pathCost_up h G (b :: l), up_add h]
    rfl

/-- The image of a path with its cost. -/
def upP {α : Type*} (φ : K → L) (pc : α × WithTop K) : α × WithTop L := (pc.1, up φ pc.2)

/-- The image of the tables. -/
def upY (φ : K → L) (st : YSt K N) : YSt L N :=
  { P := st.P.map (upP φ), S := st.S, X := st.X.map (upP φ), out := st.out.map (upP φ), cur := st.cur }

theorem deviate_up (h : Emb φ) (G : Fin N → Fin N → WithTop K) (eps : K) (dst : Fin N) (path : List (Fin N))
    (st : YSt K N) (ind : ℕ) :
    deviate (upM φ G) (φ eps) dst path (upY φ st) ind = (deviate G eps dst path st ind).map (upY φ) := by
  unfold deviate
  have ho : (upY φ st).out.map Prod.fst = st.out.map Prod.fst := by
    simp [upY, upP, Function.comp_def]
  rw [ho]
  cases path[ind]? with
  | none => rfl
  | some v' =>
    simp only
    cases (samePrefix path (st.out.map Prod.fst) ind).mapM (fun sp => sp[ind + 1]?) with
    | none => rfl
    | some nxts =>
      simp only
      rw [tempMat_up, bfm_up h]
      cases bfm (tempMat G (path.take (ind - 1)) v' nxts) eps v' dst N with
      | error e => rfl
      | ok x =>
        obtain ⟨c, dev, q⟩ := x
        simp only [Except.map, upB]
        split
        · rfl
        · rw [pathCost_up h, ← up_add h]
          simp [upY, upP]

theorem foldDev_up (h : Emb φ) (G : Fin N → Fin N → WithTop K) (eps : K) (dst : Fin N) (path : List (Fin N)) :
    ∀ (is : List ℕ) (st : YSt K N), is.foldlM (deviate (upM φ G) (φ eps) dst path) (upY φ st) =
      (is.foldlM (deviate G eps dst path) st).map (upY φ)
  | [], st => rfl
  | i :: is, st => by
    rw [List.foldlM_cons, List.foldlM_cons, deviate_up h]
    cases deviate G eps dst path st i with
    | error e => rfl
    | ok st' => exact foldDev_up h G eps dst path is st'

theorem minX_up (h : Emb φ) (X : List (ℕ × WithTop K)) : minX (X.map (upP φ)) = (minX X).map (upP φ) := by
  cases X with
  | nil => rfl
  | cons x l =>
    simp only [List.map_cons, minX, Option.map_some, Option.some.injEq]
    induction l generalizing x with
    | nil => rfl
    | cons y l ih =>
      rw [List.map_cons, List.foldl_cons, List.foldl_cons, ← ih]
      congr 1
      have : (upP φ y).2 < (upP φ x).2 ↔ y.2 < x.2 := up_lt h _ _
      simp only [this]
      split <;> rfl

theorem eraseP_up (cur : ℕ) : ∀ X : List (ℕ × WithTop K),
    (X.map (upP φ)).eraseP (fun x => x.1 == cur) = (X.eraseP fun x => x.1 == cur).map (upP φ)
  | [] => rfl
  | x :: X => by
    have e : (upP φ x).1 = x.1 := rfl
    rw [List.map_cons, List.eraseP_cons, List.eraseP_cons, e]
    cases hx : x.1 == cur with
    | true => rfl
    | false => simp only [cond_false, eraseP_up cur X, List.map_cons]

theorem yenStep_up (h : Emb φ) (G : Fin N → Fin N → WithTop K) (eps : K) (dst : Fin N) (st : YSt K N) :
    yenStep (upM φ G) (φ eps) dst (upY φ st) = (yenStep G eps dst st).map (upY φ) := by
  unfold yenStep
  have hP : (upY φ st).P[(upY φ st).cur]? = (st.P[st.cur]?).map (upP φ) := List.getElem?_map ..
  have hS : (upY φ st).S[(upY φ st).cur]? = st.S[st.cur]? := rfl
  rw [hP, hS]
  cases st.P[st.cur]? with
  | none => rfl
  | some pc =>
    obtain ⟨path, c⟩ := pc
    cases st.S[st.cur]? with
    | none => rfl
    | some w =>
      simp only [Option.map_some, upP]
      cases lastIdx w path with
      | none => rfl
      | some wi =>
        simp only
        have e : ({ upY φ st with X := (upY φ st).X.eraseP fun x => x.1 == (upY φ st).cur } : YSt L N) =
            upY φ { st with X := st.X.eraseP fun x => x.1 == st.cur } := by
          unfold upY
          simp only [eraseP_up]
        rw [e, foldDev_up h]
        cases ((List.range (path.length - 1)).drop wi).foldlM (deviate G eps dst path)
            { st with X := st.X.eraseP fun x => x.1 == st.cur } with
        | error e => rfl
        | ok st' =>
          simp only [Except.map]
          have e2 : minX (upY φ st').X = (minX st'.X).map (upP φ) := minX_up h _
          rw [e2]
          cases minX st'.X with
          | none => rfl
          | some x =>
            obtain ⟨i, ci⟩ := x
            simp only [Option.map_some, upP]
            have e3 : (upY φ st').P[i]? = (st'.P[i]?).map (upP φ) := List.getElem?_map ..
            rw [e3]
            cases st'.P[i]? with
            | none => rfl
            | some pc => simp [upY]

theorem yenLoop_up (h : Emb φ) (G : Fin N → Fin N → WithTop K) (eps : K) (dst : Fin N) (k : ℕ) :
    ∀ (fuel : ℕ) (st : YSt K N), yenLoop (upM φ G) (φ eps) dst k fuel (upY φ st) =
      (yenLoop G eps dst k fuel st).map (upY φ)
  | 0, _ => rfl
  | fuel + 1, st => by
    unfold yenLoop
    have e : ((upY φ st).out.length < k ∧ (upY φ st).X ≠ []) ↔ (st.out.length < k ∧ st.X ≠ []) := by
      simp [upY]
    by_cases hc : st.out.length < k ∧ st.X ≠ []
    · rw [if_pos hc, if_pos (e.2 hc), yenStep_up h]
      cases yenStep G eps dst st with
      | error e => rfl
      | ok st' => exact yenLoop_up h G eps dst k fuel st'
    · rw [if_neg hc, if_neg (fun h' => hc (e.1 h'))]
      rfl

theorem kHelper_up (h : Emb φ) (G : Fin N → Fin N → WithTop K) (eps : K) (src dst : Fin N) (k : ℕ) :
    kHelper (upM φ G) (φ eps) src dst k = (kHelper G eps src dst k).map (List.map (upP φ)) := by
  unfold kHelper
  rw [bfm_up h]
  cases bfm G eps src dst N with
  | error e => rfl
  | ok x =>
    obtain ⟨c, path, q⟩ := x
    simp only [Except.map, upB]
    cases path with
    | nil => rfl
    | cons a l =>
      simp only
      have := yenLoop_up h G eps dst k k
        { P := [(a :: l, c)], S := [a], X := [(0, c)], out := [(a :: l, c)], cur := 0 }
      have e : upY φ { P := [(a :: l, c)], S := [a], X := [(0, c)], out := [(a :: l, c)], cur := 0 } =
        { P := [(a :: l, up φ c)], S := [a], X := [(0, up φ c)], out := [(a :: l, up φ c)], cur := 0 } := rfl
      rw [e] at this
      rw [this]
      cases yenLoop G eps dst k k
        { P := [(a :: l, c)], S := [a], X := [(0, c)], out := [(a :: l, c)], cur := 0 } with
      | error e => rfl
      | ok st => rfl

theorem costPad_up (h : Emb φ) (lc : Fin n → K) (eps : K) :
    costPad (fun i => φ (lc i)) (φ eps) = upM φ (costPad lc eps) := by
  funext u v
  unfold costPad upM
  dsimp only
  split
  · split <;> rfl
  · exact (up_zero h).symm

/-- `k_shortest` commutes with an embedding of the costs. -/
theorem kShortest_up (h : Emb φ) (lc : Fin n → K) (σ : Equiv.Perm (Fin n)) (eps : K) (k : ℕ) :
    kShortest (fun i => φ (lc i)) σ (φ eps) k = (kShortest lc σ eps k).map (List.map (upP φ)) := by
  unfold kShortest
  split
  · rfl
  · rw [costPad_up h (fun i => lc (σ i)), kHelper_up h]
    cases kHelper (costPad (fun i => lc (σ i)) eps) eps ⟨0, by omega⟩ ⟨n + 1, by omega⟩ k with
    | error e => rfl
    | ok out =>
      simp only [Except.map]
      have : ∀ out : List (List (Fin (n + 2)) × WithTop K),
          (out.map (upP φ)).mapM (fun pc => (decodePath σ pc.1).map fun l => (l, pc.2)) =
          (out.mapM (fun pc => (decodePath σ pc.1).map fun l => (l, pc.2))).map (List.map (upP φ)) := by
        intro out
        induction out with
        | nil => rfl
        | cons x out ih =>
          rw [List.map_cons, List.mapM_cons, List.mapM_cons, ih]
          have e : (upP φ x).1 = x.1 := rfl
          rw [e]
          cases decodePath σ x.1 with
          | none => rfl
          | some l =>
            cases out.mapM (fun pc => (decodePath σ pc.1).map fun l => (l, pc.2)) with
            | none => rfl
            | some r => rfl
      rw [this]
      cases out.mapM (fun pc => (decodePath σ pc.1).map fun l => (l, pc.2)) with
      | none => rfl
      | some r => rfl

end Gasur.KNat
