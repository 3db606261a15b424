import Verif.Proofs.CphdSym
import Verif.Props.Phd
import Mathlib.Algebra.BigOperators.Field

/-!
# Lemmas about the CPHD model
-/

set_option linter.unusedSectionVars false

namespace Gasur.Cphd

open Gasur.Phd Gasur.Spec

variable {V P Z : Type*}

theorem at'_nonneg {c : List ℝ} (h : ∀ x ∈ c, 0 ≤ x) (i : ℕ) : 0 ≤ at' c i := by
  unfold at'
  cases hi : c[i]? with
  | none => simp
  | some x => exact h x (List.mem_of_getElem? hi)

theorem sum_eq_at' (c : List ℝ) : c.sum = ∑ n ∈ Finset.range c.length, at' c n := by
  induction c with
  | nil => simp
  | cons x c ih =>
    rw [List.sum_cons, List.length_cons, Finset.sum_range_succ', ih, add_comm]
    congr 1

theorem sum_map_range (n : ℕ) (u : ℕ → ℝ) : ((List.range n).map u).sum = ∑ k ∈ Finset.range n, u k := by
  induction n with
  | zero => simp
  | succ n ih => rw [List.range_succ, List.map_append, List.sum_append, Finset.sum_range_succ, ih]; simp

theorem at'_map_range (n : ℕ) (u : ℕ → ℝ) {k : ℕ} (hk : k < n) : at' ((List.range n).map u) k = u k := by
  unfold at'
  simp [hk]

theorem zipIdx_sum (F : ℝ × ℕ → ℝ) : ∀ (c : List ℝ) (k : ℕ),
    ((c.zipIdx k).map F).sum = ∑ n ∈ Finset.range c.length, F (at' c n, n + k)
  | [], k => by simp
  | x :: c, k => by
    rw [List.zipIdx_cons, List.map_cons, List.sum_cons, List.length_cons, Finset.sum_range_succ', zipIdx_sum F c (k + 1),
      add_comm]
    congr 1
    · refine Finset.sum_congr rfl fun n _ => ?_
      rw [show n + 1 + k = n + (k + 1) by omega]
      rfl
    · rw [Nat.zero_add]; rfl

theorem cardMean_eq (c : List ℝ) : cardMean c = ∑ n ∈ Finset.range c.length, (n : ℝ) * at' c n := by
  unfold cardMean
  rw [zipIdx_sum (fun x => (x.2 : ℝ) * x.1) c 0]
  rfl

theorem dotCard_eq (u : ℕ → ℝ) (c : List ℝ) : dotCard u c = ∑ n ∈ Finset.range c.length, u n * at' c n :=
  sum_map_range _ _

theorem normalize_ok {l c : List ℝ} (h : normalize l = .ok c) : l.sum ≠ 0 ∧ c = l.map fun x => x / l.sum := by
  unfold normalize at h
  split at h
  · simp at h
  · rename_i h0
    simp only [Except.ok.injEq] at h
    exact ⟨h0, h.symm⟩

theorem normalize_dist {l c : List ℝ} {N : ℕ} (hl : l.length = N + 1) (hn : ∀ x ∈ l, 0 ≤ x) (h : normalize l = .ok c) :
    IsDist N c := by
  obtain ⟨h0, rfl⟩ := normalize_ok h
  have hs : 0 ≤ l.sum := List.sum_nonneg hn
  refine ⟨by simp [hl], ?_, ?_⟩
  · intro x hx
    obtain ⟨y, hy, rfl⟩ := List.mem_map.1 hx
    exact div_nonneg (hn y hy) hs
  · have : (l.map fun x => x / l.sum) = l.map fun x => x * (l.sum)⁻¹ := by simp [div_eq_mul_inv]
    rw [this, List.sum_map_mul_right]
    simp [h0]

/-! ### Prediction -/

theorem survPredict_nonneg (N : ℕ) (ps pd : ℝ) {c : List ℝ} (h : ∀ x ∈ c, 0 ≤ x) (j : ℕ) :
    0 ≤ survPredict N ps pd c j := by
  unfold survPredict
  split
  · exact Finset.sum_nonneg fun i _ => mul_nonneg (Real.exp_nonneg _) (at'_nonneg h i)
  · exact le_refl _

theorem cdnPredict_nonneg (N : ℕ) (ps pd b : ℝ) {c : List ℝ} (h : ∀ x ∈ c, 0 ≤ x) (n : ℕ) :
    0 ≤ cdnPredict N ps pd b c n :=
  Finset.sum_nonneg fun j _ => mul_nonneg (Real.exp_nonneg _) (survPredict_nonneg N ps pd h j)

theorem cardPredict_dist {N : ℕ} {ps pd b : ℝ} {c c' : List ℝ} (h : ∀ x ∈ c, 0 ≤ x)
    (hc : cardPredict N ps pd b c = .ok c') : IsDist N c' := by
  unfold cardPredict at hc
  split at hc
  · simp at hc
  · refine normalize_dist (by simp) ?_ hc
    intro x hx
    obtain ⟨n, _, rfl⟩ := List.mem_map.1 hx
    exact cdnPredict_nonneg N ps pd b h n

theorem exists_pos_of_sum {c : List ℝ} (hn : ∀ x ∈ c, 0 ≤ x) (hs : 0 < c.sum) :
    ∃ i, i < c.length ∧ 0 < at' c i := by
  by_contra hcon
  push Not at hcon
  rw [sum_eq_at'] at hs
  have : ∑ n ∈ Finset.range c.length, at' c n ≤ 0 :=
    Finset.sum_nonpos fun i hi => hcon i (Finset.mem_range.1 hi)
  linarith

theorem cardPredict_total {N : ℕ} {ps pd b : ℝ} {c : List ℝ} (hN : 1 ≤ N) (hc : IsDist N c) (hps : 0 < ps) (hpd : 0 < pd)
    (hb : 0 < b) : ∃ c', cardPredict N ps pd b c = .ok c' := by
  unfold cardPredict
  rw [if_neg (by push Not; exact ⟨hps, hpd, hb⟩)]
  unfold normalize
  rw [if_neg]
  · exact ⟨_, rfl⟩
  · rw [sum_map_range]
    obtain ⟨i, hi, hpos⟩ := exists_pos_of_sum hc.nonneg (by rw [hc.sum]; norm_num)
    rw [hc.length] at hi
    have h0 : 0 < survPredict N ps pd c 0 := by
      unfold survPredict
      rw [if_pos (by omega)]
      refine Finset.sum_pos' (fun k _ => mul_nonneg (Real.exp_nonneg _) (at'_nonneg hc.nonneg k)) ⟨i, ?_, ?_⟩
      · rw [Finset.mem_Ico]; omega
      · exact mul_pos (Real.exp_pos _) hpos
    have h1 : 0 < cdnPredict N ps pd b c 0 := by
      unfold cdnPredict
      rw [Finset.sum_range_one]
      exact mul_pos (Real.exp_pos _) h0
    apply ne_of_gt
    exact Finset.sum_pos' (fun k _ => cdnPredict_nonneg N ps pd b hc.nonneg k) ⟨0, by simp, h1⟩

/-! ### Correction -/

theorem U0_pos {lam pd W : ℝ} (hl : 0 < lam) (hp : 0 < pd) (hW : 0 < W) {xs : List ℝ} (hx : ∀ x ∈ xs, 0 ≤ x) (n : ℕ) :
    0 < U0 lam pd W xs n := by
  unfold U0
  refine Finset.sum_pos' (fun j _ => ?_) ⟨0, by simp, ?_⟩
  · have := es_nonneg xs hx j
    positivity
  · rw [es_zero]
    simp only [Nat.descFactorial_zero, Nat.cast_one]
    positivity

theorem U1_nonneg {lam pd W : ℝ} (hl : 0 < lam) (hp : 0 < pd) (hW : 0 < W) {xs : List ℝ} (hx : ∀ x ∈ xs, 0 ≤ x) (n : ℕ) :
    0 ≤ U1 lam pd W xs n := by
  unfold U1
  refine Finset.sum_nonneg fun j _ => ?_
  have := es_nonneg xs hx j
  positivity

theorem U1_pos {lam pd W : ℝ} (hl : 0 < lam) (hp : 0 < pd) (hW : 0 < W) {xs : List ℝ} (hx : ∀ x ∈ xs, 0 ≤ x) {n : ℕ}
    (hn : 1 ≤ n) : 0 < U1 lam pd W xs n := by
  unfold U1
  refine Finset.sum_pos' (fun j _ => ?_) ⟨0, by simp, ?_⟩
  · have := es_nonneg xs hx j
    positivity
  · rw [es_zero, Nat.descFactorial_succ, Nat.descFactorial_zero]
    have : (0 : ℝ) < ((n - 0) * 1 : ℕ) := by exact_mod_cast by omega
    positivity

theorem xi_nonneg {pdc : ℝ} (hp : 0 ≤ pdc) {f : Filt ℝ V P Z} (hf : ∀ z s p, 0 ≤ (f.fcor z s p).2.1)
    {cs : List (ℝ × V × P)} (hw : ∀ c ∈ cs, 0 ≤ c.1) (z : Z) : 0 ≤ xi pdc f cs z := by
  unfold xi
  refine mul_nonneg hp (List.sum_nonneg ?_)
  intro x hx
  obtain ⟨c, hc, rfl⟩ := List.mem_map.1 hx
  exact mul_nonneg (hw c hc) (hf _ _ _)

/-- What `correctComps` returns. -/
theorem correctComps_ok {esf : List ℝ → List ℝ} (he : IsEsf esf) {pr : Params ℝ} {f : Filt ℝ V P Z} {zs : List Z}
    {cs cs' : List (ℝ × V × P)} {card card' : List ℝ}
    (h : correctComps esf pr f zs cs card = .ok (cs', card')) :
    ∃ (xs : List ℝ) (W d0 : ℝ), xs = zs.map (xi (pr.probDetection / pr.clutterDen) f cs) ∧
      W = (cs.map fun c => c.1).sum ∧ cs ≠ [] ∧ pr.clutterDen ≠ 0 ∧ 0 < pr.clutterRate ∧ 0 < probDeath pr ∧ 0 < W ∧
      d0 = (∑ n ∈ Finset.range card.length, U0 pr.clutterRate (probDeath pr) W xs n * at' card n) ∧ d0 ≠ 0 ∧
      card' = ((List.range card.length).map fun n => U0 pr.clutterRate (probDeath pr) W xs n * at' card n / d0) ∧
      cs' = cs.map (fun c => ((∑ n ∈ Finset.range card.length, U1 pr.clutterRate (probDeath pr) W xs n * at' card n) / d0 *
          pr.probMiss * c.1, c.2)) ++
        (zs.zipIdx).flatMap fun z => detComps pr.probDetection pr.clutterDen
          ((∑ n ∈ Finset.range card.length, U1 pr.clutterRate (probDeath pr) W (xs.eraseIdx z.2) n * at' card n) / d0) f
          (zs.getLast?.getD z.1) z.1 cs := by
  unfold correctComps at h
  split at h
  · simp at h
  rename_i hcs
  split at h
  · simp at h
  rename_i hcd
  dsimp only at h
  split at h
  · simp at h
  rename_i hpos
  push Not at hpos
  obtain ⟨hl, hp, hW⟩ := hpos
  have hx : zs.length = (zs.map (xi (pr.probDetection / pr.clutterDen) f cs)).length := by simp
  have hu0 : ups0 pr.clutterRate (probDeath pr) (cs.map fun c => c.1).sum zs.length
      (esf (zs.map (xi (pr.probDetection / pr.clutterDen) f cs))) =
      U0 pr.clutterRate (probDeath pr) (cs.map fun c => c.1).sum
        (zs.map (xi (pr.probDetection / pr.clutterDen) f cs)) := by
    funext n
    rw [← ups0_eq he hl hp hW, ← hx]
  have hu1 : ups1 pr.clutterRate (probDeath pr) (cs.map fun c => c.1).sum zs.length
      (esf (zs.map (xi (pr.probDetection / pr.clutterDen) f cs))) =
      U1 pr.clutterRate (probDeath pr) (cs.map fun c => c.1).sum
        (zs.map (xi (pr.probDetection / pr.clutterDen) f cs)) := by
    funext n
    rw [← ups1_eq he hl hp hW, ← hx]
  split at h
  · simp at h
  rename_i hd0
  split at h
  · simp at h
  rename_i c' hc'
  simp only [Except.ok.injEq, Prod.mk.injEq] at h
  obtain ⟨h1, h2⟩ := h
  subst h2
  refine ⟨_, _, _, rfl, rfl, hcs, hcd, hl, hp, hW, rfl, ?_, ?_, ?_⟩
  · rw [hu0, dotCard_eq] at hd0
    exact hd0
  · obtain ⟨_, h4⟩ := normalize_ok hc'
    rw [h4, sum_map_range, hu0, List.map_map]
    rfl
  · rw [← h1, hu0, hu1, dotCard_eq, dotCard_eq]
    congr 1
    · unfold missWeights
      rw [List.zipWith_map_left]
      rw [List.zipWith_self]
    · apply List.flatMap_congr
      intro z hz
      have hlt := List.snd_lt_of_mem_zipIdx hz
      have hu : ups1 pr.clutterRate (probDeath pr) (cs.map fun c => c.1).sum (zs.length - 1)
          (esf ((zs.map (xi (pr.probDetection / pr.clutterDen) f cs)).eraseIdx z.2)) =
          U1 pr.clutterRate (probDeath pr) (cs.map fun c => c.1).sum
            ((zs.map (xi (pr.probDetection / pr.clutterDen) f cs)).eraseIdx z.2) := by
        funext n
        rw [← ups1_eq he hl hp hW, List.length_eraseIdx_of_lt (by simpa using hlt)]
        simp
      rw [hu, dotCard_eq]

/-- When the correction succeeds. -/
theorem correctComps_total {esf : List ℝ → List ℝ} (he : IsEsf esf) {pr : Params ℝ} {f : Filt ℝ V P Z}
    (hf : ∀ z s p, 0 ≤ (f.fcor z s p).2.1) {zs : List Z} {cs : List (ℝ × V × P)} (hw : ∀ c ∈ cs, 0 ≤ c.1) {card : List ℝ}
    {N : ℕ} (hc : IsDist N card) (hpd : 0 ≤ pr.probDetection) (hden : 0 < pr.clutterDen) (hrate : 0 < pr.clutterRate)
    (hdeath : 0 < probDeath pr) (hW : 0 < (cs.map fun c => c.1).sum) :
    ∃ r, correctComps esf pr f zs cs card = .ok r := by
  have hcs : cs ≠ [] := by rintro rfl; simp at hW
  have hx : ∀ x ∈ zs.map (xi (pr.probDetection / pr.clutterDen) f cs), 0 ≤ x := by
    intro x hx
    obtain ⟨z, _, rfl⟩ := List.mem_map.1 hx
    exact xi_nonneg (div_nonneg hpd hden.le) hf hw z
  have hlen : zs.length = (zs.map (xi (pr.probDetection / pr.clutterDen) f cs)).length := by simp
  have hu0 : ups0 pr.clutterRate (probDeath pr) (cs.map fun c => c.1).sum zs.length
      (esf (zs.map (xi (pr.probDetection / pr.clutterDen) f cs))) =
      U0 pr.clutterRate (probDeath pr) (cs.map fun c => c.1).sum
        (zs.map (xi (pr.probDetection / pr.clutterDen) f cs)) := by
    funext n
    rw [← ups0_eq he hrate hdeath hW, ← hlen]
  have hpos : 0 < ∑ n ∈ Finset.range card.length, U0 pr.clutterRate (probDeath pr) (cs.map fun c => c.1).sum
        (zs.map (xi (pr.probDetection / pr.clutterDen) f cs)) n * at' card n := by
    obtain ⟨i, hi, hipos⟩ := exists_pos_of_sum hc.nonneg (by rw [hc.sum]; norm_num)
    refine Finset.sum_pos' (fun n _ => mul_nonneg (U0_pos hrate hdeath hW hx n).le (at'_nonneg hc.nonneg n))
      ⟨i, Finset.mem_range.2 hi, mul_pos (U0_pos hrate hdeath hW hx i) hipos⟩
  unfold correctComps
  rw [if_neg hcs, if_neg hden.ne']
  dsimp only
  rw [if_neg (by push Not; exact ⟨hrate, hdeath, hW⟩), hu0, dotCard_eq, if_neg hpos.ne']
  unfold normalize
  rw [sum_map_range, if_neg hpos.ne']
  exact ⟨_, rfl⟩

theorem card_after {esf : List ℝ → List ℝ} (he : IsEsf esf) {pr : Params ℝ} {f : Filt ℝ V P Z}
    (hf : ∀ z s p, 0 ≤ (f.fcor z s p).2.1) {zs : List Z} {cs cs' : List (ℝ × V × P)} (hw : ∀ c ∈ cs, 0 ≤ c.1)
    {card card' : List ℝ} {N : ℕ} (hc : IsDist N card) (hpd : 0 ≤ pr.probDetection) (hpm : 0 ≤ pr.probMiss)
    (hden : 0 ≤ pr.clutterDen) (h : correctComps esf pr f zs cs card = .ok (cs', card')) :
    IsDist N card' ∧ ∀ c ∈ cs', 0 ≤ c.1 := by
  obtain ⟨xs, W, d0, rfl, hWe, hcs, hcd, hl, hp, hW, hd, hd0, hcard, hcs'⟩ := correctComps_ok he h
  have hx : ∀ x ∈ zs.map (xi (pr.probDetection / pr.clutterDen) f cs), 0 ≤ x := by
    intro x hx
    obtain ⟨z, _, rfl⟩ := List.mem_map.1 hx
    exact xi_nonneg (div_nonneg hpd hden) hf hw z
  have hnn : ∀ n, 0 ≤ U0 pr.clutterRate (probDeath pr) W (zs.map (xi (pr.probDetection / pr.clutterDen) f cs)) n *
      at' card n := fun n => mul_nonneg (U0_pos hl hp hW hx n).le (at'_nonneg hc.nonneg n)
  have hd0n : 0 ≤ d0 := by rw [hd]; exact Finset.sum_nonneg fun n _ => hnn n
  constructor
  · refine ⟨by rw [hcard]; simp [hc.length], ?_, ?_⟩
    · intro x hx
      rw [hcard] at hx
      obtain ⟨n, _, rfl⟩ := List.mem_map.1 hx
      exact div_nonneg (hnn n) hd0n
    · rw [hcard, sum_map_range, ← Finset.sum_div, ← hd, div_self hd0]
  · intro c hc'
    rw [hcs'] at hc'
    rcases List.mem_append.1 hc' with hc' | hc'
    · obtain ⟨y, hy, rfl⟩ := List.mem_map.1 hc'
      have : 0 ≤ ∑ n ∈ Finset.range card.length, U1 pr.clutterRate (probDeath pr) W
          (zs.map (xi (pr.probDetection / pr.clutterDen) f cs)) n * at' card n :=
        Finset.sum_nonneg fun n _ => mul_nonneg (U1_nonneg hl hp hW hx n) (at'_nonneg hc.nonneg n)
      exact mul_nonneg (mul_nonneg (div_nonneg this hd0n) hpm) (hw y hy)
    · obtain ⟨z, hz, hc'⟩ := List.mem_flatMap.1 hc'
      obtain ⟨y, hy, rfl⟩ := List.mem_map.1 hc'
      have : 0 ≤ ∑ n ∈ Finset.range card.length, U1 pr.clutterRate (probDeath pr) W
          ((zs.map (xi (pr.probDetection / pr.clutterDen) f cs)).eraseIdx z.2) n * at' card n :=
        Finset.sum_nonneg fun n _ => mul_nonneg
          (U1_nonneg hl hp hW (fun x h => hx x (List.mem_of_mem_eraseIdx h)) n) (at'_nonneg hc.nonneg n)
      exact mul_nonneg (div_nonneg this hd0n) (mul_nonneg (div_nonneg (mul_nonneg hpd (hf _ _ _)) hden) (hw y hy))

theorem detComps_mass (pdet cden r : ℝ) (f : Filt ℝ V P Z) (zl z : Z) (cs : List (ℝ × V × P)) :
    ((detComps pdet cden r f zl z cs).map fun c => c.1).sum = r * xi (pdet / cden) f cs z := by
  unfold detComps xi
  rw [List.map_map, ← List.sum_map_mul_left, ← List.sum_map_mul_left]
  congr 1
  apply List.map_congr_left
  intro c _
  simp only [Function.comp_apply]
  ring

/-- Total weight after the correction. -/
theorem mass_after {esf : List ℝ → List ℝ} (he : IsEsf esf) {pr : Params ℝ} {f : Filt ℝ V P Z} {zs : List Z}
    {cs cs' : List (ℝ × V × P)} {card card' : List ℝ}
    (h : correctComps esf pr f zs cs card = .ok (cs', card')) :
    ∃ r : ℝ, (cs'.map fun c => c.1).sum = cardMean card' + (pr.probMiss - probDeath pr) * r ∧
      r = (cs.map fun c => c.1).sum * (∑ n ∈ Finset.range card.length, U1 pr.clutterRate (probDeath pr)
        (cs.map fun c => c.1).sum (zs.map (xi (pr.probDetection / pr.clutterDen) f cs)) n * at' card n) /
        (∑ n ∈ Finset.range card.length, U0 pr.clutterRate (probDeath pr)
        (cs.map fun c => c.1).sum (zs.map (xi (pr.probDetection / pr.clutterDen) f cs)) n * at' card n) := by
  obtain ⟨xs, W, d0, hxs, hWe, hcs, hcd, hl, hp, hW, hd, hd0, hcard, hcs'⟩ := correctComps_ok he h
  refine ⟨_, ?_, rfl⟩
  rw [← hWe, ← hxs, ← hd]
  -- mean
  have hmean : cardMean card' = (∑ n ∈ Finset.range card.length,
      ((n : ℝ) * U0 pr.clutterRate (probDeath pr) W xs n) * at' card n) / d0 := by
    rw [cardMean_eq, hcard, List.length_map, List.length_range, Finset.sum_div]
    refine Finset.sum_congr rfl fun n hn => ?_
    rw [at'_map_range _ _ (Finset.mem_range.1 hn)]
    ring
  have hmean2 : cardMean card' = (probDeath pr * W *
      (∑ n ∈ Finset.range card.length, U1 pr.clutterRate (probDeath pr) W xs n * at' card n) +
      sumErase xs fun x r => x * ∑ n ∈ Finset.range card.length, U1 pr.clutterRate (probDeath pr) W r n * at' card n) /
      d0 := by
    rw [hmean]
    congr 1
    have h1 : (sumErase xs fun x r => x * ∑ n ∈ Finset.range card.length,
        U1 pr.clutterRate (probDeath pr) W r n * at' card n) =
        ∑ n ∈ Finset.range card.length, (sumErase xs fun x r => x * U1 pr.clutterRate (probDeath pr) W r n) *
          at' card n := by
      unfold sumErase
      simp only [Finset.sum_mul, Finset.mul_sum]
      rw [Finset.sum_comm]
      refine Finset.sum_congr rfl fun n _ => Finset.sum_congr rfl fun k _ => ?_
      ring
    rw [h1, Finset.mul_sum, ← Finset.sum_add_distrib]
    refine Finset.sum_congr rfl fun n _ => ?_
    rw [mean_identity _ _ _ hW.ne' hp.ne']
    ring
  rw [hmean2, hcs', List.map_append, List.sum_append, List.map_map]
  have hmiss : (cs.map ((fun c : ℝ × V × P => c.1) ∘ fun c => ((∑ n ∈ Finset.range card.length,
      U1 pr.clutterRate (probDeath pr) W xs n * at' card n) / d0 * pr.probMiss * c.1, c.2))).sum =
      (∑ n ∈ Finset.range card.length, U1 pr.clutterRate (probDeath pr) W xs n * at' card n) / d0 * pr.probMiss * W := by
    rw [hWe, ← List.sum_map_mul_left]
    rfl
  rw [hmiss]
  have hdet : ((((zs.zipIdx).flatMap fun z => detComps pr.probDetection pr.clutterDen
          ((∑ n ∈ Finset.range card.length, U1 pr.clutterRate (probDeath pr) W (xs.eraseIdx z.2) n * at' card n) / d0) f
          (zs.getLast?.getD z.1) z.1 cs)).map fun c => c.1).sum =
      (sumErase xs fun x r => x * ∑ n ∈ Finset.range card.length, U1 pr.clutterRate (probDeath pr) W r n * at' card n) /
      d0 := by
    rw [List.map_flatMap, List.flatMap, List.sum_flatten, List.map_map]
    rw [← sumErase_zipIdx, hxs, List.zipIdx_map, List.map_map]
    rw [div_eq_mul_inv (List.sum _) d0, ← List.sum_map_mul_right]
    congr 1
    apply List.map_congr_left
    intro z _
    show ((detComps _ _ _ _ _ _ _).map fun c => c.1).sum = _
    rw [detComps_mass]
    simp only [Function.comp_apply, Prod.map_fst, Prod.map_snd, id_eq]
    ring
  rw [hdet]
  field_simp
  ring

/-! ### The filter -/

theorem comps_ofComps (cs : List (ℝ × V × P)) : comps (ofComps cs) = cs := by
  unfold comps ofComps
  induction cs with
  | nil => rfl
  | cons c cs ih => simpa using ih

theorem mixOf_eq (cs : List (ℝ × V × P)) : mixOf cs = ofComps cs := rfl

theorem zeroCard_dist (N : ℕ) : IsDist N (zeroCard N) := by
  refine ⟨by simp [zeroCard], ?_, by simp [zeroCard]⟩
  intro x hx
  rcases List.mem_cons.1 hx with rfl | hx
  · norm_num
  · rw [(List.mem_replicate.1 hx).2]

end Gasur.Cphd
