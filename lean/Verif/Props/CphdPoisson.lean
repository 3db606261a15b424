import Verif.Props.Cphd
import Verif.Proofs.CphdPoisson

/-!
# Property C160: with a Poisson distributed number of objects the CPHD filter is the PHD filter
-/

set_option linter.unusedSectionVars false

namespace Gasur.Props

open Gasur.Cphd Gasur.Phd Gasur.Spec Filter Topology

variable {V P Z : Type*} [AddCommGroup V] [Module ℝ V] [AddCommGroup P] [Module ℝ P]

/-- The corrected components of the CPHD filter, for a truncated Poisson distribution. -/
theorem correctComps_poisson {esf : List ℝ → List ℝ} (he : IsEsf esf) {pr : Params ℝ} (hpr : OkC pr) (f : Filt ℝ V P Z)
    (hf : ∀ z s p, 0 ≤ (f.fcor z s p).2.1) (zs : List Z) {cs : List (ℝ × V × P)} (hw : ∀ c ∈ cs, 0 ≤ c.1)
    (hpos : 0 < (cs.map fun c => c.1).sum) {N : ℕ} {card : List ℝ}
    (hc : IsNormalised N (poisson (cs.map fun c => c.1).sum) card) :
    ∃ card', correctComps esf pr f zs cs card = .ok
      (let W := (cs.map fun c => c.1).sum
       let xs := zs.map (xi (pr.probDetection / pr.clutterDen) f cs)
       let x := probDeath pr * W
       cs.map (fun c => (upsSum pr.clutterRate x xs 1 (N + 1) / upsSum pr.clutterRate x xs 0 (N + 1) * pr.probMiss * c.1, c.2)) ++
        zs.zipIdx.flatMap fun z => detComps pr.probDetection pr.clutterDen
          (upsSum pr.clutterRate x (xs.eraseIdx z.2) 1 (N + 1) / upsSum pr.clutterRate x xs 0 (N + 1)) f
          (zs.getLast?.getD z.1) z.1 cs, card') := by
  obtain ⟨⟨cs', card'⟩, h⟩ := correctComps_total he hf (zs := zs) hw (poisson_dist hpos hc) hpr.pd hpr.den hpr.rate
    (by unfold probDeath; linarith [hpr.ps1]) hpos
  refine ⟨card', ?_⟩
  rw [h]
  obtain ⟨xs, W, d0, rfl, rfl, -, -, -, -, -, rfl, -, -, rfl⟩ := correctComps_ok he h
  obtain ⟨hl, K, hK, hat⟩ := poisson_at hc
  have hsum : ∀ u : ℕ → ℝ, (∑ n ∈ Finset.range card.length, u n * at' card n) =
      K * ∑ n ∈ Finset.range (N + 1), u n * ((cs.map fun c => c.1).sum ^ n / n.factorial) := by
    intro u
    rw [hl, Finset.mul_sum]
    refine Finset.sum_congr rfl fun n hn => ?_
    rw [hat n (Finset.mem_range.1 hn)]
    ring
  simp only [hsum, U0_sum hpos, U1_sum hpos, mul_div_mul_left _ _ hK]

/-- **C160.** If the number of objects is Poisson distributed, the CPHD correction is the PHD correction. For every
mixture with positive total weight there is the result `g` of the PHD filter; and if the cardinality distribution of a CPHD
filter with this mixture is the Poisson distribution with the same mean, cut off at `max_expected_card = N`, then for all
large enough `N` its correction succeeds, the new means are those of `g` (the CPHD filter lists the missed components first)
and the new weights are as close to those of `g` as one likes. -/
theorem C160_poisson {esf : List ℝ → List ℝ} (he : IsEsf esf) {pr : Params ℝ} (hpr : OkC pr) (f : Filt ℝ V P Z)
    (hf : ∀ z s p, 0 ≤ (f.fcor z s p).2.1) (zs : List Z) (mix : Mix ℝ V P) (hal : Aligned mix) (hw : ∀ w ∈ mix.ws, 0 ≤ w)
    (hpos : 0 < mix.ws.sum) :
    ∃ g, Phd.correct pr f zs mix = .ok g ∧ ∀ ε > 0, ∃ N0, ∀ N ≥ N0, ∀ s : CState V P, s.mix = mix →
      IsNormalised N (poisson mix.ws.sum) s.card → ∃ s', Cphd.correct esf pr f zs s = .ok s' ∧
        s'.mix.ms.rotate mix.ms.length = g.ms ∧
        List.Forall₂ (fun a b => |a - b| ≤ ε) (s'.mix.ws.rotate mix.ws.length) g.ws := by
  obtain ⟨cs, rfl, hw'⟩ := (good_iff mix).1 ⟨hal, hw⟩
  have hpos' : 0 < (cs.map fun c => c.1).sum := hpos
  have hκ : 0 < pr.clutterRate * pr.clutterDen := mul_pos hpr.rate hpr.den
  have hden : ∀ z, 0 < denom pr f cs z := by
    intro z
    refine add_pos_of_pos_of_nonneg hκ (List.sum_nonneg ?_)
    intro x hx
    obtain ⟨c, hc, rfl⟩ := List.mem_map.1 hx
    exact mul_nonneg (hf _ _ _) (mul_nonneg hpr.pd (hw' c hc))
  refine ⟨_, correct_ofComps pr f cs zs fun z _ => .inr (hden z).ne', fun ε hε => ?_⟩
  set W := (cs.map fun c => c.1).sum with hW
  set xs := zs.map (xi (pr.probDetection / pr.clutterDen) f cs) with hxs
  have hx : ∀ z, 0 ≤ xi (pr.probDetection / pr.clutterDen) f cs z := fun z => xi_nonneg (div_nonneg hpr.pd hpr.den.le) hf hw' z
  have hprod : (xs.map fun y => pr.clutterRate + y).prod ≠ 0 := by
    refine (List.prod_pos ?_).ne'
    intro v hv
    obtain ⟨y, hy, rfl⟩ := List.mem_map.1 hv
    obtain ⟨z, -, rfl⟩ := List.mem_map.1 hy
    exact add_pos_of_pos_of_nonneg hpr.rate (hx z)
  -- the missed components
  have hm : ∀ᶠ N : ℕ in atTop, ∀ c ∈ cs, |upsSum pr.clutterRate (probDeath pr * W) xs 1 (N + 1) /
      upsSum pr.clutterRate (probDeath pr * W) xs 0 (N + 1) * pr.probMiss * c.1 - pr.probMiss * c.1| ≤ ε := by
    refine eventually_list fun c _ => ?_
    have h := ((ups_ratio (probDeath pr * W) xs 1 hprod).mul_const pr.probMiss).mul_const c.1
    rw [div_self hprod, one_mul] at h
    filter_upwards [Metric.tendsto_nhds.1 h ε hε] with N hN
    exact hN.le
  -- the detected components
  have hd : ∀ᶠ N : ℕ in atTop, ∀ z ∈ zs.zipIdx, ∀ c ∈ cs,
      |upsSum pr.clutterRate (probDeath pr * W) (xs.eraseIdx z.2) 1 (N + 1) /
        upsSum pr.clutterRate (probDeath pr * W) xs 0 (N + 1) * (pr.probDetection * (f.fcor z.1 c.2.1 c.2.2).2.1 /
          pr.clutterDen * c.1) - rawW pr f z.1 c / denom pr f cs z.1| ≤ ε := by
    refine eventually_list fun z hz => eventually_list fun c _ => ?_
    have h := (ups_ratio (probDeath pr * W) (xs.eraseIdx z.2) 1 hprod).mul_const
      (pr.probDetection * (f.fcor z.1 c.2.1 c.2.2).2.1 / pr.clutterDen * c.1)
    have hlim : ((xs.eraseIdx z.2).map fun y => pr.clutterRate + y).prod / (xs.map fun y => pr.clutterRate + y).prod *
        (pr.probDetection * (f.fcor z.1 c.2.1 c.2.2).2.1 / pr.clutterDen * c.1) = rawW pr f z.1 c / denom pr f cs z.1 := by
      have hlt : z.2 < zs.length := List.snd_lt_of_mem_zipIdx hz
      have hget : zs[z.2] = z.1 := by
        have := (List.mem_zipIdx hz).2.2
        simpa using this.symm
      have hlt' : z.2 < (xs.map fun y => pr.clutterRate + y).length := by simpa [hxs] using hlt
      have h1 := List.CommMonoid.mul_prod_eraseIdx hlt'
      rw [List.getElem_map, List.eraseIdx_map] at h1
      have h2 : xs[z.2]'(by simpa using hlt') = xi (pr.probDetection / pr.clutterDen) f cs z.1 := by
        simp only [hxs, List.getElem_map, hget]
      rw [h2] at h1
      have h3 : pr.clutterDen * (pr.clutterRate + xi (pr.probDetection / pr.clutterDen) f cs z.1) = denom pr f cs z.1 := by
        unfold xi denom
        rw [mul_add, mul_comm pr.clutterDen, ← mul_assoc, mul_div_cancel₀ _ hpr.den.ne', ← List.sum_map_mul_left]
        congr 2
        refine List.map_congr_left fun c _ => ?_
        unfold rawW
        ring
      have h4 := hpr.den.ne'
      have h5 : pr.clutterRate + xi (pr.probDetection / pr.clutterDen) f cs z.1 ≠ 0 := (add_pos_of_pos_of_nonneg hpr.rate (hx z.1)).ne'
      have h6 : ((xs.eraseIdx z.2).map fun y => pr.clutterRate + y).prod ≠ 0 := by
        intro h0
        rw [h0, mul_zero] at h1
        exact hprod h1.symm
      rw [← h1, ← h3]
      unfold rawW
      field_simp
    rw [hlim] at h
    filter_upwards [Metric.tendsto_nhds.1 h ε hε] with N hN
    exact hN.le
  obtain ⟨N0, hN0⟩ := eventually_atTop.1 (hm.and hd)
  refine ⟨N0, fun N hN s hs hcard => ?_⟩
  obtain ⟨a1, a2⟩ := hN0 N hN
  obtain ⟨card', hc⟩ := correctComps_poisson he hpr f hf zs hw' hpos' hcard
  refine ⟨_, by
    unfold Cphd.correct
    rw [hs, if_pos ⟨hal.1, hal.2⟩, comps_ofComps, hc], ?_, ?_⟩
  · show List.rotate (mixOf _).ms _ = _
    unfold mixOf ofComps
    dsimp only
    rw [List.map_append, List.map_append]
    have hl : (cs.map fun c => c.2.1).length = ((cs.map fun c => (upsSum pr.clutterRate (probDeath pr * W) xs 1 (N + 1) /
      upsSum pr.clutterRate (probDeath pr * W) xs 0 (N + 1) * pr.probMiss * c.1, c.2)).map fun c => c.2.1).length := by simp
    rw [hl, List.rotate_append_length_eq]
    congr 1
    · rw [flatMap_zipIdx _ zs, List.map_flatMap, List.map_flatMap]
      refine List.flatMap_congr fun z _ => ?_
      unfold detComps corComp
      rw [List.map_map, List.map_map]
      rfl
    · rw [List.map_map, List.map_map]
      rfl
  · show List.Forall₂ _ (List.rotate (mixOf _).ws _) _
    unfold mixOf ofComps
    dsimp only
    rw [List.map_append, List.map_append]
    have hl : (cs.map fun c => c.1).length = ((cs.map fun c => (upsSum pr.clutterRate (probDeath pr * W) xs 1 (N + 1) /
      upsSum pr.clutterRate (probDeath pr * W) xs 0 (N + 1) * pr.probMiss * c.1, c.2)).map fun c => c.1).length := by simp
    rw [hl, List.rotate_append_length_eq]
    refine List.rel_append ?_ ?_
    · rw [flatMap_zipIdx _ zs, List.map_flatMap, List.map_flatMap]
      refine forall₂_flatMap fun z hz => ?_
      unfold detComps corComp
      rw [List.map_map, List.map_map]
      exact forall₂_map_same fun c hc => a2 z hz c hc
    · rw [List.map_map, List.map_map]
      exact forall₂_map_same fun c hc => a1 c hc

/-- The conditions of C160 can be met: one component of weight 1/2 and a certain inner filter, the truncated Poisson
distribution, two measurements. -/
example : ∃ (N : ℕ) (s s' : CState ℝ ℝ), IsNormalised N (poisson (1 / 2)) s.card ∧ s.mix = exCS.mix ∧
    Cphd.correct exEsf exCp exCF [3, 4] s = .ok s' ∧ s'.mix.ws.length = 3 := by
  obtain ⟨g, hg, h⟩ := C160_poisson exEsf_ok exCp_ok exCF (fun _ _ _ => zero_le_one) [3, 4] exCS.mix ⟨rfl, rfl⟩
    (by intro w hw; simp only [exCS, List.mem_cons, List.not_mem_nil, or_false] at hw; rw [hw]; norm_num)
    (by norm_num [exCS])
  obtain ⟨N, hN⟩ := h 1 one_pos
  have hn : IsNormalised N (poisson (1 / 2)) ((List.range (N + 1)).map fun n => poisson (1 / 2) n /
      ∑ k ∈ Finset.range (N + 1), poisson (1 / 2) k) := ⟨(poisson_sum_pos (by norm_num) N).ne', rfl⟩
  have hs : exCS.mix.ws.sum = 1 / 2 := by norm_num [exCS]
  set card := (List.range (N + 1)).map fun n => poisson (1 / 2) n / ∑ k ∈ Finset.range (N + 1), poisson (1 / 2) k
  obtain ⟨s', h1, -, h3⟩ := hN N le_rfl ⟨exCS.mix, card, [], [], []⟩ rfl (hs ▸ hn)
  refine ⟨N, ⟨exCS.mix, card, [], [], []⟩, s', hn, rfl, h1, ?_⟩
  have h4 := h3.length_eq
  rw [List.length_rotate] at h4
  rw [h4]
  have : Phd.correct exCp exCF [3, 4] exCS.mix = .ok ⟨_, _, _⟩ := correct_ofComps exCp exCF [(1 / 2, 0, 1)] [3, 4]
    fun z _ => .inr (by norm_num [denom, rawW, exCp, exCF])
  rw [this] at hg
  cases hg
  simp [ofComps]

end Gasur.Props
