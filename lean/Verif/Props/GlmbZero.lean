import Verif.Proofs.GlmbBasic
import Mathlib.Data.Rat.Floor

/-!
# C132: impossible births and survivals

The log odds of a birth (or survival) probability of zero are `-inf`, so its cost is `+inf`; nothing rejects it. The
filter must then never report a target that cannot have been born or cannot have survived.
-/

namespace Gasur.Props

open Gasur.Glmb Gasur.KShortest

section
variable {K τ F S C Z : Type*} [Field K] [LinearOrder K] [IsStrictOrderedRing K] [FloorRing K]

theorem survOne_possible {env : Env K τ F S C Z} {pr : Params K} (heps : 0 < pr.eps) {tab : List (Entry K τ F S C)} {ss : K}
    {h : Hyp K} {out} (hs : survOne env pr tab ss h = .ok out) {h'} (hh : h' ∈ out) {t : ℕ} (ht : t ∈ h'.tracks) :
    ∃ e, tab[t]? = some e ∧ 0 < env.psurv e ∧ env.psurv e < 1 := by
  rcases survOne_ok heps hs with ⟨h0, rfl⟩ | ⟨_, ents, costs, paths, h1, h2, _, h3, h4⟩
  · rw [List.mem_singleton] at hh
    subst hh
    rw [h0] at ht
    exact absurd ht (List.not_mem_nil)
  · obtain ⟨pc, hpc, _, hp2, _⟩ := forall₂_mem_right h4 hh
    obtain ⟨i, hi, hit⟩ := forall₂_mem_right hp2 ht
    obtain ⟨x, hx⟩ := ((kList_ok heps h3).2.2 pc hpc).2.2.2 i hi
    rw [List.forall₂_iff_get] at h1 h2
    have hil : i < h.tracks.length := by
      by_contra hc
      rw [List.getElem?_eq_none (by omega)] at hit
      exact absurd hit (by simp)
    have he : i < ents.length := by rw [← h1.1]; exact hil
    have hc : i < costs.length := by rw [← h2.1]; exact he
    have e1 := h1.2 i hil he
    have e2 := h2.2 i he hc
    rw [List.getElem?_eq_getElem hc] at hx
    rw [List.getElem?_eq_getElem hil] at hit
    simp only [List.get_eq_getElem] at e1 e2
    rw [Option.some.inj hx] at e2
    rw [Option.some.inj hit] at e1
    exact ⟨_, e1, e2.pos, e2.range.2⟩

/-- **C132.** Birth and survival probabilities of zero are allowed, and what they exclude stays excluded: in every
hypothesis after `predict`, a new track (the new tracks come first in the table) comes from a birth term of positive
probability, and an old track `t` (now at position `births.length + t`) had a positive survival probability. -/
theorem C132_possible (env : Env K τ F S C Z) (pr : Params K) (heps : 0 < pr.eps) (lab : τ)
    (births : List (Birth K F S C)) (st st' : St K τ F S C) (h : predict env pr lab births st = .ok st') :
    ∀ x ∈ st'.hyps, ∀ t ∈ x.tracks,
      (∃ b, births[t]? = some b ∧ 0 < b.prob) ∨
      ∃ (t₀ : ℕ) (e : Entry K τ F S C), t = births.length + t₀ ∧ st.tab[t₀]? = some e ∧ 0 < env.psurv e := by
  intro x hx t ht
  obtain ⟨costs, paths, bh, survTab, sh, hs, h1, h2, h3, h4, h5, h6, rfl⟩ := predict_ok h
  obtain ⟨y, hy, hyt⟩ := cleanPred_mem hx
  obtain ⟨b, hb, s, hs', hts⟩ := setPredHyps_mem h6 hy
  rw [hyt, hts] at ht
  rcases List.mem_append.1 ht with ht | ht
  · left
    obtain ⟨pc, hpc, hbt⟩ := birthHyps_mem h3 hb
    rw [hbt] at ht
    obtain ⟨c, hc⟩ := ((kList_ok heps h2).2.2 pc hpc).2.2.2 t ht
    rw [List.forall₂_iff_get] at h1
    have hct : t < costs.length := by
      by_contra hc'
      rw [List.getElem?_eq_none (by omega)] at hc
      exact absurd hc (by simp)
    have hbl : t < births.length := by rw [h1.1]; exact hct
    have e2 := h1.2 t hbl hct
    rw [List.getElem?_eq_getElem hct] at hc
    simp only [List.get_eq_getElem] at e2
    rw [Option.some.inj hc] at e2
    exact ⟨_, List.getElem?_eq_getElem hbl, e2.pos⟩
  · right
    obtain ⟨t₀, ht₀, rfl⟩ := List.mem_map.1 ht
    unfold survHyps at h5
    split at h5
    · exact (nomatch h5)
    · rename_i ls hls
      obtain ⟨y, hy, hty, _⟩ := normHyps_mem h5 hs'
      obtain ⟨l, hl, hyl⟩ := List.mem_flatten.1 hy
      obtain ⟨h₀, _, hsv⟩ := forall₂_mem_right ((traverseE_ok _ _ _).1 hls) hl
      rw [hty] at ht₀
      obtain ⟨e, he, hp, _⟩ := survOne_possible heps hsv hyl ht₀
      exact ⟨t₀, e, Nat.add_comm _ _, he, hp⟩

end

/-- Rational environment; survival probability zero for the tracks whose weight history says so. -/
def zeroEnv : Env ℚ ℕ Unit ℚ Unit Unit :=
  { num := { sqrt := id, negLog := fun x => 1 - x, expNeg := fun x => 2 - x }
    sortInds := fun _ _ => Equiv.refl _
    argsort := fun l => List.range l.length
    predF := fun f s => (f, s, ())
    corF := fun _ _ _ _ => none
    psurv := fun e => if e.label.2 = 0 then 0 else 3 / 4
    pdet := fun _ => 0 }

def zeroPr : Params ℚ :=
  { reqBirths := 5, reqSurv := 5, reqUpd := 5, pruneThreshold := 0, maxHyps := 9, clutterRate := 1, clutterDen := 1,
    eps := 1 / 100, fmax := 1000 }

def zeroBirth (p : ℚ) : Birth ℚ Unit ℚ Unit := ⟨[()], [1], [0], [()], p⟩

def zeroEntry (i : ℕ) : Entry ℚ ℕ Unit ℚ Unit := ⟨(0, i), [[1]], [()], [], [[0]], [[()]], 0⟩

def zeroSt : St ℚ ℕ Unit ℚ Unit :=
  { tab := [zeroEntry 0, zeroEntry 1], hyps := [⟨1, [0, 1]⟩], card := [0, 0, 1], cntr := 1, ext := [], states := [],
    labels := [], covs := [] }

/-- The hypotheses' track sets after a prediction with an impossible birth and an impossible survival: the second birth
term (position 1) and the second old track (position 2 + 1) appear, alone, together and not at all; positions 0 and 2 do
not. -/
example : (0 : ℚ) < zeroPr.eps ∧
    ((predict zeroEnv zeroPr 1 [zeroBirth 0, zeroBirth (3 / 4)] zeroSt).toOption.map fun s =>
      s.hyps.map fun h => h.tracks) = some [[1, 3], [1], [3], []] := by
  decide +kernel

end Gasur.Props
