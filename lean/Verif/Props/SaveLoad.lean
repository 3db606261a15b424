import Verif.Model.SaveLoad

/-!
# C25: saving and restoring filter state

`Lossless` is the property. It is false for every filter class (`C25_refuted_*`), and true for the GLMB and
joint GLMB filters (and the STM and GSM variants, which have the same attributes) whenever the filter has an
inner filter and the OSPA and OSPA(2) parameters agree (`C25_glmb_partial`, `C25_jglmb_partial`).
-/

namespace Gasur.Props

open Gasur.SaveLoad

/-- The attributes created by the constructor of the base class (tracker.py:59-91). -/
def rfsAttrs : List String :=
  ["filter", "prob_detection", "prob_survive", "birth_terms", "clutter_rate", "clutter_den",
   "inv_chi2_gate", "save_covs", "debug_plots", "ospa", "ospa_localization", "ospa_cardinality",
   "_ospa_params", "_states", "_meas_tab", "_covs"]

/-- The attributes created by the GLMB constructor (tracker.py:1857-1893). -/
def glmbAttrs : List String :=
  ["req_births", "req_surv", "req_upd", "gating_on", "prune_threshold", "max_hyps", "decimal_places",
   "save_measurements", "_track_tab", "_labels", "_extractable_hists", "_baseFilter", "_hypotheses",
   "_card_dist", "_time_index_cntr", "ospa2", "ospa2_localization", "ospa2_cardinality",
   "_ospa2_params"] ++ rfsAttrs

/-- The joint GLMB constructor adds one (tracker.py:3455-3457). -/
def jglmbAttrs : List String := "_old_track_tab" :: glmbAttrs

/-- The SMC GLMB constructor adds four (tracker.py:3248-3257). -/
def smcAttrs : List String :=
  ["compute_prob_detection", "compute_prob_survive", "_prob_surv_args", "_prob_det_args"] ++ glmbAttrs

variable {V T Φ P : Type*}

/-- Values a constructed filter can hold: `filter` and `_baseFilter` are `None` or an inner filter. -/
def Constructible (o : Obj V T Φ P) : Prop :=
  (o "filter" = .none ∨ ∃ f, o "filter" = .filt f) ∧
  (o "_baseFilter" = .none ∨ ∃ f, o "_baseFilter" = .filt f)

/-- `load` of what `save` stored succeeds on any other object `t`, and restores every attribute. -/
def Lossless (save : Obj V T Φ P → Except Err (Dict V T Φ P))
    (load : Dict V T Φ P → Obj V T Φ P → Except Err (Obj V T Φ P)) (attrs : List String)
    (ok : Obj V T Φ P → Prop) : Prop :=
  ∀ o t : Obj V T Φ P, ok o →
    ∃ d o', save o = .ok d ∧ load d t = .ok o' ∧ ∀ a ∈ attrs, o' a = o a

/-- The inner filters' own save and load are lossless. -/
def InnerLossless (inn : Inner T Φ P) : Prop := ∀ f, inn.load (inn.cls f) (inn.save f) = f

theorem loadAll_ok (d : Dict V T Φ P) : ∀ (ks : List String) (o : Obj V T Φ P),
    (∀ k ∈ ks, (d k).isSome) →
    ∃ o', loadAll d ks o = .ok o' ∧ (∀ k ∈ ks, some (o' k) = d k) ∧ ∀ a, a ∉ ks → o' a = o a
  | [], o, _ => ⟨o, rfl, by simp, by simp⟩
  | k :: ks, o, h => by
    obtain ⟨v, hv⟩ := Option.isSome_iff_exists.mp (h k (by simp))
    obtain ⟨o', ho', h1, h2⟩ := loadAll_ok d ks (o.set k v) (fun x hx => h x (by simp [hx]))
    refine ⟨o', by simp [loadAll, hv, ho'], ?_, ?_⟩
    · intro x hx
      by_cases hxk : x ∈ ks
      · exact h1 x hxk
      · have : x = k := by simpa [hxk] using hx
        subst this
        rw [h2 x hxk, hv]
        simp [Obj.set]
    · intro a ha
      rw [h2 a (by simp_all)]
      simp only [Obj.set]
      rw [if_neg (by simp_all)]

theorem saveAll_other (o : Obj V T Φ P) : ∀ (ps : List (String × String)) (d : Dict V T Φ P) (x : String),
    x ∉ ps.map Prod.fst → saveAll o ps d x = d x
  | [], d, x, _ => rfl
  | p :: ps, d, x, h => by
    have h' : x ≠ p.1 ∧ x ∉ ps.map Prod.fst := by simpa using h
    show saveAll o ps (d.set p.1 (o p.2)) x = d x
    rw [saveAll_other o ps _ x h'.2]
    simp [Dict.set, h'.1]

theorem saveAll_mem (o : Obj V T Φ P) : ∀ (ps : List (String × String)) (d : Dict V T Φ P)
    (p : String × String), (ps.map Prod.fst).Nodup → p ∈ ps → saveAll o ps d p.1 = some (o p.2)
  | q :: ps, d, p, hn, hp => by
    have hn' : q.1 ∉ ps.map Prod.fst ∧ (ps.map Prod.fst).Nodup := by simpa using hn
    show saveAll o ps (d.set q.1 (o q.2)) p.1 = some (o p.2)
    rcases List.mem_cons.mp hp with rfl | hp
    · rw [saveAll_other o ps _ _ hn'.1]; simp [Dict.set]
    · exact saveAll_mem o ps _ p hn'.2 hp

/-- The contents of the dictionary that the GLMB filter saves. -/
theorem saveGlmb_ok (inn : Inner T Φ P) (o : Obj V T Φ P) (v w : Val V T Φ P)
    (hf : saveInner inn (o "filter") = .ok v) (hg : saveInner inn (o "_baseFilter") = .ok w) :
    ∃ d, saveGlmb inn o = .ok d ∧
      d "filter" = some v ∧ d "_baseFilter" = some w ∧
      (∀ k ∈ baseKeys, d k = some (o k)) ∧
      (∀ p ∈ glmbPairs, d p.1 = some (o p.2)) := by
  refine ⟨_, by rw [saveGlmb, saveBase, hf]; dsimp only; rw [hg], ?_, ?_, ?_, ?_⟩
  · rw [saveAll_other _ _ _ _ (by decide)]
    simp only [Dict.set]
    rw [if_neg (by decide), saveAll_other _ _ _ _ (by decide)]
    rfl
  · rw [saveAll_other _ _ _ _ (by decide)]
    simp [Dict.set]
  · intro k hk
    rw [saveAll_other _ _ _ _ (by revert k; decide)]
    simp only [Dict.set]
    rw [if_neg (by revert k; decide)]
    exact saveAll_mem o _ _ (k, k) (by decide) (by simpa using hk)
  · intro p hp
    exact saveAll_mem o _ _ p (by decide) hp

/-- Loading what was saved, attribute by attribute. -/
theorem loadGlmb_saveGlmb (inn : Inner T Φ P) (hinn : InnerLossless inn) (o t : Obj V T Φ P) (v w : Val V T Φ P)
    (hc : Constructible o) (hf : saveInner inn (o "filter") = .ok v) (hg : saveInner inn (o "_baseFilter") = .ok w)
    (d : Dict V T Φ P) (hd1 : d "filter" = some v) (hd2 : d "_baseFilter" = some w)
    (hd3 : ∀ k ∈ baseKeys, d k = some (o k)) (hd4 : ∀ p ∈ glmbPairs, d p.1 = some (o p.2)) :
    ∃ o', loadGlmb inn d t = .ok o' ∧
      (∀ a ∈ glmbAttrs, a ≠ "_ospa2_params" → a ≠ "filter" → o' a = o a) ∧
      o' "_ospa2_params" = o "_ospa_params" ∧ (∀ a, a ∉ glmbAttrs → o' a = t a) ∧
      (∀ f, o "filter" = .filt f → o' "filter" = .filt f) ∧
      (o "filter" = .none → o' "filter" = .pair none none) := by
  obtain ⟨lf, hlf, hlf1, hlf2⟩ : ∃ lf : Val V T Φ P, loadBase inn setGlmb d t = loadAll d baseKeys (setGlmb t lf) ∧
      (∀ f, o "filter" = .filt f → lf = .filt f) ∧ (o "filter" = .none → lf = .pair none none) := by
    rcases hc.1 with h | ⟨f, h⟩
    · rw [h] at hf
      cases hf
      exact ⟨.pair none none, by simp only [loadBase, hd1], by simp [h], fun _ => rfl⟩
    · rw [h] at hf
      cases hf
      refine ⟨.filt f, by simp only [loadBase, hd1, hinn f], ?_, by simp [h]⟩
      intro f' h'
      rw [h] at h'
      exact h'
  have hlb : ∀ o1, loadBase inn setGlmb d t = .ok o1 →
      loadGlmb inn d t = loadAll d glmbKeys (o1.set "_baseFilter" (o "_baseFilter")) := by
    intro o1 h1
    rcases hc.2 with h | ⟨f, h⟩
    · rw [h] at hg
      cases hg
      simp only [loadGlmb, h1, hd2, h]
    · rw [h] at hg
      cases hg
      simp only [loadGlmb, h1, hd2, hinn f, h]
  obtain ⟨o1, ho1, h1, h1'⟩ := loadAll_ok d baseKeys (setGlmb t lf)
    (fun k hk => by rw [hd3 k hk]; rfl)
  have hks : ∀ k ∈ glmbKeys, (d k).isSome := by
    intro k hk
    have : ∀ k ∈ glmbKeys, ∃ p ∈ glmbPairs, p.1 = k := by decide
    obtain ⟨p, hp, rfl⟩ := this k hk
    rw [hd4 p hp]; rfl
  obtain ⟨o2, ho2, h2, h2'⟩ := loadAll_ok d glmbKeys (o1.set "_baseFilter" (o "_baseFilter")) hks
  have h2f : o2 "filter" = lf := by
    rw [h2' "filter" (by decide)]
    simp only [Obj.set]
    rw [if_neg (by decide), h1' "filter" (by decide)]
    simp [setGlmb, Obj.set]
  refine ⟨o2, ?_, ?_, ?_, ?_, fun f h => h2f.trans (hlf1 f h), fun h => h2f.trans (hlf2 h)⟩
  · rw [hlb o1 (by rw [hlf]; exact ho1)]
    exact ho2
  · intro a ha hne haf
    by_cases hak : a ∈ glmbKeys
    · have h := h2 a hak
      have hpp : ∀ a ∈ glmbKeys, a ≠ "_ospa2_params" → (a, a) ∈ glmbPairs := by decide
      rw [hd4 (a, a) (hpp a hak hne)] at h
      exact Option.some.inj h
    · rw [h2' a hak]
      by_cases hab : a = "_baseFilter"
      · subst hab; simp [Obj.set]
      · simp only [Obj.set]
        rw [if_neg hab]
        have hb : ∀ a ∈ glmbAttrs, a ∉ glmbKeys → a ≠ "_baseFilter" → a ≠ "filter" → a ∈ baseKeys := by
          decide
        have hm := hb a ha hak hab haf
        have h := h1 a hm
        rw [hd3 a hm] at h
        exact Option.some.inj h
  · have h := h2 "_ospa2_params" (by decide)
    rw [hd4 ("_ospa2_params", "_ospa_params") (by decide)] at h
    exact Option.some.inj h
  · intro a ha
    have hsub : ∀ k ∈ glmbKeys ++ baseKeys ++ ["filter", "_baseFilter"], k ∈ glmbAttrs := by decide
    have hna : a ∉ glmbKeys ++ baseKeys ++ ["filter", "_baseFilter"] := fun h => ha (hsub a h)
    simp only [List.mem_append, List.mem_cons, List.not_mem_nil, or_false, not_or] at hna
    rw [h2' a hna.1.1]
    simp only [Obj.set]
    rw [if_neg hna.2.2, h1' a hna.1.2]
    simp only [setGlmb, Obj.set]
    rw [if_neg hna.2.1, if_neg hna.2.2]

/-- What is stored for an inner filter or `None`. -/
theorem saveInner_ok (inn : Inner T Φ P) (x : Val V T Φ P) (h : x = .none ∨ ∃ f, x = .filt f) :
    ∃ v, saveInner inn x = .ok v := by
  rcases h with rfl | ⟨f, rfl⟩
  · exact ⟨_, rfl⟩
  · exact ⟨_, rfl⟩

/-- The filters for which saving and loading works. -/
def HasFilter (o : Obj V T Φ P) : Prop :=
  (∃ f, o "filter" = .filt f) ∧ (o "_baseFilter" = .none ∨ ∃ f, o "_baseFilter" = .filt f) ∧
    o "_ospa2_params" = o "_ospa_params"

/-- C25, GLMB: every attribute is restored, for filters with an inner filter and with equal OSPA and
OSPA(2) parameters (missing: the other filters, for which it is false). -/
theorem C25_glmb_partial (inn : Inner T Φ P) (hinn : InnerLossless inn) :
    Lossless (V := V) (saveGlmb inn) (loadGlmb inn) glmbAttrs HasFilter := by
  rintro o t ⟨⟨f, hf⟩, hg, hos⟩
  obtain ⟨v, hv⟩ := saveInner_ok inn (o "filter") (.inr ⟨f, hf⟩)
  obtain ⟨w, hw⟩ := saveInner_ok inn (o "_baseFilter") hg
  obtain ⟨d, hd, h1, h2, h3, h4⟩ := saveGlmb_ok inn o v w hv hw
  obtain ⟨o', ho', ha, hb, -, hc, -⟩ := loadGlmb_saveGlmb inn hinn o t v w ⟨.inr ⟨f, hf⟩, hg⟩ hv hw d h1 h2 h3 h4
  refine ⟨d, o', hd, ho', fun a ham => ?_⟩
  by_cases h : a = "_ospa2_params"
  · subst h; rw [hb, hos]
  · by_cases h' : a = "filter"
    · subst h'
      rw [hc f hf, hf]
    · exact ha a ham h h'

/-- C25, GLMB, all filters that can be constructed: saving and loading succeeds; every attribute except `filter` and
`_ospa2_params` is restored, `filter` too if there is one; no attribute that is not saved is touched. -/
theorem C25_glmb_but_ospa2_partial (inn : Inner T Φ P) (hinn : InnerLossless inn) (o t : Obj V T Φ P)
    (hc : Constructible o) :
    ∃ d o', saveGlmb inn o = .ok d ∧ loadGlmb inn d t = .ok o' ∧
      (∀ a ∈ glmbAttrs, a ≠ "_ospa2_params" → a ≠ "filter" → o' a = o a) ∧
      (∀ f, o "filter" = .filt f → o' "filter" = .filt f) ∧
      (o "filter" = .none → o' "filter" = .pair none none) ∧ ∀ a, a ∉ glmbAttrs → o' a = t a := by
  obtain ⟨v, hv⟩ := saveInner_ok inn (o "filter") hc.1
  obtain ⟨w, hw⟩ := saveInner_ok inn (o "_baseFilter") hc.2
  obtain ⟨d, hd, h1, h2, h3, h4⟩ := saveGlmb_ok inn o v w hv hw
  obtain ⟨o', ho', ha, -, hb, h5, h6⟩ := loadGlmb_saveGlmb inn hinn o t v w hc hv hw d h1 h2 h3 h4
  exact ⟨d, o', hd, ho', ha, h5, h6, hb⟩

/-- C25, joint GLMB. -/
theorem C25_jglmb_partial (inn : Inner T Φ P) (hinn : InnerLossless inn) :
    Lossless (V := V) (saveJglmb inn) (loadJglmb inn) jglmbAttrs HasFilter := by
  rintro o t ⟨⟨f, hf⟩, hg, hos⟩
  obtain ⟨v, hv⟩ := saveInner_ok inn (o "filter") (.inr ⟨f, hf⟩)
  obtain ⟨w, hw⟩ := saveInner_ok inn (o "_baseFilter") hg
  obtain ⟨d, hd, h1, h2, h3, h4⟩ := saveGlmb_ok inn o v w hv hw
  have hbk : ∀ k ∈ baseKeys, k ≠ "_old_track_tab" := by decide
  have hgk : ∀ p ∈ glmbPairs, p.1 ≠ "_old_track_tab" := by decide
  obtain ⟨o', ho', ha, hb, -, hc, -⟩ := loadGlmb_saveGlmb inn hinn o t v w ⟨.inr ⟨f, hf⟩, hg⟩ hv hw
    (d.set "_old_track_tab" (o "_old_track_tab")) (by simpa [Dict.set] using h1)
    (by simpa [Dict.set] using h2)
    (fun k hk => by simpa [Dict.set, hbk k hk] using h3 k hk)
    (fun p hp => by simpa [Dict.set, hgk p hp] using h4 p hp)
  refine ⟨_, o'.set "_old_track_tab" (o "_old_track_tab"), by rw [saveJglmb, hd], ?_, fun a ham => ?_⟩
  · rw [loadJglmb, ho']
    simp [loadAll, Dict.set]
  · by_cases hold : a = "_old_track_tab"
    · subst hold; simp [Obj.set]
    · simp only [Obj.set]
      rw [if_neg hold]
      have ham' : a ∈ glmbAttrs := by simpa [jglmbAttrs, hold] using ham
      by_cases h : a = "_ospa2_params"
      · subst h; rw [hb, hos]
      · by_cases h' : a = "filter"
        · subst h'
          rw [hc f hf, hf]
        · exact ha a ham' h h'

/-! ### Counterexamples to the full property -/

/-- One inner filter. -/
def unitInner : Inner Unit Unit Unit := ⟨fun _ => (), fun _ => (), fun _ _ => ()⟩

theorem unitInner_lossless : InnerLossless unitInner := fun _ => rfl

/-- A newly constructed filter with an inner filter (`withF`) or without; `n` stands for the OSPA(2)
parameters of a filter for which OSPA(2) has been computed, or for the functions of an SMC filter. -/
def sample (withF : Bool) (n : ℕ) : Obj ℕ Unit Unit Unit := fun a =>
  if a = "filter" ∨ a = "_baseFilter" then (if withF then .filt () else .none)
  else if a = "_ospa2_params" ∨ a = "compute_prob_survive" then .obj n else .obj 0

theorem sample_constructible (b : Bool) (n : ℕ) : Constructible (sample b n) := by
  cases b <;> simp [Constructible, sample]

/-- The conditions of the partial theorems hold for a filter with an inner filter. -/
example : HasFilter (sample true 0) := by simp [HasFilter, sample]

/-- The full property fails for GLMB: a filter without inner filter gets the tuple `(None, None)` as its
filter. -/
theorem C25_refuted_no_filter :
    ∃ d o', saveGlmb unitInner (sample false 0) = .ok d ∧ loadGlmb unitInner d (sample false 0) = .ok o' ∧
      sample false 0 "filter" = .none ∧ o' "filter" = .pair none none := by
  refine ⟨_, _, rfl, rfl, rfl, rfl⟩

/-- The full property fails for GLMB: the OSPA(2) parameters are replaced by the OSPA parameters. -/
theorem C25_refuted_ospa2 :
    ∃ d o', saveGlmb unitInner (sample true 1) = .ok d ∧ loadGlmb unitInner d (sample true 1) = .ok o' ∧
      sample true 1 "_ospa2_params" = .obj 1 ∧ o' "_ospa2_params" = .obj 0 := by
  refine ⟨_, _, rfl, rfl, rfl, rfl⟩

theorem C25_refuted_glmb :
    ¬ Lossless (V := ℕ) (saveGlmb unitInner) (loadGlmb unitInner) glmbAttrs Constructible := by
  intro h
  obtain ⟨d, o', h1, h2, h3⟩ := h (sample true 1) (sample true 1) (sample_constructible _ _)
  obtain ⟨d', o'', h1', h2', h3', h4'⟩ := C25_refuted_ospa2
  rw [h1'] at h1
  cases h1
  rw [h2'] at h2
  cases h2
  have := h3 "_ospa2_params" (by decide)
  rw [h4', h3'] at this
  simp at this

/-- The SMC filters do not save their probability functions: loading into a new filter loses them. -/
theorem C25_refuted_smc :
    ¬ Lossless (V := ℕ) (saveGlmb unitInner) (loadGlmb unitInner) smcAttrs HasFilter := by
  intro h
  obtain ⟨d, o', h1, h2, h3⟩ := h (sample true 0) (fun a => if a = "compute_prob_survive" then .obj 7
    else sample true 0 a) (by simp [HasFilter, sample])
  obtain ⟨d', o'', h1', h2', -, -, -, h4'⟩ := C25_glmb_but_ospa2_partial unitInner unitInner_lossless
    (sample true 0) (fun a => if a = "compute_prob_survive" then .obj 7 else sample true 0 a)
    (sample_constructible _ _)
  rw [h1'] at h1
  cases h1
  rw [h2'] at h2
  cases h2
  have := h3 "compute_prob_survive" (by decide)
  rw [h4' "compute_prob_survive" (by decide)] at this
  simp [sample] at this

/-- The PHD and CPHD filters can neither save nor load: both calls always raise. -/
theorem C25_refuted_phd (inn : Inner T Φ P) (o t : Obj V T Φ P) (d : Dict V T Φ P) :
    (∀ d', savePhd inn o ≠ .ok d') ∧ ∀ o', loadPhd inn d t ≠ .ok o' := by
  constructor
  · intro d'
    unfold savePhd
    split <;> simp
  · intro o'
    unfold loadPhd
    split <;> simp

end Gasur.Props
