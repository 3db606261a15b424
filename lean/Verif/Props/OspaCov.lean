import Verif.Props.Ospa

/-!
# C142: OSPA without the covariances of the core distance

`calculate_ospa`, `calculate_ospa2` and the methods of the filters replace the Mahalanobis distance (Hellinger distance) by the
Euclidean distance if the covariances of the estimates (of the truth) are missing. The Hellinger distance also needs the
covariances of the estimates; these are not checked.
-/

namespace Gasur.Props

open Gasur.Spec Gasur.Ospa

variable {s : ℕ}

/-- **C142** (partial: not for the Hellinger distance without covariances of the estimates, see `C142_refuted`). If the
covariances of the estimates are missing for the Mahalanobis distance, or those of the truth for the Hellinger distance,
`calculate_ospa` and `calculate_ospa2` return what they return for the Euclidean distance with the given cut-off. -/
theorem C142_fallback_partial (lsa : Lsa) (est truth : List (Row (Obj s))) (c : ℝ) (p winLen : ℕ) (useEmpty b : Bool)
    (m : Method) (ht he : Bool) (hmiss : m = .mahalanobis ∧ he = false ∨ m = .hellinger ∧ ht = false) :
    calculateOspa lsa est truth c p useEmpty (some m) ht he =
      calculateOspa lsa est truth c p useEmpty (some .euclidean) b b ∧
    calculateOspa2 lsa est truth c p winLen (some m) ht he =
      calculateOspa2 lsa est truth c p winLen (some .euclidean) b b := by
  rcases hmiss with ⟨rfl, rfl⟩ | ⟨rfl, rfl⟩ <;>
    simp [calculateOspa, calculateOspa2, ospaGiven, effMethod, effCut]

/-- **C142** (partial, as before), for the filters: `true_covs` not given, or covariances not saved. -/
theorem C142_filter_fallback_partial {L : Type*} [DecidableEq L] (lsa : Lsa) (est : List (List (Option (Obj s))))
    (labels : List (List L)) (lest : List (List (Obj s))) (truth : List (List (Option (Obj s)))) (c : ℝ) (p : ℕ) (b : Bool)
    (m : Method) (ht he : Bool) (hmiss : m = .mahalanobis ∧ he = false ∨ m = .hellinger ∧ ht = false) :
    filterOspa lsa est truth c p (some m) ht he = filterOspa lsa est truth c p (some .euclidean) b b ∧
    glmbOspa lsa labels lest truth c p (some m) ht he = glmbOspa lsa labels lest truth c p (some .euclidean) b b := by
  have : ∀ em tm : List (Row (Obj s)), callOspa lsa em tm c p (some m) ht he =
      callOspa lsa em tm c p (some .euclidean) b b := by
    intro em tm
    rcases hmiss with ⟨rfl, rfl⟩ | ⟨rfl, rfl⟩ <;> simp [callOspa, ospaGiven, effMethod, effCut]
  simp only [filterOspa, glmbOspa, this, and_self]

/-- **C142** is false for the Hellinger distance without covariances of the estimates: as soon as an estimated and a true
object exist at the same time step, `calculate_ospa` and `calculate_ospa2` raise. -/
theorem C142_no_fallback (lsa : Lsa) (est truth : List (Row (Obj s))) (c : ℝ) (p winLen : ℕ) (useEmpty : Bool)
    (hmeet : ∃ (t : ℕ) (e x : Row (Obj s)), est[t]? = some e ∧ truth[t]? = some x ∧ e.reduceOption ≠ [] ∧ x.reduceOption ≠ []) :
    calculateOspa lsa est truth c p useEmpty (some .hellinger) true false = .error .noCov ∧
    calculateOspa2 lsa est truth c p winLen (some .hellinger) true false = .error .noCov := by
  have hpos : ∀ r : Row (Obj s), r.reduceOption ≠ [] → 0 < count r := by
    intro r hr
    obtain ⟨x, hx⟩ := List.exists_mem_of_ne_nil _ hr
    exact List.countP_pos_iff.2 ⟨some x, List.reduceOption_mem_iff.1 hx, rfl⟩
  obtain ⟨t, e, x, h1, h2, h3, h4⟩ := hmeet
  have hm : Meet est truth := ⟨(e, x), List.mem_of_getElem? (i := t) (by
    rw [List.getElem?_zip_eq_some]
    exact ⟨h1, h2⟩), hpos e h3, hpos x h4⟩
  constructor
  · exact if_pos ⟨rfl, rfl, hm⟩
  · exact if_pos ⟨rfl, rfl, hm⟩

/-- **C142** is false for the PHD filters that do not save covariances: with `true_covs` given and the Hellinger distance,
`calculate_ospa` raises as soon as at some time step a state was extracted and a true object exists. -/
theorem C142_filter_no_fallback (lsa : Lsa) (est truth : List (List (Obj s))) (c : ℝ) (p : ℕ)
    (hmeet : ∃ (t : ℕ) (e x : List (Obj s)), est[t]? = some e ∧ truth[t]? = some x ∧ e ≠ [] ∧ x ≠ []) :
    filterOspa lsa (est.map (·.map some)) (truth.map (·.map some)) c p (some .hellinger) true false =
      .error .invalid := by
  unfold filterOspa
  rw [setupMat_map_some, setupMat_map_some]
  obtain ⟨t, e, x, h1, h2, h3, h4⟩ := hmeet
  refine if_pos ⟨rfl, rfl, ?_⟩
  obtain ⟨y, ys, rfl⟩ := List.exists_cons_of_ne_nil h3
  obtain ⟨z, zs, rfl⟩ := List.exists_cons_of_ne_nil h4
  refine ⟨(_, _), List.mem_of_getElem? (i := t) (by
    rw [List.getElem?_zip_eq_some, List.getElem?_map, List.getElem?_map, h1, h2]
    exact ⟨rfl, rfl⟩), 0, ?_, 0, ?_, ?_, ?_⟩
  all_goals simp [count, slot]

/-- **C142** refuted: a call with one estimate and one true object. -/
theorem C142_refuted : ¬ ∀ (lsa : Lsa) (est truth : List (Row (Obj 1))) (m : Method) (ht he : Bool),
    (∀ m n D, IsOptimal D (lsa m n D)) → truth.length ≤ est.length →
    ∃ out, calculateOspa lsa est truth 1 1 true (some m) ht he = .ok out := by
  intro h
  obtain ⟨lsa, hl⟩ := exists_lsa
  obtain ⟨out, ho⟩ := h lsa [[some (pt 0)]] [[some (pt 1)]] .hellinger true false hl (by simp)
  rw [(C142_no_fallback lsa _ _ 1 1 1 true ⟨0, [some (pt 0)], [some (pt 1)], rfl, rfl,
    by simp [List.reduceOption], by simp [List.reduceOption]⟩).1] at ho
  exact (nomatch ho)

/-- The conditions of the theorems can be met. -/
example : (∃ (t : ℕ) (e x : List (Obj 1)), [[pt 0], [pt 1, pt 2]][t]? = some e ∧ [[], [pt 1]][t]? = some x ∧ e ≠ [] ∧ x ≠ []) ∧
    (Method.mahalanobis = .mahalanobis ∧ false = false ∨ Method.mahalanobis = .hellinger ∧ true = false) :=
  ⟨⟨1, [pt 1, pt 2], [pt 1], rfl, rfl, by simp, by simp⟩, by simp⟩

end Gasur.Props
