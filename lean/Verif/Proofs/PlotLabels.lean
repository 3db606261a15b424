import Verif.Props.Plot
import Mathlib.Data.List.Nodup

/-!
# Proofs about `plot_states_labels`
-/

namespace Gasur.Proofs

open Gasur.Plot Gasur.Spec

variable {K L : Type} {d m : ℕ} [DecidableEq L]

theorem uniqueLabels_spec : ∀ (ls acc : List L), acc.Nodup →
    (uniqueLabels acc ls).Nodup ∧ ∀ l, l ∈ uniqueLabels acc ls ↔ l ∈ acc ∨ l ∈ ls
  | [], acc, h => ⟨h, fun l => by simp [uniqueLabels]⟩
  | a :: ls, acc, h => by
    have h' : (if a ∈ acc then acc else acc ++ [a]).Nodup := by
      split
      · exact h
      · rename_i ha
        rw [List.nodup_append]
        refine ⟨h, by simp, ?_⟩
        intro x hx y hy
        rw [List.mem_singleton.1 hy]
        rintro rfl
        exact ha hx
    obtain ⟨h1, h2⟩ := uniqueLabels_spec ls _ h'
    refine ⟨h1, fun l => ?_⟩
    show l ∈ uniqueLabels _ ls ↔ _
    rw [h2]
    split
    · rename_i ha
      constructor
      · rintro (h | h)
        · exact .inl h
        · exact .inr (List.mem_cons_of_mem _ h)
      · rintro (h | h)
        · exact .inl h
        · rcases List.mem_cons.1 h with rfl | h
          · exact .inl ha
          · exact .inr h
    · simp only [List.mem_append, List.mem_cons, List.not_mem_nil, or_false]
      tauto

theorem column_ok {lbl : L} {ls : List L} {xs : List (Fin d → K)} {cs : List (Option (Fin d → Fin d → K))} (showSig : Bool)
    (h1 : xs.length = ls.length) (h2 : cs.length = ls.length) :
    column lbl ls (some xs) (some cs) showSig = .ok (stateOf lbl xs ls, if showSig then covOf lbl cs ls else none) := by
  unfold column stateOf covOf
  by_cases hl : lbl ∈ ls
  · rw [if_pos hl, if_pos hl, if_pos hl]
    have hi : ls.idxOf lbl < ls.length := List.idxOf_lt_length_iff.2 hl
    dsimp only [Option.bind_some]
    rw [List.getElem?_eq_getElem (show ls.idxOf lbl < xs.length by omega),
      List.getElem?_eq_getElem (show ls.idxOf lbl < cs.length by omega)]
    cases showSig <;> rfl
  · rw [if_neg hl, if_neg hl, if_neg hl]
    cases showSig <;> rfl

/-- The columns of a label. -/
def colData (lbl : L) (showSig : Bool) (hist : List (List (Fin d → K))) (covs : List (List (Option (Fin d → Fin d → K)))) (labels : List (List L)) :
    List (Option (Fin d → K) × Option (Fin d → Fin d → K)) :=
  ((hist.zip covs).zip labels).map fun x => (stateOf lbl x.1.1 x.2, if showSig then covOf lbl x.1.2 x.2 else none)

theorem columns_ok (lbl : L) (showSig : Bool) {hist : List (List (Fin d → K))} {covs : List (List (Option (Fin d → Fin d → K)))}
    {labels : List (List L)} (h : Agree hist labels covs) :
    columns lbl hist covs showSig labels.zipIdx = .ok (colData lbl showSig hist covs labels) := by
  have key : ∀ (l : List (List L)) (n : ℕ), labels.drop n = l →
      columns lbl hist covs showSig (l.zipIdx n) = .ok (colData lbl showSig (hist.drop n) (covs.drop n) l) := by
    intro l
    induction l with
    | nil => intro n _; simp [columns, colData]
    | cons ls l ih =>
      intro n hn
      have hlt : n < labels.length := by
        by_contra hc
        rw [List.drop_eq_nil_of_le (by omega)] at hn
        exact (nomatch hn)
      rw [List.drop_eq_getElem_cons hlt] at hn
      obtain ⟨rfl, hn'⟩ := List.cons.inj hn
      have hh : n < hist.length := by rw [h.1]; exact hlt
      have hc : n < covs.length := by rw [h.2.1]; exact hlt
      obtain ⟨l1, l2⟩ := h.2.2 n _ _ _ (List.getElem?_eq_getElem hh) (List.getElem?_eq_getElem hlt) (List.getElem?_eq_getElem hc)
      rw [List.zipIdx_cons]
      unfold columns
      rw [List.getElem?_eq_getElem hh, List.getElem?_eq_getElem hc, column_ok showSig l1 l2, ih (n + 1) hn',
        List.drop_eq_getElem_cons hh, List.drop_eq_getElem_cons hc]
      rfl
  have := key labels 0 rfl
  simpa using this

theorem other_labelEllipses {α : Type} (i j : Fin d) (f : Prim K L → Option α) (hf : ∀ c s b l, f (.ellipse c s b l) = none) (b : K) :
    ∀ (a : Bool) (l : List (Option (Fin d → K) × Option (Fin d → Fin d → K))), (labelEllipses i j b a l : List (Prim K L)).filterMap f = []
  | _, [] => rfl
  | a, (x, none) :: l => other_labelEllipses i j f hf b a l
  | a, (x, some P) :: l => by
    show (Prim.ellipse _ _ _ _ :: labelEllipses i j b true l).filterMap f = _
    rw [List.filterMap_cons_none (hf _ _ _ _), other_labelEllipses i j f hf b true l]

theorem ell_labelEllipses (i j : Fin d) (b : K) :
    ∀ (a : Bool) (l : List (Option (Fin d → K) × Option (Fin d → Fin d → K))), (labelEllipses i j b a l : List (Prim K L)).filterMap ellipseOf =
      l.filterMap fun c => c.2.map fun P => (c.1.map (proj i j), block i j P, b)
  | _, [] => rfl
  | a, (x, none) :: l => by
    rw [List.filterMap_cons_none (by rfl)]
    exact ell_labelEllipses i j b a l
  | a, (x, some P) :: l => by
    show (Prim.ellipse _ _ _ _ :: labelEllipses i j b true l).filterMap ellipseOf = _
    rw [List.filterMap_cons_some (by rfl), ell_labelEllipses i j b true l]
    rfl

theorem legend_labelEllipses (i j : Fin d) (b : K) :
    ∀ (a : Bool) (l : List (Option (Fin d → K) × Option (Fin d → Fin d → K))), (labelEllipses i j b a l : List (Prim K L)).filterMap legendOf =
      if a = false ∧ (l.any fun c => c.2.isSome) = true then [.sigma] else []
  | _, [] => by simp [labelEllipses]
  | a, (x, none) :: l => by
    have := legend_labelEllipses i j b a l
    show (labelEllipses i j b a l).filterMap legendOf = _
    rw [this]
    rfl
  | false, (x, some P) :: l => by
    show (Prim.ellipse _ _ _ _ :: labelEllipses i j b true l).filterMap legendOf = _
    rw [List.filterMap_cons_some (b := .sigma) (by rfl), legend_labelEllipses i j b true l]
    simp
  | true, (x, some P) :: l => by
    show (Prim.ellipse _ _ _ _ :: labelEllipses i j b true l).filterMap legendOf = _
    rw [List.filterMap_cons_none (by rfl), legend_labelEllipses i j b true l]
    simp

/-- The columns have a state if the label occurs. -/
theorem colData_head {lbl : L} {showSig : Bool} {hist : List (List (Fin d → K))} {covs : List (List (Option (Fin d → Fin d → K)))}
    {labels : List (List L)} (h : Agree hist labels covs) (hl : lbl ∈ labels.flatten) :
    ∃ x, ((colData lbl showSig hist covs labels).filterMap Prod.fst).head? = some x := by
  obtain ⟨ls, h1, h2⟩ := List.mem_flatten.1 hl
  obtain ⟨t, ht⟩ := List.mem_iff_getElem?.1 h1
  have hlt := (List.getElem?_eq_some_iff.1 ht).1
  have hh : hist[t]? = some (hist[t]'(by rw [h.1]; exact hlt)) := List.getElem?_eq_getElem _
  have hc : covs[t]? = some (covs[t]'(by rw [h.2.1]; exact hlt)) := List.getElem?_eq_getElem _
  obtain ⟨l1, l2⟩ := h.2.2 t _ _ _ hh ht hc
  have hi : ls.idxOf lbl < ls.length := List.idxOf_lt_length_iff.2 h2
  obtain ⟨x, hx⟩ : ∃ x, stateOf lbl (hist[t]'(by rw [h.1]; exact hlt)) ls = some x := by
    unfold stateOf
    rw [if_pos h2]
    exact ⟨_, List.getElem?_eq_getElem (by omega)⟩
  have hmem : x ∈ (colData lbl showSig hist covs labels).filterMap Prod.fst := by
    rw [List.mem_filterMap]
    have hz : ((hist.zip covs).zip labels)[t]? = some ((hist[t]'(by rw [h.1]; exact hlt), covs[t]'(by rw [h.2.1]; exact hlt)), ls) := by
      rw [List.getElem?_zip_eq_some]
      exact ⟨List.getElem?_zip_eq_some.2 ⟨hh, hc⟩, ht⟩
    exact ⟨_, List.mem_map.2 ⟨_, List.mem_of_getElem? hz, rfl⟩, hx⟩
  cases hq : ((colData lbl showSig hist covs labels).filterMap Prod.fst) with
  | nil => rw [hq] at hmem; exact absurd hmem (by simp)
  | cons a l => exact ⟨a, rfl⟩

/-- What the loop over the labels draws. -/
theorem labelLoop_ok (i j : Fin d) (sb : Option K) {hist : List (List (Fin d → K))} {covs : List (List (Option (Fin d → Fin d → K)))}
    {labels : List (List L)} (h : Agree hist labels covs) : ∀ (us : List L) (s t : Bool), (∀ l ∈ us, l ∈ labels.flatten) →
    ∃ ps : List (Prim K L), labelLoop i j sb hist covs labels s t us = .ok ps ∧
      ps.filterMap trackOf = us.map (fun l => (colData l sb.isSome hist covs labels).map fun c => c.1.map (proj i j)) ∧
      List.Forall₂ (fun l (x : (K × K) × L) => x.2 = l ∧
        (((colData l sb.isSome hist covs labels).filterMap Prod.fst).head?).map (proj i j) = some x.1) us (ps.filterMap textOf) ∧
      (∀ b, sb = some b → ps.filterMap ellipseOf = us.flatMap fun l => (colData l true hist covs labels).filterMap
        fun c => c.2.map fun P => (c.1.map (proj i j), block i j P, b)) ∧
      (sb = none → ps.filterMap ellipseOf = []) ∧
      ps.filterMap pointsOf = [] ∧ ps.filterMap truthOf = [] ∧ ps.filterMap measOf = [] ∧
      (ps.filterMap legendOf).Nodup ∧ (∀ g ∈ ps.filterMap legendOf, g = .states ∨ g = .sigma) ∧
      (.states ∈ ps.filterMap legendOf ↔ t = false ∧ us ≠ []) ∧
      (.sigma ∈ ps.filterMap legendOf ↔ s = false ∧ ps.filterMap ellipseOf ≠ [])
  | [], s, t, _ => ⟨[], rfl, rfl, List.Forall₂.nil, fun _ _ => rfl, fun _ => rfl, rfl, rfl, rfl, List.nodup_nil, by simp, by simp, by simp⟩
  | l :: us, s, t, hl => by
    obtain ⟨x, hx⟩ := colData_head (showSig := sb.isSome) h (hl l List.mem_cons_self)
    set cols := colData l sb.isSome hist covs labels with hcols
    obtain ⟨r, r1, r2, r3, r4, r5, r6, r7, r8, r9, r10, r11, r12⟩ :=
      labelLoop_ok i j sb h us (s || cols.any fun c => c.2.isSome) true (fun l' hl' => hl l' (List.mem_cons_of_mem _ hl'))
    have hlen : hist.length - cols.length = 0 := by
      rw [hcols]
      unfold colData
      rw [List.length_map, List.length_zip, List.length_zip, h.1, h.2.1]
      omega
    set es : List (Prim K L) := sigPart i j sb s cols with hes
    have hpart : labelPart i j sb hist.length s t l cols = .ok (es ++ [.track (cols.map fun c => c.1.map (proj i j)) (once t .states),
        .text (proj i j x) l]) := by
      unfold labelPart
      rw [hx, hlen, List.replicate_zero, List.append_nil]
    have hsome : sb = none → ∀ c ∈ cols, c.2 = none := by
      rintro rfl c hc
      rw [hcols] at hc
      obtain ⟨y, _, rfl⟩ := List.mem_map.1 hc
      rfl
    have eOther : ∀ {α : Type} (f : Prim K L → Option α), (∀ c s b l, f (.ellipse c s b l) = none) → es.filterMap f = [] := by
      intro α f hf
      rw [hes]
      cases sb with
      | none => rfl
      | some b => exact other_labelEllipses i j f hf b s cols
    have eEll : (∀ b, sb = some b → es.filterMap ellipseOf = cols.filterMap fun c => c.2.map fun P => (c.1.map (proj i j), block i j P, b)) ∧
        (sb = none → es = []) := by
      constructor
      · rintro b rfl
        exact ell_labelEllipses i j b s cols
      · rintro rfl
        rfl
    have eAny : es.filterMap ellipseOf ≠ [] ↔ (cols.any fun c => c.2.isSome) = true := by
      cases sb with
      | none =>
        rw [eEll.2 rfl]
        simp only [List.filterMap_nil, ne_eq, not_true_eq_false, false_iff, List.any_eq_true, not_exists]
        rintro c ⟨hc, h2⟩
        rw [hsome rfl c hc] at h2
        simp at h2
      | some b =>
        rw [eEll.1 b rfl, ne_eq, List.filterMap_eq_nil_iff, List.any_eq_true]
        push Not
        constructor
        · rintro ⟨c, hc, h2⟩
          refine ⟨c, hc, ?_⟩
          cases hP : c.2 with
          | none => rw [hP] at h2; simp at h2
          | some P => rfl
        · rintro ⟨c, hc, h2⟩
          obtain ⟨P, hP⟩ := Option.isSome_iff_exists.1 h2
          exact ⟨c, hc, by rw [hP]; simp⟩
    have eLeg : es.filterMap legendOf = if s = false ∧ (cols.any fun c => c.2.isSome) = true then [.sigma] else [] := by
      cases sb with
      | none =>
        rw [eEll.2 rfl, if_neg]
        · rfl
        · rintro ⟨_, h2⟩
          exact eAny.2 h2 (by rw [eEll.2 rfl]; rfl)
      | some b => exact legend_labelEllipses i j b s cols
    have hps : labelLoop i j sb hist covs labels s t (l :: us) = .ok (es ++ [.track (cols.map fun c => c.1.map (proj i j)) (once t .states),
        .text (proj i j x) l] ++ r) := by
      unfold labelLoop
      rw [columns_ok l sb.isSome h]
      dsimp only
      rw [hpart]
      dsimp only
      rw [r1]
    have split : ∀ {α : Type} (f : Prim K L → Option α), (es ++ [Prim.track (cols.map fun c => c.1.map (proj i j)) (once t .states),
        Prim.text (proj i j x) l] ++ r).filterMap f = es.filterMap f ++ ([Prim.track (cols.map fun c => c.1.map (proj i j)) (once t .states),
        Prim.text (proj i j x) l].filterMap f ++ r.filterMap f) := by
      intro α f
      rw [List.filterMap_append, List.filterMap_append, List.append_assoc]
    have hmid : [Prim.track (cols.map fun c => c.1.map (proj i j)) (once t .states), Prim.text (proj i j x) l].filterMap legendOf =
        if t = false then [Legend.states] else [] := by
      cases t <;> rfl
    have hst : Legend.states ∉ r.filterMap legendOf := fun hc => absurd (r11.1 hc).1 (by simp)
    have hsg : s = false ∧ (cols.any fun c => c.2.isSome) = true → Legend.sigma ∉ r.filterMap legendOf := by
      rintro ⟨_, h2⟩ hc
      have := (r12.1 hc).1
      rw [h2] at this
      simp at this
    refine ⟨_, hps, ?_, ?_, ?_, ?_, ?_, ?_, ?_, ?_, ?_, ?_, ?_⟩
    · rw [split, eOther trackOf (fun _ _ _ _ => rfl), r2]
      rfl
    · rw [split, eOther textOf (fun _ _ _ _ => rfl)]
      exact List.Forall₂.cons ⟨rfl, by rw [← hcols, hx]; rfl⟩ r3
    · rintro b rfl
      rw [split, eEll.1 b rfl, r4 b rfl]
      rfl
    · intro hb
      rw [split, eEll.2 hb, r5 hb]
      rfl
    · rw [split, eOther pointsOf (fun _ _ _ _ => rfl), r6]; rfl
    · rw [split, eOther truthOf (fun _ _ _ _ => rfl), r7]; rfl
    · rw [split, eOther measOf (fun _ _ _ _ => rfl), r8]; rfl
    · rw [split, eLeg, hmid]
      by_cases hs : s = false ∧ (cols.any fun c => c.2.isSome) = true
      · have := hsg hs
        rw [if_pos hs]
        cases t <;> simp [r9, hst, this]
      · rw [if_neg hs]
        cases t <;> simp [r9, hst]
    · intro g hg
      rw [split, eLeg, hmid] at hg
      rcases List.mem_append.1 hg with hg | hg
      · right
        by_cases hs : s = false ∧ (cols.any fun c => c.2.isSome) = true
        · rw [if_pos hs] at hg; simpa using hg
        · rw [if_neg hs] at hg; simp at hg
      · rcases List.mem_append.1 hg with hg | hg
        · left
          cases t <;> simp at hg
          exact hg
        · exact r10 g hg
    · rw [split, eLeg, hmid]
      by_cases hs : s = false ∧ (cols.any fun c => c.2.isSome) = true
      · rw [if_pos hs]
        cases t <;> simp [hst]
      · rw [if_neg hs]
        cases t <;> simp [hst]
    · rw [split, split, eLeg, hmid]
      have e0 : [Prim.track (cols.map fun c => c.1.map (proj i j)) (once t .states), Prim.text (proj i j x) l].filterMap ellipseOf = [] := rfl
      rw [e0, List.nil_append, List.mem_append, List.mem_append, r12]
      have e4 : es.filterMap ellipseOf ++ r.filterMap ellipseOf ≠ [] ↔ ¬ (es.filterMap ellipseOf = [] ∧ r.filterMap ellipseOf = []) := by
        rw [ne_eq, List.append_eq_nil_iff]
      rw [e4]
      have e3 : Legend.sigma ∈ (if t = false then [Legend.states] else []) ↔ False := by cases t <;> simp
      rw [e3]
      by_cases hs : s = false ∧ (cols.any fun c => c.2.isSome) = true
      · rw [if_pos hs]
        have := eAny.2 hs.2
        simp [hs.1, this]
      · rw [if_neg hs]
        by_cases h1 : s = false
        · have h2 : ¬ (cols.any fun c => c.2.isSome) = true := fun hc => hs ⟨h1, hc⟩
          have h3 : es.filterMap ellipseOf = [] := by
            by_contra hc
            exact h2 (eAny.1 hc)
          simp only [Bool.not_eq_true] at h2
          simp [h1, h2, h3]
        · simp [h1]

end Gasur.Proofs
