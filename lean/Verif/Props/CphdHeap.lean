import Verif.Props.JglmbHeap
import Verif.Spec.CphdHeap

/-!
# Property C158: the cardinalized PHD filter and the arrays of the caller (lemmas)
-/

namespace Gasur.Props.CphdHeap

open Gasur.Phd Gasur.Cphd Gasur.Spec Gasur.GlmbHeap Gasur.JglmbHeap Gasur.CphdHeap Gasur.Props.GlmbHeap

variable {V P Z V' P' : Type*}

/-! ### Operations that only move arrays around -/

/-- A mixture with other arrays. -/
def mapMix (g : V → V') (k : P → P') (x : Mix ℝ V P) : Mix ℝ V' P' := ⟨x.ws, x.ms.map g, x.ps.map k⟩

/-- A filter state with other arrays. -/
def mapSt (g : V → V') (k : P → P') (s : CState V P) : CState V' P' :=
  { mix := mapMix g k s.mix, card := s.card, hist := s.hist, states := s.states.map fun x => (x.1.map g, x.2.map k)
    agents := s.agents }

variable (g : V → V') (k : P → P')

theorem extend_map (a b : Mix ℝ V P) : extend (mapMix g k a) (mapMix g k b) = mapMix g k (extend a b) := by
  simp [extend, mapMix]

theorem births_map : ∀ (bs : List (Mix ℝ V P)) (a : Mix ℝ V P),
    (bs.map (mapMix g k)).foldl extend (mapMix g k a) = mapMix g k (bs.foldl extend a)
  | [], _ => rfl
  | b :: bs, a => by
    rw [List.map_cons, List.foldl_cons, extend_map, births_map bs]
    rfl

theorem delAt_map (x : Mix ℝ V P) (i : ℕ) : delAt (mapMix g k x) i = (delAt x i).map (mapMix g k) := by
  unfold delAt
  simp only [mapMix, List.length_map]
  by_cases h : i < x.ms.length ∧ i < x.ws.length ∧ i < x.ps.length
  · rw [if_pos h, if_pos h]
    simp only [Except.map, mapMix, List.eraseIdx_map]
  · rw [if_neg h, if_neg h]
    rfl

theorem delAll_map : ∀ (is : List ℕ) (x : Mix ℝ V P), delAll (mapMix g k x) is = (delAll x is).map (mapMix g k)
  | [], _ => rfl
  | i :: is, x => by
    unfold delAll
    rw [delAt_map]
    cases delAt x i with
    | error e => rfl
    | ok y => exact delAll_map is y

theorem prune_map (pr : Params ℝ) (x : Mix ℝ V P) : prune pr (mapMix g k x) = (prune pr x).map (mapMix g k) :=
  delAll_map g k _ x

theorem cap_map (argsort : List ℝ → List ℕ) (pr : Params ℝ) (x : Mix ℝ V P) :
    cap argsort pr (mapMix g k x) = (cap argsort pr x).map (mapMix g k) := by
  unfold cap
  rw [show (mapMix g k x).ws = x.ws from rfl, delAll_map]
  by_cases h : pr.maxGauss < x.ws.length
  · rw [if_pos h, if_pos h]
    cases delAll x (sortDesc (dropEnd (argsort x.ws) pr.maxGauss)) with
    | error e => rfl
    | ok y =>
      show (if (mapMix g k y).ws ≠ [] ∧ (mapMix g k y).ws.sum = 0 then _ else _) =
        Except.map _ (if y.ws ≠ [] ∧ y.ws.sum = 0 then _ else _)
      rw [show (mapMix g k y).ws = y.ws from rfl]
      by_cases h2 : y.ws ≠ [] ∧ y.ws.sum = 0
      · rw [if_pos h2, if_pos h2]
        rfl
      · rw [if_neg h2, if_neg h2]
        rfl
  · rw [if_neg h, if_neg h]
    rfl

theorem extractLoop_map (x : Mix ℝ V P) (card : ℤ) : ∀ (is : List ℕ) (tot : ℤ),
    Cphd.extractLoop (mapMix g k x) card is tot =
      (Cphd.extractLoop x card is tot).map (List.map fun y => (g y.1, k y.2.1, y.2.2))
  | [], _ => rfl
  | i :: is, tot => by
    unfold Cphd.extractLoop
    rw [show (mapMix g k x).ws = x.ws from rfl, show (mapMix g k x).ms = x.ms.map g from rfl,
      show (mapMix g k x).ps = x.ps.map k from rfl, List.getElem?_map, List.getElem?_map]
    by_cases h : tot < card
    · rw [if_pos h, if_pos h]
      cases x.ws[i]? with
      | none => rfl
      | some w =>
        dsimp only
        by_cases hw : pyRound w ≤ 0
        · rw [if_pos hw, if_pos hw]
          rfl
        · rw [if_neg hw, if_neg hw]
          cases x.ms[i]? with
          | none => rfl
          | some v =>
            cases x.ps[i]? with
            | none => rfl
            | some p =>
              simp only [Option.map_some]
              rw [extractLoop_map x card is]
              cases Cphd.extractLoop x card is (tot + pyRound w) <;> rfl
    · rw [if_neg h, if_neg h]
      rfl

theorem extract_map (argsort : List ℝ → List ℕ) (s : CState V P) :
    Cphd.extract argsort (mapSt g k s) = (Cphd.extract argsort s).map (mapSt g k) := by
  unfold Cphd.extract
  rw [show cardinality (mapSt g k s) = cardinality s from rfl, show (mapSt g k s).mix = mapMix g k s.mix from rfl,
    show (mapMix g k s.mix).ws = s.mix.ws from rfl, extractLoop_map]
  cases Cphd.extractLoop s.mix (cardinality s) (argsort s.mix.ws).reverse 0 with
  | error e => rfl
  | ok l =>
    simp only [Except.map, mapSt, List.map_append, List.map_map, List.map_cons, List.map_nil]
    rfl

theorem optStep_map {x : Mix ℝ V P} (b : Bool) {f : Mix ℝ V P → Except PErr (Mix ℝ V P)}
    {f' : Mix ℝ V' P' → Except PErr (Mix ℝ V' P')} (h : f' (mapMix g k x) = (f x).map (mapMix g k)) :
    liftE (optStep b f' (mapMix g k x)) = (liftE (optStep b f x)).map (mapMix g k) := by
  cases b
  · rfl
  · show liftE (f' (mapMix g k x)) = (liftE (f x)).map _
    rw [h]
    cases f x <;> rfl

/-! ### Which references an object holds -/

/-- The references in a mixture satisfy `A` (means) and `B` (covariances). -/
def MIn (A B : ℕ → Prop) (x : Mix ℝ ℕ ℕ) : Prop :=
  ∃ y : Mix ℝ {a // A a} {a // B a}, mapMix Subtype.val Subtype.val y = x

/-- The references in a filter state satisfy `A` (means) and `B` (covariances). -/
def SIn (A B : ℕ → Prop) (s : CState ℕ ℕ) : Prop :=
  ∃ y : CState {a // A a} {a // B a}, mapSt Subtype.val Subtype.val y = s

variable {A B A' B' : ℕ → Prop} {m m' : Mem V P Z}

theorem lift_list {l : List ℕ} (h : ∀ a ∈ l, A a) : ∃ l' : List {a // A a}, l'.map Subtype.val = l :=
  ⟨l.attach.map fun x => ⟨x.1, h x.1 x.2⟩, by simp⟩

theorem MIn.of (x : Mix ℝ ℕ ℕ) (h : ∀ a ∈ x.ms, A a) (h' : ∀ a ∈ x.ps, B a) : MIn A B x := by
  obtain ⟨l, hl⟩ := lift_list h
  obtain ⟨l', hl'⟩ := lift_list h'
  exact ⟨⟨x.ws, l, l'⟩, by simp [mapMix, hl, hl']⟩

theorem MIn.ms {x : Mix ℝ ℕ ℕ} (h : MIn A B x) : ∀ a ∈ x.ms, A a := by
  obtain ⟨y, rfl⟩ := h
  intro a ha
  obtain ⟨b, -, rfl⟩ := List.mem_map.1 ha
  exact b.2

theorem MIn.ps {x : Mix ℝ ℕ ℕ} (h : MIn A B x) : ∀ a ∈ x.ps, B a := by
  obtain ⟨y, rfl⟩ := h
  intro a ha
  obtain ⟨b, -, rfl⟩ := List.mem_map.1 ha
  exact b.2

theorem SIn.mix {s : CState ℕ ℕ} (h : SIn A B s) : MIn A B s.mix := by
  obtain ⟨y, rfl⟩ := h
  exact ⟨y.mix, rfl⟩

theorem SIn.states {s : CState ℕ ℕ} (h : SIn A B s) : ∀ x ∈ s.states, (∀ a ∈ x.1, A a) ∧ ∀ a ∈ x.2, B a := by
  obtain ⟨y, rfl⟩ := h
  intro x hx
  obtain ⟨z, -, rfl⟩ := List.mem_map.1 hx
  constructor
  · intro a ha
    obtain ⟨b, -, rfl⟩ := List.mem_map.1 ha
    exact b.2
  · intro a ha
    obtain ⟨b, -, rfl⟩ := List.mem_map.1 ha
    exact b.2

/-- A state with another mixture and cardinality distribution. -/
theorem SIn.set {s : CState ℕ ℕ} (h : SIn A B s) {x : Mix ℝ ℕ ℕ} (hx : MIn A B x) (c : List ℝ) (t : List (ℕ × ℝ)) :
    SIn A B { s with mix := x, card := c, hist := t } := by
  obtain ⟨y, rfl⟩ := h
  obtain ⟨z, rfl⟩ := hx
  exact ⟨{ y with mix := z, card := c, hist := t }, rfl⟩

theorem MIn.mono {x : Mix ℝ ℕ ℕ} (h : MIn A B x) (hA : ∀ a, A a → A' a) (hB : ∀ a, B a → B' a) : MIn A' B' x :=
  MIn.of x (fun a ha => hA a (h.ms a ha)) fun a ha => hB a (h.ps a ha)

theorem SIn.mono {s : CState ℕ ℕ} (h : SIn A B s) (hA : ∀ a, A a → A' a) (hB : ∀ a, B a → B' a) : SIn A' B' s := by
  obtain ⟨y, rfl⟩ := h
  refine ⟨mapSt (fun a => ⟨a.1, hA a.1 a.2⟩) (fun a => ⟨a.1, hB a.1 a.2⟩) y, ?_⟩
  simp only [mapSt, mapMix, List.map_map, Function.comp_def]

theorem readMix_congr {x : Mix ℝ ℕ ℕ} (h : MIn A B x) (hs : ∀ a, A a → m.s a = m'.s a) (hc : ∀ a, B a → m.c a = m'.c a) :
    readMix m x = readMix m' x := by
  unfold readMix
  rw [List.map_congr_left fun a ha => hs a (h.ms a ha), List.map_congr_left fun a ha => hc a (h.ps a ha)]

theorem readSt_congr {s : CState ℕ ℕ} (h : SIn A B s) (hs : ∀ a, A a → m.s a = m'.s a) (hc : ∀ a, B a → m.c a = m'.c a) :
    CphdHeap.readSt m s = CphdHeap.readSt m' s := by
  unfold CphdHeap.readSt
  rw [readMix_congr h.mix hs hc]
  congr 1
  refine List.map_congr_left fun x hx => ?_
  rw [List.map_congr_left fun a ha => hs a ((h.states x hx).1 a ha), List.map_congr_left fun a ha => hc a ((h.states x hx).2 a ha)]

theorem delAll_in {x y : Mix ℝ ℕ ℕ} (h : MIn A B x) (b : Bool) {f : ∀ {V P : Type}, Mix ℝ V P → Except PErr (Mix ℝ V P)}
    (hf : ∀ {V P V' P' : Type} (g : V → V') (k : P → P') (x : Mix ℝ V P), f (mapMix g k x) = (f x).map (mapMix g k))
    (hy : liftE (optStep b f x) = .ok y) : MIn A B y := by
  obtain ⟨x, rfl⟩ := h
  rw [optStep_map _ _ b (hf _ _ _)] at hy
  cases hz : liftE (optStep b f x) with
  | error e =>
    rw [hz] at hy
    exact (nomatch hy)
  | ok z =>
    rw [hz] at hy
    exact ⟨z, Except.ok.inj hy⟩

theorem extract_in {argsort : List ℝ → List ℕ} {s s' : CState ℕ ℕ} (h : SIn A B s)
    (hy : Cphd.extract argsort s = .ok s') : SIn A B s' := by
  obtain ⟨x, rfl⟩ := h
  rw [extract_map] at hy
  cases hz : Cphd.extract argsort x with
  | error e =>
    rw [hz] at hy
    exact (nomatch hy)
  | ok z =>
    rw [hz] at hy
    exact ⟨z, Except.ok.inj hy⟩

end Gasur.Props.CphdHeap
