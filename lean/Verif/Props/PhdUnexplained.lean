import Verif.Props.PhdBound

/-!
# Property C172: measurements that no component explains do not matter
-/

set_option linter.unusedSectionVars false

namespace Gasur.Props

open Gasur.Phd Gasur.Spec

variable {K V P Z : Type*} [Field K] [LinearOrder K] [IsStrictOrderedRing K]

open Classical in
/-- The measurements that some component of the mixture explains: its likelihood is not zero. -/
noncomputable def explained (f : Filt K V P Z) (cs : List (K × V × P)) (zs : List Z) : List Z :=
  zs.filter fun z => decide (∃ c ∈ cs, (f.fcor z c.2.1 c.2.2).2.1 ≠ 0)

/-- **C172.** Measurements that no component of a PHD filter explains (likelihood zero) do not matter: `correct` returns with
and without them, the expected number of objects is the same, and after pruning with a positive threshold the mixtures are
the same, component by component. -/
theorem C172_unexplained {pr : Params K} (hpr : OkParams pr) (hκ : 0 < clutter pr) (ht : 0 < pr.pruneThreshold)
    (f : Filt K V P Z) (hq : ∀ z s p, 0 ≤ (f.fcor z s p).2.1) (cs : List (K × V × P)) (hw : ∀ c ∈ cs, 0 ≤ c.1) (zs : List Z) :
    ∃ m m' r, correct pr f zs (ofComps cs) = .ok m ∧ correct pr f (explained f cs zs) (ofComps cs) = .ok m' ∧
      m.ws.sum = m'.ws.sum ∧ prune pr m = .ok r ∧ prune pr m' = .ok r := by
  obtain ⟨ds, c1, e1, -, m1, -⟩ := C29_correct_mass pr f cs zs hpr.pd hκ hq hw
  obtain ⟨ds', c2, e2, -, m2, -⟩ := C29_correct_mass pr f cs (explained f cs zs) hpr.pd hκ hq hw
  have hdet : ∀ z, (¬ ∃ c ∈ cs, (f.fcor z c.2.1 c.2.2).2.1 ≠ 0) → detMass pr f cs z = 0 := by
    intro z hz
    push Not at hz
    unfold detMass
    refine List.sum_eq_zero fun x hx => ?_
    obtain ⟨c, hc, rfl⟩ := List.mem_map.1 hx
    rw [hz c hc, zero_mul]
  refine ⟨ofComps ds, ofComps ds', ofComps (ds.filter fun c => decide (pr.pruneThreshold ≤ c.1)), c1, c2, ?_,
    prune_ofComps pr ds, ?_⟩
  · show mass ds = mass ds'
    rw [m1, m2]
    congr 1
    clear c1 e1 m1 c2 e2 m2
    unfold explained
    induction zs with
    | nil => rfl
    | cons z zs ih =>
      rw [List.filter_cons, List.map_cons, List.sum_cons, ih]
      split
      · rw [List.map_cons, List.sum_cons]
      · rename_i h
        rw [hdet z (by simpa using h), zero_div, zero_add]
  · rw [prune_ofComps pr ds']
    congr 2
    rw [e1, e2, List.filter_append, List.filter_append]
    congr 1
    clear c1 e1 m1 c2 e2 m2
    unfold explained
    induction zs with
    | nil => rfl
    | cons z zs ih =>
      rw [List.filter_cons, List.flatMap_cons, List.filter_append, ← ih]
      split
      · rw [List.flatMap_cons, List.filter_append]
      · rename_i h
        have h' : ¬ ∃ c ∈ cs, (f.fcor z c.2.1 c.2.2).2.1 ≠ 0 := by simpa using h
        symm
        convert List.nil_append _
        rw [List.filter_eq_nil_iff]
        intro d hd
        obtain ⟨c, hc, rfl⟩ := List.mem_map.1 hd
        have : (f.fcor z c.2.1 c.2.2).2.1 = 0 := by
          by_contra hn
          exact h' ⟨c, hc, hn⟩
        simp [this, ht]

/-- example inner filter that explains a measurement only close to the mean -/
def nearFilt : Filt ℚ ℚ ℚ ℚ :=
  { fpred := fun m p => (m + 1, p + 1)
    fcor := fun z m p => ((m + z) / 2, if |z - m| ≤ 2 then 1 / 2 else 0, p / 2) }

/-- A concrete case: one component at `0`, measurements at `1` and `50`. -/
example : ∃ m m' r, correct exParams nearFilt [1, 50] (ofComps [(1, 0, 1)]) = .ok m ∧
    correct exParams nearFilt (explained nearFilt [(1, 0, 1)] [1, 50]) (ofComps [(1, 0, 1)]) = .ok m' ∧
    m.ws.sum = m'.ws.sum ∧ prune exParams m = .ok r ∧ prune exParams m' = .ok r :=
  C172_unexplained exParams_ok (by norm_num [clutter, exParams]) (by norm_num [exParams]) nearFilt (fun z s p => by
    simp only [nearFilt]
    split <;> norm_num) [(1, 0, 1)] (by
      intro c hc
      simp only [List.mem_singleton] at hc
      subst hc
      exact zero_le_one) [1, 50]

/-- The second of these measurements is dropped, the first is kept. -/
example : explained nearFilt [(1, 0, 1)] [1, 50] = [1] := by
  have h1 : |(1 : ℚ)| ≤ 2 := by norm_num
  simp [explained, List.filter_cons, nearFilt, h1]
  norm_num

end Gasur.Props
