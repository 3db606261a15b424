import Verif.Model.OspaSession
import Verif.Proofs.OspaSetup
import Verif.Props.Ospa
import Verif.Props.OspaSession

/-!
# C153: which time steps an OSPA value depends on

The OSPA value of a time step depends only on the objects of this time step, the OSPA(2) value only on the tracks within the
window that ends there. So the evaluation of a longer run extends the evaluation of a shorter one.
-/

namespace Gasur.Props.OspaLocal

open Gasur.Ospa Gasur.OspaSession Gasur.Spec

variable {X Y : Type*}

/-! ### Rows with the same objects in the same slots -/

/-- The same objects in the same slots; the numbers of empty slots at the end may differ. -/
def Same (r r' : Row X) : Prop := ∀ i, slot r i = slot r' i

theorem reduce_same {r r' : Row X} (h : Same r r') : r.reduceOption = r'.reduceOption := by
  have h1 := filter_slots r (max r.length r'.length) (le_max_left _ _)
  have h2 := filter_slots r' (max r.length r'.length) (le_max_right _ _)
  have e : ((List.range (max r.length r'.length)).map fun i => [slot r i]) =
      (List.range (max r.length r'.length)).map fun i => [slot r' i] :=
    List.map_congr_left fun i _ => by rw [h i]
  rw [e, h2] at h1
  exact (List.map_injective_iff.2 (fun a b hab => by simpa using hab) h1).symm

theorem count_reduce (r : Row X) : r.reduceOption.length = count r := by
  induction r with
  | nil => rfl
  | cons a r ih => cases a <;> simp [List.reduceOption_cons_of_some, List.reduceOption_cons_of_none, count, ih]

theorem count_same {r r' : Row X} (h : Same r r') : count r = count r' := by
  rw [← count_reduce, ← count_reduce, reduce_same h]

theorem ospaStep_same (lsa : Lsa) (c : ℝ) (p : ℕ) (ue : Bool) (d : X → Y → ℝ) {e e' : Row X} {t t' : Row Y}
    (he : Same e e') (ht : Same t t') : ospaStep lsa c p ue d e t = ospaStep lsa c p ue d e' t' := by
  have hD : (fun i j => pairDist c ue d (slot e i) (slot t j)) = fun i j => pairDist c ue d (slot e' i) (slot t' j) := by
    funext i j; rw [he i, ht j]
  unfold ospaStep
  rw [count_same he, count_same ht, hD]

theorem ospaLoop_same (lsa : Lsa) (c : ℝ) (p : ℕ) (ue : Bool) (d : X → Y → ℝ) : ∀ {es es' : List (Row X)}
    {ts ts' : List (Row Y)}, List.Forall₂ Same es es' → List.Forall₂ Same ts ts' →
    ospaLoop lsa c p ue d es ts = ospaLoop lsa c p ue d es' ts'
  | _, _, _, _, _, .nil => by simp [ospaLoop]
  | _, _, _, _, .nil, .cons _ _ => by simp [ospaLoop]
  | _, _, _, _, .cons he hes, .cons ht hts => by
    unfold ospaLoop
    rw [ospaStep_same lsa c p ue d he ht, ospaLoop_same lsa c p ue d hes hts]

theorem ospaLoop_take (lsa : Lsa) (c : ℝ) (p : ℕ) (ue : Bool) (d : X → Y → ℝ) : ∀ (n : ℕ) (es : List (Row X))
    (ts : List (Row Y)) (out : List (ℝ × ℝ)), ospaLoop lsa c p ue d es ts = .ok out →
    ospaLoop lsa c p ue d (es.take n) (ts.take n) = .ok (out.take n)
  | 0, _, _, _, _ => by simp [ospaLoop]
  | n + 1, es, [], out, h => by
    have : out = [] := by simpa [ospaLoop] using h.symm
    subst this; simp [ospaLoop]
  | n + 1, [], t :: ts, out, h => by simp [ospaLoop] at h
  | n + 1, e :: es, t :: ts, out, h => by
    unfold ospaLoop at h
    rw [List.take_succ_cons, List.take_succ_cons]
    unfold ospaLoop
    cases h1 : ospaStep lsa c p ue d e t with
    | error x => rw [h1] at h; exact absurd h (by simp)
    | ok r =>
      rw [h1] at h
      simp only at h ⊢
      cases h2 : ospaLoop lsa c p ue d es ts with
      | error x => rw [h2] at h; exact absurd h (by simp)
      | ok l =>
        rw [h2] at h
        obtain rfl := Except.ok.inj h
        rw [ospaLoop_take lsa c p ue d n es ts l h2]
        rfl

theorem ospaLoop_get (lsa : Lsa) (c : ℝ) (p : ℕ) (ue : Bool) (d : X → Y → ℝ) : ∀ (tt : ℕ) (es : List (Row X))
    (ts : List (Row Y)) (out : List (ℝ × ℝ)), ospaLoop lsa c p ue d es ts = .ok out → tt < ts.length →
    ∃ v, out[tt]? = some v ∧
      ospaStep lsa c p ue d ((es[tt]?).getD []) ((ts[tt]?).getD []) = .ok v
  | _, _, [], _, _, h => by simp at h
  | _, [], t :: ts, _, h, _ => by simp [ospaLoop] at h
  | tt, e :: es, t :: ts, out, h, hlt => by
    unfold ospaLoop at h
    cases h1 : ospaStep lsa c p ue d e t with
    | error x => rw [h1] at h; exact absurd h (by simp)
    | ok r =>
      rw [h1] at h
      simp only at h
      cases h2 : ospaLoop lsa c p ue d es ts with
      | error x => rw [h2] at h; exact absurd h (by simp)
      | ok l =>
        rw [h2] at h
        obtain rfl := Except.ok.inj h
        cases tt with
        | zero => exact ⟨r, rfl, h1⟩
        | succ tt =>
          obtain ⟨v, hv, hs⟩ := ospaLoop_get lsa c p ue d tt es ts l h2 (by simpa using hlt)
          exact ⟨v, by simpa using hv, by simpa using hs⟩

/-! ### Tracks within a window -/

theorem filter_range_extend {α : Type*} (f : ℕ → α) (P : α → Bool) {N M : ℕ} (hNM : N ≤ M)
    (hno : ∀ i, N ≤ i → P (f i) = false) :
    ((List.range M).map f).filter P = ((List.range N).map f).filter P := by
  obtain ⟨k, rfl⟩ := Nat.exists_eq_add_of_le hNM
  rw [List.range_add, List.map_append, List.filter_append]
  have : (List.map f (List.map (fun x => N + x) (List.range k))).filter P = [] := by
    rw [List.filter_eq_nil_iff]
    intro a ha
    simp only [List.map_map, List.mem_map, List.mem_range, Function.comp] at ha
    obtain ⟨i, _, rfl⟩ := ha
    rw [hno (N + i) (by omega)]
    simp
  rw [this, List.append_nil]

theorem slot_beyond {mat : List (Row X)} {tt i : ℕ} (hi : numSlots mat ≤ i) :
    slot ((mat[tt]?).getD []) i = none := by
  cases h : mat[tt]? with
  | none => simp [slot]
  | some r =>
    have hr : r.length ≤ numSlots mat :=
      le_foldr_max (List.mem_map.2 ⟨r, List.mem_of_getElem? h, rfl⟩)
    simp only [Option.getD_some]
    unfold slot
    rw [List.getElem?_eq_none (by omega)]; rfl

theorem validHist_extend (mat : List (Row X)) (win : List ℕ) {M : ℕ} (hM : numSlots mat ≤ M) :
    ((List.range M).map (hist mat win)).filter (fun h => h.any Option.isSome) = validHist mat win := by
  unfold validHist
  refine filter_range_extend _ _ hM fun i hi => ?_
  unfold hist
  rw [List.any_map, List.any_eq_false]
  intro tt _
  simp [slot_beyond hi]

theorem validHist_same {mat mat' : List (Row X)} {win : List ℕ}
    (h : ∀ tt ∈ win, Same ((mat[tt]?).getD []) ((mat'[tt]?).getD [])) :
    validHist mat win = validHist mat' win := by
  rw [← validHist_extend mat win (le_max_left (numSlots mat) (numSlots mat')),
    ← validHist_extend mat' win (le_max_right (numSlots mat) (numSlots mat'))]
  congr 1
  apply List.map_congr_left
  intro i _
  unfold hist
  exact List.map_congr_left fun tt htt => h tt htt i

theorem mem_window {tt w u : ℕ} : u ∈ window tt w ↔ u ≤ tt ∧ tt < u + w := by
  rw [window_eq, List.mem_range'_1]; omega

/-! ### OSPA(2) -/

theorem ospa2_get {lsa : Lsa} {c : ℝ} {p w : ℕ} {d : X → Y → ℝ} {est : List (Row X)} {truth : List (Row Y)}
    {out : List (Except OErr (ℝ × ℝ))} (h : ospa2 lsa c p w d est truth = .ok out) {tt : ℕ} (ht : tt < truth.length) :
    out[tt]? = some (ospa2Step lsa c p d (validHist est (window tt w)) (validHist truth (window tt w))) := by
  unfold ospa2 at h
  split at h
  · exact absurd h (by simp)
  · split at h
    · exact absurd h (by simp)
    · obtain rfl := Except.ok.inj h
      simp [ht]

theorem same_get {mat mat' : List (Row X)} {n : ℕ} (h : List.Forall₂ Same mat' (mat.take n)) {u : ℕ} (hu : u < n) :
    Same ((mat'[u]?).getD []) ((mat[u]?).getD []) := by
  have e : mat[u]? = (mat.take n)[u]? := by rw [List.getElem?_take_of_lt hu]
  rw [e]
  by_cases hl : u < mat'.length
  · have hl' : u < (mat.take n).length := by rw [← h.length_eq]; exact hl
    rw [List.getElem?_eq_getElem hl, List.getElem?_eq_getElem hl']
    exact (List.forall₂_iff_get.1 h).2 u hl hl'
  · have hl' : ¬ u < (mat.take n).length := by rw [← h.length_eq]; exact hl
    rw [List.getElem?_eq_none (by omega), List.getElem?_eq_none (by omega)]
    exact fun _ => rfl

theorem ospa2_take {lsa : Lsa} {c : ℝ} {p w : ℕ} {d : X → Y → ℝ} {est est' : List (Row X)} {truth truth' : List (Row Y)}
    {n : ℕ} (he : List.Forall₂ Same est' (est.take n)) (ht : List.Forall₂ Same truth' (truth.take n))
    {out : List (Except OErr (ℝ × ℝ))} (h : ospa2 lsa c p w d est truth = .ok out) :
    ospa2 lsa c p w d est' truth' = .ok (out.take n) := by
  unfold ospa2 at h ⊢
  rw [ospaLoop_same lsa c 1 false d he ht]
  cases h1 : ospaLoop lsa c 1 false d est truth with
  | error x => rw [h1] at h; exact absurd h (by simp)
  | ok l =>
    rw [h1] at h
    simp only at h
    rw [ospaLoop_take lsa c 1 false d n est truth l h1]
    simp only
    by_cases hp : p = 0
    · rw [if_pos hp] at h; exact absurd h (by simp)
    · rw [if_neg hp] at h ⊢
      obtain rfl := Except.ok.inj h
      have hlen : truth'.length = min n truth.length := by rw [ht.length_eq, List.length_take]
      rw [hlen, ← List.map_take, List.take_range]
      congr 1
      apply List.map_congr_left
      intro tt htt
      rw [List.mem_range] at htt
      rw [validHist_same (mat := est') (mat' := est) fun u hu => same_get he (by rw [mem_window] at hu; omega),
        validHist_same (mat := truth') (mat' := truth) fun u hu => same_get ht (by rw [mem_window] at hu; omega)]

theorem forall₂_same_refl (l : List (Row X)) : List.Forall₂ Same l l :=
  List.forall₂_same.2 fun _ _ _ => rfl

/-! ### The functions of `gasur.utilities.distributions` -/

variable {s : ℕ}

theorem objAt_same {mat mat' : List (Row X)} {tt : ℕ} (h : ∀ i, objAt mat tt i = objAt mat' tt i) :
    Same ((mat[tt]?).getD []) ((mat'[tt]?).getD []) := fun i => by
  rw [slot_eq_objAt, slot_eq_objAt, h i]

/-- **C153**: two calls of `calculate_ospa` whose data hold the same objects at time step `tt` report the same localisation and
cardinality at `tt`, whatever the other time steps hold. -/
theorem C153_ospa_local (lsa : Lsa) (est truth est' truth' : List (Row (Obj s))) (c : ℝ) (p : ℕ) (useEmpty : Bool)
    (method : Option Method) (hasTrueCov hasEstCov : Bool) (out out' : List (ℝ × ℝ)) (tt : ℕ)
    (h : calculateOspa lsa est truth c p useEmpty method hasTrueCov hasEstCov = .ok out)
    (h' : calculateOspa lsa est' truth' c p useEmpty method hasTrueCov hasEstCov = .ok out')
    (ht : tt < truth.length) (ht' : tt < truth'.length)
    (he : ∀ i, objAt est tt i = objAt est' tt i) (hu : ∀ i, objAt truth tt i = objAt truth' tt i) :
    ∃ v, out[tt]? = some v ∧ out'[tt]? = some v := by
  unfold calculateOspa at h h'
  split at h
  · exact absurd h (by simp)
  split at h'
  · exact absurd h' (by simp)
  unfold ospaGiven at h h'
  obtain ⟨v, hv, hs⟩ := ospaLoop_get lsa _ p useEmpty _ tt est truth out h ht
  obtain ⟨v', hv', hs'⟩ := ospaLoop_get lsa _ p useEmpty _ tt est' truth' out' h' ht'
  rw [ospaStep_same lsa _ p useEmpty _ (objAt_same he) (objAt_same hu), hs'] at hs
  obtain rfl := Except.ok.inj hs
  exact ⟨_, hv, hv'⟩

/-- **C153**: two calls of `calculate_ospa2` with window length `w` whose data hold the same objects in the same slots at the
last `w` time steps up to `tt` report the same localisation and cardinality at `tt`. -/
theorem C153_ospa2_local (lsa : Lsa) (est truth est' truth' : List (Row (Obj s))) (c : ℝ) (p w : ℕ)
    (method : Option Method) (hasTrueCov hasEstCov : Bool) (out out' : List (Except OErr (ℝ × ℝ))) (tt : ℕ)
    (h : calculateOspa2 lsa est truth c p w method hasTrueCov hasEstCov = .ok out)
    (h' : calculateOspa2 lsa est' truth' c p w method hasTrueCov hasEstCov = .ok out')
    (ht : tt < truth.length) (ht' : tt < truth'.length)
    (he : ∀ u ≤ tt, tt < u + w → ∀ i, objAt est u i = objAt est' u i)
    (hu : ∀ u ≤ tt, tt < u + w → ∀ i, objAt truth u i = objAt truth' u i) :
    ∃ v, out[tt]? = some v ∧ out'[tt]? = some v := by
  unfold calculateOspa2 at h h'
  split at h
  · exact absurd h (by simp)
  split at h'
  · exact absurd h' (by simp)
  have a := ospa2_get h ht
  have b := ospa2_get h' ht'
  rw [validHist_same (mat := est) (mat' := est')
      (fun u hu => objAt_same (he u (mem_window.1 hu).1 (mem_window.1 hu).2)),
    validHist_same (mat := truth) (mat' := truth')
      (fun u h => objAt_same (hu u (mem_window.1 h).1 (mem_window.1 h).2))] at a
  exact ⟨_, a, b⟩

theorem mem_zip_take {A B : Type*} {l : List A} {l' : List B} {n : ℕ} {a : A × B}
    (ha : a ∈ (l.take n).zip (l'.take n)) : a ∈ l.zip l' := by
  rw [List.zip_eq_zipWith, ← List.take_zipWith, ← List.zip_eq_zipWith] at ha
  exact List.mem_of_mem_take ha

theorem meet_take {est truth : List (Row X)} {n : ℕ} (h : Meet (est.take n) (truth.take n)) : Meet est truth := by
  obtain ⟨a, ha, h1⟩ := h
  refine ⟨a, ?_, h1⟩
  exact mem_zip_take ha

/-- **C153**: the OSPA history of the first `n` time steps is the beginning of the OSPA history of all of them. -/
theorem C153_ospa_prefix (lsa : Lsa) (est truth : List (Row (Obj s))) (c : ℝ) (p : ℕ) (useEmpty : Bool)
    (method : Option Method) (hasTrueCov hasEstCov : Bool) (out : List (ℝ × ℝ)) (n : ℕ)
    (h : calculateOspa lsa est truth c p useEmpty method hasTrueCov hasEstCov = .ok out) :
    calculateOspa lsa (est.take n) (truth.take n) c p useEmpty method hasTrueCov hasEstCov = .ok (out.take n) := by
  unfold calculateOspa at h ⊢
  split at h
  · exact absurd h (by simp)
  rename_i hc
  rw [if_neg fun hn => hc ⟨hn.1, hn.2.1, meet_take hn.2.2⟩]
  exact ospaLoop_take lsa _ p useEmpty _ n est truth out h

/-- **C153**: the same for OSPA(2). -/
theorem C153_ospa2_prefix (lsa : Lsa) (est truth : List (Row (Obj s))) (c : ℝ) (p w : ℕ)
    (method : Option Method) (hasTrueCov hasEstCov : Bool) (out : List (Except OErr (ℝ × ℝ))) (n : ℕ)
    (h : calculateOspa2 lsa est truth c p w method hasTrueCov hasEstCov = .ok out) :
    calculateOspa2 lsa (est.take n) (truth.take n) c p w method hasTrueCov hasEstCov = .ok (out.take n) := by
  unfold calculateOspa2 at h ⊢
  split at h
  · exact absurd h (by simp)
  rename_i hc
  rw [if_neg fun hn => hc ⟨hn.1, hn.2.1, meet_take hn.2.2⟩]
  exact ospa2_take (forall₂_same_refl _) (forall₂_same_refl _) h

/-! ### The matrices of the filters -/

theorem same_common : ∀ {a b c : List (Row X)}, List.Forall₂ Same a b → List.Forall₂ Same a c → List.Forall₂ Same b c
  | _, _, _, .nil, .nil => .nil
  | _, _, _, .cons h1 t1, .cons h2 t2 => .cons (fun i => (h1 i).symm.trans (h2 i)) (same_common t1 t2)

theorem setupMat_same {l : List (List (Option X))} {em : List (Row X)} (h : setupMat l = .ok em) :
    List.Forall₂ Same l em := (setupRows_ok h).imp fun _ _ hab k => (hab.2 k).symm

theorem setupMat_packed {l : List (List (Option X))} (h : ∀ r ∈ l, Packed r) : ∃ em, setupMat l = .ok em := by
  cases hs : setupMat l with
  | ok em => exact ⟨em, rfl⟩
  | error e =>
    exfalso
    obtain ⟨r, hr, k, hk, hk'⟩ := setupRows_error.1 ⟨e, hs⟩
    obtain ⟨xs, m, rfl⟩ := h r hr
    have h1 : xs.length ≤ numObjs l := le_foldr_max (List.mem_map.2 ⟨_, hr, packed_count⟩)
    have : slot (xs.map some ++ List.replicate m none) k = none := by
      unfold slot
      rw [List.getElem?_append_right (by simp; omega), List.getElem?_replicate]
      split <;> rfl
    rw [this] at hk'
    exact absurd hk' (by simp)

theorem setupMat_take {l : List (List (Option X))} (h : ∀ r ∈ l, Packed r) (n : ℕ) {em : List (Row X)}
    (hem : setupMat l = .ok em) :
    ∃ em', setupMat (l.take n) = .ok em' ∧ List.Forall₂ Same em' (em.take n) := by
  obtain ⟨em', h'⟩ := setupMat_packed (l := l.take n) fun r hr => h r (List.mem_of_mem_take hr)
  exact ⟨em', h', same_common (setupMat_same h') (List.forall₂_take n (setupMat_same hem))⟩

section Labels

variable {L : Type*} [DecidableEq L]

theorem foldl_order_prefix (ls : List L) : ∀ acc : List L, ∃ rest,
    ls.foldl (fun acc l => if l ∈ acc then acc else acc ++ [l]) acc = acc ++ rest := by
  induction ls with
  | nil => intro acc; exact ⟨[], by simp⟩
  | cons a ls ih =>
    intro acc
    rw [List.foldl_cons]
    split
    · exact ih acc
    · obtain ⟨rest, h⟩ := ih (acc ++ [a])
      exact ⟨a :: rest, by rw [h]; simp⟩

theorem labelOrder_take (labels : List (List L)) (n : ℕ) : ∃ rest,
    labelOrder labels = labelOrder (labels.take n) ++ rest := by
  unfold labelOrder
  conv => enter [1, rest, 1]; rw [← List.take_append_drop n labels, List.flatten_append, List.foldl_append]
  exact foldl_order_prefix _ _

theorem labelRow_append (o r : List L) (k : ℕ) : ∀ (ps : List (L × X)) (row : Row X), row.length = o.length →
    (∀ a ∈ ps, a.1 ∈ o) →
    ps.foldl (fun r' ls => r'.set ((o ++ r).idxOf ls.1) (some ls.2)) (row ++ List.replicate k none) =
      ps.foldl (fun r' ls => r'.set (o.idxOf ls.1) (some ls.2)) row ++ List.replicate k none
  | [], _, _, _ => rfl
  | a :: ps, row, hl, hm => by
    rw [List.foldl_cons, List.foldl_cons, List.idxOf_append_of_mem (hm a (by simp)),
      List.set_append_left _ _ (by rw [hl]; exact List.idxOf_lt_length_iff.2 (hm a (by simp)))]
    exact labelRow_append o r k ps _ (by simpa using hl) fun b hb => hm b (by simp [hb])

theorem same_append (r : Row X) (k : ℕ) : Same r (r ++ List.replicate k none) := fun i => by
  unfold slot
  by_cases h : i < r.length
  · rw [List.getElem?_append_left h]
  · rw [List.getElem?_append_right (by omega), List.getElem?_eq_none (by omega), List.getElem?_replicate]
    split <;> rfl

theorem setupLabels_take (labels : List (List L)) (states : List (List X)) (n : ℕ) :
    List.Forall₂ Same (setupLabels (labels.take n) (states.take n)) ((setupLabels labels states).take n) := by
  unfold setupLabels
  rw [← List.map_take]
  have hz : (labels.zip states).take n = (labels.take n).zip (states.take n) := by
    rw [List.zip_eq_zipWith, List.zip_eq_zipWith, List.take_zipWith]
  rw [hz]
  obtain ⟨rest, hr⟩ := labelOrder_take labels n
  rw [hr, List.forall₂_map_left_iff, List.forall₂_map_right_iff, List.forall₂_same]
  intro a ha
  have hm : ∀ b ∈ a.1.zip a.2, b.1 ∈ labelOrder (labels.take n) := fun b hb =>
    (mem_labelOrder _ _).2 ⟨a.1, (List.of_mem_zip ha).1, (List.of_mem_zip hb).1⟩
  have : labelRow (labelOrder (labels.take n) ++ rest) a.1 a.2 =
      labelRow (labelOrder (labels.take n)) a.1 a.2 ++ List.replicate rest.length none := by
    unfold labelRow
    rw [List.length_append, List.replicate_add]
    exact labelRow_append _ rest rest.length _ _ (by simp) hm
  rw [this]
  exact same_append _ _

end Labels

/-! ### Steps without objects -/

theorem count_blank {r : Row X} (h : Same r []) : count r = 0 := by rw [count_same h]; rfl

theorem ospaLoop_blank (lsa : Lsa) (c : ℝ) (p : ℕ) (ue : Bool) (d : X → Y → ℝ) : ∀ (es : List (Row X))
    (ts : List (Row Y)) (out : List (ℝ × ℝ)), ospaLoop lsa c p ue d es ts = .ok out → (∀ r ∈ es, Same r []) →
    (∀ r ∈ ts, Same r []) → out = List.replicate ts.length (0, 0) ∧ ts.length ≤ es.length
  | es, [], out, h, _, _ => by
    have : out = [] := by simpa [ospaLoop] using h.symm
    subst this; simp
  | [], t :: ts, out, h, _, _ => by simp [ospaLoop] at h
  | e :: es, t :: ts, out, h, he, ht => by
    unfold ospaLoop at h
    have h1 : ospaStep lsa c p ue d e t = .ok (0, 0) := by
      unfold ospaStep
      rw [if_pos ⟨count_blank (ht t (by simp)), count_blank (he e (by simp))⟩]
    rw [h1] at h
    simp only at h
    cases h2 : ospaLoop lsa c p ue d es ts with
    | error x => rw [h2] at h; exact absurd h (by simp)
    | ok l =>
      rw [h2] at h
      obtain rfl := Except.ok.inj h
      obtain ⟨h3, h4⟩ := ospaLoop_blank lsa c p ue d es ts l h2 (fun r hr => he r (by simp [hr]))
        (fun r hr => ht r (by simp [hr]))
      exact ⟨by rw [h3]; rfl, by simpa using h4⟩

theorem validHist_blank {mat : List (Row X)} (h : ∀ r ∈ mat, Same r []) (win : List ℕ) : validHist mat win = [] := by
  rw [validHist_same (mat := mat) (mat' := []) ?_]
  · rfl
  · intro tt _
    cases hm : mat[tt]? with
    | none => simp; exact fun _ => rfl
    | some r => exact h r (List.mem_of_getElem? hm)

/-! ### The calls of the filters -/

theorem zip_same : ∀ {es es' ts ts' : List (Row X)}, List.Forall₂ Same es es' → List.Forall₂ Same ts ts' →
    ∀ a ∈ es.zip ts, ∃ b ∈ es'.zip ts', Same a.1 b.1 ∧ Same a.2 b.2
  | _, _, _, _, .nil, _, a, h => by simp at h
  | _, _, _, _, .cons _ _, .nil, a, h => by simp at h
  | _, _, _, _, .cons h1 t1, .cons h2 t2, a, h => by
    rcases List.mem_cons.1 (by simpa using h) with rfl | h
    · exact ⟨(_, _), List.mem_cons_self .., h1, h2⟩
    · obtain ⟨b, hb, h3⟩ := zip_same t1 t2 a h
      exact ⟨b, by simp [hb], h3⟩

theorem nanPair_take {em tm em' tm' : List (Row X)} {n : ℕ} (he : List.Forall₂ Same em' (em.take n))
    (ht : List.Forall₂ Same tm' (tm.take n)) (h : NanPair em' tm') : NanPair em tm := by
  obtain ⟨a, ha, i, hi, j, hj, h1, h2⟩ := h
  obtain ⟨b, hb, hb1, hb2⟩ := zip_same he ht a ha
  refine ⟨b, mem_zip_take hb, i, by rwa [← count_same hb1], j, by rwa [← count_same hb2], ?_, ?_⟩
  · rwa [← hb1 i]
  · rwa [← hb2 j]

theorem callOspa_take {lsa : Lsa} {em tm em' tm' : List (Row (Obj s))} {c : ℝ} {p n : ℕ} {method : Option Method}
    {hasTrueCov hasEstCov : Bool} {out : List (ℝ × ℝ)} (he : List.Forall₂ Same em' (em.take n))
    (ht : List.Forall₂ Same tm' (tm.take n)) (h : callOspa lsa em tm c p method hasTrueCov hasEstCov = .ok out) :
    callOspa lsa em' tm' c p method hasTrueCov hasEstCov = .ok (out.take n) := by
  unfold callOspa at h ⊢
  split at h
  · exact absurd h (by simp)
  rename_i hc
  rw [if_neg fun hn => hc ⟨hn.1, hn.2.1, nanPair_take he ht hn.2.2⟩]
  unfold ospaGiven at h ⊢
  rw [ospaLoop_same lsa _ p true _ he ht]
  exact ospaLoop_take lsa _ p true _ n em tm out h

theorem mapM_ok {A : Type*} : ∀ (l : List (Except OErr A)) (r : List A), l.mapM id = .ok r ↔ l = r.map .ok
  | [], r => by
    rw [List.mapM_nil]
    constructor
    · intro h; obtain rfl := Except.ok.inj h; rfl
    · intro h
      have : r = [] := by simpa using h.symm
      subst this; rfl
  | x :: l, r => by
    rw [List.mapM_cons]
    cases x with
    | error e =>
      constructor
      · intro h; exact nomatch h
      · intro h; cases r <;> simp at h
    | ok a =>
      cases h2 : l.mapM id with
      | error e =>
        constructor
        · intro h; simp [bind, Except.bind] at h
        · intro h
          cases r with
          | nil => simp at h
          | cons b r =>
            simp only [List.map_cons, List.cons.injEq] at h
            rw [(mapM_ok l r).2 h.2] at h2
            exact nomatch h2
      | ok r' =>
        have e : ((do let b ← id (Except.ok a : Except OErr A); let bs ← (Except.ok r' : Except OErr (List A)); pure (b :: bs))
            : Except OErr (List A)) = .ok (a :: r') := rfl
        rw [e]
        have := (mapM_ok l r').1 h2
        subst this
        constructor
        · intro h; obtain rfl := Except.ok.inj h; rfl
        · intro h
          cases r with
          | nil => simp at h
          | cons b r =>
            simp only [List.map_cons, List.cons.injEq, Except.ok.injEq] at h
            rw [h.1, List.map_injective_iff.2 (fun a b hab => Except.ok.inj hab) h.2]

theorem callOspa2_take {lsa : Lsa} {em tm em' tm' : List (Row (Obj s))} {c : ℝ} {p w n : ℕ} {method : Option Method}
    {hasTrueCov hasEstCov : Bool} {out : List (ℝ × ℝ)} (he : List.Forall₂ Same em' (em.take n))
    (ht : List.Forall₂ Same tm' (tm.take n)) (h : callOspa2 lsa em tm c p w method hasTrueCov hasEstCov = .ok out) :
    callOspa2 lsa em' tm' c p w method hasTrueCov hasEstCov = .ok (out.take n) := by
  unfold callOspa2 at h ⊢
  split at h
  · exact absurd h (by simp)
  rename_i hc
  rw [if_neg fun hn => hc ⟨hn.1, hn.2.1, nanPair_take he ht hn.2.2⟩]
  split at h
  · exact absurd h (by simp)
  · rename_i l hl
    rw [ospa2_take he ht hl]
    simp only
    rw [mapM_ok] at h ⊢
    rw [h, List.map_take]

theorem callOspa_blank {lsa : Lsa} {em tm : List (Row (Obj s))} {c : ℝ} {p : ℕ} {method : Option Method}
    {hasTrueCov hasEstCov : Bool} {out : List (ℝ × ℝ)} (he : ∀ r ∈ em, Same r []) (ht : ∀ r ∈ tm, Same r [])
    (h : callOspa lsa em tm c p method hasTrueCov hasEstCov = .ok out) :
    out = List.replicate tm.length (0, 0) ∧ tm.length ≤ em.length := by
  unfold callOspa at h
  split at h
  · exact absurd h (by simp)
  exact ospaLoop_blank lsa _ p true _ em tm out h he ht

theorem callOspa2_blank {lsa : Lsa} {em tm : List (Row (Obj s))} {c : ℝ} {p w : ℕ} {method : Option Method}
    {hasTrueCov hasEstCov : Bool} {out : List (ℝ × ℝ)} (he : ∀ r ∈ em, Same r []) (ht : ∀ r ∈ tm, Same r [])
    (h : callOspa2 lsa em tm c p w method hasTrueCov hasEstCov = .ok out) :
    out = List.replicate tm.length (0, 0) ∧ tm.length ≤ em.length := by
  unfold callOspa2 at h
  split at h
  · exact absurd h (by simp)
  split at h
  · exact absurd h (by simp)
  rename_i l hl
  rw [mapM_ok] at h
  subst h
  unfold ospa2 at hl
  split at hl
  · exact absurd hl (by simp)
  rename_i o ho
  split at hl
  · exact absurd hl (by simp)
  have hl := Except.ok.inj hl
  refine ⟨?_, (ospaLoop_blank lsa _ 1 false _ em tm o ho he ht).2⟩
  have : (List.range tm.length).map (fun tt => ospa2Step lsa (effCut (effMethod method hasTrueCov hasEstCov) c) p
      (coreDist (effMethod method hasTrueCov hasEstCov)) (validHist em (window tt w)) (validHist tm (window tt w))) =
      (List.replicate tm.length ((0 : ℝ), (0 : ℝ))).map .ok := by
    rw [List.map_replicate]
    apply List.eq_replicate_iff.2
    refine ⟨by simp, ?_⟩
    intro x hx
    obtain ⟨tt, _, rfl⟩ := List.mem_map.1 hx
    rw [validHist_blank he, validHist_blank ht]
    unfold ospa2Step
    simp
  rw [this] at hl
  exact (List.map_injective_iff.2 (fun a b hab => Except.ok.inj hab) hl).symm

theorem blank_of_same {l em : List (Row X)} (h : List.Forall₂ Same l em) (hn : (l.any fun r => r.any Option.isSome) = false) :
    ∀ r ∈ em, Same r [] := by
  intro r hr
  obtain ⟨r', hr', hs⟩ : ∃ r' ∈ l, Same r' r := by
    induction h with
    | nil => simp at hr
    | cons h1 _ ih =>
      rcases List.mem_cons.1 hr with rfl | hr
      · exact ⟨_, by simp, h1⟩
      · obtain ⟨r', h3, h4⟩ := ih (by rw [List.any_cons, Bool.or_eq_false_iff] at hn; exact hn.2) hr
        exact ⟨r', by simp [h3], h4⟩
  intro i
  rw [← hs i]
  have h0 : slot ([] : Row X) i = none := by simp [slot]
  rw [h0]
  cases hx : slot r' i with
  | none => rfl
  | some x =>
    exfalso
    rw [List.any_eq_false] at hn
    have h1 := hn r' hr'
    apply h1
    rw [List.any_eq_true]
    exact ⟨some x, mem_of_slot hx, rfl⟩

/-- What the two kinds of filters have in common: `e'` is the beginning of `e`. -/
structure Begins {E : Type*} (v : View E s) (n : ℕ) (e e' : E) : Prop where
  setup : ∀ em, v.setup e = .ok em → ∃ em', v.setup e' = .ok em' ∧ List.Forall₂ Same em' (em.take n)
  steps : v.steps e' = min n (v.steps e)
  len : ∀ em, v.setup e' = .ok em → em.length ≤ v.steps e'
  known : v.known e' = true → v.known e = true
  blank : v.known e' = false → ∀ em, v.setup e' = .ok em → ∀ r ∈ em, Same r []
  covs : v.saveCovs e' = v.saveCovs e

theorem calcWith_take {E : Type*} {v : View E s} {e e' : E} {n : ℕ} (hb : Begins v n e e') (a : Args s)
    (hp : ∀ r ∈ a.truth, Packed r) (hn : n ≤ a.truth.length)
    (f : List (Row (Obj s)) → List (Row (Obj s)) → Except OErr (List (ℝ × ℝ)))
    (hf : ∀ em tm em' tm' out, List.Forall₂ Same em' (em.take n) → List.Forall₂ Same tm' (tm.take n) →
      f em tm = .ok out → f em' tm' = .ok (out.take n))
    (hz : ∀ em tm out, (∀ r ∈ em, Same r []) → (∀ r ∈ tm, Same r []) → f em tm = .ok out →
      out = List.replicate tm.length (0, 0) ∧ tm.length ≤ em.length)
    {r : Res} (h : calcWith v e a f = .ok r) :
    ∃ r', calcWith v e' { a with truth := a.truth.take n } f = .ok r' ∧ r'.vals = r.vals.take n := by
  unfold calcWith at h
  have hany : ((a.truth.take n).any fun l => l.any Option.isSome) = true →
      (a.truth.any fun l => l.any Option.isSome) = true := by
    rw [List.any_eq_true, List.any_eq_true]
    rintro ⟨x, hx, h1⟩
    exact ⟨x, List.mem_of_mem_take hx, h1⟩
  by_cases hd : dimKnown v e a.truth = true
  · rw [if_pos hd] at h
    unfold withMats at h
    obtain ⟨tm, htm⟩ := setupMat_packed hp
    rw [htm] at h
    simp only at h
    cases hse : v.setup e with
    | error x => rw [hse] at h; exact absurd h (by simp)
    | ok em =>
      rw [hse] at h
      simp only at h
      cases hfo : f em tm with
      | error x => rw [hfo] at h; exact absurd h (by simp)
      | ok out =>
        rw [hfo] at h
        obtain rfl := Except.ok.inj h
        obtain ⟨em', he1, he2⟩ := hb.setup em hse
        obtain ⟨tm', ht1, ht2⟩ := setupMat_take hp n htm
        have ho := hf em tm em' tm' out he2 ht2 hfo
        unfold calcWith
        by_cases hd' : dimKnown v e' (a.truth.take n) = true
        · rw [if_pos hd']
          unfold withMats
          simp only [ht1, he1, ho]
          exact ⟨_, rfl, rfl⟩
        · rw [if_neg hd']
          refine ⟨_, rfl, ?_⟩
          simp only
          have hd'' : ((a.truth.take n).any fun l => l.any Option.isSome) = false ∧ v.known e' = false := by
            unfold dimKnown at hd'
            simpa using hd'
          obtain ⟨h1, h2⟩ := hz em' tm' _ (hb.blank hd''.2 em' he1) (blank_of_same (setupMat_same ht1) hd''.1) ho
          rw [h1]
          congr 1
          have h3 : tm'.length = min n a.truth.length := by
            rw [← (setupMat_same ht1).length_eq, List.length_take]
          have h4 := hb.len em' he1
          have h5 := hb.steps
          omega
  · rw [if_neg hd] at h
    obtain rfl := Except.ok.inj h
    have hd' : ¬ dimKnown v e' (a.truth.take n) = true := by
      intro hk
      apply hd
      unfold dimKnown at hk ⊢
      rw [Bool.or_eq_true] at hk ⊢
      exact hk.imp hany hb.known
    unfold calcWith
    rw [if_neg hd']
    exact ⟨_, rfl, by simp [hb.steps]⟩

theorem phd_begins (est : List (List (Option (Obj s)))) (sc : Bool) (h : ∀ r ∈ est, Packed r) (n : ℕ) :
    Begins (phdView s) n (est, sc) (est.take n, sc) where
  setup em hem := setupMat_take h n hem
  steps := by simp [phdView]
  len em hem := by rw [← (setupMat_same hem).length_eq]; exact le_rfl
  known hk := by
    simp only [phdView, List.any_eq_true] at hk ⊢
    obtain ⟨x, hx, h1⟩ := hk
    exact ⟨x, List.mem_of_mem_take hx, h1⟩
  blank hk em hem := blank_of_same (setupMat_same hem) hk
  covs := rfl

theorem labelRow_blank {L : Type*} [DecidableEq L] (o : List L) (ls : List L) :
    Same (labelRow o ls ([] : List X)) [] := by
  unfold labelRow
  simp only [List.zip_nil_right, List.foldl_nil]
  intro i
  simp only [slot, List.getElem?_nil, Option.getD_none, List.getElem?_replicate]
  split <;> rfl

theorem glmb_begins {L : Type*} [DecidableEq L] (labels : List (List L)) (est : List (List (Obj s))) (sc : Bool) (n : ℕ) :
    Begins (glmbView s L) n (labels, est, sc) (labels.take n, est.take n, sc) where
  setup em hem := by
    obtain rfl := Except.ok.inj hem
    exact ⟨_, rfl, setupLabels_take labels est n⟩
  steps := by simp [glmbView]
  len em hem := by
    obtain rfl := Except.ok.inj hem
    simp [glmbView, setupLabels]
  known hk := by
    simp only [glmbView, List.any_eq_true] at hk ⊢
    obtain ⟨x, hx, h1⟩ := hk
    exact ⟨x, List.mem_of_mem_take hx, h1⟩
  blank hk em hem r hr := by
    obtain rfl := Except.ok.inj hem
    unfold setupLabels at hr
    obtain ⟨a, ha, rfl⟩ := List.mem_map.1 hr
    have h1 : a.2 = [] := by
      simp only [glmbView, List.any_eq_false] at hk
      have := hk a.2 (List.of_mem_zip ha).2
      simpa using this
    rw [h1]
    exact labelRow_blank _ _
  covs := rfl

/-- **C153**: a PHD or CPHD filter that was evaluated by `calculate_ospa` over a run reports, when evaluated over the first `n`
time steps only, the first `n` of the values (states and truth listed without gaps). -/
theorem C153_phd_prefix_partial (lsa : Lsa) (est : List (List (Option (Obj s)))) (sc : Bool) (a : Args s) (n : ℕ)
    (he : ∀ r ∈ est, Packed r) (hp : ∀ r ∈ a.truth, Packed r) (hn : n ≤ a.truth.length) (r : Res)
    (h : calc1 lsa (phdView s) (est, sc) a = .ok r) :
    ∃ r', calc1 lsa (phdView s) (est.take n, sc) { a with truth := a.truth.take n } = .ok r' ∧
      r'.vals = r.vals.take n :=
  calcWith_take (phd_begins est sc he n) a hp hn _ (fun _ _ _ _ _ h1 h2 h3 => callOspa_take h1 h2 h3)
    (fun _ _ _ h1 h2 h3 => callOspa_blank h1 h2 h3) h

/-- **C153**: the same for a GLMB filter and `calculate_ospa`. -/
theorem C153_glmb_prefix_partial {L : Type*} [DecidableEq L] (lsa : Lsa) (labels : List (List L))
    (est : List (List (Obj s))) (sc : Bool) (a : Args s) (n : ℕ)
    (hp : ∀ r ∈ a.truth, Packed r) (hn : n ≤ a.truth.length) (r : Res)
    (h : calc1 lsa (glmbView s L) (labels, est, sc) a = .ok r) :
    ∃ r', calc1 lsa (glmbView s L) (labels.take n, est.take n, sc) { a with truth := a.truth.take n } = .ok r' ∧
      r'.vals = r.vals.take n :=
  calcWith_take (glmb_begins labels est sc n) a hp hn _ (fun _ _ _ _ _ h1 h2 h3 => callOspa_take h1 h2 h3)
    (fun _ _ _ h1 h2 h3 => callOspa_blank h1 h2 h3) h

/-- **C153**: the same for a GLMB filter and `calculate_ospa2`. -/
theorem C153_glmb2_prefix_partial {L : Type*} [DecidableEq L] (lsa : Lsa) (labels : List (List L))
    (est : List (List (Obj s))) (sc : Bool) (a : Args s) (w n : ℕ)
    (hp : ∀ r ∈ a.truth, Packed r) (hn : n ≤ a.truth.length) (r : Res)
    (h : calc2 lsa (glmbView s L) (labels, est, sc) a w = .ok r) :
    ∃ r', calc2 lsa (glmbView s L) (labels.take n, est.take n, sc) { a with truth := a.truth.take n } w = .ok r' ∧
      r'.vals = r.vals.take n :=
  calcWith_take (glmb_begins labels est sc n) a hp hn _ (fun _ _ _ _ _ h1 h2 h3 => callOspa2_take h1 h2 h3)
    (fun _ _ _ h1 h2 h3 => callOspa2_blank h1 h2 h3) h

/-- The truth of a run of two time steps: one object at the first step, listed behind `None`, and two at the second. -/
noncomputable def gapTruth : List (List (Option (Obj 1))) := [[none, some (pt 5)], [some (pt 0), some (pt 5)]]

/-- **C153** is false for truths with `None` before an object: the whole run is evaluated, but the evaluation of its first time
step raises `IndexError`, because the matrix has as many slots as objects at the busiest time step. -/
theorem C153_refuted (lsa : Lsa) :
    (∃ r, calc1 lsa (phdView 1) ([[], []], false) ⟨gapTruth, 10, 1, none, false⟩ = .ok r) ∧
    calc1 lsa (phdView 1) ([[], []].take 1, false) ⟨gapTruth.take 1, 10, 1, none, false⟩ = .error .index := by
  constructor
  · have h1 : setupMat gapTruth = .ok [[none, some (pt 5)], [some (pt 0), some (pt 5)]] := by
      simp [setupMat, gapTruth, numObjs, count, setupRows, fillRow, slot, List.range_succ]
    refine ⟨⟨[(0, 10), (0, 10)], .euclidean, 10, 1⟩, ?_⟩
    · unfold calc1 calcWith
      rw [if_pos (by simp [dimKnown, gapTruth])]
      unfold withMats
      rw [h1]
      simp only [phdView]
      have h2 : setupMat ([[], []] : List (List (Option (Obj 1)))) = .ok [[], []] := by
        simp [setupMat, numObjs, count, setupRows, fillRow]
      rw [h2]
      simp only
      have h3 : callOspa lsa [[], []] [[none, some (pt 5)], [some (pt 0), some (pt 5)]] 10 1 none false false =
          .ok [(0, 10), (0, 10)] := by
        simp [callOspa, effMethod, ospaGiven, effCut, ospaLoop, ospaStep, count]
      rw [h3]
      simp [effMethod, effCut]
  · have h1 : setupMat (gapTruth.take 1) = .error .index := by
      simp [setupMat, gapTruth, numObjs, count, setupRows, fillRow, slot, List.range_succ]
    unfold calc1 calcWith
    rw [if_pos (by simp [dimKnown, gapTruth])]
    unfold withMats
    rw [h1]

/-- The premises of `C153_ospa2_local` can be met by data that differ outside the window. -/
example : (∀ u ≤ 1, 1 < u + 1 → ∀ i, objAt [[some (pt 0)], [some (pt 1)]] u i = objAt [[some (pt 9)], [some (pt 1), none]] u i) ∧
    objAt [[some (pt 0)], [some (pt 1)]] 0 0 ≠ objAt [[some (pt 9)], [some (pt 1), none]] 0 0 := by
  constructor
  · intro u hu hu' i
    obtain rfl : u = 1 := by omega
    match i with
    | 0 => rfl
    | 1 => rfl
    | i + 2 => rfl
  · intro h
    have h1 : pt 0 = pt 9 := Option.some.inj h
    have h2 := congrFun (congrArg Obj.x h1) 0
    simp [pt] at h2

/-- The premises of the theorems for the filters can be met: a run of two time steps with an object at both is evaluated. -/
example (lsa : Lsa) : ∃ r, calc1 lsa (phdView 1) ([[], []], false)
    ⟨[[some (pt 5)], [some (pt 0), some (pt 5)]], 10, 1, none, false⟩ = .ok r ∧ r.vals.length = 2 ∧
    (∀ r ∈ [[some (pt 5)], [some (pt 0), some (pt 5)]], Packed r) := by
  have hp : ∀ r ∈ [[some (pt 5)], [some (pt 0), some (pt 5)]], Packed r := by
    intro r hr
    simp only [List.mem_cons, List.not_mem_nil, or_false] at hr
    rcases hr with rfl | rfl
    · exact ⟨[pt 5], 0, rfl⟩
    · exact ⟨[pt 0, pt 5], 0, rfl⟩
  have h1 : setupMat [[some (pt 5)], [some (pt 0), some (pt 5)]] = .ok [[some (pt 5), none], [some (pt 0), some (pt 5)]] := by
    simp [setupMat, numObjs, count, setupRows, fillRow, slot, List.range_succ]
  have h2 : setupMat ([[], []] : List (List (Option (Obj 1)))) = .ok [[], []] := by
    simp [setupMat, numObjs, count, setupRows, fillRow]
  have h3 : callOspa lsa [[], []] [[some (pt 5), none], [some (pt 0), some (pt 5)]] 10 1 none false false =
      .ok [(0, 10), (0, 10)] := by
    simp [callOspa, effMethod, ospaGiven, effCut, ospaLoop, ospaStep, count]
  refine ⟨⟨[(0, 10), (0, 10)], .euclidean, 10, 1⟩, ?_, rfl, hp⟩
  · unfold calc1 calcWith
    rw [if_pos (by simp [dimKnown])]
    unfold withMats
    rw [h1]
    simp only [phdView]
    rw [h2]
    simp only
    rw [h3]
    simp [effMethod, effCut]

end Gasur.Props.OspaLocal

namespace Gasur.Props.OspaHist

open Gasur.Ospa Gasur.OspaSession Gasur.Spec

variable {E : Type*} {s : ℕ}

/-- **C150**: the values that `calculate_ospa2` reports lie between zero and the recorded cut-off; there is one for each time step
of the truth, or zeros if the dimension of the states is not known. -/
theorem C150_values2 (lsa : Lsa) (hl : ∀ m n D, IsOptimal D (lsa m n D)) (v : View E s) (e : E) (a : Args s) (wl : ℕ) (r : Res)
    (hc : 0 ≤ a.c) (hr : calc2 lsa v e a wl = .ok r)
    (hpd : r.core = .hellinger → ∀ em tm, v.setup e = .ok em → setupMat a.truth = .ok tm → AllPD em ∧ AllPD tm) :
    r.power = a.p ∧ r.cutoff ≤ a.c ∧
    (∀ x ∈ r.vals, 0 ≤ x.1 ∧ x.1 ≤ r.cutoff ∧ 0 ≤ x.2 ∧ x.2 ≤ r.cutoff) ∧
    (((∃ l ∈ a.truth, ∃ x, some x ∈ l) ∨ v.known e = true) → r.vals.length = a.truth.length) ∧
    (¬ ((∃ l ∈ a.truth, ∃ x, some x ∈ l) ∨ v.known e = true) → r.vals = List.replicate (v.steps e) (0, 0)) := by
  have hdk : dimKnown v e a.truth = true ↔ (∃ l ∈ a.truth, ∃ x, some x ∈ l) ∨ v.known e = true := by
    unfold dimKnown
    simp only [Bool.or_eq_true, List.any_eq_true, Option.isSome_iff_exists]
    constructor
    · rintro (⟨l, h1, o, h2, x, rfl⟩ | h)
      · exact .inl ⟨l, h1, x, h2⟩
      · exact .inr h
    · rintro (⟨l, h1, x, h2⟩ | h)
      · exact .inl ⟨l, h1, _, h2, x, rfl⟩
      · exact .inr h
  unfold calc2 calcWith at hr
  by_cases hd : dimKnown v e a.truth = true
  · rw [if_pos hd] at hr
    split at hr
    · exact nomatch hr
    · next vals hv =>
      obtain rfl := Except.ok.inj hr
      have hb := effCut_bounds (effMethod a.method a.trueCovs (v.saveCovs e)) hc
      unfold withMats at hv
      split at hv
      · exact nomatch hv
      · next tm htm =>
        split at hv
        · exact nomatch hv
        · next em hem =>
          unfold callOspa2 at hv
          dsimp only at hv hpd ⊢
          split at hv
          · exact nomatch hv
          · split at hv
            · exact nomatch hv
            · next out ho =>
              rw [OspaLocal.mapM_ok] at hv
              generalize effMethod a.method a.trueCovs (v.saveCovs e) = m at ho hpd hb ⊢
              have hm : effMethod (some m) true true = m := by cases m <;> rfl
              have hcc : effCut m (effCut m a.c) = effCut m a.c := by unfold effCut; split <;> simp
              obtain ⟨h1, h2⟩ := C42_ospa2_bounded lsa hl em tm (effCut m a.c) hb.1 a.p wl (some m) true true
                (fun h => hpd (by rw [← hm]; exact h) em tm hem htm) out
                (by unfold calculateOspa2; rw [if_neg (by simp), hm, hcc]; exact ho)
              refine ⟨rfl, hb.2, ?_, fun _ => ?_, fun h => absurd (hdk.1 hd) h⟩
              · intro x hx
                obtain ⟨l, rr, g1, g2, g3, g4, g5, _⟩ := h2 (.ok x) (by rw [hv]; exact List.mem_map_of_mem hx)
                obtain rfl := Except.ok.inj g1
                exact ⟨g2, g3, g4, g5⟩
              · rw [hv, List.length_map] at h1
                exact h1.trans (setupRows_length _ _ _ htm)
  · rw [if_neg hd] at hr
    obtain rfl := Except.ok.inj hr
    refine ⟨rfl, le_rfl, ?_, fun h => absurd (hdk.2 h) hd, fun _ => rfl⟩
    intro x hx
    obtain rfl := List.eq_of_mem_replicate hx
    exact ⟨le_rfl, hc, le_rfl, hc⟩

end Gasur.Props.OspaHist
