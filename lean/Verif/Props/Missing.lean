import Mathlib.Data.List.Perm.Subperm
import Verif.ReduceFacts
import Verif.SpecNum
import Verif.Props.Axes
import Verif.Examples

/-!
# Properties C38 (keep_x), C39, C40, C61: filters for missing values
-/

namespace La
open Larry
variable {L : Type _}

/-- A number that is neither NaN nor infinite. -/
def Finite : Val → Prop
  | .bool _ => True
  | .int _ => True
  | .flt (.fin _) => True
  | _ => False

/-- Some cell with label `b` on axis `k` holds a finite number. -/
def HasFinite (y : Larry L) (k : Nat) (b : L) : Prop :=
  ∃ (names : List L) (v : Val), names[k]? = some b ∧ y.Has names v ∧ Finite v

/-- The axes `vacuum(axis)` is to work on: all for None, else those not listed. -/
def Vacuumed (axis : Option (List Int)) (k : Nat) : Prop := ∀ as, axis = some as → (k : Int) ∉ as

theorem isFin_iff {v : Val} : v.isFin = true ↔ Finite v := by
  cases v with
  | flt f => cases f <;> simp [Val.isFin, Flt.isFinite, Finite]
  | _ => simp [Val.isFin, Finite]

/-! ## Slices across all other axes -/

theorem erase_mid {shape : List Nat} {ax : Nat} : (shape.getD ax 0 :: shape.eraseIdx ax) =
    [shape.getD ax 0] ++ shape.eraseIdx ax := rfl

theorem rollFront_row {α : Type _} (f : List α → α)
    (hcat : ∀ ls : List (List α), f (ls.map f) = f ls.flatten) (hone : ∀ a, f [a] = a) (a : NDArray α)
    {ax : Nat} (hax : ax < a.shape.length) (i : Nat) :
    (NDArray.reduceLastN f (a.ndim - 1) (a.rollFront ax)).get [i] =
      f ((allIdx (a.shape.eraseIdx ax)).map (fun r => a.get (r.insertIdx ax i))) ∧
    (NDArray.reduceLastN f (a.ndim - 1) (a.rollFront ax)).shape = [a.shape.getD ax 0] := by
  have := reduceLastN_get f hcat hone (a.ndim - 1) (a.rollFront ax) (s := [a.shape.getD ax 0])
    (t := a.shape.eraseIdx ax) rfl (by
      rw [List.length_eraseIdx_of_lt hax]; rfl) (idx := [i]) rfl
  exact this

/-- The names of the cell at `idx`. -/
def namesOf (label : List (List L)) (idx : List Nat) : List L :=
  (label.zip idx).filterMap (fun p => p.1[p.2]?)

theorem namesOf_at {label : List (List L)} {idx : List Nat} {names : List L} (h : At label idx names) :
    namesOf label idx = names := by
  induction label generalizing idx names with
  | nil => cases idx <;> cases names <;> simp_all [At, namesOf]
  | cons l ls ih =>
    cases idx with
    | nil => simp [At] at h
    | cons i is =>
      cases names with
      | nil => simp [At] at h
      | cons n ns =>
        simp only [At] at h
        simp only [namesOf, List.zip_cons_cons]
        rw [List.filterMap_cons_some (f := fun p : List L × Nat => p.1[p.2]?) (a := (l, i)) h.1]
        exact congrArg (n :: ·) (ih h.2)

/-- The cells with label `b` on axis `ax` are those at the positions `r` with `i` put in at `ax`. -/
theorem slice_cells {y : Larry L} (hv : y.Valid) {ax i : Nat} {l : List L} {b : L}
    (hl : y.label[ax]? = some l) (hi : l[i]? = some b) :
    (∀ r, r ∈ allIdx (y.x.shape.eraseIdx ax) → ∃ names, At y.label (r.insertIdx ax i) names ∧
      names[ax]? = some b) ∧
    (∀ idx names, At y.label idx names → names[ax]? = some b →
      ∃ r ∈ allIdx (y.x.shape.eraseIdx ax), idx = r.insertIdx ax i) := by
  obtain ⟨e1, e2⟩ := eraseIdx_insertIdx_label hl
  have hax := (List.getElem?_eq_some_iff.mp hl).1
  have hsh : y.x.shape.eraseIdx ax = (y.label.eraseIdx ax).map List.length := by
    rw [hv.shape_eq]; simp [List.eraseIdx_map]
  constructor
  · intro r hr
    have hin := mem_allIdx.mp hr
    rw [hsh] at hin
    obtain ⟨rest, hat⟩ := At_of_inB hin
    obtain ⟨h1, h2⟩ := At_length hat
    refine ⟨rest.insertIdx ax b, ?_, getElem?_insertIdx_self' (by omega)⟩
    rw [← e1, At_insertIdx (by omega) h1 h2]
    exact ⟨hat, hi⟩
  · intro idx names hat hb
    obtain ⟨h1, h2⟩ := At_length hat
    obtain ⟨j, r, hj, hj', hj''⟩ := exists_insertIdx (l := idx) (k := ax) (by omega)
    obtain ⟨c, rest, hc, hc', hc''⟩ := exists_insertIdx (l := names) (k := ax) (by omega)
    have hr1 : r.length = (y.label.eraseIdx ax).length := by
      rw [hj', List.length_eraseIdx_of_lt (by omega)]; omega
    have hr2 : rest.length = (y.label.eraseIdx ax).length := by
      rw [hc', List.length_eraseIdx_of_lt (by omega)]; omega
    rw [hj, hc, ← e1, At_insertIdx (by omega) hr1 hr2] at hat
    rw [hb] at hc''
    simp only [Option.some.injEq] at hc''
    subst hc''
    have hji := nodup_getElem?_inj (hv.nodup l (List.mem_of_getElem? hl)) hat.2 hi
    subst hji
    refine ⟨r, ?_, hj⟩
    rw [mem_allIdx, hsh]
    exact At_inB hat.1

/-- The labels at the positions below `l.length` that pass the test `p`. -/
theorem kept_labels (l : List L) (p : Nat → Bool) :
    (((List.range l.length).filter p).filterMap (fun i => l[i]?)).Sublist l ∧
    ∀ b, b ∈ ((List.range l.length).filter p).filterMap (fun i => l[i]?) ↔
      ∃ i : Nat, l[i]? = some b ∧ p i = true := by
  constructor
  · have h : (List.range l.length).filterMap (fun i => l[i]?) = l := by
      refine List.ext_getElem? fun k => ?_
      have h1 := filterMap_getElem? (l := l) (ids := List.range l.length) (fun i hi => List.mem_range.mp hi)
      have h2 : ((List.range l.length).map (fun i => l[i]?))[k]? =
          (((List.range l.length).filterMap (fun i => l[i]?)).map some)[k]? := by rw [h1]
      by_cases hk : k < l.length
      · rw [List.getElem?_map, List.getElem?_map, List.getElem?_range hk, Option.map_some,
          List.getElem?_eq_getElem hk] at h2
        rw [List.getElem?_eq_getElem hk]
        cases h3 : ((List.range l.length).filterMap (fun i => l[i]?))[k]? with
        | none => rw [h3] at h2; simp at h2
        | some a => rw [h3] at h2; simpa using h2.symm
      · have hlen := congrArg List.length h1
        simp only [List.length_map, List.length_range] at hlen
        rw [List.getElem?_eq_none (by omega), List.getElem?_eq_none (by omega)]
    conv => rhs; rw [← h]
    exact List.filter_sublist.filterMap _
  · intro b
    simp only [List.mem_filterMap, List.mem_filter, List.mem_range]
    constructor
    · rintro ⟨i, ⟨_, h1⟩, h2⟩; exact ⟨i, h2, h1⟩
    · rintro ⟨i, h1, h2⟩; exact ⟨i, ⟨(List.getElem?_eq_some_iff.mp h1).1, h2⟩, h1⟩

/-- Both methods end by taking a grid of positions. -/
theorem partOf_kept {y : Larry L} (hv : y.Valid) {g : Nat → Res (List Nat)} {ids : List (List Nat)}
    (h : mapRes g (List.range y.ndim) = .ok ids)
    (hg : ∀ (k : Nat) l is, y.label[k]? = some l → g k = .ok is → ∃ p, is = (List.range l.length).filter p) :
    ids.zipIdx.map (fun p => y.keptLab p.2 p.1) = pickAll y.label ids ∧
    Larry.PartOf ⟨y.x.grid ids, y.dtype, pickAll y.label ids⟩ y (pickAll y.label ids) ∧
    ∀ (k : Nat) l, y.label[k]? = some l → ∃ is, g k = .ok is ∧
      (pickAll y.label ids)[k]? = some (is.filterMap (fun i => l[i]?)) := by
  have hf := mapRes_ok.mp h
  have hlen : ids.length = y.label.length := by
    rw [← hf.length_eq, List.length_range, hv.label_length]
  have hgk : ∀ (k : Nat) is, ids[k]? = some is → g k = .ok is := by
    intro k is hk
    obtain ⟨hk1, hk2⟩ := List.getElem?_eq_some_iff.mp hk
    have := (List.forall₂_iff_get.mp hf).2 k (by rw [List.length_range, ← hv.label_length]; omega) hk1
    simpa [hk2] using this
  have hr : List.Forall₂ (fun l is => ∀ i ∈ is, i < l.length) y.label ids := by
    rw [List.forall₂_iff_get]
    refine ⟨hlen.symm, fun k h1 h2 => ?_⟩
    obtain ⟨p, hp⟩ := hg k _ _ (List.getElem?_eq_getElem h1) (hgk k _ (List.getElem?_eq_getElem h2))
    intro i hi
    simp only [List.get_eq_getElem] at hi ⊢
    rw [hp] at hi
    exact List.mem_range.mp (List.mem_filter.mp hi).1
  refine ⟨?_, partOf_grid hv hr ?_, ?_⟩
  · refine List.ext_getElem? fun k => ?_
    simp only [pickAll, List.getElem?_map, List.getElem?_zipIdx, List.getElem?_zipWith, Larry.keptLab]
    by_cases hk : k < ids.length
    · have hk' : k < y.label.length := by omega
      simp [List.getElem?_eq_getElem hk, List.getElem?_eq_getElem hk', List.getD]
    · rw [List.getElem?_eq_none (by omega), List.getElem?_eq_none (by omega)]
      rfl
  · intro is his
    obtain ⟨k, hk⟩ := List.mem_iff_getElem?.mp his
    have hk1 := (List.getElem?_eq_some_iff.mp hk).1
    obtain ⟨p, rfl⟩ := hg k _ is (List.getElem?_eq_getElem (by omega)) (hgk k is hk)
    exact List.nodup_range.filter _
  · intro k l hl
    have hk := (List.getElem?_eq_some_iff.mp hl).1
    have hk' : k < ids.length := by omega
    refine ⟨ids[k], hgk k _ (List.getElem?_eq_getElem hk'), ?_⟩
    simp [pickAll, List.getElem?_zipWith, hl, List.getElem?_eq_getElem hk']

/-! ## C39: vacuum -/

theorem shape_at {y : Larry L} (hv : y.Valid) {k : Nat} {l : List L} (hl : y.label[k]? = some l) :
    y.shape.getD k 0 = l.length ∧ k < y.x.shape.length := by
  have hk := (List.getElem?_eq_some_iff.mp hl).1
  refine ⟨?_, by rw [hv.shape_eq]; simpa using hk⟩
  have : y.shape = y.label.map List.length := hv.shape_eq
  rw [this]; simp [List.getD, hl]

theorem vacuumAxes_mem {ndim k : Nat} (hk : k < ndim) (axis : Option (List Int)) :
    k ∈ vacuumAxes ndim axis ↔ Vacuumed axis k := by
  cases axis with
  | none => simp [vacuumAxes, Vacuumed, hk]
  | some as => simp [vacuumAxes, Vacuumed, hk]

theorem vacuumAxis_eq {y : Larry L} (hv : y.Valid) (axes : List Nat) {k : Nat} {l : List L}
    (hd : k ∈ axes → y.dtype ≠ .str ∧ y.dtype ≠ .object) (hl : y.label[k]? = some l) :
    ∃ p : Nat → Bool, y.vacuumAxis axes k = .ok ((List.range l.length).filter p) ∧
      (k ∉ axes → p = fun _ => true) ∧
      (k ∈ axes → ∀ (i : Nat) b, l[i]? = some b → (p i = true ↔ HasFinite y k b)) := by
  obtain ⟨hsh, hklt⟩ := shape_at hv hl
  by_cases hk : k ∈ axes
  · replace hd := hd hk
    have hfin : npIsfinite y.x y.dtype = .ok (y.x.map Val.isFin) := by
      cases h : y.dtype <;> simp_all [npIsfinite]
    refine ⟨fun i => (NDArray.reduceLastN (fun l => l.any id) (y.ndim - 1)
      ((y.x.map Val.isFin).rollFront k)).get [i], ?_, fun h => absurd hk h, fun _ i b hi => ?_⟩
    · simp only [vacuumAxis, hk, not_true_eq_false, if_false, hfin, NDArray.nonzero1]
      have := (rollFront_row (fun l => l.any id) any_flatten (by simp) (y.x.map Val.isFin) hklt 0).2
      have e : (y.x.map Val.isFin).ndim = y.ndim := rfl
      rw [e] at this
      rw [this]
      have : (y.x.map Val.isFin).shape = y.shape := rfl
      rw [this, hsh]
      rfl
    · have := (rollFront_row (fun l => l.any id) any_flatten (by simp) (y.x.map Val.isFin) hklt i).1
      have e : (y.x.map Val.isFin).ndim = y.ndim := rfl
      rw [e] at this
      simp only [this]
      obtain ⟨s1, s2⟩ := slice_cells hv hl hi
      rw [List.any_map, List.any_eq_true]
      constructor
      · rintro ⟨r, hr, hfin'⟩
        obtain ⟨names, hat, hb⟩ := s1 r hr
        exact ⟨names, _, hb, ⟨_, hat, rfl⟩, isFin_iff.mp hfin'⟩
      · rintro ⟨names, v, hb, ⟨idx, hat, rfl⟩, hfin'⟩
        obtain ⟨r, hr, rfl⟩ := s2 idx names hat hb
        exact ⟨r, hr, isFin_iff.mpr hfin'⟩
  · refine ⟨fun _ => true, ?_, fun _ => rfl, fun h => absurd h hk⟩
    simp only [vacuumAxis, hk, not_false_eq_true, if_true, hsh]
    simp

/-- What `vacuum` leaves of `y`. -/
structure VacuumOf (y : Larry L) (axis : Option (List Int)) (z : Larry L) : Prop where
  part : z.PartOf y z.label
  naxes : z.label.length = y.label.length
  vacuumed : ∀ (k : Nat) l l', y.label[k]? = some l → z.label[k]? = some l' → Vacuumed axis k →
    l'.Sublist l ∧ ∀ b, b ∈ l' ↔ b ∈ l ∧ HasFinite y k b
  others : ∀ (k : Nat) l l', y.label[k]? = some l → z.label[k]? = some l' → ¬ Vacuumed axis k → l' = l

theorem vacuum_spec {y : Larry L} (hv : y.Valid) (axis : Option (List Int))
    (hd : ∀ k < y.ndim, Vacuumed axis k → y.dtype ≠ .str ∧ y.dtype ≠ .object) :
    ∃ z, y.vacuum axis = .ok z ∧ VacuumOf y axis z := by
  have hax : ∀ (k : Nat), k < y.ndim → ∃ l, y.label[k]? = some l := fun k hk =>
    ⟨_, List.getElem?_eq_getElem (by rw [hv.label_length]; exact hk)⟩
  have hd' : ∀ (k : Nat) l, y.label[k]? = some l → k ∈ vacuumAxes y.ndim axis → y.dtype ≠ .str ∧ y.dtype ≠ .object := by
    intro k l hl hk
    have hlt : k < y.ndim := by rw [← hv.label_length]; exact (List.getElem?_eq_some_iff.mp hl).1
    exact hd k hlt ((vacuumAxes_mem hlt axis).mp hk)
  obtain ⟨ids, hids⟩ : ∃ ids, mapRes (y.vacuumAxis (vacuumAxes y.ndim axis)) (List.range y.ndim) = .ok ids := by
    cases h : mapRes (y.vacuumAxis (vacuumAxes y.ndim axis)) (List.range y.ndim) with
    | ok ids => exact ⟨ids, rfl⟩
    | error e =>
      obtain ⟨k, hk, he⟩ := mapRes_error h
      obtain ⟨l, hl⟩ := hax k (List.mem_range.mp hk)
      obtain ⟨p, hp, _⟩ := vacuumAxis_eq hv (vacuumAxes y.ndim axis) (hd' k l hl) hl
      rw [hp] at he; simp at he
  obtain ⟨h1, h2, h3⟩ := partOf_kept hv hids (fun k l is hl his => by
    obtain ⟨p, hp, _⟩ := vacuumAxis_eq hv (vacuumAxes y.ndim axis) (hd' k l hl) hl
    rw [hp] at his
    exact ⟨p, by simpa using his.symm⟩)
  have hlabs : ∀ (k : Nat) l l', y.label[k]? = some l → (pickAll y.label ids)[k]? = some l' →
      ∃ p : Nat → Bool, l' = ((List.range l.length).filter p).filterMap (fun i => l[i]?) ∧
      (k ∉ vacuumAxes y.ndim axis → p = fun _ => true) ∧
      (k ∈ vacuumAxes y.ndim axis → ∀ (i : Nat) b, l[i]? = some b → (p i = true ↔ HasFinite y k b)) := by
    intro k l l' hl hl'
    obtain ⟨is, h4, h5⟩ := h3 k l hl
    obtain ⟨p, hp, h6, h7⟩ := vacuumAxis_eq hv (vacuumAxes y.ndim axis) (hd' k l hl) hl
    rw [hp] at h4
    rw [hl'] at h5
    simp only [Except.ok.injEq, Option.some.injEq] at h4 h5
    exact ⟨p, by rw [h5, h4], h6, h7⟩
  have hknd : ∀ (k : Nat) l, y.label[k]? = some l → k < y.ndim := by
    intro k l hl; rw [← hv.label_length]; exact (List.getElem?_eq_some_iff.mp hl).1
  refine ⟨_, ?_, ⟨h2, ?_, ?_, ?_⟩⟩
  · simp only [vacuum, hids, h1]
  · have := (mapRes_ok.mp hids).length_eq
    simp only [List.length_range] at this
    have := hv.label_length
    simp only [pickAll, List.length_zipWith]; omega
  · intro k l l' hl hl' hvac
    obtain ⟨p, rfl, h6, h7⟩ := hlabs k l l' hl hl'
    have h7' := h7 ((vacuumAxes_mem (hknd k l hl) axis).mpr hvac)
    obtain ⟨q1, q2⟩ := kept_labels l p
    refine ⟨q1, fun b => ?_⟩
    rw [q2]
    constructor
    · rintro ⟨i, hi, hp⟩; exact ⟨List.mem_of_getElem? hi, (h7' i b hi).mp hp⟩
    · rintro ⟨hb, hf⟩
      obtain ⟨i, hi⟩ := List.mem_iff_getElem?.mp hb
      exact ⟨i, hi, (h7' i b hi).mpr hf⟩
  · intro k l l' hl hl' hvac
    obtain ⟨p, rfl, h6, h7⟩ := hlabs k l l' hl hl'
    rw [h6 (fun h => hvac ((vacuumAxes_mem (hknd k l hl) axis).mp h))]
    have := (kept_labels l (fun _ => true))
    exact this.1.eq_of_length_le (by
      have h8 := filterMap_getElem? (l := l) (ids := List.range l.length) (fun i hi => List.mem_range.mp hi)
      have := congrArg List.length h8
      simp only [List.length_map, List.length_range] at this
      simp [← this])

/-- C39. On a numeric larry, `vacuum` keeps on each axis it works on exactly the labels with a finite
value somewhere in their slice, in their order; other axes keep all labels; every remaining cell
keeps its value. -/
theorem C39_vacuum {y : Larry L} (hv : y.Valid) (hd : y.dtype ≠ .str ∧ y.dtype ≠ .object)
    (axis : Option (List Int)) : ∃ z, y.vacuum axis = .ok z ∧ VacuumOf y axis z :=
  vacuum_spec hv axis fun _ _ _ => hd

theorem VacuumOf.labels_of_finite {y z : Larry L} {axis : Option (List Int)} (h : VacuumOf y axis z)
    {names : List L} {v : Val} (hy : y.Has names v) (hf : Finite v) : Named z.label names := by
  have hN := Named_iff.mp (Named_of_Holds hy)
  rw [Named_iff]
  refine ⟨hN.1.trans h.naxes.symm, fun k l' n hl' hn => ?_⟩
  have hk : k < y.label.length := by rw [← h.naxes]; exact (List.getElem?_eq_some_iff.mp hl').1
  have hl := List.getElem?_eq_getElem hk
  have hnl := hN.2 k _ n hl hn
  by_cases hvac : Vacuumed axis k
  · exact ((h.vacuumed k _ l' hl hl' hvac).2 n).mpr ⟨hnl, names, v, hn, hy, hf⟩
  · rw [h.others k _ l' hl hl' hvac]; exact hnl

/-- C39. Vacuuming twice is vacuuming once. -/
theorem C39_vacuum_idempotent {y : Larry L} (hv : y.Valid) (hd : y.dtype ≠ .str ∧ y.dtype ≠ .object)
    (axis : Option (List Int)) :
    ∃ z z', y.vacuum axis = .ok z ∧ z.vacuum axis = .ok z' ∧ z'.Same z := by
  obtain ⟨z, h1, h2⟩ := C39_vacuum hv hd axis
  have hzd : z.dtype = y.dtype := h2.part.dtype_eq
  obtain ⟨z', h3, h4⟩ := C39_vacuum h2.part.valid (by rw [hzd]; exact hd) axis
  refine ⟨z, z', h1, h3, ?_⟩
  have hlab : z'.label = z.label := by
    refine List.ext_getElem? fun k => ?_
    by_cases hk : k < z.label.length
    · have hk' : k < z'.label.length := by rw [h4.naxes]; exact hk
      have hky : k < y.label.length := by rw [← h2.naxes]; exact hk
      have hz := List.getElem?_eq_getElem hk
      have hz' := List.getElem?_eq_getElem hk'
      have hy := List.getElem?_eq_getElem hky
      rw [hz, hz']
      congr 1
      by_cases hvac : Vacuumed axis k
      · obtain ⟨s1, s2⟩ := h4.vacuumed k _ _ hz hz' hvac
        obtain ⟨t1, t2⟩ := h2.vacuumed k _ _ hy hz hvac
        refine s1.antisymm ?_
        have hall : ∀ b ∈ z.label[k], b ∈ z'.label[k] := by
          intro b hb
          rw [s2]
          refine ⟨hb, ?_⟩
          obtain ⟨_, names, v, hn, hyv, hf⟩ := (t2 b).mp hb
          exact ⟨names, v, hn, (h2.part.has names v).mpr ⟨h2.labels_of_finite hyv hf, hyv⟩, hf⟩
        have hzl : z.label[k].Nodup := h2.part.valid.nodup _ (List.getElem_mem hk)
        have := s1.eq_of_length_le (List.Nodup.subperm hzl hall).length_le
        rw [this]
      · exact h4.others k _ _ hz hz' hvac
    · rw [List.getElem?_eq_none (by rw [h4.naxes]; omega), List.getElem?_eq_none (by omega)]
  refine h4.part.valid.same_of_has h2.part.valid hlab h4.part.dtype_eq (fun names v h => ?_)
  exact ((h4.part.has names v).mp h).2

/-- C39: a str or object larry raises TypeError as soon as an axis is to be vacuumed. -/
theorem C39_vacuum_errors {y : Larry L} (hd : y.dtype = .str ∨ y.dtype = .object)
    (axis : Option (List Int)) (k : Nat) (hk : k < y.ndim) (hvac : Vacuumed axis k) :
    y.vacuum axis = .error .typeError := by
  have hfin : npIsfinite y.x y.dtype = .error .typeError := by
    rcases hd with h | h <;> rw [h] <;> rfl
  have : ∀ (ks : List Nat), k ∈ ks →
      mapRes (y.vacuumAxis (vacuumAxes y.ndim axis)) ks = .error .typeError := by
    intro ks hmem
    have h1 : y.vacuumAxis (vacuumAxes y.ndim axis) k = .error .typeError := by
      simp [vacuumAxis, (vacuumAxes_mem hk axis).mpr hvac, hfin]
    obtain ⟨e, he⟩ := mapRes_error_of hmem h1
    obtain ⟨k', _, hk'⟩ := mapRes_error he
    rw [he]
    unfold vacuumAxis at hk'
    split at hk'
    · simp at hk'
    · rw [hfin] at hk'; simpa using hk'.symm
  simp only [vacuum, this _ (List.mem_range.mpr hk)]

/-- C39: when every axis is to be left alone, the result is equal to the larry, whatever its dtype. -/
theorem C39_vacuum_nothing {y : Larry L} (hv : y.Valid) (axis : Option (List Int))
    (h : ∀ k < y.ndim, ¬ Vacuumed axis k) : ∃ z, y.vacuum axis = .ok z ∧ z.Same y := by
  obtain ⟨z, h1, h2⟩ := vacuum_spec hv axis fun k hk hv' => absurd hv' (h k hk)
  have hlab : z.label = y.label := by
    refine List.ext_getElem? fun k => ?_
    by_cases hk : k < y.label.length
    · have hk' : k < z.label.length := by rw [h2.naxes]; exact hk
      rw [List.getElem?_eq_getElem hk, List.getElem?_eq_getElem hk']
      congr 1
      exact h2.others k _ _ (List.getElem?_eq_getElem hk) (List.getElem?_eq_getElem hk')
        (h k (by rw [← hv.label_length]; exact hk))
    · rw [List.getElem?_eq_none (by rw [h2.naxes]; omega), List.getElem?_eq_none (by omega)]
  have hp := h2.part
  rw [hlab] at hp
  exact ⟨z, h1, hp.same (.refl hv)⟩

example : ∀ k < exA.ndim, ¬ Vacuumed (some [0, 1]) k := by
  intro k hk h
  have hk' : k < 2 := hk
  have := h _ rfl
  simp at this
  omega

example : exA.Valid ∧ exA.dtype ≠ .str ∧ exA.dtype ≠ .object ∧ Vacuumed (some [0]) 1 ∧ ¬ Vacuumed (some [0]) 0 ∧
    HasFinite exA 1 1 :=
  ⟨exA_valid, by decide, by decide, by simp [Vacuumed], by simp [Vacuumed],
    [10, 1], fl 2, rfl, ⟨[0, 1], ⟨rfl, rfl, trivial⟩, rfl⟩, trivial⟩

/-! ## C40: cut_missing -/

/-- The number of label tuples with property `P` is `c`. -/
def CountOf (P : List L → Prop) (c : Nat) : Prop :=
  ∃ cells : List (List L), cells.Nodup ∧ (∀ names, names ∈ cells ↔ P names) ∧ cells.length = c

theorem CountOf.unique {P : List L → Prop} {c d : Nat} (h : CountOf P c) (h' : CountOf P d) : c = d := by
  obtain ⟨l, n, m, rfl⟩ := h
  obtain ⟨l', n', m', rfl⟩ := h'
  exact ((List.perm_ext_iff_of_nodup n n').mpr (fun a => (m a).trans (m' a).symm)).length_eq

/-- The cells with label `b` on axis `k`. -/
def InSlice (y : Larry L) (k : Nat) (b : L) (names : List L) : Prop :=
  Named y.label names ∧ names[k]? = some b

/-- The finite cells with label `b` on axis `k`. -/
def InSliceFin (y : Larry L) (k : Nat) (b : L) (names : List L) : Prop :=
  InSlice y k b names ∧ ∃ v, y.Has names v ∧ Finite v

/-- The slice of label `b` has more finite values than `1 - fraction` of its size. -/
def Enough (y : Larry L) (fraction : ℚ) (k : Nat) (b : L) : Prop :=
  ∃ c n : Nat, CountOf (InSliceFin y k b) c ∧ CountOf (InSlice y k b) n ∧ (1 - fraction) * n < c

theorem count_cells {y : Larry L} (hv : y.Valid) {ax i : Nat} {l : List L} {b : L}
    (hl : y.label[ax]? = some l) (hi : l[i]? = some b) (p : List Nat → Bool) (P : List L → Prop)
    (hP : ∀ idx names, At y.label idx names → names[ax]? = some b → (P names ↔ p idx = true))
    (hP' : ∀ names, P names → Named y.label names ∧ names[ax]? = some b) :
    CountOf P (((allIdx (y.x.shape.eraseIdx ax)).filter (fun r => p (r.insertIdx ax i))).length) := by
  obtain ⟨s1, s2⟩ := slice_cells hv hl hi
  refine ⟨((allIdx (y.x.shape.eraseIdx ax)).filter (fun r => p (r.insertIdx ax i))).map
    (fun r => namesOf y.label (r.insertIdx ax i)), ?_, ?_, by simp⟩
  · refine List.Nodup.map_on ?_ ((nodup_allIdx _).filter _)
    intro r hr r' hr' heq
    obtain ⟨n1, a1, _⟩ := s1 r (List.mem_filter.mp hr).1
    obtain ⟨n2, a2, _⟩ := s1 r' (List.mem_filter.mp hr').1
    rw [namesOf_at a1, namesOf_at a2] at heq
    subst heq
    have := At_unique hv.nodup a1 a2
    have hlr := InB_length (mem_allIdx.mp (List.mem_filter.mp hr).1)
    have hlr' := InB_length (mem_allIdx.mp (List.mem_filter.mp hr').1)
    have hax := (shape_at hv hl).2
    rw [List.length_eraseIdx_of_lt hax] at hlr hlr'
    have := congrArg (fun t => List.eraseIdx t ax) this
    simpa [List.eraseIdx_insertIdx_self] using this
  · intro names
    simp only [List.mem_map, List.mem_filter]
    constructor
    · rintro ⟨r, ⟨hr, hp⟩, rfl⟩
      obtain ⟨n1, a1, hb⟩ := s1 r hr
      rw [namesOf_at a1]
      exact (hP _ _ a1 hb).mpr hp
    · intro h
      obtain ⟨hN, hb⟩ := hP' names h
      obtain ⟨idx, hat⟩ := At_of_Named hN
      obtain ⟨r, hr, rfl⟩ := s2 idx names hat hb
      exact ⟨r, ⟨hr, (hP _ _ hat hb).mp h⟩, namesOf_at hat⟩

theorem sum_ite_eq (l : List (List Nat)) (p : List Nat → Bool) :
    (l.map (fun r => if p r then (1 : ℚ) else 0)).sum = ((l.filter p).length : ℚ) := by
  induction l with
  | nil => simp
  | cons a l ih =>
    rw [List.map_cons, List.sum_cons, ih, List.filter_cons]
    by_cases h : p a
    · simp [h, add_comm]
    · simp [h]

theorem cutAxis_eq {y : Larry L} (hv : y.Valid) (fraction : ℚ) (axes : List Nat) {k : Nat} {l : List L}
    (hd : k ∉ axes → y.dtype ≠ .str ∧ y.dtype ≠ .object) (hl : y.label[k]? = some l) :
    ∃ p : Nat → Bool, y.cutAxis fraction axes k = .ok ((List.range l.length).filter p) ∧
      (k ∈ axes → p = fun _ => true) ∧
      (k ∉ axes → ∀ (i : Nat) b, l[i]? = some b → (p i = true ↔ Enough y fraction k b)) := by
  obtain ⟨hsh, hklt⟩ := shape_at hv hl
  by_cases hk : k ∈ axes
  · refine ⟨fun _ => true, ?_, fun _ => rfl, fun h => absurd hk h⟩
    simp only [cutAxis, hk, if_true, hsh]
    simp
  · replace hd := hd hk
    have hfin : npIsfinite y.x y.dtype = .ok (y.x.map Val.isFin) := by
      cases h : y.dtype <;> simp_all [npIsfinite]
    let a : NDArray ℚ := (y.x.map Val.isFin).map (fun t => if t then (1 : ℚ) else 0)
    let c : NDArray ℚ := NDArray.full a.shape 1
    have hc : NDArray.full (a.rollFront k).shape (1 : ℚ) = c.rollFront k := by
      simp only [c, NDArray.full, NDArray.rollFront]
    have ra := fun i => rollFront_row List.sum sum_flatten' (by simp) a hklt i
    have rc := fun i => rollFront_row List.sum sum_flatten' (by simp) c hklt i
    have ea : a.ndim = y.ndim := rfl
    have ec : c.ndim = y.ndim := rfl
    rw [ea] at ra
    rw [ec] at rc
    refine ⟨fun i => decide ((NDArray.reduceLastN List.sum (y.ndim - 1) (a.rollFront k)).get [i] >
      (1 - fraction) * (NDArray.reduceLastN List.sum (y.ndim - 1) (c.rollFront k)).get [i]), ?_,
      fun h => absurd h hk, fun _ i b hi => ?_⟩
    · simp only [cutAxis, hk, if_false, hfin, NDArray.nonzero1]
      change Except.ok (List.filter (fun i => decide ((NDArray.reduceLastN List.sum (y.ndim - 1) (a.rollFront k)).get [i] >
        (1 - fraction) * (NDArray.reduceLastN List.sum (y.ndim - 1)
          (NDArray.full (a.rollFront k).shape (1 : ℚ))).get [i]))
        (List.range ((NDArray.reduceLastN List.sum (y.ndim - 1) (a.rollFront k)).shape.getD 0 0))) = _
      rw [hc, (ra 0).2]
      have : a.shape = y.shape := rfl
      rw [this, hsh]
      rfl
    · simp only [(ra i).1, (rc i).1, decide_eq_true_eq]
      have h1 : (allIdx (y.x.shape.eraseIdx k)).map (fun r => a.get (r.insertIdx k i)) =
          (allIdx (y.x.shape.eraseIdx k)).map (fun r => if (y.x.get (r.insertIdx k i)).isFin then (1 : ℚ) else 0) := rfl
      have h2 : (allIdx (y.x.shape.eraseIdx k)).map (fun r => c.get (r.insertIdx k i)) =
          (allIdx (y.x.shape.eraseIdx k)).map (fun r => if (fun _ => true) r then (1 : ℚ) else 0) := rfl
      have e1 := sum_ite_eq (allIdx (y.x.shape.eraseIdx k)) (fun r => (y.x.get (r.insertIdx k i)).isFin)
      have e2 := sum_ite_eq (allIdx (y.x.shape.eraseIdx k)) (fun _ => true)
      have sa : a.shape = y.x.shape := rfl
      have sc : c.shape = y.x.shape := rfl
      rw [sa, sc, h1, h2, e1, e2]
      have c1 := count_cells hv hl hi (fun idx => (y.x.get idx).isFin) (InSliceFin y k b)
        (fun idx names hat hb => by
          constructor
          · rintro ⟨_, v, ⟨idx', hat', rfl⟩, hf⟩
            rw [At_unique hv.nodup hat hat']
            exact isFin_iff.mpr hf
          · intro h
            exact ⟨⟨Named_of_At hat, hb⟩, _, ⟨idx, hat, rfl⟩, isFin_iff.mp h⟩)
        (fun names h => h.1)
      have c2 := count_cells hv hl hi (fun _ => true) (InSlice y k b)
        (fun idx names hat hb => by simp [InSlice, Named_of_At hat, hb])
        (fun names h => h)
      constructor
      · intro h; exact ⟨_, _, c1, c2, h⟩
      · rintro ⟨m, n, hm, hn, h⟩
        rw [hm.unique c1, hn.unique c2] at h
        exact h

/-- The labels `cut_missing` is to leave: `isCut` tells the axes it works on. -/
structure CutOf (y : Larry L) (fraction : ℚ) (isCut : Nat → Prop) (label' : List (List L)) : Prop where
  naxes : label'.length = y.label.length
  cut : ∀ (k : Nat) l l', y.label[k]? = some l → label'[k]? = some l' → isCut k →
    l'.Sublist l ∧ ∀ b, b ∈ l' ↔ b ∈ l ∧ Enough y fraction k b
  others : ∀ (k : Nat) l l', y.label[k]? = some l → label'[k]? = some l' → ¬ isCut k → l' = l

theorem size_pos_iff {shape : List Nat} : shape.prod = 0 ↔ 0 ∈ shape := by
  induction shape with
  | nil => simp
  | cons a l ih => simp [ih, eq_comm]

theorem cut_main {y : Larry L} (hv : y.Valid) (fraction : ℚ) (axis : Option Int) {axes : List Nat}
    (haxes : cutAxes y.ndim axis = .ok axes)
    (hd : ∀ k < y.ndim, k ∉ axes → y.dtype ≠ .str ∧ y.dtype ≠ .object) :
    ∃ label', CutOf y fraction (fun k => k ∉ axes) label' ∧
      (([] ∈ label' ∧ y.cutMissing fraction axis = .ok emptyLarry) ∨
        ([] ∉ label' ∧ ∃ z, y.cutMissing fraction axis = .ok z ∧ z.label = label' ∧ z.PartOf y label')) := by
  have hax : ∀ (k : Nat), k < y.ndim → ∃ l, y.label[k]? = some l := fun k hk =>
    ⟨_, List.getElem?_eq_getElem (by rw [hv.label_length]; exact hk)⟩
  have hd' : ∀ (k : Nat) l, y.label[k]? = some l → k ∉ axes → y.dtype ≠ .str ∧ y.dtype ≠ .object := by
    intro k l hl hk
    exact hd k (by rw [← hv.label_length]; exact (List.getElem?_eq_some_iff.mp hl).1) hk
  obtain ⟨ids, hids⟩ : ∃ ids, mapRes (y.cutAxis fraction axes) (List.range y.ndim) = .ok ids := by
    cases h : mapRes (y.cutAxis fraction axes) (List.range y.ndim) with
    | ok ids => exact ⟨ids, rfl⟩
    | error e =>
      obtain ⟨k, hk, he⟩ := mapRes_error h
      obtain ⟨l, hl⟩ := hax k (List.mem_range.mp hk)
      obtain ⟨p, hp, _⟩ := cutAxis_eq hv fraction axes (hd' k l hl) hl
      rw [hp] at he; simp at he
  obtain ⟨h1, h2, h3⟩ := partOf_kept hv hids (fun k l is hl his => by
    obtain ⟨p, hp, _⟩ := cutAxis_eq hv fraction axes (hd' k l hl) hl
    rw [hp] at his
    exact ⟨p, by simpa using his.symm⟩)
  have hlabs : ∀ (k : Nat) l l', y.label[k]? = some l → (pickAll y.label ids)[k]? = some l' →
      ∃ p : Nat → Bool, l' = ((List.range l.length).filter p).filterMap (fun i => l[i]?) ∧
      (k ∈ axes → p = fun _ => true) ∧
      (k ∉ axes → ∀ (i : Nat) b, l[i]? = some b → (p i = true ↔ Enough y fraction k b)) := by
    intro k l l' hl hl'
    obtain ⟨is, h4, h5⟩ := h3 k l hl
    obtain ⟨p, hp, h6, h7⟩ := cutAxis_eq hv fraction axes (hd' k l hl) hl
    rw [hp] at h4
    rw [hl'] at h5
    simp only [Except.ok.injEq, Option.some.injEq] at h4 h5
    exact ⟨p, by rw [h5, h4], h6, h7⟩
  refine ⟨pickAll y.label ids, ⟨?_, ?_, ?_⟩, ?_⟩
  · have := (mapRes_ok.mp hids).length_eq
    simp only [List.length_range] at this
    have := hv.label_length
    simp only [pickAll, List.length_zipWith]; omega
  · intro k l l' hl hl' hvac
    obtain ⟨p, rfl, h6, h7⟩ := hlabs k l l' hl hl'
    have h7' := h7 hvac
    obtain ⟨q1, q2⟩ := kept_labels l p
    refine ⟨q1, fun b => ?_⟩
    rw [q2]
    constructor
    · rintro ⟨i, hi, hp⟩; exact ⟨List.mem_of_getElem? hi, (h7' i b hi).mp hp⟩
    · rintro ⟨hb, hf⟩
      obtain ⟨i, hi⟩ := List.mem_iff_getElem?.mp hb
      exact ⟨i, hi, (h7' i b hi).mpr hf⟩
  · intro k l l' hl hl' hvac
    obtain ⟨p, rfl, h6, h7⟩ := hlabs k l l' hl hl'
    rw [h6 (not_not.mp hvac)]
    have := (kept_labels l (fun _ => true))
    exact this.1.eq_of_length_le (by
      have h8 := filterMap_getElem? (l := l) (ids := List.range l.length) (fun i hi => List.mem_range.mp hi)
      have := congrArg List.length h8
      simp only [List.length_map, List.length_range] at this
      simp [← this])
  · have hs : (y.x.grid ids).shape = (pickAll y.label ids).map List.length := h2.valid.shape_eq
    have hsz : (y.x.grid ids).size = 0 ↔ [] ∈ pickAll y.label ids := by
      have : (y.x.grid ids).size = (y.x.grid ids).shape.prod := rfl
      rw [this, size_pos_iff, hs]
      simp
    by_cases he : (y.x.grid ids).size = 0
    · exact .inl ⟨hsz.mp he, by simp only [cutMissing, haxes, hids, he, if_true]⟩
    · exact .inr ⟨fun h => he (hsz.mpr h), _,
        by simp only [cutMissing, haxes, hids, he, if_false, h1], rfl, h2⟩

/-- C40. With an axis given, `cut_missing` keeps on every other axis exactly the labels whose slice has
more than `(1 - fraction) * size` finite values, and all labels of the given axis; values keep
their labels.  When an axis ends up without labels the result is the empty 1d larry. -/
theorem C40_cut_missing {y : Larry L} (hv : y.Valid) (hd : y.dtype ≠ .str ∧ y.dtype ≠ .object)
    (fraction : ℚ) (a : Int) {ax : Nat} (ha : pyIdx y.ndim a = some ax) :
    ∃ label', CutOf y fraction (fun k => k ≠ ax) label' ∧
      (([] ∈ label' ∧ y.cutMissing fraction (some a) = .ok emptyLarry) ∨
        ([] ∉ label' ∧ ∃ z, y.cutMissing fraction (some a) = .ok z ∧ z.label = label' ∧ z.PartOf y label')) := by
  have := cut_main hv fraction (some a) (axes := [ax]) (by simp [cutAxes, ha]) fun _ _ _ => hd
  simpa using this

/-- C40. With axis None (the default) nothing is cut. -/
theorem C40_cut_nothing {y : Larry L} (hv : y.Valid) (fraction : ℚ) (hne : [] ∉ y.label) :
    ∃ z, y.cutMissing fraction none = .ok z ∧ z.Same y := by
  obtain ⟨label', hc, h⟩ := cut_main hv fraction none (axes := List.range y.ndim) rfl
    fun k hk hk' => absurd (List.mem_range.mpr hk) hk'
  have hlab : label' = y.label := by
    refine List.ext_getElem? fun k => ?_
    by_cases hk : k < y.label.length
    · have hk' : k < label'.length := by rw [hc.naxes]; exact hk
      rw [List.getElem?_eq_getElem hk, List.getElem?_eq_getElem hk']
      congr 1
      refine hc.others k _ _ (List.getElem?_eq_getElem hk) (List.getElem?_eq_getElem hk') ?_
      rw [not_not, List.mem_range, ← hv.label_length]; exact hk
    · rw [List.getElem?_eq_none (by rw [hc.naxes]; omega), List.getElem?_eq_none (by omega)]
  subst hlab
  rcases h with ⟨h, _⟩ | ⟨_, z, hz, hzl, hp⟩
  · exact absurd h hne
  · exact ⟨z, hz, hp.same (.refl hv)⟩

/-- C40: a bad axis raises IndexError. -/
theorem C40_cut_errors {y : Larry L} (fraction : ℚ) (a : Int) (ha : pyIdx y.ndim a = none) :
    y.cutMissing fraction (some a) = .error .indexError := by
  simp [cutMissing, cutAxes, ha]

/-- C40: a str or object larry with an axis to cut raises TypeError. -/
theorem C40_cut_dtype {y : Larry L} (hd : y.dtype = .str ∨ y.dtype = .object) (fraction : ℚ) (a : Int) {ax : Nat}
    (ha : pyIdx y.ndim a = some ax) (h2 : 2 ≤ y.ndim) : y.cutMissing fraction (some a) = .error .typeError := by
  have hfin : npIsfinite y.x y.dtype = .error .typeError := by
    rcases hd with h | h <;> rw [h] <;> rfl
  obtain ⟨k, hk, hka⟩ : ∃ k, k < y.ndim ∧ k ≠ ax := by
    by_cases h : ax = 0
    · exact ⟨1, by omega, by omega⟩
    · exact ⟨0, by omega, by omega⟩
  have h1 : y.cutAxis fraction [ax] k = .error .typeError := by simp [cutAxis, hka, hfin]
  obtain ⟨e, he⟩ := mapRes_error_of (List.mem_range.mpr hk) h1
  obtain ⟨k', _, hk'⟩ := mapRes_error he
  have : e = .typeError := by
    unfold cutAxis at hk'
    split at hk'
    · simp at hk'
    · rw [hfin] at hk'; simpa using hk'.symm
  subst this
  simp [cutMissing, cutAxes, ha, he]

example : exA.Valid ∧ exA.dtype ≠ .str ∧ exA.dtype ≠ .object ∧ pyIdx exA.ndim (-1) = some 1 ∧ [] ∉ exA.label :=
  ⟨exA_valid, by decide, by decide, rfl, by decide⟩

/-! ## C38: keep_x -/

/-- The comparison `a op b`. -/
def Passes : CmpOp → Flt → Flt → Prop
  | .eq, a, b => EqX a b
  | .ne, a, b => ¬ EqX a b
  | .lt, a, b => LtX a b
  | .gt, a, b => LtX b a
  | .le, a, b => LtX a b ∨ EqX a b
  | .ge, a, b => LtX b a ∨ EqX b a
  | .unknown, _, _ => False

theorem cmp_iff (op : CmpOp) (a b : Flt) : op.test a b = true ↔ Passes op a b := by
  cases op <;> simp [CmpOp.test, Passes, Flt.le, lt_iff, eq_iff, ← Bool.not_eq_true]

/-- `w` is `y` with NaN in place of the values that fail the comparison. -/
structure MaskedBy (y : Larry L) (op : CmpOp) (value : Flt) (w : Larry L) : Prop where
  valid : w.Valid
  label_eq : w.label = y.label
  dtype_eq : w.dtype = y.dtype
  keep : ∀ names v, y.Has names v → Passes op v.num value → w.Has names v
  drop : ∀ names v, y.Has names v → ¬ Passes op v.num value → w.Has names (.flt .nan)

/-- C38. On a float larry, `keep_x` without vacuum puts NaN exactly where the comparison fails; with
vacuum (2d only) rows and columns without a finite value are then dropped. -/
theorem C38_keep_x {y : Larry L} (hv : y.Valid) (hd : y.dtype = .float) (op : CmpOp) (hop : op ≠ .unknown)
    (value : Flt) :
    ∃ w, y.keepX op value false = .ok w ∧ MaskedBy y op value w ∧
      (y.ndim = 2 → ∃ z, y.keepX op value true = .ok z ∧ VacuumOf w none z) := by
  have hw : (⟨y.x.map (fun v => if op.test v.num value then v else .flt .nan), y.dtype, y.label⟩ : Larry L).Valid :=
    ⟨hv.shape_eq, hv.nodup, hv.ndim_pos⟩
  refine ⟨⟨y.x.map (fun v => if op.test v.num value then v else .flt .nan), y.dtype, y.label⟩, ?_,
    ⟨hw, rfl, rfl, ?_, ?_⟩, ?_⟩
  · simp [keepX, hop, hd, nanAs]
  · rintro names v ⟨idx, hat, rfl⟩ hp
    refine ⟨idx, hat, ?_⟩
    simp [NDArray.map, (cmp_iff _ _ _).mpr hp]
  · rintro names v ⟨idx, hat, rfl⟩ hp
    refine ⟨idx, hat, ?_⟩
    rw [← cmp_iff] at hp
    simp [NDArray.map, hp]
  · intro h2
    obtain ⟨z, hz, hz'⟩ := C39_vacuum hw (by simp [hd]) none
    refine ⟨z, ?_, hz'⟩
    rw [← hz]
    simp [keepX, hop, hd, nanAs, h2]

/-- C38: refusals of `keep_x`. -/
theorem C38_keep_x_errors (y : Larry L) (op : CmpOp) (value : Flt) (vac : Bool) :
    (y.ndim ≠ 2 → y.keepX op value true = .error .valueError) ∧
    (y.keepX .unknown value vac = .error .valueError) ∧
    (y.dtype = .int → y.keepX op value vac = .error .valueError) := by
  refine ⟨fun h => by simp [keepX, h], by simp [keepX], fun h => ?_⟩
  simp only [keepX, h, nanAs]
  split_ifs <;> rfl

example : exA.Valid ∧ exA.dtype = .float ∧ exA.ndim = 2 ∧ Passes .gt (.fin 3) (.fin 2) ∧
    ¬ Passes .gt .nan (.fin 2) :=
  ⟨exA_valid, rfl, rfl, by simp only [Passes, LtX]; decide, by simp [Passes, LtX]⟩

/-! ## C61: ismissing and nans -/

/-- The missing values by dtype. -/
def Missing : DType → Val → Prop
  | .float, v => v = .flt .nan
  | .str, v => v = .str ""
  | .object, v => v = .none
  | _, _ => False

/-- C61. The method `ismissing` gives a bool larry with the same labels, True exactly at the missing
values. -/
theorem C61_ismissing {y : Larry L} (hv : y.Valid) :
    y.ismissing.Valid ∧ y.ismissing.label = y.label ∧ y.ismissing.dtype = .bool ∧
    ∀ names v, y.Has names v →
      (Missing y.dtype v → y.ismissing.Has names (.bool true)) ∧
      (¬ Missing y.dtype v → y.ismissing.Has names (.bool false)) := by
  have hsh : y.ismissing.x.shape = y.x.shape := by
    cases hd : y.dtype <;> simp [Larry.ismissing, La.ismissing, hd, missingMarker, NDArray.map, NDArray.full]
  refine ⟨⟨by rw [hsh]; exact hv.shape_eq, hv.nodup, hv.ndim_pos⟩, rfl, rfl, ?_⟩
  rintro names v ⟨idx, hat, rfl⟩
  constructor
  · intro h
    refine ⟨idx, hat, ?_⟩
    cases hd : y.dtype <;> rw [hd] at h <;>
      simp_all [Larry.ismissing, La.ismissing, missingMarker, NDArray.map, NDArray.full, Missing]
  · intro h
    refine ⟨idx, hat, ?_⟩
    cases hd : y.dtype <;> rw [hd] at h <;>
      simp_all [Larry.ismissing, La.ismissing, missingMarker, NDArray.map, NDArray.full, Missing]

/-- C61. The function `ismissing` on arrays. -/
theorem C61_ismissing_array (d : DType) (x : NDArray Val) :
    (ismissing d x).shape = x.shape ∧ ∀ idx, (ismissing d x).get idx = true ↔ Missing d (x.get idx) := by
  constructor
  · cases d <;> rfl
  · intro idx
    cases d <;> simp [La.ismissing, missingMarker, NDArray.map, NDArray.full, Missing]
    split <;> simp_all

/-- C61. `nans` gives an array of missing values, for exactly the dtypes that have a missing value. -/
theorem C61_nans (shape : List Nat) (d : DType) :
    ((d = .int ∨ d = .bool) ∧ nans shape d = .error .typeError) ∨
    (d ≠ .int ∧ d ≠ .bool ∧ ∃ x, nans shape d = .ok x ∧ x.shape = shape ∧ ∀ idx, Missing d (x.get idx)) := by
  cases d <;> simp [nans, NDArray.full, Missing]

example : Missing .float (.flt .nan) ∧ ¬ Missing .int (.int 0) ∧ exA.Valid := ⟨rfl, id, exA_valid⟩

end La
