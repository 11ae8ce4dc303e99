import Verif.Ravel

/-! # Facts about the label mappers used by the rest of the development -/

namespace La
variable {L : Type _}

theorem mapRes_lookup [DecidableEq L] {list1 list2 : List L} {idx : List Nat}
    (h : mapRes (PyDict.getItem (zipDict list1)) list2 = .ok idx) :
    idx.map (fun i => list1[i]?) = list2.map some := by
  rw [mapRes_ok] at h
  induction h with
  | nil => rfl
  | cons hab _ ih =>
    rename_i a b _ _ _
    simp only [List.map_cons, ih]
    cases hz : zipDict list1 a with
    | none => simp [PyDict.getItem, hz] at hab
    | some k => simp [PyDict.getItem, hz] at hab; subst hab; rw [zipDict_some hz]

theorem mapRes_lookup_total [DecidableEq L] {list1 list2 : List L} (h : ∀ b ∈ list2, b ∈ list1) :
    ∃ idx, mapRes (PyDict.getItem (zipDict list1)) list2 = .ok idx := by
  cases hr : mapRes (PyDict.getItem (zipDict list1)) list2 with
  | ok idx => exact ⟨idx, rfl⟩
  | error e =>
    obtain ⟨a, ha, he⟩ := mapRes_error hr
    have := zipDict_isSome.mpr (h a ha)
    cases hz : zipDict list1 a with
    | none => simp [hz] at this
    | some k => simp [PyDict.getItem, hz] at he

theorem mapRes_lookup_error [DecidableEq L] {list1 list2 : List L} {e : PyErr}
    (h : mapRes (PyDict.getItem (zipDict list1)) list2 = .error e) :
    e = .keyError ∧ ∃ b ∈ list2, b ∉ list1 := by
  obtain ⟨a, ha, he⟩ := mapRes_error h
  cases hz : zipDict list1 a with
  | some k => simp [PyDict.getItem, hz] at he
  | none => simp [PyDict.getItem, hz] at he; exact ⟨he.symm, a, ha, zipDict_none.mp hz⟩

theorem listmap_ok [DecidableEq L] {list1 list2 : List L} {idx : List Nat}
    (h : listmap list1 list2 = .ok idx) : idx.map (fun i => list1[i]?) = list2.map some := by
  simp only [listmap] at h
  exact mapRes_lookup (by simpa using h)

theorem listmap_total [DecidableEq L] {list1 list2 : List L} (h : ∀ b ∈ list2, b ∈ list1) :
    ∃ idx, listmap list1 list2 = .ok idx := by
  simpa [listmap] using mapRes_lookup_total h

theorem listmap_error [DecidableEq L] {list1 list2 : List L} {e : PyErr}
    (h : listmap list1 list2 = .error e) : e = .keyError ∧ ∃ b ∈ list2, b ∉ list1 := by
  simp only [listmap] at h
  exact mapRes_lookup_error (by simpa using h)

theorem listmap_ignore [DecidableEq L] (list1 list2 : List L) :
    ∃ idx, listmap list1 list2 true = .ok idx ∧
      idx.map (fun i => list1[i]?) = (list2.filter (· ∈ list1)).map some := by
  have hf : list2.filter (fun i => (zipDict list1 i).isSome) = list2.filter (· ∈ list1) := by
    apply List.filter_congr
    intro a _
    rw [Bool.eq_iff_iff, zipDict_isSome]
    simp
  obtain ⟨idx, hidx⟩ := mapRes_lookup_total (list1 := list1) (list2 := list2.filter (· ∈ list1))
    (by simp)
  refine ⟨idx, ?_, mapRes_lookup hidx⟩
  simp only [listmap, if_true, hf]
  exact hidx

theorem getElem?_of_map {list1 list2 : List L} {idx : List Nat}
    (h : idx.map (fun i => list1[i]?) = list2.map some) :
    idx.length = list2.length ∧ ∀ (k : Nat) (b : L), list2[k]? = some b →
      ∃ i, idx[k]? = some i ∧ list1[i]? = some b := by
  refine ⟨by simpa using congrArg List.length h, fun k b hk => ?_⟩
  have := congrArg (fun l => l[k]?) h
  simp only [List.getElem?_map, hk, Option.map_some] at this
  cases hi : idx[k]? with
  | none => simp [hi] at this
  | some i => exact ⟨i, rfl, by simpa [hi] using this⟩

theorem mem_missPos [DecidableEq L] {list1 list2 : List L} {k : Nat} :
    k ∈ missPos list1 list2 ↔ ∃ b, list2[k]? = some b ∧ b ∉ list1 := by
  unfold missPos
  simp only [List.mem_filter, List.mem_range, Option.isNone_iff_eq_none]
  constructor
  · rintro ⟨hk, h⟩
    refine ⟨list2[k], by simp [hk], ?_⟩
    rw [List.getElem?_eq_getElem hk, Option.bind_some, zipDict_none] at h
    exact h
  · rintro ⟨b, hb, h⟩
    refine ⟨(List.getElem?_eq_some_iff.mp hb).1, ?_⟩
    rw [hb, Option.bind_some, zipDict_none]
    exact h

theorem missPos_sorted [DecidableEq L] (list1 list2 : List L) :
    (missPos list1 list2).Pairwise (· < ·) :=
  (List.pairwise_lt_range).filter _

theorem fillVal_mem [DecidableEq L] {list1 : List L} {b : L} (fill : Int) (h : b ∈ list1) :
    ∃ i : Nat, fillVal list1 fill b = (i : Int) ∧ list1[i]? = some b := by
  unfold fillVal
  have := zipDict_isSome.mpr h
  cases hz : zipDict list1 b with
  | none => simp [hz] at this
  | some k => exact ⟨k, rfl, zipDict_some hz⟩

theorem fillVal_not_mem [DecidableEq L] {list1 : List L} {b : L} (fill : Int) (h : b ∉ list1) :
    fillVal list1 fill b = fill := by
  unfold fillVal
  rw [zipDict_none.mpr h]

/-- `flattenlabel` on both orders, in closed form. -/
theorem flattenlabel_C (label : List (List L)) :
    flattenlabel label "C" = .ok [(flatLoop label.reverse).map List.reverse] := by
  simp [flattenlabel, flatLoop]

theorem flattenlabel_F (label : List (List L)) :
    flattenlabel label "F" = .ok [flatLoop label] := by
  have : ("F" : String) ≠ "C" := by decide
  simp [flattenlabel, flatLoop, this]

theorem flatC_length (label : List (List L)) :
    ((flatLoop label.reverse).map List.reverse).length = (label.map List.length).prod := by
  rw [List.length_map, flatLoop_length, List.map_reverse, List.prod_reverse]

theorem flatC_at {label : List (List L)} {idx : List Nat} {names : List L}
    (h : At label idx names) :
    ((flatLoop label.reverse).map List.reverse)[rowMajor (label.map List.length) idx]? =
      some names := by
  have h1 := flatLoop_at (At_reverse.mpr h)
  have hl := (At_length h).1
  rw [rowMajor_eq (by simpa using hl), ← List.map_reverse, List.getElem?_map, h1]
  simp

end La
