import Verif.FlabelFacts

/-!
# Properties C01–C05: the label mapping functions

`list[i]?` is Lean's list lookup; `idx.map (fun i => list1[i]?) = list2.map some` reads
"`[list1[i] for i in idx] == list2`" (with every index in range).
-/

namespace La
variable {L : Type _}

/-- C01. `listmap(list1, list2)` raises `KeyError` exactly when an element of `list2` is not in `list1`
and otherwise returns indices that reproduce `list2`. -/
theorem C01_listmap [DecidableEq L] (list1 list2 : List L) :
    ((∃ b ∈ list2, b ∉ list1) → listmap list1 list2 = .error .keyError) ∧
    ((∀ b ∈ list2, b ∈ list1) → ∃ idx, listmap list1 list2 = .ok idx ∧
      idx.map (fun i => list1[i]?) = list2.map some) := by
  refine ⟨?_, fun h => ?_⟩
  · rintro ⟨b, hb, hn⟩
    cases hr : listmap list1 list2 with
    | error e => rw [(listmap_error hr).1]
    | ok idx =>
      have := listmap_ok hr
      obtain ⟨k, hk⟩ := List.mem_iff_getElem?.mp hb
      obtain ⟨i, _, hi⟩ := (getElem?_of_map this).2 k b hk
      exact absurd (List.mem_of_getElem? hi) hn
  · obtain ⟨idx, hidx⟩ := listmap_total h
    exact ⟨idx, hidx, listmap_ok hidx⟩

/-- C01, `ignore_unmappable=True`: never raises; the unmappable elements are dropped, in order. -/
theorem C01_listmap_ignore [DecidableEq L] (list1 list2 : List L) :
    ∃ idx, listmap list1 list2 true = .ok idx ∧
      idx.map (fun i => list1[i]?) = (list2.filter (fun b => decide (b ∈ list1))).map some :=
  listmap_ignore list1 list2

example : listmap [1, 2, 3] [3, 1, 2] = .ok [2, 0, 1] := by decide
example : listmap ["a", "b"] ["a", "b", "unmappable"] = .error .keyError := by decide
example : listmap ["a", "b"] ["a", "x", "b"] true = .ok [0, 1] := by decide

/-- C02. `listmap_fill`: the missing positions are listed exactly and in increasing order, they get
`fill`, and every other position gets an index that reproduces `list2`. -/
theorem C02_listmap_fill [DecidableEq L] (list1 list2 : List L) (fill : Int) :
    (listmapFill list1 list2 fill).1.length = list2.length ∧
    (listmapFill list1 list2 fill).2.Pairwise (· < ·) ∧
    (∀ (k : Nat), k ∈ (listmapFill list1 list2 fill).2 ↔ ∃ b, list2[k]? = some b ∧ b ∉ list1) ∧
    (∀ (k : Nat) b, list2[k]? = some b → b ∉ list1 →
      (listmapFill list1 list2 fill).1[k]? = some fill) ∧
    (∀ (k : Nat) b, list2[k]? = some b → b ∈ list1 → ∃ i : Nat,
      (listmapFill list1 list2 fill).1[k]? = some (i : Int) ∧ list1[i]? = some b) := by
  rw [listmapFill_eq]
  refine ⟨by simp, missPos_sorted _ _, fun k => mem_missPos, fun k b hb hn => ?_,
    fun k b hb hm => ?_⟩
  · simp [hb, fillVal_not_mem fill hn]
  · obtain ⟨i, h1, h2⟩ := fillVal_mem fill hm
    exact ⟨i, by simp [hb, h1], h2⟩

example : listmapFill [1, 2, 3] [1, 4, 2, 3] = ([0, 0, 1, 2], [1]) := by decide
example : listmapFill [1, 2, 3] [1, 4, 2, 3] (-9) = ([0, -9, 1, 2], [1]) := by decide

/-- C03. The Cython and the Python label mappers return the same result or the same exception on
every input. -/
theorem C03_cython_eq_python [DecidableEq L] (list1 list2 : List L) (ignore : Bool) (fill : Int) :
    clistmap list1 list2 ignore = listmap list1 list2 ignore ∧
    clistmapFill list1 list2 fill = listmapFill list1 list2 fill :=
  ⟨clistmap_eq list1 list2 ignore, clistmapFill_eq list1 list2 fill⟩

example : clistmap [1, 2, 2] [2, 7, 1] true = .ok [2, 0] := by decide

/-- C04, order 'C': the label tuple of each cell sits at the row-major position of that cell, and
these are all the entries. -/
theorem C04_flattenlabel_C (label : List (List L)) :
    ∃ ts, flattenlabel label "C" = .ok [ts] ∧ ts.length = (label.map List.length).prod ∧
      ∀ (p : Nat) names, ts[p]? = some names ↔
        ∃ idx, At label idx names ∧ rowMajor (label.map List.length) idx = p := by
  refine ⟨_, flattenlabel_C label, flatC_length label, fun p names => ⟨fun h => ?_, ?_⟩⟩
  · have hp := (List.getElem?_eq_some_iff.mp h).1
    rw [flatC_length] at hp
    obtain ⟨idx, h1, rfl⟩ := rowMajor_surj hp
    obtain ⟨ns, hns⟩ := At_of_inB h1
    have := flatC_at hns
    rw [h] at this
    exact ⟨idx, by rw [Option.some.inj this]; exact hns, rfl⟩
  · rintro ⟨idx, h, rfl⟩
    exact flatC_at h

/-- C04, order 'F': column-major. -/
theorem C04_flattenlabel_F (label : List (List L)) :
    ∃ ts, flattenlabel label "F" = .ok [ts] ∧ ts.length = (label.map List.length).prod ∧
      ∀ (p : Nat) names, ts[p]? = some names ↔
        ∃ idx, At label idx names ∧ colMajor (label.map List.length) idx = p := by
  refine ⟨_, flattenlabel_F label, flatLoop_length label, fun p names => ⟨fun h => ?_, ?_⟩⟩
  · have hp := (List.getElem?_eq_some_iff.mp h).1
    rw [flatLoop_length] at hp
    obtain ⟨idx, h1, rfl⟩ := colMajor_surj hp
    obtain ⟨ns, hns⟩ := At_of_inB h1
    have := flatLoop_at hns
    rw [h] at this
    exact ⟨idx, by rw [Option.some.inj this]; exact hns, rfl⟩
  · rintro ⟨idx, h, rfl⟩
    exact flatLoop_at h

/-- C04: any other order raises ValueError. -/
theorem C04_flattenlabel_bad (label : List (List L)) (order : String) (h1 : order ≠ "C")
    (h2 : order ≠ "F") : flattenlabel label order = .error .valueError := by
  simp [flattenlabel, h1, h2]

/-- C04: row-major and column-major positions enumerate the cells bijectively (so the previous two
theorems say that every combination is listed exactly once per cell). -/
theorem C04_positions_bijective (shape : List Nat) :
    (∀ idx, InB shape idx → rowMajor shape idx < shape.prod ∧ colMajor shape idx < shape.prod) ∧
    (∀ p, p < shape.prod → ∃! idx, InB shape idx ∧ rowMajor shape idx = p) ∧
    (∀ p, p < shape.prod → ∃! idx, InB shape idx ∧ colMajor shape idx = p) := by
  refine ⟨fun idx h => ⟨rowMajor_lt h, colMajor_lt h⟩, fun p hp => ?_, fun p hp => ?_⟩
  · obtain ⟨idx, h1, h2⟩ := rowMajor_surj hp
    exact ⟨idx, ⟨h1, h2⟩, fun j hj => rowMajor_inj hj.1 h1 (hj.2.trans h2.symm)⟩
  · obtain ⟨idx, h1, h2⟩ := colMajor_surj hp
    exact ⟨idx, ⟨h1, h2⟩, fun j hj => colMajor_inj hj.1 h1 (hj.2.trans h2.symm)⟩

example : flattenlabel [["a", "b"], ["x", "y", "z"]] "C" =
    .ok [[["a", "x"], ["a", "y"], ["a", "z"], ["b", "x"], ["b", "y"], ["b", "z"]]] := by decide
example : At [["a", "b"], ["x", "y", "z"]] [1, 0] ["b", "x"] ∧ rowMajor [2, 3] [1, 0] = 3 ∧
    colMajor [2, 3] [1, 0] = 1 := by simp [At, rowMajor, colMajor]

/-- C05. `list2index` factors the list through the strictly increasing list of its elements. -/
theorem C05_list2index [LinearOrder L] (l : List L) :
    ∃ idx uL, list2index l = .ok (idx, uL) ∧ uL.Pairwise (· < ·) ∧ (∀ a, a ∈ uL ↔ a ∈ l) ∧
      idx.map (fun i => uL[i]?) = l.map some := by
  have hmem : ∀ a, a ∈ pySorted l.dedup ↔ a ∈ l := fun a => by rw [mem_pySorted, List.mem_dedup]
  obtain ⟨idx, hidx⟩ := mapRes_lookup_total (list1 := pySorted l.dedup) (list2 := l)
    (fun b hb => (hmem b).mpr hb)
  refine ⟨idx, pySorted l.dedup, ?_, pySorted_lt (List.nodup_dedup l), hmem, mapRes_lookup hidx⟩
  simp only [list2index, hidx]

example : list2index [3, 1, 3] = .ok ([1, 0, 1], [1, 3]) := by decide +kernel

end La
