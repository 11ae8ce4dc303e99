import Verif.Props.Core
import Verif.Props.Structure

/-!
# Properties C31, C32, C34, C38 (keep_label), C41: adding, removing and selecting along one axis
-/

namespace La
open Larry
variable {L : Type _}

/-! ## C31: insertaxis and pull -/

theorem take_drop_insertIdx {α : Type _} {l : List α} {k : Nat} (hk : k ≤ l.length) (a : α) :
    l.take k ++ a :: l.drop k = l.insertIdx k a := by
  induction k generalizing l with
  | zero => simp
  | succ k ih =>
    cases l with
    | nil => simp at hk
    | cons b l => simp [ih (by simpa using hk : k ≤ l.length)]

/-- Where `insertaxis` is to put the new axis among `ndim` old ones: `axis` itself (at the end if that
is too far), or counted from the end for negative numbers, -1 being behind the last axis. -/
def NewAxisAt (ndim : Nat) (axis : Int) (p : Nat) : Prop :=
  (0 ≤ axis ∧ (p : Int) = min axis ndim) ∨ (axis < 0 ∧ -(ndim + 1 : Int) ≤ axis ∧ (p : Int) = axis + ndim + 1)

theorem insertaxis_eq [DecidableEq L] {y : Larry L} (hv : y.Valid) {axis : Int} {p : Nat} (name : L)
    (hp : NewAxisAt y.ndim axis p) :
    y.insertaxis (some axis) name = .ok ⟨⟨y.x.shape.insertIdx p 1, fun idx => y.x.get (idx.eraseIdx p)⟩,
      y.dtype, y.label.insertIdx p [name]⟩ ∧ p ≤ y.label.length ∧
    ValidLabels (y.label.insertIdx p [name]) (y.x.shape.insertIdx p 1) := by
  have hl := hv.label_length
  have hn : y.x.shape.length = y.ndim := rfl
  have hple : p ≤ y.ndim := by unfold NewAxisAt at hp; omega
  have e1 : NDArray.expandPos y.x.ndim axis = p := by
    have : y.x.ndim = y.ndim := rfl
    unfold NDArray.expandPos
    unfold NewAxisAt at hp
    rw [this]
    dsimp only
    split_ifs <;> omega
  have e2 : pyInsert y.label (if axis = -1 then (y.label.length : Int) else
      if axis < -1 then axis + 1 else axis) [name] = y.label.insertIdx p [name] := by
    unfold pyInsert
    rw [← take_drop_insertIdx (by omega)]
    have : (if (if axis = -1 then (y.label.length : Int) else if axis < -1 then axis + 1 else axis) < 0
        then max 0 ((if axis = -1 then (y.label.length : Int) else
          if axis < -1 then axis + 1 else axis) + y.label.length)
        else min (if axis = -1 then (y.label.length : Int) else
          if axis < -1 then axis + 1 else axis) y.label.length).toNat = p := by
      unfold NewAxisAt at hp
      split_ifs <;> omega
    simp only [this]
  have hval : ValidLabels (y.label.insertIdx p [name]) (y.x.shape.insertIdx p 1) := by
    refine ⟨?_, ?_, ?_⟩
    · rw [List.map_insertIdx, hv.shape_eq]; rfl
    · intro l h
      rcases List.eq_or_mem_of_mem_insertIdx h with rfl | h
      · simp
      · exact hv.nodup l h
    · intro h
      have := congrArg List.length h
      rw [List.length_insertIdx_of_le_length (by omega)] at this
      simp at this
  refine ⟨?_, by omega, hval⟩
  simp only [insertaxis]
  rw [e2]
  have e3 : y.x.expandDims axis =
      ⟨y.x.shape.insertIdx p 1, fun idx => y.x.get (idx.eraseIdx p)⟩ := by
    simp only [NDArray.expandDims, e1]
    rw [take_drop_insertIdx (by omega)]
  rw [e3]
  exact (C06_constructor _ _ _).1 hval

/-- C31. `insertaxis(axis, name)` puts a new axis with the single label `name` at the right position;
the cell under the names with `name` inserted there holds the old value. -/
theorem C31_insertaxis [DecidableEq L] {y : Larry L} (hv : y.Valid) {axis : Int} {p : Nat} (name : L)
    (hp : NewAxisAt y.ndim axis p) :
    ∃ z, y.insertaxis (some axis) name = .ok z ∧ z.Valid ∧ z.dtype = y.dtype ∧
      z.label = y.label.insertIdx p [name] ∧
      ∀ names v, names.length = y.ndim → (z.Has (names.insertIdx p name) v ↔ y.Has names v) := by
  obtain ⟨h1, h2, h3⟩ := insertaxis_eq hv name hp
  refine ⟨_, h1, h3, rfl, rfl, fun names v hlen => ?_⟩
  rw [← hv.label_length] at hlen
  constructor
  · rintro ⟨idx, hat, rfl⟩
    have hil := (At_length hat).1
    simp only [List.length_insertIdx_of_le_length h2] at hil
    obtain ⟨i, idx', rfl, h4, _⟩ := exists_insertIdx (l := idx) (k := p) (by omega)
    have hil' : idx'.length = y.label.length := by
      rw [h4, List.length_eraseIdx_of_lt (by omega)]; omega
    simp only at hat
    rw [At_insertIdx h2 hil' hlen] at hat
    exact ⟨idx', hat.1, by simp [List.eraseIdx_insertIdx_self]⟩
  · rintro ⟨idx, hat, rfl⟩
    have hil := (At_length hat).1
    refine ⟨idx.insertIdx p 0, ?_, by simp [List.eraseIdx_insertIdx_self]⟩
    simp only
    rw [At_insertIdx h2 hil hlen]
    exact ⟨hat, rfl⟩

theorem InB_get_zero {shape idx : List Nat} (h : InB shape idx) {k : Nat} (hs : shape[k]? = some 1) :
    idx[k]? = some 0 := by
  rw [InB_iff] at h
  have hk := (List.getElem?_eq_some_iff.mp hs).1
  have hk' : k < idx.length := by omega
  rw [List.getElem?_eq_getElem hk']
  have := h.2 k 1 _ hs (List.getElem?_eq_getElem hk')
  congr 1; omega

/-- C31: for an axis further left than the left end, `insertaxis` either raises ValueError or puts the
new axis first; it never mislabels. -/
theorem C31_insertaxis_far [DecidableEq L] {y : Larry L} (hv : y.Valid) {axis : Int} (name : L)
    (ha : axis < -(y.ndim + 1 : Int)) :
    y.insertaxis (some axis) name = .error .valueError ∨
    ∃ z, y.insertaxis (some axis) name = .ok z ∧ z.Valid ∧ z.dtype = y.dtype ∧
      z.label = [name] :: y.label ∧ ∀ names v, z.Has (name :: names) v ↔ y.Has names v := by
  have hl := hv.label_length
  have e2 : pyInsert y.label (axis + 1) [name] = [name] :: y.label := by
    unfold pyInsert
    have : (if axis + 1 < 0 then max 0 (axis + 1 + (y.label.length : Int))
        else min (axis + 1) y.label.length).toNat = 0 := by
      rw [if_pos (by omega)]; omega
    simp only [this]
    simp
  have e3 : y.insertaxis (some axis) name = mk' (y.x.expandDims axis) y.dtype ([name] :: y.label) := by
    simp only [insertaxis]
    rw [if_neg (by omega), if_pos (by omega), e2]
  rw [e3]
  by_cases hval : ValidLabels ([name] :: y.label) (y.x.expandDims axis).shape
  · right
    refine ⟨_, (C06_constructor _ _ _).1 hval, hval, rfl, rfl, fun names v => ?_⟩
    generalize hq : NDArray.expandPos y.x.ndim axis = q
    have hq' : q ≤ y.x.shape.length := by
      have : y.x.ndim = y.ndim := rfl
      have : y.x.shape.length = y.ndim := rfl
      rw [← hq]; unfold NDArray.expandPos
      dsimp only
      split_ifs <;> omega
    have hsh : y.x.shape.insertIdx q 1 = 1 :: y.x.shape := by
      have := hval.shape_eq
      simp only [NDArray.expandDims, hq] at this
      rw [take_drop_insertIdx hq'] at this
      rw [this, hv.shape_eq]; rfl
    have hones : ∀ k, k < q → y.x.shape[k]? = some 1 := by
      intro k
      induction k with
      | zero =>
        intro hk
        have := congrArg (fun l => l[0]?) hsh
        simp only [List.getElem?_cons_zero] at this
        rwa [List.getElem?_insertIdx_of_lt hk] at this
      | succ k ih =>
        intro hk
        have := congrArg (fun l => l[k + 1]?) hsh
        simp only [List.getElem?_cons_succ] at this
        rw [List.getElem?_insertIdx_of_lt hk] at this
        rw [this]; exact ih (by omega)
    have herase : ∀ idx names, At y.label idx names → ((0 : Nat) :: idx).eraseIdx q = idx := by
      intro idx names hat
      have hin : InB y.x.shape idx := hv.shape_eq ▸ At_inB hat
      have hlen := InB_length hin
      apply List.ext_getElem?
      intro k
      rw [List.getElem?_eraseIdx]
      split
      · rename_i hk
        rw [InB_get_zero hin (hones k hk)]
        cases k with
        | zero => rfl
        | succ k =>
          rw [List.getElem?_cons_succ]
          exact InB_get_zero hin (hones k (by omega))
      · rfl
    constructor
    · rintro ⟨idx, hat, rfl⟩
      cases idx with
      | nil => simp [At] at hat
      | cons i idx =>
        simp only [At] at hat
        refine ⟨idx, hat.2, ?_⟩
        have hi : i = 0 := by
          have := (List.getElem?_eq_some_iff.mp hat.1).1
          simpa using this
        subst hi
        simp only [NDArray.expandDims, hq, herase idx names hat.2]
    · rintro ⟨idx, hat, rfl⟩
      refine ⟨0 :: idx, ⟨rfl, hat⟩, ?_⟩
      simp only [NDArray.expandDims, hq, herase idx names hat]
  · left
    exact (C06_constructor _ _ _).2 hval

/-- C31. `pull(name, axis)`: the axis disappears and the cells keep what they held together with
`name`; a result with a single element on a single axis is returned as that element; a 1d larry raises
ValueError. -/
theorem C31_pull [LinearOrder L] {y : Larry L} (hv : y.Valid) {a : Int} {ax : Nat} {l : List L}
    {name : L} (hax : pyIdx y.ndim a = some ax) (hl : y.label[ax]? = some l) (hname : name ∈ l) :
    (y.ndim = 1 → y.pull name (some a) = .error .valueError) ∧
    (∀ m, y.label.eraseIdx ax = [[m]] → ∃ v, y.pull name (some a) = .ok (.scalar v) ∧
      y.Has (([m] : List L).insertIdx ax name) v) ∧
    (y.ndim ≠ 1 → (∀ m, y.label.eraseIdx ax ≠ [[m]]) → ∃ z, y.pull name (some a) = .ok (.larry z) ∧
      z.Valid ∧ z.dtype = y.dtype ∧ z.label = y.label.eraseIdx ax ∧
      ∀ names v, z.Has names v ↔ names.length + 1 = y.ndim ∧ y.Has (names.insertIdx ax name) v) := by
  have hll := hv.label_length
  have haxl : ax < y.label.length := (List.getElem?_eq_some_iff.mp hl).1
  have hlnd := hv.nodup l (List.mem_of_getElem? hl)
  have hpop : pyPop y.label a = .ok (y.label.eraseIdx ax) := by
    simp [pyPop, hll, hax]
  obtain ⟨i, hi⟩ := List.mem_iff_getElem?.mp hname
  have hilt := (List.getElem?_eq_some_iff.mp hi).1
  have hidx : pyIndex l name = some i := pyIndex_of_nodup hlnd hi
  have hlt : ¬ (a ≥ (y.ndim : Int)) := by
    have := pyIdx_some.mp hax
    omega
  have hli : y.labelindex name (some a) = .ok i := by
    have : pyGet y.label a = .ok l := pyGet_ok.mpr ⟨ax, by rw [hll]; exact hax, hl⟩
    simp [labelindex, hlt, this, hidx]
  have hsh : y.x.shape.getD ax 0 = l.length := by rw [hv.shape_eq]; simp [List.getD, hl]
  have hpshape : (y.x.pick i ax).shape = (y.label.eraseIdx ax).map List.length := by
    simp only [NDArray.pick]
    rw [hv.shape_eq, List.eraseIdx_map]
  have key : y.pull name (some a) = if (y.x.pick i ax).shape = [1] then
      .ok (.scalar ((y.x.pick i ax).get [0])) else
      match mk' (y.x.pick i ax) y.dtype (y.label.eraseIdx ax) with
      | .error e => .error e
      | .ok z => .ok (.larry z) := by
    simp only [pull, hpop, hli, hax, hsh]
    rw [if_neg (by omega)]
    rfl
  have hholds : ∀ names v, Holds (y.label.eraseIdx ax) (y.x.pick i ax) names v ↔
      names.length + 1 = y.ndim ∧ y.Has (names.insertIdx ax name) v := by
    intro names v
    rw [holds_pick hl hv.nodup hi, hll]; rfl
  refine ⟨fun h1 => ?_, fun m hm => ?_, fun h1 hne => ?_⟩
  · have hnil : y.label.eraseIdx ax = [] := by
      rw [← List.length_eq_zero_iff, List.length_eraseIdx_of_lt haxl]; omega
    rw [key, if_neg (by rw [hpshape, hnil]; simp), hnil]
    have : mk' (y.x.pick i ax) y.dtype ([] : List (List L)) = .error .valueError :=
      (C06_constructor _ _ _).2 (fun h => h.ndim_pos rfl)
    rw [this]
  · refine ⟨(y.x.pick i ax).get [0], ?_, ?_⟩
    · rw [key, if_pos (by rw [hpshape, hm]; rfl)]
    · refine ((hholds [m] _).mp ⟨[0], ?_, rfl⟩).2
      rw [hm]; exact ⟨rfl, trivial⟩
  · have hns : (y.x.pick i ax).shape ≠ [1] := by
      rw [hpshape]
      intro h
      match hh : y.label.eraseIdx ax with
      | [] => rw [hh] at h; simp at h
      | [l'] =>
        rw [hh] at h
        simp only [List.map_cons, List.map_nil, List.cons.injEq, and_true] at h
        obtain ⟨m, rfl⟩ := List.length_eq_one_iff.mp h
        exact hne m hh
      | _ :: _ :: _ => rw [hh] at h; simp at h
    have hval : ValidLabels (y.label.eraseIdx ax) (y.x.pick i ax).shape := by
      refine ⟨hpshape, fun l' h => hv.nodup l' (List.mem_of_mem_eraseIdx h), ?_⟩
      intro h
      have := congrArg List.length h
      rw [List.length_eraseIdx_of_lt haxl] at this
      simp at this; omega
    rw [key, if_neg hns, (C06_constructor _ _ _).1 hval]
    exact ⟨_, rfl, hval, rfl, rfl, hholds⟩

/-- C31: `pull` raises ValueError for `axis=None` and IndexError for a missing axis or an unknown
name. -/
theorem C31_pull_errors [LinearOrder L] {y : Larry L} (hv : y.Valid) (name : L) :
    y.pull name none = .error .valueError ∧
    (∀ a, pyIdx y.ndim a = none → y.pull name (some a) = .error .indexError) ∧
    (∀ a ax l, pyIdx y.ndim a = some ax → y.label[ax]? = some l → name ∉ l →
      y.pull name (some a) = .error .indexError) := by
  have hll := hv.label_length
  refine ⟨rfl, fun a ha => ?_, fun a ax l ha hl hn => ?_⟩
  · simp [pull, pyPop, hll, ha]
  · have hlt : ¬ (a ≥ (y.ndim : Int)) := by have := pyIdx_some.mp ha; omega
    have h1 : pyGet y.label a = .ok l := pyGet_ok.mpr ⟨ax, by rw [hll]; exact ha, hl⟩
    have h2 : pyIndex l name = none := pyIndex_none.mpr hn
    simp [pull, pyPop, hll, ha, labelindex, hlt, h1, h2]

/-- C31: pulling the inserted name along the inserted axis restores the larry (its single element if
the larry has shape (1,)). -/
theorem C31_inverse [LinearOrder L] {y : Larry L} (hv : y.Valid) {axis b : Int} {p : Nat} (name : L)
    (hp : NewAxisAt y.ndim axis p) (hb : pyIdx (y.ndim + 1) b = some p) :
    ∃ z, y.insertaxis (some axis) name = .ok z ∧
      ((∀ m, y.label ≠ [[m]]) → ∃ w, z.pull name (some b) = .ok (.larry w) ∧ w.Same y) ∧
      (∀ m, y.label = [[m]] → ∃ v, z.pull name (some b) = .ok (.scalar v) ∧ y.Has [m] v) := by
  obtain ⟨z, h1, h2, h3, h4, h5⟩ := C31_insertaxis hv name hp
  have hple : p ≤ y.label.length := by have := pyIdx_lt hb; rw [hv.label_length]; omega
  have hzn : z.ndim = y.ndim + 1 := by
    rw [← h2.label_length, h4, List.length_insertIdx_of_le_length hple, hv.label_length]
  have hzl : z.label[p]? = some [name] := by rw [h4]; exact getElem?_insertIdx_self' hple
  have herase : z.label.eraseIdx p = y.label := by rw [h4, List.eraseIdx_insertIdx_self]
  have hy1 : y.ndim ≠ 0 := by
    rw [← hv.label_length]
    intro h
    exact hv.ndim_pos (List.length_eq_zero_iff.mp h)
  obtain ⟨g1, g2, g3⟩ := C31_pull (name := name) h2 (a := b) (by rw [hzn]; exact hb) hzl (by simp)
  refine ⟨z, h1, fun hne => ?_, fun m hm => ?_⟩
  · obtain ⟨w, k1, k2, k3, k4, k5⟩ := g3 (by omega) (fun m => by rw [herase]; exact hne m)
    refine ⟨w, k1, k2.same_of_has hv (k4.trans herase) (k3.trans h3) (fun names v h => ?_)⟩
    obtain ⟨e1, e2⟩ := (k5 names v).mp h
    exact (h5 names v (by omega)).mp e2
  · obtain ⟨v, k1, k2⟩ := g2 m (by rw [herase]; exact hm)
    refine ⟨v, k1, (h5 [m] v ?_).mp k2⟩
    rw [← hv.label_length, hm]; rfl

example : exA.Valid ∧ NewAxisAt exA.ndim (-2) 1 ∧ pyIdx (exA.ndim + 1) (-2) = some 1 ∧
    (∀ m, exA.label ≠ [[m]]) :=
  ⟨exA_valid, .inr ⟨by decide, by decide, by decide⟩, by decide, by intro m; simp [exA]⟩

example : exC.Valid ∧ pyIdx exC.ndim 1 = some 1 ∧ exC.label[1]? = some [5] ∧ (5 : Nat) ∈ [5] ∧
    exC.ndim ≠ 1 ∧ (∀ m, exC.label.eraseIdx 1 ≠ [[m]]) :=
  ⟨exC_valid, by decide, by decide, by decide, by decide, by intro m; simp [exC]⟩

/-! ## C32: squeeze -/

/-- The entries of `l` that belong to axes of a length other than 1. -/
def dropUnit {α : Type _} : List Nat → List α → List α
  | n :: ns, a :: as => if n = 1 then dropUnit ns as else a :: dropUnit ns as
  | _, _ => []

theorem dropUnit_zip {α : Type _} (shape : List Nat) (l : List α) :
    ((l.zip shape).filter (fun p => decide (p.2 ≠ 1))).map Prod.fst = dropUnit shape l := by
  induction shape generalizing l with
  | nil => cases l <;> simp [dropUnit]
  | cons n ns ih =>
    cases l with
    | nil => simp [dropUnit]
    | cons a as =>
      simp only [List.zip_cons_cons, dropUnit]
      by_cases h : n = 1
      · rw [List.filter_cons_of_neg (by simpa using h), if_pos h, ih]
      · rw [List.filter_cons_of_pos (by simpa using h), if_neg h, List.map_cons, ih]

theorem dropUnit_shape (shape : List Nat) (label : List (List L))
    (h : shape = label.map List.length) :
    shape.filter (· ≠ 1) = (dropUnit shape label).map List.length := by
  subst h
  induction label with
  | nil => simp [dropUnit]
  | cons l ls ih =>
    simp only [List.map_cons, dropUnit]
    by_cases hl : l.length = 1
    · rw [if_pos hl, List.filter_cons_of_neg (by simpa using hl), ih]
    · rw [if_neg hl, List.filter_cons_of_pos (by simpa using hl), List.map_cons, ih]

theorem mem_dropUnit {α : Type _} {shape : List Nat} {l : List α} {a : α} (h : a ∈ dropUnit shape l) :
    a ∈ l := by
  induction shape generalizing l with
  | nil => simp [dropUnit] at h
  | cons n ns ih =>
    cases l with
    | nil => simp [dropUnit] at h
    | cons b l =>
      simp only [dropUnit] at h
      split at h
      · exact List.mem_cons_of_mem _ (ih h)
      · rcases List.mem_cons.mp h with h | h
        · rw [h]; simp
        · exact List.mem_cons_of_mem _ (ih h)

theorem At_squeeze {label : List (List L)} {idx : List Nat} {names : List L} (h : At label idx names) :
    At (dropUnit (label.map List.length) label) (dropUnit (label.map List.length) idx)
      (dropUnit (label.map List.length) names) ∧
    unsqueeze (label.map List.length) (dropUnit (label.map List.length) idx) = idx := by
  induction label generalizing idx names with
  | nil => cases idx <;> cases names <;> simp_all [At, dropUnit, unsqueeze]
  | cons l ls ih =>
    cases idx with
    | nil => simp [At] at h
    | cons i is =>
      cases names with
      | nil => simp [At] at h
      | cons n ns =>
        simp only [At] at h
        obtain ⟨h1, h2⟩ := ih h.2
        simp only [List.map_cons, dropUnit, unsqueeze]
        by_cases hl : l.length = 1
        · simp only [if_pos hl]
          have hi := (List.getElem?_eq_some_iff.mp h.1).1
          exact ⟨h1, by rw [h2]; congr 1; omega⟩
        · simp only [if_neg hl]
          exact ⟨⟨h.1, h1⟩, by rw [h2]⟩

theorem At_unsqueeze {label : List (List L)} {idx : List Nat} {names : List L}
    (h : At (dropUnit (label.map List.length) label) idx names) :
    ∃ names', At label (unsqueeze (label.map List.length) idx) names' ∧
      names = dropUnit (label.map List.length) names' := by
  induction label generalizing idx names with
  | nil => cases idx <;> cases names <;> simp_all [At, dropUnit, unsqueeze]; exact ⟨[], trivial⟩
  | cons l ls ih =>
    simp only [List.map_cons, dropUnit] at h
    by_cases hl : l.length = 1
    · simp only [if_pos hl] at h
      obtain ⟨ns, h1, h2⟩ := ih h
      obtain ⟨a, rfl⟩ := List.length_eq_one_iff.mp hl
      refine ⟨a :: ns, ?_, ?_⟩
      · simp only [List.map_cons, unsqueeze, List.length_cons, List.length_nil, Nat.zero_add, if_true]
        exact ⟨rfl, h1⟩
      · simp only [List.map_cons, dropUnit, List.length_cons, List.length_nil, Nat.zero_add, if_true]
        exact h2
    · simp only [if_neg hl] at h
      cases idx with
      | nil => simp [At] at h
      | cons i is =>
        cases names with
        | nil => simp [At] at h
        | cons n ns =>
          simp only [At] at h
          obtain ⟨ns', h1, h2⟩ := ih h.2
          refine ⟨n :: ns', ?_, ?_⟩
          · simp only [List.map_cons, unsqueeze, if_neg hl]
            exact ⟨h.1, h1⟩
          · simp only [List.map_cons, dropUnit, if_neg hl, h2]

/-- C32. `squeeze` drops exactly the axes of length 1 with their labels; every cell keeps its value
under the remaining names, and there are no other cells.  The result is a well-formed larry exactly
when some axis is left (otherwise it has no axis at all). -/
theorem C32_squeeze {y : Larry L} (hv : y.Valid) :
    y.squeeze.label = dropUnit y.shape y.label ∧ y.squeeze.dtype = y.dtype ∧
    (∀ names v, y.Has names v → y.squeeze.Has (dropUnit y.shape names) v) ∧
    (∀ names' v, y.squeeze.Has names' v → ∃ names, names' = dropUnit y.shape names ∧ y.Has names v) ∧
    (y.squeeze.Valid ↔ ∃ n ∈ y.shape, n ≠ 1) := by
  have hlab : y.squeeze.label = dropUnit y.shape y.label := dropUnit_zip _ _
  have hs : y.shape = y.label.map List.length := hv.shape_eq
  refine ⟨hlab, rfl, ?_, ?_, ?_⟩
  · rintro names v ⟨idx, hat, rfl⟩
    obtain ⟨h1, h2⟩ := At_squeeze hat
    refine ⟨dropUnit y.shape idx, ?_, ?_⟩
    · rw [hlab, hs]; exact h1
    · simp only [squeeze, NDArray.squeeze]
      change y.x.get (unsqueeze y.shape (dropUnit y.shape idx)) = _
      rw [hs, h2]
  · rintro names' v ⟨idx, hat, rfl⟩
    rw [hlab, hs] at hat
    obtain ⟨names, h1, h2⟩ := At_unsqueeze hat
    refine ⟨names, by rw [hs]; exact h2, _, h1, ?_⟩
    rw [← hs]; rfl
  · have hshape : y.squeeze.x.shape = y.squeeze.label.map List.length := by
      rw [hlab]
      exact dropUnit_shape y.shape y.label hs
    constructor
    · intro h
      have hne := h.ndim_pos
      have : y.squeeze.x.shape ≠ [] := by
        rw [hshape]; simpa using hne
      simp only [squeeze, NDArray.squeeze, ne_eq, List.filter_eq_nil_iff, not_forall] at this
      obtain ⟨n, hn, h'⟩ := this
      exact ⟨n, hn, by simpa using h'⟩
    · rintro ⟨n, hn, hn1⟩
      refine ⟨hshape, ?_, ?_⟩
      · intro l hl
        rw [hlab] at hl
        exact hv.nodup l (mem_dropUnit hl)
      · intro h
        have : y.squeeze.x.shape = [] := by rw [hshape, h]; rfl
        simp only [squeeze, NDArray.squeeze, List.filter_eq_nil_iff] at this
        exact absurd hn1 (by simpa using this n hn)

example : exC.Valid ∧ (∃ n ∈ exC.shape, n ≠ 1) ∧ dropUnit exC.shape [1, 5, 9] = [1, 9] :=
  ⟨exC_valid, ⟨2, by decide, by decide⟩, by decide⟩

/-! ## C34: take -/

/-- C34. `take(indices, axis)` with valid, distinct indices keeps exactly the labels at these positions,
in the given order, each with its values. -/
theorem C34_take [LinearOrder L] {y : Larry L} (hv : y.Valid) {a : Int} {ax : Nat} {l : List L}
    (hax : pyIdx y.ndim a = some ax) (hl : y.label[ax]? = some l) {indices : List Int} {ids : List Nat}
    (hids : List.Forall₂ (fun i k => pyIdx l.length i = some k) indices ids) (hnd : ids.Nodup) :
    ∃ z lab, y.take indices a = .ok z ∧ lab.map some = ids.map (fun k => l[k]?) ∧
      z.PartOf y (y.label.set ax lab) := by
  have hll := hv.label_length
  have hm : mapRes (pyIdxE l.length) indices = .ok ids := by
    rw [mapRes_ok]
    exact hids.imp (fun _ _ h => pyIdxE_ok.mpr h)
  have hlt : ∀ k ∈ ids, k < l.length := by
    intro k hk
    clear hm hnd
    induction hids with
    | nil => simp at hk
    | cons h _ ih =>
      rcases List.mem_cons.mp hk with rfl | hk
      · exact pyIdx_lt h
      · exact ih hk
  have hfm := filterMap_getElem? (l := l) hlt
  refine ⟨⟨y.x.gather ids ax, y.dtype, y.label.set ax (ids.filterMap (fun i => l[i]?))⟩,
    ids.filterMap (fun i => l[i]?), ?_, hfm.symm, ?_⟩
  · have g1 : pyIdx y.label.length a = some ax := by rw [hll]; exact hax
    have g2 : y.label.getD ax [] = l := by simp [List.getD, hl]
    have g3 : pyItems l indices = .ok (ids.filterMap (fun i => l[i]?)) :=
      pyItems_ok.mpr ⟨ids, hm, hfm⟩
    have g4 : hasDup (ids.filterMap (fun i => l[i]?)) = false :=
      hasDup_false.mpr (nodup_of_positions (hv.nodup l (List.mem_of_getElem? hl)) hfm hnd)
    have hsh : y.x.shape.getD ax 0 = l.length := by rw [hv.shape_eq]; simp [List.getD, hl]
    have g5 : y.x.take indices a = .ok (y.x.gather ids ax) := by
      have : pyIdx y.x.ndim a = some ax := hax
      simp only [NDArray.take, this, hsh, hm]
    simp only [Larry.take, g1, g2, g3, g4, g5]
    rfl
  · exact partOf_gather hv hl hfm (nodup_of_positions (hv.nodup l (List.mem_of_getElem? hl)) hfm hnd)

/-- C34: IndexError for a missing axis, an index out of range, or two indices meaning the same
position. -/
theorem C34_take_errors [LinearOrder L] {y : Larry L} (hv : y.Valid) (a : Int) (indices : List Int) :
    (pyIdx y.ndim a = none → y.take indices a = .error .indexError) ∧
    (∀ ax l, pyIdx y.ndim a = some ax → y.label[ax]? = some l →
      (∃ i ∈ indices, (l.length : Int) ≤ i ∨ i < -(l.length : Int)) →
        y.take indices a = .error .indexError) ∧
    (∀ ax l (ids : List Nat), pyIdx y.ndim a = some ax → y.label[ax]? = some l →
      List.Forall₂ (fun i k => pyIdx l.length i = some k) indices ids → ¬ ids.Nodup →
        y.take indices a = .error .indexError) := by
  have hll := hv.label_length
  refine ⟨fun h => ?_, fun ax l hax hl hi => ?_, fun ax l ids hax hl hids hnd => ?_⟩
  · simp [Larry.take, hll, h]
  · have g2 : y.label.getD ax [] = l := by simp [List.getD, hl]
    have g3 : pyItems l indices = .error .indexError :=
      pyItems_error.mpr ⟨rfl, hi.imp (fun i h => ⟨h.1, pyIdx_none.mpr h.2⟩)⟩
    simp only [Larry.take, hll, hax, g2, g3]
  · have g2 : y.label.getD ax [] = l := by simp [List.getD, hl]
    have hm : mapRes (pyIdxE l.length) indices = .ok ids := by
      rw [mapRes_ok]
      exact hids.imp (fun _ _ h => pyIdxE_ok.mpr h)
    cases g3 : pyItems l indices with
    | error e =>
      have := pyItems_error.mp g3
      simp only [Larry.take, hll, hax, g2, g3, this.1]
    | ok lab =>
      obtain ⟨ids', h1, h2⟩ := pyItems_ok.mp g3
      rw [hm] at h1
      simp only [Except.ok.injEq] at h1
      subst h1
      have g4 : hasDup lab = true := hasDup_true.mpr (fun h => hnd (positions_nodup h2 h))
      simp only [Larry.take, hll, hax, g2, g3, g4]
      rfl

example : exA.Valid ∧ pyIdx exA.ndim 1 = some 1 ∧ exA.label[1]? = some [3, 1, 2] ∧
    List.Forall₂ (fun i k => pyIdx 3 i = some k) [-1, 0] [2, 0] ∧ ([2, 0] : List Nat).Nodup :=
  ⟨exA_valid, by decide, by decide, .cons (by decide) (.cons (by decide) .nil), by decide⟩

/-! ## C38, first half: keep_label -/

/-- What each comparison of `keep_label` asks of a label. -/
def Wanted [LinearOrder L] : LabelOp L → L → Prop
  | .eq v, z => z = v
  | .gt v, z => v < z
  | .lt v, z => z < v
  | .ge v, z => v ≤ z
  | .le v, z => z ≤ v
  | .ne v, z => z ≠ v
  | .isIn vs, z => z ∈ vs
  | .notIn vs, z => z ∉ vs
  | .unknown, _ => False

theorem test_iff [LinearOrder L] (op : LabelOp L) (z : L) : op.test z = true ↔ Wanted op z := by
  cases op <;> simp [LabelOp.test, Wanted]

/-- C38. `keep_label` keeps exactly the labels satisfying the comparison, in their order, with their
values; if there is none it returns the empty 1d larry. -/
theorem C38_keep_label [LinearOrder L] {y : Larry L} (hv : y.Valid) {op : LabelOp L}
    (hop : op ≠ .unknown) {a : Int} {ax : Nat} {l : List L}
    (hax : pyIdx y.ndim a = some ax) (hl : y.label[ax]? = some l) :
    ((∀ z ∈ l, ¬ Wanted op z) → ∃ z, y.keepLabel op (some a) = .ok z ∧ z.label = [[]] ∧ z.shape = [0] ∧
      z.dtype = .float) ∧
    ((∃ z ∈ l, Wanted op z) → ∃ z lab, y.keepLabel op (some a) = .ok z ∧
      z.PartOf y (y.label.set ax lab) ∧ lab.Sublist l ∧ ∀ b, b ∈ lab ↔ b ∈ l ∧ Wanted op b) := by
  have hll := hv.label_length
  have hlnd := hv.nodup l (List.mem_of_getElem? hl)
  have hlt : ¬ (a ≥ (y.ndim : Int)) := by have := pyIdx_some.mp hax; omega
  have g1 : pyIdx y.label.length a = some ax := by rw [hll]; exact hax
  have g2 : y.label.getD ax [] = l := by simp [List.getD, hl]
  have key : y.keepLabel op (some a) =
      if (l.zipIdx.filter (fun p => op.test p.1)).length = 0 then .ok emptyLarry else
      .ok ⟨y.x.gather ((l.zipIdx.filter (fun p => op.test p.1)).map Prod.snd) ax, y.dtype,
        y.label.set ax ((l.zipIdx.filter (fun p => op.test p.1)).map Prod.fst)⟩ := by
    cases op <;> first | exact absurd rfl hop | simp only [keepLabel, if_neg hlt, g1, g2]
  have hfst : (l.zipIdx.filter (fun p => op.test p.1)).map Prod.fst = l.filter op.test := by
    have : ∀ (l : List L) k, ((l.zipIdx k).filter (fun p => op.test p.1)).map Prod.fst =
        l.filter op.test := by
      intro l
      induction l with
      | nil => intro k; rfl
      | cons a l ih =>
        intro k
        simp only [List.zipIdx_cons]
        by_cases h : op.test a = true
        · rw [List.filter_cons_of_pos (by simpa using h), List.filter_cons_of_pos h, List.map_cons, ih]
        · rw [List.filter_cons_of_neg (by simpa using h), List.filter_cons_of_neg h, ih]
    exact this l 0
  have hids : ((l.zipIdx.filter (fun p => op.test p.1)).map Prod.snd).map (fun i => l[i]?) =
      (l.filter op.test).map some := by
    rw [← hfst, List.map_map, List.map_map]
    apply List.map_congr_left
    rintro ⟨b, i⟩ hb
    have := (List.mem_filter.mp hb).1
    simpa using (List.mem_zipIdx_iff_getElem?.mp this)
  have hmem : ∀ b, b ∈ l.filter op.test ↔ b ∈ l ∧ Wanted op b := by
    intro b; rw [List.mem_filter, test_iff]
  constructor
  · intro hno
    have : (l.zipIdx.filter (fun p => op.test p.1)).length = 0 := by
      have h0 : l.filter op.test = [] := by
        rw [List.eq_nil_iff_forall_not_mem]
        intro b hb
        exact hno b ((hmem b).mp hb).1 ((hmem b).mp hb).2
      have := congrArg List.length hfst
      rw [h0] at this
      simpa using this
    rw [key, if_pos this]
    exact ⟨_, rfl, rfl, rfl, rfl⟩
  · rintro ⟨z, hz, hw⟩
    have : ¬ (l.zipIdx.filter (fun p => op.test p.1)).length = 0 := by
      intro h0
      have h1 := congrArg List.length hfst
      rw [List.length_map, h0] at h1
      have h2 := (hmem z).mpr ⟨hz, hw⟩
      rw [List.eq_nil_of_length_eq_zero h1.symm] at h2
      simp at h2
    rw [key, if_neg this, hfst]
    exact ⟨_, l.filter op.test, rfl, partOf_gather hv hl hids (hlnd.filter _), List.filter_sublist, hmem⟩

/-- C38: errors of `keep_label`. -/
theorem C38_keep_label_errors [LinearOrder L] {y : Larry L} (hv : y.Valid) (op : LabelOp L) :
    (∀ axis, y.keepLabel .unknown axis = .error .valueError) ∧
    y.keepLabel op none = .error .valueError ∧
    (∀ a, op ≠ .unknown → pyIdx y.ndim a = none → y.keepLabel op (some a) = .error .indexError) := by
  refine ⟨fun _ => rfl, by cases op <;> rfl, fun a hop ha => ?_⟩
  have : pyIdx y.label.length a = none := by rw [hv.label_length]; exact ha
  cases op <;> first | exact absurd rfl hop | simp [keepLabel, this]

example : exA.Valid ∧ (LabelOp.gt 1 : LabelOp Nat) ≠ .unknown ∧ pyIdx exA.ndim (-1) = some 1 ∧
    exA.label[1]? = some [3, 1, 2] ∧ ∃ z ∈ [3, 1, 2], Wanted (LabelOp.gt 1 : LabelOp Nat) z :=
  ⟨exA_valid, by simp, by decide, by decide, 3, by decide, by simp [Wanted]⟩

/-! ## C41: labelindex -/

/-- C41. `labelindex` finds the position of an existing name; for an absent name it raises IndexError
unless `exact=False`, and then gives the last position holding a smaller label (IndexError if there is
none). -/
theorem C41_labelindex [LinearOrder L] {y : Larry L} (hv : y.Valid) {a : Int} {ax : Nat} {l : List L}
    (hax : pyIdx y.ndim a = some ax) (hl : y.label[ax]? = some l) (name : L) :
    (∀ exact i, l[i]? = some name → y.labelindex name (some a) exact = .ok i) ∧
    (name ∉ l → y.labelindex name (some a) true = .error .indexError) ∧
    (name ∉ l → (∃ b ∈ l, b < name) → ∃ i b, y.labelindex name (some a) false = .ok i ∧
      l[i]? = some b ∧ b < name ∧ ∀ j b', l[j]? = some b' → b' < name → j ≤ i) ∧
    (name ∉ l → (∀ b ∈ l, ¬ b < name) → y.labelindex name (some a) false = .error .indexError) := by
  have hll := hv.label_length
  have hlnd := hv.nodup l (List.mem_of_getElem? hl)
  have hlt : ¬ (a ≥ (y.ndim : Int)) := by have := pyIdx_some.mp hax; omega
  have h1 : pyGet y.label a = .ok l := pyGet_ok.mpr ⟨ax, by rw [hll]; exact hax, hl⟩
  set f : Nat → Bool := fun i => match l[i]? with | some z => decide (z ≤ name) | none => false with hf
  have hfm : ∀ i, i ∈ (List.range l.length).filter f ↔ ∃ b, l[i]? = some b ∧ b ≤ name := by
    intro i
    rw [List.mem_filter, List.mem_range, hf]
    constructor
    · rintro ⟨hi, h⟩
      simp only [List.getElem?_eq_getElem hi] at h
      exact ⟨l[i], List.getElem?_eq_getElem hi, by simpa using h⟩
    · rintro ⟨b, hb, hle⟩
      refine ⟨(List.getElem?_eq_some_iff.mp hb).1, ?_⟩
      simp [hb, hle]
  have hno : name ∉ l → y.labelindex name (some a) false =
      match ((List.range l.length).filter f).getLast? with
      | none => .error .indexError | some i => .ok i := by
    intro hn
    simp only [labelindex, if_neg hlt, h1, pyIndex_none.mpr hn]
    rfl
  refine ⟨fun exact i hi => ?_, fun hn => ?_, fun hn hex => ?_, fun hn hall => ?_⟩
  · simp only [labelindex, if_neg hlt, h1, pyIndex_of_nodup hlnd hi]
  · simp only [labelindex, if_neg hlt, h1, pyIndex_none.mpr hn]
    rfl
  · rw [hno hn]
    have hne : (List.range l.length).filter f ≠ [] := by
      obtain ⟨b, hb, hlt⟩ := hex
      obtain ⟨i, hi⟩ := List.mem_iff_getElem?.mp hb
      exact List.ne_nil_of_mem ((hfm i).mpr ⟨b, hi, le_of_lt hlt⟩)
    rw [List.getLast?_eq_some_getLast hne]
    obtain ⟨b, hb, hle⟩ := (hfm _).mp (List.getLast_mem hne)
    have hbne : b ≠ name := fun h => hn (h ▸ List.mem_of_getElem? hb)
    refine ⟨_, b, rfl, hb, lt_of_le_of_ne hle hbne, fun j b' hj hlt' => ?_⟩
    have hjm := (hfm j).mpr ⟨b', hj, le_of_lt hlt'⟩
    have hsorted : ((List.range l.length).filter f).Pairwise (· < ·) := List.pairwise_lt_range.filter _
    rcases List.eq_nil_or_concat ((List.range l.length).filter f) with h0 | ⟨init, last, h0⟩
    · exact absurd h0 hne
    · simp only [h0, List.getLast_append_singleton] at hjm ⊢
      rw [h0, List.concat_eq_append, List.pairwise_append] at hsorted
      simp only [List.concat_eq_append, List.mem_append, List.mem_singleton,
        List.getLast_append_singleton] at hjm ⊢
      rcases hjm with hj' | rfl
      · exact le_of_lt (hsorted.2.2 j hj' last (by simp))
      · exact le_refl _
  · rw [hno hn]
    have : (List.range l.length).filter f = [] := by
      rw [List.eq_nil_iff_forall_not_mem]
      intro i hi
      obtain ⟨b, hb, hle⟩ := (hfm i).mp hi
      exact hall b (List.mem_of_getElem? hb)
        (lt_of_le_of_ne hle (fun h => hn (h ▸ List.mem_of_getElem? hb)))
    rw [this]; rfl

/-- C41: on sorted labels the result for an absent name is the nearest smaller label. -/
theorem C41_nearest [LinearOrder L] {y : Larry L} (hv : y.Valid) {a : Int} {ax : Nat} {l : List L}
    (hax : pyIdx y.ndim a = some ax) (hl : y.label[ax]? = some l) (hs : l.Pairwise (· < ·)) {name : L}
    (hn : name ∉ l) {i : Nat} (h : y.labelindex name (some a) false = .ok i) :
    ∃ b, l[i]? = some b ∧ b < name ∧ ∀ b' ∈ l, b' < name → b' ≤ b := by
  obtain ⟨_, _, h3, h4⟩ := C41_labelindex hv hax hl name
  by_cases hex : ∃ b ∈ l, b < name
  · obtain ⟨i', b, e1, e2, e3, e4⟩ := h3 hn hex
    rw [h] at e1
    simp only [Except.ok.injEq] at e1
    subst e1
    refine ⟨b, e2, e3, fun b' hb' hlt => ?_⟩
    obtain ⟨j, hj⟩ := List.mem_iff_getElem?.mp hb'
    have hji := e4 j b' hj hlt
    rcases Nat.lt_or_eq_of_le hji with hlt' | rfl
    · obtain ⟨p1, p2⟩ := List.getElem?_eq_some_iff.mp hj
      obtain ⟨q1, q2⟩ := List.getElem?_eq_some_iff.mp e2
      rw [← p2, ← q2]
      exact le_of_lt (List.pairwise_iff_getElem.mp hs j i p1 q1 hlt')
    · rw [hj] at e2
      simp only [Option.some.injEq] at e2
      exact le_of_eq e2
  · push Not at hex
    rw [h4 hn (fun b hb => not_lt.mpr (hex b hb))] at h
    simp at h

/-- C41: errors for a bad axis. -/
theorem C41_labelindex_axis [LinearOrder L] {y : Larry L} (hv : y.Valid) (name : L) (exact : Bool) :
    y.labelindex name none exact = .error .valueError ∧
    ∀ a, pyIdx y.ndim a = none → y.labelindex name (some a) exact = .error .indexError := by
  refine ⟨rfl, fun a ha => ?_⟩
  have : pyGet y.label a = .error .indexError := pyGet_error (by rw [hv.label_length]; exact ha)
  simp [labelindex, this]

example : exA.Valid ∧ pyIdx exA.ndim 0 = some 0 ∧ exA.label[0]? = some [10, 20] ∧
    ([10, 20] : List Nat).Pairwise (· < ·) ∧ 15 ∉ ([10, 20] : List Nat) ∧
    exA.labelindex 15 (some 0) false = .ok 0 :=
  ⟨exA_valid, by decide, by decide, by decide, by decide, by rfl⟩

end La
