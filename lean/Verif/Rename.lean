import Verif.History
import Mathlib.Data.List.Dedup
import Mathlib.Order.Monotone.Basic

/-!
# Renaming labels: the primitives

`g` sends labels to labels.  Where the code only compares labels for equality `g` is injective; where
it sorts them `g` keeps the order.  This file has the list functions; the methods of larry are in
RenameMethods.lean and RenameJoin.lean, programs in Props/Rename.lean.
-/

namespace La
section
variable {L M : Type _} (g : L → M)

/-- The larry with every label replaced. -/
def Larry.rename (y : Larry L) : Larry M := ⟨y.x, y.dtype, y.label.map (List.map g)⟩

@[simp] theorem rename_x (y : Larry L) : (y.rename g).x = y.x := rfl
@[simp] theorem rename_dtype (y : Larry L) : (y.rename g).dtype = y.dtype := rfl
@[simp] theorem rename_label (y : Larry L) : (y.rename g).label = y.label.map (List.map g) := rfl
@[simp] theorem rename_ndim (y : Larry L) : (y.rename g).ndim = y.ndim := rfl
@[simp] theorem rename_shape (y : Larry L) : (y.rename g).shape = y.shape := rfl
@[simp] theorem rename_size (y : Larry L) : (y.rename g).size = y.size := rfl
@[simp] theorem rename_copy (y : Larry L) : (y.rename g).copy = y.copy.rename g := rfl
theorem rename_mk (x : NDArray Val) (d : DType) (l : List (List L)) :
    Larry.rename g ⟨x, d, l⟩ = ⟨x, d, l.map (List.map g)⟩ := rfl

@[simp] theorem rename_empty : Larry.rename g (Larry.emptyLarry : Larry L) = Larry.emptyLarry := rfl

/-- The exception stays, the value is mapped. -/
def Res.map {α β : Type _} (f : α → β) : Res α → Res β
  | .error e => .error e
  | .ok a => .ok (f a)

@[simp] theorem Res.map_ok {α β : Type _} (f : α → β) (a : α) : Res.map f (.ok a) = .ok (f a) := rfl
@[simp] theorem Res.map_error {α β : Type _} (f : α → β) (e : PyErr) : Res.map f (.error e) = .error e := rfl

theorem Res.map_map {α β γ : Type _} (f : α → β) (h : β → γ) (r : Res α) :
    Res.map h (Res.map f r) = Res.map (h ∘ f) r := by cases r <;> rfl

theorem Res.map_id' {α : Type _} (f : α → α) (hf : ∀ a, f a = a) (r : Res α) : Res.map f r = r := by
  cases r <;> simp [hf]

theorem Res.ite_map {α β : Type _} {f : α → β} {c c' : Prop} [Decidable c] [Decidable c'] {a b : Res α}
    {a' b' : Res β} (h : c' ↔ c) (ha : a' = Res.map f a) (hb : b' = Res.map f b) :
    (if c' then a' else b') = Res.map f (if c then a else b) := by
  by_cases hc : c
  · rw [if_pos hc, if_pos (h.2 hc), ha]
  · rw [if_neg hc, if_neg (fun h' => hc (h.1 h')), hb]

variable {g}

theorem pyGet_map {α β : Type _} (f : α → β) (l : List α) (i : Int) :
    pyGet (l.map f) i = Res.map f (pyGet l i) := by
  unfold pyGet
  rw [List.length_map]
  cases h : pyIdx l.length i with
  | none => rfl
  | some k =>
    simp only [List.getElem?_map]
    cases h2 : l[k]? with
    | none => rfl
    | some a => rfl

theorem mapRes_congr' {α β : Type _} {f h : α → Res β} {l : List α} (hf : ∀ a ∈ l, f a = h a) :
    mapRes f l = mapRes h l := by
  induction l with
  | nil => rfl
  | cons a l ih =>
    simp only [mapRes]
    rw [hf a (by simp), ih (fun b hb => hf b (by simp [hb]))]

theorem mapRes_rename {α β γ : Type _} {f : α → Res β} {h : α → Res γ} {p : β → γ} {l : List α}
    (hf : ∀ a ∈ l, h a = Res.map p (f a)) : mapRes h l = Res.map (List.map p) (mapRes f l) := by
  induction l with
  | nil => rfl
  | cons a l ih =>
    simp only [mapRes]
    rw [hf a (by simp), ih (fun b hb => hf b (by simp [hb]))]
    cases f a with
    | error e => rfl
    | ok b => cases mapRes f l <;> rfl

theorem mapRes_list {α β γ : Type _} (q : α → β) (f : β → Res γ) (l : List α) :
    mapRes f (l.map q) = mapRes (fun a => f (q a)) l := by
  induction l with
  | nil => rfl
  | cons a l ih => simp only [List.map_cons, mapRes, ih]

theorem getD_rename (g : L → M) (l : List (List L)) (i : Nat) :
    (l.map (List.map g)).getD i [] = (l.getD i []).map g := by
  simp only [List.getD_eq_getElem?_getD, List.getElem?_map]
  cases l[i]? <;> rfl

theorem set_rename (g : L → M) (l : List (List L)) (i : Nat) (lab : List L) :
    (l.map (List.map g)).set i (lab.map g) = (l.set i lab).map (List.map g) := by
  rw [List.map_set]

theorem pySliceList_map {α β : Type _} (f : α → β) (l : List α) (s : PySlice) :
    pySliceList (l.map f) s = Res.map (List.map f) (pySliceList l s) := by
  unfold pySliceList
  rw [List.length_map]
  cases sliceIndices l.length s with
  | error e => rfl
  | ok ids =>
    simp only [Res.map_ok, List.getElem?_map, List.map_filterMap]

theorem pyItems_map {α β : Type _} (f : α → β) (l : List α) (is : List Int) :
    pyItems (l.map f) is = Res.map (List.map f) (pyItems l is) :=
  mapRes_rename (fun i _ => pyGet_map f l i)

theorem pyInsert_map {α β : Type _} (f : α → β) (l : List α) (i : Int) (a : α) :
    pyInsert (l.map f) i (f a) = (pyInsert l i a).map f := by
  unfold pyInsert
  simp [List.map_take, List.map_drop]

theorem pyPop_labels {α β : Type _} (f : α → β) (l : List α) (i : Int) :
    pyPop (l.map f) i = Res.map (List.map f) (pyPop l i) := by
  unfold pyPop
  rw [List.length_map]
  cases pyIdx l.length i with
  | none => rfl
  | some k => simp [List.eraseIdx_eq_take_drop_succ, List.map_take, List.map_drop]

theorem swapList_map {α β : Type _} (f : α → β) (l : List α) (i j : Nat) :
    swapList (l.map f) i j = (swapList l i j).map f := by
  unfold swapList
  simp only [List.getElem?_map]
  cases l[i]? with
  | none => rfl
  | some a =>
    cases l[j]? with
    | none => rfl
    | some b => simp [List.map_set]

end

section
variable {L M : Type _} [DecidableEq L] [DecidableEq M] {g : L → M} (hg : Function.Injective g)
include hg

omit [DecidableEq L] [DecidableEq M] in
theorem labels_inj {a b : List (List L)} : a.map (List.map g) = b.map (List.map g) ↔ a = b :=
  (List.map_injective_iff.2 (List.map_injective_iff.2 hg)).eq_iff

omit [DecidableEq L] [DecidableEq M] in
theorem labs_inj {a b : List L} : a.map g = b.map g ↔ a = b := (List.map_injective_iff.2 hg).eq_iff

theorem dedup_rename (l : List L) : (l.map g).dedup = l.dedup.map g := List.dedup_map_of_injective hg l

theorem hasDup_rename (l : List L) : hasDup (l.map g) = hasDup l := by
  unfold hasDup
  rw [dedup_rename hg, List.length_map, List.length_map]

theorem pyIndex_rename (l : List L) (a : L) : pyIndex (l.map g) (g a) = pyIndex l a := by
  unfold pyIndex
  induction l with
  | nil => rfl
  | cons b l ih =>
    simp only [List.map_cons, List.idxOf?_cons, ih]
    have : (g b == g a) = (b == a) := by
      rw [Bool.eq_iff_iff]; simp [hg.eq_iff]
    rw [this]

theorem zipDict_rename (l : List L) (q : L) : zipDict (l.map g) (g q) = zipDict l q := by
  rw [zipDict_eq, zipDict_eq, List.zipIdx_map, ← List.map_reverse, List.find?_map, Option.map_map]
  have : ((fun p : M × Nat => decide (p.1 = g q)) ∘ Prod.map g id) = fun p : L × Nat => decide (p.1 = q) := by
    funext p; simp [hg.eq_iff]
  rw [this]
  rfl

theorem getItem_rename (l : List L) (q : L) :
    PyDict.getItem (zipDict (l.map g)) (g q) = PyDict.getItem (zipDict l) q := by
  unfold PyDict.getItem
  rw [zipDict_rename hg]

theorem listmap_rename (l m : List L) (b : Bool) : listmap (l.map g) (m.map g) b = listmap l m b := by
  unfold listmap
  simp only
  split
  · rw [List.filter_map, mapRes_list]
    have : ((fun i => (zipDict (l.map g) i).isSome) ∘ g) = fun i => (zipDict l i).isSome := by
      funext i; simp [zipDict_rename hg]
    rw [this]
    exact mapRes_congr' (fun a _ => getItem_rename hg l a)
  · rw [mapRes_list]
    exact mapRes_congr' (fun a _ => getItem_rename hg l a)

theorem listmapFill_rename (l m : List L) (fill : Int) :
    listmapFill (l.map g) (m.map g) fill = listmapFill l m fill := by
  rw [listmapFill_eq, listmapFill_eq, List.map_map]
  have h1 : (fillVal (l.map g) fill ∘ g) = fillVal l fill := by
    funext a; simp [fillVal, zipDict_rename hg]
  have h2 : missPos (l.map g) (m.map g) = missPos l m := by
    unfold missPos
    rw [List.length_map]
    apply List.filter_congr
    intro i _
    rw [List.getElem?_map]
    cases m[i]? <;> simp [zipDict_rename hg]
  rw [h1, h2]

theorem setInter_rename (l m : List L) : (l.map g).dedup.filter (· ∈ m.map g) = (l.dedup.filter (· ∈ m)).map g := by
  rw [dedup_rename hg, List.filter_map]
  congr 1
  apply List.filter_congr
  intro a _
  simp [hg.eq_iff]

theorem setUnion_rename (l m : List L) : (l.map g ++ m.map g).dedup = (l ++ m).dedup.map g := by
  rw [← List.map_append, dedup_rename hg]

omit [DecidableEq L] [DecidableEq M] in
theorem mem_rename {a : L} {l : List L} : g a ∈ l.map g ↔ a ∈ l := by simp [hg.eq_iff]

theorem mk'_rename (x : NDArray Val) (d : DType) (label : List (List L)) :
    Larry.mk' x d (label.map (List.map g)) = Res.map (Larry.rename g) (Larry.mk' x d label) := by
  unfold Larry.mk'
  rw [List.length_map, List.zip_map_left, List.any_map]
  have : ((fun p : List M × Nat => p.2 != p.1.length || hasDup p.1) ∘ Prod.map (List.map g) id) =
      fun p : List L × Nat => p.2 != p.1.length || hasDup p.1 := by
    funext p; simp [hasDup_rename hg]
  rw [this]
  split
  · rfl
  · split
    · rfl
    · split <;> rfl

end

section
variable {L M : Type _} [LinearOrder L] [LinearOrder M] {g : L → M} (hg : StrictMono g)
include hg

theorem setInter_rename' (l m : List L) : setInter (l.map g) (m.map g) = (setInter l m).map g :=
  setInter_rename hg.injective l m

theorem setUnion_rename' (l m : List L) : setUnion (l.map g) (m.map g) = (setUnion l m).map g :=
  setUnion_rename hg.injective l m

theorem pySorted_rename (l : List L) : pySorted (l.map g) = (pySorted l).map g := by
  unfold pySorted
  rw [List.map_insertionSort (r := (· ≤ ·)) (s := (· ≤ ·)) g l]
  intro a _ b _
  exact hg.le_iff_le.symm

theorem pySortedRev_rename (l : List L) : pySortedRev (l.map g) = (pySortedRev l).map g := by
  unfold pySortedRev
  rw [List.map_insertionSort (r := fun a b => b ≤ a) (s := fun a b => b ≤ a) g l]
  intro a _ b _
  exact hg.le_iff_le.symm

theorem sortedLab_rename (r : Bool) (l : List L) :
    Larry.sortedLab r (l.map g) = (Larry.sortedLab r l).map g := by
  cases r
  · exact pySorted_rename hg l
  · exact pySortedRev_rename hg l

end
end La
