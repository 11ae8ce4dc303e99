import Verif.Larry

/-!
# Model of the structural methods of `larry` (la/deflarry.py)

Sorting, flipping, lagging, transposing, selecting, inserting and removing axes.  Values only; who
shares which buffer is in `Verif/Heap.lean`.
-/

namespace La

/-- `l[s]` for a Python list and a slice. -/
def pySliceList {α : Type _} (l : List α) (s : PySlice) : Res (List α) :=
  match sliceIndices l.length s with
  | .error e => .error e
  | .ok ids => .ok (ids.filterMap (fun i => l[i]?))

/-- `[l[i] for i in indices]` for a Python list: IndexError on an out-of-range index. -/
def pyItems {α : Type _} (l : List α) (indices : List Int) : Res (List α) := mapRes (pyGet l) indices

/-- `list.insert(i, a)`: the position is normalised and clamped, never an error. -/
def pyInsert {α : Type _} (l : List α) (i : Int) (a : α) : List α :=
  let k : Int := if i < 0 then max 0 (i + l.length) else min i l.length
  l.take k.toNat ++ a :: l.drop k.toNat

/-- `list.pop(i)` used for its effect: IndexError when out of range. -/
def pyPop {α : Type _} (l : List α) (i : Int) : Res (List α) :=
  match pyIdx l.length i with
  | none => .error .indexError
  | some k => .ok (l.eraseIdx k)

/-- Exchange of two items of a list, `l[i], l[j] = l[j], l[i]`. -/
def swapList {α : Type _} (l : List α) (i j : Nat) : List α :=
  match l[i]?, l[j]? with
  | some a, some b => (l.set i b).set j a
  | _, _ => l

/-- Multi-index into the unsqueezed array: 0 on the axes of length 1. -/
def unsqueeze : List Nat → List Nat → List Nat
  | [], _ => []
  | n :: ns, idx => if n = 1 then 0 :: unsqueeze ns idx
    else match idx with
      | i :: is => i :: unsqueeze ns is
      | [] => 0 :: unsqueeze ns []

namespace NDArray
variable {α : Type _}

/-- `np.swapaxes(a, i, j)`, axes normalised. -/
def swapaxes (a : NDArray α) (i j : Nat) : NDArray α :=
  ⟨swapList a.shape i j, fun idx => a.get (swapList idx i j)⟩

/-- `a.squeeze()` -/
def squeeze (a : NDArray α) : NDArray α :=
  ⟨a.shape.filter (· ≠ 1), fun idx => a.get (unsqueeze a.shape idx)⟩

/-- Where `np.expand_dims(a, axis)` (numpy 1.6/1.7: `shape[:axis] + (1,) + shape[axis:]` after adding
`ndim + 1` to a negative axis) puts the new axis; no axis is refused. -/
def expandPos (ndim : Nat) (axis : Int) : Nat :=
  let a := if axis < 0 then axis + ndim + 1 else axis
  if a < 0 then (max 0 (a + ndim)).toNat else (min a ndim).toNat

/-- `np.expand_dims(a, axis)` -/
def expandDims (a : NDArray α) (axis : Int) : NDArray α :=
  let p := expandPos a.ndim axis
  ⟨a.shape.take p ++ 1 :: a.shape.drop p, fun idx => a.get (idx.eraseIdx p)⟩

/-- `a[:, …, i, …, :]` with the nonnegative integer `i` on axis `ax`: that axis disappears. -/
def pick (a : NDArray α) (i ax : Nat) : NDArray α :=
  ⟨a.shape.eraseIdx ax, fun idx => a.get (idx.insertIdx ax i)⟩

end NDArray

/-- What a method returns that gives either a plain element or a larry. -/
inductive Out (L : Type _)
  | scalar (v : Val)
  | larry (y : Larry L)

/-- The comparison asked of `keep_label` (la/deflarry.py:2441-2473). -/
inductive LabelOp (L : Type _)
  | eq (v : L) | gt (v : L) | lt (v : L) | ge (v : L) | le (v : L) | ne (v : L)
  | isIn (vs : List L) | notIn (vs : List L)
  | unknown

/-- The condition on a label `z` in each list comprehension of `keep_label`
(la/deflarry.py:2450-2473). -/
def LabelOp.test {L : Type _} [LinearOrder L] : LabelOp L → L → Bool
  | .eq v, z => decide (z = v)
  | .gt v, z => decide (z > v)
  | .lt v, z => decide (z < v)
  | .ge v, z => decide (z ≥ v)
  | .le v, z => decide (z ≤ v)
  | .ne v, z => decide (z ≠ v)
  | .isIn vs, z => decide (z ∈ vs)
  | .notIn vs, z => decide (z ∉ vs)
  | .unknown, _ => false

namespace Larry
variable {L : Type _}

/-- The axes a method loops over: `range(ndim)` for `axis=None`, else `[axis]`. -/
def axesOf (ndim : Nat) : Option Int → List Int
  | none => (List.range ndim).map (fun i : Nat => (i : Int))
  | some a => [a]

section order
variable [LinearOrder L]

/-- `sorted(l, reverse=reverse)` -/
def sortedLab (reverse : Bool) (l : List L) : List L := if reverse then pySortedRev l else pySorted l

/-- Loop of `sortaxis` (la/deflarry.py:3694-3699). -/
def sortaxisLoop (self : Larry L) (reverse : Bool) : List Int → Larry L → Res (Larry L)
  | [], y => .ok y
  | ax :: axs, y =>
    match pyGet self.shape ax with                                       -- 3695
    | .error e => .error e
    | .ok n =>
      if n > 1 then
        match pyGet self.label ax with                                   -- 3696
        | .error e => .error e
        | .ok l => match y.morph (sortedLab reverse l) ax with           -- 3697
          | .error e => .error e
          | .ok y => sortaxisLoop self reverse axs y
      else sortaxisLoop self reverse axs y.copy                          -- 3699

/-- `larry.sortaxis(axis, reverse)` (la/deflarry.py:3688-3700). -/
def sortaxis (y : Larry L) (axis : Option Int := none) (reverse : Bool := false) : Res (Larry L) :=
  sortaxisLoop y reverse (axesOf y.ndim axis) y

/-- `larry.keep_label(op, value, axis)` (la/deflarry.py:2441-2482); `axis = none` is Python `None`. -/
def keepLabel (y : Larry L) (op : LabelOp L) (axis : Option Int) : Res (Larry L) :=
  match op with
  | .unknown => .error .valueError                                       -- 2442-2443
  | op => match axis with
    | none => .error .valueError                                         -- 2444-2445
    | some axis =>
      if axis ≥ y.ndim then .error .indexError                           -- 2446-2447
      else match pyIdx y.label.length axis with
        | none => .error .indexError                                     -- y.label[axis]
        | some ax =>
          let idxlabel := (y.label.getD ax []).zipIdx.filter (fun p => op.test p.1)  -- 2450-2473
          if idxlabel.length = 0 then .ok emptyLarry                     -- 2474-2475
          else .ok ⟨y.x.gather (idxlabel.map Prod.snd) ax, y.dtype,
            y.label.set ax (idxlabel.map Prod.fst)⟩                      -- 2477-2482

/-- `larry.pull(name, axis)` (la/deflarry.py:2357-2367). -/
def pull (y : Larry L) (name : L) (axis : Option Int) : Res (Out L) :=
  match axis with
  | none => .error .valueError                                           -- 2357-2358
  | some axis =>
    match pyPop y.label axis with                                        -- 2359-2360
    | .error e => .error e
    | .ok label => match y.labelindex name (some axis) with              -- 2361
      | .error e => .error e
      | .ok idx => match pyIdx y.ndim axis with                          -- 2362-2363
        | none => .error .indexError
        | some ax =>
          if idx ≥ y.x.shape.getD ax 0 then .error .indexError           -- 2364
          else
            let x := y.x.pick idx ax
            if x.shape = [1] then .ok (.scalar (x.get [0]))              -- 2365-2366
            else match mk' x y.dtype label with                          -- 2367
              | .error e => .error e
              | .ok z => .ok (.larry z)

/-- `larry.take(indices, axis)` (la/deflarry.py:1952-1959). -/
def take (y : Larry L) (indices : List Int) (axis : Int) : Res (Larry L) :=
  match pyIdx y.label.length axis with                                   -- 1952-1953
  | none => .error .indexError
  | some ax => match pyItems (y.label.getD ax []) indices with           -- 1954
    | .error e => .error e
    | .ok lab =>
      if hasDup lab then .error .indexError                              -- 1955-1956
      else match y.x.take indices axis with                              -- 1958
        | .error e => .error e
        | .ok x => .ok ⟨x, y.dtype, y.label.set ax lab⟩                  -- 1957, 1959

end order

/-- Loop of `flipaxis` (la/deflarry.py:3771-3775). -/
def flipaxisLoop : List Int → Larry L → Res (Larry L)
  | [], y => .ok y
  | axis :: axs, y =>
    match pyIdx y.label.length axis with
    | none => .error .indexError
    | some ax => match pySliceList (y.label.getD ax []) ⟨none, none, some (-1)⟩ with  -- 3772
      | .error e => .error e
      | .ok lab => match y.x.sliceAx ⟨none, none, some (-1)⟩ ax with     -- 3773-3775
        | .error e => .error e
        | .ok x => flipaxisLoop axs ⟨x, y.dtype, y.label.set ax lab⟩

/-- `larry.flipaxis(axis, copy)` (la/deflarry.py:3762-3776). -/
def flipaxis (y : Larry L) (axis : Option Int := none) : Res (Larry L) :=
  flipaxisLoop (axesOf y.ndim axis) y

/-- The two slices of `lag` (la/deflarry.py:3597-3606): the labels kept and the data kept. -/
def lagSlices (nlag : Int) : PySlice × PySlice :=
  if nlag > 0 then (⟨some nlag, none, none⟩, ⟨some 0, some (-nlag), none⟩)
  else (⟨none, some nlag, none⟩, ⟨some (-nlag), none, none⟩)

/-- `larry.lag(nlag, axis)` (la/deflarry.py:3593-3611); `axis = none` is Python `None`. -/
def lag (y : Larry L) (nlag : Int) (axis : Option Int := some (-1)) : Res (Larry L) :=
  match axis with
  | none => .error .indexError                                           -- 3593-3594
  | some axis =>
    if nlag = 0 then .ok y.copy                                          -- 3607-3608
    else match pyIdx y.label.length axis with
      | none => .error .indexError
      | some ax => match pySliceList (y.label.getD ax []) (lagSlices nlag).1 with
        | .error e => .error e
        | .ok lab => match y.x.sliceAx (lagSlices nlag).2 ax with
          | .error e => .error e
          | .ok x => .ok ⟨x, y.dtype, y.label.set ax lab⟩

/-- `larry.T` (la/deflarry.py:4227-4230). -/
def T (y : Larry L) : Larry L := ⟨y.x.transpose, y.dtype, y.label.reverse⟩

/-- `larry.swapaxes(axis1, axis2)` (la/deflarry.py:4281-4284). -/
def swapaxes (y : Larry L) (axis1 axis2 : Int) : Res (Larry L) :=
  match pyIdx y.label.length axis1, pyIdx y.label.length axis2 with      -- 4282
  | some i, some j => .ok ⟨y.x.swapaxes i j, y.dtype, swapList y.label i j⟩  -- 4283
  | _, _ => .error .indexError

/-- `larry.squeeze()` (la/deflarry.py:3536-3541). -/
def squeeze (y : Larry L) : Larry L :=
  ⟨y.x.squeeze, y.dtype,
    ((y.label.zip y.shape).filter (fun p => p.2 ≠ 1)).map Prod.fst⟩

/-- `larry.insertaxis(axis, label)` (la/deflarry.py:4447-4459). -/
def insertaxis [DecidableEq L] (y : Larry L) (axis : Option Int) (name : L) : Res (Larry L) :=
  match axis with
  | none => .error .valueError                                           -- 4447-4448
  | some axis =>
    let ax : Int := if axis = -1 then y.label.length else if axis < -1 then axis + 1 else axis
    mk' (y.x.expandDims axis) y.dtype (pyInsert y.label ax [name])       -- 4449-4459

/-- `larry.maplabel(func, axis)` (la/deflarry.py:2692-2701). -/
def maplabel (y : Larry L) (f : L → L) (axis : Option Int := none) : Res (Larry L) :=
  match axis with
  | none => .ok { y with label := y.label.map (List.map f) }             -- 2696-2698
  | some axis => match pyIdx y.label.length axis with
    | none => .error .indexError
    | some ax => .ok { y with label := y.label.set ax ((y.label.getD ax []).map f) }  -- 2700

end Larry
end La
