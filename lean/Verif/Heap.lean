import Verif.Flarry
import Verif.Setitem

/-!
# References: which larrys share memory

The other modules treat larrys as values.  Here a larry is an object that refers to an array and to a
list of lists, and a program holds references.  Four kinds of thing live at addresses: the buffer of an
array, a list of labels, a list of references to lists of labels (`larry.label`), and a larry.  An array
is a view: a buffer and, for each position of the array, the cell of the buffer it shows.

Methods are modelled line by line as far as allocation, sharing and writing go: what is copied, what is
shared, what is written in place.  The values that numpy computes into a new array are those of the value
model in the other modules.  Numpy rules used: basic indexing (integers and slices), `T`, `swapaxes`,
`squeeze` give views; `copy`, `take`, `astype`, indexing with a list or mask, arithmetic, reductions and
the functions of la/farray give new arrays (each of them was checked to return a new array and to leave
its argument alone).
-/

namespace La

/-- A numpy array: `ix.get i` is the cell of buffer `buf` that position `i` of the array shows. -/
structure View where
  buf : Nat
  ix : NDArray (List Nat)
  dtype : DType

/-- A larry: `self.x` and the address of the list `self.label` (la/deflarry.py:137-138). -/
structure Obj where
  x : View
  label : Nat

/-- What lives at an address. -/
inductive HCell (L : Type)
  | buf (f : List Nat → Val)
  | lst (l : List L)
  | out (as : List Nat)
  | obj (o : Obj)

/-- The memory.  New things are put at address `next`. -/
structure Heap (L : Type) where
  cell : Nat → Option (HCell L)
  next : Nat

variable {L : Type}

namespace Heap

/-- The contents of a buffer. -/
def buf (h : Heap L) (a : Nat) : List Nat → Val :=
  match h.cell a with
  | some (.buf f) => f
  | _ => fun _ => .none

/-- The contents of a list of labels. -/
def lst (h : Heap L) (a : Nat) : List L :=
  match h.cell a with
  | some (.lst l) => l
  | _ => []

/-- The references in a list of lists. -/
def out (h : Heap L) (a : Nat) : List Nat :=
  match h.cell a with
  | some (.out as) => as
  | _ => []

/-- The elements an array shows. -/
def array (h : Heap L) (v : View) : NDArray Val := v.ix.map (h.buf v.buf)

/-- The value of a larry. -/
def value (h : Heap L) (o : Obj) : Larry L := ⟨h.array o.x, o.x.dtype, (h.out o.label).map h.lst⟩

/-- There is a buffer, a list of labels, a list of lists at the address. -/
def isBuf (h : Heap L) (a : Nat) : Bool :=
  match h.cell a with
  | some (.buf _) => true
  | _ => false

def isLst (h : Heap L) (a : Nat) : Bool :=
  match h.cell a with
  | some (.lst _) => true
  | _ => false

def isOut (h : Heap L) (a : Nat) : Bool :=
  match h.cell a with
  | some (.out _) => true
  | _ => false

/-- The larry at an address, as a value, if there is one. -/
def larry (h : Heap L) (p : Nat) : Option (Larry L) :=
  match h.cell p with
  | some (.obj o) =>
    if h.isBuf o.x.buf && h.isOut o.label && (h.out o.label).all h.isLst then some (h.value o) else none
  | _ => none

end Heap

/-- A computation that reads and writes the memory and may raise; what was written before an exception
stays written, and addresses given out are never given out again. -/
def HM (L : Type) (α : Type) := (h : Heap L) → Res α × {h' : Heap L // h.next ≤ h'.next}

namespace HM
variable {α β : Type}

/-- The outcome. -/
def out (m : HM L α) (h : Heap L) : Res α := (m h).1

/-- The memory afterwards. -/
def after (m : HM L α) (h : Heap L) : Heap L := (m h).2.1

def ret (a : α) : HM L α := fun h => (.ok a, ⟨h, le_refl _⟩)

/-- `f` on the outcome of a computation, if it did not raise. -/
def andThen (m : HM L α) (f : α → HM L β) : HM L β := fun h =>
  match m h with
  | (.error e, h1) => (.error e, h1)
  | (.ok a, ⟨h1, hle⟩) => ((f a h1).1, ⟨(f a h1).2.1, hle.trans (f a h1).2.2⟩)

instance : Monad (HM L) where
  pure := HM.ret
  bind := HM.andThen

/-- A computation on values. -/
def lift (r : Res α) : HM L α := fun h => (r, ⟨h, le_refl _⟩)

/-- Look at the memory. -/
def look (f : Heap L → α) : HM L α := fun h => (.ok (f h), ⟨h, le_refl _⟩)

end HM

open HM

/-! ## Primitives -/

/-- Put something new in the memory. -/
def alloc (c : HCell L) : HM L Nat := fun h =>
  (.ok h.next, ⟨⟨fun a => if a = h.next then some c else h.cell a, h.next + 1⟩, Nat.le_succ _⟩)

/-- Overwrite what is at an address. -/
def put (a : Nat) (c : HCell L) : HM L Unit := fun h =>
  (.ok (), ⟨⟨fun b => if b = a then some c else h.cell b, h.next⟩, le_refl _⟩)

/-- The object at an address. -/
def getObj (p : Nat) : HM L Obj := fun h =>
  match h.cell p with
  | some (.obj o) => (.ok o, ⟨h, le_refl _⟩)
  | _ => (.error .attributeError, ⟨h, le_refl _⟩)

/-- The value of the larry at an address. -/
def valueOf (p : Nat) : HM L (Larry L) := do
  let o ← getObj p
  look (fun h => h.value o)

/-- A new array with the given elements. -/
def newArray (x : NDArray Val) (d : DType) : HM L View := do
  let b ← alloc (.buf x.get)
  return ⟨b, ⟨x.shape, id⟩, d⟩

/-- New lists with the given contents. -/
def newLists : List (List L) → HM L (List Nat)
  | [] => return []
  | l :: ls => do
    let a ← alloc (.lst l)
    let as ← newLists ls
    return a :: as

/-- `larry(x, label, validate=False)` on references (la/deflarry.py:137-138). -/
def newLarry (v : View) (label : Nat) : HM L Nat := alloc (.obj ⟨v, label⟩)

/-- `y.x = v` -/
def setX (p : Nat) (v : View) : HM L Unit := do
  let o ← getObj p
  put p (.obj ⟨v, o.label⟩)

/-- `y.label = label` -/
def setLabel (p : Nat) (label : Nat) : HM L Unit := do
  let o ← getObj p
  put p (.obj ⟨o.x, label⟩)

/-- `label[ax] = l` for a new list `l`: the list of references changes, no list of labels does. -/
def setLab (label : Nat) (ax : Nat) (l : List L) : HM L Unit := do
  let a ← alloc (.lst l)
  let as ← look (fun h => h.out label)
  put label (.out (as.set ax a))

/-- The cells an in-place operation on the array `v` writes, and what: position `i` for which `sel i`
holds gets `val i`. -/
def writeCells (v : View) (sel : List Nat → Bool) (val : List Nat → Val) (f : List Nat → Val)
    (c : List Nat) : Val :=
  match (allIdx v.ix.shape).find? (fun i => sel i && decide (v.ix.get i = c)) with
  | some i => val i
  | none => f c

/-- An in-place operation on an array. -/
def writeWhere (v : View) (sel : List Nat → Bool) (val : List Nat → Val) : HM L Unit := do
  let f ← look (fun h => h.buf v.buf)
  put v.buf (.buf (writeCells v sel val f))

/-- An in-place operation that leaves the elements of `x` in the array. -/
def writeX (v : View) (x : NDArray Val) : HM L Unit := writeWhere v (fun _ => true) x.get

/-! ## Copies -/

/-- `self.copylabel()` (la/deflarry.py:4954-4966). -/
def copylabel (o : Obj) : HM L Nat := do
  let ls ← look (fun h => (h.out o.label).map h.lst)
  let as ← newLists ls
  alloc (.out as)

/-- `larry.copy()` (la/deflarry.py:4934-4952). -/
def hCopy (p : Nat) : HM L Nat := do
  let o ← getObj p
  let label ← copylabel o                                                -- 4950
  let x ← look (fun h => h.array o.x)
  let v ← newArray x o.x.dtype                                           -- 4951
  newLarry v label                                                       -- 4952

/-- `if copy: y = self.copy() else: y = self` -/
def hCopyIf (copy : Bool) (p : Nat) : HM L Nat := if copy then hCopy p else return p

/-- A new list, or the one there is. -/
def listIf (new : Bool) (lab : List L) (a : Nat) : HM L Nat := if new then alloc (.lst lab) else return a

/-- A new array, or the one there is. -/
def arrayIf (new : Bool) (x : NDArray Val) (d : DType) (v : View) : HM L View :=
  if new then newArray x d else return v

/-- `x = f(self.x); label = self.copylabel(); return larry(x, label)`: log, exp, sqrt, sign, power, neg,
isnan, isfinite, isinf, invert (la/deflarry.py:142-637), arithmetic and comparison with a scalar or an
array (684-687, 1703 and the like), the move_* methods (2705-3058), demean, demedian, zscore, ranking,
quantile (3068-3235), ismissing (3927-3929), push (3996-3998), astype (4193-4195). -/
def hUnary (f : Larry L → Res (NDArray Val × DType)) (p : Nat) : HM L Nat := do
  let o ← getObj p
  let y ← look (fun h => h.value o)
  let r ← lift (f y)
  let label ← copylabel o
  let v ← newArray r.1 r.2
  newLarry v label

/-- `y = self.copy(); y.x = f(y.x); return y`: cumsum, cumprod (la/deflarry.py:350-356, 416-422),
movingsum_forward (3062-3064), group_ranking, group_mean, group_median (3245-3270). -/
def hCopyAssign (f : Larry L → Res (NDArray Val × DType)) (p : Nat) : HM L Nat := do
  let q ← hCopy p
  let y ← valueOf q
  let r ← lift (f y)
  let v ← newArray r.1 r.2
  setX q v
  return q

/-- `y = self.copy()`, then an in-place operation on `y.x`: clip (la/deflarry.py:460-462), abs (496-498),
nan_replace (4077-4079), keep_x without vacuum (2528-2530). -/
def hCopyWrite (f : Larry L → Res (NDArray Val)) (p : Nat) : HM L Nat := do
  let q ← hCopy p
  let o ← getObj q
  let y ← look (fun h => h.value o)
  let x ← lift (f y)
  writeX o.x x
  return q

/-- `larry.__reduce` along an axis (la/deflarry.py:1478-1480, 1486-1488): `f` gives the array, `axis` is
dropped from a copy of the labels. -/
def hReduce (f : Larry L → Res (NDArray Val × DType)) (axis : Int) (p : Nat) : HM L Nat := do
  let o ← getObj p
  let y ← look (fun h => h.value o)
  let r ← lift (f y)
  let label ← copylabel o
  let as ← look (fun h => h.out label)
  let as ← lift (pyPop as axis)
  put label (.out as)                                                    -- label.pop(axis)
  let v ← newArray r.1 r.2
  newLarry v label

/-- `larry([])` -/
def hEmpty : HM L Nat := do
  let a ← alloc (.lst [])
  let label ← alloc (.out [a])
  let v ← newArray (Larry.emptyLarry (L := L)).x .float
  newLarry v label

section order
variable [LinearOrder L]

/-- `larry.morph(label, axis)` (la/deflarry.py:3331-3361).  `nans`, `take` and `astype` make new arrays. -/
def hMorph (lab : List L) (axis : Int) (p : Nat) : HM L Nat := do
  let o ← getObj p
  let y ← look (fun h => h.value o)
  let z ← lift (y.morph lab axis)
  let ax := (pyIdx y.label.length axis).getD 0
  if y.label.getD ax [] = lab then hCopy p                               -- 3333-3334
  else do
    let v ← newArray z.x z.dtype                                         -- 3336-3356
    let label ← copylabel o                                              -- 3357
    setLab label ax lab                                                  -- 3360
    newLarry v label                                                     -- 3361

/-- Loop of `morph_like` (la/deflarry.py:3418-3419). -/
def hMorphLoop (lar : Larry L) : List Nat → Nat → HM L Nat
  | [], p => return p
  | i :: is, p => do
    let l ← lift (lar.getlabel i)
    let q ← hMorph l i p
    hMorphLoop lar is q

/-- `larry.morph_like(lar)` (la/deflarry.py:3412-3420).  A 0d larry is copied (3414-3415). -/
def hMorphLike (p r : Nat) : HM L Nat := do
  let y ← valueOf p
  let lar ← valueOf r
  if y.ndim ≠ lar.ndim then lift (.error .indexError)                    -- 3412-3413
  else if y.ndim = 0 then hCopy p                                        -- 3414-3415
  else hMorphLoop lar (List.range y.ndim) p                              -- 3418-3419

/-- Loop of `sortaxis` (la/deflarry.py:3694-3699). -/
def hSortaxisLoop (self : Larry L) (reverse : Bool) : List Int → Nat → HM L Nat
  | [], p => return p
  | ax :: axs, p => do
    let n ← lift (pyGet self.shape ax)                                   -- 3695
    if n > 1 then do
      let l ← lift (pyGet self.label ax)                                 -- 3696
      let q ← hMorph (Larry.sortedLab reverse l) ax p                    -- 3697
      hSortaxisLoop self reverse axs q
    else do
      let q ← hCopy p                                                    -- 3699
      hSortaxisLoop self reverse axs q

/-- `larry.sortaxis(axis, reverse)` (la/deflarry.py:3688-3700). -/
def hSortaxis (axis : Option Int) (reverse : Bool) (p : Nat) : HM L Nat := do
  let y ← valueOf p
  hSortaxisLoop y reverse (Larry.axesOf y.ndim axis) p

/-- `larry.take(indices, axis)` (la/deflarry.py:1952-1959). -/
def hTake (indices : List Int) (axis : Int) (p : Nat) : HM L Nat := do
  let o ← getObj p
  let y ← look (fun h => h.value o)
  let z ← lift (y.take indices axis)
  let ax := (pyIdx y.label.length axis).getD 0
  let label ← copylabel o                                                -- 1952
  setLab label ax (z.label.getD ax [])                                   -- 1953-1957
  let v ← newArray z.x z.dtype                                           -- 1958
  newLarry v label                                                       -- 1959

/-- `larry.keep_label(op, value, axis)` (la/deflarry.py:2441-2482). -/
def hKeepLabel (op : LabelOp L) (axis : Option Int) (p : Nat) : HM L Nat := do
  let y ← valueOf p
  let z ← lift (y.keepLabel op axis)
  let q ← hCopy p                                                        -- 2448
  let ax := (pyIdx y.label.length (axis.getD 0)).getD 0
  if ((y.label.getD ax []).zipIdx.filter (fun c => op.test c.1)).length = 0 then hEmpty  -- 2474-2475
  else do
    let o ← getObj q
    setLab o.label ax (z.label.getD ax [])                               -- 2478
    let v ← newArray z.x z.dtype                                         -- 2479-2481
    setX q v
    return q

end order

/-- `larry.lag(nlag, axis)` (la/deflarry.py:3593-3611): the new data is a view of the copy. -/
def hLag (nlag : Int) (axis : Option Int) (p : Nat) : HM L Nat :=
  match axis with
  | none => lift (.error .indexError)                                    -- 3593-3594
  | some axis => do
    let q ← hCopy p                                                      -- 3596, 3602, 3608
    if nlag = 0 then return q
    else do
      let o ← getObj q
      let y ← look (fun h => h.value o)
      let ax ← lift (pyIdxE y.label.length axis)
      let lab ← lift (pySliceList (y.label.getD ax []) (Larry.lagSlices nlag).1)
      setLab o.label ax lab                                              -- 3597, 3603
      let ix ← lift (o.x.ix.sliceAx (Larry.lagSlices nlag).2 ax)
      setX q ⟨o.x.buf, ix, o.x.dtype⟩                                    -- 3600, 3606
      return q

/-- `larry.T` (la/deflarry.py:4227-4230). -/
def hT (p : Nat) : HM L Nat := do
  let q ← hCopy p                                                        -- 4227
  let o ← getObj q
  setX q ⟨o.x.buf, o.x.ix.transpose, o.x.dtype⟩                          -- 4228
  let as ← look (fun h => h.out o.label)
  let label ← alloc (.out as.reverse)                                    -- 4229
  setLabel q label
  return q

/-- `larry.swapaxes(axis1, axis2)` (la/deflarry.py:4281-4284). -/
def hSwapaxes (axis1 axis2 : Int) (p : Nat) : HM L Nat := do
  let q ← hCopy p                                                        -- 4281
  let o ← getObj q
  let as ← look (fun h => h.out o.label)
  let i ← lift (pyIdxE as.length axis1)
  let j ← lift (pyIdxE as.length axis2)
  put o.label (.out (swapList as i j))                                   -- 4282
  setX q ⟨o.x.buf, o.x.ix.swapaxes i j, o.x.dtype⟩                       -- 4283
  return q

/-- Loop of `flipaxis` (la/deflarry.py:3771-3775). -/
def hFlipLoop : List Int → Nat → HM L Unit
  | [], _ => return ()
  | axis :: axs, q => do
    let o ← getObj q
    let y ← look (fun h => h.value o)
    let ax ← lift (pyIdxE y.label.length axis)
    let lab ← lift (pySliceList (y.label.getD ax []) ⟨none, none, some (-1)⟩)
    setLab o.label ax lab                                                -- 3772
    let ix ← lift (o.x.ix.sliceAx ⟨none, none, some (-1)⟩ ax)
    setX q ⟨o.x.buf, ix, o.x.dtype⟩                                      -- 3773-3775
    hFlipLoop axs q

/-- `larry.flipaxis(axis, copy)` (la/deflarry.py:3762-3776). -/
def hFlipaxis (axis : Option Int) (copy : Bool) (p : Nat) : HM L Nat := do
  let q ← hCopyIf copy p                             -- 3762-3765
  let y ← valueOf q
  hFlipLoop (Larry.axesOf y.ndim axis) q
  return q

/-- The assignments of `maplabel` (la/deflarry.py:2696-2700) on the axes given. -/
def hMapLoop (f : L → L) (label : Nat) : List Nat → HM L Unit
  | [] => return ()
  | ax :: axs => do
    let ls ← look (fun h => (h.out label).map h.lst)
    setLab label ax ((ls.getD ax []).map f)
    hMapLoop f label axs

/-- `larry.maplabel(func, axis, copy)` (la/deflarry.py:2692-2701). -/
def hMaplabel (f : L → L) (axis : Option Int) (copy : Bool) (p : Nat) : HM L Nat := do
  let q ← hCopyIf copy p                             -- 2692-2695
  let o ← getObj q
  let as ← look (fun h => h.out o.label)
  match axis with
  | none => do
    hMapLoop f o.label (List.range as.length)                            -- 2696-2698
    return q
  | some axis => do
    let ax ← lift (pyIdxE as.length axis)
    hMapLoop f o.label [ax]                                              -- 2700
    return q

/-- `labsnew` in `vacuum` and `cut_missing` (la/deflarry.py:3965, 3978, 4044, 4054): an axis left alone
keeps its list, the others get a new one. -/
def hKeepLists (y : Larry L) (alone : Nat → Bool) : List (Nat × List Nat × Nat) → HM L (List Nat)
  | [] => return []
  | (a, ids, ax) :: rest => do
    let b ← listIf (!alone ax) (y.keptLab ax ids) a
    let bs ← hKeepLists y alone rest
    return b :: bs

/-- Last lines of `vacuum` and `cut_missing` (la/deflarry.py:3982-3983, 4058-4059) on the copy `q`. -/
def hKeepRows (alone : Nat → Bool) (ids : List (List Nat)) (q : Nat) : HM L Unit := do
  let o ← getObj q
  let y ← look (fun h => h.value o)
  let as ← look (fun h => h.out o.label)
  let bs ← hKeepLists y alone (as.zip ids.zipIdx)
  let v ← newArray (y.x.grid ids) y.dtype                                -- 3982, 4058
  setX q v
  let label ← alloc (.out bs)                                            -- 3983, 4059
  setLabel q label

/-- `larry.vacuum(axis)` (la/deflarry.py:4025-4060). -/
def hVacuum (axis : Option (List Int)) (p : Nat) : HM L Nat := do
  let q ← hCopy p                                                        -- 4025
  let y ← valueOf q
  let ids ← lift (mapRes (y.vacuumAxis (Larry.vacuumAxes y.ndim axis)) (List.range y.ndim))
  hKeepRows (fun ax => decide (ax ∉ Larry.vacuumAxes y.ndim axis)) ids q
  return q

/-- `larry.cut_missing(fraction, axis)` (la/deflarry.py:3952-3989). -/
def hCutMissing (fraction : ℚ) (axis : Option Int) (p : Nat) : HM L Nat := do
  let q ← hCopy p                                                        -- 3952
  let y ← valueOf q
  let axes ← lift (Larry.cutAxes y.ndim axis)
  let ids ← lift (mapRes (y.cutAxis fraction axes) (List.range y.ndim))
  hKeepRows (fun ax => decide (ax ∈ axes)) ids q
  if (y.x.grid ids).size = 0 then hEmpty                                 -- 3985-3987
  else return q

/-- `larry.keep_x(op, value, vacuum)` (la/deflarry.py:2523-2533). -/
def hKeepX (op : CmpOp) (value : Flt) (vac : Bool) (p : Nat) : HM L Nat := do
  let y ← valueOf p
  let w ← lift (if vac = true ∧ y.ndim ≠ 2 then .error .valueError       -- 2523-2524
    else if op = .unknown then .error .valueError                        -- 2525-2527
    else Larry.nanAs y.dtype)
  let q ← hCopyWrite (fun y => .ok (y.x.map (fun v => if op.test v.num value then v else w))) p  -- 2528-2530
  if vac then hVacuum none q else return q                               -- 2531-2533

/-- `larry.insertaxis(axis, label)` (la/deflarry.py:4447-4459). -/
def hInsertaxis [DecidableEq L] (axis : Option Int) (name : L) (p : Nat) : HM L Nat :=
  match axis with
  | none => lift (.error .valueError)                                    -- 4447-4448
  | some axis => do
    let o ← getObj p
    let y ← look (fun h => h.value o)
    let v ← newArray y.x y.dtype                                         -- 4449
    let label ← copylabel o                                              -- 4451
    let as ← look (fun h => h.out label)
    let ax : Int := if axis = -1 then as.length else if axis < -1 then axis + 1 else axis
    let a ← alloc (.lst [name])
    put label (.out (pyInsert as ax a))                                  -- 4458
    let v : View := ⟨v.buf, v.ix.expandDims axis, v.dtype⟩               -- 4450
    let z ← look (fun h => h.value ⟨v, label⟩)
    let _ ← lift (Larry.mk' z.x z.dtype z.label)                         -- 4459: the checks
    newLarry v label

section order
variable [LinearOrder L]

/-- Two larrys, arithmetic (la/deflarry.py:675-683 and the like; `always` for `__compare`, 1708-1723).
`__align` returns new lists and, axis by axis, the arrays themselves or new ones; the result of the
operation is a new array in every case. -/
def hBinop (uf : UFunc2) (always : Bool) (p r : Nat) : HM L Nat := do
  let o ← getObj p
  let y ← look (fun h => h.value o)
  let lar ← valueOf r
  if y.label = lar.label ∧ always = false then do
    let x ← lift (npBinop uf y.x y.dtype lar.x lar.dtype)                -- 677
    let label ← copylabel o                                              -- 678
    let v ← newArray x.1 x.2
    newLarry v label                                                     -- 679
  else do
    let s ← lift (y.align lar)                                           -- 681, 1708
    let as ← newLists s.2.2                                              -- 1049-1064
    let label ← alloc (.out as)
    let x ← lift (npBinop uf s.1 y.dtype s.2.1 lar.dtype)                -- 682, 1709-1720
    let v ← newArray x.1 x.2
    newLarry v label                                                     -- 683, 1723

/-! ## flarry.py: `align`, `binaryop`; `larry.merge` -/

/-- The axis makes `align_raw` call `take` on the first / on the second array
(la/flarry.py:291-292, 303-304, 335, 357). -/
def Join.takes1 : Join → Bool
  | .left => false | .skip => false | _ => true
def Join.takes2 : Join → Bool
  | .right => false | .skip => false | _ => true

/-- Loop of `align_raw` (la/flarry.py:279-375) on arrays: `x1`, `x2` are the arrays so far, `f1`, `f2` the
flags `x1isview`, `x2isview`. -/
def hAlignLoop (cast : Bool) : List (Join × List L × List L) → Nat → View → View → Bool → Bool →
    HM L (View × View × Bool × Bool × List (Option (List L)))
  | [], _, x1, x2, f1, f2 => return (x1, x2, f1, f2, [])
  | (j, l1, l2) :: rest, ax, x1, x2, f1, f2 => do
    let a1 ← look (fun h => h.array x1)
    let a2 ← look (fun h => h.array x2)
    let r ← lift (alignRawAxis cast j l1 l2 ax ⟨a1, x1.dtype, f1, a2, x2.dtype, f2⟩)
    let x1 ← arrayIf (decide (l1 ≠ l2) && j.takes1) r.1.x1 r.1.d1 x1
    let x2 ← arrayIf (decide (l1 ≠ l2) && j.takes2) r.1.x2 r.1.d2 x2
    let t ← hAlignLoop cast rest (ax + 1) x1 x2 r.1.v1 r.1.v2
    return (t.1, t.2.1, t.2.2.1, t.2.2.2.1, r.2 :: t.2.2.2.2)

/-- The join of each axis (la/flarry.py:253-258). -/
def JoinArg.perAxis (ndim : Nat) : JoinArg → Res (List Join)
  | .one j => .ok (List.replicate ndim j)
  | .many js => if js.length ≠ ndim then .error .valueError else .ok js

/-- `align_raw(lar1, lar2, join, cast)` (la/flarry.py:246-377). -/
def hAlignRaw (join : JoinArg) (cast : Bool) (p r : Nat) :
    HM L (View × View × Bool × Bool × List (Option (List L))) := do
  let o1 ← getObj p
  let o2 ← getObj r
  let lar1 ← look (fun h => h.value o1)
  let lar2 ← look (fun h => h.value o2)
  if lar1.ndim ≠ lar2.ndim then lift (.error .valueError)                -- 246-249
  else do
    let js ← lift (join.perAxis lar2.ndim)                               -- 252-260
    hAlignLoop cast (js.zip (lar1.label.zip lar2.label)) 0 o1.x o2.x true true  -- 270-275

/-- One of the two outputs of `align` (la/flarry.py:109-117, 120-128). -/
def hAlignOut (own : List (List L)) (labs : List (Option (List L))) (v : View) (isview : Bool) : HM L Nat := do
  let as ← newLists (pickLabel own labs)                                 -- 109-114
  let label ← alloc (.out as)
  if isview then do
    let x ← look (fun h => h.array v)
    let v ← newArray x v.dtype                                           -- 115-116
    newLarry v label
  else newLarry v label                                                  -- 117

/-- `align(lar1, lar2, join, cast)` (la/flarry.py:105-130). -/
def hAlign (join : JoinArg) (cast : Bool) (p r : Nat) : HM L (Nat × Nat) := do
  let t ← hAlignRaw join cast p r
  let lar1 ← valueOf p
  let lar2 ← valueOf r
  let q1 ← hAlignOut lar1.label t.2.2.2.2 t.1 t.2.2.1
  let q2 ← hAlignOut lar2.label t.2.2.2.2 t.2.1 t.2.2.2.1
  return (q1, q2)

/-- `np.putmask(x, mask, v)` -/
def hPutmask (x : View) (mask : List Nat → Bool) (v : Val) : HM L Unit := writeWhere x mask (fun _ => v)

/-- One fill of `binaryop` (la/flarry.py:772-778 and 779-783): `v1` where `s1` holds in the first array,
`v2` where `s2` holds in the second. -/
def hFillOne (cv : DType → Val → Val) (miss : Option Val) (x1 x2 : View) (s1 s2 : List Nat → Bool) : HM L Unit :=
  match miss with
  | none => return ()
  | some v => do
    hPutmask x1 s1 (cv x1.dtype v)
    hPutmask x2 s2 (cv x2.dtype v)

/-- The fills of `binaryop` (la/flarry.py:769-783). -/
def hFill (cv : DType → Val → Val) (missone misstwo : Option Val) (x1 x2 : View) : HM L Unit := do
  let a1 ← look (fun h => h.array x1)
  let a2 ← look (fun h => h.array x2)
  let m1 : List Nat → Bool := fun i => isMissingVal x1.dtype (a1.get i)  -- 770
  let m2 : List Nat → Bool := fun i => isMissingVal x2.dtype (a2.get i)  -- 771
  hFillOne cv missone x1 x2 (fun i => m1 i && !m2 i) (fun i => m2 i && !m1 i)  -- 772-778
  hFillOne cv misstwo x1 x2 (fun i => m1 i && m2 i) (fun i => m1 i && m2 i)    -- 779-783

/-- `binaryop(func, lar1, lar2, ...)` (la/flarry.py:766-788) for an elementwise `func` that returns a new
array. -/
def hBinaryop (cv : DType → Val → Val) (uf : UFunc2) (join : JoinArg) (cast : Bool)
    (missone misstwo : Option Val) (p r : Nat) : HM L Nat := do
  let t ← hAlignRaw join cast p r                                        -- 766
  if (missone.isSome || misstwo.isSome) && t.1.ix.shape != t.2.1.ix.shape then lift (.error .valueError)
  else do
    hFill cv missone misstwo t.1 t.2.1                                   -- 769-783
    let a1 ← look (fun h => h.array t.1)
    let a2 ← look (fun h => h.array t.2.1)
    let x ← lift (npBinop uf a1 t.1.dtype a2 t.2.1.dtype)                -- 786
    let v ← newArray x.1 x.2
    let as ← newLists (t.2.2.2.2.map (fun l => l.getD []))
    let label ← alloc (.out as)
    newLarry v label                                                     -- 788

/-- Loop of `merge` (la/deflarry.py:3468-3473) on references. -/
def hMergeLoop : List Nat → Nat → Nat → HM L (Nat × Nat)
  | [], q1, q2 => return (q1, q2)
  | ax :: rest, q1, q2 => do
    let y1 ← valueOf q1
    let y2 ← valueOf q2
    if y1.label.getD ax [] = y2.label.getD ax [] then hMergeLoop rest q1 q2      -- 3469
    else do
      let lab := pySorted (setUnion (y1.label.getD ax []) (y2.label.getD ax [])) -- 3470-3471
      let q1 ← hMorph lab ax q1                                          -- 3472
      let q2 ← hMorph lab ax q2                                          -- 3473
      hMergeLoop rest q1 q2

/-- `self.merge(other, update)` (la/deflarry.py:3463-3503): the first larry is written in place. -/
def hMerge (update : Bool) (p r : Nat) : HM L Nat := do
  let y ← valueOf p
  let other ← valueOf r
  if y.ndim ≠ other.ndim then lift (.error .indexError)                  -- 3463-3465
  else do
    let qs ← hMergeLoop (List.range y.ndim) p r                          -- 3466-3473
    let o1 ← getObj qs.1
    let lar1 ← look (fun h => h.value o1)
    let lar2 ← valueOf qs.2
    if (y.dtype = .object ∨ other.dtype = .object ∨ y.dtype = .str ∨ other.dtype = .str) ∧
        y.dtype ≠ other.dtype then lift (.error .typeError)              -- 3492-3494
    else
      let mask1 : List Nat → Bool := fun i => presentVal y.dtype (lar1.x.get i)
      let mask2 : List Nat → Bool := fun i => presentVal other.dtype (lar2.x.get i)
      if !update && anyAt lar1.x.shape (fun i => mask1 i && mask2 i) then
        lift (.error .valueError)                                        -- 3497-3498
      else if anyAt lar1.x.shape mask2 then                              -- 3500
        if canCast lar2.dtype lar1.dtype then do
          writeWhere o1.x mask2 (fun i => castSafe lar2.dtype lar1.dtype (lar2.x.get i))  -- 3501
          return qs.1                                                    -- 3503
        else lift (.error .typeError)
      else return qs.1                                                   -- 3503

end order

/-! ## Views -/

/-- What a program can hold: a larry, an array, a list of labels, a list of lists of labels, or
something that is no reference. -/
inductive Ref
  | larry (p : Nat)
  | array (v : View)
  | lst (a : Nat)
  | out (a : Nat)
  | scalar

/-- `larry.squeeze()` (la/deflarry.py:3536-3541): a view, and the lists themselves. -/
def hSqueeze (p : Nat) : HM L Nat := do
  let o ← getObj p
  let as ← look (fun h => h.out o.label)
  let label ← alloc (.out (((as.zip o.x.ix.shape).filter (fun c => c.2 ≠ 1)).map Prod.fst))  -- 3536-3539
  newLarry ⟨o.x.buf, o.x.ix.squeeze, o.x.dtype⟩ label                    -- 3540-3541

/-- `larry(x, label)` with the checks (la/deflarry.py:110-138). -/
def hInit [DecidableEq L] (v : View) (label : Nat) : HM L Nat := do
  let z ← look (fun h => h.value ⟨v, label⟩)
  let _ ← lift (Larry.mk' z.x z.dtype z.label)
  newLarry v label

/-- `larry.pull(name, axis)` (la/deflarry.py:2357-2367): a view, and the lists themselves. -/
def hPull [LinearOrder L] (name : L) (axis : Option Int) (p : Nat) : HM L Ref :=
  match axis with
  | none => lift (.error .valueError)                                    -- 2357-2358
  | some axis => do
    let o ← getObj p
    let y ← look (fun h => h.value o)
    let as ← look (fun h => h.out o.label)
    let as ← lift (pyPop as axis)                                        -- 2359-2360
    let idx ← lift (y.labelindex name (some axis))                       -- 2361
    let ax ← lift (pyIdxE o.x.ix.ndim axis)                              -- 2362-2363
    if idx ≥ o.x.ix.shape.getD ax 0 then lift (.error .indexError)       -- 2364
    else do
      let v : View := ⟨o.x.buf, o.x.ix.pick idx ax, o.x.dtype⟩
      if v.ix.shape = [1] then return .scalar                            -- 2365-2366
      else do
        let label ← alloc (.out as)
        let q ← hInit v label                                            -- 2367
        return .larry q

/-- The entry makes numpy copy. -/
def NpItem.copies : NpItem → Bool
  | .seq _ => true
  | .mask _ => true
  | _ => false

/-- `x[index]`: a view for integers and slices, else a new array. -/
def hIndex (v : View) (its : List NpItem) : HM L View := do
  let ix ← lift (v.ix.index its)
  if its.any NpItem.copies then do
    let x ← look (fun h => h.array ⟨v.buf, ix, v.dtype⟩)
    newArray x v.dtype
  else return ⟨v.buf, ix, v.dtype⟩

/-- `self.x[index]` (la/deflarry.py:1835, 1857, 1882), for a list or integer array `self.x.take(index, axis=0)`
(1843, 1865). -/
def hPart (np : NpItem) (v : View) : HM L View :=
  match np with
  | .seq is => do
    let x ← look (fun h => h.array v)
    let x ← lift (x.take is 0)
    newArray x v.dtype
  | np => hIndex v [np]

/-- The labels collected by the loop la/deflarry.py:1769-1828: a new list for an entry of the index, the
list itself for an axis that the index does not mention (1826). -/
def hTupleLabels : List (Nat × Option (List L)) → Nat → HM L (List Nat)
  | [], _ => return []
  | (_, none) :: rest, n => hTupleLabels rest (n - 1)
  | (a, some lab) :: rest, n => do
    let b ← listIf (decide (0 < n)) lab a
    let bs ← hTupleLabels rest (n - 1)
    return b :: bs

section dec
variable [DecidableEq L]

/-- `larry(x, label, validate=validate)` -/
def hMake (v : View) (label : Nat) (validate : Bool) : HM L Nat :=
  if validate then hInit v label else newLarry v label

/-- `y[i0, i1, ...]` (la/deflarry.py:1765-1831, 1887). -/
def hGetTuple (its : List (Item L)) (p : Nat) : HM L Ref := do
  let o ← getObj p
  let y ← look (fun h => h.value o)
  let as ← look (fun h => h.out o.label)
  let labs ← lift (y.keepAll its)                                        -- 1769-1828
  let bs ← hTupleLabels (as.zip labs) its.length
  let v ← hIndex o.x (its.map Item.np)                                   -- 1829
  if its.all Item.isInt then                                             -- 1830-1831
    return if v.ix.shape = [] then .scalar else .array v
  else do
    let label ← alloc (.out bs)
    let q ← hMake v label (its.any Item.isSeq)                           -- 1887
    return .larry q

/-- `list(self.label)` or `self.copylabel()` -/
def shallowIf (shallow : Bool) (as : List Nat) (o : Obj) : HM L Nat :=
  if shallow then alloc (.out as) else copylabel o

/-- The whole index is one slice, list, array or mask: the labels are those of the larry, with a new
list for axis 0.  `shallow` for `list(self.label)` (la/deflarry.py:1833, 1838), else `copylabel()`
(1866, 1880). -/
def hGetOne (np : NpItem) (lab : List L) (shallow validate : Bool) (p : Nat) : HM L Ref := do
  let o ← getObj p
  let as ← look (fun h => h.out o.label)
  let label ← shallowIf shallow as o
  setLab label 0 lab
  let v ← hPart np o.x
  let q ← hMake v label validate
  return .larry q

/-- `larry.__getitem__(index)` (la/deflarry.py:1754-1887).  `isList` tells a list from an integer array,
which the value model does not distinguish (1837-1844 against 1858-1867). -/
def hGetitem (isList : Bool) : Index L → Nat → HM L Ref
  | .tuple its, p => hGetTuple its p
  | .one (.int i), p => do
    let o ← getObj p
    let y ← look (fun h => h.value o)
    let as ← look (fun h => h.out o.label)
    if i ≥ y.shape.getD 0 0 then lift (.error .indexError)               -- 1758-1759
    else do
      let v ← hIndex o.x [.int i]                                        -- 1760
      if y.ndim ≤ 1 then return if v.ix.shape = [] then .scalar else .array v  -- 1761-1762
      else do
        let label ← alloc (.out (as.drop 1))                             -- 1763
        let q ← newLarry v label
        return .larry q
  | .one (.slice s), p => do
    let y ← valueOf p
    let lab ← lift (pySliceList (y.label.getD 0 []) s)                   -- 1834
    hGetOne (.slice s) lab true false p                                  -- 1833-1836
  | .one (.seq is), p => do
    let y ← valueOf p
    let _ ← lift (y.getSeq is)                                           -- the exceptions of 1839-1843, 1859-1865
    let lab ← lift (pyItems (y.label.getD 0 []) is)
    hGetOne (.seq is) lab isList false p                                 -- 1838, 1866
  | .one .nd, _ => lift (.error .indexError)                             -- 1847-1850
  | .one (.mask bs), p => do
    let y ← valueOf p
    let lab ← lift (match maskLabels (y.label.getD 0 []) bs with         -- 1851-1856
      | .error _ => .error .indexError
      | .ok lab => .ok lab)
    hGetOne (.mask bs) lab false false p                                 -- 1857, 1866-1867
  | .one (.lar m), p => do
    let y ← valueOf p
    let bs ← lift (larMask (y.label.getD 0 []) m)                        -- 1869-1874
    let lab ← lift (match maskLabels (y.label.getD 0 []) bs with         -- 1875-1879
      | .error _ => .error .indexError
      | .ok lab => .ok lab)
    hGetOne (.mask bs) lab false true p                                  -- 1880-1882, 1887
  | .one .other, _ => lift (.error .indexError)                          -- 1883-1886

end dec

/-! ## In place -/

/-- An in-place operation on `self.x` whose effect on the values is `f`: `set` (la/deflarry.py:2172),
`__setitem__` (2109, 2121, 2125), `fill` (2394), `shuffle` (3821-3823). -/
def hInPlace (f : Larry L → Res (Larry L)) (p : Nat) : HM L Unit := do
  let o ← getObj p
  let y ← look (fun h => h.value o)
  let z ← lift (f y)
  writeX o.x z.x

/-- `np.random.shuffle(self.label[ax])` (la/deflarry.py:3864-3866); `perm` is what the random generator
does to the list. -/
def hShuffleLabel (perm : List L → List L) (ax : Int) (p : Nat) : HM L Unit := do
  let o ← getObj p
  let as ← look (fun h => h.out o.label)
  let a ← lift (pyGet as ax)
  let l ← look (fun h => h.lst a)
  put a (.lst (perm l))

/-! ## Programs -/

/-- One step of a program: a call of a method or function modelled above, or one of the other things
Python code can do to references it holds.  `i`, `j` are positions in the list of references held. -/
inductive Act (L : Type)
  | copy (i : Nat)
  | unary (f : Larry L → Res (NDArray Val × DType)) (i : Nat)
  | copyAssign (f : Larry L → Res (NDArray Val × DType)) (i : Nat)
  | copyWrite (f : Larry L → Res (NDArray Val)) (i : Nat)
  | reduce (f : Larry L → Res (NDArray Val × DType)) (axis : Int) (i : Nat)
  | morph (lab : List L) (axis : Int) (i : Nat)
  | morphLike (i j : Nat)
  | sortaxis (axis : Option Int) (reverse : Bool) (i : Nat)
  | take (indices : List Int) (axis : Int) (i : Nat)
  | keepLabel (op : LabelOp L) (axis : Option Int) (i : Nat)
  | lag (nlag : Int) (axis : Option Int) (i : Nat)
  | transpose (i : Nat)
  | swapaxes (axis1 axis2 : Int) (i : Nat)
  | flipaxis (axis : Option Int) (copy : Bool) (i : Nat)
  | maplabel (f : L → L) (axis : Option Int) (copy : Bool) (i : Nat)
  | vacuum (axis : Option (List Int)) (i : Nat)
  | cutMissing (fraction : ℚ) (axis : Option Int) (i : Nat)
  | keepX (op : CmpOp) (value : Flt) (vac : Bool) (i : Nat)
  | insertaxis (axis : Option Int) (name : L) (i : Nat)
  | binop (uf : UFunc2) (always : Bool) (i j : Nat)
  | align (join : JoinArg) (cast : Bool) (i j : Nat)
  | binaryop (cv : DType → Val → Val) (uf : UFunc2) (join : JoinArg) (cast : Bool)
      (missone misstwo : Option Val) (i j : Nat)
  | merge (update : Bool) (i j : Nat)
  | squeeze (i : Nat)
  | pull (name : L) (axis : Option Int) (i : Nat)
  | getitem (isList : Bool) (idx : Index L) (i : Nat)
  | inPlace (f : Larry L → Res (Larry L)) (i : Nat)
  | shuffleLabel (perm : List L → List L) (ax : Int) (i : Nat)
  -- plain Python
  | attrX (i : Nat)                                       -- y.x, y.A, y.getx(copy=False)
  | attrLabel (i : Nat)                                   -- y.label
  | item (k : Nat) (i : Nat)                              -- label[k], y.getlabel(k, copy=False)
  | mkArray (x : NDArray Val) (d : DType)                 -- a new array
  | mkList (l : List L)                                   -- a new list of labels
  | mkOut (is : List Nat)                                 -- a new list of lists held
  | init (i j : Nat)                                      -- larry(x, label)
  | view (g : NDArray (List Nat)) (i : Nat)               -- a view of an array: position i shows g[i]
  | write (sel : List Nat → Bool) (val : List Nat → Val) (i : Nat)  -- x[...] = ...
  | writeList (l : List L) (i : Nat)                      -- label.sort(), label[0] = 'a', ...
  | writeOut (k : Nat) (i j : Nat)                        -- label[k] = a list held
  | assignX (i j : Nat)                                   -- y.x = an array held
  | assignLabel (i j : Nat)                               -- y.label = a list of lists held

/-- The larry at position `i`. -/
def asLarry (env : List Ref) (i : Nat) : HM L Nat :=
  match env[i]? with
  | some (.larry p) => return p
  | _ => lift (.error .attributeError)

/-- The array at position `i`. -/
def asArray (env : List Ref) (i : Nat) : HM L View :=
  match env[i]? with
  | some (.array v) => return v
  | _ => lift (.error .typeError)

/-- The list of labels at position `i`. -/
def asList (env : List Ref) (i : Nat) : HM L Nat :=
  match env[i]? with
  | some (.lst a) => return a
  | _ => lift (.error .typeError)

/-- The list of lists at position `i`. -/
def asOut (env : List Ref) (i : Nat) : HM L Nat :=
  match env[i]? with
  | some (.out a) => return a
  | _ => lift (.error .typeError)

/-- The lists of labels at several positions. -/
def asLists (env : List Ref) : List Nat → HM L (List Nat)
  | [] => return []
  | i :: is => do
    let a ← asList env i
    let as ← asLists env is
    return a :: as

/-- The references a step hands back. -/
def giveLarry (m : HM L Nat) : HM L (List Ref) := do
  let q ← m
  return [.larry q]

section run
variable [LinearOrder L]

/-- What a step does. -/
def Act.run (env : List Ref) : Act L → HM L (List Ref)
  | .copy i => do giveLarry (hCopy (← asLarry env i))
  | .unary f i => do giveLarry (hUnary f (← asLarry env i))
  | .copyAssign f i => do giveLarry (hCopyAssign f (← asLarry env i))
  | .copyWrite f i => do giveLarry (hCopyWrite f (← asLarry env i))
  | .reduce f axis i => do giveLarry (hReduce f axis (← asLarry env i))
  | .morph lab axis i => do giveLarry (hMorph lab axis (← asLarry env i))
  | .morphLike i j => do giveLarry (hMorphLike (← asLarry env i) (← asLarry env j))
  | .sortaxis axis reverse i => do giveLarry (hSortaxis axis reverse (← asLarry env i))
  | .take indices axis i => do giveLarry (hTake indices axis (← asLarry env i))
  | .keepLabel op axis i => do giveLarry (hKeepLabel op axis (← asLarry env i))
  | .lag nlag axis i => do giveLarry (hLag nlag axis (← asLarry env i))
  | .transpose i => do giveLarry (hT (← asLarry env i))
  | .swapaxes a1 a2 i => do giveLarry (hSwapaxes a1 a2 (← asLarry env i))
  | .flipaxis axis c i => do giveLarry (hFlipaxis axis c (← asLarry env i))
  | .maplabel f axis c i => do giveLarry (hMaplabel f axis c (← asLarry env i))
  | .vacuum axis i => do giveLarry (hVacuum axis (← asLarry env i))
  | .cutMissing fr axis i => do giveLarry (hCutMissing fr axis (← asLarry env i))
  | .keepX op value vac i => do giveLarry (hKeepX op value vac (← asLarry env i))
  | .insertaxis axis name i => do giveLarry (hInsertaxis axis name (← asLarry env i))
  | .binop uf always i j => do giveLarry (hBinop uf always (← asLarry env i) (← asLarry env j))
  | .align join cast i j => do
    let q ← hAlign join cast (← asLarry env i) (← asLarry env j)
    return [.larry q.1, .larry q.2]
  | .binaryop cv uf join cast m1 m2 i j => do
    giveLarry (hBinaryop cv uf join cast m1 m2 (← asLarry env i) (← asLarry env j))
  | .merge update i j => do giveLarry (hMerge update (← asLarry env i) (← asLarry env j))
  | .squeeze i => do giveLarry (hSqueeze (← asLarry env i))
  | .pull name axis i => do
    let r ← hPull name axis (← asLarry env i)
    return [r]
  | .getitem isList idx i => do
    let r ← hGetitem isList idx (← asLarry env i)
    return [r]
  | .inPlace f i => do
    hInPlace f (← asLarry env i)
    return []
  | .shuffleLabel perm ax i => do
    hShuffleLabel perm ax (← asLarry env i)
    return []
  | .attrX i => do
    let o ← getObj (← asLarry env i)
    return [.array o.x]
  | .attrLabel i => do
    let o ← getObj (← asLarry env i)
    return [.out o.label]
  | .item k i => do
    let a ← asOut env i
    let as ← look (fun h => h.out a)
    let b ← lift (pyGet as k)
    return [.lst b]
  | .mkArray x d => do
    let v ← newArray x d
    return [.array v]
  | .mkList l => do
    let a ← alloc (.lst l)
    return [.lst a]
  | .mkOut is => do
    let as ← asLists env is
    let a ← alloc (.out as)
    return [.out a]
  | .init i j => do giveLarry (hInit (← asArray env i) (← asOut env j))
  | .view g i => do
    let v ← asArray env i
    return [.array ⟨v.buf, g.map v.ix.get, v.dtype⟩]
  | .write sel val i => do
    writeWhere (← asArray env i) sel val
    return []
  | .writeList l i => do
    put (← asList env i) (.lst l)
    return []
  | .writeOut k i j => do
    let a ← asOut env i
    let b ← asList env j
    let as ← look (fun h => h.out a)
    put a (.out (as.set k b))
    return []
  | .assignX i j => do
    setX (← asLarry env i) (← asArray env j)
    return []
  | .assignLabel i j => do
    setLabel (← asLarry env i) (← asOut env j)
    return []

/-- One step: the references handed back are added to those held; an exception is caught. -/
def Act.step (s : List Ref × Heap L) (a : Act L) : List Ref × Heap L :=
  match a.run s.1 s.2 with
  | (.ok rs, h) => (s.1 ++ rs, h.1)
  | (.error _, h) => (s.1, h.1)

/-- A program. -/
def Act.exec (acts : List (Act L)) (s : List Ref × Heap L) : List Ref × Heap L := acts.foldl Act.step s

end run
end La
