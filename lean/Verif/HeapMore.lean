import Verif.Heap
import Verif.Lix
import Verif.Stack
import Verif.Cov
import Verif.Flatten
import Verif.Rename
import Verif.Create

/-!
# References: the other functions that return larrys

`lix`, `flatten`, `panel`, `cov`, `align_axis`, `stack`, `sortby`, `getx`, `getlabel`, `copylabel` and the functions
that create larrys, as far as allocation, sharing and writing go (see Verif/Heap.lean).
-/

namespace La
variable {L : Type}

open HM

/-- The values of several larrys. -/
def hValues : List Nat → HM L (List (Larry L))
  | [] => return []
  | p :: ps => do
    let y ← valueOf p
    let ys ← hValues ps
    return y :: ys

/-- `larry.getx(copy)` (la/deflarry.py:2239-2242); `copyx()` (4979) is `getx(True)`, `A` (2258) is `getx(False)`. -/
def hGetx (copy : Bool) (p : Nat) : HM L View := do
  let o ← getObj p
  let x ← look (fun h => h.array o.x)
  if copy then newArray x o.x.dtype                                      -- 2240
  else return o.x                                                        -- 2242

/-- `larry.getlabel(axis, copy)` (la/deflarry.py:2299-2304). -/
def hGetlabel (axis : Int) (copy : Bool) (p : Nat) : HM L Nat := do
  let o ← getObj p
  let y ← look (fun h => h.value o)
  let as ← look (fun h => h.out o.label)
  if axis ≥ (y.ndim : Int) then lift (.error .indexError)                -- 2299-2300
  else do
    let a ← lift (pyGet as axis)                                         -- 2301
    let l ← look (fun h => h.lst a)
    if copy then alloc (.lst l) else return a                            -- 2302-2304

/-- `larry.copylabel()` (la/deflarry.py:4966). -/
def hCopylabel (p : Nat) : HM L Nat := do
  let o ← getObj p
  copylabel o

/-- `cov(lar)` (la/flarry.py:1498-1502). -/
def hCov (p : Nat) : HM L Nat := do
  let lar ← valueOf p
  if lar.ndim ≠ 2 then lift (.error .valueError)                         -- 1498-1499
  else do
    let as ← newLists [lar.label.getD 0 [], lar.label.getD 0 []]         -- 1500
    let label ← alloc (.out as)
    let x ← lift (covMissing lar.x lar.dtype)                            -- 1501
    let v ← newArray x .float
    newLarry v label                                                     -- 1502

/-- `larry.flatten(order)` (la/deflarry.py:4332-4334); `tup` makes a label of a tuple of labels. -/
def hFlatten (tup : List L → L) (order : String) (p : Nat) : HM L Nat := do
  let y ← valueOf p
  let fl ← lift (flattenlabel y.label order)                             -- 4332
  let as ← newLists (fl.map (List.map tup))
  let label ← alloc (.out as)
  let v ← newArray (y.x.flatten order) y.dtype                           -- 4333
  newLarry v label                                                       -- 4334

/-- `panel(lar)` (la/flarry.py:1464-1469).  `reshape` may give a view of the array of the copy; that array is then
no longer referred to by anything else, so a new array makes no difference. -/
def hPanel (tup : List L → L) (p : Nat) : HM L Nat := do
  let lar ← valueOf p
  if lar.ndim ≠ 3 then lift (.error .valueError)                         -- 1464-1465
  else do
    let q ← hCopy p                                                      -- 1466
    let o ← getObj q
    let y ← look (fun h => h.value o)
    let as ← look (fun h => h.out o.label)
    let fl ← lift (flattenlabel [y.label.getD 1 [], y.label.getD 2 []] "C")
    let a ← alloc (.lst ((fl.getD 0 []).map tup))
    let a0 ← lift (pyGet as 0)
    let label ← alloc (.out [a, a0])                                     -- 1467
    setLabel q label
    let x ← lift (y.x.transpose.reshapeF2 (y.shape.getD 0 0))            -- 1468
    let v ← newArray x y.dtype
    setX q v
    return q                                                             -- 1469

/-- `kwargs[key]` -/
def kwAt [DecidableEq L] (kwargs : List (L × Nat)) (key : L) : Res Nat :=
  match kwargs.find? (fun c => c.1 = key) with
  | some c => .ok c.2
  | none => .error .keyError

/-! ## Creating -/

/-- The list of lists of labels given, or none. -/
def hLabels : Option Nat → HM L (Option (List (List L)))
  | none => return none
  | some a => do
    let ls ← look (fun h => (h.out a).map h.lst)
    return some ls

/-- `larry(x, label)` for a new array `x` (la/deflarry.py:107-138): the list of lists given becomes that of the larry;
if there is none, a new one is made. -/
def hLarryOf [DecidableEq L] (num : Nat → L) (x : NDArray Val) (d : DType) (label : Option Nat) : HM L Nat := do
  let v ← newArray x d
  match label with
  | some a => hInit v a
  | none => do
    let as ← newLists (x.shape.map fun n => (List.range n).map num)      -- 108-109
    let a ← alloc (.out as)
    hInit v a

/-- `lrange(shape, label, start, step, dtype)` (la/flarry.py:1844-1852). -/
def hLrange [DecidableEq L] (num : Nat → L) (shape : Option (List Nat)) (label : Option Nat) (start step : Int)
    (dtype : Option DType) : HM L Nat := do
  let ls ← hLabels label
  let shape ← lift (askedShape shape ls)                                 -- 1844-1848
  if step = 0 then lift (.error .zeroDivisionError)                      -- 1850
  else if ¬ (dtype = none ∨ dtype = some .int ∨ dtype = some .float) then lift (.error .notImplementedError)
  else if arangeLen start (step * shape.prod + start) step ≠ shape.prod then lift (.error .valueError)
  else do
    let d := dtype.getD .int
    hLarryOf num ⟨shape, fun idx => intAs d (start + (ravelC shape idx : Int) * step)⟩ d label  -- 1852

/-- `empty(shape, label, dtype)` (la/flarry.py:1928-1934). -/
def hEmptyLike [DecidableEq L] (mem : List Nat → Val) (num : Nat → L) (shape : Option (List Nat)) (label : Option Nat)
    (dtype : Option DType) : HM L Nat := do
  let ls ← hLabels label
  let shape ← lift (askedShape shape ls)
  hLarryOf num ⟨shape, mem⟩ (dtype.getD .float) label

/-- `ones` and `zeros` (la/flarry.py:2009-2011, 2086-2088). -/
def hFilled [DecidableEq L] (mem : List Nat → Val) (num : Nat → L) (n : Int) (shape : Option (List Nat))
    (label : Option Nat) (dtype : Option DType) : HM L Nat := do
  let q ← hEmptyLike mem num shape label dtype
  let o ← getObj q
  writeX o.x ⟨o.x.ix.shape, fun _ => intAs o.x.dtype n⟩                  -- 2010, 2087
  return q

section order
variable [LinearOrder L]

/-- The loop at the end of `align_axis` (la/flarry.py:516-518). -/
def hMorphEach (label : List L) : List (Nat × Int) → HM L (List Nat)
  | [] => return []
  | (p, a) :: rest => do
    let q ← hMorph label a p                                             -- 517-518
    let qs ← hMorphEach label rest
    return q :: qs

/-- `align_axis(lars, axis, join)` (la/flarry.py:487-520). -/
def hAlignAxis (axis : List Int) (join : Join) (ps : List Nat) : HM L (List Nat) := do
  let lars ← hValues ps
  if axis.length < lars.length then lift (.error .indexError)            -- 493
  else if (lars.zip axis).any (fun c => c.2 ≥ c.1.ndim || c.2 < -(c.1.ndim : Int)) then
    lift (.error .valueError)                                            -- 490-494
  else if join = .skip ∨ join = .other then lift (.error .valueError)    -- 495-496
  else do
    let label ← lift (alignAxisLabel lars axis join)                     -- 499-512
    hMorphEach label (ps.zip axis)                                       -- 513-520

/-- The loop of `stack` (la/flarry.py:1398-1403): the pages written into `x`. -/
def hStackPages (kwargs : List (L × Nat)) (row col : List L) : List L → HM L (List (NDArray Val))
  | [] => return []
  | key :: keys => do
    let p ← lift (kwAt kwargs key)                                       -- 1399
    let q ← hMorph row 0 p                                               -- 1400
    let q ← hMorph col 1 q                                               -- 1401
    let y ← valueOf q
    let page ← lift (stackPage row col y)                                -- 1402
    let pages ← hStackPages kwargs row col keys
    return page :: pages

/-- `stack(mode, **kwargs)` (la/flarry.py:1385-1405).  The array `x`, new as it is, appears with the pages that have
been written into it. -/
def hStack (mode : Option Bool) (kwargs : List (L × Nat)) : HM L Nat := do
  let lars ← hValues (kwargs.map Prod.snd)
  if ¬ ∀ y ∈ lars, y.ndim = 2 then lift (.error .valueError)             -- 1385-1386
  else match mode with
    | none => lift (.error .valueError)                                  -- 1391-1392
    | some m => do
      let row ← lift (if m then union 0 lars else intersection 0 lars)   -- 1393
      let col ← lift (if m then union 1 lars else intersection 1 lars)   -- 1394
      let pages ← hStackPages kwargs row col (pySorted (kwargs.map Prod.fst))  -- 1395-1403
      let as ← newLists [pySorted (kwargs.map Prod.fst), row, col]       -- 1404
      let label ← alloc (.out as)
      let v ← newArray (ofPages row.length col.length pages) .float
      hInit v label                                                      -- 1405

/-- The end of `sortby` (la/flarry.py:1751-1765). -/
def hSortbyTail (argsort : List Val → List Nat) (element : L) (axis : Int) (reverse : Bool) (p : Nat) : HM L Ref := do
  let lar ← valueOf p
  let axis := if axis < 0 then axis + lar.ndim else axis                 -- 1751-1752
  if ¬ (axis = 0 ∨ axis = 1) then lift (.error .valueError)              -- 1753-1754
  else do
    let k ← lift (lar.labelindex element (some axis))                    -- 1755
    if axis = 0 then
      let idx := revIf reverse (argsort ((List.range (lar.shape.getD 1 0)).map (fun j => lar.x.get [k, j])))  -- 1757-1759
      hGetitem false (.tuple [.slice {}, .seq (idx.map (fun i : Nat => (i : Int)))]) p  -- 1760
    else
      let idx := revIf reverse (argsort ((List.range (lar.shape.getD 0 0)).map (fun j => lar.x.get [j, k])))  -- 1762-1764
      hGetitem false (.tuple [.seq (idx.map (fun i : Nat => (i : Int))), .slice {}]) p  -- 1765

/-- `sortby(lar, element, axis, reverse)` (la/flarry.py:1746-1765). -/
def hSortby (argsort : List Val → List Nat) (element : L) (axis : Int) (reverse : Bool) (p : Nat) : HM L Ref := do
  let lar ← valueOf p
  if lar.ndim ≠ 2 then lift (.error .valueError)                         -- 1746-1747
  else if lar.shape.prod = 0 then do                                     -- 1748
    let l ← lift (pyGet lar.label axis)                                  -- 1749
    if element ∈ l then do
      let q ← hCopy p                                                    -- 1750
      return .larry q
    else hSortbyTail argsort element axis reverse p
  else hSortbyTail argsort element axis reverse p

end order

/-! ## `lix` -/

/-- An entry of a lix expression; a list of labels is a reference to a list the program holds. -/
inductive HItem (L : Type)
  | list (a : Nat)
  | slice (s : LSlice L)
  | int (i : Int)
  | other

/-- What stands between the brackets. -/
inductive HIndex (L : Type)
  | one (it : HItem L)
  | tuple (its : List (HItem L))

/-- The entry with the contents of its list. -/
def HItem.value (h : Heap L) : HItem L → LItem L
  | .list a => .list (h.lst a)
  | .slice s => .slice s
  | .int i => .int i
  | .other => .other

def HIndex.value (h : Heap L) : HIndex L → LIndex L
  | .one it => .one (it.value h)
  | .tuple its => .tuple (its.map (HItem.value h))

/-- The labels collected by the loop la/deflarry.py:5047-5064: the list between the brackets itself (5052), or a new
list (5057-5059). -/
def hLixLabels : List (HItem L × Option (List L)) → HM L (List Nat)
  | [] => return []
  | (_, none) :: rest => hLixLabels rest
  | (.list a, some _) :: rest => do
    let bs ← hLixLabels rest
    return a :: bs
  | (_, some lab) :: rest => do
    let a ← alloc (.lst lab)
    let bs ← hLixLabels rest
    return a :: bs

/-- `y.lix[index]` (la/deflarry.py:5017-5074).  Indexing with `np.ix_` copies. -/
def hLix [LinearOrder L] (idx : HIndex L) (p : Nat) : HM L Ref := do
  let y ← valueOf p
  if y.shape = [0] then return .larry p                                  -- 5021-5022
  else if 0 ∈ y.shape then lift (.error .valueError)                     -- 5023-5026
  else match idx with
    | .one it => do
      let it ← look (fun h => it.value h)
      let np ← lift (y.lixOne it)                                        -- 5030-5033, 5037
      hGetitem true (.one np.toItem) p                                   -- 5033, 5037, 5072
    | .tuple its => do
      let ls ← look (fun h => its.map (HItem.value h))
      let sels ← lift (lixSel y ls)                                      -- 5041-5064
      let as ← hLixLabels ((its ++ List.replicate (y.ndim - its.length) (HItem.slice {})).zip (sels.map Prod.snd))
      let ids ← lift (ixIds y.shape (sels.map Prod.fst))
      let v ← newArray (y.x.grid ids).squeeze y.dtype                    -- 5065
      if v.ix.shape = [] then return .scalar                             -- 5066-5067
      else do
        let label ← alloc (.out as)
        let q ← hInit v label                                            -- 5069
        return .larry q

/-! ## Calls of a program -/

/-- A call of one of these functions by a program that holds a list of references; `i`, `is` and the numbers in an
index and in `kwargs` are positions in that list.  `tup` makes a label of a tuple of labels. -/
inductive Call (L : Type)
  | getx (copy : Bool) (i : Nat)
  | getlabel (axis : Int) (copy : Bool) (i : Nat)
  | copylabel (i : Nat)
  | cov (i : Nat)
  | flatten (tup : List L → L) (order : String) (i : Nat)
  | panel (tup : List L → L) (i : Nat)
  | alignAxis (axis : List Int) (join : Join) (is : List Nat)
  | stack (mode : Option Bool) (kwargs : List (L × Nat))
  | sortby (argsort : List Val → List Nat) (element : L) (axis : Int) (reverse : Bool) (i : Nat)
  | lix (idx : HIndex L) (i : Nat)
  | lrange (num : Nat → L) (shape : Option (List Nat)) (label : Option Nat) (start step : Int) (dtype : Option DType)
  | filled (mem : List Nat → Val) (num : Nat → L) (n : Int) (shape : Option (List Nat)) (label : Option Nat)
      (dtype : Option DType)

/-- The larrys at several positions. -/
def asLarrys (env : List Ref) : List Nat → HM L (List Nat)
  | [] => return []
  | i :: is => do
    let p ← asLarry env i
    let ps ← asLarrys env is
    return p :: ps

/-- The list of lists at a position, if one is given. -/
def asOut? (env : List Ref) : Option Nat → HM L (Option Nat)
  | none => return none
  | some i => do
    let a ← asOut env i
    return some a

/-- The entry with the list at its position. -/
def HItem.fetch (env : List Ref) : HItem L → HM L (HItem L)
  | .list i => do
    let a ← asList env i
    return .list a
  | it => return it

def fetchItems (env : List Ref) : List (HItem L) → HM L (List (HItem L))
  | [] => return []
  | it :: its => do
    let it ← it.fetch env
    let its ← fetchItems env its
    return it :: its

def HIndex.fetch (env : List Ref) : HIndex L → HM L (HIndex L)
  | .one it => do
    let it ← it.fetch env
    return .one it
  | .tuple its => do
    let its ← fetchItems env its
    return .tuple its

/-- What a call does. -/
def Call.run [LinearOrder L] (env : List Ref) : Call L → HM L (List Ref)
  | .getx copy i => do
    let v ← hGetx copy (← asLarry env i)
    return [.array v]
  | .getlabel axis copy i => do
    let a ← hGetlabel axis copy (← asLarry env i)
    return [.lst a]
  | .copylabel i => do
    let a ← hCopylabel (← asLarry env i)
    return [.out a]
  | .cov i => do giveLarry (hCov (← asLarry env i))
  | .flatten tup order i => do giveLarry (hFlatten tup order (← asLarry env i))
  | .panel tup i => do giveLarry (hPanel tup (← asLarry env i))
  | .alignAxis axis join is => do
    let qs ← hAlignAxis axis join (← asLarrys env is)
    return qs.map Ref.larry
  | .stack mode kwargs => do
    let ps ← asLarrys env (kwargs.map Prod.snd)
    giveLarry (hStack mode ((kwargs.map Prod.fst).zip ps))
  | .sortby argsort element axis reverse i => do
    let r ← hSortby argsort element axis reverse (← asLarry env i)
    return [r]
  | .lix idx i => do
    let p ← asLarry env i
    let idx ← idx.fetch env
    let r ← hLix idx p
    return [r]
  | .lrange num shape label start step dtype => do
    let a ← asOut? env label
    giveLarry (hLrange num shape a start step dtype)
  | .filled mem num n shape label dtype => do
    let a ← asOut? env label
    giveLarry (hFilled mem num n shape a dtype)

/-- A step of a program: one of the steps of Verif/Heap.lean or one of these calls. -/
inductive Step (L : Type)
  | act (a : Act L)
  | call (c : Call L)

def Step.run [LinearOrder L] (env : List Ref) : Step L → HM L (List Ref)
  | .act a => a.run env
  | .call c => c.run env

/-- One step: the references handed back are added to those held; an exception is caught. -/
def Step.step [LinearOrder L] (s : List Ref × Heap L) (a : Step L) : List Ref × Heap L :=
  match a.run s.1 s.2 with
  | (.ok rs, h) => (s.1 ++ rs, h.1)
  | (.error _, h) => (s.1, h.1)

/-- A program. -/
def Step.exec [LinearOrder L] (steps : List (Step L)) (s : List Ref × Heap L) : List Ref × Heap L :=
  steps.foldl Step.step s

end La
