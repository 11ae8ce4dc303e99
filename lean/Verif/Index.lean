import Verif.Methods
import Verif.Reduce

/-!
# Model of indexing: numpy's `x[index]`, `larry.__getitem__` (la/deflarry.py:1729-1887) and `lix`
(la/deflarry.py:5011-5172)

Indices are integers (a float that `isscalar` lets through is truncated by the code and is not
modelled), slices with integer bounds, lists, tuples or 1d arrays of integers, 1d boolean arrays and
larrys.  Lists of booleans inside a tuple are not modelled.
-/

namespace La

/-- One entry of an index. -/
inductive Item (L : Type _)
  | int (i : Int)              -- isscalar
  | slice (s : PySlice)
  | seq (is : List Int)        -- list, tuple (inside a tuple) or 1d ndarray of integers
  | mask (bs : List Bool)      -- 1d ndarray of dtype bool
  | lar (m : Larry L)
  | nd                         -- an ndarray with ndim != 1
  | other                      -- anything else

/-- What stands between the brackets. -/
inductive Index (L : Type _)
  | one (it : Item L)
  | tuple (its : List (Item L))

/-! ## numpy -/

/-- One entry of an index handed to numpy. -/
inductive NpItem
  | int (i : Int) | slice (s : PySlice) | seq (is : List Int) | mask (bs : List Bool)

/-- The entry after bounds checking: positions along its axis. -/
inductive NpSel
  | int (k : Nat) | slice (ids : List Nat) | fancy (ids : List Nat)

/-- `bs.nonzero()[0]` -/
def trues (bs : List Bool) : List Nat := (bs.zipIdx.filter Prod.fst).map Prod.snd

/-- Bounds check of an entry on an axis of length `n`.  A boolean array stands for the positions of its
True elements (numpy 1.6/1.7 does not compare its length with the axis). -/
def NpItem.resolve (n : Nat) : NpItem → Res NpSel
  | .int i => match pyIdx n i with
    | none => .error .indexError
    | some k => .ok (.int k)
  | .slice s => match sliceIndices n s with
    | .error e => .error e
    | .ok ids => .ok (.slice ids)
  | .seq is => match mapRes (pyIdxE n) is with
    | .error e => .error e
    | .ok ids => .ok (.fancy ids)
  | .mask bs => if (trues bs).any (fun k => decide (n ≤ k)) then .error .indexError else .ok (.fancy (trues bs))

/-- When some entry is a list or array, integers count as arrays too. -/
def NpSel.isAdv : NpSel → Bool
  | .slice _ => false
  | _ => true

/-- Lengths of the axes that come from slices. -/
def sliceLens : List NpSel → List Nat
  | [] => []
  | .slice ids :: ss => ids.length :: sliceLens ss
  | _ :: ss => sliceLens ss

/-- Lengths of the lists and arrays. -/
def fancyLens : List NpSel → List Nat
  | [] => []
  | .fancy ids :: ss => ids.length :: fancyLens ss
  | _ :: ss => fancyLens ss

/-- Position in the indexed array: `b` is the position along the axis shared by the lists, `idx` the
positions along the slices. -/
def place (b : Nat) : List NpSel → List Nat → List Nat
  | [], _ => []
  | .int k :: ss, idx => k :: place b ss idx
  | .slice ids :: ss, idx => ids.getD (idx.headD 0) 0 :: place b ss idx.tail
  | .fancy ids :: ss, idx => ids.getD (if ids.length = 1 then 0 else b) 0 :: place b ss idx

/-- The lists are broadcast against each other. -/
def bcastLens : List Nat → Res Nat
  | [] => .ok 1
  | n :: ns => match bcastLens ns with
    | .error e => .error e
    | .ok m => bdim n m

/-- No slice stands between two lists, arrays or integers. -/
def adjacent (ss : List NpSel) : Bool :=
  ((ss.dropWhile (fun s => !s.isAdv)).dropWhile NpSel.isAdv).all (fun s => !s.isAdv)

/-- Where the axis shared by the lists goes: in place if they are adjacent, else it comes first. -/
def advPos (ss : List NpSel) : Nat :=
  if adjacent ss then (ss.takeWhile (fun s => !s.isAdv)).length else 0

/-- The positions selected: shape of the result and, for each position of it, the position in the
indexed array. -/
def npGrid (ss : List NpSel) : Res (NDArray (List Nat)) :=
  match fancyLens ss with
  | [] => .ok ⟨sliceLens ss, fun idx => place 0 ss idx⟩
  | n :: ns => match bcastLens (n :: ns) with
    | .error e => .error e
    | .ok m => .ok ⟨(sliceLens ss).insertIdx (advPos ss) m,
        fun idx => place (idx.getD (advPos ss) 0) ss (idx.eraseIdx (advPos ss))⟩

/-- Bounds check of a whole index; axes not mentioned are taken whole, too many entries raise. -/
def npResolve (shape : List Nat) (its : List NpItem) : Res (List NpSel) :=
  if its.length > shape.length then .error .indexError
  else mapRes (fun p : NpItem × Nat => p.1.resolve p.2)
    ((its ++ List.replicate (shape.length - its.length) (NpItem.slice {})).zip shape)

/-- The positions of an array of the given shape that `index` selects. -/
def npSelect (shape : List Nat) (its : List NpItem) : Res (NDArray (List Nat)) :=
  match npResolve shape its with
  | .error e => .error e
  | .ok ss => npGrid ss

/-- `a[index]` for a tuple of integers, slices, integer lists and boolean arrays. -/
def NDArray.index {α : Type _} (a : NDArray α) (its : List NpItem) : Res (NDArray α) :=
  match npSelect a.shape its with
  | .error e => .error e
  | .ok g => .ok (g.map a.get)

/-- What `y[index]` returns: an element, a bare array, or a larry. -/
inductive GetOut (L : Type _)
  | scalar (v : Val)
  | array (x : NDArray Val)
  | larry (z : Larry L)

/-- Indexing an array with integers only gives an element or an array. -/
def GetOut.ofArray {L : Type _} (x : NDArray Val) : GetOut L :=
  if x.shape = [] then .scalar (x.get []) else .array x

/-! ## `larry.__getitem__` -/

section
variable {L : Type _} [DecidableEq L]

/-- `[label[j] for j, z in enumerate(mask) if z]` -/
def maskLabels (l : List L) (bs : List Bool) : Res (List L) := pyItems l ((trues bs).map (fun k : Nat => (k : Int)))

/-- The checks on a larry used as an index (la/deflarry.py:1806-1811, 1869-1874), then its `.x`. -/
def larMask (l : List L) (m : Larry L) : Res (List Bool) :=
  if m.dtype ≠ .bool then .error .indexError
  else if m.ndim ≠ 1 then .error .indexError
  else if l ≠ m.label.getD 0 [] then .error .indexError
  else .ok (m.x.vals.map (fun v => decide (v = .bool true)))

/-- One turn of the loop over the axes (la/deflarry.py:1769-1828): the labels kept on an axis with
labels `l` and length `n` (None for an integer). -/
def Item.keep (l : List L) (n : Nat) : Item L → Res (Option (List L))
  | .int i => if i ≥ n then .error .indexError else .ok none             -- 1773-1776
  | .seq is => match pyItems l is with                                   -- 1777-1783, 1795-1801
    | .error _ => .error .indexError
    | .ok lab => .ok (some lab)
  | .nd => .error .indexError                                            -- 1785-1788
  | .mask bs => match maskLabels l bs with                               -- 1789-1794
    | .error _ => .error .indexError
    | .ok lab => .ok (some lab)
  | .slice s => match pySliceList l s with                               -- 1802-1804
    | .error e => .error e
    | .ok lab => .ok (some lab)
  | .lar m => match larMask l m with                                     -- 1805-1816
    | .error e => .error e
    | .ok bs => match maskLabels l bs with
      | .error _ => .error .indexError
      | .ok lab => .ok (some lab)
  | .other => .error .indexError                                         -- 1822-1824

/-- The entry handed on to numpy (a larry is replaced by its array, la/deflarry.py:1817-1819). -/
def Item.np : Item L → NpItem
  | .int i => .int i
  | .slice s => .slice s
  | .seq is => .seq is
  | .mask bs => .mask bs
  | .lar m => .mask (m.x.vals.map (fun v => decide (v = .bool true)))
  | .nd => .seq []
  | .other => .seq []

/-- `isscalar(idx)` -/
def Item.isInt : Item L → Bool
  | .int _ => true
  | _ => false

/-- The entries that set `validate = True`. -/
def Item.isSeq : Item L → Bool
  | .seq _ => true
  | .mask _ => true
  | .lar _ => true
  | _ => false

namespace Larry

/-- `larry(x, label, validate=validate)` -/
def make (x : NDArray Val) (dtype : DType) (label : List (List L)) (validate : Bool) : Res (Larry L) :=
  if validate then mk' x dtype label else .ok ⟨x, dtype, label⟩

/-- The labels kept, axis by axis (la/deflarry.py:1769-1828). -/
def keepAll (y : Larry L) (its : List (Item L)) : Res (List (Option (List L))) :=
  mapRes (fun p : (List L × Nat) × Item L => p.2.keep p.1.1 p.1.2)
    ((y.label.zip y.shape).zip (its ++ List.replicate (y.ndim - its.length) (Item.slice {})))

/-- `y[i0, i1, ...]` (la/deflarry.py:1765-1831, 1887). -/
def getTuple (y : Larry L) (its : List (Item L)) : Res (GetOut L) :=
  match y.keepAll its with
  | .error e => .error e
  | .ok labs => match y.x.index (its.map Item.np) with                   -- 1829
    | .error e => .error e
    | .ok x =>
      if its.all Item.isInt then .ok (.ofArray x)                        -- 1830-1831
      else match make x y.dtype (labs.filterMap id) (its.any Item.isSeq) with  -- 1887
        | .error e => .error e
        | .ok z => .ok (.larry z)

/-- `y[i]` with a list or an integer array (la/deflarry.py:1837-1844, 1858-1867). -/
def getSeq (y : Larry L) (is : List Int) : Res (GetOut L) :=
  match pyItems (y.label.getD 0 []) is with
  | .error _ => .error .indexError
  | .ok lab =>
    if hasDup lab then .error .indexError                                -- 1840-1841, 1863-1864
    else match y.x.take is 0 with                                        -- 1843, 1865
      | .error e => .error e
      | .ok x => .ok (.larry ⟨x, y.dtype, y.label.set 0 lab⟩)

/-- `larry.__getitem__(index)` (la/deflarry.py:1754-1887). -/
def getitem (y : Larry L) : Index L → Res (GetOut L)
  | .tuple its => y.getTuple its
  | .one (.int i) =>
    if i ≥ y.shape.getD 0 0 then .error .indexError                      -- 1758-1759
    else match y.x.index [.int i] with                                   -- 1760
      | .error e => .error e
      | .ok x =>
        if y.ndim ≤ 1 then .ok (.ofArray x)                              -- 1761-1762
        else .ok (.larry ⟨x, y.dtype, y.label.drop 1⟩)                   -- 1763
  | .one (.slice s) => match pySliceList (y.label.getD 0 []) s with      -- 1832-1836
    | .error e => .error e
    | .ok lab => match y.x.index [.slice s] with
      | .error e => .error e
      | .ok x => .ok (.larry ⟨x, y.dtype, y.label.set 0 lab⟩)
  | .one (.seq is) => y.getSeq is
  | .one .nd => .error .indexError                                       -- 1847-1850
  | .one (.mask bs) => match maskLabels (y.label.getD 0 []) bs with      -- 1851-1857
    | .error _ => .error .indexError
    | .ok lab => match y.x.index [.mask bs] with
      | .error e => .error e
      | .ok x => .ok (.larry ⟨x, y.dtype, y.label.set 0 lab⟩)
  | .one (.lar m) => match larMask (y.label.getD 0 []) m with            -- 1868-1882
    | .error e => .error e
    | .ok bs => match maskLabels (y.label.getD 0 []) bs with
      | .error _ => .error .indexError
      | .ok lab => match y.x.index [.mask bs] with
        | .error e => .error e
        | .ok x => match mk' x y.dtype (y.label.set 0 lab) with
          | .error e => .error e
          | .ok z => .ok (.larry z)
  | .one .other => .error .indexError                                    -- 1883-1886

end Larry
end
end La
