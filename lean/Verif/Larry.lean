import Verif.Flabel

/-!
# Model of the `larry` class (la/deflarry.py): construction, lookup, arithmetic, morph

A larry is an array, its dtype and one list of labels per axis.  Labels come from one linearly
ordered type `L` (the code only compares labels with `==`, hashes them and, in some methods, sorts
them; mixed-type labels whose sorting raises TypeError in Python 3 are not modelled).

Reference semantics (who shares which buffer) is modelled separately in `Verif/Heap.lean`; here a
method that mutates `self` returns the new larry.
-/

namespace La

/-- `larry.x`, `larry.dtype`, `larry.label` (la/deflarry.py:137-138, 4142). -/
structure Larry (L : Type _) where
  x : NDArray Val
  dtype : DType
  label : List (List L)

/-- An elementwise numpy binary operation: the value computed and the result dtype; numpy may refuse a
pair of dtypes with TypeError (e.g. `'a' - 1`).  The theorems hold for every such operation. -/
structure UFunc2 where
  f : Val → Val → Val
  dt : DType → DType → Res DType

/-- One axis of numpy's broadcasting rule. -/
def bdim (m n : Nat) : Res Nat :=
  if m = n then .ok m else if m = 1 then .ok n else if n = 1 then .ok m else .error .valueError

/-- Broadcast shape of two arrays: shapes are aligned at the last axis, the shorter one is padded with
ones; ValueError when some axis does not fit. -/
def broadcastShape (s t : List Nat) : Res (List Nat) :=
  let k := max s.length t.length
  mapRes (fun p : Nat × Nat => bdim p.1 p.2)
    ((List.replicate (k - s.length) 1 ++ s).zip (List.replicate (k - t.length) 1 ++ t))

/-- The element of `a` read at position `idx` of the broadcast shape: leading extra axes are dropped,
length-1 axes are read at 0. -/
def NDArray.bget {α : Type _} (a : NDArray α) (idx : List Nat) : α :=
  a.get (List.zipWith (fun n i => if n = 1 then 0 else i) a.shape
    (idx.drop (idx.length - a.shape.length)))

/-- Numpy `uf(a, b)` on arrays (a scalar operand is a 0d array). -/
def npBinop (uf : UFunc2) (a : NDArray Val) (da : DType) (b : NDArray Val) (db : DType) :
    Res (NDArray Val × DType) :=
  match uf.dt da db with
  | .error e => .error e
  | .ok d => match broadcastShape a.shape b.shape with
    | .error e => .error e
    | .ok shape => .ok (⟨shape, fun i => uf.f (a.bget i) (b.bget i)⟩, d)

namespace Larry
variable {L : Type _}

/-- `larry.shape` (la/deflarry.py:4114-4125). -/
def shape (y : Larry L) : List Nat := y.x.shape

/-- `larry.ndim` (la/deflarry.py:4128-4139). -/
def ndim (y : Larry L) : Nat := y.x.ndim

/-- `larry.size` (la/deflarry.py:4099-4111). -/
def size (y : Larry L) : Nat := y.x.size

/-- `larry.copy()` (la/deflarry.py:4934-4952): equal contents (see Heap.lean for the new buffers). -/
def copy (y : Larry L) : Larry L := y

section dec
variable [DecidableEq L]

/-- `larry.__init__(x, label, validate=True)` (la/deflarry.py:110-138) with a label argument that is a
list of lists (other sequence types raise ValueError at line 135-136 and are not representable
here).  Every failing check raises ValueError. -/
def mk' (x : NDArray Val) (dtype : DType) (label : List (List L)) : Res (Larry L) :=
  if x.ndim ≠ label.length then .error .valueError                       -- 112-113
  else if x.ndim = 0 then .error .valueError                             -- 114-118
  else if (label.zip x.shape).any
      (fun p => p.2 != p.1.length || hasDup p.1) then .error .valueError -- 119-134
  else .ok ⟨x, dtype, label⟩                                             -- 137-138

end dec

/-- `larry(x)`, i.e. `label=None` (la/deflarry.py:108-138): labels are `range(n)` on every axis. -/
def ofArray (x : NDArray Val) (dtype : DType) : Res (Larry Int) :=
  mk' x dtype (x.shape.map (fun n => (List.range n).map (fun i : Nat => (i : Int))))

/-- `larry([])` (used at la/deflarry.py:2475, 3987, 4389): an empty 1d float larry.  `label=None` gives
the label list `[]`, so the label type does not matter. -/
def emptyLarry : Larry L := ⟨⟨[0], fun _ => .none⟩, .float, [[]]⟩

section order
variable [LinearOrder L]

/-- `larry.labelindex(name, axis, exact)` (la/deflarry.py:2630-2644); `axis = none` is Python `None`. -/
def labelindex (y : Larry L) (name : L) (axis : Option Int) (exact : Bool := true) : Res Nat :=
  match axis with
  | none => .error .valueError                                           -- 2630-2631
  | some axis =>
    if axis ≥ y.ndim then .error .indexError                             -- 2632-2633
    else match pyGet y.label axis with                                   -- 2635
      | .error e => .error e
      | .ok l => match pyIndex l name with
        | some i => .ok i
        | none =>
          if exact then .error .indexError                               -- 2637-2638
          else
            -- 2640-2643: max of the positions whose label is <= name
            match ((List.range l.length).filter
                (fun i => match l[i]? with | some z => decide (z ≤ name) | none => false)).getLast? with
            | none => .error .indexError
            | some i => .ok i

/-- The index built by `get` and `set` (la/deflarry.py:2167-2171, 2204-2208). -/
def labelIdx (y : Larry L) (names : List L) : Res (List Nat) :=
  if names.length ≠ y.ndim then .error .valueError
  else mapRes (fun p : L × Nat => y.labelindex p.1 (some (p.2 : Int))) names.zipIdx

/-- `larry.get(label)` (la/deflarry.py:2204-2209). -/
def get (y : Larry L) (names : List L) : Res Val :=
  match y.labelIdx names with
  | .error e => .error e
  | .ok index => y.x.item index                                          -- 2209

/-- `larry.set(label, value)` (la/deflarry.py:2167-2172); `v` is the value after numpy's cast to the
dtype of the array.  Returns the mutated larry. -/
def set (y : Larry L) (names : List L) (v : Val) : Res (Larry L) :=
  match y.labelIdx names with
  | .error e => .error e
  | .ok index =>
    if InB y.x.shape index then .ok { y with x := y.x.setItem index v }  -- 2172
    else .error .indexError

/-- Loop of `larry.__align` (la/deflarry.py:1053-1064) from axis `ax` on. -/
def alignLoop : List (List L × List L) → Nat → NDArray Val → NDArray Val →
    Res (NDArray Val × NDArray Val × List (List L))
  | [], _, x, y => .ok (x, y, [])
  | (ls, lo) :: rest, ax, x, y =>
    if ls = lo then                                                      -- 1055-1056
      match alignLoop rest (ax + 1) x y with
      | .error e => .error e
      | .ok (x, y, r) => .ok (x, y, ls :: r)
    else
      let lab := pySorted (setInter ls lo)                               -- 1058-1059
      match listmap ls lab with                                          -- 1060
      | .error e => .error e
      | .ok ids => match listmap lo lab with                             -- 1061
        | .error e => .error e
        | .ok ido => match x.take (ids.map Int.ofNat) ax with            -- 1062
          | .error e => .error e
          | .ok x => match y.take (ido.map Int.ofNat) ax with            -- 1063
            | .error e => .error e
            | .ok y => match alignLoop rest (ax + 1) x y with
              | .error e => .error e
              | .ok (x, y, r) => .ok (x, y, lab :: r)                    -- 1064

/-- `larry.__align(other)` (la/deflarry.py:1044-1065). -/
def align (a b : Larry L) : Res (NDArray Val × NDArray Val × List (List L)) :=
  if a.ndim ≠ b.ndim then .error .indexError                             -- 1046-1048
  else alignLoop (a.label.zip b.label) 0 a.x b.x

/-- `a op b` for two larrys: `__add__` (la/deflarry.py:675-683) and, identically, `__sub__`, `__div__`,
`__truediv__`, `__floordiv__`, `__mul__`, `__and__`, `__or__`. -/
def binop (uf : UFunc2) (a b : Larry L) : Res (Larry L) :=
  if a.label = b.label then                                              -- 676
    match npBinop uf a.x a.dtype b.x b.dtype with                        -- 677
    | .error e => .error e
    | .ok (x, d) => .ok ⟨x, d, a.label⟩                                  -- 678-679
  else
    match align a b with                                                 -- 681
    | .error e => .error e
    | .ok (x, y, label) => match npBinop uf x a.dtype y b.dtype with     -- 682
      | .error e => .error e
      | .ok (x, d) => .ok ⟨x, d, label⟩                                  -- 683

/-- `a op other` for a scalar or ndarray `other` (la/deflarry.py:684-687, and the same lines of the
other operators; `__compare`, 1686-1706, for a scalar or array whose comparison yields an array). -/
def binopArray (uf : UFunc2) (a : Larry L) (other : NDArray Val) (d : DType) : Res (Larry L) :=
  match npBinop uf a.x a.dtype other d with
  | .error e => .error e
  | .ok (x, d) => .ok ⟨x, d, a.label⟩

/-- `larry.__compare(other, op)` for a larry (la/deflarry.py:1707-1723): always aligns. -/
def compare (uf : UFunc2) (a b : Larry L) : Res (Larry L) :=
  match align a b with                                                   -- 1708
  | .error e => .error e
  | .ok (x, y, label) => match npBinop uf x a.dtype y b.dtype with
    | .error e => .error e
    | .ok (x, d) => .ok ⟨x, d, label⟩                                    -- 1723

/-- `larry.morph(label, axis)` (la/deflarry.py:3331-3361).  `ax` is `axis` normalised; every later use
of `axis` in the code (list item, `shape[axis]`, `take`) normalises it the same way. -/
def morph (y : Larry L) (lab : List L) (axis : Int) : Res (Larry L) :=
  if axis ≥ y.ndim then .error .indexError                               -- 3331-3332
  else match pyIdx y.label.length axis with
    | none => .error .indexError
    | some ax =>
      let lold := y.label.getD ax []
      if lold = lab then .ok y.copy                                      -- 3333-3334
      else
        let m := listmapFill lold lab                                    -- 3336
        let r : Res (NDArray Val × DType) :=
          if m.1.length = m.2.length then                                -- 3337
            let shape := y.x.shape.set ax m.1.length                     -- 3339-3340
            let d := match missingMarker y.dtype with                    -- 3341-3345
              | none => DType.float
              | some _ => y.dtype
            match nans shape d with                                      -- 3346
            | .error e => .error e
            | .ok x => .ok (x, d)
          else
            match y.x.take m.1 axis with                                 -- 3348
            | .error e => .error e
            | .ok x =>
              if m.2.length > 0 then                                     -- 3349
                match missingMarker y.dtype with                         -- 3352-3356
                | none => .ok ((x.map Val.toFloat).assignAx m.2 ax (.flt .nan), .float)
                | some mm => .ok (x.assignAx m.2 ax mm, y.dtype)
              else .ok (x, y.dtype)
        match r with
        | .error e => .error e
        | .ok (x, d) =>
          if hasDup lab then .error .indexError                          -- 3358-3359
          else .ok ⟨x, d, y.label.set ax lab⟩                            -- 3357, 3360-3361

/-- `larry.getlabel(axis)` (la/deflarry.py:2299-2304). -/
def getlabel (y : Larry L) (axis : Int) : Res (List L) :=
  if axis ≥ y.ndim then .error .indexError
  else pyGet y.label axis

/-- Loop of `morph_like` (la/deflarry.py:3418-3419). -/
def morphLikeLoop (lar : Larry L) : List Nat → Larry L → Res (Larry L)
  | [], y => .ok y
  | i :: is, y => match lar.getlabel i with
    | .error e => .error e
    | .ok l => match y.morph l i with
      | .error e => .error e
      | .ok y => morphLikeLoop lar is y

/-- `larry.morph_like(lar)` (la/deflarry.py:3412-3420). -/
def morphLike (y lar : Larry L) : Res (Larry L) :=
  if y.ndim ≠ lar.ndim then .error .indexError                           -- 3412-3413
  else morphLikeLoop lar (List.range y.ndim) y                           -- 3418-3419

end order
end Larry
end La
