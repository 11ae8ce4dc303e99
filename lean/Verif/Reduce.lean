import Verif.Methods
import Verif.Flt

/-!
# Model of reductions, missing-value filters and the numpy pieces they use

`larry.__reduce` and its callers, `keep_x`, `vacuum`, `cut_missing`, `ismissing` (la/deflarry.py).
-/

namespace La

/-- All multi-indices of a shape, last axis fastest: the order of `a.flat`. -/
def allIdx : List Nat → List (List Nat)
  | [] => [[]]
  | n :: ns => (List.range n).flatMap (fun i => (allIdx ns).map (i :: ·))

namespace NDArray
variable {α β : Type _}

/-- The elements of `a` in `a.flat` order. -/
def vals (a : NDArray α) : List α := (allIdx a.shape).map a.get

/-- The elements of `a` along axis `ax`, the other coordinates being `rest`. -/
def line (a : NDArray α) (ax : Nat) (rest : List Nat) : List α :=
  (List.range (a.shape.getD ax 0)).map (fun i => a.get (rest.insertIdx ax i))

/-- A numpy reduction along axis `ax`, given what it does to the list of elements of a line. -/
def reduceAx (f : List α → β) (a : NDArray α) (ax : Nat) : NDArray β :=
  ⟨a.shape.eraseIdx ax, fun rest => f (a.line ax rest)⟩

/-- A numpy function that works along axis `ax` and keeps the shape, given what it does to a line. -/
def mapLines (f : List α → List β) (dflt : β) (a : NDArray α) (ax : Nat) : NDArray β :=
  ⟨a.shape, fun idx => (f (a.line ax (idx.eraseIdx ax))).getD (idx.getD ax 0) dflt⟩

/-- `np.rollaxis(a, ax, 0)` -/
def rollFront (a : NDArray α) (ax : Nat) : NDArray α :=
  ⟨a.shape.getD ax 0 :: a.shape.eraseIdx ax,
    fun idx => a.get (idx.tail.insertIdx ax (idx.headD 0))⟩

/-- A reduction along the last axis, `a.sum(-1)`, `a.any(-1)`. -/
def reduceLast (f : List α → α) (a : NDArray α) : NDArray α := a.reduceAx f (a.ndim - 1)

/-- `for _ in range(k): a = a.f(-1)` -/
def reduceLastN (f : List α → α) : Nat → NDArray α → NDArray α
  | 0, a => a
  | k + 1, a => reduceLastN f k (a.reduceLast f)

/-- `a[np.ix_(*ids)]`: the grid of the given positions on every axis. -/
def grid (a : NDArray α) (ids : List (List Nat)) : NDArray α :=
  ⟨ids.map List.length, fun idx => a.get (List.zipWith (fun l i => l.getD i 0) ids idx)⟩

/-- `np.nonzero(a)[0]` of a 1d boolean array. -/
def nonzero1 (a : NDArray Bool) : List Nat := (List.range (a.shape.getD 0 0)).filter (fun i => a.get [i])

end NDArray

/-- `np.isfinite(x)`: TypeError for str and object arrays. -/
def npIsfinite (x : NDArray Val) (d : DType) : Res (NDArray Bool) :=
  match d with
  | .str => .error .typeError
  | .object => .error .typeError
  | _ => .ok (x.map Val.isFin)

/-- The comparison operators of `keep_x` (la/deflarry.py:2525); `unknown` is any other string. -/
inductive CmpOp
  | eq | gt | lt | ge | le | ne | unknown
  deriving DecidableEq, Repr

/-- Numpy's comparison of one element with the value. -/
def CmpOp.test : CmpOp → Flt → Flt → Bool
  | .eq, a, b => a.eq b
  | .gt, a, b => b.lt a
  | .lt, a, b => a.lt b
  | .ge, a, b => b.le a
  | .le, a, b => a.le b
  | .ne, a, b => !a.eq b
  | .unknown, _, _ => false

/-- A reduction handed to `larry.__reduce` (`bn.nansum`, `bn.nanmean`, `np.any`, `lastrank`, …): what it
computes from the elements of a line, its result dtype (or the exception it raises for a dtype), and
the default for arrays of size 0. -/
structure Red where
  f : List Val → Val
  dt : DType → Res DType
  default : Val
  /-- `op == np.any or op == np.all` (la/deflarry.py:1472) -/
  logical : Bool

/-- `x.fill(v)` of a new array of dtype `d`, for the defaults NaN, False and True: a NaN cannot be
converted to int, and is true as a bool.  (The str case, where NaN becomes text, is not modelled.) -/
def fillVal? (d : DType) (v : Val) : Res Val :=
  match d, v with
  | .int, .flt .nan => .error .valueError
  | .int, .bool b => .ok (.int (if b then 1 else 0))
  | .bool, .flt .nan => .ok (.bool true)
  | .float, v => .ok v.toFloat
  | .str, _ => .error .typeError
  | _, v => .ok v

namespace Larry
variable {L : Type _}

/-- `larry.__reduce(op, default, axis=axis)` (la/deflarry.py:1461-1492); `axis = none` is `None`.
Numpy and Bottleneck raise ValueError for an axis out of range. -/
def reduce (r : Red) (y : Larry L) (axis : Option Int) : Res (Out L) :=
  if y.size = 0 then
    match axis with
    | none => .ok (.scalar r.default)                                    -- 1465-1466
    | some axis => match pyPop y.shape axis with                         -- 1467-1468
      | .error e => .error e
      | .ok shape =>
        if shape.length = 0 then .ok (.scalar r.default)                 -- 1469-1470
        else
          let d := if r.logical then .bool else y.dtype                  -- 1472-1475
          match fillVal? d r.default with                                -- 1476-1477
          | .error e => .error e
          | .ok v => match pyPop y.label axis with                       -- 1478-1479
            | .error e => .error e
            | .ok label => .ok (.larry ⟨NDArray.full shape v, d, label⟩) -- 1480
  else match r.dt y.dtype with
    | .error e => .error e
    | .ok d => match axis with
      | none => .ok (.scalar (r.f y.x.vals))                             -- 1489-1490
      | some axis => match pyIdx y.ndim axis with
        | none => .error .valueError
        | some ax =>
          let x := y.x.reduceAx r.f ax                                   -- 1482
          if x.shape.length = 0 then .ok (.scalar (x.get []))            -- 1483-1484
          else match pyPop y.label axis with                             -- 1486-1487
            | .error e => .error e
            | .ok label => .ok (.larry ⟨x, d, label⟩)                    -- 1488

/-- The labels and positions `vacuum` and `cut_missing` keep on axis `ax`. -/
def keptLab (y : Larry L) (ax : Nat) (ids : List Nat) : List L :=
  ids.filterMap (fun i => (y.label.getD ax [])[i]?)

/-- One pass of the loop of `vacuum` (la/deflarry.py:4041-4056): the positions kept on axis `ax`. -/
def vacuumAxis (y : Larry L) (axes : List Nat) (ax : Nat) : Res (List Nat) :=
  if ax ∉ axes then .ok (List.range (y.shape.getD ax 0))                 -- 4043-4047
  else match npIsfinite y.x y.dtype with                                 -- 4050
    | .error e => .error e
    | .ok b => .ok (NDArray.nonzero1 (NDArray.reduceLastN (fun l => l.any id) (y.ndim - 1) (b.rollFront ax)))

/-- The axes `vacuum` works on (la/deflarry.py:4028-4037): all of them for `axis=None`, else those
not equal to any of the given integers (an integer argument is a list of one). -/
def vacuumAxes (ndim : Nat) : Option (List Int) → List Nat
  | none => List.range ndim
  | some as => (List.range ndim).filter (fun a => (a : Int) ∉ as)

/-- `larry.vacuum(axis)` (la/deflarry.py:4025-4060). -/
def vacuum (y : Larry L) (axis : Option (List Int) := none) : Res (Larry L) :=
  match mapRes (y.vacuumAxis (vacuumAxes y.ndim axis)) (List.range y.ndim) with
  | .error e => .error e
  | .ok ids => .ok ⟨y.x.grid ids, y.dtype, ids.zipIdx.map (fun p => y.keptLab p.2 p.1)⟩

/-- One pass of the loop of `cut_missing` (la/deflarry.py:3962-3980).  `count` has all elements 1.0. -/
def cutAxis (y : Larry L) (fraction : ℚ) (axes : List Nat) (ax : Nat) : Res (List Nat) :=
  if ax ∈ axes then .ok (List.range (y.shape.getD ax 0))                 -- 3964-3968
  else match npIsfinite y.x y.dtype with                                 -- 3971
    | .error e => .error e
    | .ok b =>
      let xtmp := (b.map (fun t => if t then (1 : ℚ) else 0)).rollFront ax
      let count := NDArray.full xtmp.shape (1 : ℚ)                       -- 3972
      let xtmp := NDArray.reduceLastN List.sum (y.ndim - 1) xtmp         -- 3973-3975
      let count := NDArray.reduceLastN List.sum (y.ndim - 1) count
      .ok (NDArray.nonzero1 (NDArray.zipWith (fun s c => decide (s > (1 - fraction) * c)) xtmp count))

/-- The axes `cut_missing` leaves alone (la/deflarry.py:3955-3958). -/
def cutAxes (ndim : Nat) : Option Int → Res (List Nat)
  | none => .ok (List.range ndim)
  | some a => match pyIdx ndim a with
    | none => .error .indexError
    | some k => .ok [k]

/-- `larry.cut_missing(fraction, axis)` (la/deflarry.py:3952-3989).  Floats are exact rationals. -/
def cutMissing (y : Larry L) (fraction : ℚ) (axis : Option Int) : Res (Larry L) :=
  match cutAxes y.ndim axis with
  | .error e => .error e
  | .ok axes => match mapRes (y.cutAxis fraction axes) (List.range y.ndim) with
    | .error e => .error e
    | .ok ids =>
      let x := y.x.grid ids                                              -- 3982
      if x.size = 0 then .ok emptyLarry                                  -- 3985-3987
      else .ok ⟨x, y.dtype, ids.zipIdx.map (fun p => y.keptLab p.2 p.1)⟩

/-- What `x[mask] = np.nan` stores in an array of dtype `d`. -/
def nanAs : DType → Res Val
  | .float => .ok (.flt .nan)
  | .bool => .ok (.bool true)
  | .int => .error .valueError
  | _ => .error .typeError

/-- `larry.keep_x(op, value, vacuum)` (la/deflarry.py:2523-2533) with a numeric value.  Assigning NaN to
an int array raises ValueError, to a bool array stores True; str and object arrays are not modelled
(TypeError here). -/
def keepX (y : Larry L) (op : CmpOp) (value : Flt) (vac : Bool := true) : Res (Larry L) :=
  if vac = true ∧ y.ndim ≠ 2 then .error .valueError                     -- 2523-2524
  else if op = .unknown then .error .valueError                          -- 2525-2527
  else
    match nanAs y.dtype with
    | .error e => .error e
    | .ok w =>
      let z : Larry L := { y with x := y.x.map (fun v => if op.test v.num value then v else w) }  -- 2529-2530
      if vac then z.vacuum else .ok z                                    -- 2531-2533

/-- `larry.ismissing()` (la/deflarry.py:3927-3929). -/
def ismissing (y : Larry L) : Larry L :=
  ⟨(La.ismissing y.dtype y.x).map Val.bool, .bool, y.label⟩

/-- `np.putmask(x, mask, np.nan)`; the only other dtype that meets a True mask is a bool array filled
with True, which stays as it is. -/
def maskNan (d : DType) (x : NDArray Val) (mask : NDArray Bool) : NDArray Val :=
  ⟨x.shape, fun i => if mask.get i && decide (d = .float) then .flt .nan else x.get i⟩

/-- The integer stored in an element of an int or bool array. -/
def intOf : Val → Int
  | .int n => n
  | .bool b => if b then 1 else 0
  | _ => 1

/-- The result dtype of `np.prod`. -/
def prodDType : DType → Res DType
  | .float => .ok .float
  | .str => .error .typeError
  | .object => .error .typeError
  | _ => .ok .int

/-- `np.prod` of the elements of a line: a float, or an int for int and bool arrays (no overflow). -/
def npProd (d : DType) (l : List Val) : Val :=
  match d with
  | .float => .flt (Flt.prod (l.map Val.num))
  | _ => .int (l.map intOf).prod

/-- `np.prod` as a reduction of an array of dtype `d`. -/
def prodRed (d : DType) : Red := ⟨npProd d, prodDType, .flt .nan, false⟩

/-- `larry.prod(axis)` (la/deflarry.py:1157-1167). -/
def prod (y : Larry L) (axis : Option Int) : Res (Out L) :=
  if y.dtype = .str ∨ y.dtype = .object then .error .typeError           -- 1158: np.isnan
  else
    let idx := y.x.map Val.isNan                                         -- 1158
    let one := y.x.map (fun v => if v.isNan then .flt (.fin 1) else v)   -- 1159
    match reduce (prodRed y.dtype) { y with x := one } axis with         -- 1160
    | .error e => .error e
    | .ok (.scalar v) => .ok (.scalar (if idx.vals.all id then .flt .nan else v))   -- 1161-1164
    | .ok (.larry z) => match axis with
      | none => .ok (.larry z)
      | some axis => match pyIdx y.ndim axis with
        | none => .error .valueError
        | some ax => .ok (.larry ⟨maskNan z.dtype z.x (idx.reduceAx (fun l => l.all id) ax), z.dtype,
            z.label⟩)                                                    -- 1161, 1166

end Larry
end La
