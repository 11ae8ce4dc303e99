import Verif.Arith

/-!
# Model of the arithmetic operators on larrys of Python objects

For arrays of dtype object numpy calls Python's operator on each pair of elements and lets the first exception through.  What the
operator does with two objects is a parameter here (`PyOps`): strings, fractions, dates, sets, lists or instances of any class.
The bodies of the methods are those of la/deflarry.py:675-954; at least one of the operands has dtype object.
-/

namespace La
variable {L : Type _}

/-- What Python's `+`, `-`, `*`, `/`, `//` and unary `-` do with objects (both sides' methods taken into account). -/
structure PyOps where
  bin : ArithOp → Val → Val → Res Val
  neg : Val → Res Val

/-- The value of a call that succeeded. -/
def okOr : Res Val → Val
  | .ok v => v
  | .error _ => .none

/-- An array of results: the first exception in the order of the elements escapes. -/
def collectRes (x : NDArray (Res Val)) : Res (NDArray Val) :=
  match mapRes (fun i => x.get i) (allIdx x.shape) with
  | .error e => .error e
  | .ok _ => .ok ⟨x.shape, fun i => okOr (x.get i)⟩

/-- `a op b` on arrays of objects. -/
def npObject (f : Val → Val → Res Val) (a b : NDArray Val) : Res (NDArray Val) :=
  match broadcastShape a.shape b.shape with
  | .error e => .error e
  | .ok shape => collectRes ⟨shape, fun i => f (a.bget i) (b.bget i)⟩

/-- `larry(x, label, validate=False)` of the array computed. -/
def objLarry (label : List (List L)) : Res (NDArray Val) → Res (Larry L)
  | .error e => .error e
  | .ok x => .ok ⟨x, .object, label⟩

namespace Larry
variable [LinearOrder L]

/-- `lar op other` for two larrys: `__add__` (la/deflarry.py:675-683), and in the same way `__sub__` (720-728), `__div__`,
`__truediv__`, `__floordiv__` and `__mul__`. -/
def objBinop (f : Val → Val → Res Val) (a b : Larry L) : Res (Larry L) :=
  if a.label = b.label then                                              -- 676
    objLarry a.label (npObject f a.x b.x)                                -- 677-679
  else
    match align a b with                                                 -- 681
    | .error e => .error e
    | .ok (x, y, label) => objLarry label (npObject f x y)               -- 682-683

/-- `lar op other` for a scalar or array (la/deflarry.py:684-687, and so on). -/
def objRight (f : Val → Val → Res Val) (y : Larry L) (other : NDArray Val) : Res (Larry L) :=
  objLarry y.label (npObject f y.x other)

/-- `-lar` (la/deflarry.py:464-468). -/
def objNeg (f : Val → Res Val) (y : Larry L) : Res (Larry L) :=
  objLarry y.label (collectRes ⟨y.x.shape, fun i => f (y.x.get i)⟩)

/-- `other op lar` for a scalar or array: `__radd__ = __add__` (la/deflarry.py:690), `__rmul__ = __mul__` (954), `__rsub__` as
`-(lar - other)` (735-737), `__rdiv__`, `__rtruediv__` and `__rfloordiv__` as `other / lar.x` (784-794, 886-908). -/
def objLeft (o : PyOps) (op : ArithOp) (y : Larry L) (other : NDArray Val) : Res (Larry L) :=
  match op with
  | .add => y.objRight (o.bin .add) other
  | .mul => y.objRight (o.bin .mul) other
  | .sub => match y.objRight (o.bin .sub) other with
    | .error e => .error e
    | .ok z => z.objNeg o.neg
  | op => objLarry y.label (npObject (o.bin op) other y.x)

end Larry
end La
