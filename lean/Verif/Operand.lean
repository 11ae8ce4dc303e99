import Verif.Formula
import Verif.Objects

/-!
# Model of what an operator does with the object on its other side

`Larry.binop`, `opRight`, `opLeft` and `compare` start from an operand that is already known to be a larry or an array.  Here
the tests on the operand are modelled (la/deflarry.py:675-688, 735-737, 784-794, 886-908, 983-998, 1027-1042, 1685-1725), and
Python's choice between the method of the left operand and the reflected method of the right one.
Data are bools, ints and floats.  Numpy is 1.6 or 1.7.
-/

namespace La
variable {L : Type _}

/-- The object on the other side of an operator. A scalar has the value `v` of dtype `d` as an array element; a list or tuple is
given by the array that `np.asarray` makes of it. -/
inductive Operand (L : Type _)
  | larry (y : Larry L)
  | scalar (c : PyClass) (v : Val) (d : DType)
  | array (x : NDArray Val) (d : DType)
  | list (x : NDArray Val) (d : DType)
  | tuple (x : NDArray Val) (d : DType)
  | other                                   -- None, a dict, a function, ...

/-- What an operator returns: a larry, or a Python bool. -/
inductive Outcome (L : Type _)
  | larry (z : Larry L)
  | truth (b : Bool)

/-- `np.isscalar` by type: the numbers and strings of Python, and the numpy scalars. -/
def npIsscalar : PyClass → Bool
  | .other => false
  | _ => true

namespace Operand

/-- `np.isscalar(other) or isinstance(other, np.ndarray)` (la/deflarry.py:684), and the array numpy then computes with. -/
def arrayOrScalar : Operand L → Option (NDArray Val × DType)
  | .scalar c v d => if npIsscalar c then some (⟨[], fun _ => v⟩, d) else none
  | .array x d => some (x, d)
  | _ => none

/-- The test at the head of `__compare` (la/deflarry.py:1686-1687): lists and tuples as well. -/
def comparable : Operand L → Option (NDArray Val × DType)
  | .list x d => some (x, d)
  | .tuple x d => some (x, d)
  | o => o.arrayOrScalar

end Operand

namespace Larry
variable [LinearOrder L]

/-- `lar.__add__(other)` (la/deflarry.py:675-688), and in the same way `__sub__`, `__div__`, `__truediv__`, `__floordiv__`,
`__mul__`. -/
def arithMethod (py3 : Bool) (op : ArithOp) (y : Larry L) (o : Operand L) : Res (Larry L) :=
  match o with
  | .larry z => binop (op.uf py3) y z                                    -- 675-683
  | o => match o.arrayOrScalar with                                      -- 684
    | some p => y.opRight py3 op p.1 p.2                                 -- 685-687
    | none => .error .typeError                                          -- 688

/-- `__rdiv__`, `__rtruediv__` and `__rfloordiv__` (la/deflarry.py:784-794, 886-908). -/
def rdivMethod (py3 : Bool) (op : ArithOp) (y : Larry L) (o : Operand L) : Res (Larry L) :=
  match o with
  | .larry _ => .error .runtimeError                                     -- 786-789
  | o => match o.arrayOrScalar with
    | some p => y.rdiv (op.uf py3) p.1 p.2                               -- 790-793
    | none => .error .typeError                                          -- 794

/-- `__rsub__` (la/deflarry.py:735-737). -/
def rsubMethod (py3 : Bool) (y : Larry L) (o : Operand L) : Res (Larry L) :=
  match y.arithMethod py3 .sub o with
  | .error e => .error e
  | .ok z => z.elem .neg

/-- The reflected arithmetic methods: `__radd__ = __add__` (la/deflarry.py:690), `__rmul__ = __mul__` (954), and the others. -/
def rarithMethod (py3 : Bool) (op : ArithOp) (y : Larry L) (o : Operand L) : Res (Larry L) :=
  match op with
  | .add => y.arithMethod py3 .add o
  | .mul => y.arithMethod py3 .mul o
  | .sub => y.rsubMethod py3 o
  | op => y.rdivMethod py3 op o

/-- `__and__` and `__or__` (la/deflarry.py:983-996, 1027-1040); `__rand__ = __and__` (998), `__ror__ = __or__` (1042). -/
def logicMethod (p : LogicOp) (y : Larry L) (o : Operand L) : Res (Larry L) :=
  match o with
  | .larry z => binop p.uf y z
  | o => match o.arrayOrScalar with
    | some q => y.binopArray p.uf q.1 q.2
    | none => .error .typeError

/-- `self.x == other` and so on, and what becomes of it (la/deflarry.py:1688-1706).  When numpy cannot compare, `==` gives the
Python object False and `!=` gives True; the other comparisons raise.  What is no array is returned as it is (1705). -/
def compareArray (c : RelOp) (y : Larry L) (x : NDArray Val) (d : DType) : Res (Outcome L) :=
  match y.binopArray c.uf x d with
  | .ok z => .ok (.larry z)                                              -- 1702-1703
  | .error e => match c with
    | .eq => .ok (.truth false)                                          -- 1704-1705
    | .ne => .ok (.truth true)
    | _ => .error e

/-- `lar.__compare(other, op)` (la/deflarry.py:1685-1725). -/
def compareMethod (c : RelOp) (y : Larry L) (o : Operand L) : Res (Outcome L) :=
  match o.comparable with
  | some p => y.compareArray c p.1 p.2                                   -- 1686-1706
  | none => match o with
    | .larry z => (Larry.compare c.uf y z).map .larry                    -- 1707-1723
    | _ => .error .typeError                                             -- 1725

end Larry

namespace BinOp
variable [LinearOrder L]

/-- The method of the left operand. -/
def method (py3 : Bool) (b : BinOp) (y : Larry L) (o : Operand L) : Res (Outcome L) :=
  match b with
  | .arith op => (y.arithMethod py3 op o).map .larry
  | .logic p => (y.logicMethod p o).map .larry
  | .rel c => y.compareMethod c o

/-- The method of the right operand. -/
def rmethod (py3 : Bool) (b : BinOp) (y : Larry L) (o : Operand L) : Res (Outcome L) :=
  match b with
  | .arith op => (y.rarithMethod py3 op o).map .larry
  | .logic p => (y.logicMethod p o).map .larry
  | .rel c => y.compareMethod c.reflected o

/-- `l op r`, one of them a larry: Python calls the method of the left operand if that is a larry.  Otherwise the left operand
declines (an array does because of `__array_priority__`, la/deflarry.py:644) and the reflected method of the larry is called.
Without a larry no code of la runs; the TypeError there stands for whatever Python does.  An array or a numpy scalar on the left
of a comparison is not modelled: numpy 1.6 does not always decline there, and the theorems leave it out. -/
def run (py3 : Bool) (b : BinOp) (l r : Operand L) : Res (Outcome L) :=
  match l, r with
  | .larry y, r => b.method py3 y r
  | l, .larry y => b.rmethod py3 y l
  | _, _ => .error .typeError

end BinOp
end La
