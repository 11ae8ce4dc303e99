import Verif.Arith

/-!
The logical operators and the comparison operators of `larry` on bool, int and float data (la/deflarry.py:956-1042, 1661-1725),
and formulas: expressions built from larrys, scalars, operators and elementwise methods.
Numpy can also compare strings, and it can combine objects; here these raise TypeError.
-/

namespace La
variable {L : Type _}

/-- `==`, `!=`, `<`, `>`, `<=`, `>=`. -/
inductive RelOp
  | eq | ne | lt | gt | le | ge
  deriving DecidableEq

/-- Numpy's comparison of two numbers. -/
def RelOp.test : RelOp → Flt → Flt → Bool
  | .eq, a, b => a.eq b
  | .ne, a, b => !a.eq b
  | .lt, a, b => a.lt b
  | .gt, a, b => b.lt a
  | .le, a, b => a.le b
  | .ge, a, b => b.le a

/-- The operator Python calls on the right operand when the left one does not know the right one: `1 < lar` is `lar > 1`. -/
def RelOp.reflected : RelOp → RelOp
  | .eq => .eq
  | .ne => .ne
  | .lt => .gt
  | .gt => .lt
  | .le => .ge
  | .ge => .le

/-- The dtype of a comparison or of a logical operation. -/
def truthDt (d e : DType) : Res DType :=
  if d.isNumeric = false ∨ e.isNumeric = false then .error .typeError else .ok .bool

/-- The comparison `x op y` of two arrays in `__compare` (la/deflarry.py:1688-1699, 1709-1720). -/
def RelOp.uf (c : RelOp) : UFunc2 := ⟨fun v w => .bool (c.test v.num w.num), truthDt⟩

/-- Numpy's truth value of an element: false for zero only, so NaN is true. -/
def Val.truth (v : Val) : Bool := !v.num.eq (.fin 0)

/-- `&` and `|`. -/
inductive LogicOp
  | and | or
  deriving DecidableEq

/-- `np.logical_and` in `__and__` (la/deflarry.py:985, 990, 993) and `np.logical_or` in `__or__` (1029, 1034, 1037). -/
def LogicOp.uf : LogicOp → UFunc2
  | .and => ⟨fun v w => .bool (v.truth && w.truth), truthDt⟩
  | .or => ⟨fun v w => .bool (v.truth || w.truth), truthDt⟩

/-- The binary operators. -/
inductive BinOp
  | arith (op : ArithOp)
  | rel (c : RelOp)
  | logic (o : LogicOp)

namespace BinOp

/-- `a op b` for two larrys: the arithmetic operators (la/deflarry.py:646-954), `__and__` and `__or__` (983-991, 1027-1035) compute
directly when the labels are equal and align otherwise; `__compare` (1707-1723) always aligns. -/
def larrys [LinearOrder L] (py3 : Bool) (b : BinOp) (x y : Larry L) : Res (Larry L) :=
  match b with
  | .arith op => Larry.binop (op.uf py3) x y
  | .logic o => Larry.binop o.uf x y
  | .rel c => Larry.compare c.uf x y

/-- `a op o` for a scalar `o` (la/deflarry.py:684-687, 992-995, 1036-1039, 1685-1706). -/
def right (py3 : Bool) (b : BinOp) (x : Larry L) (o : Val) (od : DType) : Res (Larry L) :=
  match b with
  | .arith op => x.opRight py3 op ⟨[], fun _ => o⟩ od
  | .logic p => x.binopArray p.uf ⟨[], fun _ => o⟩ od
  | .rel c => x.binopArray c.uf ⟨[], fun _ => o⟩ od

/-- `o op a` for a Python scalar `o`: the reflected arithmetic methods, `__rand__ = __and__` (la/deflarry.py:998),
`__ror__ = __or__` (1042), and the reflected comparison. -/
def left (py3 : Bool) (b : BinOp) (o : Val) (od : DType) (x : Larry L) : Res (Larry L) :=
  match b with
  | .arith op => x.opLeft py3 op ⟨[], fun _ => o⟩ od
  | .logic p => x.binopArray p.uf ⟨[], fun _ => o⟩ od
  | .rel c => x.binopArray c.reflected.uf ⟨[], fun _ => o⟩ od

end BinOp

/-- A formula: a larry, an elementwise method or unary operator of a formula, two formulas with an operator between them, a formula
and a scalar of a dtype, a scalar and a formula. -/
inductive Formula
  | var (i : Nat)
  | fn (m : ElemMethod) (t : Formula)
  | bin (b : BinOp) (s t : Formula)
  | right (b : BinOp) (s : Formula) (o : Val) (od : DType)
  | left (b : BinOp) (o : Val) (od : DType) (t : Formula)

/-- Python evaluates the operands left to right and then calls the operator; `env` is the larrys. -/
def Formula.eval [LinearOrder L] (py3 : Bool) (env : List (Larry L)) : Formula → Res (Larry L)
  | .var i => match env[i]? with
    | none => .error .keyError
    | some y => .ok y
  | .fn m t => match t.eval py3 env with
    | .error e => .error e
    | .ok y => y.elem m
  | .bin b s t => match s.eval py3 env with
    | .error e => .error e
    | .ok x => match t.eval py3 env with
      | .error e => .error e
      | .ok y => b.larrys py3 x y
  | .right b s o od => match s.eval py3 env with
    | .error e => .error e
    | .ok x => b.right py3 x o od
  | .left b o od t => match t.eval py3 env with
    | .error e => .error e
    | .ok y => b.left py3 o od y

end La
