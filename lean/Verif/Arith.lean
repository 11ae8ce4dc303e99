import Verif.Elementwise

/-!
The arithmetic operators on bool, int and float data: numpy's `add`, `subtract`, `multiply`, `divide`, `true_divide` and
`floor_divide`, and which of them the operator methods of `larry` call (la/deflarry.py:646-954).
Ints and floats are exact and unbounded; numpy refuses strings and objects here (TypeError), although it can add object arrays.
-/

namespace La
variable {L : Type _}

namespace Arith

/-- A bool or an int as an int. -/
def toInt : Val → Int
  | .bool b => if b then 1 else 0
  | .int n => n
  | _ => 0

/-- Numpy picks the loop of an arithmetic ufunc from the operands: two bools, then floats if there is one, then ints. -/
def loop (fb : Bool → Bool → Val) (fi : Int → Int → Val) (ff : Flt → Flt → Val) (v w : Val) : Val :=
  match v, w with
  | .bool a, .bool b => fb a b
  | .flt a, w => ff a w.num
  | v, .flt b => ff v.num b
  | v, w => fi (toInt v) (toInt w)

/-- The dtype of the result; `db` for two bools and `di` for ints (or a bool and an int). -/
def loopDt (db di : DType) (d e : DType) : Res DType :=
  if d.isNumeric = false ∨ e.isNumeric = false then .error .typeError
  else if d = .float ∨ e = .float then .ok .float
  else if d = .bool ∧ e = .bool then .ok db
  else .ok di

/-- `np.add`: of bools, their logical or. -/
def npAdd : UFunc2 :=
  ⟨loop (fun a b => .bool (a || b)) (fun a b => .int (a + b)) (fun a b => .flt (a.add b)), loopDt .bool .int⟩

/-- `np.subtract`: of bools (numpy < 1.13), their exclusive or. -/
def npSubtract : UFunc2 :=
  ⟨loop (fun a b => .bool (xor a b)) (fun a b => .int (a - b)) (fun a b => .flt (a.sub b)), loopDt .bool .int⟩

/-- `np.multiply`: of bools, their logical and. -/
def npMultiply : UFunc2 :=
  ⟨loop (fun a b => .bool (a && b)) (fun a b => .int (a * b)) (fun a b => .flt (a.mul b)), loopDt .bool .int⟩

/-- C's integer division in numpy: rounded down, and zero (with a warning) when dividing by zero. -/
def intDiv (a b : Int) : Int := if b = 0 then 0 else a.fdiv b

/-- The integer below a float. -/
def floorFlt : Flt → Flt
  | .fin a => .fin ⌊a⌋
  | f => f

/-- `np.divide`, the `/` of Python 2: integer division of ints and bools. -/
def npDivide : UFunc2 :=
  ⟨loop (fun a b => .int (intDiv (toInt (.bool a)) (toInt (.bool b)))) (fun a b => .int (intDiv a b))
    (fun a b => .flt (a.div b)), loopDt .int .int⟩

/-- `np.true_divide`, the `/` of Python 3: always a float. -/
def npTrueDivide : UFunc2 :=
  ⟨fun v w => .flt (v.num.div w.num), loopDt .float .float⟩

/-- `np.floor_divide`, `//`. -/
def npFloorDivide : UFunc2 :=
  ⟨loop (fun a b => .int (intDiv (toInt (.bool a)) (toInt (.bool b)))) (fun a b => .int (intDiv a b))
    (fun a b => .flt (floorFlt (a.div b))), loopDt .int .int⟩

end Arith
open Arith

/-- The operator methods `__add__`, `__sub__`, `__mul__`, `__div__`, `__truediv__`, `__floordiv__`. -/
inductive ArithOp
  | add | sub | mul | div | truediv | floordiv
  deriving DecidableEq

/-- The numpy function behind the operator in the body of the method. `py3`: the module runs under Python 3. It does not import
`division` from `__future__`, so under Python 2 the `/` in `__truediv__` (la/deflarry.py:828, 833, 836) is `np.divide`. -/
def ArithOp.uf (py3 : Bool) : ArithOp → UFunc2
  | .add => npAdd
  | .sub => npSubtract
  | .mul => npMultiply
  | .div => if py3 then npTrueDivide else npDivide
  | .truediv => if py3 then npTrueDivide else npDivide
  | .floordiv => npFloorDivide

namespace Larry

/-- `lar op other` for a scalar or array. -/
def opRight (py3 : Bool) (op : ArithOp) (y : Larry L) (other : NDArray Val) (d : DType) : Res (Larry L) :=
  y.binopArray (op.uf py3) other d

/-- `other op lar` for a scalar or array: `__radd__`, `__rsub__`, `__rmul__`, `__rdiv__`, `__rtruediv__`, `__rfloordiv__`
(la/deflarry.py:690, 735-737, 784-794, 885-907, 954). -/
def opLeft (py3 : Bool) (op : ArithOp) (y : Larry L) (other : NDArray Val) (d : DType) : Res (Larry L) :=
  match op with
  | .add => y.rbinopSame npAdd other d
  | .mul => y.rbinopSame npMultiply other d
  | .sub => y.rsub npSubtract other d
  | op => y.rdiv (op.uf py3) other d

end Larry
end La
