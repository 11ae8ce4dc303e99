import Verif.Kernel
import Mathlib.Data.Rat.Floor

/-!
Elementwise methods of `larry`: `log`, `exp`, `sqrt`, `sign`, `power` (la/deflarry.py:142-291), `__neg__`,
`__pos__`, `abs`, `isnan`, `isfinite`, `isinf`, `invert` (464-637), `nan_replace` (4062-4079), `astype`
(4155-4195), and the operators with a scalar or array on the left (690, 735-737, 784-794, 886-908, 954).
Bool, int and float larrys; what numpy does with strings and objects is not modelled (the model raises TypeError).
-/

namespace La
variable {L : Type _}

/-- `np.absolute` of a float. -/
def Flt.abs : Flt → Flt
  | .nan => .nan
  | .pinf => .pinf
  | .ninf => .pinf
  | .fin a => .fin (if a < 0 then -a else a)

/-- `np.sign` of a float. -/
def Flt.sign : Flt → Flt
  | .nan => .nan
  | .pinf => .fin 1
  | .ninf => .fin (-1)
  | .fin a => .fin (if 0 < a then 1 else if a < 0 then -1 else 0)

/-- C's `pow(x, q)` for a whole number `q >= 0`: `pow(x, 0)` is 1 even for NaN. -/
def Flt.pow (f : Flt) (q : Nat) : Flt :=
  if q = 0 then .fin 1
  else match f with
    | .nan => .nan
    | .pinf => .pinf
    | .ninf => if q % 2 = 0 then .pinf else .ninf
    | .fin a => .fin (a ^ q)

/-- `np.isinf` of a float. -/
def Flt.isInf : Flt → Bool
  | .pinf => true
  | .ninf => true
  | _ => false

/-- Conversion of a float to int truncates; `junk` is what the platform gives for NaN and infinities. -/
def Flt.toInt (junk : Flt → Int) : Flt → Int
  | .fin a => if 0 ≤ a then ⌊a⌋ else ⌈a⌉
  | f => junk f

/-- Conversion of a float to bool: everything but zero, NaN included, is True. -/
def Flt.toBool (f : Flt) : Bool := decide (f ≠ .fin 0)

namespace Elem

/-- `np.log`, `np.exp`, `np.sqrt`, one element; `f` is the library function. -/
def viaFloat (f : Flt → Flt) (v : Val) : Val := .flt (f v.num)

/-- `np.sign`, one element (a bool array is converted to int8). -/
def sign : Val → Val
  | .bool b => .int (if b then 1 else 0)
  | .int n => .int (if 0 < n then 1 else if n < 0 then -1 else 0)
  | .flt f => .flt f.sign
  | v => v

/-- `np.power(x, q)` for a whole number `q >= 0`, one element. -/
def power (q : Nat) : Val → Val
  | .bool b => .int ((if b then 1 else 0) ^ q)
  | .int n => .int (n ^ q)
  | .flt f => .flt (f.pow q)
  | v => v

/-- `-x`, one element (numpy 1.6/1.7: the negative of a bool array is its logical not). -/
def neg : Val → Val
  | .bool b => .bool (!b)
  | .int n => .int (-n)
  | .flt f => .flt f.neg
  | v => v

/-- `np.absolute`, one element. -/
def abs : Val → Val
  | .int n => .int n.natAbs
  | .flt f => .flt f.abs
  | v => v

/-- `np.isnan`, one element. -/
def isnan (v : Val) : Val := .bool v.isNan

/-- `np.isfinite`, one element. -/
def isfinite (v : Val) : Val := .bool v.isFin

/-- `np.isinf`, one element. -/
def isinf (v : Val) : Val := .bool v.num.isInf

/-- `~x` of a bool array, one element. -/
def invert : Val → Val
  | .bool b => .bool (!b)
  | v => v

/-- `bn.replace(x, np.nan, r)`, one element. -/
def nanReplace (r : Flt) : Val → Val
  | .flt f => .flt (if f.isNan then r else f)
  | v => v

/-- `x.astype(d)`, one element of a bool, int or float array. -/
def astype (junk : Flt → Int) : DType → Val → Val
  | .bool, .int n => .bool (decide (n ≠ 0))
  | .bool, .flt f => .bool f.toBool
  | .int, .bool b => .int (if b then 1 else 0)
  | .int, .flt f => .int (f.toInt junk)
  | .float, v => v.toFloat
  | _, v => v

end Elem

/-- The elementwise methods of this file. -/
inductive ElemMethod
  | log (f : Flt → Flt)                      -- also exp, sqrt: `f` is the library function
  | sign
  | power (q : Nat)
  | neg
  | pos
  | abs
  | isnan
  | isfinite
  | isinf
  | invert
  | nanReplace (r : Flt)
  | astype (junk : Flt → Int) (d : DType)

namespace ElemMethod

/-- The function applied to each element. -/
def fn : ElemMethod → Val → Val
  | log f => Elem.viaFloat f                 -- la/deflarry.py:164, 189, 214
  | sign => Elem.sign                        -- 242
  | power q => Elem.power q                  -- 272
  | neg => Elem.neg                          -- 467
  | pos => id                                -- 472
  | abs => Elem.abs                          -- 497
  | isnan => Elem.isnan                      -- 536
  | isfinite => Elem.isfinite                -- 563
  | isinf => Elem.isinf                      -- 590
  | invert => Elem.invert                    -- 637
  | nanReplace r => Elem.nanReplace r        -- 4078
  | astype junk d => Elem.astype junk d      -- 4194

/-- The dtype of the result. -/
def dt : ElemMethod → DType → DType
  | log _, _ => .float
  | sign, d => if d = .bool then .int else d
  | power _, d => if d = .bool then .int else d
  | isnan, _ => .bool
  | isfinite, _ => .bool
  | isinf, _ => .bool
  | astype _ d, _ => d
  | _, d => d

end ElemMethod

namespace Larry

/-- `larry(f(self.x), self.copylabel(), validate=False)`. -/
def mapped (g : Val → Val) (d : DType) (y : Larry L) : Larry L := ⟨y.x.map g, d, y.label⟩

/-- Call an elementwise method. -/
def elem (m : ElemMethod) (y : Larry L) : Res (Larry L) :=
  match m with
  | .invert =>
    if y.dtype ≠ .bool then .error .typeError                            -- 635-636
    else .ok (y.mapped (ElemMethod.fn .invert) .bool)                    -- 637
  | .astype junk d =>
    if y.dtype.isNumeric = false ∨ d.isNumeric = false then .error .typeError
    else .ok (y.mapped (ElemMethod.fn (.astype junk d)) d)
  | m =>
    if y.dtype.isNumeric = false then .error .typeError
    else .ok (y.mapped m.fn (m.dt y.dtype))

/-- `other op lar` for a scalar or array `other`, where the method is the one of `lar op other`:
`__radd__ = __add__` (la/deflarry.py:690), `__rmul__ = __mul__` (954). -/
def rbinopSame (uf : UFunc2) (y : Larry L) (other : NDArray Val) (d : DType) : Res (Larry L) :=
  y.binopArray uf other d

/-- `other - lar` (la/deflarry.py:735-737): `-(lar - other)`. -/
def rsub (sub : UFunc2) (y : Larry L) (other : NDArray Val) (d : DType) : Res (Larry L) :=
  match y.binopArray sub other d with
  | .error e => .error e
  | .ok z => z.elem .neg

/-- `other / lar`, `other // lar` (la/deflarry.py:790-793, 892-895, 904-907). -/
def rdiv (div : UFunc2) (y : Larry L) (other : NDArray Val) (d : DType) : Res (Larry L) :=
  match npBinop div other d y.x y.dtype with
  | .error e => .error e
  | .ok (x, d) => .ok ⟨x, d, y.label⟩

end Larry
end La
