import Verif.Np

/-!
# Float arithmetic on exact values

IEEE rules for NaN and the infinities; finite values are exact rationals (no rounding, one zero).
-/

namespace La
namespace Flt

/-- IEEE `a < b`. -/
def lt : Flt → Flt → Bool
  | .nan, _ => false
  | _, .nan => false
  | .ninf, .ninf => false
  | .ninf, _ => true
  | _, .ninf => false
  | .pinf, _ => false
  | _, .pinf => true
  | .fin a, .fin b => decide (a < b)

/-- IEEE `a == b`. -/
def eq : Flt → Flt → Bool
  | .nan, _ => false
  | a, b => decide (a = b)

/-- IEEE `a <= b`. -/
def le (a b : Flt) : Bool := a.lt b || a.eq b

/-- IEEE `a + b`. -/
def add : Flt → Flt → Flt
  | .nan, _ => .nan
  | _, .nan => .nan
  | .pinf, .ninf => .nan
  | .ninf, .pinf => .nan
  | .pinf, _ => .pinf
  | _, .pinf => .pinf
  | .ninf, _ => .ninf
  | _, .ninf => .ninf
  | .fin a, .fin b => .fin (a + b)

/-- `-a` -/
def neg : Flt → Flt
  | .nan => .nan
  | .pinf => .ninf
  | .ninf => .pinf
  | .fin a => .fin (-a)

/-- IEEE `a - b`. -/
def sub (a b : Flt) : Flt := a.add b.neg

/-- An infinity with the sign of `q`; NaN for zero (`0 * inf`). -/
def infOf (q : ℚ) : Flt := if q = 0 then .nan else if 0 < q then .pinf else .ninf

/-- IEEE `a * b` -/
def mul : Flt → Flt → Flt
  | .nan, _ => .nan
  | _, .nan => .nan
  | .pinf, .pinf => .pinf
  | .pinf, .ninf => .ninf
  | .ninf, .pinf => .ninf
  | .ninf, .ninf => .pinf
  | .pinf, .fin b => infOf b
  | .fin a, .pinf => infOf a
  | .ninf, .fin b => infOf (-b)
  | .fin a, .ninf => infOf (-a)
  | .fin a, .fin b => .fin (a * b)

/-- IEEE `a / b` (a division by zero gives an infinity or NaN; numpy only warns). -/
def div : Flt → Flt → Flt
  | .nan, _ => .nan
  | _, .nan => .nan
  | .fin a, .fin b => if b = 0 then infOf a else .fin (a / b)
  | .fin _, _ => .fin 0
  | .pinf, .fin b => if b < 0 then .ninf else .pinf
  | .ninf, .fin b => if b < 0 then .pinf else .ninf
  | _, _ => .nan

/-- The sum of a list, left to right from zero. -/
def sum (l : List Flt) : Flt := l.foldl add (.fin 0)

/-- The product of a list, left to right from one. -/
def prod (l : List Flt) : Flt := l.foldl mul (.fin 1)

end Flt

/-- `np.isfinite` on one element of a numeric array. -/
def Val.isFin : Val → Bool
  | .bool _ => true
  | .int _ => true
  | .flt f => f.isFinite
  | _ => false

/-- The number stored in an element of a bool, int or float array. -/
def Val.num : Val → Flt
  | .bool b => .fin (if b then 1 else 0)
  | .int n => .fin n
  | .flt f => f
  | _ => .nan

/-- `np.isnan` on one element of a numeric array. -/
def Val.isNan (v : Val) : Bool := v.num.isNan

end La
