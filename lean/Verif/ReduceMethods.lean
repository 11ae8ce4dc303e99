import Verif.Reduce

/-!
# `sum`, `max`, `min`, `any` and `all` of a larry

The methods hand a function of Bottleneck or Numpy to `larry.__reduce`; here these functions are spelled
out, on exact numbers.
-/

namespace La

/-- The loops of Bottleneck 0.7's nansum, nanmax and nanmin: `op` over the values that are not NaN, from
the first on, and NaN if there is none.  `p` is what the values are converted to before. -/
def nanFold (op : Val → Val → Val) (p : Val → Val) (vs : List Val) : Val :=
  match (vs.map p).filter (fun v => !v.isNan) with
  | [] => .flt .nan
  | v :: vs => vs.foldl op v

/-- `a + b` of two elements of an array. -/
def plusVal : Val → Val → Val
  | .int a, .int b => .int (a + b)
  | a, b => .flt (a.num.add b.num)

/-- Booleans are summed as ints. -/
def countVal : Val → Val
  | .bool b => .int (if b then 1 else 0)
  | v => v

/-- The larger of two elements. -/
def maxVal (a b : Val) : Val := if a.num.lt b.num then b else a

/-- The smaller of two elements. -/
def minVal (a b : Val) : Val := if b.num.lt a.num then b else a

/-- Whether Numpy takes an element for true: NaN is, since it is not equal to zero. -/
def truthVal (v : Val) : Bool := decide (v.num ≠ .fin 0)

/-- The dtype of a sum. -/
def sumDType : DType → Res DType
  | .float => .ok .float
  | .int => .ok .int
  | .bool => .ok .int
  | _ => .error .typeError

/-- The dtype of a largest or smallest element.  (Bottleneck takes str and object arrays nowhere.) -/
def extremeDType : DType → Res DType
  | .float => .ok .float
  | .int => .ok .int
  | .bool => .ok .bool
  | _ => .error .typeError

/-- The dtype of `np.any` and `np.all`.  (Arrays of objects, where the outcome is one of the objects, are
not modelled.) -/
def truthDType : DType → Res DType
  | .float => .ok .bool
  | .int => .ok .bool
  | .bool => .ok .bool
  | _ => .error .typeError

/-- `bn.nansum`, with the default NaN of `__reduce` (la/deflarry.py:1103, 1461) -/
def bnNansum : Red := ⟨nanFold plusVal countVal, sumDType, .flt .nan, false⟩

/-- `bn.nanmax` (la/deflarry.py:1422, 1461) -/
def bnNanmax : Red := ⟨nanFold maxVal id, extremeDType, .flt .nan, false⟩

/-- `bn.nanmin` (la/deflarry.py:1459, 1461) -/
def bnNanmin : Red := ⟨nanFold minVal id, extremeDType, .flt .nan, false⟩

/-- What `np.any` makes of a line. -/
def anyVals (vs : List Val) : Val := .bool (vs.any truthVal)

/-- What `np.all` makes of a line. -/
def allVals (vs : List Val) : Val := .bool (vs.all truthVal)

/-- `np.any`, with the default False (la/deflarry.py:1538) -/
def npAny : Red := ⟨anyVals, truthDType, .bool false, true⟩

/-- `np.all`, with the default True (la/deflarry.py:1584) -/
def npAll : Red := ⟨allVals, truthDType, .bool true, true⟩

namespace Larry
variable {L : Type _}

/-- `larry.sum` (la/deflarry.py:1069-1103) -/
def sum (y : Larry L) (axis : Option Int) : Res (Out L) := y.reduce bnNansum axis

/-- `larry.max` (la/deflarry.py:1387-1422) -/
def max (y : Larry L) (axis : Option Int) : Res (Out L) := y.reduce bnNanmax axis

/-- `larry.min` (la/deflarry.py:1424-1459) -/
def min (y : Larry L) (axis : Option Int) : Res (Out L) := y.reduce bnNanmin axis

/-- `larry.any` (la/deflarry.py:1494-1538) -/
def any (y : Larry L) (axis : Option Int) : Res (Out L) := y.reduce npAny axis

/-- `larry.all` (la/deflarry.py:1540-1584) -/
def all (y : Larry L) (axis : Option Int) : Res (Out L) := y.reduce npAll axis

end Larry
end La
