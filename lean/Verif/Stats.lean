import Verif.ReduceMethods
import Verif.Kernel

/-!
# `mean`, `median`, `var` and `std` of a larry

The methods hand a function of Bottleneck to `larry.__reduce`; here these functions are spelled out, on exact
numbers.  The square root that `bn.nanstd` takes is a parameter, since it leaves the rationals.
-/

namespace La

/-- The dtype of a mean, median, variance or standard deviation.  (Bottleneck takes str and object arrays
nowhere.) -/
def statDType : DType → Res DType
  | .float => .ok .float
  | .int => .ok .float
  | .bool => .ok .float
  | _ => .error .typeError

/-- What `bn.nanmean` makes of a line. -/
def meanVals (vs : List Val) : Val := .flt (nanmean (vs.map Val.num))

/-- What `bn.nanmedian` makes of a line: the middle one of the sorted numbers that are not NaN, or the mean of
the two in the middle. -/
def medianOf (xs : List Flt) : Flt :=
  let s := (xs.filter (fun x => !x.isNan)).insertionSort (fun a b => a.le b = true)
  if s.length = 0 then .nan
  else if s.length % 2 = 1 then s.getD (s.length / 2) .nan
  else (Flt.fin (1 / 2)).mul ((s.getD (s.length / 2 - 1) .nan).add (s.getD (s.length / 2) .nan))

/-- What `bn.nanmedian` makes of a line of elements. -/
def medianVals (vs : List Val) : Val := .flt (medianOf (vs.map Val.num))

/-- What `bn.nanvar` makes of a line: the squared distances from the mean of the numbers that are not NaN, over
their number less `ddof`. -/
def varOf (ddof : Int) (xs : List Flt) : Flt :=
  let ok := xs.filter (fun x => !x.isNan)
  if ok.length = 0 then .nan
  else
    let m := (Flt.sum ok).div (.fin ok.length)
    (Flt.sum (ok.map (fun a => (a.sub m).mul (a.sub m)))).div (.fin (ok.length - ddof))

/-- What `bn.nanvar` makes of a line of elements. -/
def varVals (ddof : Int) (vs : List Val) : Val := .flt (varOf ddof (vs.map Val.num))

/-- What `bn.nanstd` makes of a line of elements; `root` is the square root of a float. -/
def stdVals (root : Flt → Flt) (ddof : Int) (vs : List Val) : Val := .flt (root (varOf ddof (vs.map Val.num)))

/-- `bn.nanmean`, with the default NaN of `__reduce` (la/deflarry.py:1198, 1461) -/
def bnNanmean : Red := ⟨meanVals, statDType, .flt .nan, false⟩

/-- `bn.nanmedian` (la/deflarry.py:1270, 1461) -/
def bnNanmedian : Red := ⟨medianVals, statDType, .flt .nan, false⟩

/-- `bn.nanvar` (la/deflarry.py:1385, 1461) -/
def bnNanvar (ddof : Int) : Red := ⟨varVals ddof, statDType, .flt .nan, false⟩

/-- `bn.nanstd` (la/deflarry.py:1328, 1461) -/
def bnNanstd (root : Flt → Flt) (ddof : Int) : Red := ⟨stdVals root ddof, statDType, .flt .nan, false⟩

namespace Larry
variable {L : Type _}

/-- `larry.mean` (la/deflarry.py:1169-1198) -/
def mean (y : Larry L) (axis : Option Int) : Res (Out L) := y.reduce bnNanmean axis

/-- `larry.median` (la/deflarry.py:1235-1270) -/
def median (y : Larry L) (axis : Option Int) : Res (Out L) := y.reduce bnNanmedian axis

/-- `larry.var` (la/deflarry.py:1330-1385) -/
def var (y : Larry L) (axis : Option Int) (ddof : Int) : Res (Out L) := y.reduce (bnNanvar ddof) axis

/-- `larry.std` (la/deflarry.py:1272-1328) -/
def std (root : Flt → Flt) (y : Larry L) (axis : Option Int) (ddof : Int) : Res (Out L) :=
  y.reduce (bnNanstd root ddof) axis

end Larry
end La
