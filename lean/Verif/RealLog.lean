import Verif.RealStats

/-!
# Logarithms, sums and products over the real numbers

`larry.log`, `exp`, `sqrt` (la/deflarry.py:142-216), `sum` and `prod` (1069-1167), `mean` (1169-1198), `cumsum` and
`cumprod` (293-422) and the operators `+`, `-`, `*`, `/` of two larrys with the same labels, on the arrays of float larrys,
with exact real numbers, NaN and the infinities.  The labels are not modelled again (see Verif/Elementwise.lean,
Verif/Kernel.lean and Verif/Arith.lean, where logarithms are a parameter).
-/

namespace La

/-- `np.log(self.x)` (la/deflarry.py:164) -/
noncomputable def logArr (x : NDArray RFlt) : NDArray RFlt := x.map RFlt.log

/-- `np.exp(self.x)` (la/deflarry.py:189) -/
noncomputable def expArr (x : NDArray RFlt) : NDArray RFlt := x.map RFlt.exp

/-- `np.sqrt(self.x)` (la/deflarry.py:214) -/
noncomputable def sqrtArr (x : NDArray RFlt) : NDArray RFlt := x.map RFlt.sqrt

/-- Lines 1157-1167 of la/deflarry.py for one line of elements: what `larry.prod` computes along the axis. -/
noncomputable def prodReal (l : List RFlt) : RFlt :=
  let x := l.map (fun v => RFlt.put v.isNan (.fin 1) v)     -- 1158-1159
  let p := x.foldl RFlt.mul (.fin 1)                        -- 1160
  if l.all RFlt.isNan then .nan else p                      -- 1161-1166

/-- `larry.__reduce` (la/deflarry.py:1461) on the array: a reduction along an axis, or over all elements; the result for
`axis=None` is a 0d array here.  An array without
elements gives the default NaN, as the functions handed to `__reduce` do here for a line without elements. -/
def reduceArr (f : List RFlt → RFlt) (x : NDArray RFlt) (axis : Option Int) : Res (NDArray RFlt) :=
  match axis with
  | none => .ok ⟨[], fun _ => f x.vals⟩
  | some axis => match pyIdx x.ndim axis with
    | none => .error .valueError
    | some ax => .ok (x.reduceAx f ax)

/-- `self.__reduce(bn.nansum, axis=axis)`, `larry.sum` (la/deflarry.py:1103) on the array. -/
noncomputable def sumArr (x : NDArray RFlt) (axis : Option Int) : Res (NDArray RFlt) := reduceArr RFlt.nansum x axis

/-- `larry.prod(axis)` (la/deflarry.py:1157-1167) on the array. -/
noncomputable def prodArr (x : NDArray RFlt) (axis : Option Int) : Res (NDArray RFlt) := reduceArr prodReal x axis

/-- `larry.mean(axis)` (la/deflarry.py:1198) on the array. -/
noncomputable def meanArr (x : NDArray RFlt) (axis : Option Int) : Res (NDArray RFlt) := reduceArr RFlt.nanmean x axis

/-- `x.cumsum(axis)` and `x.cumprod(axis)` on one line, from what is before it. -/
def running (op : RFlt → RFlt → RFlt) (acc : RFlt) : List RFlt → List RFlt
  | [] => []
  | v :: l => op acc v :: running op (op acc v) l

/-- Lines 350-355 and 416-421 of la/deflarry.py for one line of elements. -/
def cumReal (op : RFlt → RFlt → RFlt) (unit : RFlt) (l : List RFlt) : List RFlt :=
  let x := l.map (fun v => RFlt.put v.isNan unit v)                       -- 351-352
  let x := running op unit x                                              -- 353
  List.zipWith (fun v w => RFlt.put v.isNan .nan w) l x                   -- 354-355

/-- `larry.cumsum(axis)` and `larry.cumprod(axis)` (la/deflarry.py:348-356, 414-422) on the array. -/
def cumArr (op : RFlt → RFlt → RFlt) (unit : RFlt) (x : NDArray RFlt) (axis : Option Int) : Res (NDArray RFlt) :=
  match axis with
  | none => .error .valueError
  | some axis => match pyIdx x.ndim axis with
    | none => .error .valueError
    | some ax => .ok (x.mapLines (cumReal op unit) .nan ax)

/-- `larry.cumsum(axis)` (la/deflarry.py:348-356) -/
noncomputable def cumsumArr (x : NDArray RFlt) (axis : Option Int) : Res (NDArray RFlt) := cumArr RFlt.add (.fin 0) x axis

/-- `larry.cumprod(axis)` (la/deflarry.py:414-422) -/
noncomputable def cumprodArr (x : NDArray RFlt) (axis : Option Int) : Res (NDArray RFlt) := cumArr RFlt.mul (.fin 1) x axis

end La
