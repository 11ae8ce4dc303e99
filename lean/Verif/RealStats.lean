import Verif.Reduce
import Mathlib.Analysis.SpecialFunctions.Log.Basic
import Mathlib.Analysis.SpecialFunctions.Sqrt

/-!
The statistics of la/farray/misc.py that need logarithms, exponentials and square roots:
`geometric_mean` (9-35) and `correlation` (37-134).

Floats are modelled by exact real numbers together with NaN and the two infinities.  Arrays of ints are
represented by the same numbers; a flag says that an array is an int array where this matters.
-/

namespace La

/-- A float without rounding: NaN, an infinity, or a real number. -/
inductive RFlt
  | nan
  | pinf
  | ninf
  | fin (r : ℝ)

namespace RFlt

/-- `np.isnan` -/
def isNan : RFlt → Bool
  | nan => true
  | _ => false

/-- `x <= 0`; False for NaN. -/
def Nonpos : RFlt → Prop
  | nan => False
  | pinf => False
  | ninf => True
  | fin r => r ≤ 0

/-- An infinity with the sign of `r`; NaN if `r` is zero. -/
noncomputable def infOf (r : ℝ) : RFlt := if 0 < r then pinf else if r < 0 then ninf else nan

/-- `-x` -/
noncomputable def neg : RFlt → RFlt
  | nan => nan
  | pinf => ninf
  | ninf => pinf
  | fin r => fin (-r)

/-- `x + y` -/
noncomputable def add : RFlt → RFlt → RFlt
  | nan, _ => nan
  | _, nan => nan
  | fin a, fin b => fin (a + b)
  | pinf, ninf => nan
  | ninf, pinf => nan
  | pinf, _ => pinf
  | _, pinf => pinf
  | ninf, _ => ninf
  | _, ninf => ninf

/-- `x - y` -/
noncomputable def sub (x y : RFlt) : RFlt := x.add y.neg

/-- `x * y` -/
noncomputable def mul : RFlt → RFlt → RFlt
  | nan, _ => nan
  | _, nan => nan
  | fin a, fin b => fin (a * b)
  | pinf, fin b => infOf b
  | fin a, pinf => infOf a
  | ninf, fin b => infOf (-b)
  | fin a, ninf => infOf (-a)
  | pinf, pinf => pinf
  | ninf, ninf => pinf
  | pinf, ninf => ninf
  | ninf, pinf => ninf

/-- `x / y`, where a zero `y` is +0.0. -/
noncomputable def div : RFlt → RFlt → RFlt
  | nan, _ => nan
  | _, nan => nan
  | fin a, fin b => if b = 0 then infOf a else fin (a / b)
  | fin _, _ => fin 0
  | pinf, fin b => if b < 0 then ninf else pinf
  | ninf, fin b => if b < 0 then pinf else ninf
  | _, _ => nan

/-- `np.log` -/
noncomputable def log : RFlt → RFlt
  | nan => nan
  | pinf => pinf
  | ninf => nan
  | fin r => if r < 0 then nan else if r = 0 then ninf else fin (Real.log r)

/-- `np.exp` -/
noncomputable def exp : RFlt → RFlt
  | nan => nan
  | pinf => pinf
  | ninf => fin 0
  | fin r => fin (Real.exp r)

/-- `np.sqrt` -/
noncomputable def sqrt : RFlt → RFlt
  | nan => nan
  | pinf => pinf
  | ninf => nan
  | fin r => if r < 0 then nan else fin (Real.sqrt r)

/-- `.sum()` -/
noncomputable def sum (l : List RFlt) : RFlt := l.foldl add (fin 0)

/-- `.mean()`: the sum divided by the number of elements (0/0 for none). -/
noncomputable def mean (l : List RFlt) : RFlt := (sum l).div (fin l.length)

/-- `bn.nansum` (Bottleneck 0.7): NaN if every element is NaN. -/
noncomputable def nansum (l : List RFlt) : RFlt :=
  let m := l.filter (fun v => !v.isNan)
  if m.length = 0 then nan else sum m

/-- `bn.nanmean`: NaN if every element is NaN. -/
noncomputable def nanmean (l : List RFlt) : RFlt :=
  let m := l.filter (fun v => !v.isNan)
  if m.length = 0 then nan else mean m

/-- `np.putmask(x, m, v)` for one element. -/
def put (m : Bool) (v x : RFlt) : RFlt := if m then v else x

end RFlt

/-- Lines 19-35 of la/farray/misc.py for one line of elements: what `geometric_mean` computes along the axis. -/
noncomputable def gmLine (l : List RFlt) : RFlt :=
  let x := l.map (fun v => RFlt.put v.isNan (.fin 1) v)                          -- 19-21
  let m : RFlt := RFlt.sum (l.map (fun v => .fin (if v.isNan then 0 else 1)))    -- 22-23
  let x := RFlt.sum (x.map RFlt.log)                                             -- 24
  let g := RFlt.div (.fin 1) m                                                   -- 25
  let x := RFlt.exp (RFlt.mul g x)                                               -- 26-27
  open Classical in
  let idx : RFlt := if m = .fin 0 then .nan else .fin 1                          -- 28-33
  RFlt.mul x idx                                                                 -- 34

open Classical in
/-- `geometric_mean(x, axis, check_for_greater_than_zero)` (la/farray/misc.py:9-35); the result for
`axis=None` is a 0d array here.  An axis out of range is a ValueError of numpy's `sum`. -/
noncomputable def geometricMean (x : NDArray RFlt) (axis : Option Int) (check : Bool) : Res (NDArray RFlt) :=
  if (∃ v ∈ x.vals, v.Nonpos) ∧ check = true then .error .valueError              -- 16-18
  else match axis with
    | none => .ok ⟨[], fun _ => gmLine x.vals⟩
    | some axis => match pyIdx x.ndim axis with
      | none => .error .valueError
      | some ax => .ok (x.reduceAx gmLine ax)

/-- Lines 93-96, 117-120 and 125-133 of la/farray/misc.py for one line of pairs: subtract the means with
`mean`, and return `num / den` with sums by `sum`. -/
noncomputable def corrWith (mean sum : List RFlt → RFlt) (l : List (RFlt × RFlt)) : RFlt :=
  let x1 := l.map Prod.fst
  let x2 := l.map Prod.snd
  let x1 := x1.map (fun v => v.sub (mean x1))
  let x2 := x2.map (fun v => v.sub (mean x2))
  let num := sum (List.zipWith RFlt.mul x1 x2)
  let den := RFlt.sqrt ((sum (x1.map (fun v => v.mul v))).mul (sum (x2.map (fun v => v.mul v))))
  num.div den

/-- `mask` (la/farray/misc.py:84) for one pair. -/
def pairMask (p : RFlt × RFlt) : Bool := p.1.isNan || p.2.isNan

/-- `np.putmask(x1, mask, np.nan)`, `np.putmask(x2, mask, np.nan)` (100-101) for one pair. -/
def maskPair (p : RFlt × RFlt) : RFlt × RFlt :=
  (RFlt.put (pairMask p) .nan p.1, RFlt.put (pairMask p) .nan p.2)

/-- `correlation(arr1, arr2, axis)` (la/farray/misc.py:37-134) for arrays of the same shape; `int1` and `int2`
say which are int arrays.  0d arrays are not modelled.  The result for `axis=None` is a 0d array here.  The mean along the axis, put
back at the axis with `[idx]` and broadcast, is the mean of the line of each element. -/
noncomputable def correlation (x1 x2 : NDArray RFlt) (int1 int2 : Bool) (axis : Option Int) : Res (NDArray RFlt) :=
  let x := NDArray.zipWith Prod.mk x1 x2
  if x.vals.any pairMask then                                                     -- 85
    match axis with
    | none => .ok ⟨[], fun _ => corrWith RFlt.mean RFlt.sum (x.vals.filter (fun p => !pairMask p))⟩ -- 88-96
    | some axis =>
      if int1 || int2 then .error .valueError                                     -- 100-101: NaN into an int array
      else match pyIdx x.ndim axis with
        | none => .error .indexError                                              -- 107
        | some ax => .ok ((x.map maskPair).reduceAx (corrWith RFlt.nanmean RFlt.nansum) ax) -- 103-111
  else match axis with
    | none => .ok ⟨[], fun _ => corrWith RFlt.mean RFlt.sum x.vals⟩               -- 115-120
    | some axis => match pyIdx x.ndim axis with
      | none => .error .indexError                                                -- 129
      | some ax => .ok (x.reduceAx (corrWith RFlt.mean RFlt.sum) ax)              -- 122-133

end La
