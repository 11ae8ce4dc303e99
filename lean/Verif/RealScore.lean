import Verif.RealStats

/-!
# Standard deviations and z-scores over the real numbers

`larry.std` (la/deflarry.py:1272-1328), which hands `bn.nanstd` to `__reduce`, and `demean` and `zscore` of
la/farray/normalize.py (319-324, 381-388), which `larry.demean` and `larry.zscore` call with the array of the larry.

Verif/Stats.lean and Verif/Kernel.lean have the same code on larrys with rational numbers, where the square root is a
parameter.  Here the square root is the one of the real numbers.  The labels are not modelled again.
-/

namespace La

/-- `bn.nanvar(arr, ddof=ddof)` (external, called at la/deflarry.py:1385) on one line: the squared distances from the
mean of the elements that are not NaN, over their number less `ddof`. -/
noncomputable def RFlt.nanvar (ddof : Int) (l : List RFlt) : RFlt :=
  let m := l.filter (fun v => !v.isNan)
  if m.length = 0 then nan
  else (sum (m.map (fun v => (v.sub (mean m)).mul (v.sub (mean m))))).div (fin ((m.length : ℝ) - ddof))

/-- `bn.nanstd(arr, ddof=ddof)` (external, called at la/deflarry.py:1328 and la/farray/normalize.py:382) on one line. -/
noncomputable def RFlt.nanstd (ddof : Int) (l : List RFlt) : RFlt := (RFlt.nanvar ddof l).sqrt

/-- `bn.nanstd(self.x, axis=axis, ddof=ddof)` (la/deflarry.py:1328); the result for `axis=None` is a 0d array here. -/
noncomputable def stdArr (x : NDArray RFlt) (axis : Option Int) (ddof : Int) : Res (NDArray RFlt) :=
  match axis with
  | none => .ok ⟨[], fun _ => RFlt.nanstd ddof x.vals⟩
  | some axis => match pyIdx x.ndim axis with
    | none => .error .valueError
    | some ax => .ok (x.reduceAx (RFlt.nanstd ddof) ax)

/-- Lines 319-324 and 382-388 of la/farray/normalize.py: reduce the array along the axis, give the result a new axis
in that place so that it broadcasts, and combine the array with it. -/
def withReduced (f : List RFlt → RFlt) (op : RFlt → RFlt → RFlt) (x : NDArray RFlt) : Option Nat → NDArray RFlt
  | none => x.map (fun v => op v (f x.vals))
  | some ax => ⟨x.shape, fun idx => op (x.get idx) ((x.reduceAx f ax).get (idx.eraseIdx ax))⟩

/-- `demean(arr, axis)` (la/farray/normalize.py:319-324) -/
noncomputable def demeanArr (x : NDArray RFlt) (ax : Option Nat) : NDArray RFlt :=
  withReduced RFlt.nanmean RFlt.sub x ax

/-- `zscore(arr, axis)` (la/farray/normalize.py:381-388) for an axis in range. -/
noncomputable def zscoreAx (x : NDArray RFlt) (ax : Option Nat) : NDArray RFlt :=
  withReduced (RFlt.nanstd 0) RFlt.div (demeanArr x ax) ax

/-- `zscore(arr, axis)` (la/farray/normalize.py:357-388); an axis out of range is a ValueError of `bn.nanmean`. -/
noncomputable def zscoreArr (x : NDArray RFlt) (axis : Option Int) : Res (NDArray RFlt) :=
  match axis with
  | none => .ok (zscoreAx x none)
  | some axis => match pyIdx x.ndim axis with
    | none => .error .valueError
    | some ax => .ok (zscoreAx x (some ax))

end La
