import Verif.Moving

/-!
# `move_sum`, `move_mean`, `move_std`, `move_min` and `move_max`

These methods call Bottleneck's moving window functions.  `bn.move_nansum` and `bn.move_nanmean` do not add up each
window afresh: they keep a running sum and a running count, add the element that comes into the window and subtract
the one that leaves it.  That loop is modelled as it stands.  `bn.move_nanmin`, `bn.move_nanmax` and `bn.move_nanstd`
are modelled by what they are documented to return, the statistic of each window.

Not modelled: boolean arrays, for which Bottleneck falls back on SciPy, and the rounding of the running sum.
-/

namespace La

/-- `if ai == ai: asum += ai; count += 1`, the element that comes into the window (`bn.move_nansum`, external, called
in la/deflarry.py:2737). -/
def addIn (s : Flt × Nat) (x : Flt) : Flt × Nat := if x.isNan then s else (s.1.add x, s.2 + 1)

/-- `if aold == aold: asum -= aold; count -= 1`, the element that leaves the window (la/deflarry.py:2737). -/
def subOut (s : Flt × Nat) (x : Flt) : Flt × Nat := if x.isNan then s else (s.1.sub x, s.2 - 1)

/-- The loop over the places from `window` on: each pair is the element that comes in and the one that leaves
(la/deflarry.py:2737, 2772). -/
def runWindow (out : Flt × Nat → Flt) : Flt × Nat → List (Flt × Flt) → List Flt
  | _, [] => []
  | s, p :: ps => out (subOut (addIn s p.1) p.2) :: runWindow out (subOut (addIn s p.1) p.2) ps

/-- One line of `bn.move_nansum` or `bn.move_nanmean`: NaN until the first window is full, then the running values
(la/deflarry.py:2737, 2772). -/
def bnMoveLine (out : Flt × Nat → Flt) (window : Nat) (vs : List Val) : List Val :=
  let xs := vs.map Val.num
  let s := (xs.take window).foldl addIn (.fin 0, 0)
  (List.replicate (window - 1) Flt.nan ++ out s :: runWindow out s ((xs.drop window).zip xs)).map Val.flt

/-- `asum` if `count > 0` else NaN (`bn.move_nansum`, la/deflarry.py:2737) -/
def sumOut (s : Flt × Nat) : Flt := if s.2 = 0 then .nan else s.1

/-- `asum / count` if `count > 0` else NaN (`bn.move_nanmean`, la/deflarry.py:2772) -/
def meanOut (s : Flt × Nat) : Flt := if s.2 = 0 then .nan else s.1.div (.fin s.2)

/-- One place of a moving function that looks at each window afresh (la/deflarry.py:2809, 2844, 2879). -/
def windowStat (f : List Val → Val) (window : Nat) (vs : List Val) (i : Nat) : Val :=
  if i + 1 < window then .flt .nan else (f ((vs.drop (i + 1 - window)).take window)).toFloat

/-- One line of `bn.move_nanmin`, `bn.move_nanmax` or `bn.move_nanstd` (la/deflarry.py:2809, 2844, 2879). -/
def windowsLine (f : List Val → Val) (window : Nat) (vs : List Val) : List Val :=
  (List.range vs.length).map (windowStat f window vs)

namespace Larry
variable {L : Type _}

/-- `larry(bn.move_...(self.x, window, axis=axis), self.copylabel(), validate=False)` (la/deflarry.py:2737-2738,
2772-2773, 2809-2810, 2844-2845, 2879-2880), `f` being the function on one line.  Bottleneck rejects an axis out of
range before it looks at the window, and a window that is not between 1 and the length of the axis. -/
def moveBn (f : Nat → List Val → List Val) (y : Larry L) (window : Int) (axis : Int) : Res (Larry L) :=
  match pyIdx y.ndim axis with
  | none => .error .valueError
  | some ax =>
    if y.dtype.isNumeric = false then .error .typeError
    else if window < 1 ∨ y.shape.getD ax 0 < window then .error .valueError
    else .ok (y.along (f window.toNat) .float ax)

/-- `larry.move_sum(window, axis)` (la/deflarry.py:2705-2738) -/
def moveSum (y : Larry L) (window : Int) (axis : Int := -1) : Res (Larry L) := y.moveBn (bnMoveLine sumOut) window axis

/-- `larry.move_mean(window, axis)` (la/deflarry.py:2740-2773) -/
def moveMean (y : Larry L) (window : Int) (axis : Int := -1) : Res (Larry L) := y.moveBn (bnMoveLine meanOut) window axis

/-- `larry.move_std(window, axis)` (la/deflarry.py:2775-2810); `bn.move_nanstd` divides by the number of elements. -/
def moveStd (root : Flt → Flt) (y : Larry L) (window : Int) (axis : Int := -1) : Res (Larry L) :=
  y.moveBn (windowsLine (bnNanstd root 0).f) window axis

/-- `larry.move_min(window, axis)` (la/deflarry.py:2812-2845) -/
def moveMin (y : Larry L) (window : Int) (axis : Int := -1) : Res (Larry L) := y.moveBn (windowsLine bnNanmin.f) window axis

/-- `larry.move_max(window, axis)` (la/deflarry.py:2847-2880) -/
def moveMax (y : Larry L) (window : Int) (axis : Int := -1) : Res (Larry L) := y.moveBn (windowsLine bnNanmax.f) window axis

end Larry

/-- The five methods. -/
inductive MoveKind
  | sum | mean | min | max
  | std (root : Flt → Flt)

/-- The call itself (la/deflarry.py:2705-2880). -/
def MoveKind.run {L : Type _} (y : Larry L) (window axis : Int) : MoveKind → Res (Larry L)
  | .sum => y.moveSum window axis
  | .mean => y.moveMean window axis
  | .min => y.moveMin window axis
  | .max => y.moveMax window axis
  | .std root => y.moveStd root window axis

/-- What each does to one line (la/deflarry.py:2737, 2772, 2809, 2844, 2879). -/
def MoveKind.line : MoveKind → Nat → List Val → List Val
  | .sum => bnMoveLine sumOut
  | .mean => bnMoveLine meanOut
  | .min => windowsLine bnNanmin.f
  | .max => windowsLine bnNanmax.f
  | .std root => windowsLine (bnNanstd root 0).f

theorem MoveKind.run_eq {L : Type _} (k : MoveKind) (y : Larry L) (window axis : Int) :
    k.run y window axis = y.moveBn k.line window axis := by cases k <;> rfl

end La
