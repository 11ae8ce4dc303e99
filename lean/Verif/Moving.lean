import Verif.Move
import Verif.Stats

/-!
# `move_median`, `move_ranking` and `move_func` with a reduction

The function handed to `move_func` is one of the reductions of `larry.__reduce`, so that the moving value can be
compared with what the ordinary method returns.
-/

namespace La.Larry
variable {L : Type _}

/-- `larry.move_func(func, window, axis, method)` (la/deflarry.py:3057-3058; la/farray/move.py:167-175) where
`func` is a reduction: once the arguments are accepted, `func` is called on at least one window and raises if it
does not take the dtype. -/
def moveStat (r : Red) (buf : Int → Val) (arr : Strided) (y : Larry L) (window : Int) (axis : Option Int)
    (m : MoveMethod) : Res (Larry L) :=
  match y.moveFunc r.f buf arr window axis m with
  | .error e => .error e
  | .ok z => match r.dt y.dtype with
    | .error e => .error e
    | .ok _ => .ok z

/-- `larry.move_median(window, axis, method)` (la/deflarry.py:3002-3003; la/farray/move.py:49-56). -/
def moveMedian (buf : Int → Val) (arr : Strided) (y : Larry L) (window : Int) (axis : Option Int) (m : MoveMethod) :
    Res (Larry L) := y.moveStat bnNanmedian buf arr window axis m

/-- `larry.move_ranking(window, axis, method)` (la/deflarry.py:2960-2961; la/farray/move.py:116-123). -/
def moveRanking (buf : Int → Val) (arr : Strided) (y : Larry L) (window : Int) (axis : Option Int) (m : MoveMethod) :
    Res (Larry L) := y.moveStat lastrankRed buf arr window axis m

end La.Larry
