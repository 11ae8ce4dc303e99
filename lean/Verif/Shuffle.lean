import Verif.Methods

/-!
`larry.shuffle` and `larry.shufflelabel` (la/deflarry.py:3779-3866), `shuffle` (la/farray/misc.py:162-182) and
`np.random.shuffle` of numpy 1.6/1.7.  The random numbers are an argument: `draw i` is the value of
`rk_interval(i)`, a number from 0 to `i`.
-/

namespace La
variable {L : Type _}

/-- The loop of `np.random.shuffle`: `while i > 0: j = rk_interval(i); x[i], x[j] = x[j], x[i]; i = i - 1`
(mtrand.pyx; when the elements are sequences or arrays they are copied first). -/
def shuffleLoop {β : Type _} (swap : Nat → Nat → β → β) (draw : Nat → Nat) : Nat → β → β
  | 0, x => x
  | i + 1, x => shuffleLoop swap draw i (swap (i + 1) (draw (i + 1)) x)

/-- `np.random.shuffle(l)` of a list. -/
def shuffleList {α : Type _} (draw : Nat → Nat) (l : List α) : List α :=
  shuffleLoop (fun i j m => swapList m i j) draw (l.length - 1) l

namespace NDArray
variable {α : Type _}

/-- `np.rollaxis(a, ax)[i]` -/
def row (a : NDArray α) (ax i : Nat) : NDArray α := ⟨a.shape.eraseIdx ax, fun rest => a.get (rest.insertIdx ax i)⟩

/-- `np.rollaxis(a, ax)[i] = r` -/
def setRow (a : NDArray α) (ax i : Nat) (r : NDArray α) : NDArray α :=
  ⟨a.shape, fun idx => if idx.getD ax 0 = i then r.get (idx.eraseIdx ax) else a.get idx⟩

/-- `x[i], x[j] = x[j].copy(), x[i].copy()` for `x = np.rollaxis(a, ax)`. -/
def swapRows (a : NDArray α) (ax i j : Nat) : NDArray α := (a.setRow ax i (a.row ax j)).setRow ax j (a.row ax i)

/-- `shuffle(x, axis)` (la/farray/misc.py:182) for an axis in range. -/
def shuffleAx (a : NDArray α) (ax : Nat) (draw : Nat → Nat) : NDArray α :=
  shuffleLoop (fun i j b => b.swapRows ax i j) draw (a.shape.getD ax 0 - 1) a

end NDArray

namespace Larry

/-- `larry.shuffle(axis)` (la/deflarry.py:3819-3823).  `draws ax` are the draws made for axis `ax`.  The method works
in place and returns None; the model returns the larry after the call. -/
def shuffle (y : Larry L) (axis : Option Int) (draws : Nat → Nat → Nat) : Res (Larry L) :=
  match axis with
  | none => .ok { y with x := (List.range y.ndim).foldl (fun x ax => x.shuffleAx ax (draws ax)) y.x }  -- 3820-3821
  | some a => match pyIdx y.ndim a with                                                                -- 3823
    | none => .error .valueError
    | some ax => .ok { y with x := y.x.shuffleAx ax (draws ax) }

/-- `larry.shufflelabel(axis)` (la/deflarry.py:3862-3866). -/
def shufflelabel (y : Larry L) (axis : Option Int) (draws : Nat → Nat → Nat) : Res (Larry L) :=
  match axis with
  | none => .ok { y with label := (List.range y.ndim).foldl (fun ls ax => ls.modify ax (shuffleList (draws ax))) y.label } -- 3863-3864
  | some a => match pyIdx y.label.length a with                                                        -- 3866
    | none => .error .indexError
    | some ax => .ok { y with label := y.label.modify ax (shuffleList (draws ax)) }

end Larry
end La
