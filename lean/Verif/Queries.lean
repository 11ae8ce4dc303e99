import Verif.Larry

/-!
Questions about labels: `larry.maxlabel`, `larry.minlabel` (la/deflarry.py:2540-2595).
-/

namespace La
variable {L : Type _}

/-- Python's `max(l)`: ValueError for an empty list. -/
def pyMax [LinearOrder L] : List L → Res L
  | [] => .error .valueError
  | a :: l => .ok (l.foldl (fun m b => if m < b then b else m) a)

/-- Python's `min(l)`. -/
def pyMin [LinearOrder L] : List L → Res L
  | [] => .error .valueError
  | a :: l => .ok (l.foldl (fun m b => if b < m then b else m) a)

namespace Larry

/-- `larry.maxlabel(axis)` (la/deflarry.py:2562-2565). -/
def maxlabel [LinearOrder L] (y : Larry L) (axis : Option Int) : Res L :=
  match axis with
  | none => match mapRes pyMax y.label with                              -- 2563
    | .error e => .error e
    | .ok ms => pyMax ms
  | some a => match pyGet y.label a with                                 -- 2565
    | .error e => .error e
    | .ok l => pyMax l

/-- `larry.minlabel(axis)` (la/deflarry.py:2592-2595). -/
def minlabel [LinearOrder L] (y : Larry L) (axis : Option Int) : Res L :=
  match axis with
  | none => match mapRes pyMin y.label with                              -- 2593
    | .error e => .error e
    | .ok ms => pyMin ms
  | some a => match pyGet y.label a with                                 -- 2595
    | .error e => .error e
    | .ok l => pyMin l

end Larry

end La
