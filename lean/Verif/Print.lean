import Verif.Yahoo

/-!
# Printing

`larry.__repr__` (la/deflarry.py:4983-5006).  Text is a list of characters; `str` on a label, `'%d' % i` and
`repr` on an array are parameters.
-/

namespace La
namespace Print
open Csv (Text)

/-- `pad` (la/deflarry.py:4988). -/
def pad : Text := [' ', ' ', ' ', ' ']

/-- The line that stands for labels left out (la/deflarry.py:4995). -/
def dots : Text := ['.', '.', '.']

/-- `label_%d` (la/deflarry.py:4990). -/
def heading (num : Nat → Text) (i : Nat) : Text := ['l', 'a', 'b', 'e', 'l', '_'] ++ num i

/-- The labels printed for one axis, as text (la/deflarry.py:4991-5001). -/
def shown (label : List Text) : Res (List Text) :=
  if label.length > 10 then                                              -- 4991
    match mapRes (pyGet label) [0, 1, 2] with                            -- 4992-4994
    | .error e => .error e
    | .ok a => match mapRes (pyGet label) [-3, -2, -1] with              -- 4996-4998
      | .error e => .error e
      | .ok b => .ok (a ++ dots :: b)
  else .ok label                                                         -- 4999-5001

/-- A line and its end. -/
def endLine (t : Text) : Text := t ++ ['\n']

/-- What is printed for one axis. -/
def axisText (num : Nat → Text) (i : Nat) (us : List Text) : Text :=
  endLine (heading num i) ++ us.flatMap (fun u => endLine (pad ++ u))

/-- The loop over the axes (la/deflarry.py:4989-5001). -/
def labelText (num : Nat → Text) : Nat → List (List Text) → Res Text
  | _, [] => .ok []
  | i, label :: rest =>
    match shown label with
    | .error e => .error e
    | .ok us => match labelText num (i + 1) rest with
      | .error e => .error e
      | .ok t => .ok (axisText num i us ++ t)

end Print

open Csv (Text)
open Print

/-- `larry.__repr__()` (la/deflarry.py:4983-5006). -/
def Larry.repr {L : Type _} (num : Nat → Text) (str : L → Text) (reprX : NDArray Val → DType → Text) (y : Larry L) :
    Res Text :=
  match labelText num 0 (y.label.map (List.map str)) with
  | .error e => .error e
  | .ok t => .ok (t ++ ('x' :: '\n' :: reprX y.x y.dtype))               -- 5004-5006

end La
