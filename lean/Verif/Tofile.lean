import Verif.Csv

/-!
# Model of tofile

la/deflarry.py:4877-4924.  Files and file objects are modelled by the characters they hold.
-/

namespace La
namespace Tofile

open Csv (Text)

/-- The files by name, and the file objects (string buffers, say) by number, with the characters
written so far. -/
structure Disk where
  file : String → Option Text
  stream : Nat → Text

/-- The argument `file`: a name, or a file object. -/
inductive Target
  | name (s : String)
  | stream (k : Nat)
  deriving DecidableEq, Repr

/-- What is on disk after writing: `open(file, 'w')` (la/deflarry.py:4886) empties a named file first, a
file object (4889) goes on where it is.  (A file left open by an exception is flushed when it is
collected.) -/
def Disk.write (d : Disk) (t : Target) (cs : Text) : Disk :=
  match t with
  | .name s => { d with file := Function.update d.file s (some cs) }
  | .stream k => { d with stream := Function.update d.stream k (d.stream k ++ cs) }

/-- `delimiter.join(l)`. -/
def joinText (delim : Text) : List Text → Text
  | [] => []
  | [f] => f
  | f :: fs => f ++ (delim ++ joinText delim fs)

/-- A loop that writes one line in each turn: the characters written, and the exception that ended it
if there was one. -/
def writeLoop (line : Nat → Res Text) : List Nat → Text × Res Unit
  | [] => ([], .ok ())
  | i :: is => match line i with
    | .error e => ([], .error e)
    | .ok t => (t ++ (writeLoop line is).1, (writeLoop line is).2)

end Tofile

open Csv (Text)
open Tofile

/-- `str(self.label[axis][i])`. -/
def Larry.labelText {L : Type _} (str : L → Text) (y : Larry L) (axis i : Nat) : Res Text :=
  match pyGet y.label (axis : Int) with
  | .error e => .error e
  | .ok l => match pyGet l (i : Int) with
    | .error e => .error e
    | .ok a => .ok (str a)

/-- A line of the file of a 1d larry (la/deflarry.py:4896-4897). -/
def Larry.line1 {L : Type _} (str : L → Text) (fmt : Val → Text) (delim : Text) (y : Larry L) (i : Nat) :
    Res Text :=
  match y.labelText str 0 i with
  | .error e => .error e
  | .ok t => .ok (joinText delim [t, fmt (y.x.get [i]) ++ ['\n']])

/-- A line after the first of the file of a 2d larry (la/deflarry.py:4914-4918). -/
def Larry.line2 {L : Type _} (str : L → Text) (fmt : Val → Text) (delim : Text) (y : Larry L) (i : Nat) :
    Res Text :=
  match y.labelText str 0 i with
  | .error e => .error e
  | .ok t =>
    .ok (joinText delim (t :: (List.range (y.x.shape.getD 1 0)).map fun j => fmt (y.x.get [i, j])) ++ ['\n'])

/-- The characters that `tofile` writes, and its exception if it raises one: 1d
(la/deflarry.py:4893-4898) and 2d (4900-4919).  `str` on a label and on an element are the parameters
`str` and `fmt`. -/
def Larry.fileText {L : Type _} (str : L → Text) (fmt : Val → Text) (delim : Text) (y : Larry L) :
    Text × Res Unit :=
  if y.x.shape.length = 1 then
    writeLoop (y.line1 str fmt delim) (List.range y.x.shape.prod)              -- 4895
  else match mapRes (y.labelText str 1) (List.range (y.x.shape.getD 1 0)) with -- 4905
    | .error e => (delim, .error e)                                            -- 4903
    | .ok cols =>
      (delim ++ (joinText delim cols ++ ['\n']) ++                             -- 4903-4909
        (writeLoop (y.line2 str fmt delim) (List.range (y.x.shape.getD 0 0))).1,
       (writeLoop (y.line2 str fmt delim) (List.range (y.x.shape.getD 0 0))).2)

/-- `larry.tofile(file, delimiter)` (la/deflarry.py:4877-4924); 2d and 1d only (4879).  The RuntimeError
of 4926 cannot be reached. -/
def Larry.tofile {L : Type _} (str : L → Text) (fmt : Val → Text) (delim : Text) (file : Target) (y : Larry L)
    (d : Disk) : Res Unit × Disk :=
  if ¬ (y.x.shape.length = 1 ∨ y.x.shape.length = 2) then (.error .valueError, d)  -- 4879-4882
  else ((y.fileText str fmt delim).2, d.write file (y.fileText str fmt delim).1)

end La
