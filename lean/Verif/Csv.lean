import Verif.Flatten
import Mathlib.Data.List.Lex
import Mathlib.Data.Char

/-!
# Model of tocsv and fromcsv

la/deflarry.py:4750-4756 and 4824-4829.  The `csv` module of Python is modelled by its documented
default dialect 'excel': the writer with QUOTE_MINIMAL, and the reader as the state machine of
CPython's `_csv.c` with `strict`, `skipinitialspace` and `escapechar` off.  A text file is its list of
characters.
-/

namespace La
namespace Csv

/-- The text of a file, a line or a field. -/
abbrev Text := List Char

/-! ## The writer -/

/-- A character that makes the writer quote a field: the delimiter, the quote character and the
characters of the line terminator. -/
def special (delim c : Char) : Bool := c == delim || c == '"' || c == '\r' || c == '\n'

/-- A field with its quote characters doubled. -/
def double : Text → Text
  | [] => []
  | c :: cs => if c = '"' then '"' :: '"' :: double cs else c :: double cs

/-- A field between quote characters. -/
def quoted (f : Text) : Text := '"' :: (double f ++ ['"'])

/-- One field: quoted only if it has to be. -/
def writeField (delim : Char) (f : Text) : Text := if f.any (special delim) then quoted f else f

/-- Fields separated by the delimiter. -/
def joinFields (delim : Char) : List Text → Text
  | [] => []
  | [f] => f
  | f :: fs => f ++ delim :: joinFields delim fs

/-- `writer.writerow(row)`: a row of one empty field is written as a pair of quotes. -/
def writeRow (delim : Char) (row : List Text) : Text :=
  if row = [[]] then ['"', '"', '\r', '\n']
  else joinFields delim (row.map (writeField delim)) ++ ['\r', '\n']

/-- `writer.writerows(rows)`. -/
def writeRows (delim : Char) : List (List Text) → Text
  | [] => []
  | r :: rs => writeRow delim r ++ writeRows delim rs

/-! ## Lines of a text file -/

/-- Reading a file opened with mode 'r' by Python 3: each `\r\n` and each single `\r` becomes `\n`. -/
def universal : Text → Text
  | [] => []
  | '\r' :: '\n' :: cs => '\n' :: universal cs
  | c :: cs => (if c = '\r' then '\n' else c) :: universal cs

/-- The text that a program sees in a file opened with mode 'r': Python 2 (on systems whose line
separator is `\n`) sees the characters of the file. -/
def opened (py3 : Bool) (cs : Text) : Text := if py3 then universal cs else cs

/-- Iterating over a file: its lines, each with its `\n`. -/
def lines : Text → List Text
  | [] => []
  | c :: cs =>
    if c = '\n' then [c] :: lines cs
    else match lines cs with
      | [] => [[c]]
      | l :: ls => (c :: l) :: ls

/-! ## The reader -/

/-- The states of the reader. -/
inductive St
  | startRecord | startField | inField | inQuoted | quoteInQuoted | eatCrnl
  deriving DecidableEq, Repr

/-- The reader: its state, the field being read and the fields of the record so far. -/
structure Reader where
  st : St
  field : Text
  fields : List Text
  deriving DecidableEq, Repr

/-- The reader at the start of a record. -/
def Reader.init : Reader := ⟨.startRecord, [], []⟩

/-- `csv.field_size_limit()`. -/
def fieldLimit : Nat := 131072

/-- Save the field and go on in state `st`. -/
def Reader.save (m : Reader) (st : St) : Reader := ⟨st, [], m.fields ++ [m.field]⟩

/-- Add a character to the field and go on in state `st`; a field over the limit is a `csv.Error`. -/
def Reader.add (m : Reader) (c : Char) (st : St) : Res Reader :=
  if m.field.length ≥ fieldLimit then .error .csvError else .ok ⟨st, m.field ++ [c], m.fields⟩

/-- A character at the start of a field. -/
def Reader.atField (delim : Char) (m : Reader) (c : Char) : Res Reader :=
  if c = '\n' ∨ c = '\r' then .ok (m.save .eatCrnl)
  else if c = '"' then .ok { m with st := .inQuoted }
  else if c = delim then .ok (m.save .startField)
  else m.add c .inField

/-- One character of a line.  A NUL is a `csv.Error`. -/
def Reader.step (delim : Char) (m : Reader) (c : Char) : Res Reader :=
  if c = '\x00' then .error .csvError
  else match m.st with
    | .startRecord =>
      if c = '\n' ∨ c = '\r' then .ok { m with st := .eatCrnl } else m.atField delim c
    | .startField => m.atField delim c
    | .inField =>
      if c = '\n' ∨ c = '\r' then .ok (m.save .eatCrnl)
      else if c = delim then .ok (m.save .startField)
      else m.add c .inField
    | .inQuoted => if c = '"' then .ok { m with st := .quoteInQuoted } else m.add c .inQuoted
    | .quoteInQuoted =>
      if c = '"' then m.add c .inQuoted
      else if c = delim then .ok (m.save .startField)
      else if c = '\n' ∨ c = '\r' then .ok (m.save .eatCrnl)
      else m.add c .inField
    | .eatCrnl => if c = '\n' ∨ c = '\r' then .ok m else .error .csvError

/-- The end of a line. -/
def Reader.eol (m : Reader) : Reader :=
  match m.st with
  | .startRecord => m
  | .startField | .inField | .quoteInQuoted => m.save .startRecord
  | .inQuoted => m
  | .eatCrnl => { m with st := .startRecord }

/-- A line and its end. -/
def Reader.line (delim : Char) (m : Reader) : Text → Res Reader
  | [] => .ok m.eol
  | c :: cs => match m.step delim c with
    | .error e => .error e
    | .ok m' => m'.line delim cs

/-- `[row for row in reader]`: a record is complete when the end of a line leaves the reader at the
start of a record.  At the end of the file an unfinished field is saved. -/
def readLines (delim : Char) (m : Reader) : List Text → Res (List (List Text))
  | [] => if m.field ≠ [] ∨ m.st = .inQuoted then .ok [(m.save .startRecord).fields] else .ok []
  | l :: ls => match m.line delim l with
    | .error e => .error e
    | .ok m' =>
      if m'.st = .startRecord then match readLines delim Reader.init ls with
        | .error e => .error e
        | .ok rows => .ok (m'.fields :: rows)
      else readLines delim m' ls

/-- The rows of a csv file with `cs` as its characters. -/
def readRows (py3 : Bool) (delim : Char) (cs : Text) : Res (List (List Text)) :=
  readLines delim Reader.init (lines (opened py3 cs))

/-- The labels and the value of a row of which `m + 1` fields are used; `parse` is `float` on strings,
`none` where it raises ValueError. -/
def cell (parse : Text → Option Flt) (m : Nat) (row : List Text) : Res (List Text × Val) :=
  match parse (row.getD m []) with
  | none => .error .valueError
  | some f => .ok (row.take m, .flt f)

/-- `larry.fromtuples(data)` on rows of strings (la/deflarry.py:4550-4558).  `zip(*data)` (4554) has as
many columns as the shortest row has fields; `labels.pop(-1)` (4555) of no columns is an IndexError;
the values become floats in `x[index] = xs` (la/util/misc.py:211). -/
def fromRows (parse : Text → Option Flt) (rows : List (List Text)) : Res (Larry Text) :=
  if rows = [] then .ok Larry.emptyLarry
  else match (rows.map List.length).min?.getD 0 with
    | 0 => .error .indexError
    | m + 1 => match mapRes (cell parse m) rows with
      | .error e => .error e
      | .ok data => Larry.fromtuples data

end Csv

open Csv

/-- The fields of a row of `totuples()`: the writer turns a label into text with `str` (a parameter)
and a value with `fmt` (a parameter: `repr` for floats, `str` for the rest). -/
def csvRow {L : Type _} (str : L → Text) (fmt : Val → Text) (r : List L × Val) : List Text :=
  r.1.map str ++ [fmt r.2]

/-- `larry.tocsv(filename, delimiter)` (la/deflarry.py:4750-4756): the characters of the file.  The
file is opened so that `\r\n` is written unchanged: with newline='' in Python 3, and with mode 'w' on a
system whose line separator is `\n` in Python 2. -/
def Larry.tocsv {L : Type _} (str : L → Text) (fmt : Val → Text) (delim : Char) (y : Larry L) :
    Res Text :=
  match y.totuples with
  | .error e => .error e
  | .ok rows => .ok (writeRows delim (rows.map (csvRow str fmt)))

/-- `larry.fromcsv(filename, delimiter, skiprows)` (la/deflarry.py:4824-4829) on a file with
characters `cs`.  Line 4826 calls `reader.next()`, which only Python 2 has; it reads records and
raises StopIteration if there are too few.  (All records are read in one pass here; a `csv.Error` in
any record is raised either way.) -/
def Larry.fromcsv (parse : Text → Option Flt) (py3 : Bool) (delim : Char) (skiprows : Nat)
    (cs : Text) : Res (Larry Text) :=
  if py3 = true ∧ 0 < skiprows then .error .attributeError                     -- 4826
  else match readRows py3 delim cs with                                        -- 4827
    | .error e => .error e
    | .ok rows =>
      if rows.length < skiprows then .error .stopIteration
      else fromRows parse (rows.drop skiprows)                                 -- 4829

end La
