import Verif.Print
import Verif.Tofile
import Verif.IO

/-!
# Tables as text

`indent` (la/external/prettytable.py:12-50), the table of `IO.__repr__` (la/io.py:205-218) and the three functions
that wrap text (la/external/prettytable.py:54-81).  `indent` is modelled for Python 2 and Python 3: `map(None, ...)`
pads and transposes in the first and cannot be called in the second.
-/

namespace La
namespace Pretty
open Csv (Text)
open Yahoo (split)
open Tofile (joinText)
open Print (endLine)

/-- The length of the longest sequence. -/
def longest {α : Type _} (seqs : List (List α)) : Nat := (seqs.map List.length).foldr max 0

/-- `map(None, *seqs)` of two or more sequences under Python 2: the transpose, with None (`none`) where a
sequence has ended. -/
def zipNone {α : Type _} (seqs : List (List α)) : List (List (Option α)) :=
  (List.range (longest seqs)).map (fun i => seqs.map (fun s => s[i]?))

/-- `substr or ''` (line 31). -/
def orEmpty : Option Text → Text
  | none => []
  | some t => t

/-- The items of a text, when it is iterated over. -/
def chars (t : Text) : List Text := t.map (fun c => [c])

/-- `rowWrapper` (lines 29-31): the physical rows of a row.  `map(None, seq)` of a single sequence is the sequence,
so that the comprehension walks over the characters of its texts; `map(None)` raises TypeError.  Under Python 3
`map(None, ...)` raises TypeError when the comprehension asks for its first item (`split` always gives one). -/
def rowWrapper (py3 : Bool) (wrap : Text → Text) (row : List Text) : Res (List (List Text)) :=
  if py3 then .error .typeError
  else match row.map (fun item => split '\n' (wrap item)) with
    | [] => .error .typeError
    | [item] => .ok (item.map chars)
    | newRows => .ok ((zipNone newRows).map (List.map orEmpty))

/-- `len(str(item))`: None is written with four letters. -/
def itemWidth : Option Text → Nat
  | none => 4
  | some t => t.length

/-- `max(...)` over a column (line 37) that has at least one item. -/
def columnWidth (column : List (Option Text)) : Nat := (column.map itemWidth).foldr max 0

/-- The same for a column that is a text (see `widths`): every character has width 1, no character is ValueError. -/
def textWidth : Text → Res Nat
  | [] => .error .valueError
  | _ :: _ => .ok 1

/-- `maxWidths` (lines 35-37), from the physical rows.  If there is only one, `map(None, row)` is the row itself and
its texts are taken for columns. -/
def widths : List (List Text) → Res (List Nat)
  | [] => .error .typeError
  | [row] => mapRes textWidth row
  | rows => .ok ((zipNone rows).map columnWidth)

/-- The three ways to justify (line 41). -/
inductive Justify
  | left
  | right
  | center
  deriving DecidableEq

/-- `{...}[justify.lower()]` (line 41). -/
def justifyOf (t : Text) : Res Justify :=
  if t.map Char.toLower = "center".toList then .ok .center
  else if t.map Char.toLower = "right".toList then .ok .right
  else if t.map Char.toLower = "left".toList then .ok .left
  else .error .keyError

/-- Spaces. -/
def blanks (n : Nat) : Text := List.replicate n ' '

/-- `str.ljust`, `str.rjust`, `str.center`: of an odd margin `center` puts the additional space on the left if the width is
odd as well. -/
def Justify.apply (j : Justify) (t : Text) (width : Nat) : Text :=
  match j with
  | .left => t ++ blanks (width - t.length)
  | .right => blanks (width - t.length) ++ t
  | .center =>
    if width ≤ t.length then t
    else
      let marg := width - t.length
      let before := marg / 2 + (if marg % 2 = 1 ∧ width % 2 = 1 then 1 else 0)
      blanks before ++ t ++ blanks (marg - before)

/-- The arguments of `indent` other than the rows (lines 12-13). -/
structure Options where
  hasHeader : Bool := false
  headerChar : Text := ['-']
  delim : Text := [' ', '|', ' ']
  justify : Text := "left".toList
  separateRows : Bool := false
  pre : Text := []
  post : Text := []
  wrap : Text → Text := id

/-- `headerChar * n`; nothing for a negative `n` (lines 38-39). -/
def rowSeparator (o : Options) (ws : List Nat) : Text :=
  (List.replicate
    ((o.pre.length + o.post.length + ws.sum : Int) + (o.delim.length : Int) * ((ws.length : Int) - 1)).toNat
    o.headerChar).flatten

/-- One printed row (lines 46-48). -/
def rowText (o : Options) (j : Justify) (ws : List Nat) (row : List Text) : Text :=
  o.pre ++ joinText o.delim (List.zipWith (Justify.apply j) row ws) ++ o.post

/-- The loop over the logical rows (lines 44-49). -/
def bodyText (o : Options) (j : Justify) (ws : List Nat) : Bool → List (List (List Text)) → Text
  | _, [] => []
  | header, physical :: rest =>
    physical.flatMap (fun row => endLine (rowText o j ws row)) ++
      if o.separateRows || header then endLine (rowSeparator o ws) ++ bodyText o j ws false rest
      else bodyText o j ws header rest

/-- `indent(rows, ...)` (la/external/prettytable.py:12-50).  `reduce` of no rows is TypeError; under Python 3 `reduce` is not
defined (NameError, written as RuntimeError). -/
def indent (py3 : Bool) (o : Options) (rows : List (List Text)) : Res Text :=
  match mapRes (rowWrapper py3 o.wrap) rows with                         -- 33
  | .error e => .error e
  | .ok logical =>
    if logical = [] then .error (if py3 then .runtimeError else .typeError)
    else match widths logical.flatten with                               -- 35-37
      | .error e => .error e
      | .ok ws => match justifyOf o.justify with                         -- 41
        | .error e => .error e
        | .ok j => .ok ((if o.separateRows then endLine (rowSeparator o ws) else []) ++
            bodyText o j ws o.hasHeader logical)

/-! ## Wrapping -/

/-- The part of a text after its last line break: `line[line.rfind('\n')+1:]`. -/
def lastLine (t : Text) : Text := (split '\n' t).getLastD []

/-- `word.split('\n',1)[0]`. -/
def firstLine (t : Text) : Text := (split '\n' t).headD []

/-- One step of the `reduce` in `wrap_onspace` (lines 60-67). -/
def addWord (width : Int) (line word : Text) : Text :=
  line ++ (if (((lastLine line).length : Int) + (firstLine word).length) ≥ width then '\n' else ' ') :: word

/-- `wrap_onspace(text, width)` (la/external/prettytable.py:54-67), Python 2. -/
def wrapOnspace (text : Text) (width : Int) : Text :=
  match split ' ' text with
  | [] => []
  | word :: words => words.foldl (addWord width) word

/-- The pieces of `wrap_always`: `text[width*i:width*(i+1)]`. -/
def piece (text : Text) (width i : Nat) : Text := (text.drop (width * i)).take width

/-- `wrap_always(text, width)` (la/external/prettytable.py:77-81) for a width that is not negative.  The quotient
is exact in the model. -/
def wrapAlways (text : Text) (width : Nat) : Res Text :=
  if width = 0 then .error .zeroDivisionError
  else .ok (joinText ['\n'] ((List.range ((text.length + width - 1) / width)).map (piece text width)))

/-- What `\s` matches in a byte string. -/
def isSpace (c : Char) : Bool := c = ' ' || c = '\t' || c = '\n' || c = '\r' || c = '\x0c' || c = '\x0b'

/-- A run of characters that are not white space after the substitution. -/
def subRun (width : Nat) (run : Text) : Res Text :=
  if run.length ≥ width then wrapAlways run width else .ok run

/-- `wordRegex.sub(...)` (lines 73-74) with a width of at least 1: maximal runs of characters that are not white
space. -/
def subRuns (width : Nat) (run : Text) : Text → Res Text
  | [] => subRun width run
  | c :: cs =>
    if isSpace c then
      match subRun width run with
      | .error e => .error e
      | .ok t => match subRuns width [] cs with
        | .error e => .error e
        | .ok ts => .ok (t ++ c :: ts)
    else subRuns width (run ++ [c]) cs

/-- `wrap_onspace_strict(text, width)` (la/external/prettytable.py:70-74), Python 2, for a width that is not negative.  With
width 0 the expression matches the empty text, and `wrap_always` divides by zero. -/
def wrapStrict (text : Text) (width : Nat) : Res Text :=
  match subRuns width [] text with
  | .error e => .error e
  | .ok t => .ok (wrapOnspace t width)

end Pretty

namespace Archive
open Csv (Text)

/-- One row of the table (la/io.py:210-216); `str` of a dtype and of a shape are parameters. -/
def tableRow (dtypeText : DType → Text) (shapeText : List Nat → Text) (f : Archive) (key : String) : Res (List Text) :=
  match f.get (comps key ++ ["x"]) with
  | none => .error .keyError
  | some (.arr x dt) => .ok [key.toList, dtypeText dt, shapeText x.shape]
  | some _ => .error .attributeError

/-- The options of the table (la/io.py:218). -/
def tableOptions : Pretty.Options := { hasHeader := true, delim := [' ', ' '] }

/-- The names of the columns (la/io.py:206). -/
def tableHead : List Text := ["larry".toList, "dtype".toList, "shape".toList]

/-- `IO.__repr__()` (la/io.py:205-218). -/
def repr (py3 : Bool) (dtypeText : DType → Text) (shapeText : List Nat → Text) (f : Archive) : Res Text :=
  match f.keys with
  | .error e => .error e
  | .ok ks => match mapRes (f.tableRow dtypeText shapeText) (pySorted ks) with
    | .error e => .error e
    | .ok rows => Pretty.indent py3 tableOptions (tableHead :: rows)

end Archive
end La
