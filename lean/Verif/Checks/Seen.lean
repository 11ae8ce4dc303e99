import Verif.Formula
import Verif.Flatten
import Verif.Moving
import Verif.MoveBn
import Verif.Queries
import Verif.Lix
import Verif.Objects
import Verif.Examples
import Verif.FlarryArith
import Verif.Unique
import Verif.Stack
import Verif.Create
import Verif.Flarry
import Verif.ReduceMethods
import Verif.Stats
import Verif.Cov
import Verif.Group
import Verif.Setitem

/-!
# Vocabulary for comparing the model with documented values

The modules of `Verif/Checks` are not proofs of any property. They evaluate the model on the inputs of the
project's own docstrings and unit tests and compare with the values written there, so that a slip in a
definition of the model shows up as a build failure. Labels are natural numbers: a letter of the original
stands as its character code.
-/

namespace La.Checks

/-- What a call shows: an exception, an element, an array, or a larry with its shape, elements, dtype and labels. -/
inductive Seen (L : Type _)
  | error (e : PyErr)
  | scalar (v : Val)
  | array (shape : List Nat) (xs : List Val)
  | larry (shape : List Nat) (xs : List Val) (d : DType) (label : List (List L))
  deriving DecidableEq

/-- A larry as shown. -/
def ofL {L : Type _} (y : Larry L) : Seen L := .larry y.x.shape y.x.vals y.dtype y.label
/-- A call that returns a larry. -/
def see {L : Type _} : Res (Larry L) → Seen L
  | .error e => .error e
  | .ok y => ofL y
/-- A reduction. -/
def seeOut {L : Type _} : Res (Out L) → Seen L
  | .error e => .error e
  | .ok (.scalar v) => .scalar v
  | .ok (.larry y) => ofL y
/-- An indexing. -/
def seeGet {L : Type _} : Res (GetOut L) → Seen L
  | .error e => .error e
  | .ok (.scalar v) => .scalar v
  | .ok (.array x) => .array x.shape x.vals
  | .ok (.larry y) => ofL y

/-- NaN -/
def nn : Val := .flt .nan
/-- The default labels of an axis of length `n`. -/
def nat (n : Nat) : List Nat := List.range n
/-- A 2d float larry, row by row. -/
def F (rows : List (List Val)) : Larry Nat := ⟨NDArray.ofList [rows.length, (rows.headD []).length] rows.flatten, .float, [nat rows.length, nat (rows.headD []).length]⟩
/-- A 2d float larry with labels. -/
def FL (rows : List (List Val)) (a b : List Nat) : Larry Nat := ⟨NDArray.ofList [a.length, b.length] rows.flatten, .float, [a, b]⟩
/-- A 1d float larry. -/
def V (xs : List Val) : Larry Nat := ⟨NDArray.ofList [xs.length] xs, .float, [nat xs.length]⟩
/-- A 1d int larry. -/
def I (xs : List Int) : Larry Nat := ⟨NDArray.ofList [xs.length] (xs.map .int), .int, [nat xs.length]⟩
/-- A 1d int larry with labels. -/
def IL (xs : List Int) (a : List Nat) : Larry Nat := ⟨NDArray.ofList [xs.length] (xs.map .int), .int, [a]⟩
/-- A 2d int larry. -/
def I2 (rows : List (List Int)) : Larry Nat := ⟨NDArray.ofList [rows.length, (rows.headD []).length] (rows.flatten.map .int), .int, [nat rows.length, nat (rows.headD []).length]⟩
/-- A 2d int larry with labels. -/
def I2L (rows : List (List Int)) (a b : List Nat) : Larry Nat := ⟨NDArray.ofList [a.length, b.length] (rows.flatten.map .int), .int, [a,b]⟩
/-- Numerals stand for floats. -/
scoped instance : OfNat Val n := ⟨fl n⟩
/-- A negative float. -/
def negVal : Val → Val
  | .flt (.fin q) => fl (-q)
  | v => v

scoped instance : Neg Val := ⟨negVal⟩

end La.Checks
