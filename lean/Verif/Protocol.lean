import Verif.Operand
import Verif.Index

/-!
# Model of larrys in loops and conditions

The class larry defines `__getitem__` (la/deflarry.py:1754-1887) and the comparisons (1661-1725), but none of `__iter__`,
`__contains__`, `__len__`, `__nonzero__` and `__bool__` (la/deflarry.py:18-5010).  What `for`, `in`, `if`, `and`, chained
comparisons and the functions `max`, `min`, `list.index` and `list.count` do with a larry is then settled by Python's rules for
such objects, which are modelled here.
Data are bools, ints and floats; the object looked for with `in` is a Python number or a larry.
-/

namespace La
variable {L : Type _}

/-- `for a in obj` where `obj` has `__getitem__` only: the items `obj[k]`, `obj[k + 1]`, ... up to the first IndexError, and the
exception that escapes, if any. -/
inductive SeqLoop {α : Type _} (get : Nat → Res α) : Nat → List α → Option PyErr → Prop
  | stop {k : Nat} (h : get k = .error .indexError) : SeqLoop get k [] none
  | fail {k : Nat} {e : PyErr} (h : get k = .error e) (he : e ≠ .indexError) : SeqLoop get k [] (some e)
  | step {k : Nat} {a : α} {as : List α} {r : Option PyErr} (h : get k = .ok a) (t : SeqLoop get (k + 1) as r) :
      SeqLoop get k (a :: as) r

/-- `v in obj`: the loop stops at the first item for which the test is true; an exception of the test escapes. -/
inductive SeqFind {α : Type _} (get : Nat → Res α) (test : α → Res Bool) : Nat → Res Bool → Prop
  | stop {k : Nat} (h : get k = .error .indexError) : SeqFind get test k (.ok false)
  | fail {k : Nat} {e : PyErr} (h : get k = .error e) (he : e ≠ .indexError) : SeqFind get test k (.error e)
  | bad {k : Nat} {a : α} {e : PyErr} (h : get k = .ok a) (ht : test a = .error e) : SeqFind get test k (.error e)
  | found {k : Nat} {a : α} (h : get k = .ok a) (ht : test a = .ok true) : SeqFind get test k (.ok true)
  | next {k : Nat} {a : α} {r : Res Bool} (h : get k = .ok a) (ht : test a = .ok false) (t : SeqFind get test (k + 1) r) :
      SeqFind get test k r

/-- The first `n` items from the `k`-th on, for `a, b, ... = obj`; ValueError ("need more than ... values to unpack") if there are
fewer. -/
def firstItems {α : Type _} (get : Nat → Res α) : Nat → Nat → Res (List α)
  | _, 0 => .ok []
  | k, n + 1 => match get k with
    | .error .indexError => .error .valueError
    | .error e => .error e
    | .ok a => match firstItems get (k + 1) n with
      | .error e => .error e
      | .ok as => .ok (a :: as)

/-- `a1, ..., an = obj`: ValueError ("too many values to unpack") if there is one more item. -/
def unpackItems {α : Type _} (get : Nat → Res α) (n : Nat) : Res (List α) :=
  match firstItems get 0 n with
  | .error e => .error e
  | .ok as => match get n with
    | .error .indexError => .ok as
    | .error e => .error e
    | .ok _ => .error .valueError

/-- `bool(obj)` for what an operator returns: a larry is true, whatever it holds. -/
def Outcome.bool : Outcome L → Bool
  | .larry _ => true
  | .truth b => b

/-- What is looked for with `in`: a Python bool, int or float, or a larry. -/
inductive Sought (L : Type _)
  | number (v : Val) (d : DType)
  | larry (z : Larry L)

/-- The Python type of a number. -/
def numberClass : DType → PyClass
  | .bool => .bool
  | .int => .int
  | _ => .float

/-- The numpy type of an element taken out of an array. -/
def elementClass : DType → PyClass
  | .bool => .np .bool_
  | .int => .np .int64
  | _ => .np .float64

/-- The object as an operand. -/
def Sought.operand : Sought L → Operand L
  | .number v d => .scalar (numberClass d) v d
  | .larry z => .larry z

namespace Larry
variable [LinearOrder L]

/-- `y[k]`, as the loop calls it. -/
def item (y : Larry L) (k : Nat) : Res (GetOut L) := y.getitem (.one (.int k))

/-- `bool(a == b)`. -/
def askEq (py3 : Bool) (a b : Operand L) : Res Bool := ((BinOp.rel .eq).run py3 a b).map Outcome.bool

/-- The comparison in `v in y`: `v == item`.  Elements come out of the array as new objects, so that `is` never holds.  Two
numbers are compared as numbers; otherwise a larry is involved and its `__eq__` is called.  (`y[k]` is never a bare array.) -/
def sameItem (py3 : Bool) (d : DType) (s : Sought L) (g : GetOut L) : Res Bool :=
  match g, s with
  | .larry z, s => askEq py3 s.operand (.larry z)
  | .scalar w, .number v _ => .ok (RelOp.eq.test v.num w.num)
  | .scalar w, .larry z => askEq py3 (.larry z) (.scalar (elementClass d) w d)
  | .array _, _ => .error .typeError

/-- `for item in y`. -/
def Loop (y : Larry L) (items : List (GetOut L)) (r : Option PyErr) : Prop := SeqLoop y.item 0 items r

/-- `s in y`. -/
def In (py3 : Bool) (s : Sought L) (y : Larry L) (r : Res Bool) : Prop := SeqFind y.item (sameItem py3 y.dtype s) 0 r

/-- `a, b, ... = y` with `n` names. -/
def unpack (y : Larry L) (n : Nat) : Res (List (GetOut L)) := unpackItems y.item n

/-- `a c1 y c2 b`, for instance `0 < y < 1`: Python takes it as `(a c1 y) and (y c2 b)`. -/
def between (py3 : Bool) (c1 c2 : RelOp) (a : Operand L) (y : Larry L) (b : Operand L) : Res (Outcome L) :=
  match (BinOp.rel c1).run py3 a (.larry y) with
  | .error e => .error e
  | .ok t => if t.bool then (BinOp.rel c2).run py3 (.larry y) b else .ok t

/-- `max(y, z, ...)` (`c` is `>`) and `min(y, z, ...)` (`c` is `<`) of Python: a later argument replaces the one kept so far if
the comparison is true. -/
def best (py3 : Bool) (c : RelOp) : Larry L → List (Larry L) → Res (Larry L)
  | m, [] => .ok m
  | m, z :: zs => match (BinOp.rel c).run py3 (.larry z) (.larry m) with
    | .error e => .error e
    | .ok t => if t.bool then best py3 c z zs else best py3 c m zs

/-- `lars.index(z)` for a list of larrys, the first `k` of which have been passed over.  (`item is z` is tested before
`item == z`; a larry equals itself in the sense of `bool(z == z)`.) -/
def listIndex (py3 : Bool) (z : Larry L) : Nat → List (Larry L) → Res Nat
  | _, [] => .error .valueError
  | k, y :: ys => match askEq py3 (.larry y) (.larry z) with
    | .error e => .error e
    | .ok t => if t then .ok k else listIndex py3 z (k + 1) ys

/-- `lars.count(z)`. -/
def listCount (py3 : Bool) (z : Larry L) : List (Larry L) → Res Nat
  | [] => .ok 0
  | y :: ys => match askEq py3 (.larry y) (.larry z) with
    | .error e => .error e
    | .ok t => match listCount py3 z ys with
      | .error e => .error e
      | .ok n => .ok (if t then n + 1 else n)

end Larry
end La
