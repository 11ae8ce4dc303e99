import Verif.Larry
import Verif.Kernel
import Mathlib.Data.Rat.Floor

/-!
# Model of the functions that create larrys

`lrange`, `empty`, `ones`, `zeros` (la/flarry.py:1844-2088), `rand` and `randn` (la/flarry.py:1585-1601, 1683-1699).
The label that Python's integer `i` makes is `num i`.  Shapes have no negative entries.  The argument
`order`, which changes the layout in memory only, is left out.
-/

namespace La
variable {L : Type _}

/-- `larry(x, label, validate=validate)` (la/deflarry.py:108-138): without a label, `range(n)` on every
axis; with `validate=False` nothing is checked. -/
def larryOf [DecidableEq L] (num : Nat → L) (x : NDArray Val) (d : DType)
    (label : Option (List (List L))) (validate : Bool := true) : Res (Larry L) :=
  let label := label.getD (x.shape.map fun n => (List.range n).map num)   -- 108-109
  if validate then Larry.mk' x d label else .ok ⟨x, d, label⟩

/-- The shape asked for (la/flarry.py:1844-1848 and the same lines in `empty`): the lengths of the
labels if there are labels, whatever `shape` is; ValueError if there is neither. -/
def askedShape (shape : Option (List Nat)) (label : Option (List (List L))) : Res (List Nat) :=
  match label with
  | some label => .ok (label.map List.length)
  | none => match shape with
    | some shape => .ok shape
    | none => .error .valueError

/-- The length of `np.arange(start, stop, step)`: `ceil((stop - start) / step)`, at least 0. -/
def arangeLen (start stop step : Int) : Nat := ⌈(((stop - start : Int) : ℚ) / (step : ℚ))⌉.toNat

/-- An integer as an element of an array of dtype `d`. -/
def intAs (d : DType) (n : Int) : Val :=
  match d with
  | .bool => .bool (n != 0)
  | .float => .flt (.fin n)
  | _ => .int n

/-- `lrange(shape, label, start, step, dtype)` (la/flarry.py:1844-1852) for ints `start` and `step`.
`dtype` is None, int or float; other dtypes are not modelled (NotImplementedError). -/
def lrange [DecidableEq L] (num : Nat → L) (shape : Option (List Nat))
    (label : Option (List (List L))) (start step : Int) (dtype : Option DType) : Res (Larry L) :=
  match askedShape shape label with                                      -- 1844-1848
  | .error e => .error e
  | .ok shape =>
    let total := shape.prod                                              -- 1849
    if step = 0 then .error .zeroDivisionError                           -- 1850
    else if ¬ (dtype = none ∨ dtype = some .int ∨ dtype = some .float) then .error .notImplementedError
    else if arangeLen start (step * total + start) step ≠ total then .error .valueError   -- reshape
    else
      let d := dtype.getD .int
      larryOf num ⟨shape, fun idx => intAs d (start + (ravelC shape idx : Int) * step)⟩ d label

/-- `empty(shape, label, dtype)` (la/flarry.py:1928-1934): `mem` is what the memory happens to hold. -/
def emptyLike [DecidableEq L] (mem : List Nat → Val) (num : Nat → L) (shape : Option (List Nat))
    (label : Option (List (List L))) (dtype : Option DType) : Res (Larry L) :=
  match askedShape shape label with
  | .error e => .error e
  | .ok shape => larryOf num ⟨shape, mem⟩ (dtype.getD .float) label

/-- `lar.x.fill(n)` for a bool, int or float larry. -/
def Larry.fill (y : Larry L) (n : Int) : Larry L := { y with x := ⟨y.x.shape, fun _ => intAs y.dtype n⟩ }

/-- `ones` and `zeros` (la/flarry.py:2009-2011, 2086-2088): `empty`, then filled with `n`. -/
def filled [DecidableEq L] (mem : List Nat → Val) (num : Nat → L) (n : Int)
    (shape : Option (List Nat)) (label : Option (List (List L))) (dtype : Option DType) :
    Res (Larry L) :=
  match emptyLike mem num shape label dtype with
  | .error e => .error e
  | .ok lar => .ok (lar.fill n)

/-- What `rand` returns. -/
inductive RandOut (L : Type _)
  | number (v : Val)
  | larry (y : Larry L)

/-- `rand(*args, **kwargs)` and `randn` (la/flarry.py:1585-1601, 1683-1699).  `draw` is the function
given as `rand=` (or numpy's own): `draw shape` are floats in an array of that shape, `draw []` is one
number.  The other keyword arguments are `label` and `validate`, absent if none. -/
def rand [DecidableEq L] (num : Nat → L) (draw : List Nat → NDArray Val) (args : List Nat)
    (label : Option (List (List L))) (validate : Option Bool) : Res (RandOut L) :=
  if args.length > 0 then                                                -- 1592-1593
    match larryOf num (draw args) .float label (validate.getD true) with
    | .error e => .error e
    | .ok y => .ok (.larry y)
  else match label with
    | some l =>                                                          -- 1594-1596
      match larryOf num (draw (l.map List.length)) .float (some l) (validate.getD true) with
      | .error e => .error e
      | .ok y => .ok (.larry y)
    | none =>
      if validate = none then .ok (.number ((draw []).get []))           -- 1597-1599
      else .error .valueError                                            -- 1600-1601

end La
