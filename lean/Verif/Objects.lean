import Verif.Lix
import Mathlib.Algebra.Order.Floor.Ring
import Mathlib.Data.Rat.Floor

/-!
# Model of the type tests of `la.util.misc` (la/util/misc.py:19-161) and of what they make of an object used as an index

`Index` and `Lix` start from indices that are already sorted into integers, lists, masks and so on.  Here the sorting is
modelled: it goes by the type of the object.  Numbers are finite; lists, tuples and arrays used as indices hold booleans and
signed integers.
-/

namespace La

/-! ## numpy's types -/

/-- The types of array elements. -/
inductive NpType
  | bool_ | int8 | int16 | int32 | int64 | uint8 | uint16 | uint32 | uint64 | float16 | float32 | float64 | complex64 | complex128
  | string_ | unicode_ | void | object_ | datetime64 | timedelta64
  deriving DecidableEq

/-- The abstract classes above them, and the types themselves. -/
inductive NpClass
  | generic | number | integer | signedinteger | unsignedinteger | inexact | floating | complexfloating | flexible | character
  | of (t : NpType)
  deriving DecidableEq

/-- The classes above an element type, nearest first (numpy's scalar hierarchy; timedelta64 is a signedinteger). -/
def NpType.above : NpType → List NpClass
  | .bool_ | .object_ | .datetime64 => [.generic]
  | .int8 | .int16 | .int32 | .int64 | .timedelta64 => [.signedinteger, .integer, .number, .generic]
  | .uint8 | .uint16 | .uint32 | .uint64 => [.unsignedinteger, .integer, .number, .generic]
  | .float16 | .float32 | .float64 => [.floating, .inexact, .number, .generic]
  | .complex64 | .complex128 => [.complexfloating, .inexact, .number, .generic]
  | .string_ | .unicode_ => [.character, .flexible, .generic]
  | .void => [.flexible, .generic]

/-- `t.mro()` -/
def NpType.mro (t : NpType) : List NpClass := .of t :: t.above

/-- `np.issubdtype(arg1, arg2)` for two types that are no abstract classes (numpy/core/numerictypes.py): is `arg1` below the
second entry of the mro of `arg2`? -/
def issubdtype (arg1 arg2 : NpType) : Bool := decide (arg2.mro.getD 1 .generic ∈ arg1.mro)

/-! ## Python's types -/

/-- The type of a Python object, as far as it matters here. -/
inductive PyClass
  | int | long | bool | float | complex | str | unicode
  | np (t : NpType)          -- a numpy scalar
  | other                    -- NoneType, ellipsis, list, ndarray, larry, a user's class, ...
  deriving DecidableEq

/-- `np.dtype(t).type`; a type numpy does not know is an object. -/
def PyClass.npType : PyClass → NpType
  | .int | .long => .int64
  | .bool => .bool_
  | .float => .float64
  | .complex => .complex128
  | .str => .string_
  | .unicode => .unicode_
  | .np t => t
  | .other => .object_

/-- `isint(x)` by the type of `x` (la/util/misc.py:63). -/
def isint (c : PyClass) : Bool := issubdtype c.npType PyClass.int.npType

/-- `isfloat(x)` (la/util/misc.py:109). -/
def isfloat (c : PyClass) : Bool := issubdtype c.npType PyClass.float.npType

/-- `isscalar(x)` (la/util/misc.py:155). -/
def isscalar (c : PyClass) : Bool := isfloat c || isint c

/-- `isstring(s)`: `issubclass(type(s), str)` (la/util/misc.py:159).  `np.string_` is a subclass of `str` on Python 2, `np.unicode_`
on Python 3. -/
def isstring (py3 : Bool) (c : PyClass) : Bool :=
  match c with
  | .str => true
  | .np .string_ => !py3
  | .np .unicode_ => py3
  | _ => false

/-- `int(x)` of a number. -/
def pyInt (q : ℚ) : Int := if 0 ≤ q then ⌊q⌋ else ⌈q⌉

/-! ## `larry.__getitem__` -/

/-- An object between the brackets, or one entry of a tuple there. -/
inductive IdxObj (L : Type _)
  | number (c : PyClass) (q : ℚ)
  | slice (s : PySlice)
  | list (es : List (Bool ⊕ Int))       -- a list or, inside a tuple, a tuple
  | boolArray (bs : List Bool)          -- 1d
  | intArray (is : List Int)            -- 1d
  | arrayN                              -- an array that is not 1d
  | lar (m : Larry L)
  | other                               -- None, Ellipsis, a string, ...

/-- A Python bool in a list of positions is 0 or 1: `label[0][int(i)]` and `take` (la/deflarry.py:1839-1843), and in a tuple
`self.label[ax][z]` (1779) and numpy, which (1.6/1.7) makes an integer array of a list. -/
def position : Bool ⊕ Int → Int
  | .inl b => if b then 1 else 0
  | .inr i => i

/-- The branch `__getitem__` takes (la/deflarry.py:1756-1886), and the position a number means: `int(index)` (1757), inside a
tuple numpy truncates in the same way (1829). -/
def IdxObj.item {L : Type _} : IdxObj L → Item L
  | .number c q => if isscalar c then .int (pyInt q) else .other
  | .slice s => .slice s
  | .list es => .seq (es.map position)
  | .boolArray bs => .mask bs
  | .intArray is => .seq is
  | .arrayN => .nd
  | .lar m => .lar m
  | .other => .other

section
variable {L : Type _} [DecidableEq L]

/-- One turn of the loop over the axes (la/deflarry.py:1769-1828).  The number itself is compared with the length (1774), not its
integer part. -/
def IdxObj.keep (l : List L) (n : Nat) : IdxObj L → Res (Option (List L))
  | .number c q => if isscalar c then (if q ≥ n then .error .indexError else .ok none) else .error .indexError
  | o => o.item.keep l n

/-- `y[o]` for an object that is no tuple. -/
def Larry.getObj (y : Larry L) (o : IdxObj L) : Res (GetOut L) := y.getitem (.one o.item)

/-- `y[o0, o1, ...]` (la/deflarry.py:1765-1831, 1887). -/
def Larry.getObjs (y : Larry L) (os : List (IdxObj L)) : Res (GetOut L) :=
  match mapRes (fun p : (List L × Nat) × IdxObj L => p.2.keep p.1.1 p.1.2)
      ((y.label.zip y.shape).zip (os ++ List.replicate (y.ndim - os.length) (IdxObj.slice {}))) with
  | .error e => .error e
  | .ok labs => match y.x.index ((os.map IdxObj.item).map Item.np) with  -- 1829
    | .error e => .error e
    | .ok x =>
      if (os.map IdxObj.item).all Item.isInt then .ok (.ofArray x)       -- 1830-1831
      else match Larry.make x y.dtype (labs.filterMap id) ((os.map IdxObj.item).any Item.isSeq) with  -- 1887
        | .error e => .error e
        | .ok z => .ok (.larry z)

end

/-! ## `lix` -/

/-- An entry of a lix expression. -/
inductive LixObj (L : Type _)
  | number (c : PyClass) (q : ℚ)
  | list (ls : List L)
  | slice (s : LSlice L)
  | other

/-- The branch taken (la/deflarry.py:5047-5074). -/
def LixObj.item {L : Type _} : LixObj L → LItem L
  | .number c q => if isscalar c then .int (pyInt q) else .other
  | .list ls => .list ls
  | .slice s => .slice s
  | .other => .other

/-- A float. -/
def LixObj.isFlt {L : Type _} : LixObj L → Bool
  | .number c _ => isfloat c
  | _ => false

section
variable {L : Type _} [LinearOrder L]

/-- `y.lix[o]` for an object that is no tuple (la/deflarry.py:5017-5037, 5070-5074). -/
def Larry.lixObj (y : Larry L) (o : LixObj L) : Res (GetOut L) := y.lixGet (.one o.item)

/-- `y.lix[o0, o1, ...]` (la/deflarry.py:5038-5069).  A number goes into a list as it is (5062), and a list with a float becomes an
array of floats, which numpy refuses as an index (5065). -/
def Larry.lixObjs (y : Larry L) (os : List (LixObj L)) : Res (GetOut L) :=
  if 0 ∈ y.shape then y.lixGet (.tuple (os.map LixObj.item))             -- 5021-5026
  else match lixSel y (os.map LixObj.item) with                          -- 5041-5064
    | .error e => .error e
    | .ok _ => if os.any LixObj.isFlt then .error .indexError            -- 5065
      else y.lixGet (.tuple (os.map LixObj.item))

end
end La
