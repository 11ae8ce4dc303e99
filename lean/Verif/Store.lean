import Verif.Lix
import Verif.Kernel
import Verif.Flatten

/-!
# Assignment of values that are not of the dtype of the larry

numpy never changes the dtype of an array that is assigned to: the value is written in the dtype of the
array.  `Verif/Larry.lean`, `Verif/Setitem.lean` and `Verif/Lix.lean` take the written value as given;
here it is computed.  Not modelled: strings longer than the array was made for (numpy cuts them),
strings and `None` written into arrays of numbers, integer overflow, and a NaN or an infinity written
into an int larry other than by `set` (it depends on the version of numpy whether that raises).
-/

namespace La

/-- What an array of dtype `d` holds after `x[i] = v`. -/
def written (d : DType) (v : Val) : Val :=
  match d with
  | .object => v
  | .str => v
  | _ => Larry.storeAs d v.num

/-- The right-hand side in the dtype `d`; a larry is converted element by element. -/
def SetVal.inDType {L : Type _} (d : DType) : SetVal L → SetVal L
  | .scalar v => .scalar (written d v)
  | .lar z => .lar z

namespace Larry
variable {L : Type _}

/-- `larry.fill(fill_value)` (la/deflarry.py:2394). -/
def fillWith (y : Larry L) (v : Val) : Larry L := { y with x := y.x.map (fun _ => written y.dtype v) }

/-- `self.x[index] = value` (la/deflarry.py:2108-2109, 2116-2125), in the dtype of the larry. -/
def assign [DecidableEq L] (y : Larry L) (idx : NpIndex) (v : SetVal L) : Res (Larry L) :=
  y.setAt (written y.dtype) idx (v.inDType y.dtype)

/-- `y[m] = v` with a larry `m` (la/deflarry.py:2107-2114), in the dtype of the larry. -/
def assignMask [DecidableEq L] (y m : Larry L) (v : Val) : Res (Larry L) := y.setMask m (written y.dtype v)

variable [LinearOrder L]

/-- `larry.set(label, value)` (la/deflarry.py:2167-2172): `int(value)` raises ValueError for a NaN. -/
def setTo (y : Larry L) (names : List L) (v : Val) : Res (Larry L) :=
  match y.labelIdx names with                                            -- 2167-2171
  | .error e => .error e
  | .ok _ =>
    if y.dtype = .int ∧ v.num = .nan then .error .valueError             -- 2172
    else y.set names (written y.dtype v)

/-- `y.set(label, value)` for each pair of a list. -/
def setToAll (y : Larry L) : List (List L × Val) → Res (Larry L)
  | [] => .ok y
  | (names, v) :: ops => match y.setTo names v with
    | .error e => .error e
    | .ok z => setToAll z ops

/-- `y.lix[index] = value` (la/deflarry.py:5076-5138), in the dtype of the larry. -/
def assignLix (y : Larry L) (idx : LIndex L) (v : SetVal L) : Res (Larry L) :=
  y.lixSet (written y.dtype) idx (v.inDType y.dtype)

end Larry
end La
