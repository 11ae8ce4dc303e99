import Verif.Kernel
import Verif.Methods

/-!
# Model of la/farray/move.py: move_func

An array in memory is a buffer (a function from byte addresses to values) with an offset, a shape and
strides; `as_strided` makes another view of the same buffer.
-/

namespace La

/-- Where the elements of an array are in memory. -/
structure Strided where
  shape : List Nat
  strides : List Int
  offset : Int

namespace Strided

/-- The address of an element. -/
def addr (s : Strided) (idx : List Nat) : Int := s.offset + (List.zipWith (fun (a : Int) (i : Nat) => a * i) s.strides idx).sum

/-- The array seen in the memory `buf`. -/
def nd (buf : Int → Val) (s : Strided) : NDArray Val := ⟨s.shape, fun idx => buf (s.addr idx)⟩

/-- `arr.T` -/
def T (s : Strided) : Strided := ⟨s.shape.reverse, s.strides.reverse, s.offset⟩

/-- `arr.swapaxes(0, ax)` -/
def swap0 (s : Strided) (ax : Nat) : Strided := ⟨swapList s.shape 0 ax, swapList s.strides 0 ax, s.offset⟩

/-- `as_strided(arr, shape, strides)` with the shape and strides of la/farray/move.py:211-213, 218-220,
227-229: the window becomes a second axis. -/
def windows (s : Strided) (window : Nat) : Strided :=
  ⟨(s.shape.headD 0 + 1 - window) :: window :: s.shape.tail, s.strides.headD 0 :: s.strides, s.offset⟩

/-- The array whose windows are taken: `arr`, turned so that the axis comes first
(la/farray/move.py:210-226). -/
def front (s : Strided) (ax : Nat) : Strided :=
  match s.shape.length with
  | 2 => if ax = 1 then s.T else s                                      -- 216-217
  | 3 => if ax > 0 then s.swap0 ax else s                               -- 225-226
  | _ => s

end Strided

namespace NDArray

/-- `y[:, …, i, …, :] = z` as a new array. -/
def putAx {α : Type _} (y : NDArray α) (i ax : Nat) (z : NDArray α) : NDArray α :=
  ⟨y.shape, fun idx => if idx.getD ax 0 = i then z.get (idx.eraseIdx ax) else y.get idx⟩

/-- `y[:, …, k:, …, :] = z` as a new array. -/
def putTail {α : Type _} (y : NDArray α) (k ax : Nat) (z : NDArray α) : NDArray α :=
  ⟨y.shape, fun idx => if k ≤ idx.getD ax 0 then z.get (idx.modify ax (· - k)) else y.get idx⟩

/-- The same with numpy's check that the shapes agree (an axis of length 1 that would be broadcast does
not occur). -/
def storeTail {α : Type _} (y : NDArray α) (k ax : Nat) (z : NDArray α) : Res (NDArray α) :=
  if z.shape = y.shape.set ax (y.shape.getD ax 0 - k) then .ok (y.putTail k ax z) else .error .valueError

end NDArray

/-- One turn of the loop (la/farray/move.py:189-191); the result array is a float array. -/
def moveStep (f : List Val → Val) (arr : NDArray Val) (window ax : Nat) (y : NDArray Val) (i : Nat) : NDArray Val :=
  y.putAx i ax (((arr.gather (List.range' (i + 1 - window) window) ax).reduceAx f ax).map Val.toFloat)

/-- `move_func_loop(func, arr, window, axis)` (la/farray/move.py:179-192), with `func` given by what it
does to one line. -/
def moveLoop (f : List Val → Val) (arr : NDArray Val) (window : Int) (axis : Option Int) : Res (NDArray Val) :=
  match axis with
  | none => .error .valueError                                          -- 179-180
  | some axis =>
    if window < 1 then .error .valueError                               -- 181-182
    else match pyIdx arr.ndim axis with
      | none => .error .indexError                                      -- 183
      | some ax =>
        let n := arr.shape.getD ax 0
        if window > n then .error .valueError                           -- 183-184
        else .ok ((List.range' (window.toNat - 1) (n - (window.toNat - 1))).foldl
          (moveStep f arr window.toNat ax) (NDArray.full arr.shape (.flt .nan)))  -- 185-192

/-- `y.T` or `y.swapaxes(0, axis)` of the reduced windows (la/farray/move.py:222-223, 231-232). -/
def moveBack (ndim ax : Nat) (y : NDArray Val) : NDArray Val :=
  match ndim with
  | 2 => if ax = 1 then y.transpose else y
  | 3 => if ax > 0 then y.swapaxes 0 ax else y
  | _ => y

/-- `move_func_strides(func, arr, window, axis)` (la/farray/move.py:196-241) on an array in memory. -/
def moveStrides (f : List Val → Val) (buf : Int → Val) (arr : Strided) (window : Int) (axis : Option Int) :
    Res (NDArray Val) :=
  match axis with
  | none => .error .valueError                                          -- 196-197
  | some axis =>
    if window < 1 then .error .valueError                               -- 198-199
    else match pyIdx arr.shape.length axis with
      | none => .error .indexError                                      -- 200
      | some ax =>
        if window > arr.shape.getD ax 0 then .error .valueError         -- 200-201
        else if arr.shape.length > 3 then .error .valueError            -- 233-234
        else
          let z := (arr.front ax).windows window.toNat
          let y := ((z.nd buf).reduceAx f 1).map Val.toFloat            -- 214, 221, 230
          (NDArray.full arr.shape (.flt .nan)).storeTail (window.toNat - 1) ax
            (moveBack arr.shape.length ax y)                            -- 235-241

/-- The value of `method`. -/
inductive MoveMethod
  | strides | loop | unknown

/-- `move_func(func, arr, window, axis, method)` (la/farray/move.py:167-175). -/
def moveFunc (f : List Val → Val) (buf : Int → Val) (arr : Strided) (window : Int) (axis : Option Int) :
    MoveMethod → Res (NDArray Val)
  | .strides => moveStrides f buf arr window axis
  | .loop => moveLoop f (arr.nd buf) window axis
  | .unknown => .error .valueError

/-- `larry.move_func(func, window, axis, method)` (la/deflarry.py:3057-3058), `move_nanranking` and
`move_nanmedian` (la/deflarry.py:2999-3003): the values of the larry lie in memory as `arr` says.  The
keyword arguments are dropped by the code. -/
def Larry.moveFunc {L : Type _} (f : List Val → Val) (buf : Int → Val) (arr : Strided) (y : Larry L) (window : Int)
    (axis : Option Int) (m : MoveMethod) : Res (Larry L) :=
  match La.moveFunc f buf arr window axis m with
  | .error e => .error e
  | .ok x => .ok ⟨x, .float, y.label⟩

end La
