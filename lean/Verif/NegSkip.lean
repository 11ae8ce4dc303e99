import Verif.Kernel

/-!
`movingsum` for any `skip` (la/farray/move.py:287-337): the slices, the subtraction and the assignments as numpy does them, with
their checks of shapes.  `movingsumLine` (Kernel.lean) is the same for `skip >= 0`, where the shapes always fit.
-/

namespace La

/-- Where a slice of a list of length `n` starts or ends: negative bounds count from the end, bounds past an end are cut off. -/
def sliceBound (n : Nat) (i : Int) : Nat := if i < 0 then (i + n).toNat else min i.toNat n

/-- Where a slice ends; `none` is `None`. -/
def sliceStop (n : Nat) : Option Int → Nat
  | none => n
  | some i => sliceBound n i

/-- `cs[start:stop]`. -/
def sliceList {α : Type _} (start : Int) (stop : Option Int) (cs : List α) : List α :=
  (cs.take (sliceStop cs.length stop)).drop (sliceBound cs.length start)

/-- `a - b` of two 1d arrays: same length, or one of them has length one. -/
def bcastSub {α : Type _} (sub : α → α → α) (a b : List α) : Res (List α) :=
  if a.length = b.length then .ok (List.zipWith sub a b)
  else match a, b with
    | _, [y] => .ok (a.map fun x => sub x y)
    | [x], _ => .ok (b.map fun y => sub x y)
    | _, _ => .error .valueError

/-- What is in a slice of length `n` after `vs` was assigned to it. -/
def bcastTo {α : Type _} (n : Nat) (vs : List α) : Res (List α) :=
  if vs.length = n then .ok vs
  else match vs with
    | [v] => .ok (List.replicate n v)
    | _ => .error .valueError

/-- `msx = csx[index1]; msx[index3] = msx[index3] - csx[index2]` (la/farray/move.py:307-308, 313-317).  `msx` is a view of `csx`, but
`csx` is not read after the assignment. -/
def windowDiffAny {α : Type _} (sub : α → α → α) (window skip : Int) (cs : List α) : Res (List α) :=
  let ms := sliceList (window - 1) (if skip = 0 then none else some (-skip)) cs           -- index1
  match bcastSub sub (ms.drop 1) (sliceList 0 (some (-window - skip)) cs) with            -- index3, index2
  | .error e => .error e
  | .ok d => match bcastTo (ms.drop 1).length d with
    | .error e => .error e
    | .ok d => .ok (ms.take 1 ++ d)

/-- `movingsum(arr, window, skip, axis, norm)` (la/farray/move.py:295-330) on one line of an array of dtype `d`. -/
def movingsumAnyLine (d : DType) (window skip : Int) (norm : Bool) (vs : List Val) : Res (List Val) :=
  let m := vs.map (fun v => decide (d = .float) && v.isNan)                               -- 295
  let arr := List.zipWith (fun v (t : Bool) => if t then Flt.fin 0 else v.num) vs m       -- 296-297
  let csx := cumGo Flt.add (.fin 0) arr                                                   -- 300
  let csm := cumGo (· + ·) (0 : ℚ) (m.map (fun t => if t then 0 else 1))                  -- 315
  match windowDiffAny Flt.sub window skip csx with                                        -- 313-314
  | .error e => .error e
  | .ok msx => match windowDiffAny (· - ·) window skip csm with                           -- 316-317
    | .error e => .error e
    | .ok msm =>
      let ms := List.zipWith (fun x c => if norm then ((Flt.fin window).mul x).div (.fin c)  -- 321
        else if c = 0 then .nan else x) msx msm                                           -- 323-324
      let keep := sliceBound vs.length (skip + window - 1)                                -- index4
      match bcastTo (vs.length - keep) ms with                                            -- 328
      | .error e => .error e
      | .ok ms => .ok (List.replicate keep (.flt .nan) ++ ms.map Val.flt)                 -- 327-328

/-- `movingsum_forward` (la/farray/move.py:334-337) on one line. -/
def movingsumForwardAnyLine (d : DType) (window skip : Int) (norm : Bool) (vs : List Val) : Res (List Val) :=
  match movingsumAnyLine d window skip norm vs.reverse with
  | .error e => .error e
  | .ok ws => .ok ws.reverse

/-- The line, of a function that is known not to raise. -/
def lineOr (r : List Val → Res (List Val)) (vs : List Val) : List Val := match r vs with | .ok ws => ws | .error _ => []

namespace Larry
variable {L : Type _}

/-- `larry.movingsum_forward(window, skip, axis, norm)` (la/deflarry.py:3062-3064; la/farray/move.py:287-337) for any `skip`.  Whether
the shapes fit depends on the length of the axis only, so it is tried on a line of NaN. -/
def movingsumForwardAny (y : Larry L) (window : Int) (skip : Int) (axis : Int) (norm : Bool) : Res (Larry L) :=
  match pyIdx y.ndim axis with
  | none => .error .indexError                                          -- flip_index[axis]
  | some ax =>
    if window < 1 then .error .valueError                               -- 287-288
    else if window > y.shape.getD ax 0 then .error .valueError          -- 289-290
    else if skip > y.shape.getD ax 0 then .error .indexError            -- 291-292
    else if y.dtype.isNumeric = false then .error .valueError           -- 296
    else match movingsumForwardAnyLine .float window skip norm (List.replicate (y.shape.getD ax 0) (.flt .nan)) with
      | .error e => .error e
      | .ok _ => .ok (y.along (lineOr (movingsumForwardAnyLine y.dtype window skip norm)) .float ax)

end Larry
end La
