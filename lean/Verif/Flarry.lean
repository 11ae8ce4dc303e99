import Verif.Larry

/-! # Model of la/flarry.py: alignment, unions, binaryop; and of `larry.merge` -/

namespace La
variable {L : Type _}

/-- The strings accepted as `join` along one axis (la/flarry.py:283-374); `other` is any other
string. -/
inductive Join
  | inner | outer | left | right | skip | other
  deriving DecidableEq, Repr

/-- The `join` argument: a string or a list of strings (anything else raises TypeError at
la/flarry.py:260 and is not representable). -/
inductive JoinArg
  | one (j : Join)
  | many (js : List Join)

/-- The blocks la/flarry.py:305-316, 317-328, 336-351, 358-369: overwrite the positions `miss` along
axis `ax` with the missing marker, casting to float first if the dtype has none.  The code keeps the
marker in a variable once computed; that value is always the marker of the current dtype, which is
what the model recomputes. -/
def fillMissing (cast : Bool) (x : NDArray Val) (d : DType) (miss : List Nat) (ax : Nat) :
    Res (NDArray Val × DType) :=
  if miss.length > 0 then
    match missingMarker d with
    | none =>
      if cast then .ok ((x.map Val.toFloat).assignAx miss ax (.flt .nan), .float)
      else .error .typeError
    | some mm => .ok (x.assignAx miss ax mm, d)
  else .ok (x, d)

/-- The two arrays while `align_raw` runs: data, dtype and the `isview` flag of each. -/
structure AlignSt where
  x1 : NDArray Val
  d1 : DType
  v1 : Bool
  x2 : NDArray Val
  d2 : DType
  v2 : Bool

section order
variable [LinearOrder L]

/-- Body of the loop of `align_raw` for one axis (la/flarry.py:283-375).  The returned label is `none`
for a skipped axis. -/
def alignRawAxis (cast : Bool) (j : Join) (list1 list2 : List L) (ax : Nat) (s : AlignSt) :
    Res (AlignSt × Option (List L)) :=
  match j with
  | .inner =>
    if list1 = list2 then .ok (s, some list1)                            -- 284-285
    else
      let list3 := pySorted (setInter list1 list2)                       -- 287-288
      match listmap list1 list3 with                                     -- 289
      | .error e => .error e
      | .ok idx1 => match listmap list2 list3 with                       -- 290
        | .error e => .error e
        | .ok idx2 => match s.x1.take (idx1.map Int.ofNat) ax with       -- 291
          | .error e => .error e
          | .ok x1 => match s.x2.take (idx2.map Int.ofNat) ax with       -- 292
            | .error e => .error e
            | .ok x2 => .ok ({ s with x1 := x1, v1 := false, x2 := x2, v2 := false }, some list3)
  | .outer =>
    if list1 = list2 then .ok (s, some list1)                            -- 296-297
    else
      let list3 := pySorted (setUnion list1 list2)                       -- 299-300
      let m1 := listmapFill list1 list3 0                                -- 301
      let m2 := listmapFill list2 list3 0                                -- 302
      match s.x1.take m1.1 ax with                                       -- 303
      | .error e => .error e
      | .ok x1 => match s.x2.take m2.1 ax with                           -- 304
        | .error e => .error e
        | .ok x2 => match fillMissing cast x1 s.d1 m1.2 ax with          -- 305-316
          | .error e => .error e
          | .ok r1 => match fillMissing cast x2 s.d2 m2.2 ax with        -- 317-328
            | .error e => .error e
            | .ok r2 => .ok (⟨r1.1, r1.2, false, r2.1, r2.2, false⟩, some list3)
  | .left =>
    if list1 = list2 then .ok (s, some list1)                            -- 332-333
    else
      let m2 := listmapFill list2 list1 0                                -- 334
      match s.x2.take m2.1 ax with                                       -- 335
      | .error e => .error e
      | .ok x2 => match fillMissing cast x2 s.d2 m2.2 ax with            -- 336-351
        | .error e => .error e
        | .ok r2 => .ok ({ s with x2 := r2.1, d2 := r2.2, v2 := false }, some list1)
  | .right =>
    if list1 = list2 then .ok (s, some list2)                            -- 354-355
    else
      let m1 := listmapFill list1 list2 0                                -- 356
      match s.x1.take m1.1 ax with                                       -- 357
      | .error e => .error e
      | .ok x1 => match fillMissing cast x1 s.d1 m1.2 ax with            -- 358-369
        | .error e => .error e
        | .ok r1 => .ok ({ s with x1 := r1.1, d1 := r1.2, v1 := false }, some list2)
  | .skip => .ok (s, none)                                               -- 371-372
  | .other => .error .valueError                                         -- 373-374

/-- Loop of `align_raw` (la/flarry.py:279-375) from axis `ax` on. -/
def alignRawLoop (cast : Bool) : List (Join × List L × List L) → Nat → AlignSt →
    Res (AlignSt × List (Option (List L)))
  | [], _, s => .ok (s, [])
  | (j, l1, l2) :: rest, ax, s => match alignRawAxis cast j l1 l2 ax s with
    | .error e => .error e
    | .ok (s, lab) => match alignRawLoop cast rest (ax + 1) s with
      | .error e => .error e
      | .ok (s, labs) => .ok (s, lab :: labs)

/-- `align_raw(lar1, lar2, join, cast)` (la/flarry.py:246-377). -/
def alignRaw (lar1 lar2 : Larry L) (join : JoinArg) (cast : Bool) :
    Res (AlignSt × List (Option (List L))) :=
  if lar1.ndim ≠ lar2.ndim then .error .valueError                       -- 246-249
  else
    let s : AlignSt := ⟨lar1.x, lar1.dtype, true, lar2.x, lar2.dtype, true⟩  -- 270-275
    match join with
    | .one j => alignRawLoop cast
        ((List.replicate lar2.ndim j).zip (lar1.label.zip lar2.label)) 0 s   -- 253-254
    | .many js =>
      if js.length ≠ lar2.ndim then .error .valueError                   -- 255-258
      else alignRawLoop cast (js.zip (lar1.label.zip lar2.label)) 0 s

/-- Lines la/flarry.py:109-114 and 120-125: labels of one output; a skipped axis keeps its own. -/
def pickLabel (own : List (List L)) (labs : List (Option (List L))) : List (List L) :=
  List.zipWith (fun o lab => Option.getD lab o) own labs

/-- `align(lar1, lar2, join, cast)` (la/flarry.py:105-130). -/
def align (lar1 lar2 : Larry L) (join : JoinArg := .one .inner) (cast : Bool := true) :
    Res (Larry L × Larry L) :=
  match alignRaw lar1 lar2 join cast with
  | .error e => .error e
  | .ok (s, labs) => .ok (⟨s.x1, s.d1, pickLabel lar1.label labs⟩, ⟨s.x2, s.d2, pickLabel lar2.label labs⟩)

/-- Loops la/flarry.py:506-510: note `axis[i]` (not `axis[i+1]`) for `lars[i+1]`. -/
def alignAxisFold (op : List L → List L → List L) : List (Larry L × Int) → List L → Res (List L)
  | [], acc => .ok acc
  | (lar, a) :: rest, acc => match pyGet lar.label a with
    | .error e => .error e
    | .ok l => alignAxisFold op rest (op acc l)

/-- Final loop of `align_axis` (la/flarry.py:516-518). -/
def alignAxisMorph (label : List L) (lars : List (Larry L × Int)) : Res (List (Larry L)) :=
  mapRes (fun p => p.1.morph label p.2) lars

/-- The common label list of `align_axis` (la/flarry.py:499-512). -/
def alignAxisLabel (lars : List (Larry L)) (axis : List Int) (join : Join) : Res (List L) :=
  match lars.head?, axis.head? with
  | some lar0, some a0 => match join with
    | .left => pyGet lar0.label a0                                       -- 499-500
    | .right => match lars.getLast?, axis.getLast? with                  -- 501-502
      | some lar, some a => pyGet lar.label a
      | _, _ => .error .indexError
    | .inner => match pyGet lar0.label a0 with                           -- 504-507, 511-512
      | .error e => .error e
      | .ok l => match alignAxisFold setInter ((lars.drop 1).zip axis) l.dedup with
        | .error e => .error e
        | .ok l => .ok (pySorted l)
    | _ => match pyGet lar0.label a0 with                                -- 504, 508-512
      | .error e => .error e
      | .ok l => match alignAxisFold setUnion ((lars.drop 1).zip axis) l.dedup with
        | .error e => .error e
        | .ok l => .ok (pySorted l)
  | _, _ => .error .indexError                                           -- `lars[0]` on an empty list

/-- `align_axis(lars, axis, join)` (la/flarry.py:487-520) with a list of axes, one per larry (the
integer form is `List.replicate`, line 488-489; a shorter list makes `axis[j]` raise IndexError). -/
def alignAxisN (lars : List (Larry L)) (axis : List Int) (join : Join) : Res (List (Larry L)) :=
  if axis.length < lars.length then .error .indexError                   -- 493
  else if (lars.zip axis).any (fun p => p.2 ≥ p.1.ndim || p.2 < -(p.1.ndim : Int)) then
    .error .valueError                                                   -- 490-494
  else if join = .skip ∨ join = .other then .error .valueError           -- 495-496
  else match alignAxisLabel lars axis join with                          -- 499-512
    | .error e => .error e
    | .ok label => alignAxisMorph label (lars.zip axis)                  -- 513-520

/-- `isaligned(lar1, lar2, axis)` (la/flarry.py:565-568). -/
def isaligned (lar1 lar2 : Larry L) : Option Int → Res Bool
  | none => .ok (decide (lar1.label = lar2.label))
  | some a => match pyGet lar1.label a with
    | .error e => .error e
    | .ok l1 => match pyGet lar2.label a with
      | .error e => .error e
      | .ok l2 => .ok (decide (l1 = l2))

/-- Loop of `union` / `intersection` (la/flarry.py:602-606, 643-648). -/
def labelFold (op : List L → List L → List L) (axis : Int) : List (Larry L) → List L → Res (List L)
  | [], acc => .ok acc
  | lar :: rest, acc => match pyGet lar.label axis with
    | .error e => .error e
    | .ok l => labelFold op axis rest (op acc l)

/-- `union(axis, *args)` (la/flarry.py:601-609) on larrys. -/
def union (axis : Int) (args : List (Larry L)) : Res (List L) :=
  match labelFold setUnion axis args [] with
  | .error e => .error e
  | .ok rc => .ok (pySorted rc)

/-- `intersection(axis, *args)` (la/flarry.py:642-651) on larrys; no argument at all raises IndexError
(`args[0]`). -/
def intersection (axis : Int) (args : List (Larry L)) : Res (List L) :=
  match args with
  | [] => .error .indexError
  | lar :: rest => match pyGet lar.label axis with
    | .error e => .error e
    | .ok l => match labelFold setInter axis rest l.dedup with
      | .error e => .error e
      | .ok rc => .ok (pySorted rc)

/-- Elementwise test of `ismissing` (la/missing.py:142-157): NaN / '' / None by dtype, False when the
dtype has no marker. -/
def isMissingVal (d : DType) (v : Val) : Bool :=
  match missingMarker d with
  | none => false
  | some (.flt .nan) => match v with
    | .flt .nan => true
    | _ => false
  | some m => decide (v = m)

/-- `np.putmask(x, mask, v)` with a scalar `v` (already converted to the dtype of `x`). -/
def putmask (x : NDArray Val) (mask : NDArray Bool) (v : Val) : NDArray Val :=
  ⟨x.shape, fun i => if mask.get i then v else x.get i⟩

/-- The two fill steps of `binaryop` (la/flarry.py:769-783) on aligned arrays.  `none` is 'ignore'.
`cast d v` is numpy's conversion of the fill value to dtype `d`.  The masks are computed before any
fill.  (`if mask.any()` guards at 774, 777, 781 only avoid a no-op.) -/
def fillMiss (cast : DType → Val → Val) (missone misstwo : Option Val) (s : AlignSt) : AlignSt :=
  let m1 := s.x1.map (isMissingVal s.d1)                                 -- 770
  let m2 := s.x2.map (isMissingVal s.d2)                                 -- 771
  let s := match missone with
    | none => s
    | some v => { s with
        x1 := putmask s.x1 (NDArray.zipWith (fun a b => a && !b) m1 m2) (cast s.d1 v)   -- 773-775
        x2 := putmask s.x2 (NDArray.zipWith (fun a b => a && !b) m2 m1) (cast s.d2 v) } -- 776-778
  match misstwo with
  | none => s
  | some v => { s with
      x1 := putmask s.x1 (NDArray.zipWith (fun a b => a && b) m1 m2) (cast s.d1 v)      -- 780-782
      x2 := putmask s.x2 (NDArray.zipWith (fun a b => a && b) m1 m2) (cast s.d2 v) }    -- 783

/-- `binaryop(func, lar1, lar2, join, cast, missone, misstwo)` (la/flarry.py:766-788) for an
elementwise `func`.  The result is array, dtype and the label list of line 788, in which a skipped
axis is Python `None`.  If the shapes differ after alignment (possible only with 'skip') the masks of
lines 773-783 raise ValueError; `npBinop` then raises it too unless the shapes broadcast, so the model
checks equality of shapes when a fill is requested. -/
def binaryop (cv : DType → Val → Val) (uf : UFunc2) (lar1 lar2 : Larry L) (join : JoinArg)
    (cast : Bool) (missone misstwo : Option Val) : Res (NDArray Val × DType × List (Option (List L))) :=
  match alignRaw lar1 lar2 join cast with                                -- 766
  | .error e => .error e
  | .ok (s, labs) =>
    if (missone.isSome || misstwo.isSome) && s.x1.shape != s.x2.shape then .error .valueError
    else
      let s := fillMiss cv missone misstwo s
      match npBinop uf s.x1 s.d1 s.x2 s.d2 with                          -- 786
      | .error e => .error e
      | .ok (x, d) => .ok (x, d, labs)                                   -- 788

/-! ## `larry.merge` -/

/-- The presence test of `merge` for one element, given the dtype of the *original* larry
(la/deflarry.py:3476-3489): not None for object, not '' for str, `np.isfinite` otherwise (always true
for bool and int). -/
def presentVal (d : DType) (v : Val) : Bool :=
  match d with
  | .object => decide (v ≠ .none)
  | .str => decide (v ≠ .str "")
  | _ => match v with
    | .flt f => f.isFinite
    | _ => true

/-- numpy safe casting between the modelled dtypes, used by `np.putmask(lar1.x, mask2, lar2.x)`. -/
def canCast (src dst : DType) : Bool :=
  match src, dst with
  | .bool, .int => true
  | .bool, .float => true
  | .int, .float => true
  | a, b => decide (a = b)

/-- The conversion itself. -/
def castSafe (src dst : DType) (v : Val) : Val :=
  match src, dst with
  | .bool, .int => match v with
    | .bool b => .int (if b then 1 else 0)
    | v => v
  | .bool, .float => v.toFloat
  | .int, .float => v.toFloat
  | _, _ => v

/-- Loop la/deflarry.py:3468-3473. -/
def mergeLoop : List Nat → Larry L → Larry L → Res (Larry L × Larry L)
  | [], y1, y2 => .ok (y1, y2)
  | ax :: rest, y1, y2 =>
    let l1 := y1.label.getD ax []
    let l2 := y2.label.getD ax []
    if l1 = l2 then mergeLoop rest y1 y2                                 -- 3469
    else
      let lab := pySorted (setUnion l1 l2)                               -- 3470-3471
      match y1.morph lab ax with                                         -- 3472
      | .error e => .error e
      | .ok y1 => match y2.morph lab ax with                             -- 3473
        | .error e => .error e
        | .ok y2 => mergeLoop rest y1 y2

/-- The `.any()` of an elementwise test over the whole array: some in-bounds element satisfies it. -/
def anyAt (shape : List Nat) (p : List Nat → Bool) : Bool :=
  match shape with
  | [] => p []
  | n :: ns => (List.range n).any (fun i => anyAt ns (fun is => p (i :: is)))

/-- `self.merge(other, update)` (la/deflarry.py:3463-3503).  A str larry merged with a non-str one
fails in numpy with an exception that depends on the numpy version; the model says TypeError.  The
mutation of `self` when no axis is morphed is in Heap.lean. -/
def merge (y other : Larry L) (update : Bool) : Res (Larry L) :=
  if y.ndim ≠ other.ndim then .error .indexError                         -- 3463-3465
  else match mergeLoop (List.range y.ndim) y other with                  -- 3466-3473
    | .error e => .error e
    | .ok (lar1, lar2) =>
      if (y.dtype = .object ∨ other.dtype = .object ∨ y.dtype = .str ∨ other.dtype = .str) ∧
          y.dtype ≠ other.dtype then .error .typeError                   -- 3492-3494
      else
        let mask1 : List Nat → Bool := fun i => presentVal y.dtype (lar1.x.get i)      -- 3476-3482
        let mask2 : List Nat → Bool := fun i => presentVal other.dtype (lar2.x.get i)  -- 3483-3489
        if !update && anyAt lar1.x.shape (fun i => mask1 i && mask2 i) then
          .error .valueError                                             -- 3497-3498
        else if anyAt lar1.x.shape mask2 then                            -- 3500
          if canCast lar2.dtype lar1.dtype then
            .ok { lar1 with x := ⟨lar1.x.shape, fun i =>
              if mask2 i then castSafe lar2.dtype lar1.dtype (lar2.x.get i) else lar1.x.get i⟩ } -- 3501
          else .error .typeError
        else .ok lar1

end order
end La
