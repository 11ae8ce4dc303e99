import Verif.Reduce
import Mathlib.Data.Rat.Floor

/-!
# Model of the functions that work along an axis

`cumsum`, `cumprod`, `clip`, `isnan` … (la/deflarry.py) and la/farray/normalize.py, la/farray/move.py
(`movingsum`).  Each farray function acts separately on every line along its axis; the model gives
the function on one line (a list) and applies it with `NDArray.mapLines`.  The axis shuffling the code
does for this (`rollaxis`, index lists full of `slice(None)`, `newaxis`) is not modelled.  Arithmetic is
exact on rationals.
-/

namespace La

/-- The axis check of numpy 1.6/1.7 and Bottleneck: ValueError when out of range. -/
def npAxis (ndim : Nat) (axis : Int) : Res Nat :=
  match pyIdx ndim axis with
  | none => .error .valueError
  | some ax => .ok ax

/-- The position of a multi-index when the last axis varies fastest. -/
def ravelC : List Nat → List Nat → Nat
  | _ :: ns, i :: is => i * ns.prod + ravelC ns is
  | _, _ => 0

/-- bool, int and float. -/
def DType.isNumeric : DType → Bool
  | .str => false
  | .object => false
  | _ => true

/-- Running results of a binary operation: `np.cumsum`, `np.cumprod`. -/
def cumGo {α : Type _} (op : α → α → α) : α → List α → List α
  | _, [] => []
  | acc, v :: vs => op acc v :: cumGo op (op acc v) vs

/-- One step of `cumsum` in an array of dtype `d` (ints do not overflow here). -/
def addVal (d : DType) (a b : Val) : Val :=
  match d with
  | .float => .flt (a.num.add b.num)
  | _ => .int (Larry.intOf a + Larry.intOf b)

/-- One step of `cumprod`. -/
def mulVal (d : DType) (a b : Val) : Val :=
  match d with
  | .float => .flt (a.num.mul b.num)
  | _ => .int (Larry.intOf a * Larry.intOf b)

/-- The start value of a sum or product. -/
def ofInt (d : DType) (n : Int) : Val :=
  match d with
  | .float => .flt (.fin n)
  | _ => .int n

/-- `np.putmask(x, idx, v)` with `idx = np.isnan(x)`: only float arrays hold NaN. -/
def replaceNan (v w : Val) : Val := if w.isNan then v else w

namespace Larry
variable {L : Type _}

/-- `larry.cumsum` (la/deflarry.py:348-356) and `larry.cumprod` (414-422), with the operation and the
value that stands in for NaN. -/
def cumulate (op : DType → Val → Val → Val) (unit : Int) (y : Larry L) (axis : Option Int) : Res (Larry L) :=
  match axis with
  | none => .error .valueError                                          -- 348-349
  | some axis =>
    if y.dtype.isNumeric = false then .error .typeError                 -- 351: np.isnan
    else match npAxis y.ndim axis with
    | .error e => .error e
    | .ok ax =>
      let x := y.x.map (replaceNan (ofInt y.dtype unit))                -- 351-352
      let d := if y.dtype = .bool then .int else y.dtype
      let x := x.mapLines (cumGo (op y.dtype) (ofInt y.dtype unit)) .none ax  -- 353
      .ok ⟨⟨x.shape, fun i => if (y.x.get i).isNan then .flt .nan else x.get i⟩, d, y.label⟩  -- 354-356

/-- `larry.cumsum(axis)` (la/deflarry.py:348-356). -/
def cumsum (y : Larry L) (axis : Option Int) : Res (Larry L) := y.cumulate addVal 0 axis

/-- `larry.cumprod(axis)` (la/deflarry.py:414-422). -/
def cumprod (y : Larry L) (axis : Option Int) : Res (Larry L) := y.cumulate mulVal 1 axis

/-- Numpy's `clip` on one float element with bounds that are numbers. -/
def clip1 (lo hi v : Flt) : Flt := if v.lt lo then lo else if hi.lt v then hi else v

/-- Numpy's forced conversion of a float to int64: what comes after the point is dropped; NaN and the infinities become
the smallest int64 (x86-64). -/
def _root_.La.Flt.truncInt : Flt → Int
  | .fin a => if 0 ≤ a then ⌊a⌋ else ⌈a⌉
  | _ => -9223372036854775808

/-- A float written into an array of dtype `d`: numpy's `clip` computes with the wider of the dtypes of array and bounds, and
writes the result into the array it was given. -/
def storeAs (d : DType) (f : Flt) : Val :=
  match d with
  | .bool => .bool (decide (f ≠ .fin 0))
  | .int => .int f.truncInt
  | _ => .flt f

/-- `larry.clip(lo, hi)` (la/deflarry.py:458-462) of a bool, int or float larry; strings and objects are not modelled (TypeError). -/
def clip (y : Larry L) (lo hi : Flt) : Res (Larry L) :=
  if hi.lt lo then .error .valueError                                   -- 458-459
  else if y.dtype.isNumeric = false then .error .typeError
  else .ok { y with x := y.x.map (fun v => storeAs y.dtype (clip1 lo hi v.num)) }   -- 460-462

end Larry

/-! ## la/farray/normalize.py -/

/-- The loop of `push` (la/farray/normalize.py:211-218) on one line: `i` the position, `recent` the
value to fill with, `count` the position of the last finite value (NaN: none yet). -/
def pushGo (n : Int) (i : Nat) (recent : Val) (count : Option Nat) : List Val → List Val
  | [] => []
  | v :: vs =>
    let recent := if pushStale n i count then .flt .nan else recent     -- 212-213
    if v.isFin then v :: pushGo n (i + 1) v (some i) vs                 -- 216-218
    else recent :: pushGo n (i + 1) recent count vs                     -- 214-215
where
  /-- `(i - count) > n`; False while count is NaN. -/
  pushStale (n : Int) (i : Nat) : Option Nat → Bool
    | none => false
    | some c => decide ((i : Int) - c > n)

/-- `push(x, n, axis)` (la/farray/normalize.py:201-223) on one line. -/
def pushLine (n : Int) (vs : List Val) : List Val := pushGo n 0 (.flt .nan) none vs

/-- `lastrank(x, axis, decay=0)` (la/farray/normalize.py:91-124) on one line. -/
def lastrankLine (vs : List Val) : Val :=
  let xs := vs.map Val.num
  let last := xs.getLast?.getD .nan
  let g : ℚ := (xs.filter (fun x => x.lt last)).length                  -- 113
  let e : ℚ := (xs.filter (fun x => last.eq x)).length                  -- 114
  let n : ℚ := (xs.filter Flt.isFinite).length                          -- 115
  let r : Flt := .fin ((g + g + e - 1) / 2)                             -- 116
  let r := r.div (.fin (n - 1))                                         -- 117
  let r := Flt.mul (.fin 2) (r.sub (.fin (1 / 2)))                      -- 118
  if last.isFinite then .flt r else .flt .nan                           -- 119-123

/-- `(b * w).sum()` for a boolean list `b`. -/
def wsum (p : Flt → Bool) (xs : List Flt) (w : List ℚ) : ℚ :=
  (List.zipWith (fun x w => if p x then w else 0) xs w).sum

/-- `lastrank(x, axis, decay)` for `decay > 0` (la/farray/normalize.py:95-108, 118-123) on one line;
`w` are the weights of lines 97-100, one for each element. -/
def lastrankDecayLine (w : List ℚ) (vs : List Val) : Val :=
  let xs := vs.map Val.num
  let last := xs.getLast?.getD .nan
  let wl : ℚ := w.getLast?.getD 0                                       -- w.flat[-1]
  let g := wsum (fun x => x.lt last) xs w                               -- 104
  let e := wsum (fun x => last.eq x) xs w                               -- 105
  let n := wsum Flt.isFinite xs w                                       -- 106
  let r : Flt := .fin ((g + g + e - wl) / 2)                            -- 107
  let r := r.div (.fin (n - wl))                                        -- 108
  let r := Flt.mul (.fin 2) (r.sub (.fin (1 / 2)))                      -- 118
  if last.isFinite then .flt r else .flt .nan                           -- 119-123

/-- `bn.nanrankdata` on one line: the rank, from one, among the values that are not NaN; ties get the
mean of their ranks.  (An external function, given here by its documented result.) -/
def nanrank (xs : List Flt) (x : Flt) : Flt :=
  if x.isNan then .nan
  else .fin ((xs.filter (fun y => y.lt x)).length + (((xs.filter (fun y => y.eq x)).length + 1 : ℚ)) / 2)

/-- The values of `norm` in `ranking`; `gaussian` comes with SciPy's `ndtri`. -/
inductive RankNorm
  | pm1 | n1 | gaussian (ndtri : Flt → Flt) | unknown

/-- `middle` (la/farray/normalize.py:180, 183, 194). -/
def RankNorm.middle (n : Nat) : RankNorm → Flt
  | .n1 => .fin (((n : ℚ) + 1) / 2 - 1)
  | _ => .fin 0

/-- What `ranking` makes of a rank (la/farray/normalize.py:175-197): `n` elements, `c` of them not NaN. -/
def RankNorm.scale (n c : Nat) (r : Flt) : RankNorm → Flt
  | .pm1 => ((r.sub (.fin 1)).div (.fin ((c : ℚ) - 1))).mul (.fin 2) |>.sub (.fin 1)
  | .n1 => (r.sub (.fin 1)).mul (Flt.div (.fin ((n : ℚ) - 1)) (.fin ((c : ℚ) - 1)))
  | .gaussian ndtri => ndtri ((((r.sub (.fin 1)).mul (Flt.div (.fin ((n : ℚ) - 1)) (.fin ((c : ℚ) - 1)))).add
      (.fin 1)).div (.fin ((n : ℚ) + 1)))
  | .unknown => .nan

/-- `ranking(x, axis, norm)` (la/farray/normalize.py:171-199) on one line. -/
def rankingLine (norm : RankNorm) (vs : List Val) : List Val :=
  let xs := vs.map Val.num
  let c := (xs.filter (fun x => !x.isNan)).length                       -- 172-173
  xs.map (fun x => .flt (if c = 1 ∧ x.isNan = false then norm.middle xs.length  -- 198
    else norm.scale xs.length c (nanrank xs x)))

/-- The rational behind a finite number. -/
def Flt.rat : Flt → ℚ
  | .fin q => q
  | _ => 0

/-- `kdx` (la/farray/normalize.py:233-236): the bin edges. -/
def quantEdges (nx q : Nat) : List ℚ :=
  -1 :: (cumGo (· + ·) 0 (List.replicate q (((nx : ℚ) - 1) / q))).set (q - 1) nx

/-- The loop of lines 237-238 for the element of rank `r`: the last bin `j` whose edges enclose it. -/
def quantBin (edges : List ℚ) (q : Nat) (r : ℚ) : Flt :=
  (List.range' 1 q).foldl (fun m j => if edges.getD (j - 1) 0 < r ∧ r ≤ edges.getD j 0 then .fin j else m) .nan

/-- `y[idx] = mdx` where `idx` are the positions of the finite elements: the results are handed out
in order. -/
def scatter : List Flt → List Flt → List Flt
  | [], _ => []
  | x :: xs, ms => if x.isFinite then ms.headD .nan :: scatter xs ms.tail else .nan :: scatter xs ms

/-- `_quantileraw1d(xi, q)` (la/farray/normalize.py:225-240).  `argsort` is numpy's. -/
def quantileRaw (argsort : List ℚ → List Nat) (q : Nat) (xs : List Flt) : List Flt :=
  let fs := (xs.filter Flt.isFinite).map Flt.rat                        -- 227-228
  let jdx := argsort ((argsort fs).map (fun i : Nat => (i : ℚ)))        -- 231
  scatter xs (jdx.map (fun j : Nat => quantBin (quantEdges fs.length q) q (j : ℚ))) -- 237-239

/-- `quantile(x, q, axis)` for `q > 1` on one line (la/farray/normalize.py:289-292). -/
def quantileLine (argsort : List ℚ → List Nat) (q : Nat) (vs : List Val) : List Val :=
  (quantileRaw argsort q (vs.map Val.num)).map (fun y =>
    .flt (Flt.mul (.fin 2) (((y.sub (.fin 1)).div (.fin ((q : ℚ) - 1))).sub (.fin (1 / 2)))))

/-- `bn.nanmean` on one line. -/
def nanmean (xs : List Flt) : Flt :=
  let ok := xs.filter (fun x => !x.isNan)
  (Flt.sum ok).div (.fin ok.length)

/-- `demean(arr, axis)` and `demedian` (la/farray/normalize.py:319-324, 350-355) on one line: `center` is
`bn.nanmean` or `bn.nanmedian`. -/
def demeanLine (center : List Flt → Flt) (vs : List Val) : List Val :=
  vs.map (fun v => .flt (v.num.sub (center (vs.map Val.num))))

/-- `zscore(arr, axis)` (la/farray/normalize.py:381-388) on one line; `std` is `bn.nanstd`. -/
def zscoreLine (std : List Flt → Flt) (vs : List Val) : List Val :=
  let arr := demeanLine nanmean vs
  arr.map (fun v => .flt (v.num.div (std (arr.map Val.num))))

/-! ## la/farray/move.py: movingsum -/

/-- `csx[window-1 : -skip or None]` with `csx[:-window-skip]` taken off all but the first element
(la/farray/move.py:307-317). -/
def windowDiff {α : Type _} (sub : α → α → α) (window skip : Nat) (cs : List α) : List α :=
  let ms := (cs.take (cs.length - skip)).drop (window - 1)              -- index1
  ms.take 1 ++ List.zipWith sub (ms.drop 1) (cs.take (cs.length - (window + skip)))  -- index3, index2

/-- `movingsum(arr, window, skip, axis, norm)` (la/farray/move.py:295-330) on one line of an array of
dtype `d`, for `skip >= 0`. -/
def movingsumLine (d : DType) (window skip : Nat) (norm : Bool) (vs : List Val) : List Val :=
  let m := vs.map (fun v => decide (d = .float) && v.isNan)             -- 295
  let arr := List.zipWith (fun v (t : Bool) => if t then Flt.fin 0 else v.num) vs m  -- 296-297
  let csx := cumGo Flt.add (.fin 0) arr                                 -- 300
  let csm := cumGo (· + ·) (0 : ℚ) (m.map (fun t => if t then 0 else 1)) -- 315
  let msx := windowDiff Flt.sub window skip csx                         -- 313-314
  let msm := windowDiff (· - ·) window skip csm                         -- 316-317
  let ms := List.zipWith (fun x c => if norm then ((Flt.fin window).mul x).div (.fin c)  -- 321
    else if c = 0 then .nan else x) msx msm                             -- 323-324
  (List.replicate (min vs.length (skip + window - 1)) (.flt .nan)) ++ ms.map Val.flt  -- 327-328

/-- `movingsum_forward` (la/farray/move.py:334-337) on one line. -/
def movingsumForwardLine (d : DType) (window skip : Nat) (norm : Bool) (vs : List Val) : List Val :=
  (movingsumLine d window skip norm vs.reverse).reverse

namespace Larry
variable {L : Type _}

/-- A larry method that applies a function along one axis and keeps the labels; `d` is the dtype of the
result. -/
def along (f : List Val → List Val) (d : DType) (y : Larry L) (ax : Nat) : Larry L :=
  ⟨y.x.mapLines f .none ax, d, y.label⟩

/-- The same with the elements of the whole array as one line: `f(x.reshape(-1)).reshape(x.shape)`. -/
def alongAll (f : List Val → List Val) (d : DType) (y : Larry L) : Larry L :=
  ⟨⟨y.x.shape, fun idx => (f y.x.vals).getD (ravelC y.x.shape idx) .none⟩, d, y.label⟩

/-- `larry.push(window, axis)` (la/deflarry.py:3996-3998). -/
def push (y : Larry L) (window : Int) (axis : Int := -1) : Res (Larry L) :=
  match npAxis y.ndim axis with                                         -- normalize.py:204
  | .error e => .error e
  | .ok ax => if y.dtype.isNumeric = false then .error .typeError       -- normalize.py:208
    else .ok (y.along (pushLine window) y.dtype ax)

/-- `larry.lastrank(axis)` (la/deflarry.py:1657) with decay 0: the reduction handed to `__reduce`. -/
def lastrankRed : Red :=
  ⟨lastrankLine, fun d => if d.isNumeric then .ok .float else .error .typeError, .flt .nan, false⟩

/-- The same with `decay > 0`, given the weights as a function of the length of a line. -/
def lastrankDecayRed (w : Nat → List ℚ) : Red :=
  ⟨fun vs => lastrankDecayLine (w vs.length) vs,
    fun d => if d.isNumeric then .ok .float else .error .typeError, .flt .nan, false⟩

/-- `larry.ranking(axis, norm)` (la/deflarry.py:3194-3195; la/farray/normalize.py:164-199). -/
def ranking (y : Larry L) (axis : Option Int) (norm : RankNorm) : Res (Larry L) :=
  if y.dtype.isNumeric = false then .error .typeError                   -- 171
  else match norm with
    | .unknown => .error .valueError                                    -- 196-197
    | norm => match axis with
      | none => .ok (y.alongAll (rankingLine norm) .float)              -- 164-166
      | some axis => match pyIdx y.ndim axis with
        | none => .error (if axis < 0 then .indexError else .valueError)  -- 170, 172
        | some ax => .ok (y.along (rankingLine norm) .float ax)

/-- `larry.quantile(q, axis)` (la/deflarry.py:3233-3235; la/farray/normalize.py:272-293). -/
def quantile (argsort : List ℚ → List Nat) (y : Larry L) (q : Int) (axis : Option Int) : Res (Larry L) :=
  if q < 1 then .error .valueError                                      -- 272-273
  else if y.dtype.isNumeric = false then .error .typeError
  else if q = 1 then
    .ok ⟨y.x.map (fun v => if v.isNan then .flt .nan else .flt (.fin 0)), .float, y.label⟩  -- 274-277
  else match axis with
    | none =>
      if q > y.size then .error .valueError                             -- 279-282
      else .ok (y.alongAll (quantileLine argsort q.toNat) .float)       -- 283-284
    | some axis => match pyIdx y.ndim axis with
      | none => .error .indexError                                      -- 286
      | some ax =>
        if q > y.shape.getD ax 0 then .error .valueError                -- 286-288
        else .ok (y.along (quantileLine argsort q.toNat) .float ax)     -- 289

/-- `larry.demean(axis)`, `larry.demedian(axis)` (la/deflarry.py:3096, 3126). -/
def demean (center : List Flt → Flt) (y : Larry L) (axis : Option Int) : Res (Larry L) :=
  if y.dtype.isNumeric = false then .error .typeError
  else match axis with
    | none => .ok (y.alongAll (demeanLine center) .float)
    | some axis => match npAxis y.ndim axis with
      | .error e => .error e
      | .ok ax => .ok (y.along (demeanLine center) .float ax)

/-- `larry.zscore(axis)` (la/deflarry.py:3155). -/
def zscore (std : List Flt → Flt) (y : Larry L) (axis : Option Int) : Res (Larry L) :=
  if y.dtype.isNumeric = false then .error .typeError
  else match axis with
    | none => .ok (y.alongAll (zscoreLine std) .float)
    | some axis => match npAxis y.ndim axis with
      | .error e => .error e
      | .ok ax => .ok (y.along (zscoreLine std) .float ax)

/-- `larry.movingsum_forward(window, skip, axis, norm)` (la/deflarry.py:3062-3064;
la/farray/move.py:287-292, 334-337). -/
def movingsumForward (y : Larry L) (window : Int) (skip : Nat) (axis : Int) (norm : Bool) : Res (Larry L) :=
  match pyIdx y.ndim axis with
  | none => .error .indexError                                          -- flip_index[axis]
  | some ax =>
    if window < 1 then .error .valueError                               -- 287-288
    else if window > y.shape.getD ax 0 then .error .valueError          -- 289-290
    else if skip > y.shape.getD ax 0 then .error .indexError            -- 291-292
    else if y.dtype.isNumeric = false then .error .valueError           -- 296
    else .ok (y.along (movingsumForwardLine y.dtype window.toNat skip norm) .float ax)

end Larry
end La
