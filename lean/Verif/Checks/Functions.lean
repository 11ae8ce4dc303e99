import Verif.Checks.Seen

/-!
# Values expected by la/tests/flarry_test.py, empty_larry_test.py and all_nan_test.py

Reductions of empty and of missing data, alignment, creation, `la.add` and its kin, `sortby`, `cov`.
-/

namespace La.Checks.Functions
open La.Checks

-- reductions of empty data
def shapes : List (List Nat) := [[0],[0,1],[0,2],[2,0],[1,2,0],[1,0,2],[0,1,2],[2,3,4,0],[0,2,3,4],[1,0,0,2],[0,0,1],[0,0]]
def zerosOf (s : List Nat) : Larry Nat := ⟨⟨s, fun _ => 0⟩, .float, s.map nat⟩
def axes (s : List Nat) : List (Option Int) := none :: (List.range s.length).map (fun i => some (Int.ofNat i))
def want (v : Val) (d : DType) (s : List Nat) : Option Int → Seen Nat
  | none => .scalar v
  | some a => let s' := s.eraseIdx a.toNat
    if s'.isEmpty then .scalar v else ofL ⟨⟨s', fun _ => v⟩, d, s'.map nat⟩
def agree (f : Larry Nat → Option Int → Res (Out Nat)) (v : Val) (d : DType) : Bool :=
  shapes.all fun s => (axes s).all fun a => seeOut (f (zerosOf s) a) = want v d s a
example : agree (fun y a => y.sum a) nn .float = true := by decide +kernel
example : agree (fun y a => y.prod a) nn .float = true := by decide +kernel
example : agree (fun y a => y.mean a) nn .float = true := by decide +kernel
example : agree (fun y a => y.median a) nn .float = true := by decide +kernel
example : agree (fun y a => y.max a) nn .float = true := by decide +kernel
example : agree (fun y a => y.min a) nn .float = true := by decide +kernel
example : agree (fun y a => y.std id a 0) nn .float = true := by decide +kernel
example : agree (fun y a => y.var a 0) nn .float = true := by decide +kernel
example : agree (fun y a => y.any a) (.bool false) .bool = true := by decide +kernel
example : agree (fun y a => y.all a) (.bool true) .bool = true := by decide +kernel
example : agree (fun y a => y.reduce Larry.lastrankRed a) nn .float = true := by decide +kernel
example : agree (fun y a => y.reduce (Larry.lastrankDecayRed (fun n => List.replicate n 1)) a) nn .float = true := by decide +kernel
example : seeOut ((I []).sum (some 0)) = .scalar nn := by decide +kernel
-- empty
def E := V []
example : see (E.elem .abs) = ofL E := by decide +kernel
example : see (E.clip (.fin (-1)) (.fin 1)) = ofL E := by decide +kernel
example : see (E.cumsum (some 0)) = ofL E := by decide +kernel
example : see (E.cumprod (some 0)) = ofL E := by decide +kernel
example : see (E.cutMissing 0 none) = ofL E := by decide +kernel
example : see (E.demean nanmean none) = ofL E := by decide +kernel
example : see (E.zscore (fun _ => .fin 0) none) = ofL E := by decide +kernel
example : see (E.flatten) = .larry [0] [] .float [[]] := by decide +kernel
example : see (E.flipaxis) = ofL E := by decide +kernel
example : see (E.lag 0) = ofL E := by decide +kernel
example : see (E.keepLabel (.eq 99) (some 0)) = ofL E := by decide +kernel
example : see (E.maplabel id (some 0)) = ofL E := by decide +kernel
example : see (merge E E false) = ofL E := by decide +kernel
example : see (E.morph [] 0) = ofL E := by decide +kernel
example : see (E.morphLike E) = ofL E := by decide +kernel
example : see (E.ranking (some 0) .pm1) = ofL E := by decide +kernel
example : see (E.sortaxis) = ofL E := by decide +kernel
example : see (E.vacuum none) = ofL E := by decide +kernel
example : see (.ok E.squeeze) = ofL E := by decide +kernel
example : see (E.swapaxes 0 0) = ofL E := by decide +kernel
example : E.tolist = .ok ([],[]) := by decide +kernel
example : E.totuples = .ok [] := by decide +kernel
example : see (Larry.fromtuples ([] : List (List Nat × Val))) = ofL E := by decide +kernel
example : see (Larry.fromlist (([], []) : List Val × List (List Nat))) = ofL E := by decide +kernel
example : see ((⟨NDArray.ofList [0] [], .float, [[]]⟩ : Larry (List Nat)).unflatten) = ofL E := by decide +kernel
example : see (BinOp.larrys false (.logic .and) E E) = .larry [0] [] .bool [[]] := by decide +kernel
-- all nan
def N := V [nn,nn,nn]
example : seeOut (N.sum none) = .scalar nn := by decide +kernel
example : seeOut (N.prod none) = .scalar nn := by decide +kernel
example : seeOut (N.mean none) = .scalar nn := by decide +kernel
example : seeOut (N.median none) = .scalar nn := by decide +kernel
example : seeOut (N.std id none 0) = .scalar nn := by decide +kernel
example : seeOut (N.var none 0) = .scalar nn := by decide +kernel
example : seeOut (N.min none) = .scalar nn := by decide +kernel
example : seeOut (N.max none) = .scalar nn := by decide +kernel
example : see (N.demean nanmean none) = ofL N := by decide +kernel
example : see (N.demean medianOf none) = ofL N := by decide +kernel
example : see (N.zscore (fun _ => .nan) none) = ofL N := by decide +kernel
example : see (N.cumsum (some 0)) = ofL N := by decide +kernel
example : see (N.cumprod (some 0)) = ofL N := by decide +kernel
example : see (N.ranking (some 0) .pm1) = ofL N := by decide +kernel
example : seeOut (N.reduce Larry.lastrankRed (some 0)) = .scalar nn := by decide +kernel
example : see (N.moveSum 1) = ofL N := by decide +kernel
example : see (N.movingsumForward 1 0 (-1) false) = ofL N := by decide +kernel
def ids (l : List ℚ) : List Nat := List.range l.length
example : see (Larry.quantile ids N 2 (some 0)) = ofL N := by decide +kernel
-- align
def seePair : Res (Larry Nat × Larry Nat) → Seen Nat × Seen Nat
  | .error e => (.error e, .error e)
  | .ok p => (ofL p.1, ofL p.2)
def al1 := I [1,2]
def al2 := I [1,2,3]
def al3 := IL [1,2] [97,98]
def v12n := ofL (V [1,2,nn])
def bad (e : PyErr) : Seen Nat × Seen Nat := (.error e, .error e)
example : seePair (align al1 al2 (.one .inner) false) = (ofL al1, ofL al1) := by decide +kernel
example : seePair (align al1 al2 (.one .outer) false) = bad .typeError := by decide +kernel
example : seePair (align al1 al2 (.one .left)) = (ofL al1, ofL al1) := by decide +kernel
example : seePair (align al1 al2 (.one .right)) = (v12n, ofL al2) := by decide +kernel
example : seePair (align al1 al2 (.many [.right])) = (v12n, ofL al2) := by decide +kernel
example : seePair (align al1 al3) = (.larry [0] [] .int [[]], .larry [0] [] .int [[]]) := by decide +kernel
example : seePair (align al1 (IL [1,2] [3,4]) (.one .outer)) = (.larry [4] [1,2,nn,nn] .float [[0,1,3,4]], .larry [4] [nn,nn,1,2] .float [[0,1,3,4]]) := by decide +kernel
example : seePair (align al1 al3 (.one .left)) = (ofL al1, ofL (V [nn,nn])) := by decide +kernel
example : seePair (align al1 al3 (.one .right)) = (.larry [2] [nn,nn] .float [[97,98]], ofL al3) := by decide +kernel
example : seePair (align al1 al1 (.one .inner) false) = (ofL al1, ofL al1) := by decide +kernel
example : seePair (align al1 al2 (.one .skip)) = (ofL al1, ofL al2) := by decide +kernel
def bl1 : Larry Nat := ⟨NDArray.ofList [2] [.bool true, .bool false], .bool, [nat 2]⟩
def bl2 : Larry Nat := ⟨NDArray.ofList [3] [.bool true, .bool false, .bool true], .bool, [nat 3]⟩
example : seePair (align bl1 bl2 (.one .outer)) = (ofL (V [1,0,nn]), ofL bl2) := by decide +kernel
def p1 := I2 [[1,2],[3,4]]
def p2 := I2 [[1,2,5],[3,4,6]]
example : seePair (align p1 p2) = (ofL p1, ofL p1) := by decide +kernel
example : seePair (align p1 p2 (.one .outer)) = (ofL (F [[1,2,nn],[3,4,nn]]), ofL p2) := by decide +kernel
example : seePair (align p1 p2 (.one .outer) false) = bad .typeError := by decide +kernel
example : seePair (align p1 p2 (.many [.inner,.outer])) = (ofL (F [[1,2,nn],[3,4,nn]]), ofL p2) := by decide +kernel
example : seePair (align p1 p2 (.many [.outer,.inner,.left]) false) = bad .valueError := by decide +kernel
example : seePair (align p1 p2 (.one .skip)) = (ofL p1, ofL p2) := by decide +kernel
example : seePair (align (I2 [[1,2],[3,4],[7,8]]) p2 (.many [.inner,.skip])) = (ofL p1, ofL p2) := by decide +kernel
example : seePair (align (F [[1,2],[3,4],[7,8]]) (F [[1,2,5],[3,4,6]]) (.many [.skip,.outer])) = (ofL (F [[1,2,nn],[3,4,nn],[7,8,nn]]), ofL (F [[1,2,5],[3,4,6]])) := by decide +kernel
-- align_axis
def alignAxis1 (l : List (Larry Nat)) (a : Int) (j : Join) := alignAxisN l (List.replicate l.length a) j
def seeAll : Res (List (Larry Nat)) → List (Seen Nat)
  | .error e => [.error e]
  | .ok l => l.map ofL
def q1 : Larry Nat := FL [[1,2],[3,4],[5,6]] [10,20,30] [1,2]
def q2 : Larry Nat := ⟨NDArray.ofList [3,1] [.str "x", .str "y", .str "z"], .str, [[10,20,35],[1]]⟩
def q3 : Larry Nat := IL [50,51,52] [15,20,30]
example : seeAll (alignAxis1 [q1,q2,q3] 0 .inner) = [ofL (FL [[3,4]] [20] [1,2]), .larry [1,1] [.str "y"] .str [[20],[1]], ofL (IL [51] [20])] := by decide +kernel
example : seeAll (alignAxis1 [q1,q2,q3] 0 .outer) = [ofL (FL [[1,2],[nn,nn],[3,4],[5,6],[nn,nn]] [10,15,20,30,35] [1,2]), .larry [5,1] [.str "x",.str "",.str "y",.str "",.str "z"] .str [[10,15,20,30,35],[1]], .larry [5] [nn,50,51,52,nn] .float [[10,15,20,30,35]]] := by decide +kernel
def left3 : List (Seen Nat) := [.larry [3,1] [.str "x",.str "y",.str ""] .str [[10,20,30],[1]], .larry [3] [nn,51,52] .float [[10,20,30]]]
example : seeAll (alignAxis1 [q1,q2,q3] 0 .left) = ofL q1 :: left3 := by decide +kernel
example : seeAll (alignAxis1 [q3,q2,q1] 0 .right) = (ofL q1 :: left3).reverse := by decide +kernel
example : seeAll (alignAxisN [q1.T,q2,q3] [1,0,0] .left) = ofL q1.T :: left3 := by decide +kernel
-- create
example : see (lrange id (some [5]) none 0 1 none) = ofL (I [0,1,2,3,4]) := by decide +kernel
example : see (lrange id (some [2,2]) none 0 1 (some .float)) = ofL (F [[0,1],[2,3]]) := by decide +kernel
-- binaryop
def cvt (d : DType) (v : Val) : Val := if d = .float then v.toFloat else v
def bin (a b : Larry Nat) (j : Join) (m n : Option Val) := see (FArith.add.call cvt false a b (.one j) true m n)
def z0 : Option Val := some (.int 0)
def v24n := ofL (V [2,4,nn])
def v243 := ofL (V [2,4,3])
def i24 := ofL (I [2,4])
example : bin al1 al2 .inner none none = i24 := by decide +kernel
example : bin al1 al2 .inner z0 none = i24 := by decide +kernel
example : bin al1 al2 .inner z0 z0 = i24 := by decide +kernel
example : bin al1 al2 .inner none z0 = i24 := by decide +kernel
example : bin al1 al2 .outer none none = v24n := by decide +kernel
example : bin al1 al2 .outer z0 none = v243 := by decide +kernel
example : bin al1 al2 .outer z0 z0 = v243 := by decide +kernel
example : bin al1 al2 .outer none z0 = v24n := by decide +kernel
example : bin al1 al2 .left none none = i24 := by decide +kernel
example : bin al1 al2 .left z0 z0 = i24 := by decide +kernel
example : bin al1 al2 .right none none = v24n := by decide +kernel
example : bin al1 al2 .right z0 none = v243 := by decide +kernel
example : bin al1 al2 .right z0 z0 = v243 := by decide +kernel
example : bin al1 al2 .right none z0 = v24n := by decide +kernel
def s1 := V [1,nn,nn,1]
def s2 : Larry Nat := ⟨NDArray.ofList [4] [1,1,nn,1], .float, [[0,1,2,9]]⟩
def five (l : List Val) : Seen Nat := .larry [5] l .float [[0,1,2,3,9]]
example : bin s1 s2 .inner none none = ofL (V [2,nn,nn]) := by decide +kernel
example : bin s1 s2 .outer none none = five [2,nn,nn,nn,nn] := by decide +kernel
example : bin s1 s2 .outer z0 none = five [2,1,nn,1,1] := by decide +kernel
example : bin s1 s2 .outer z0 z0 = five [2,1,0,1,1] := by decide +kernel
def w1 : Larry Nat := ⟨NDArray.ofList [3] [1,2,nn], .float, [[97,98,99]]⟩
def w2 : Larry Nat := ⟨NDArray.ofList [3] [1,nn,nn], .float, [[97,98,100]]⟩
example : see (FArith.multiply.call cvt false w1 w2 (.one .outer) true (some (.int 1)) (some (.int 2))) = .larry [4] [1,2,4,4] .float [[97,98,99,100]] := by decide +kernel
example : see (FArith.divide.call cvt false w1 w2 (.one .outer) true (some (.int 1)) (some (.int 2))) = .larry [4] [1,2,1,1] .float [[97,98,99,100]] := by decide +kernel
-- sortby
def argInt (l : List Val) : List Nat := (List.range l.length).insertionSort (fun a b => (Larry.intOf (l.getD a .none) < Larry.intOf (l.getD b .none) ∨ (Larry.intOf (l.getD a .none) = Larry.intOf (l.getD b .none) ∧ a ≤ b)))
def sb := I2L [[1,2,3],[3,1,2]] [97,98] [99,100,101]
example : seeGet (sortby argInt sb 101 1 false) = ofL (I2L [[3,1,2],[1,2,3]] [98,97] [99,100,101]) := by decide +kernel
example : seeGet (sortby argInt sb 98 (-2) false) = ofL (I2L [[2,3,1],[1,2,3]] [97,98] [100,101,99]) := by decide +kernel
example : seeGet (sortby argInt sb 101 (-1) false) = ofL (I2L [[3,1,2],[1,2,3]] [98,97] [99,100,101]) := by decide +kernel
example : seeGet (sortby argInt sb 98 0 true) = ofL (I2L [[1,3,2],[3,2,1]] [97,98] [99,101,100]) := by decide +kernel
example : seeGet (sortby argInt sb 101 1 true) = ofL sb := by decide +kernel
example : seeGet (sortby argInt (F [[]]) 0 0 false) = ofL (F [[]]) := by decide +kernel
example : seeGet (sortby argInt sb 98 2 false) = .error .valueError := by decide +kernel
example : seeGet (sortby argInt sb 98 (-3) false) = .error .valueError := by decide +kernel
example : seeGet (sortby argInt (IL [1,2,3] [99,100,101]) 100 0 false) = .error .valueError := by decide +kernel
def e02 : Larry Nat := ⟨⟨[0,2], fun _ => 0⟩, .float, [[],[0,1]]⟩
example : seeGet (sortby argInt e02 0 0 false) = .error .indexError := by decide +kernel
example : seeGet (sortby argInt e02 0 1 false) = ofL e02 := by decide +kernel
-- cov
example : see (match (F [[2,2,3,1],[3,2,2,1],[1,1,1,1]]).demean nanmean (some 1) with | .error e => .error e | .ok y => cov y) = ofL (F [[fl (1/2),fl (1/4),0],[fl (1/4),fl (1/2),0],[0,0,0]]) := by decide +kernel

end La.Checks.Functions
