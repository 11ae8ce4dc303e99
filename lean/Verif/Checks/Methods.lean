import Verif.Checks.Seen

/-!
# Values expected by la/tests/deflarry_test.py

Binary operations, reductions, queries on labels, calculations, moving statistics, missing values and
changes of shape.
-/

namespace La.Checks.Methods
open La.Checks

-- add
def b1 := F [[0,0,1,1],[0,0,1,1],[1,1,1,1]]
def b2 := F [[1,2],[3,4]]
def b3 := F [[2,2,3,1],[3,2,2,1],[1,1,1,1]]
example : see (BinOp.larrys false (.arith .add) b1 b2) = ofL (F [[1,2],[3,4]]) := by decide +kernel
example : see (BinOp.larrys false (.arith .add) b1 (V [1,1])) = .error .indexError := by decide +kernel
example : see (BinOp.larrys false (.arith .add) (I2 [[1,2],[3,4]]) (I2L [[1,2],[3,4]] [0,1] [97,98])) = .larry [2,0] [] .int [[0,1],[]] := by decide +kernel
-- reduce
def r1 := F [[1,nn],[1,1],[1,1]]
def r3 := F [[1,nn,nn],[0,1,3],[1,1,0]]
example : seeOut (r1.sum none) = .scalar 5 := by decide +kernel
example : seeOut (r1.sum (some 0)) = ofL (V [3,2]) := by decide +kernel
example : seeOut (r1.sum (some 1)) = ofL (V [1,2,2]) := by decide +kernel
example : seeOut (r1.sum (some 3)) = .error .valueError := by decide +kernel
example : seeOut (r1.prod (some 3)) = .error .valueError := by decide +kernel
example : seeOut (r1.mean (some 3)) = .error .valueError := by decide +kernel
example : seeOut (r1.median (some 3)) = .error .valueError := by decide +kernel
example : seeOut (r1.std id (some 3) 0) = .error .valueError := by decide +kernel
example : seeOut (r1.var (some 3) 0) = .error .valueError := by decide +kernel
example : seeOut (r1.max (some 3)) = .error .valueError := by decide +kernel
example : seeOut (r1.min (some 3)) = .error .valueError := by decide +kernel
example : seeOut ((F [[nn,2],[nn,nn],[nn,3]]).prod (some 0)) = ofL (V [nn,6]) := by decide +kernel
example : seeOut ((F [[nn,2],[nn,nn],[nn,3]]).prod (some 1)) = ofL (V [2,nn,3]) := by decide +kernel
example : seeOut (r1.max (some 1)) = ofL (V [1,1,1]) := by decide +kernel
example : seeOut (r1.median (some 1)) = ofL (V [1,1,1]) := by decide +kernel
example : seeOut ((I [1,1,1]).var (some (-1)) 0) = .scalar 0 := by decide +kernel
example : seeOut (r3.reduce Larry.lastrankRed (some (-1))) = ofL (V [nn,1,-1]) := by decide +kernel
-- any all
example : seeOut ((F [[1,nn]]).any none) = .scalar (.bool true) := by decide +kernel
example : seeOut ((F [[1,nn]]).all none) = .scalar (.bool true) := by decide +kernel
example : seeOut ((V [0,1]).any none) = .scalar (.bool true) := by decide +kernel
example : seeOut ((V [0,1]).all none) = .scalar (.bool false) := by decide +kernel
-- comparison
def c1 := F [[1,nn],[1,1],[1,3]]
example : see (BinOp.right false (.rel .eq) c1 1 .float) = .larry [3,2] ([true,false,true,true,true,false].map .bool) .bool [nat 3, nat 2] := by decide +kernel
example : see (BinOp.larrys false (.rel .eq) c1 c1) = .larry [3,2] ([true,false,true,true,true,true].map .bool) .bool [nat 3, nat 2] := by decide +kernel
example : see (BinOp.right false (.rel .ne) c1 1 .float) = .larry [3,2] ([false,true,false,false,false,true].map .bool) .bool [nat 3, nat 2] := by decide +kernel
-- labels
def g1 := F [[1,nn],[3,4],[5,6]]
example : g1.maxlabel none = .ok 2 := by decide +kernel
example : g1.maxlabel (some 0) = .ok 2 := by decide +kernel
example : g1.maxlabel (some 1) = .ok 1 := by decide +kernel
example : (I [0,1,2,3]).maxlabel none = .ok 3 := by decide +kernel
example : (I [0,1,2,3]).maxlabel (some 1) = .error .indexError := by decide +kernel
example : (I [0,1,2,3]).minlabel (some 1) = .error .indexError := by decide +kernel
example : g1.minlabel none = .ok 0 := by decide +kernel
example : g1.labelindex 3 none = .error .valueError := by decide +kernel
example : g1.labelindex 2 (some 0) = .ok 2 := by decide +kernel
-- calc
def l2 := F [[2,2,nn,1],[nn,nn,nn,1],[1,1,nn,1]]
def l4 := F [[nn,1,2,3,4],[1,nn,2,nn,nn],[2,2,nn,nn,nn],[3,3,3,3,nn]]
def l5 := F [[1,nn,6,0,8],[2,4,8,0,-1]]
def l6 := F [[nn,nn,nn,nn,nn],[nn,nn,nn,nn,nn]]
def l7 := F [[nn,2],[1,3],[3,1]]
example : see (l2.demean nanmean (some 0)) = ofL (F [[fl (1/2), fl (1/2), nn, 0],[nn,nn,nn,0],[fl (-1/2), fl (-1/2), nn, 0]]) := by decide +kernel
example : see (l2.demean nanmean (some 1)) = ofL (F [[fl (1/3), fl (1/3), nn, fl (-2/3)],[nn,nn,nn,0],[0,0,nn,0]]) := by decide +kernel
example : see (l2.demean medianOf (some 0)) = ofL (F [[fl (1/2), fl (1/2), nn, 0],[nn,nn,nn,0],[fl (-1/2), fl (-1/2), nn, 0]]) := by decide +kernel
example : see (l2.demean medianOf (some 1)) = ofL (F [[0,0, nn, -1],[nn,nn,nn,0],[0,0,nn,0]]) := by decide +kernel
example : see ((I [1,2,3,4,5]).demean nanmean (some 0)) = ofL (V [-2,-1,0,1,2]) := by decide +kernel
example : see (l4.push 2) = ofL (F [[nn,1,2,3,4],[1,1,2,2,2],[2,2,2,2,nn],[3,3,3,3,3]]) := by decide +kernel
example : see (l4.push 0) = ofL l4 := by decide +kernel
example : see (l4.push 1) = ofL (F [[nn,1,2,3,4],[1,1,2,2,nn],[2,2,2,nn,nn],[3,3,3,3,3]]) := by decide +kernel
example : see (b3.moveSum 2) = ofL (F [[nn,4,5,4],[nn,5,4,3],[nn,2,2,2]]) := by decide +kernel
example : see (b3.moveSum 2 0) = ofL (F [[nn,nn,nn,nn],[5,4,5,2],[4,3,3,2]]) := by decide +kernel
example : see (b3.moveSum 1 0) = ofL b3 := by decide +kernel
example : see (l2.moveSum 2) = ofL (F [[nn,4,2,1],[nn,nn,nn,1],[nn,2,1,1]]) := by decide +kernel
example : see (l2.moveSum 2 0) = ofL (F [[nn,nn,nn,nn],[2,2,nn,2],[1,1,nn,2]]) := by decide +kernel
example : see (l2.moveSum 1 0) = ofL l2 := by decide +kernel
example : see ((V [.flt .pinf]).moveSum 1) = ofL (V [.flt .pinf]) := by decide +kernel
example : see (l5.movingsumForward 2 0 (-1) true) = ofL (F [[2,12,6,8,nn],[6,12,8,-1,nn]]) := by decide +kernel
example : see (l5.movingsumForward 2 0 (-1) false) = ofL (F [[1,6,6,8,nn],[6,12,8,-1,nn]]) := by decide +kernel
example : see (l5.movingsumForward 2 1 (-1) true) = ofL (F [[12,6,8,nn,nn],[12,8,-1,nn,nn]]) := by decide +kernel
example : see (l5.movingsumForward 2 1 (-1) false) = ofL (F [[6,6,8,nn,nn],[12,8,-1,nn,nn]]) := by decide +kernel
example : see (l5.movingsumForward 1 1 0 false) = ofL (F [[2,4,8,0,-1],[nn,nn,nn,nn,nn]]) := by decide +kernel
def k1 := F [[1,nn,2,nn,nn],[2,2,nn,nn,nn],[3,3,3,3,nn]]
def rkd : RankNorm := .pm1
example : see (k1.ranking (some 0) rkd) = ofL (F [[-1,nn,-1,nn,nn],[0,-1,nn,nn,nn],[1,1,1,0,nn]]) := by decide +kernel
example : see ((F [[1,nn,2,nn,nn],[2,2,nn,nn,nn],[3,3,3,3,nn],[4,2,3,1,0]]).ranking (some 1) rkd) = ofL (F [[-1,nn,1,nn,nn],[0,0,nn,nn,nn],[0,0,0,0,nn],[1,0,fl (1/2),fl (-1/2),-1]]) := by decide +kernel
example : see ((F [[3],[1],[2]]).ranking (some 0) rkd) = ofL (F [[1],[-1],[0]]) := by decide +kernel
example : see ((F [[3],[1],[2]]).ranking (some 1) rkd) = ofL (F [[0],[0],[0]]) := by decide +kernel
def k6 := F [[1,nn,1,nn,nn],[1,1,nn,nn,nn],[1,2,0,2,nn],[1,3,1,1,0]]
example : see (k6.ranking (some 0) rkd) = ofL (F [[0,nn,fl (1/2),nn,nn],[0,-1,nn,nn,nn],[0,0,-1,1,nn],[0,1,fl (1/2),-1,0]]) := by decide +kernel
example : see (k6.ranking (some 1) rkd) = ofL (F [[0,nn,0,nn,nn],[0,0,nn,nn,nn],[fl (-1/3),fl (2/3),-1,fl (2/3),nn],[0,1,0,0,-1]]) := by decide +kernel
def t3 := fl (2/3)
def o3 := fl (1/3)
example : see ((F [[1,1,1,1],[1,1,2,2],[2,2,3,2],[2,3,3,3]]).ranking (some 0) rkd) = ofL (F [[-t3,-t3,-1,-1],[-t3,-t3,-o3,0],[t3,o3,t3,0],[t3,1,t3,1]]) := by decide +kernel
example : see ((F [[nn],[nn],[nn]]).ranking (some 0) rkd) = ofL (F [[nn],[nn],[nn]]) := by decide +kernel
example : see ((F [[nn,nn,nn]]).ranking (some 1) rkd) = ofL (F [[nn,nn,nn]]) := by decide +kernel
example : see ((V [1,.flt .pinf,2]).ranking (some 0) rkd) = ofL (V [-1,1,0]) := by decide +kernel
example : see ((V [.flt .ninf,nn,1,.flt .pinf]).ranking (some 0) rkd) = ofL (V [-1,nn,0,1]) := by decide +kernel
example : see ((V [.flt .ninf,nn,1,.flt .pinf]).ranking none rkd) = ofL (V [-1,nn,0,1]) := by decide +kernel
def e := fl (8/15)
def f := fl (8/13)
example : see ((F [[1,1,1,1],[1,1,2,2],[2,2,1,2],[2,2,1,2]]).ranking none rkd) = ofL (F [[-e,-e,-e,-e],[-e,-e,e,e],[e,e,-e,e],[e,e,-e,e]]) := by decide +kernel
example : see ((F [[nn,1,1,1],[1,fl (3/2),2,2],[2,nn,1,2],[2,fl (3/2),1,2]]).ranking none rkd) = ofL (F [[nn,-f,-f,-f],[-f,0,f,f],[f,nn,-f,f],[f,0,-f,f]]) := by decide +kernel
-- move_ranking
def memOf (y : Larry Nat) (p : Int) : Val := y.x.vals.getD p.toNat .none
def flat2 (n m : Nat) : Strided := ⟨[n,m], [m,1], 0⟩
def rk (y : Larry Nat) (n m : Nat) (w : Int) (ax : Int) (me : MoveMethod) := see (y.moveRanking (memOf y) (flat2 n m) w (some ax) me)
example : rk l6 2 5 2 (-1) .strides = ofL l6 := by decide +kernel
example : rk l5 2 5 2 (-1) .strides = ofL (F [[nn,nn,nn,-1,1],[nn,1,1,-1,-1]]) := by decide +kernel
example : rk l5 2 5 2 0 .strides = ofL (F [[nn,nn,nn,nn,nn],[1,nn,1,0,-1]]) := by decide +kernel
example : rk l7 3 2 2 (-1) .strides = ofL (F [[nn,nn],[nn,1],[nn,-1]]) := by decide +kernel
example : rk l5 2 5 2 (-1) .loop = ofL (F [[nn,nn,nn,-1,1],[nn,1,1,-1,-1]]) := by decide +kernel
-- quantile
def idsort (l : List ℚ) : List Nat := (List.range l.length).insertionSort (fun a b => l.getD a 0 ≤ l.getD b 0)
example : see (Larry.quantile idsort b3 1 (some 0)) = ofL (F [[0,0,0,0],[0,0,0,0],[0,0,0,0]]) := by decide +kernel
example : see (Larry.quantile idsort b3 2 (some 0)) = ofL (F [[-1,-1,1,-1],[1,1,-1,-1],[-1,-1,-1,1]]) := by decide +kernel
example : see (Larry.quantile idsort b3 3 (some 0)) = ofL (F [[0,0,1,-1],[1,1,0,0],[-1,-1,-1,1]]) := by decide +kernel
example : see (Larry.quantile idsort (I2 [[1,2,3,1],[2,3,1,2],[3,1,2,3]]) 3 none) = ofL (F [[-1,0,1,-1],[0,1,-1,0],[1,-1,0,1]]) := by decide +kernel
-- cut_missing
example : see (l4.cutMissing (9/10) (some 0)) = ofL l4 := by decide +kernel
example : see (l4.cutMissing (9/10) (some 1)) = ofL l4 := by decide +kernel
example : see (l4.cutMissing (1/2) (some 0)) = ofL (F [[nn,1,2],[1,nn,2],[2,2,nn],[3,3,3]]) := by decide +kernel
example : see (l4.cutMissing (1/2) (some 1)) = ofL (FL [[nn,1,2,3,4],[3,3,3,3,nn]] [0,3] (nat 5)) := by decide +kernel
-- ismissing
def S (l : List String) : Larry Nat := ⟨NDArray.ofList [l.length] (l.map .str), .str, [nat l.length]⟩
def B (l : List Bool) : Larry Nat := ⟨NDArray.ofList [l.length] (l.map .bool), .bool, [nat l.length]⟩
def O (l : List Val) : Larry Nat := ⟨NDArray.ofList [l.length] l, .object, [nat l.length]⟩
example : see (.ok (S ["string",""]).ismissing) = ofL (B [false,true]) := by decide +kernel
example : see (.ok (O [.str "", .none]).ismissing) = ofL (B [false,true]) := by decide +kernel
example : see (.ok (B [false, true]).ismissing) = ofL (B [false,false]) := by decide +kernel
-- morph
def a1 := F [[nn,nn],[1,2],[3,4]]
example : see (a1.morph [1,0,3,2] 0) = ofL (FL [[1,2],[nn,nn],[nn,nn],[3,4]] [1,0,3,2] [0,1]) := by decide +kernel
example : see (a1.morph [1,0,3,2] 1) = ofL (FL [[nn,nn,nn,nn],[2,1,nn,nn],[4,3,nn,nn]] [0,1,2] [1,0,3,2]) := by decide +kernel
example : see ((S ["a","b","cc"]).morph [2,1,0,3] 0) = .larry [4] [.str "cc", .str "b", .str "a", .str ""] .str [[2,1,0,3]] := by decide +kernel
example : see ((I [1,2,3]).morph [0,0] 0) = .error .indexError := by decide +kernel
example : see ((I [1,2]).morph [1,0] 0) = ofL (IL [2,1] [1,0]) := by decide +kernel
example : see ((I [1,2]).morph [10,0] 0) = .larry [2] [nn,1] .float [[10,0]] := by decide +kernel
example : see ((B [true,false]).morph [1,0] 0) = .larry [2] [.bool false,.bool true] .bool [[1,0]] := by decide +kernel
example : see ((B [true,false]).morph [10,0] 0) = .larry [2] [nn,1] .float [[10,0]] := by decide +kernel
example : see ((V []).morph [1,2] 0) = .larry [2] [nn,nn] .float [[1,2]] := by decide +kernel
example : see (a1.morphLike (FL [[nn,nn],[1,2],[3,4]] [2,1,0] [1,0])) = ofL (FL [[4,3],[2,1],[nn,nn]] [2,1,0] [1,0]) := by decide +kernel
-- lag
example : see (match a1.lag 1 with | .error e => .error e | .ok z => BinOp.larrys false (.arith .div) a1 z) = ofL (FL [[nn],[2],[fl (4/3)]] [0,1,2] [1]) := by decide +kernel
example : see ((I [1,2,3]).lag 0) = ofL (I [1,2,3]) := by decide +kernel
example : see ((I [1,2,3]).lag (-1)) = ofL (I [2,3]) := by decide +kernel
example : see ((I2 [[1,2,3],[4,5,6]]).lag (-1)) = ofL (I2 [[2,3],[5,6]]) := by decide +kernel
example : see ((I2 [[1,2,3],[4,5,6]]).lag (-1) (some 0)) = ofL (I2L [[4,5,6]] [0] [0,1,2]) := by decide +kernel
example : see ((I2 [[1,2,3],[4,5,6]]).lag 1 (some 0)) = ofL (I2L [[1,2,3]] [1] [0,1,2]) := by decide +kernel
-- flatten
example : see ((I [1,2,3]).flatten "F") = .larry [3] [.int 1,.int 2,.int 3] .int [[[0],[1],[2]]] := by decide +kernel
example : see ((I2 [[1,2],[3,4]]).flatten "F") = .larry [4] [.int 1,.int 3,.int 2, .int 4] .int [[[0,0],[1,0],[0,1],[1,1]]] := by decide +kernel
def unfl (y : Larry Nat) (o : String) : Res (Larry Nat) := match y.flatten o with | .error e => .error e | .ok z => z.unflatten
example : see (unfl (I [1,2,3]) "F") = ofL (V [1,2,3]) := by decide +kernel
example : see (unfl (I2 [[1,2],[3,4]]) "F") = ofL (F [[1,2],[3,4]]) := by decide +kernel
-- sortaxis, insertaxis
example : see ((I2L [[2,1]] [9] [98,97]).sortaxis) = ofL (I2L [[1,2]] [9] [97,98]) := by decide +kernel
example : see ((I [1,2]).insertaxis (some (-2)) 77) = ofL (I2L [[1,2]] [77] [0,1]) := by decide +kernel
example : see ((I [1,2]).insertaxis (some (-1)) 77) = ofL (I2L [[1],[2]] [0,1] [77]) := by decide +kernel
-- merge
def m1 := FL [[2,2,3,1],[3,2,2,1],[1,1,1,1]] [1,2,3] [1,2,3,4]
def m1' := FL [[2,2,3,1],[3,2,2,1],[1,1,1,1]] [1,2,3] [9,2,3,4]
example : see (merge m1 m1' true) = ofL (FL [[2,2,3,1,2],[3,2,2,1,3],[1,1,1,1,1]] [1,2,3] [1,2,3,4,9]) := by decide +kernel
example : see (merge m1 m1' false) = .error .valueError := by decide +kernel
example : see (merge (FL [[2,2,nn,nn],[3,2,nn,nn],[1,1,nn,nn]] [1,2,3] [1,2,3,4]) (FL [[2,nn,3,1],[3,nn,2,1],[1,nn,1,6]] [1,2,3] [9,2,3,4]) false)
  = ofL (FL [[2,2,3,1,2],[3,2,2,1,3],[1,1,1,6,1]] [1,2,3] [1,2,3,4,9]) := by decide +kernel
example : see (merge (FL [[2,2,3,1],[3,2,2,1],[nn,nn,nn,nn]] [1,2,3] [1,2,3,4]) (FL [[2,nn,3,1],[3,nn,2,1],[1,nn,1,6]] [1,2,3] [9,2,3,4]) true)
  = ofL (FL [[2,2,3,1,2],[3,2,2,1,3],[nn,nn,1,6,1]] [1,2,3] [1,2,3,4,9]) := by decide +kernel
example : see (merge (FL [[2,2,3,1],[3,2,2,1],[nn,nn,nn,nn]] [1,2,3] [1,2,3,4]) (FL [[1,1,1,6]] [3] [1,2,3,4]) true)
  = ofL (FL [[2,2,3,1],[3,2,2,1],[1,1,1,6]] [1,2,3] [1,2,3,4]) := by decide +kernel
example : see (merge m1 (FL [[10,10,10,60]] [4] [1,2,3,4]) true)
  = ofL (FL [[2,2,3,1],[3,2,2,1],[1,1,1,1],[10,10,10,60]] [1,2,3,4] [1,2,3,4]) := by decide +kernel
example : see (merge m1 (FL [[20,10],[10,60]] [1,2] [5,6]) false)
  = ofL (FL [[2,2,3,1,20,10],[3,2,2,1,10,60],[1,1,1,1,nn,nn]] [1,2,3] [1,2,3,4,5,6]) := by decide +kernel
example : see (merge (S ["a","b"]) (S ["a","z"]) true) = ofL (S ["a","z"]) := by decide +kernel
example : see (merge (O [.str "a"]) (O [.str "a"]) true) = ofL (O [.str "a"]) := by decide +kernel
example : see (merge (V []) (V [1,2]) false) = ofL (V [1,2]) := by decide +kernel
example : see (merge (I [1,2]) (V []) false) = ofL (I [1,2]) := by decide +kernel
example : see (merge (F [[]]) (F [[1,2],[1,2]]) false) = ofL (F [[1,2],[1,2]]) := by decide +kernel
example : see (merge (F [[1,2],[1,2]]) (F [[]]) false) = ofL (F [[1,2],[1,2]]) := by decide +kernel
-- vacuum
def va := FL [[2,nn,3,1],[3,nn,2,1],[1,nn,1,1]] [0,1,2] [65,66,67,68]
def va' := FL [[2,3,1],[3,2,1],[1,1,1]] [0,1,2] [65,67,68]
example : see (va.vacuum none) = ofL va' := by decide +kernel
example : see (va.vacuum (some [0])) = ofL va' := by decide +kernel
example : see (va.vacuum (some [1])) = ofL va := by decide +kernel
def v3 : Larry Nat := ⟨NDArray.ofList [2,3,4] [2,nn,3,1,3,nn,2,1,1,nn,1,1,4,nn,6,2,6,nn,4,2,2,nn,2,2], .float, [[0,1],[0,1,2],[65,66,67,68]]⟩
def v3' : Larry Nat := ⟨NDArray.ofList [2,3,3] [2,3,1,3,2,1,1,1,1,4,6,2,6,4,2,2,2,2], .float, [[0,1],[0,1,2],[65,67,68]]⟩
example : see (v3.vacuum none) = ofL v3' := by decide +kernel
example : see (v3.vacuum (some [1])) = ofL v3' := by decide +kernel
example : see (v3.vacuum (some [1,2])) = ofL v3 := by decide +kernel
example : see (v3.vacuum (some [2])) = ofL v3 := by decide +kernel
example : see (v3.vacuum (some [0])) = ofL v3' := by decide +kernel
example : see (v3.vacuum (some [0,1])) = ofL v3' := by decide +kernel
example : see ((⟨NDArray.ofList [4] [2,nn,3,1], .float, [[65,66,67,68]]⟩ : Larry Nat).vacuum none) = .larry [3] [2,3,1] .float [[65,67,68]] := by decide +kernel

-- la/tests/deflarry_nose_test.py: the dtype of bool against float
def bl : Larry Nat := B [true, false]
def fv : Larry Nat := V [1, 2]
def fw : Larry Nat := ⟨NDArray.ofList [2] [1, 2], .float, [[1, 0]]⟩
def dtypeOf : Res (Larry Nat) → Option DType
  | .error _ => none
  | .ok y => some y.dtype
example : [ArithOp.add, .sub, .mul, .div].map (fun o => dtypeOf (BinOp.larrys false (.arith o) bl fv)) = List.replicate 4 (some .float) := by decide +kernel
example : [ArithOp.add, .sub, .mul, .div].map (fun o => dtypeOf (BinOp.larrys false (.arith o) bl fw)) = List.replicate 4 (some .float) := by decide +kernel
example : [ArithOp.add, .sub, .mul, .div].map (fun o => dtypeOf (BinOp.right false (.arith o) bl 1 .float)) = List.replicate 4 (some .float) := by decide +kernel
example : dtypeOf (BinOp.larrys false (.logic .and) bl fv) = some .bool := by decide +kernel
example : dtypeOf (BinOp.larrys false (.logic .or) bl fv) = some .bool := by decide +kernel
example : dtypeOf (BinOp.larrys false (.logic .and) bl fw) = some .bool := by decide +kernel
example : dtypeOf (BinOp.right false (.logic .and) bl 1 .float) = some .bool := by decide +kernel
-- the same file, calculations on 2d and 3d data
def x2 : Larry Nat := F [[2,2,nn,1],[nn,nn,nn,1],[1,1,nn,1]]
def dup23 (y : Larry Nat) : Larry Nat := ⟨NDArray.ofList (2 :: y.x.shape) (y.x.vals ++ y.x.vals), y.dtype, nat 2 :: y.label⟩
example : see (x2.ranking (some 1) .pm1) = ofL (F [[fl (1/2),fl (1/2),nn,-1],[nn,nn,nn,0],[0,0,nn,0]]) := by decide +kernel
example : see ((dup23 x2).ranking (some 2) .pm1) = ofL (dup23 (F [[fl (1/2),fl (1/2),nn,-1],[nn,nn,nn,0],[0,0,nn,0]])) := by decide +kernel
example : see (x2.lag 1) = ofL (FL [[2,2,nn],[nn,nn,nn],[1,1,nn]] [0,1,2] [1,2,3]) := by decide +kernel
example : see ((dup23 x2).lag 1) = ofL (dup23 (FL [[2,2,nn],[nn,nn,nn],[1,1,nn]] [0,1,2] [1,2,3])) := by decide +kernel
example : seeOut (x2.pull 1 (some 1)) = ofL (V [2,nn,1]) := by decide +kernel
example : seeOut ((dup23 x2).pull 1 (some 2)) = ofL (dup23 (V [2,nn,1])) := by decide +kernel
example : see (x2.morph [0,3,2] 1) = ofL (FL [[2,1,nn],[nn,1,nn],[1,1,nn]] [0,1,2] [0,3,2]) := by decide +kernel
example : see ((dup23 x2).morph [0,3,2] 2) = ofL (dup23 (FL [[2,1,nn],[nn,1,nn],[1,1,nn]] [0,1,2] [0,3,2])) := by decide +kernel
example : see (x2.demean medianOf (some 1)) = ofL (F [[0,0,nn,-1],[nn,nn,nn,0],[0,0,nn,0]]) := by decide +kernel
-- la/tests/missing_test.py
example : [DType.int, .float, .bool, .str, .object].map missingMarker = [none, some nn, none, some (.str ""), some .none] := by decide +kernel

end La.Checks.Methods
