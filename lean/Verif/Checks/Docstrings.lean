import Verif.Checks.Seen

/-!
# Values written in the docstrings

The examples of la/deflarry.py, la/flarry.py, la/flabel.py and la/farray in the order of the source. The
`morph_like` docstring is stale (finding 57): the value here is the one of the code.
-/

namespace La.Checks.Docstrings
open La.Checks

def ints (l : List Int) : List Val := l.map Val.int
/-- `larry(x)`, one axis. -/
def v1 (d : DType) (xs : List Val) : Larry Nat := ⟨NDArray.ofList [xs.length] xs, d, [nat xs.length]⟩
def i1 (l : List Int) : Larry Nat := v1 .int (ints l)
def i1l (l : List Int) (lab : List Nat) : Larry Nat := ⟨NDArray.ofList [l.length] (ints l), .int, [lab]⟩
def f1 (l : List Val) : Larry Nat := v1 .float l
/-- two axes -/
def m2 (d : DType) (n m : Nat) (xs : List Val) : Larry Nat := ⟨NDArray.ofList [n, m] xs, d, [nat n, nat m]⟩
def i2 (n m : Nat) (l : List Int) (a b : List Nat) : Larry Nat := ⟨NDArray.ofList [n, m] (ints l), .int, [a, b]⟩
def li (l : List Int) (lab : List Nat) : Seen Nat := .larry [l.length] (ints l) .int [lab]
def lf (l : List Val) (lab : List Nat) : Seen Nat := .larry [l.length] l .float [lab]
def lb (l : List Bool) (lab : List Nat) : Seen Nat := .larry [l.length] (l.map Val.bool) .bool [lab]

-- elementwise methods
example : see ((i1 [-1, 2, -3, 4]).elem .sign) = li [-1, 1, -1, 1] (nat 4) := by decide +kernel
example : see ((i1 [1, 2, 3]).elem (.power 2)) = li [1, 4, 9] (nat 3) := by decide +kernel
example : see ((i1 [1, 2, 3]).cumsum (some 0)) = li [1, 3, 6] (nat 3) := by decide +kernel
example : see ((m2 .float 2 2 [nn, fl 2, nn, fl 4]).cumsum (some 0)) = .larry [2,2] [nn, fl 2, nn, fl 6] .float [nat 2, nat 2] := by decide +kernel
example : see ((i1 [1, 2, 3]).cumprod (some 0)) = li [1, 2, 6] (nat 3) := by decide +kernel
example : see ((m2 .float 2 2 [nn, fl 2, nn, fl 4]).cumprod (some 0)) = .larry [2,2] [nn, fl 2, nn, fl 8] .float [nat 2, nat 2] := by decide +kernel
example : see ((i1 [1, 2, 3, 4]).clip (.fin 2) (.fin 3)) = li [2, 2, 3, 3] (nat 4) := by decide +kernel
example : see ((i1 [-1, 2, -3, 4]).elem .abs) = li [1, 2, 3, 4] (nat 4) := by decide +kernel
def infs : Larry Nat := f1 [.flt .ninf, fl 1, nn, .flt .pinf]
example : see (infs.elem .isnan) = lb [false, false, true, false] (nat 4) := by decide +kernel
example : see (infs.elem .isfinite) = lb [false, true, false, false] (nat 4) := by decide +kernel
example : see (infs.elem .isinf) = lb [true, false, false, true] (nat 4) := by decide +kernel
example : see ((v1 .bool [.bool true, .bool false]).elem .invert) = lb [false, true] (nat 2) := by decide +kernel
-- operators
def o1 := f1 [fl 1, fl 2]
def o2 := f1 [fl 2, fl 3]
def y1 := i1l [1, 2] [97, 98]
def y2 := i1l [1, 2] [98, 99]
example : see (BinOp.larrys false (.arith .add) o1 o2) = lf [fl 3, fl 5] (nat 2) := by decide +kernel
example : see (BinOp.larrys false (.arith .add) y1 y2) = li [3] [98] := by decide +kernel
example : see (BinOp.larrys false (.arith .sub) o1 o2) = lf [fl (-1), fl (-1)] (nat 2) := by decide +kernel
example : see (BinOp.larrys false (.arith .sub) y1 y2) = li [1] [98] := by decide +kernel
example : see (BinOp.larrys false (.arith .div) o1 o2) = lf [fl (1/2), fl (2/3)] (nat 2) := by decide +kernel
example : see (BinOp.larrys false (.arith .div) y1 y2) = li [2] [98] := by decide +kernel
example : see (BinOp.larrys true (.arith .div) y1 y2) = lf [fl 2] [98] := by decide +kernel


example : see (BinOp.larrys false (.arith .floordiv) o1 o2) = lf [fl 0, fl 0] (nat 2) := by decide +kernel
example : see (BinOp.larrys false (.arith .floordiv) y1 y2) = li [2] [98] := by decide +kernel
example : see (BinOp.larrys false (.arith .mul) o1 o2) = lf [fl 2, fl 6] (nat 2) := by decide +kernel
example : see (BinOp.larrys false (.arith .mul) y1 y2) = li [2] [98] := by decide +kernel
def gt (k : Int) (f : Formula) : Formula := .right (.rel .gt) f (.int k) .int
example : see (Formula.eval false [o1, o2] (.bin (.logic .and) (gt 1 (.var 0)) (gt 1 (.var 1)))) = lb [false, true] (nat 2) := by decide +kernel
example : see (Formula.eval false [y1, y2] (.bin (.logic .and) (gt 0 (.var 0)) (gt 0 (.var 1)))) = lb [true] [98] := by decide +kernel
example : see (Formula.eval false [o1, o2] (.bin (.logic .or) (gt 1 (.var 0)) (gt 1 (.var 1)))) = lb [true, true] (nat 2) := by decide +kernel
example : see (Formula.eval false [y1, y2] (.bin (.logic .or) (gt 0 (.var 0)) (gt 0 (.var 1)))) = lb [true] [98] := by decide +kernel
-- reductions
def q := m2 .float 2 2 [nn, fl 2, fl 3, fl 4]
example : seeOut (q.sum none) = .scalar (fl 9) := by decide +kernel
example : seeOut (q.sum (some 0)) = lf [fl 3, fl 6] (nat 2) := by decide +kernel
example : seeOut (q.prod none) = .scalar (fl 24) := by decide +kernel
example : seeOut (q.prod (some 0)) = lf [fl 3, fl 8] (nat 2) := by decide +kernel
example : seeOut ((m2 .float 2 2 [nn, fl 2, nn, fl 4]).prod (some 0)) = lf [nn, fl 8] (nat 2) := by decide +kernel
example : seeOut (q.mean none) = .scalar (fl 3) := by decide +kernel
example : seeOut (q.mean (some 0)) = lf [fl 3, fl 3] (nat 2) := by decide +kernel
example : seeOut (q.median none) = .scalar (fl 3) := by decide +kernel
example : seeOut (q.median (some 0)) = lf [fl 3, fl 3] (nat 2) := by decide +kernel
example : seeOut (q.var none 0) = .scalar (fl (2/3)) := by decide +kernel
example : seeOut (q.var (some 0) 0) = lf [fl 0, fl 1] (nat 2) := by decide +kernel
example : seeOut (q.std id (some 0) 0) = lf [fl 0, fl 1] (nat 2) := by decide +kernel
example : seeOut (q.max none) = .scalar (fl 4) := by decide +kernel
example : seeOut (q.max (some 0)) = lf [fl 3, fl 4] (nat 2) := by decide +kernel
example : seeOut (q.min none) = .scalar (fl 2) := by decide +kernel
example : seeOut (q.min (some 0)) = lf [fl 3, fl 2] (nat 2) := by decide +kernel
def sq := m2 .int 2 2 (ints [1,2,3,4])
def lt2 := BinOp.right false (.rel .lt) sq (.int 2) .int
def gt1 := BinOp.right false (.rel .gt) sq (.int 1) .int
example : see lt2 = .larry [2,2] [.bool true, .bool false, .bool false, .bool false] .bool [nat 2, nat 2] := by decide +kernel
def thenOut (r : Res (Larry Nat)) (f : Larry Nat → Res (Out Nat)) : Res (Out Nat) := match r with | .error e => .error e | .ok y => f y
example : seeOut (thenOut lt2 (·.any none)) = .scalar (.bool true) := by decide +kernel
example : seeOut (thenOut lt2 (·.any (some 1))) = lb [true, false] (nat 2) := by decide +kernel
example : see gt1 = .larry [2,2] [.bool false, .bool true, .bool true, .bool true] .bool [nat 2, nat 2] := by decide +kernel
example : seeOut (thenOut gt1 (·.all none)) = .scalar (.bool false) := by decide +kernel
example : seeOut (thenOut gt1 (·.all (some 0))) = lb [false, true] (nat 2) := by decide +kernel
def lrk (l : List Int) : Seen Nat := seeOut ((i1 l).reduce Larry.lastrankRed (some (-1)))
example : lrk [1,2,3] = .scalar (fl 1) := by decide +kernel
example : lrk [3,2,1] = .scalar (fl (-1)) := by decide +kernel
example : lrk [1,3,4,5,2] = .scalar (fl (-1/2)) := by decide +kernel
-- indexing
example : seeGet (sq.getitem (.tuple [.int 0, .int 0])) = .scalar (.int 1) := by decide +kernel
example : seeGet (sq.getitem (.tuple [.int 0, .slice {}])) = li [1, 2] (nat 2) := by decide +kernel
example : seeGet (sq.getitem (.tuple [.slice {}, .slice {start := some 1}])) = .larry [2,1] (ints [2,4]) .int [nat 2, [1]] := by decide +kernel
example : see ((i1 [1,2,3]).take [0,2] 0) = li [1,3] [0,2] := by decide +kernel
def lx : Larry Nat := i1l [0,1,2,3,4,5] [97,98,3,4,101,102]
example : seeGet (lx.lixGet (.one (.int 0))) = .scalar (.int 0) := by decide +kernel
example : seeGet (lx.lixGet (.one (.list [97]))) = .scalar (.int 0) := by decide +kernel
example : seeGet (lx.lixGet (.one (.slice {start := .int 0}))) = li [0,1,2,3,4,5] [97,98,3,4,101,102] := by decide +kernel
example : seeGet (lx.lixGet (.one (.slice {start := .list [97]}))) = li [0,1,2,3,4,5] [97,98,3,4,101,102] := by decide +kernel
example : seeGet (lx.lixGet (.one (.slice {start := .list [97], stop := .list [101]}))) = li [0,1,2,3] [97,98,3,4] := by decide +kernel
example : seeGet (lx.lixGet (.one (.slice {start := .list [97], stop := .list [101], step := some 2}))) = li [0,2] [97,3] := by decide +kernel
example : seeGet (lx.lixGet (.one (.slice {start := .list [97], stop := .int 4}))) = li [0,1,2,3] [97,98,3,4] := by decide +kernel
example : seeGet (lx.lixGet (.one (.slice {start := .list [97], stop := .list [4]}))) = li [0,1,2] [97,98,3] := by decide +kernel
def ab := i2 2 2 [1,2,3,4] [97,98] [99,100]
example : seeGet (ab.lixGet (.tuple [.list [97,98], .list [99,100]])) = ofL ab := by decide +kernel
def mset := i2 2 2 [1,2,3,4] [97,98] [8,10]
def thenL (r : Res (Larry Nat)) (f : Larry Nat → Res (Larry Nat)) : Res (Larry Nat) := match r with | .error e => .error e | .ok y => f y
example : see (thenL (BinOp.right false (.rel .lt) mset (.int 3) .int) (fun m => mset.setMask m (.int 0))) = ofL (i2 2 2 [0,0,3,4] [97,98] [8,10]) := by decide +kernel
example : see (ab.set [97, 100] (.int 99)) = ofL (i2 2 2 [1,99,3,4] [97,98] [99,100]) := by decide +kernel
example : ab.get [97, 100] = .ok (.int 2) := by decide +kernel
example : ab.getlabel 0 = .ok [97,98] := by decide +kernel
example : seeOut (ab.pull 97 (some 0)) = li [1,2] [99,100] := by decide +kernel
def ab3 : Larry Nat := ⟨NDArray.ofList [2,2,2] (ints [1,2,3,4,5,6,7,8]), .int, [[1,2],[97,98],[99,100]]⟩
example : seeOut (ab3.pull 1 (some 0)) = ofL ab := by decide +kernel
example : see ((i1l [1,2,3,4] [97,98,99,100]).keepLabel (.lt 99) (some 0)) = li [1,2] [97,98] := by decide +kernel
example : (i1l [1,2,3] [97,122,119]).maxlabel none = .ok 122 := by decide +kernel
example : (i1l [1,2,3] [97,122,119]).minlabel none = .ok 97 := by decide +kernel
example : ab.labelindex 100 (some 1) = .ok 1 := by decide +kernel
-- moving
def mv := f1 [fl 1, fl 2, nn, fl 4]
example : see (mv.moveSum 2) = lf [nn, fl 3, fl 2, fl 4] (nat 4) := by decide +kernel
example : see (mv.moveMean 2) = lf [nn, fl (3/2), fl 2, fl 4] (nat 4) := by decide +kernel
example : see (mv.moveMin 2) = lf [nn, fl 1, fl 2, fl 4] (nat 4) := by decide +kernel
example : see (mv.moveMax 2) = lf [nn, fl 2, fl 2, fl 4] (nat 4) := by decide +kernel
def mv5 := f1 [fl 1, fl 2, nn, fl 4, fl 5]
example : see (mv5.moveStd id 3) = lf [nn, nn, fl (1/4), fl 1, fl (1/4)] (nat 5) := by decide +kernel
def memOf (y : Larry Nat) (p : Int) : Val := y.x.vals.getD p.toNat .none
def flat (n : Nat) : Strided := ⟨[n], [1], 0⟩
def rk (y : Larry Nat) (w : Int) (m : MoveMethod) := see (y.moveRanking (memOf y) (flat y.size) w (some (-1)) m)
example : rk (i1 [1,2,6,4,5,3]) 3 .strides = lf [nn,nn,fl 1, fl 0, fl 0, fl (-1)] (nat 6) := by decide +kernel
example : rk (i1 [1,2,1,1,1,2]) 3 .strides = lf [nn,nn,fl (-1/2), fl (-1/2), fl 0, fl 1] (nat 6) := by decide +kernel
example : rk (i1 [1,2,3,4,5]) 3 .loop = lf [nn,nn,fl 1, fl 1, fl 1] (nat 5) := by decide +kernel
example : see (mv5.moveMedian (memOf mv5) (flat 5) 2 (some (-1)) .loop) = lf [nn, fl (3/2), fl 2, fl 4, fl (9/2)] (nat 5) := by decide +kernel
example : see ((i1 [1,2,3,4]).moveStat bnNansum (memOf (i1 [1,2,3,4])) (flat 4) 2 (some (-1)) .strides) = lf [nn, fl 3, fl 5, fl 7] (nat 4) := by decide +kernel
example : see ((i1 [1,2,3,4]).moveSum 2) = lf [nn, fl 3, fl 5, fl 7] (nat 4) := by decide +kernel
-- normalisation
example : see ((i1 [1,2,3,4]).demean nanmean none) = lf [fl (-3/2), fl (-1/2), fl (1/2), fl (3/2)] (nat 4) := by decide +kernel
example : see ((i1 [1,2,3,4]).demean medianOf none) = lf [fl (-3/2), fl (-1/2), fl (1/2), fl (3/2)] (nat 4) := by decide +kernel
def ids (l : List ℚ) : List Nat := List.range l.length
example : see (Larry.quantile ids (i1 [1,2,3,4,5,6]) 3 none) = lf [fl (-1), fl (-1), fl 0, fl 0, fl 1, fl 1] (nat 6) := by decide +kernel
-- morph, merge
example : see ((i1l [1,2,3] [97,98,99]).morph [98, 555, 97, 99] 0) = lf [fl 2, nn, fl 1, fl 3] [98,555,97,99] := by decide +kernel
def ml1 := i1l [1,2] [97,98]
def ml2 := i1l [3,2,1] [99,98,97]
example : see (ml1.morphLike ml2) = lf [nn, fl 2, fl 1] [99,98,97] := by decide +kernel
example : see (ml2.morphLike ml1) = li [1, 2] [97,98] := by decide +kernel
example : see (merge ml1 (i1l [3,4] [99,100]) false) = lf [fl 1, fl 2, fl 3, fl 4] [97,98,99,100] := by decide +kernel
example : see (.ok (i2 1 2 [1,2] [7] [1,2]).squeeze) = li [1,2] [1,2] := by decide +kernel
example : see ((i1l [1,2,3,4] [97,98,99,100]).lag 2) = li [1,2] [99,100] := by decide +kernel
example : see ((i1l [1,2,3,4] [97,98,99,100]).lag (-2)) = li [3,4] [97,98] := by decide +kernel
def so := i2 2 2 [4,3,2,1] [98,97] [100,99]
example : see so.sortaxis = ofL ab := by decide +kernel
example : see (so.sortaxis none true) = ofL so := by decide +kernel
example : see (so.sortaxis (some 0)) = ofL (i2 2 2 [2,1,4,3] [97,98] [100,99]) := by decide +kernel
example : see ab.flipaxis = ofL so := by decide +kernel
example : see (ab.flipaxis (some 0)) = ofL (i2 2 2 [3,4,1,2] [98,97] [99,100]) := by decide +kernel
example : see (.ok (f1 [fl 1, nn]).ismissing) = lb [false, true] (nat 2) := by decide +kernel
example : see (.ok (i1 [0, 1]).ismissing) = lb [false, false] (nat 2) := by decide +kernel
example : see ((f1 [fl 1, fl 2, fl (5/2)]).elem (.astype (fun _ => 0) .int)) = li [1,2,2] (nat 3) := by decide +kernel
example : see (.ok ab.T) = ofL (i2 2 2 [1,3,2,4] [99,100] [97,98]) := by decide +kernel
example : see ((m2 .int 3 2 (ints [0,1,2,3,4,5])).swapaxes 1 0) = ofL (m2 .int 2 3 (ints [0,2,4,1,3,5])) := by decide +kernel
example : see ab.flatten = .larry [4] (ints [1,2,3,4]) .int [[[97,99],[97,100],[98,99],[98,100]]] := by decide +kernel
def abf : Seen Nat := .larry [2,2] [fl 1, fl 2, fl 3, fl 4] .float [[97,98],[99,100]]
example : see ((⟨NDArray.ofList [4] (ints [1,2,3,4]), .int, [[[97,99],[97,100],[98,99],[98,100]]]⟩ : Larry (List Nat)).unflatten) = abf := by decide +kernel
example : see ((i1 [1,2,3]).insertaxis (some 0) 77) = .larry [1,3] (ints [1,2,3]) .int [[77], nat 3] := by decide +kernel
example : see ((i1 [1,2,3]).insertaxis (some 1) 77) = .larry [3,1] (ints [1,2,3]) .int [nat 3, [77]] := by decide +kernel
def tup : List (List Nat × Val) := [([97,99], .int 1), ([97,100], .int 2), ([98,99], .int 3), ([98,100], .int 4)]
example : ab.totuples = .ok tup := by decide +kernel
example : see (Larry.fromtuples tup) = abf := by decide +kernel
example : see (Larry.fromtuples tup.dropLast) = .larry [2,2] [fl 1, fl 2, fl 3, nn] .float [[97,98],[99,100]] := by decide +kernel
example : ab.tolist = .ok (ints [1,2,3,4], [[97,99],[97,100],[98,99],[98,100]]) := by decide +kernel
example : see (Larry.fromlist (ints [1,2,3,4], [[97,99],[97,100],[98,99],[98,100]])) = abf := by decide +kernel
example : see (Larry.fromdict tup) = abf := by decide +kernel

-- flarry
def al1 := i1 [1,2]
def al2 := i1 [1,2,3]
def seePair : Res (Larry Nat × Larry Nat) → Seen Nat × Seen Nat
  | .error e => (.error e, .error e)
  | .ok p => (ofL p.1, ofL p.2)
example : seePair (align al1 al2) = (li [1,2] (nat 2), li [1,2] (nat 2)) := by decide +kernel
example : seePair (align al1 al2 (.one .outer)) = (lf [fl 1, fl 2, nn] (nat 3), li [1,2,3] (nat 3)) := by decide +kernel
def views : Res (AlignSt × List (Option (List Nat))) → Option (Bool × Bool)
  | .error _ => none
  | .ok p => some (p.1.v1, p.1.v2)
example : views (alignRaw al1 al2 (.one .inner) true) = some (false, false) := by decide +kernel
example : views (alignRaw al1 al2 (.one .outer) true) = some (false, false) := by decide +kernel
example : views (alignRaw al1 (i1 [3,4]) (.one .inner) true) = some (true, true) := by decide +kernel
def l1 := i1l [1,2,3,4] [97,98,99,100]
def l2 := i2 2 2 [4,5,6,7] [120,121] [99,100]
def l3 := i1l [8,9,10] [99,100,101]
def seeAll : Res (List (Larry Nat)) → List (Seen Nat)
  | .error e => [.error e]
  | .ok l => l.map ofL
-- the docstring's answers for a list of axes are not what the code gives (finding 1 in DESIGN.md)
example : seeAll (alignAxisN [l1, l2] [0,1] .inner) ≠ [li [3,4] [99,100], ofL l2] := by decide +kernel
example : seeAll (alignAxisN [l1, l3] [0,0] .outer) = [lf [fl 1, fl 2, fl 3, fl 4, nn] [97,98,99,100,101], lf [nn, nn, fl 8, fl 9, fl 10] [97,98,99,100,101]] := by decide +kernel
example : seeAll (alignAxisN [l1, l2, l3] [0,1,0] .inner) ≠ [li [3,4] [99,100], ofL l2, li [8,9] [99,100]] := by decide +kernel
def ia1 := i2 2 2 [1,2,3,4] [1,2] [1,2]
def ia2 := i2 2 2 [1,2,3,4] [2,1] [1,2]
example : isaligned ia1 ia2 none = .ok false := by decide +kernel
example : isaligned ia1 ia2 (some 0) = .ok false := by decide +kernel
example : isaligned ia1 ia2 (some 1) = .ok true := by decide +kernel
def u2 := i2 2 2 [1,2,3,4] [101,98] [102,100]
example : union 0 [ab, u2] = .ok [97,98,101] := by decide +kernel
example : union 1 [ab, u2] = .ok [99,100,102] := by decide +kernel
example : intersection 0 [ab, u2] = .ok [98] := by decide +kernel
example : intersection 1 [ab, u2] = .ok [100] := by decide +kernel
def b1 : Larry Nat := ⟨NDArray.ofList [3] [fl 1, fl 2, nn], .float, [[97,98,99]]⟩
def b2 : Larry Nat := ⟨NDArray.ofList [3] [fl 1, nn, nn], .float, [[97,98,100]]⟩
def cvt (d : DType) (v : Val) : Val := if d = .float then v.toFloat else v
def bin (f : FArith) (j : Join) (m n : Option Val) := see (f.call cvt false b1 b2 (.one j) true m n)
def two (l : List Val) := lf l [97,98]
def four (l : List Val) := lf l [97,98,99,100]
example : bin .add .inner none none = two [fl 2, nn] := by decide +kernel
example : bin .add .inner (some (.int 0)) none = two [fl 2, fl 2] := by decide +kernel
example : bin .add .outer none none = four [fl 2, nn, nn, nn] := by decide +kernel
example : bin .add .outer (some (.int 0)) (some (.int 0)) = four [fl 2, fl 2, fl 0, fl 0] := by decide +kernel
example : see (BinOp.larrys false (.arith .add) b1 b2) = two [fl 2, nn] := by decide +kernel
example : bin .subtract .inner none none = two [fl 0, nn] := by decide +kernel
example : bin .subtract .inner (some (.int 0)) none = two [fl 0, fl 2] := by decide +kernel
example : bin .subtract .outer none none = four [fl 0, nn, nn, nn] := by decide +kernel
example : bin .subtract .outer (some (.int 0)) (some (.int 0)) = four [fl 0, fl 2, fl 0, fl 0] := by decide +kernel
example : bin .multiply .inner none none = two [fl 1, nn] := by decide +kernel
example : bin .multiply .inner (some (.int 1)) none = two [fl 1, fl 2] := by decide +kernel
example : bin .multiply .outer none none = four [fl 1, nn, nn, nn] := by decide +kernel
example : bin .multiply .outer (some (.int 1)) (some (.int 1)) = four [fl 1, fl 2, fl 1, fl 1] := by decide +kernel
example : bin .divide .inner none none = two [fl 1, nn] := by decide +kernel
example : bin .divide .inner (some (.int 1)) none = two [fl 1, fl 2] := by decide +kernel
example : bin .divide .outer none none = four [fl 1, nn, nn, nn] := by decide +kernel
example : bin .divide .outer (some (.int 1)) (some (.int 1)) = four [fl 1, fl 2, fl 1, fl 1] := by decide +kernel
def argInt (l : List Val) : List Nat := (List.range l.length).insertionSort (fun a b => (Larry.intOf (l.getD a .none) < Larry.intOf (l.getD b .none) ∨ (Larry.intOf (l.getD a .none) = Larry.intOf (l.getD b .none) ∧ a ≤ b)))
example : (unique argInt (i1 [1,1,2,2,3,3])).values = ints [1,2,3] := by decide +kernel
example : (unique argInt (m2 .int 2 2 (ints [1,1,2,3]))).values = ints [1,2,3] := by decide +kernel
example : unique argInt (i1 [97,98,98,99,97]) true false = ⟨ints [97,98,99], some [0,1,3], none⟩ := by decide +kernel
example : see (stack (some true) [(50, m2 .int 2 2 (ints [1,2,3,4])), (60, m2 .int 2 2 (ints [5,6,7,8]))]) = .larry [2,2,2] ([1,2,3,4,5,6,7,8].map fl) .float [[50,60], nat 2, nat 2] := by decide +kernel
def pan : Larry Nat := ⟨NDArray.ofList [1,2,2] [fl 0, fl 0, fl 1, fl 1], .float, [[9],[1,2],[3,4]]⟩
example : see (panel pan) = .larry [4,1] [fl 0, fl 0, fl 1, fl 1] .float [[.inr [1,3], .inr [1,4], .inr [2,3], .inr [2,4]], [.inl 9]] := by decide +kernel
example : seeGet (sortby argInt (i2 2 3 [1,2,3,3,1,2] [97,98] [99,100,101]) 98 0 false) = ofL (i2 2 3 [2,3,1,1,2,3] [97,98] [100,101,99]) := by decide +kernel
example : see (lrange id (some [3]) none 0 1 (some .float)) = lf [fl 0, fl 1, fl 2] (nat 3) := by decide +kernel
example : see (lrange id (some [2,3,3]) none 0 1 none) = .larry [2,3,3] (ints ((nat 18).map Int.ofNat)) .int [nat 2, nat 3, nat 3] := by decide +kernel
example : see (lrange id none (some [[97,98]]) 0 1 none) = li [0,1] [97,98] := by decide +kernel
example : see (filled (fun _ => .none) id 1 (some [3]) none (some .int)) = li [1,1,1] (nat 3) := by decide +kernel
example : see (filled (fun _ => .none) id 0 none (some [[97,98]]) none) = lf [fl 0, fl 0] [97,98] := by decide +kernel
example : listmap [1,2,3] [3,1,2] = .ok [2,0,1] := by decide +kernel
example : listmap [1,2] [1,2,3] = .error .keyError := by decide +kernel
example : listmap [1,2] [1,2,3] true = .ok [0,1] := by decide +kernel
example : listmapFill [1,2,3] [3,1,2] = ([2,0,1], []) := by decide +kernel
example : listmapFill [1,2,3] [1,2,3,4] = ([0,1,2,0], [3]) := by decide +kernel
example : movingsumLine .int 2 0 false (ints [1,2,3,4,5]) = [nn, fl 3, fl 5, fl 7, fl 9] := by decide +kernel
example : movingsumLine .float 2 0 false [fl 1, fl 2, nn, fl 4, fl 5] = [nn, fl 3, fl 2, fl 4, fl 9] := by decide +kernel
example : movingsumLine .float 2 0 true [fl 1, fl 2, nn, fl 4, fl 5] = [nn, fl 3, fl 4, fl 8, fl 9] := by decide +kernel
example : demeanLine nanmean [fl 1, nn, fl 2, fl 3] = [fl (-1), nn, fl 0, fl 1] := by decide +kernel
example : demeanLine medianOf [fl 1, nn, fl 2, fl 10] = [fl (-1), nn, fl 0, fl 8] := by decide +kernel

end La.Checks.Docstrings
