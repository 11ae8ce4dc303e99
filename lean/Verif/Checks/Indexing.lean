import Verif.Checks.Seen

/-!
# Values expected by the indexing, slicing, lix, group and ranking tests

la/tests/deflarry_getitem_test.py, slicing_test.py and lix_test.py, and the group and ranking tests of
la/farray/tests/farray_test.py.
-/

namespace La.Checks.Indexing
open La.Checks

def a1 : Larry Nat := F [[1,nn],[3,4],[5,6]]
def a2 : Larry Nat := I [0,1,2,3]
def sl (a b : Option Int) : Item Nat := .slice {start := a, stop := b}
def g1 (y : Larry Nat) (i : Item Nat) := seeGet (y.getitem (.one i))
def gt (y : Larry Nat) (i : List (Item Nat)) := seeGet (y.getitem (.tuple i))
def B1 (xs : List Bool) (l : List Nat) : Larry Nat := ⟨NDArray.ofList [xs.length] (xs.map .bool), .bool, [l]⟩
-- getitem
example : g1 a1 (.int 1) = ofL (V [3,4]) := by decide +kernel
example : gt a1 [.int 1, sl none none] = ofL (V [3,4]) := by decide +kernel
example : gt a1 [.int 1, sl (some 0) (some 2)] = ofL (V [3,4]) := by decide +kernel
example : gt a1 [.int 1, .int 1] = .scalar 4 := by decide +kernel
example : gt a1 [.mask [false,true,true], sl none none] = ofL (FL [[3,4],[5,6]] [1,2] [0,1]) := by decide +kernel
example : gt a1 [sl (some 0) (some 2), sl (some 0) (some 2)] = ofL (F [[1,nn],[3,4]]) := by decide +kernel
example : g1 a1 (.seq [1,2]) = ofL (FL [[3,4],[5,6]] [1,2] [0,1]) := by decide +kernel
example : g1 a1 (.int 100) = .error .indexError := by decide +kernel
example : g1 a1 .other = .error .indexError := by decide +kernel
example : g1 a2 (.int 1) = .scalar (.int 1) := by decide +kernel
example : g1 a2 (sl none (some 2)) = ofL (I [0,1]) := by decide +kernel
example : g1 a1 (.seq [0,2,1]) = ofL (FL [[1,nn],[5,6],[3,4]] [0,2,1] [0,1]) := by decide +kernel
example : seeGet (a1.getObj (.list [.inl true, .inl false])) = ofL (FL [[3,4],[1,nn]] [1,0] [0,1]) := by decide +kernel
example : g1 a1 (.seq [0,1,0]) = .error .indexError := by decide +kernel
example : gt a1 [.mask [true,false], sl none none] = ofL (F [[1,nn]]) := by decide +kernel
example : gt a1 [sl none none, .mask [true,false]] = ofL (F [[1],[3],[5]]) := by decide +kernel
example : seeGet (a1.getObj (.number .float (19/10))) = ofL (V [3,4]) := by decide +kernel
example : seeGet (a1.getObjs [.number .float (11/10), .number .float (11/10)]) = .scalar 4 := by decide +kernel
example : gt a1 [.seq [1,2], sl none none] = ofL (FL [[3,4],[5,6]] [1,2] [0,1]) := by decide +kernel
example : gt a1 [.seq [1,2], .int 0] = ofL ⟨NDArray.ofList [2] [3,5], .float, [[1,2]]⟩ := by decide +kernel
example : g1 ⟨NDArray.ofList [2] [.none,.none], .object, [[0,1]]⟩ (.int 0) = .scalar .none := by decide +kernel
example : gt a1 [sl none none, sl (some 1) (some 1)] = ofL ⟨NDArray.ofList [3,0] [], .float, [[0,1,2],[]]⟩ := by decide +kernel
example : g1 a1 (.lar (B1 [true,false,true] [0,1,2])) = g1 a1 (.seq [0,2]) := by decide +kernel
example : gt a1 [sl none none, .lar (B1 [true,false] [0,1])] = gt a1 [sl none none, .seq [0]] := by decide +kernel
example : g1 a2 (.lar (B1 [true,false,true,false] [0,1,2,3])) = g1 a2 (.seq [0,2]) := by decide +kernel
example : g1 a1 (.lar (B1 [false,true,false,true] [3,2,1,0])) = .error .indexError := by decide +kernel
example : g1 a2 (.lar (B1 [false,true,false,true] [3,2,1,0])) = .error .indexError := by decide +kernel
example : g1 a1 (.lar (I [0,1,2,3])) = .error .indexError := by decide +kernel
example : g1 a2 (.lar (I [0,1,2,3])) = .error .indexError := by decide +kernel
example : gt a1 [sl none none, .lar (B1 [false,true] [1,0])] = .error .indexError := by decide +kernel
-- slicing_test
def x3 : Larry Nat := ⟨NDArray.ofList [2,3,4] [2,2,3,1,3,2,2,1,1,1,1,1,4,4,6,2,6,4,4,2,2,2,2,2], .float, [[0,1],[0,1,2],[0,1,2,3]]⟩
example : gt x3 [sl none none, sl none none, sl none (some 2)] = ofL ⟨NDArray.ofList [2,3,2] [2,2,3,2,1,1,4,4,6,4,2,2], .float, [[0,1],[0,1,2],[0,1]]⟩ := by decide +kernel
example : gt x3 [sl none none, sl none (some 1), sl none (some 2)] = ofL ⟨NDArray.ofList [2,1,2] [2,2,4,4], .float, [[0,1],[0],[0,1]]⟩ := by decide +kernel
example : gt x3 [sl none none, sl none none, .int 0] = ofL ⟨NDArray.ofList [2,3] [2,3,1,4,6,2], .float, [[0,1],[0,1,2]]⟩ := by decide +kernel
example : gt x3 [sl none none, .int 0, .int 0] = ofL ⟨NDArray.ofList [2] [2,4], .float, [[0,1]]⟩ := by decide +kernel
example : gt x3 [sl none none, sl none (some 2)] = ofL ⟨NDArray.ofList [2,2,4] [2,2,3,1,3,2,2,1,4,4,6,2,6,4,4,2], .float, [[0,1],[0,1],[0,1,2,3]]⟩ := by decide +kernel
example : gt x3 [.int 0,.int 0,.int 0] = .scalar 2 := by decide +kernel
example : see (x3.morph [0,2,1] 1) = ofL ⟨NDArray.ofList [2,3,4] [2,2,3,1,1,1,1,1,3,2,2,1,4,4,6,2,2,2,2,2,6,4,4,2], .float, [[0,1],[0,2,1],[0,1,2,3]]⟩ := by decide +kernel
example : see (x3.morph [0,2,1] 2) = ofL ⟨NDArray.ofList [2,3,3] [2,3,2,3,2,2,1,1,1,4,6,4,6,4,4,2,2,2], .float, [[0,1],[0,1,2],[0,2,1]]⟩ := by decide +kernel
-- lix
def ar (s : List Nat) : Larry Nat := ⟨NDArray.ofList s ((List.range s.prod).map (fun n : Nat => Val.int n)), .int, s.map List.range⟩
def val : Seen Nat → Option (List Nat × List Val)
  | .scalar v => some ([], [v])
  | .larry s xs _ _ => some (s, xs)
  | .array s xs => some (s, xs)
  | .error _ => none
def lx (s : List Nat) (i : List (LItem Nat)) := val (seeGet (match i with
  | [a] => (ar s).lixGet (.one a)
  | _ => (ar s).lixGet (.tuple i)))
def ix (s : List Nat) (i : List (List Nat)) : Option (List Nat × List Val) :=
  let r := ((ar s).x.grid (i ++ (s.drop i.length).map List.range)).squeeze
  some (r.shape, r.vals)
def LS (a b : LBound Nat) (c : Option Int) : LItem Nat := .slice ⟨a,b,c⟩
def al : LItem Nat := LS .none .none none
def NN : LBound Nat := .none
example : lx [2,3,4] [.list [0], .list [0], .list [0]] = ix [2,3,4] [[0],[0],[0]] := by decide +kernel
example : lx [3,4] [.list [0], .list [0]] = ix [3,4] [[0],[0]] := by decide +kernel
example : lx [3] [.list [0]] = ix [3] [[0]] := by decide +kernel
example : lx [2,3,4] [.list [0,1], .list [0,1,2], .list [0,1,2,3]] = ix [2,3,4] [[0,1],[0,1,2],[0,1,2,3]] := by decide +kernel
example : lx [3,4] [.list [0,1,2], .list [0,1,2,3]] = ix [3,4] [[0,1,2],[0,1,2,3]] := by decide +kernel
example : lx [3] [.list [0,1,2]] = ix [3] [[0,1,2]] := by decide +kernel
example : lx [2,3,4] [.list [0], .list [0], al] = ix [2,3,4] [[0],[0],[0,1,2,3]] := by decide +kernel
example : lx [2,3,4] [.list [0], al, al] = ix [2,3,4] [[0],[0,1,2],[0,1,2,3]] := by decide +kernel
example : lx [2,3,4] [al, al, al] = ix [2,3,4] [[0,1],[0,1,2],[0,1,2,3]] := by decide +kernel
example : lx [2,3,4] [.list [0], .list [0], LS (.list [1]) NN none] = ix [2,3,4] [[0],[0],[1,2,3]] := by decide +kernel
example : lx [2,3,4] [.list [0], LS (.list [1]) NN none, al] = ix [2,3,4] [[0],[1,2],[0,1,2,3]] := by decide +kernel
example : lx [2,3,4] [LS (.list [1]) NN none, al, al] = ix [2,3,4] [[1],[0,1,2],[0,1,2,3]] := by decide +kernel
example : lx [2,3,4] [.list [0], .list [0], LS NN (.list [1]) none] = ix [2,3,4] [[0],[0],[0]] := by decide +kernel
example : lx [2,3,4] [.list [0], LS NN (.list [1]) none, al] = ix [2,3,4] [[0],[0],[0,1,2,3]] := by decide +kernel
example : lx [2,3,4] [LS NN (.list [1]) none, al, al] = ix [2,3,4] [[0],[0,1,2],[0,1,2,3]] := by decide +kernel
example : lx [2,3,4] [.list [0], .list [0], LS NN (.list [1]) (some 2)] = ix [2,3,4] [[0],[0],[0]] := by decide +kernel
example : lx [2,3,4] [.list [0,1], .list [0,2], LS NN (.list [1]) none] = ix [2,3,4] [[0,1],[0,2],[0]] := by decide +kernel
example : lx [2,3,4] [.list [1,0], LS NN (.list [1]) none, al] = ix [2,3,4] [[1,0],[0],[0,1,2,3]] := by decide +kernel
example : lx [2,3,4] [LS NN (.list [1]) none, .list [0], al] = ix [2,3,4] [[0],[0],[0,1,2,3]] := by decide +kernel
example : lx [2,3,4] [al] = ix [2,3,4] [[0,1]] := by decide +kernel
example : lx [3,3,3,3] [.list [0,1], .list [0,1,2], .list [0,2]] = ix [3,3,3,3] [[0,1],[0,1,2],[0,2]] := by decide +kernel
example : lx [2,3,4] [al, al, .list [1]] = ix [2,3,4] [[0,1],[0,1,2],[1]] := by decide +kernel
example : lx [2,3,4] [.int 0, .int 0, .int 0] = ix [2,3,4] [[0],[0],[0]] := by decide +kernel
example : lx [3,4] [.list [0], .int 0] = ix [3,4] [[0],[0]] := by decide +kernel
example : lx [3] [.int 0] = ix [3] [[0]] := by decide +kernel
example : lx [2,3,4] [.int 0, .int 0, al] = ix [2,3,4] [[0],[0],[0,1,2,3]] := by decide +kernel
example : lx [2,3,4] [.int 0, al, al] = ix [2,3,4] [[0],[0,1,2],[0,1,2,3]] := by decide +kernel
example : lx [2,3,4] [.list [0], .list [0], LS (.int 1) NN none] = ix [2,3,4] [[0],[0],[1,2,3]] := by decide +kernel
example : lx [2,3,4] [.int 0, LS (.int 1) NN none, al] = ix [2,3,4] [[0],[1,2],[0,1,2,3]] := by decide +kernel
example : lx [2,3,4] [LS (.int 0) (.list [1]) none, al, al] = ix [2,3,4] [[0],[0,1,2],[0,1,2,3]] := by decide +kernel
example : lx [2,3,4] [.int 0, LS NN (.int 1) (some 2), al] = ix [2,3,4] [[0],[0],[0,1,2,3]] := by decide +kernel
example : lx [2,3,4] [LS NN (.int 1) none, .int 0, al] = ix [2,3,4] [[0],[0],[0,1,2,3]] := by decide +kernel
example : lx [2,3,4] [al, al, .int 1] = ix [2,3,4] [[0,1],[0,1,2],[1]] := by decide +kernel
-- lix setitem
def q4 : Larry Nat := I2L [[0,1],[2,3]] [10,11] [20,21]
def q9 : Larry Nat := I2L [[0,1,2],[3,4,5],[6,7,8]] [10,11,12] [1,2,3]
def ls (y : Larry Nat) (i : LIndex Nat) (v : SetVal Nat) := see (y.lixSet id i v)
example : ls (IL [0,1] [10,11]) (.one (.list [10])) (.scalar (.int 9)) = ofL (IL [9,1] [10,11]) := by decide +kernel
example : ls q4 (.one (.list [10])) (.scalar (.int 9)) = ofL (I2L [[9,9],[2,3]] [10,11] [20,21]) := by decide +kernel
example : ls q4 (.one (.int 0)) (.scalar (.int 9)) = ofL (I2L [[9,9],[2,3]] [10,11] [20,21]) := by decide +kernel
example : ls q4 (.one (LS (.list [10]) (.list [11]) none)) (.scalar (.int 9)) = ofL (I2L [[9,9],[2,3]] [10,11] [20,21]) := by decide +kernel
example : ls q4 (.tuple [.list [11], .list [21]]) (.scalar (.int 9)) = ofL (I2L [[0,1],[2,9]] [10,11] [20,21]) := by decide +kernel
example : ls q9 (.tuple [.list [10,11], .list [1,2]]) (.scalar (.int 9)) = ofL (I2L [[9,9,2],[9,9,5],[6,7,8]] [10,11,12] [1,2,3]) := by decide +kernel
example : ls q4 (.one (.list [10])) (.lar (IL [9,10] [20,21])) = ofL (I2L [[9,10],[2,3]] [10,11] [20,21]) := by decide +kernel
example : ls q4 (.one (.list [10])) (.lar (IL [10,9] [21,20])) = .error .indexError := by decide +kernel
example : ls q4 (.tuple [al, .list [21]]) (.lar (I2L [[9],[10]] [10,11] [21])) = ofL (I2L [[0,9],[2,10]] [10,11] [20,21]) := by decide +kernel
-- groups
def gx : Larry Nat := F [[0,3,nn,nn,0,nn],[1,1,1,nn,nn,nn],[2,2,0,nn,1,nn],[3,0,2,nn,nn,nn],[4,4,3,0,2,nn],[5,5,4,4,nn,nn]]
def grp (l : List String) : Larry Nat := ⟨NDArray.ofList [l.length] (l.map (fun s => if s = "" then Val.none else .str s)), .object, [nat l.length]⟩
def srt (l : List Val) : List Val := l
def hf : Rat := 1/2
def nh : Val := fl (3/2)
def half : Val := fl hf
example : see (gx.groupRanking srt (grp ["a","b","a","b","a","c"]) 0) = ofL (F [[-1,0,nn,nn,-1,nn],[-1,1,-1,nn,nn,nn],[0,-1,-1,nn,0,nn],[1,-1,1,nn,nn,nn],[1,1,1,0,1,nn],[0,0,0,0,nn,nn]]) := by decide +kernel
example : see (gx.groupRanking srt (grp ["a","b","a","b","a",""]) 0) = ofL (F [[-1,0,nn,nn,-1,nn],[-1,1,-1,nn,nn,nn],[0,-1,-1,nn,0,nn],[1,-1,1,nn,nn,nn],[1,1,1,0,1,nn],[nn,nn,nn,nn,nn,nn]]) := by decide +kernel
def gm : Larry Nat := F [[2,3,nh,0,1,nn],[2,half,nh,nn,nn,nn],[2,3,nh,0,1,nn],[2,half,nh,nn,nn,nn],[2,3,nh,0,1,nn],[5,5,4,4,nn,nn]]
example : see (gx.groupMean srt (grp ["a","b","a","b","a","c"]) 0) = ofL gm := by decide +kernel
example : see (gx.groupMedian srt medianOf (grp ["a","b","a","b","a","c"]) 0) = ofL gm := by decide +kernel
def ig : Larry Nat := I2 [[1,2],[3,4],[6,7],[0,0],[8,-1]]
example : see (ig.groupMean srt (grp ["a","b","a","b","a"]) 0) = ofL (F [[5,fl (8/3)],[nh,2],[5,fl (8/3)],[nh,2],[5,fl (8/3)]]) := by decide +kernel
example : see (ig.groupMedian srt medianOf (grp ["a","b","a","b","a"]) 0) = ofL (F [[6,2],[nh,2],[6,2],[nh,2],[6,2]]) := by decide +kernel
-- ranking
def t (a b : Int) : Val := fl (a / b : ℚ)
example : see ((F [[1,1,1,1],[1,1,2,2],[2,2,3,2],[2,3,3,3]]).ranking (some 0) .pm1) = ofL (F [[t (-2) 3,t (-2) 3,-1,-1],[t (-2) 3,t (-2) 3,t (-1) 3,0],[t 2 3,t 1 3,t 2 3,0],[t 2 3,1,t 2 3,1]]) := by decide +kernel
example : see ((F [[1,nn,1,nn,nn],[1,1,nn,nn,nn],[1,2,0,2,nn],[1,3,1,1,0]]).ranking (some 1) .pm1) = ofL (F [[0,nn,0,nn,nn],[0,0,nn,nn,nn],[t (-1) 3,t 2 3,-1,t 2 3,nn],[0,1,0,0,-1]]) := by decide +kernel
def pinf : Val := .flt .pinf
def ninf : Val := .flt .ninf
example : see ((V [ninf,nn,1,pinf]).ranking none .pm1) = ofL (V [-1,nn,0,1]) := by decide +kernel
def u : Val := t 8 15
def w : Val := t 8 13
example : see ((F [[1,1,1,1],[1,1,2,2],[2,2,1,2],[2,2,1,2]]).ranking none .pm1) = ofL (F [[-u,-u,-u,-u],[-u,-u,u,u],[u,u,-u,u],[u,u,-u,u]]) := by decide +kernel
example : see ((F [[nn,1,1,1],[1,nh,2,2],[2,nn,1,2],[2,nh,1,2]]).ranking none .pm1) = ofL (F [[nn,-w,-w,-w],[-w,0,w,w],[w,nn,-w,w],[w,0,-w,w]]) := by decide +kernel
example : see ((V [1,pinf,2]).ranking (some 0) .pm1) = ofL (V [-1,1,0]) := by decide +kernel
example : see ((F [[3],[1],[2]]).ranking (some 1) .pm1) = ofL (F [[0],[0],[0]]) := by decide +kernel

end La.Checks.Indexing
