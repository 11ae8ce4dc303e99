import Verif.Lix
import Verif.Group
import Verif.MoveBn
import Verif.Kernel
import Verif.Stack

/-!
# Histories: sequences of calls on the larrys a program holds

The methods and functions are the ones modelled in the other modules; this file only strings them
together.  A program holds its larrys in numbered variables.  A call reads variables, and either binds
its results to new variables or, for the methods that work in place, replaces a variable.  Larrys are
values here: that a variable may share memory with another is the subject of Heap.lean.
-/

namespace La
section
variable {L : Type _} [LinearOrder L]

/-- One call.  `i`, `j`, `is` are variables. -/
inductive Cmd (L : Type _)
  | new (x : NDArray Val) (d : DType) (label : List (List L))           -- larry(x, label)
  | morph (i : Nat) (lab : List L) (axis : Int)
  | morphLike (i j : Nat)
  | binop (uf : UFunc2) (i j : Nat)                                     -- + - * / // & |
  | binopArray (uf : UFunc2) (i : Nat) (x : NDArray Val) (d : DType)
  | compare (uf : UFunc2) (i j : Nat)                                   -- < <= > >= == !=
  | merge (i j : Nat) (update : Bool)
  | align (i j : Nat) (join : JoinArg) (cast : Bool)
  | alignAxis (is : List Nat) (axis : List Int) (join : Join)
  | binaryop (cv : DType → Val → Val) (uf : UFunc2) (i j : Nat) (join : JoinArg) (cast : Bool)
      (missone misstwo : Option Val)
  | stack (mode : Option Bool) (kwargs : List (L × Nat))
  | sortby (argsort : List Val → List Nat) (i : Nat) (element : L) (axis : Int) (reverse : Bool)
  | sortaxis (i : Nat) (axis : Option Int) (reverse : Bool)
  | keepLabel (i : Nat) (op : LabelOp L) (axis : Option Int)
  | pull (i : Nat) (name : L) (axis : Option Int)
  | take (i : Nat) (indices : List Int) (axis : Int)
  | flipaxis (i : Nat) (axis : Option Int)
  | lag (i : Nat) (nlag : Int) (axis : Option Int)
  | transpose (i : Nat)
  | swapaxes (i : Nat) (axis1 axis2 : Int)
  | squeeze (i : Nat)
  | insertaxis (i : Nat) (axis : Option Int) (name : L)
  | maplabel (i : Nat) (f : L → L) (axis : Option Int)
  | getitem (i : Nat) (idx : Index L)
  | lix (i : Nat) (idx : LIndex L)
  | reduce (r : Red) (i : Nat) (axis : Option Int)                      -- sum, mean, std, lastrank, ...
  | prod (i : Nat) (axis : Option Int)
  | cumsum (i : Nat) (axis : Option Int)
  | cumprod (i : Nat) (axis : Option Int)
  | clip (i : Nat) (lo hi : Flt)
  | push (i : Nat) (window : Int) (axis : Int)
  | ranking (i : Nat) (axis : Option Int) (norm : RankNorm)
  | quantile (argsort : List ℚ → List Nat) (i : Nat) (q : Int) (axis : Option Int)
  | demean (center : List Flt → Flt) (i : Nat) (axis : Option Int)
  | zscore (std : List Flt → Flt) (i : Nat) (axis : Option Int)
  | movingsumForward (i : Nat) (window : Int) (skip : Nat) (axis : Int) (norm : Bool)
  | moveFunc (f : List Val → Val) (i : Nat) (buf : Int → Val) (strides : List Int) (offset : Int) (window : Int)
      (axis : Option Int) (m : MoveMethod)
  | moveBn (k : MoveKind) (i : Nat) (window axis : Int)                  -- move_sum, move_mean, move_std, move_min, move_max
  | group (sort : List Val → List Val) (f : List Val → List Val) (i j : Nat) (axis : Int)
  | ismissing (i : Nat)
  | vacuum (i : Nat) (axis : Option (List Int))
  | cutMissing (i : Nat) (fraction : ℚ) (axis : Option Int)
  | keepX (i : Nat) (op : CmpOp) (value : Flt) (vac : Bool)
  | set (i : Nat) (names : List L) (v : Val)                            -- in place from here on
  | setAt (conv : Val → Val) (i : Nat) (idx : NpIndex) (v : SetVal L)
  | setMask (i j : Nat) (v : Val)
  | lixSet (conv : Val → Val) (i : Nat) (idx : LIndex L) (v : SetVal L)

/-- The larrys of a program. -/
abbrev Store (L : Type _) := List (Larry L)

/-- A variable that was never bound is a NameError; the model says KeyError. -/
def Store.var (st : Store L) (i : Nat) : Res (Larry L) :=
  match st[i]? with
  | some y => .ok y
  | none => .error .keyError

/-- Call a function on variable `i`. -/
def Store.on {α : Type _} (st : Store L) (i : Nat) (f : Larry L → Res α) : Res α :=
  match st.var i with
  | .error e => .error e
  | .ok y => f y

/-- The larrys among the results of a call. -/
def Res.one (r : Res (Larry L)) : Res (List (Larry L)) :=
  match r with
  | .error e => .error e
  | .ok z => .ok [z]

def Res.out (r : Res (Out L)) : Res (List (Larry L)) :=
  match r with
  | .error e => .error e
  | .ok (.scalar _) => .ok []
  | .ok (.larry z) => .ok [z]

def Res.getOut (r : Res (GetOut L)) : Res (List (Larry L)) :=
  match r with
  | .error e => .error e
  | .ok (.scalar _) => .ok []
  | .ok (.array _) => .ok []
  | .ok (.larry z) => .ok [z]

def Res.both (r : Res (Larry L × Larry L)) : Res (List (Larry L)) :=
  match r with
  | .error e => .error e
  | .ok (z1, z2) => .ok [z1, z2]

/-- The larry `binaryop` returns; a skipped axis has the label None in the code and no labels here. -/
def Res.raw (r : Res (NDArray Val × DType × List (Option (List L)))) : Res (List (Larry L)) :=
  match r with
  | .error e => .error e
  | .ok (x, d, labs) => .ok [⟨x, d, labs.map (fun l => l.getD [])⟩]

/-- The larrys a call returns.  The methods that work in place return the changed larry here. -/
def Cmd.results (st : Store L) : Cmd L → Res (List (Larry L))
  | .new x d label => Res.one (Larry.mk' x d label)
  | .morph i lab axis => st.on i fun y => Res.one (y.morph lab axis)
  | .morphLike i j => st.on i fun y => st.on j fun z => Res.one (y.morphLike z)
  | .binop uf i j => st.on i fun y => st.on j fun z => Res.one (Larry.binop uf y z)
  | .binopArray uf i x d => st.on i fun y => Res.one (Larry.binopArray uf y x d)
  | .compare uf i j => st.on i fun y => st.on j fun z => Res.one (Larry.compare uf y z)
  | .merge i j update => st.on i fun y => st.on j fun z => Res.one (La.merge y z update)
  | .align i j join cast => st.on i fun y => st.on j fun z => Res.both (La.align y z join cast)
  | .alignAxis is axis join => match mapRes st.var is with
    | .error e => .error e
    | .ok ys => alignAxisN ys axis join
  | .binaryop cv uf i j join cast m1 m2 => st.on i fun y => st.on j fun z =>
      Res.raw (La.binaryop cv uf y z join cast m1 m2)
  | .stack mode kwargs => match mapRes st.var (kwargs.map Prod.snd) with
    | .error e => .error e
    | .ok ys => Res.one (La.stack mode ((kwargs.map Prod.fst).zip ys))
  | .sortby argsort i element axis reverse => st.on i fun y => Res.getOut (La.sortby argsort y element axis reverse)
  | .sortaxis i axis reverse => st.on i fun y => Res.one (y.sortaxis axis reverse)
  | .keepLabel i op axis => st.on i fun y => Res.one (y.keepLabel op axis)
  | .pull i name axis => st.on i fun y => Res.out (y.pull name axis)
  | .take i indices axis => st.on i fun y => Res.one (y.take indices axis)
  | .flipaxis i axis => st.on i fun y => Res.one (y.flipaxis axis)
  | .lag i nlag axis => st.on i fun y => Res.one (y.lag nlag axis)
  | .transpose i => st.on i fun y => .ok [y.T]
  | .swapaxes i axis1 axis2 => st.on i fun y => Res.one (y.swapaxes axis1 axis2)
  | .squeeze i => st.on i fun y => .ok [y.squeeze]
  | .insertaxis i axis name => st.on i fun y => Res.one (y.insertaxis axis name)
  | .maplabel i f axis => st.on i fun y => Res.one (y.maplabel f axis)
  | .getitem i idx => st.on i fun y => Res.getOut (y.getitem idx)
  | .lix i idx => st.on i fun y => Res.getOut (y.lixGet idx)
  | .reduce r i axis => st.on i fun y => Res.out (y.reduce r axis)
  | .prod i axis => st.on i fun y => Res.out (y.prod axis)
  | .cumsum i axis => st.on i fun y => Res.one (y.cumsum axis)
  | .cumprod i axis => st.on i fun y => Res.one (y.cumprod axis)
  | .clip i lo hi => st.on i fun y => Res.one (y.clip lo hi)
  | .push i window axis => st.on i fun y => Res.one (y.push window axis)
  | .ranking i axis norm => st.on i fun y => Res.one (y.ranking axis norm)
  | .quantile argsort i q axis => st.on i fun y => Res.one (y.quantile argsort q axis)
  | .demean center i axis => st.on i fun y => Res.one (y.demean center axis)
  | .zscore std i axis => st.on i fun y => Res.one (y.zscore std axis)
  | .movingsumForward i window skip axis norm => st.on i fun y => Res.one (y.movingsumForward window skip axis norm)
  | .moveFunc f i buf strides offset window axis m => st.on i fun y =>
      Res.one (y.moveFunc f buf ⟨y.x.shape, strides, offset⟩ window axis m)
  | .moveBn k i window axis => st.on i fun y => Res.one (k.run y window axis)
  | .group sort f i j axis => st.on i fun y => st.on j fun g => Res.one (y.groupBy sort f g axis)
  | .ismissing i => st.on i fun y => .ok [y.ismissing]
  | .vacuum i axis => st.on i fun y => Res.one (y.vacuum axis)
  | .cutMissing i fraction axis => st.on i fun y => Res.one (y.cutMissing fraction axis)
  | .keepX i op value vac => st.on i fun y => Res.one (y.keepX op value vac)
  | .set i names v => st.on i fun y => Res.one (y.set names v)
  | .setAt conv i idx v => st.on i fun y => Res.one (y.setAt conv idx v)
  | .setMask i j v => st.on i fun y => st.on j fun m => Res.one (y.setMask m v)
  | .lixSet conv i idx v => st.on i fun y => Res.one (y.lixSet conv idx v)

/-- The variable a call changes in place. -/
def Cmd.target : Cmd L → Option Nat
  | .set i _ _ => some i
  | .setAt _ i _ _ => some i
  | .setMask i _ _ => some i
  | .lixSet _ i _ _ => some i
  | _ => none

/-- Run one call: new variables for the results, or the variable replaced. -/
def Cmd.step (c : Cmd L) (st : Store L) : Res (Store L) :=
  match c.results st with
  | .error e => .error e
  | .ok zs => match c.target with
    | none => .ok (st ++ zs)
    | some i => .ok (zs.foldl (fun st z => st.set i z) st)

/-- Run a history.  An exception is caught by the program and leaves the variables as they were. -/
def runAll (st : Store L) : List (Cmd L) → Store L
  | [] => st
  | c :: cs => match c.step st with
    | .error _ => runAll st cs
    | .ok st' => runAll st' cs

end
end La
