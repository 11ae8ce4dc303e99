import Verif.Flarry
import Verif.Arith

/-!
`la.add`, `la.subtract`, `la.multiply`, `la.divide` (la/flarry.py:790-1268): `binaryop` with a numpy function.
-/

namespace La
open Arith
variable {L : Type _}

/-- The four functions. -/
inductive FArith
  | add | subtract | multiply | divide
  deriving DecidableEq

/-- The operator of the same name. -/
def FArith.op : FArith → ArithOp
  | .add => .add
  | .subtract => .sub
  | .multiply => .mul
  | .divide => .div

/-- `np.add` (la/flarry.py:907), `np.subtract` (1027), `np.multiply` (1147), `np.divide` (1267); in Python 3 `np.divide` is
`np.true_divide`. -/
def FArith.uf (py3 : Bool) : FArith → UFunc2
  | .add => npAdd
  | .subtract => npSubtract
  | .multiply => npMultiply
  | .divide => if py3 then npTrueDivide else npDivide

/-- A result of `binaryop` as a larry. With join 'skip' a label of the result is `None`; such results are left out (TypeError). -/
def resultLarry (r : NDArray Val × DType × List (Option (List L))) : Res (Larry L) :=
  match r.2.2.mapM id with
  | none => .error .typeError
  | some label => .ok ⟨r.1, r.2.1, label⟩

/-- `la.add(lar1, lar2, join, cast, missone, misstwo)` and so on (la/flarry.py:907-908, 1027-1028, 1147-1148, 1267-1268). -/
def FArith.call [LinearOrder L] (f : FArith) (cv : DType → Val → Val) (py3 : Bool) (lar1 lar2 : Larry L) (join : JoinArg) (cast : Bool)
    (missone misstwo : Option Val) : Res (Larry L) :=
  match binaryop cv (f.uf py3) lar1 lar2 join cast missone misstwo with
  | .error e => .error e
  | .ok r => resultLarry r

end La
