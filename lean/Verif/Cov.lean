import Verif.Flt
import Verif.Larry

/-! # Covariance with missing values (la/farray/misc.py:136-160, la/flarry.py:1471-1502) -/

namespace La

/-- `mask = 1 - np.asarray(np.isnan(R), np.float64)` (la/farray/misc.py:148, 150-151), one element. -/
def presentOf (v : Val) : ℚ := 1 - (if v.isNan then 1 else 0)

/-- `np.dot(mask, mask.T)[i, j]` (la/farray/misc.py:153) for `T` columns. -/
def normalization (R : NDArray Val) (T i j : Nat) : ℚ :=
  ((List.range T).map fun t => presentOf (R.get [i, t]) * presentOf (R.get [j, t])).sum

/-- `np.putmask(R, mask, 0)` (la/farray/misc.py:149), one element. -/
def zeroNan (v : Val) : Flt := if v.isNan then .fin 0 else v.num

/-- `np.dot(R, R.T)[i, j]` (la/farray/misc.py:158).  The product of bool arrays is a bool array. -/
def dotRows (R : NDArray Val) (d : DType) (T i j : Nat) : Flt :=
  if d = .bool then
    .fin (if (List.range T).any (fun t => decide (zeroNan (R.get [i, t]) = .fin 1) && decide (zeroNan (R.get [j, t]) = .fin 1))
      then 1 else 0)
  else Flt.sum ((List.range T).map fun t => (zeroNan (R.get [i, t])).mul (zeroNan (R.get [j, t])))

/-- Element `i, j` of the result. -/
def covAt (R : NDArray Val) (d : DType) (T : Nat) (idx : List Nat) : Val :=
  .flt ((dotRows R d T (idx.getD 0 0) (idx.getD 1 0)).div (.fin (normalization R T (idx.getD 0 0) (idx.getD 1 0))))

/-- `covMissing(R)` (la/farray/misc.py:136-160) for a 2d array. -/
def covMissing (R : NDArray Val) (d : DType) : Res (NDArray Val) :=
  let n := R.shape.getD 0 0
  let T := R.shape.getD 1 0
  if d = .str ∨ d = .object then .error .typeError                       -- 148: np.isnan
  else if (List.range n).any (fun i => (List.range n).any fun j => decide (normalization R T i j < 2)) then
    .error .valueError                                                   -- 155-156
  else .ok ⟨[n, n], covAt R d T⟩                                         -- 158-160

/-- `cov(lar)` (la/flarry.py:1498-1502). -/
def cov {L : Type _} (lar : Larry L) : Res (Larry L) :=
  if lar.ndim ≠ 2 then .error .valueError                                -- 1498-1499
  else match covMissing lar.x lar.dtype with                             -- 1501
    | .error e => .error e
    | .ok x => .ok ⟨x, .float, [lar.label.getD 0 [], lar.label.getD 0 []]⟩  -- 1500, 1502

end La
