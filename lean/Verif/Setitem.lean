import Verif.Index

/-!
# Model of assignment: numpy's `x[index] = value`, `larry.__setitem__` (la/deflarry.py:2107-2125)

A scalar on the right-hand side is the value after numpy's cast to the dtype of the array; for a larry
on the right-hand side the cast of the elements is the parameter `conv`.  Casts that raise are not
modelled, nor are arrays on the right-hand side, indices that are arrays with more than one axis, and
larrys inside an index tuple.  Each function returns the mutated larry.
-/

namespace La

/-- `a[g] = v` where `g` lists the positions selected: one cell after the other, so the last one wins. -/
def NDArray.assignGrid {α : Type _} (a : NDArray α) (g : NDArray (List Nat)) (v : List Nat → α) : NDArray α :=
  (allIdx g.shape).foldl (fun b idx => b.setItem (g.get idx) (v idx)) a

/-- The right-hand side. -/
inductive SetVal (L : Type _)
  | scalar (v : Val)
  | lar (z : Larry L)

/-- What stands between the brackets of `y[index] = value`. -/
inductive NpIndex
  | one (it : NpItem)
  | tuple (its : List NpItem)

/-- The entries. -/
def NpIndex.items : NpIndex → List NpItem
  | .one it => [it]
  | .tuple its => its

section
variable {L : Type _}

/-- The same entry for `larry.__getitem__`. -/
def NpItem.toItem : NpItem → Item L
  | .int i => .int i
  | .slice s => .slice s
  | .seq is => .seq is
  | .mask bs => .mask bs

/-- The same index for `larry.__getitem__`. -/
def NpIndex.toIndex : NpIndex → Index L
  | .one it => .one it.toItem
  | .tuple its => .tuple (its.map NpItem.toItem)

namespace Larry
variable [DecidableEq L]

/-- The elements of an integer array. -/
def intVals (x : NDArray Val) : List Int := x.vals.map (fun v => match v with | .int i => i | _ => 0)

/-- `y[m] = v` where `m` is a larry and `v` a scalar (la/deflarry.py:2107-2114).  The dtype of `m` is not
checked: an integer larry works as numpy's fancy index on axis 0. -/
def setMask (y : Larry L) (m : Larry L) (v : Val) : Res (Larry L) :=
  if y.label = m.label then
    match m.dtype with
    | .bool => .ok ⟨⟨y.x.shape, fun p => if m.x.get p = .bool true then v else y.x.get p⟩, y.dtype, y.label⟩
    | .int => match mapRes (pyIdxE (y.x.shape.getD 0 0)) (intVals m.x) with
      | .error e => .error e
      | .ok ids => .ok ⟨y.x.assignAx ids 0 v, y.dtype, y.label⟩
    | _ => .error .indexError
  else .error .indexError

/-- `self.x[index] = v` -/
def putAt (y : Larry L) (its : List NpItem) (v : List Nat → Val) : Res (Larry L) :=
  match npSelect y.x.shape its with
  | .error e => .error e
  | .ok g => .ok ⟨y.x.assignGrid g v, y.dtype, y.label⟩

/-- `y[index] = value` where `index` is no larry (la/deflarry.py:2115-2125). -/
def setAt (conv : Val → Val) (y : Larry L) (idx : NpIndex) : SetVal L → Res (Larry L)
  | .scalar v => y.putAt idx.items (fun _ => v)                          -- 2125
  | .lar z => match y.getitem idx.toIndex with                           -- 2120
    | .error e => .error e
    | .ok (.scalar _) => .error .attributeError
    | .ok (.array _) => .error .attributeError
    | .ok (.larry s) =>
      if s.label = z.label then y.putAt idx.items (fun i => conv (z.x.get i))  -- 2121
      else .error .indexError                                            -- 2123

end Larry
end
end La
