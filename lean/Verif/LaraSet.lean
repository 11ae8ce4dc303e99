import Verif.Lara
import Verif.Setitem

/-!
# Model of assignment through a lara (la/io.py:339-344)

A lara takes its `__setitem__` from larry (la/io.py:319, 326, la/deflarry.py:2107-2125); its `x` is an
h5py Dataset while the assignment runs and None otherwise.  `Dataset[index] = v` is modelled as h5py 2.x
has it.  A scalar on the right-hand side is the value after the cast to the dtype of the dataset.  A list
in an index is a Python list when it stands alone, `mask` is a boolean array.  That the file stays open
after an exception is left out.
-/

namespace La

/-- A list or a boolean array. -/
def NpItem.isList : NpItem → Bool
  | .seq _ => true
  | .mask _ => true
  | _ => false

/-- The positions `Dataset[index] = v` writes to.  A boolean array alone must have the shape of the
dataset (h5py's `PointSelection`).  A scalar is not spread over a list with further axes unless nothing
is selected (`FancySelection.broadcast`). -/
def h5Positions (zeroOk : Bool) (shape : List Nat) : NpIndex → Res (NDArray (List Nat))
  | .one (.mask bs) =>
    if shape = [bs.length] then h5Index true ⟨shape, id⟩ [.mask bs] else .error .typeError
  | idx => match h5Index zeroOk ⟨shape, id⟩ idx.items with
    | .error e => .error e
    | .ok g =>
      if idx.items.any NpItem.isList = true ∧ g.shape.length > 1 ∧ 0 ∉ g.shape then .error .typeError
      else .ok g

/-- One entry after its dataset has been written. -/
def Archive.writeEntry (p : Path) (n : Node) (e : Path × Node) : Path × Node := if e.1 = p then (p, n) else e

/-- The archive after the dataset at `p` has been written. -/
def Archive.write (f : Archive) (p : Path) (n : Node) : Archive := f.map (Archive.writeEntry p n)

namespace Lara

/-- `lara[index] = value` where `index` is no larry (la/io.py:339-344, la/deflarry.py:2115-2125): the
archive afterwards and the outcome.  For a larry, `self[index]` (la/deflarry.py:2120) is
`lara.__getitem__`, which leaves `self.x = None` (la/io.py:336), so that `self.x[index] = value.x`
(la/deflarry.py:2121) is a TypeError. -/
def setAt (zeroOk : Bool) (f : Archive) (a : Lara) (idx : NpIndex) (value : SetVal PyLabel) : Archive × Res Unit :=
  match f.get (comps a.key ++ ["x"]) with
  | none => (f, .error .keyError)
  | some (.group _) => (f, .error .typeError)
  | some (.lab _ _) => (f, .error .typeError)
  | some (.arr x d) => match value with
    | .scalar v => match h5Positions zeroOk x.shape idx with
      | .error e => (f, .error e)
      | .ok g => (f.write (comps a.key ++ ["x"]) (.arr (x.assignGrid g (fun _ => v)) d), .ok ())
    | .lar z => match a.get zeroOk f idx.toIndex with
      | .error e => (f, .error e)
      | .ok (.scalar _) => (f, .error .attributeError)
      | .ok (.array _) => (f, .error .attributeError)
      | .ok (.larry s) => if s.label = z.label then (f, .error .typeError) else (f, .error .indexError)

/-- `lara[m] = v` where `m` is a larry and `v` a scalar (la/deflarry.py:2107-2114): a Dataset takes a
boolean array of its own shape only. -/
def setMask (f : Archive) (a : Lara) (m : Larry PyLabel) (v : Val) : Archive × Res Unit :=
  match f.get (comps a.key ++ ["x"]) with
  | none => (f, .error .keyError)
  | some (.group _) => (f, .error .typeError)
  | some (.lab _ _) => (f, .error .typeError)
  | some (.arr x d) =>
    if a.label = m.label then
      if m.dtype = .bool ∧ m.x.shape = x.shape then
        (f.write (comps a.key ++ ["x"]) (.arr ⟨x.shape, fun p => if m.x.get p = .bool true then v else x.get p⟩ d),
          .ok ())
      else (f, .error .typeError)
    else (f, .error .indexError)

end Lara
end La
