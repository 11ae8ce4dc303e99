import Verif.IO
import Verif.IndexFacts

/-!
# Model of `lara` (la/io.py:255-368): indexing into a larry that stays in the archive

A lara takes its `__getitem__` from larry (la/io.py:318-329); its `x` is then an h5py Dataset and its
labels are the ones read when the lara was made.  h5py is not part of the repository: its `Dataset[index]` is modelled
as h5py 2.x has it, with `zeroOk` standing for the versions in which an empty selection is allowed.
-/

namespace La

/-! ## h5py's `Dataset.__getitem__` -/

/-- A list of positions: they must increase as written; they are read in the order of the file. -/
def h5Seq (zeroOk : Bool) (n : Nat) (is : List Int) : Res NpSel :=
  if ¬ is.Pairwise (· < ·) then .error .typeError
  else match mapRes (pyIdxE n) is with
    | .error _ => .error .valueError
    | .ok ids =>
      if ids = [] ∧ zeroOk = false then .error .valueError
      else if hasDup ids then .error .typeError
      else .ok (.fancy (pySorted ids))

/-- One entry on an axis of length `n`. -/
def h5Resolve (zeroOk : Bool) (n : Nat) : NpItem → Res NpSel
  | .int i => match pyIdx n i with
    | none => .error .valueError
    | some k => .ok (.int k)
  | .slice s =>
    if s.step.getD 1 < 1 then .error .valueError
    else match sliceIndices n s with
      | .error e => .error e
      | .ok ids => if ids = [] ∧ zeroOk = false then .error .valueError else .ok (.slice ids)
  | .seq is => h5Seq zeroOk n is
  | .mask bs => h5Seq zeroOk n ((trues bs).map (fun k : Nat => (k : Int)))

/-- `Dataset[i0, i1, ...]`: every entry selects along its own axis, at most one may be a list. -/
def h5Index {α : Type _} (zeroOk : Bool) (x : NDArray α) (its : List NpItem) : Res (NDArray α) :=
  if its.length > x.shape.length then .error .typeError
  else match mapRes (fun p : NpItem × Nat => h5Resolve zeroOk p.2 p.1)
      ((its ++ List.replicate (x.shape.length - its.length) (NpItem.slice {})).zip x.shape) with
    | .error e => .error e
    | .ok ss =>
      if (fancyLens ss).length > 1 then .error .typeError
      else .ok ⟨keptLens ss, fun idx => x.get (fill ss idx)⟩

/-! ## `larry.__getitem__` with a Dataset for `x` -/

namespace Larry
variable {L : Type _} [DecidableEq L]

/-- `y[i0, i1, ...]` (la/deflarry.py:1765-1831, 1887); `self.label[ax]` raises when there are too few
label lists, which happens to an outdated lara only. -/
def lazyTuple (zeroOk : Bool) (y : Larry L) (its : List (Item L)) : Res (GetOut L) :=
  if y.label.length < y.ndim then .error .indexError
  else match y.keepAll its with
    | .error e => .error e
    | .ok labs => match h5Index zeroOk y.x (its.map Item.np) with
      | .error e => .error e
      | .ok x =>
        if its.all Item.isInt then .ok (.ofArray x)
        else match make x y.dtype (labs.filterMap id) (its.any Item.isSeq) with
          | .error e => .error e
          | .ok z => .ok (.larry z)

/-- `larry.__getitem__(index)` (la/deflarry.py:1754-1887).  A Dataset has no `take` (1843, 1865) and a
lara no `copylabel` (1866, 1879). -/
def lazyGet (zeroOk : Bool) (y : Larry L) : Index L → Res (GetOut L)
  | .tuple its => y.lazyTuple zeroOk its
  | .one (.int i) =>
    if i ≥ y.shape.getD 0 0 then .error .indexError                      -- 1758-1759
    else match h5Index zeroOk y.x [.int i] with                          -- 1760
      | .error e => .error e
      | .ok x =>
        if y.ndim ≤ 1 then .ok (.ofArray x)                              -- 1761-1762
        else .ok (.larry ⟨x, y.dtype, y.label.drop 1⟩)                   -- 1763
  | .one (.slice s) => match pySliceList (y.label.getD 0 []) s with      -- 1832-1836
    | .error e => .error e
    | .ok lab => match h5Index zeroOk y.x [.slice s] with
      | .error e => .error e
      | .ok x => .ok (.larry ⟨x, y.dtype, y.label.set 0 lab⟩)
  | .one (.seq is) => match pyItems (y.label.getD 0 []) is with          -- 1837-1844, 1858-1867
    | .error _ => .error .indexError
    | .ok lab => if hasDup lab then .error .indexError else .error .attributeError
  | .one .nd => .error .indexError                                       -- 1847-1850
  | .one (.mask bs) => match maskLabels (y.label.getD 0 []) bs with      -- 1851-1857, 1866
    | .error _ => .error .indexError
    | .ok _ => if y.shape = [bs.length] then .error .attributeError else .error .typeError
  | .one (.lar m) => match larMask (y.label.getD 0 []) m with            -- 1868-1879
    | .error e => .error e
    | .ok bs => match maskLabels (y.label.getD 0 []) bs with
      | .error _ => .error .indexError
      | .ok _ => .error .attributeError
  | .one .other => .error .indexError                                    -- 1883-1886

end Larry

/-! ## `lara` -/

/-- A lara: the key and the labels (la/io.py:312-315).  The file name is left out: a lara is asked with the
archive as it is at the time. -/
structure Lara where
  key : String
  label : List (List PyLabel)

/-- `io[key]` (la/io.py:163-174, 312-315). -/
def Archive.lara (f : Archive) (key : String) : Res Lara :=
  match f.checkKey (comps key) with
  | .error e => .error e
  | .ok _ => match f.loadLabel (comps key) with
    | .error e => .error e
    | .ok label => .ok ⟨key, label⟩

/-- `lara.__getitem__(index)` (la/io.py:331-337). -/
def Lara.get (zeroOk : Bool) (f : Archive) (a : Lara) (idx : Index PyLabel) : Res (GetOut PyLabel) :=
  match f.get (comps a.key ++ ["x"]) with
  | some (.arr x d) => Larry.lazyGet zeroOk ⟨x, d, a.label⟩ idx
  | some _ => .error .typeError
  | none => .error .keyError

end La
