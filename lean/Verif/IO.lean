import Verif.Calendar
import Verif.Larry
import Mathlib.Data.List.Lex
import Mathlib.Data.String.Basic
import Mathlib.Data.List.DropRight

/-!
# Model of la/io.py

An HDF5 file is a tree of groups and datasets.  The model keeps it as the list of its nodes, each under
its path (the list of link names from the root).  What h5py and HDF5 do is taken from their
documentation (h5py 2.x); the parts used are `File.__getitem__`, `__contains__`, `keys`, `copy`,
`visititems`, `create_group`, assignment of an array, deletion of a link and attributes.

Strings are Python 2 `str`; h5py refuses Python 3 `str` labels (numpy dtype `U`) with TypeError.
-/

namespace La

/-! ## Labels -/

/-- A `datetime.time`, or the time of day of a `datetime.datetime`.  `tz` stands for the tzinfo. -/
structure PyTime where
  hour : Nat
  minute : Nat
  second : Nat
  micro : Nat
  tz : Option Nat
  deriving DecidableEq

/-- The times `datetime.time` can hold. -/
def PyTime.Ok (t : PyTime) : Prop := t.hour < 24 ∧ t.minute < 60 ∧ t.second < 60 ∧ t.micro < 1000000

instance (t : PyTime) : Decidable t.Ok := by unfold PyTime.Ok; infer_instance

/-- A label element.  `other ty i` is an object of some type numpy would store as `object`. -/
inductive PyLabel
  | int (n : Int) | flt (f : Flt) | str (s : String) | bool (b : Bool)
  | date (d : PyDate) | time (t : PyTime) | datetime (d : PyDate) (t : PyTime)
  | other (ty i : Nat)
  deriving DecidableEq

/-- `type(a)` -/
inductive PyType
  | int | flt | str | bool | date | time | datetime | other (ty : Nat)
  deriving DecidableEq

/-- `type(a)` -/
def PyLabel.type : PyLabel → PyType
  | .int _ => .int
  | .flt _ => .flt
  | .str _ => .str
  | .bool _ => .bool
  | .date _ => .date
  | .time _ => .time
  | .datetime _ _ => .datetime
  | .other ty _ => .other ty

/-- An element of a label dataset; `tup` is an element of a record array. -/
inductive Cell
  | int (n : Int) | flt (f : Flt) | str (s : String) | bool (b : Bool) | tup (t : List Int)
  deriving DecidableEq

/-- The attribute `datetime_type` (la/io.py:447, 663, 674, 677, 681). -/
inductive Tag
  | notDatetime | date | time | datetime
  deriving DecidableEq

/-- `datetime_type` (la/io.py:663-681). -/
def PyType.tag : PyType → Tag
  | .date => .date
  | .time => .time
  | .datetime => .datetime
  | _ => .notDatetime

/-- numpy drops the NULs at the end of a string stored in an `S` array. -/
def stripNul (s : String) : String := String.ofList (s.toList.rdropWhile (fun c => c = '\x00'))

/-- `time2tuple` (la/io.py:747-749). -/
def time2tuple (t : PyTime) : List Int := [t.hour, t.minute, t.second, t.micro]

/-- `datetime2tuple` (la/io.py:738-741). -/
def datetime2tuple (d : PyDate) (t : PyTime) : List Int :=
  [d.year, d.month, d.day, t.hour, t.minute, t.second, t.micro]

/-- `datetime.time(h, m, s, us)` -/
def mkTime (h m s us : Int) : Res PyTime :=
  if 0 ≤ h ∧ h < 24 ∧ 0 ≤ m ∧ m < 60 ∧ 0 ≤ s ∧ s < 60 ∧ 0 ≤ us ∧ us < 1000000 then
    .ok ⟨h.toNat, m.toNat, s.toNat, us.toNat, none⟩
  else .error .valueError

/-- `datetime.date(y, m, d)` -/
def mkDate (y m d : Int) : Res PyDate :=
  if 0 ≤ y ∧ 0 ≤ m ∧ 0 ≤ d ∧ (⟨y.toNat, m.toNat, d.toNat⟩ : PyDate).Ok then
    .ok ⟨y.toNat, m.toNat, d.toNat⟩
  else .error .valueError

/-- `tuple2time` (la/io.py:751-753). -/
def tuple2time : List Int → Res PyTime
  | [h, m, s, us] => mkTime h m s us
  | _ => .error .typeError

/-- `tuple2datetime` (la/io.py:743-745). -/
def tuple2datetime : List Int → Res (PyDate × PyTime)
  | [y, mo, d, h, m, s, us] => match mkDate y mo d with
    | .error e => .error e
    | .ok dd => match mkTime h m s us with
      | .error e => .error e
      | .ok t => .ok (dd, t)
  | _ => .error .typeError

/-- One element on its way into the array (la/io.py:672-683).  Integers outside int64 and objects of
other types end up in an object array, which h5py refuses with TypeError (la/io.py:446). -/
def PyLabel.toCell : PyLabel → Res Cell
  | .int n => if -9223372036854775808 ≤ n ∧ n ≤ 9223372036854775807 then .ok (.int n)
      else .error .typeError
  | .flt f => .ok (.flt f)
  | .str s => .ok (.str (stripNul s))
  | .bool b => .ok (.bool b)
  | .date d => .ok (.int d.toOrdinal)
  | .time t => .ok (.tup (time2tuple t))
  | .datetime d t => .ok (.tup (datetime2tuple d t))
  | .other _ _ => .error .typeError

/-- `_list2array(x)` (la/io.py:659-683), together with h5py's refusal of object arrays. -/
def list2array (l : List PyLabel) : Res (List Cell × Tag) :=
  match l with
  | [] => .ok ([], .notDatetime)                                          -- 665-666
  | a :: _ =>
    if l.all (fun b => b.type = a.type) then match mapRes PyLabel.toCell l with
      | .error e => .error e
      | .ok cs => .ok (cs, a.type.tag)
    else .error .typeError                                                -- 668-671

/-- One element on its way out of the array (la/io.py:646-653).  The last case does not arise for
datasets written by `save`. -/
def Cell.toLabel : Tag → Cell → Res PyLabel
  | .date, .int n => match PyDate.fromOrdinal n with
    | .error e => .error e
    | .ok d => .ok (.date d)
  | .time, .tup t => match tuple2time t with
    | .error e => .error e
    | .ok t => .ok (.time t)
  | .datetime, .tup t => match tuple2datetime t with
    | .error e => .error e
    | .ok (d, t) => .ok (.datetime d t)
  | .notDatetime, .int n => .ok (.int n)
  | .notDatetime, .flt f => .ok (.flt f)
  | .notDatetime, .str s => .ok (.str s)
  | .notDatetime, .bool b => .ok (.bool b)
  | _, _ => .error .typeError

/-- The labels of one axis, read back (la/io.py:643-653). -/
def array2list (cs : List Cell) (tag : Tag) : Res (List PyLabel) := mapRes (Cell.toLabel tag) cs

/-! ## Archives -/

/-- The link names from the root down. -/
abbrev Path := List String

/-- A node of the tree.  The only attribute of a group is `larry` (True or absent). -/
inductive Node
  | group (larry : Bool)
  | arr (x : NDArray Val) (dtype : DType)        -- the dataset `x` (la/io.py:444)
  | lab (cells : List Cell) (tag : Tag)          -- the dataset of a label (la/io.py:446-447)

/-- `obj.shape`: a group has no shape. -/
def Node.shape : Node → Res (List Nat)
  | .group _ => .error .attributeError
  | .arr x _ => .ok x.shape
  | .lab cs _ => .ok [cs.length]

/-- The content of an HDF5 file. -/
abbrev Archive := List (Path × Node)

/-- Split at slashes. -/
def splitSlash : List Char → List (List Char)
  | [] => [[]]
  | c :: cs =>
    if c = '/' then [] :: splitSlash cs
    else match splitSlash cs with
      | [] => [[c]]
      | w :: ws => (c :: w) :: ws

/-- The path a key stands for: HDF5 ignores empty components and `.`; so does la/io.py:727-728 for the
empty ones.  (The empty key is treated like `/`; h5py refuses it.) -/
def comps (key : String) : Path :=
  ((splitSlash key.toList).map String.ofList).filter (fun s => s ≠ "" ∧ s ≠ ".")

/-- `'/'.join(path)`, the name `visititems` passes on. -/
def joinSlash (p : Path) : String := "/".intercalate p

namespace Archive

/-- A new file. -/
def empty : Archive := [([], .group false)]

/-- The node at a path. -/
def get (f : Archive) (p : Path) : Option Node := (f.find? (fun e => e.1 = p)).map Prod.snd

/-- `f.create_group`, `f[p] = array` when nothing is at `p`. -/
def add (f : Archive) (p : Path) (n : Node) : Archive := f ++ [(p, n)]

/-- `group[name] = array`; the name must be free (h5py raises RuntimeError). -/
def create (f : Archive) (p : Path) (n : Node) : Res Archive :=
  match f.get p with
  | some _ => .error .runtimeError
  | none => .ok (f.add p n)

/-- One entry after `group.attrs['larry'] = True`. -/
def flagEntry (p : Path) (e : Path × Node) : Path × Node := if e.1 = p then (p, .group true) else e

/-- `f[p].attrs['larry'] = True` on the group at `p` (la/io.py:443). -/
def flag (f : Archive) (p : Path) : Archive := f.map (flagEntry p)

/-- `del f[p]`: the node and everything beneath it. -/
def unlink (f : Archive) (p : Path) : Archive := f.filter (fun e => ¬ p <+: e.1)

/-- The loop of `_create_nested_groups` (la/io.py:729-736): `done` are the components already walked. -/
def createGroups (f : Archive) (done : Path) : Path → Archive × Res Unit
  | [] => (f, .ok ())
  | c :: cs => match f.get (done ++ [c]) with
    | none => createGroups (f.add (done ++ [c]) (.group false)) (done ++ [c]) cs
    | some (.group _) => createGroups f (done ++ [c]) cs
    | some _ => (f, .error .valueError)

/-- `all([label in obj for label in map(str, range(ndim))])` (la/io.py:720-721). -/
def hasLabels (f : Archive) (p : Path) (ndim : Nat) : Bool :=
  (List.range ndim).all (fun i => (f.get (p ++ [toString i])).isSome)

/-- `_is_archived_larry(f[p])` (la/io.py:713-723). -/
def isLarry (f : Archive) (p : Path) : Res Bool :=
  match f.get p with
  | some (.group true) => match f.get (p ++ ["x"]) with
    | none => .ok false
    | some n => match n.shape with
      | .error e => .error e
      | .ok s => .ok (f.hasLabels p s.length)
  | _ => .ok false

/-- The loop that writes the labels (la/io.py:445-447). -/
def saveLabels (f : Archive) (p : Path) (y : Larry PyLabel) : List Nat → Archive × Res Unit
  | [] => (f, .ok ())
  | i :: is => match y.label[i]? with
    | none => (f, .error .indexError)
    | some l => match list2array l with
      | .error e => (f, .error e)
      | .ok (cs, tag) => match f.create (p ++ [toString i]) (.lab cs tag) with
        | .error e => (f, .error e)
        | .ok f' => saveLabels f' p y is

/-- `save(file, lar, key)` (la/io.py:430-453): the archive afterwards and the outcome.  h5py refuses
object arrays with TypeError. -/
def save (f : Archive) (y : Larry PyLabel) (key : String) : Archive × Res Unit :=
  match f.createGroups [] (comps key) with                                -- 439
  | (f1, .error e) => (f1, .error e)
  | (f1, .ok _) =>
    if y.dtype = .object then (f1.flag (comps key), .error .typeError)    -- 444
    else match (f1.flag (comps key)).create (comps key ++ ["x"]) (.arr y.x y.dtype) with  -- 443-444
      | .error e => (f1.flag (comps key), .error e)
      | .ok f2 => f2.saveLabels (comps key) y (List.range y.ndim)         -- 445-447

/-- One turn of the loop of `_load_label` (la/io.py:641-654); an array dataset in place of a label does
not arise for archives written by `save`. -/
def loadAxis (f : Archive) (p : Path) (i : Nat) : Res (List PyLabel) :=
  match f.get (p ++ [toString i]) with
  | none => .error .keyError
  | some (.group _) => .error .attributeError
  | some (.arr _ _) => .error .typeError
  | some (.lab cs tag) => array2list cs tag

/-- `_load_label(file, key)` (la/io.py:635-657). -/
def loadLabel (f : Archive) (p : Path) : Res (List (List PyLabel)) :=
  match f.get (p ++ ["x"]) with
  | none => .error .keyError
  | some n => match n.shape with
    | .error e => .error e
    | .ok s => mapRes (f.loadAxis p) (List.range s.length)

/-- The dataset `x` of a larry, read whole: `group['x'][:]` (la/io.py:511).  A dataset without axes
cannot be sliced; a label dataset in its place does not arise for archives written by `save`. -/
def readX (f : Archive) (p : Path) : Res (NDArray Val × DType) :=
  match f.get (p ++ ["x"]) with
  | some (.arr x dt) => if x.shape = [] then .error .valueError else .ok (x, dt)
  | _ => .error .typeError

/-- The tests with which `load`, `delete` and `IO.__getitem__` begin (la/io.py:504-507, 562-565,
165-174). -/
def checkKey (f : Archive) (p : Path) : Res Unit :=
  match f.get p with
  | none => .error .keyError
  | some _ => match f.isLarry p with
    | .error e => .error e
    | .ok false => .error .keyError
    | .ok true => .ok ()

/-- `load(file, key)` (la/io.py:501-518). -/
def load (f : Archive) (key : String) : Res (Larry PyLabel) :=
  match f.checkKey (comps key) with
  | .error e => .error e
  | .ok _ => match f.readX (comps key) with
    | .error e => .error e
    | .ok (x, dt) => match f.loadLabel (comps key) with
      | .error e => .error e
      | .ok label => Larry.mk' x dt label

/-- `delete(file, key)` (la/io.py:559-572).  HDF5 does not let go of the root group. -/
def delete (f : Archive) (key : String) : Archive × Res Unit :=
  match f.checkKey (comps key) with
  | .error e => (f, .error e)
  | .ok _ =>
    if comps key = [] then (f, .error .keyError)
    else (f.unlink (comps key), .ok ())

/-- The paths `f.visititems` walks: all but the root, by name, a group before what is in it. -/
def visit (f : Archive) : List Path := pySorted ((f.map Prod.fst).filter (fun p => p ≠ []))

/-- The loop of `archive_directory` (la/io.py:625-628). -/
def larrysIn (f : Archive) : List Path → Res (List Path)
  | [] => .ok []
  | p :: ps => match f.isLarry p with
    | .error e => .error e
    | .ok b => match larrysIn f ps with
      | .error e => .error e
      | .ok qs => .ok (if b then p :: qs else qs)

/-- `archive_directory(file)`, `IO.keys()` (la/io.py:621-631, 119-121). -/
def keys (f : Archive) : Res (List String) :=
  match f.larrysIn f.visit with
  | .error e => .error e
  | .ok ps => .ok (ps.map joinSlash)

/-- `IO.__setitem__(key, value)` (la/io.py:176-195).  `key in f.keys()` (line 189) looks at the names
in the root group only. -/
def setitem (f : Archive) (key : String) (y : Larry PyLabel) : Archive × Res Unit :=
  match f.get [key] with
  | none => f.save y key
  | some _ => match f.delete key with
    | (f1, .error e) => (f1, .error e)
    | (f1, .ok _) => f1.save y key

/-- `IO.__contains__(key)` (la/io.py:200-203). -/
def contains (f : Archive) (key : String) : Res Bool :=
  match f.keys with
  | .error e => .error e
  | .ok ks => .ok (ks.contains key)

/-- `IO.__len__()` (la/io.py:160-161). -/
def len (f : Archive) : Res Nat :=
  match f.keys with
  | .error e => .error e
  | .ok ks => .ok ks.length

/-- The loop of `IO.clear` (la/io.py:154-155). -/
def deleteAll (f : Archive) : List String → Archive × Res Unit
  | [] => (f, .ok ())
  | k :: ks => match f.delete k with
    | (f1, .error e) => (f1, .error e)
    | (f1, .ok _) => deleteAll f1 ks

/-- `IO.clear()` (la/io.py:150-155): the keys are listed once, then deleted one after the other. -/
def clear (f : Archive) : Archive × Res Unit :=
  match f.keys with
  | .error e => (f, .error e)
  | .ok ks => f.deleteAll ks

end Archive
end La
