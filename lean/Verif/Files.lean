import Verif.LaraSet
import Verif.Repack

/-!
# Model of opening and closing archives (la/io.py:163-203, 271-368, 372-631, 685-711)

The functions of la/io.py take the name of a file or an open `h5py.File`.  Verif/IO.lean says what they do to the content of
an archive; here is which files they open and close, with which mode, and what is left open when they
raise.  HDF5 and h5py 2.x are not part of the repository; of them the model has:

* `h5py.File(name)` opens for writing and makes an empty archive when there is no such file; `h5py.File(name, 'r')` only
  reads and raises IOError when there is none.
* Several opened files of one name share the content, and they are all for reading only if the first was:
  HDF5 refuses to open for writing what is open for reading, and `h5py.File(name)` then takes it for reading.
* A file opened inside a function that raises stays open as long as something, as the traceback, refers
  to it.

Not modelled: permissions, other processes, `repack` (Verif/Repack.lean), `IO.__repr__`, `space` and `freespace`.
-/

namespace La

/-- What can be raised: an exception of Python, IOError, or the refusal of HDF5 to write to a file open for
reading only. -/
inductive FErr
  | py (e : PyErr) | io | readOnly
  deriving DecidableEq

/-- A value or an exception. -/
abbrev FRes (α : Type _) := Except FErr α

/-- An open `h5py.File`. -/
structure Handle where
  id : Nat
  name : String
  rw : Bool
  deriving DecidableEq

/-- The files, those that are open, and the number for the next one. -/
structure Files where
  disk : Disk
  opened : List Handle
  fresh : Nat

/-- What is in a file. -/
def Files.content (s : Files) (n : String) : Archive := (s.disk n).getD Archive.empty

/-- New content for a file. -/
def Files.put (s : Files) (n : String) (f : Archive) : Files := { s with disk := s.disk.write n f }

/-- The file is open. -/
def Files.isOpen (s : Files) (h : Handle) : Bool := s.opened.any (fun k => k.id = h.id)

/-- A step: the files afterwards and the outcome. -/
abbrev FM (α : Type _) := Files → Files × FRes α

namespace FM
variable {α β : Type _}

/-- `return a` -/
def ret (a : α) : FM α := fun s => (s, .ok a)

/-- One step and then, unless it raised, another. -/
def next (m : FM α) (k : α → FM β) : FM β := fun s =>
  match m s with
  | (s1, .ok a) => k a s1
  | (s1, .error e) => (s1, .error e)

/-- An outcome of the rest of the model. -/
def ofRes : Res α → FRes α
  | .ok a => .ok a
  | .error e => .error (.py e)

/-- A computation that does not look at the files. -/
def lift (r : Res α) : FM α := fun s => (s, ofRes r)

end FM

open FM

/-- One more open file; HDF5 shares the mode with those that are open already. -/
def Files.enter (s : Files) (n : String) (rw : Bool) : Files × FRes Handle :=
  let h : Handle := ⟨s.fresh, n, (((s.opened.find? (fun k => k.name = n)).map Handle.rw).getD rw)⟩
  (⟨s.disk, s.opened ++ [h], s.fresh + 1⟩, .ok h)

/-- `h5py.File(name)` (la/io.py:184, 340, 707). -/
def fileA (n : String) : FM Handle := fun s =>
  match s.disk n with
  | some _ => s.enter n true
  | none => (s.put n Archive.empty).enter n true

/-- `h5py.File(name, 'r')` (la/io.py:164, 332, 348). -/
def fileR (n : String) : FM Handle := fun s =>
  match s.disk n with
  | some _ => s.enter n false
  | none => (s, .error .io)

/-- `f.close()` -/
def Handle.close (h : Handle) : FM Unit := fun s =>
  ({ s with opened := s.opened.filter (fun k => k.id ≠ h.id) }, .ok ())

/-- Something read from an open file. -/
def Handle.read {α : Type _} (h : Handle) (g : Archive → Res α) : FM α := fun s =>
  if s.isOpen h = false then (s, .error (.py .valueError)) else (s, ofRes (g (s.content h.name)))

/-- Something that writes to an open file.  Through a file open for reading the first write raises. -/
def Handle.write {α : Type _} (h : Handle) (g : Archive → Archive × Res α) : FM α := fun s =>
  if s.isOpen h = false then (s, .error (.py .valueError))
  else if h.rw = false then (s, .error .readOnly)
  else (s.put h.name (g (s.content h.name)).1, ofRes (g (s.content h.name)).2)

/-- The argument `file`: a name, an open file, or something else. -/
inductive FileArg
  | path (n : String) | file (h : Handle) | other

/-- What the functions do with `file`: `f, opened = _openfile(file)` (la/io.py:685-711), then the body, then
`if opened: f.close()`.  A body that raises skips the closing. -/
def session {α : Type _} (arg : FileArg) (body : Handle → FM α) : FM α :=
  match arg with
  | .path n => next (fileA n) fun f => next (body f) fun a => next f.close fun _ => ret a   -- 706-708
  | .file h => body h                                                     -- 703-705
  | .other => fun s => (s, .error (.py .typeError))                       -- 709-711

/-- `f = h5py.File(filename, 'r')`, the body, `f.close()` (la/io.py:164-167, 332-335, 348-350). -/
def sessionR {α : Type _} (n : String) (body : Handle → FM α) : FM α :=
  next (fileR n) fun f => next (body f) fun a => next f.close fun _ => ret a

/-- `save(file, lar, key)` (la/io.py:430-453). -/
def fileSave (arg : FileArg) (y : Larry PyLabel) (key : String) : FM Unit :=
  session arg fun f => f.write (fun a => a.save y key)

/-- `_load_label(file, key)` (la/io.py:635-657). -/
def fileLabels (arg : FileArg) (key : String) : FM (List (List PyLabel)) :=
  session arg fun f => f.read (fun a => a.loadLabel (comps key))

/-- `load(file, key)` (la/io.py:501-518); the larry is made after the file is closed (518). -/
def fileLoad (arg : FileArg) (key : String) : FM (Larry PyLabel) :=
  next (session arg fun f =>
    next (f.read (fun a => a.checkKey (comps key))) fun _ =>              -- 504-507
    next (f.read (fun a => a.readX (comps key))) fun x =>                 -- 510-511
    next (fileLabels (.file f) key) fun label => ret (x, label))          -- 512
  fun p => lift (Larry.mk' p.1.1 p.1.2 p.2)

/-- `del f[key]` (la/io.py:568); HDF5 does not let go of the root group. -/
def dropKey (key : String) (a : Archive) : Archive × Res Unit :=
  if comps key = [] then (a, .error .keyError) else (a.unlink (comps key), .ok ())

/-- `delete(file, key)` (la/io.py:559-572). -/
def fileDelete (arg : FileArg) (key : String) : FM Unit :=
  session arg fun f =>
    next (f.read (fun a => a.checkKey (comps key))) fun _ =>              -- 562-565
    f.write (dropKey key)                                                 -- 568

/-- The body of `is_archived_larry` (la/io.py:613-616). -/
def Archive.archivedLarry (a : Archive) (key : String) : Res Bool :=
  match a.get (comps key) with
  | none => .error .valueError                                            -- 616
  | some _ => a.isLarry (comps key)                                       -- 614

/-- `is_archived_larry(file, key)` (la/io.py:610-619). -/
def fileIsLarry (arg : FileArg) (key : String) : FM Bool := session arg fun f => f.read (fun a => a.archivedLarry key)

/-- `archive_directory(file)` (la/io.py:621-631). -/
def fileDirectory (arg : FileArg) : FM (List String) := session arg fun f => f.read Archive.keys

/-- `lara(filename, key)` (la/io.py:310-313). -/
def makeLara (n key : String) : FM Lara :=
  next (fileLabels (.path n) key) fun label => ret ⟨key, label⟩

/-- `IO(n)[key]` (la/io.py:163-174). -/
def ioGet (n key : String) : FM Lara :=
  next (sessionR n fun f => f.read (fun a => a.checkKey (comps key))) fun _ => makeLara n key

/-- `del IO(n)[key]` (la/io.py:197-198). -/
def ioDel (n key : String) : FM Unit := fileDelete (.path n) key

/-- `if key in f.keys(): self.__delitem__(key)` (la/io.py:189-190). -/
def delIf (n key : String) (there : Bool) : FM Unit := if there then ioDel n key else ret ()

/-- `IO(n)[key] = y` (la/io.py:184-195): the file is open while `__delitem__` opens it again. -/
def ioSet (n key : String) (y : Larry PyLabel) : FM Unit :=
  next (fileA n) fun f =>                                                 -- 184
  next (f.read (fun a => .ok (a.get [key]).isSome)) fun there =>          -- 189
  next (delIf n key there) fun _ =>                                       -- 190
  next (fileSave (.file f) y key) fun _ => f.close                        -- 193-195

/-- `IO(n).keys()` (la/io.py:119-121). -/
def ioKeys (n : String) : FM (List String) := fileDirectory (.path n)

/-- `key in IO(n)` (la/io.py:200-203). -/
def ioContains (n key : String) : FM Bool := next (ioKeys n) fun ks => ret (ks.contains key)

/-- `len(IO(n))` (la/io.py:160-161). -/
def ioLen (n : String) : FM Nat := next (ioKeys n) fun ks => ret ks.length

/-- The loop of `clear` (la/io.py:154-155). -/
def ioDelAll (n : String) : List String → FM Unit
  | [] => ret ()
  | k :: ks => next (ioDel n k) fun _ => ioDelAll n ks

/-- `IO(n).clear()` (la/io.py:150-155). -/
def ioClear (n : String) : FM Unit := next (ioKeys n) fun ks => ioDelAll n ks

/-- `lara[index]` for a lara made from the file `n` (la/io.py:331-337). -/
def laraGet (z : Bool) (n : String) (a : Lara) (idx : Index PyLabel) : FM (GetOut PyLabel) :=
  sessionR n fun f => f.read (fun ar => a.get z ar idx)

/-- `lara[index] = v` for a scalar `v` (la/io.py:339-344). -/
def laraSet (z : Bool) (n : String) (a : Lara) (idx : NpIndex) (v : Val) : FM Unit :=
  session (.path n) fun f => f.write (fun ar => a.setAt z ar idx (.scalar v))

/-- `f[self.key]['x'].shape` -/
def Lara.shapeIn (ar : Archive) (a : Lara) : Res (List Nat) :=
  match ar.get (comps a.key ++ ["x"]) with
  | none => .error .keyError
  | some nd => nd.shape

/-- `lara.shape` (la/io.py:346-351). -/
def laraShape (n : String) (a : Lara) : FM (List Nat) := sessionR n fun f => f.read (fun ar => a.shapeIn ar)

/-! ## Programs -/

/-- A call of the functions and methods of la/io.py. -/
inductive FileCall
  | save (arg : FileArg) (y : Larry PyLabel) (key : String)
  | load (arg : FileArg) (key : String)
  | delete (arg : FileArg) (key : String)
  | isLarry (arg : FileArg) (key : String)
  | directory (arg : FileArg)
  | get (n key : String)
  | set (n key : String) (y : Larry PyLabel)
  | del (n key : String)
  | contains (n key : String)
  | len (n : String)
  | clear (n : String)
  | laraGet (z : Bool) (n : String) (a : Lara) (idx : Index PyLabel)
  | laraSet (z : Bool) (n : String) (a : Lara) (idx : NpIndex) (v : Val)
  | laraShape (n : String) (a : Lara)

/-- What a call returns. -/
inductive FileOut
  | unit | larry (y : Larry PyLabel) | bool (b : Bool) | keys (ks : List String) | lara (a : Lara) | nat (k : Nat)
  | got (g : GetOut PyLabel) | shape (s : List Nat)

/-- The result of a call, as a `FileOut`. -/
def FM.give {α : Type _} (m : FM α) (c : α → FileOut) : FM FileOut := next m fun a => ret (c a)

/-- The call. -/
def FileCall.run : FileCall → FM FileOut
  | .save arg y key => (fileSave arg y key).give fun _ => .unit
  | .load arg key => (fileLoad arg key).give .larry
  | .delete arg key => (fileDelete arg key).give fun _ => .unit
  | .isLarry arg key => (fileIsLarry arg key).give .bool
  | .directory arg => (fileDirectory arg).give .keys
  | .get n key => (ioGet n key).give .lara
  | .set n key y => (ioSet n key y).give fun _ => .unit
  | .del n key => (ioDel n key).give fun _ => .unit
  | .contains n key => (ioContains n key).give .bool
  | .len n => (ioLen n).give .nat
  | .clear n => (ioClear n).give fun _ => .unit
  | .laraGet z n a idx => (La.laraGet z n a idx).give .got
  | .laraSet z n a idx v => (La.laraSet z n a idx v).give fun _ => .unit
  | .laraShape n a => (La.laraShape n a).give .shape

/-- One call after the other; a call that raises is caught. -/
def runFiles (s : Files) : List FileCall → Files × List (FRes FileOut)
  | [] => (s, [])
  | c :: cs => ((runFiles (c.run s).1 cs).1, (c.run s).2 :: (runFiles (c.run s).1 cs).2)

end La
