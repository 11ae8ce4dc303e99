import Verif.IO

/-!
# Model of `repack` (la/io.py:574-608) with the file system underneath

A disk maps names to the archives stored under them.  `os.rename` and `os.remove` are atomic, as POSIX
has it.  While a file is open for writing nothing is assumed about what is on disk under its name; when
it is closed its content is there.  The archive to be repacked is only read.
-/

namespace La

/-- The files. -/
abbrev Disk := String → Option Archive

/-- `os.rename(a, b)`: replaces what was under `b`. -/
def Disk.rename (d : Disk) (a b : String) : Disk :=
  fun n => if n = b then d a else if n = a then none else d n

/-- `os.remove(a)` -/
def Disk.remove (d : Disk) (a : String) : Disk := fun n => if n = a then none else d n

/-- Content written to a file. -/
def Disk.write (d : Disk) (a : String) (f : Archive) : Disk := fun n => if n = a then some f else d n

namespace Archive

/-- `f.keys()`: the names in the root group. -/
def top (f : Archive) : List String := (f.map Prod.fst).filterMap (fun p => if p.length = 1 then p.head? else none)

/-- `f1.copy(key, f2)` (la/io.py:597): the node `key` of the root group with everything beneath it and
with its attributes; RuntimeError when the name is taken. -/
def copyTo (f g : Archive) (key : String) : Res Archive :=
  match g.get [key] with
  | some _ => .error .runtimeError
  | none => .ok (g ++ f.filter (fun e => [key] <+: e.1))

/-- The loop over the keys (la/io.py:596-597). -/
def copyAll (f g : Archive) : List String → Res Archive
  | [] => .ok g
  | k :: ks => match f.copyTo g k with
    | .error e => .error e
    | .ok g' => copyAll f g' ks

end Archive

/-- `filename2` (la/io.py:594); `r` are the random characters. -/
def repackName (fn r : String) : String := fn ++ "_repack_tmp_" ++ r

/-- `filename_tmp` (la/io.py:600). -/
def renameName (fn r : String) : String := fn ++ "_repack_rename_tmp_" ++ r

/-- `repack(file)` (la/io.py:592-607): the disk after each step, in order.  `junk` are the states the
new file may go through on disk until it is closed (la/io.py:595-599); a file already there under its
name is opened and added to. -/
def repackStates (d : Disk) (fn r1 r2 : String) (junk : List Archive) : Res (List Disk) :=
  match d fn with
  | none => .error .keyError                                   -- h5py would create the file: not modelled
  | some f => match f.copyAll ((d (repackName fn r1)).getD Archive.empty) f.top with
    | .error e => .error e
    | .ok g =>
      let d1 := d.write (repackName fn r1) g                               -- 598-599
      let d2 := d1.rename fn (renameName fn r2)                            -- 601
      let d3 := d2.rename (repackName fn r1) fn                            -- 602
      let d4 := d3.remove (renameName fn r2)                               -- 607
      .ok (d :: junk.map (d.write (repackName fn r1)) ++ [d1, d2, d3, d4])

end La
