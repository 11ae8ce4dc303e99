import Verif.Files
import Verif.Props.IO
import Verif.Props.LaraSet
import Verif.Props.Lara

/-!
# Files that are opened and closed (property C103)
-/

namespace La

open FM

/-! ## Specification -/

/-- The name of the file a call works on. -/
def FileArg.name : FileArg → String
  | .path n => n
  | .file h => h.name
  | .other => ""

def FileCall.name : FileCall → String
  | .save arg _ _ => arg.name
  | .load arg _ => arg.name
  | .delete arg _ => arg.name
  | .isLarry arg _ => arg.name
  | .directory arg => arg.name
  | .get n _ => n
  | .set n _ _ => n
  | .del n _ => n
  | .contains n _ => n
  | .len n => n
  | .clear n => n
  | .laraGet _ n _ _ => n
  | .laraSet _ n _ _ _ => n
  | .laraShape n _ => n

/-- The argument `file` of a call; the methods of IO and lara have a name. -/
def FileCall.arg : FileCall → FileArg
  | .save arg _ _ => arg
  | .load arg _ => arg
  | .delete arg _ => arg
  | .isLarry arg _ => arg
  | .directory arg => arg
  | c => .path c.name

/-- The calls that open for reading first. -/
def FileCall.reads : FileCall → Bool
  | .get _ _ => true
  | .laraGet _ _ _ _ => true
  | .laraShape _ _ => true
  | _ => false

/-- What a call is to do to the content of the one archive: the functions of Verif/IO.lean, where no files
are opened or closed. -/
def FileCall.on (f : Archive) : FileCall → Archive × Res FileOut
  | .save _ y key => ((f.save y key).1, (f.save y key).2.map fun _ => .unit)
  | .load _ key => (f, (f.load key).map .larry)
  | .delete _ key => ((f.delete key).1, (f.delete key).2.map fun _ => .unit)
  | .isLarry _ key => (f, (f.archivedLarry key).map .bool)
  | .directory _ => (f, f.keys.map .keys)
  | .get _ key => (f, (f.lara key).map .lara)
  | .set _ key y => ((f.setitem key y).1, (f.setitem key y).2.map fun _ => .unit)
  | .del _ key => ((f.delete key).1, (f.delete key).2.map fun _ => .unit)
  | .contains _ key => (f, (f.contains key).map .bool)
  | .len _ => (f, f.len.map .nat)
  | .clear _ => (f.clear.1, f.clear.2.map fun _ => .unit)
  | .laraGet z _ a idx => (f, (a.get z f idx).map .got)
  | .laraSet z _ a idx v => ((a.setAt z f idx (.scalar v)).1, (a.setAt z f idx (.scalar v)).2.map fun _ => .unit)
  | .laraShape _ a => (f, (a.shapeIn f).map .shape)

/-- One if the outcome is an exception. -/
def raised {α : Type _} : Res α → Nat
  | .ok _ => 0
  | .error _ => 1

/-- How many files a call given a name leaves open.  `load` closes the file before the larry is made, so
that labels and data that do not fit leave nothing open.  `io[key] = y` has the file open while it deletes. -/
def FileCall.leaves (f : Archive) : FileCall → Nat
  | .load _ key => match f.checkKey (comps key) with
    | .error _ => 1
    | .ok _ => match f.readX (comps key) with
      | .error _ => 1
      | .ok _ => raised (f.loadLabel (comps key))
  | .set _ key y => match f.get [key] with
    | some _ => match (f.delete key).2 with
      | .error _ => 2
      | .ok _ => raised (f.setitem key y).2
    | none => raised (f.setitem key y).2
  | c => raised (c.on f).2

/-- The file the call would read is not there. -/
def FileCall.absent (d : Disk) (c : FileCall) : Bool := c.reads && (d c.name).isNone

/-- What a call is to do when there is only the content of the files: nothing is open. -/
def FileCall.onDisk (d : Disk) (c : FileCall) : Disk × FRes FileOut :=
  if c.absent d then (d, .error .io)
  else (d.write c.name (c.on ((d c.name).getD Archive.empty)).1, ofRes (c.on ((d c.name).getD Archive.empty)).2)

/-- How many files a call leaves open: none if it was given an open one, or if there was none to open. -/
def FileCall.stays (d : Disk) (c : FileCall) : Nat :=
  if c.absent d then 0 else match c.arg with
    | .path _ => c.leaves ((d c.name).getD Archive.empty)
    | _ => 0

/-- One call after the other, when there is only the content of the files. -/
def runDisk (d : Disk) : List FileCall → Disk × List (FRes FileOut)
  | [] => (d, [])
  | c :: cs => ((runDisk (c.onDisk d).1 cs).1, (c.onDisk d).2 :: (runDisk (c.onDisk d).1 cs).2)

/-- No call of the program leaves a file open. -/
def AllClosed (d : Disk) : List FileCall → Prop
  | [] => True
  | c :: cs => c.stays d = 0 ∧ AllClosed (c.onDisk d).1 cs

/-- The program when what a call left open is closed before the next one, as when nothing refers to it any more. -/
def runCollected (s : Files) : List FileCall → Files × List (FRes FileOut)
  | [] => (s, [])
  | c :: cs => ((runCollected { (c.run s).1 with opened := s.opened } cs).1,
      (c.run s).2 :: (runCollected { (c.run s).1 with opened := s.opened } cs).2)

/-- The same call with another argument `file`; the methods stay what they are. -/
def FileCall.via (arg : FileArg) : FileCall → FileCall
  | .save _ y key => .save arg y key
  | .load _ key => .load arg key
  | .delete _ key => .delete arg key
  | .isLarry _ key => .isLarry arg key
  | .directory _ => .directory arg
  | c => c

/-- The calls that change something if they succeed. -/
def FileCall.writes : FileCall → Bool
  | .save _ _ _ => true
  | .delete _ _ => true
  | .set _ _ _ => true
  | .del _ _ => true
  | .laraSet _ _ _ _ _ => true
  | _ => false

/-- The open files have been opened, and are there. -/
structure Files.WF (s : Files) : Prop where
  old : ∀ h ∈ s.opened, h.id < s.fresh
  there : ∀ h ∈ s.opened, s.disk h.name ≠ none

/-- Nothing keeps the file from being opened for writing. -/
def Files.Free (s : Files) (n : String) : Prop := ∀ h ∈ s.opened, h.name = n → h.rw = true

/-- The files after a call on the archive `n`: its content is `f`, and `k` more files are open. -/
structure Files.After (s s' : Files) (n : String) (f : Archive) (k : Nat) : Prop where
  disk : s'.disk = s.disk.write n f
  fresh : s.fresh ≤ s'.fresh
  opened : ∃ left, s'.opened = s.opened ++ left ∧ left.length = k ∧
    ∀ h ∈ left, h.name = n ∧ s.fresh ≤ h.id ∧ h.id < s'.fresh

/-! ## Bodies -/

theorem put_isOpen (s : Files) (n : String) (f : Archive) (h : Handle) : (s.put n f).isOpen h = s.isOpen h := rfl

theorem put_content (s : Files) (n : String) (f : Archive) : (s.put n f).content n = f := by
  simp [Files.put, Files.content, Disk.write]

theorem write_write (d : Disk) (n : String) (f g : Archive) : (d.write n f).write n g = d.write n g := by
  funext m; simp only [Disk.write]; split_ifs <;> rfl

theorem put_put (s : Files) (n : String) (f g : Archive) : (s.put n f).put n g = s.put n g := by
  simp only [Files.put, write_write]

theorem write_self {s : Files} {n : String} (h : s.disk n ≠ none) : s.disk.write n (s.content n) = s.disk := by
  funext m
  simp only [Disk.write, Files.content]
  split_ifs with e
  · subst e
    obtain ⟨f, hf⟩ := Option.ne_none_iff_exists'.mp h
    rw [hf]; rfl
  · rfl

theorem put_self {s : Files} {n : String} (h : s.disk n ≠ none) : s.put n (s.content n) = s := by
  simp only [Files.put, write_self h]

theorem put_there (s : Files) (n : String) (f : Archive) : (s.put n f).disk n ≠ none := by
  simp [Files.put, Disk.write]

/-- The body does to the content of a file open for writing what `g` says. -/
def Acts {α : Type _} (body : Handle → FM α) (g : Archive → Archive × Res α) : Prop :=
  ∀ (s : Files) (h : Handle), s.isOpen h = true → h.rw = true → s.disk h.name ≠ none →
    body h s = (s.put h.name (g (s.content h.name)).1, ofRes (g (s.content h.name)).2)

theorem Acts.read {α : Type _} (g : Archive → Res α) : Acts (fun f => f.read g) (fun a => (a, g a)) := by
  intro s h ho _ hd
  simp only [Handle.read, ho, put_self hd]
  rfl

theorem Acts.write {α : Type _} (g : Archive → Archive × Res α) : Acts (fun f => f.write g) g := by
  intro s h ho hr _
  simp [Handle.write, ho, hr]

theorem Acts.next {α β : Type _} {b : Handle → FM α} {g : Archive → Archive × Res α} (hb : Acts b g)
    {c : Handle → α → FM β} {g' : α → Archive → Archive × Res β} (hc : ∀ a, Acts (fun f => c f a) (g' a)) :
    Acts (fun f => FM.next (b f) (c f)) (fun ar => match g ar with
      | (ar1, .ok a) => g' a ar1
      | (ar1, .error e) => (ar1, .error e)) := by
  intro s h ho hr hd
  simp only [FM.next, hb s h ho hr hd]
  rcases hg : g (s.content h.name) with ⟨ar1, e | a⟩
  · rfl
  · simp only [ofRes]
    have := hc a (s.put h.name ar1) h ho hr (put_there _ _ _)
    rw [put_put, put_content] at this
    exact this

theorem Acts.ret {α : Type _} (a : α) : Acts (fun _ => FM.ret a) (fun ar => (ar, .ok a)) := by
  intro s h _ _ hd
  simp only [FM.ret, put_self hd, ofRes]

theorem Acts.congr {α : Type _} {b : Handle → FM α} {g g' : Archive → Archive × Res α} (h : Acts b g)
    (e : ∀ a, g a = g' a) : Acts b g' := by
  rw [← funext e]; exact h

/-! ## Sessions -/

theorem find_rw {s : Files} {n : String} (hf : s.Free n) :
    ((s.opened.find? (fun k => k.name = n)).map Handle.rw).getD true = true := by
  cases h : s.opened.find? (fun k => k.name = n) with
  | none => rfl
  | some k =>
    simp only [Option.map_some, Option.getD_some]
    exact hf k (List.mem_of_find?_eq_some h) (by simpa using List.find?_some h)

theorem fileA_free {s : Files} {n : String} (hf : s.Free n) :
    fileA n s = (⟨s.disk.write n (s.content n), s.opened ++ [⟨s.fresh, n, true⟩], s.fresh + 1⟩, .ok ⟨s.fresh, n, true⟩) := by
  unfold fileA
  cases h : s.disk n with
  | some f =>
    have : s.disk.write n (s.content n) = s.disk := write_self (by rw [h]; simp)
    simp only [Files.enter, find_rw hf, this]
  | none =>
    have : s.content n = Archive.empty := by simp [Files.content, h]
    have e := find_rw hf
    simp only [Files.enter, Files.put, this, e]

theorem isOpen_last (d : Disk) (l : List Handle) (h : Handle) (k : Nat) : (⟨d, l ++ [h], k⟩ : Files).isOpen h = true := by
  simp [Files.isOpen]

theorem close_last {s : Files} (hw : s.WF) (h : Handle) (hid : s.fresh ≤ h.id) :
    (s.opened ++ [h]).filter (fun k => decide (k.id ≠ h.id)) = s.opened := by
  rw [List.filter_append]
  have h1 : s.opened.filter (fun k => decide (k.id ≠ h.id)) = s.opened :=
    List.filter_eq_self.mpr fun k hk => by have := hw.old k hk; simp; omega
  rw [h1]
  simp

theorem session_path {α : Type _} {s : Files} (hw : s.WF) {n : String} (hf : s.Free n) {body : Handle → FM α}
    {g : Archive → Archive × Res α} (hb : Acts body g) :
    ∃ s', session (.path n) body s = (s', ofRes (g (s.content n)).2) ∧
      s.After s' n (g (s.content n)).1 (raised (g (s.content n)).2) := by
  have e1 : session (.path n) body s =
      FM.next (body ⟨s.fresh, n, true⟩) (fun a => FM.next (Handle.close ⟨s.fresh, n, true⟩) fun _ => FM.ret a)
        ⟨s.disk.write n (s.content n), s.opened ++ [⟨s.fresh, n, true⟩], s.fresh + 1⟩ := by
    simp only [session, FM.next, fileA_free hf]
  have e2 := hb ⟨s.disk.write n (s.content n), s.opened ++ [⟨s.fresh, n, true⟩], s.fresh + 1⟩ ⟨s.fresh, n, true⟩
    (isOpen_last _ _ _ _) rfl (by simp [Disk.write])
  have e3 : (⟨s.disk.write n (s.content n), s.opened ++ [⟨s.fresh, n, true⟩], s.fresh + 1⟩ : Files).content n = s.content n := by
    simp [Files.content, Disk.write]
  simp only [e3] at e2
  rw [e1]
  simp only [FM.next, e2]
  rcases hg : g (s.content n) with ⟨ar, e | a⟩
  · refine ⟨_, rfl, ?_, Nat.le_succ _, [⟨s.fresh, n, true⟩], rfl, rfl, ?_⟩
    · exact write_write _ _ _ _
    · intro h hh
      simp only [List.mem_singleton] at hh
      subst hh
      exact ⟨rfl, le_refl _, Nat.lt_succ_self _⟩
  · refine ⟨_, rfl, ?_, Nat.le_succ _, [], ?_, rfl, by simp⟩
    · exact write_write _ _ _ _
    · rw [List.append_nil]
      exact close_last hw ⟨s.fresh, n, true⟩ (le_refl _)

theorem session_file {α : Type _} {s : Files} (hw : s.WF) {h : Handle} (hm : h ∈ s.opened) (hr : h.rw = true)
    {body : Handle → FM α} {g : Archive → Archive × Res α} (hb : Acts body g) :
    ∃ s', session (.file h) body s = (s', ofRes (g (s.content h.name)).2) ∧
      s.After s' h.name (g (s.content h.name)).1 0 := by
  refine ⟨_, hb s h ?_ hr (hw.there h hm), rfl, le_refl _, [], by simp [Files.put], rfl, by simp⟩
  exact List.any_eq_true.mpr ⟨h, hm, by simp⟩

theorem sessionR_path {α : Type _} {s : Files} (hw : s.WF) {n : String} (hd : s.disk n ≠ none) (g : Archive → Res α) :
    ∃ s', sessionR n (fun f => f.read g) s = (s', ofRes (g (s.content n))) ∧
      s.After s' n (s.content n) (raised (g (s.content n))) := by
  obtain ⟨f, hf⟩ := Option.ne_none_iff_exists'.mp hd
  simp only [sessionR, FM.next, fileR, hf, Files.enter, Handle.read, isOpen_last]
  have e3 : ∀ l k, (⟨s.disk, l, k⟩ : Files).content n = s.content n := fun _ _ => rfl
  simp only [e3, reduceCtorEq, if_false]
  cases hg : g (s.content n) with
  | error e =>
    refine ⟨_, rfl, (write_self hd).symm, Nat.le_succ _, _, rfl, rfl, ?_⟩
    intro h hh
    simp only [List.mem_singleton] at hh
    subst hh
    exact ⟨rfl, le_refl _, Nat.lt_succ_self _⟩
  | ok a =>
    refine ⟨_, rfl, (write_self hd).symm, Nat.le_succ _, [], ?_, rfl, by simp⟩
    rw [List.append_nil]
    exact close_last hw _ (le_refl _)

/-! ## What comes after -/

theorem Files.After.wf {s s' : Files} {n : String} {f : Archive} {k : Nat} (h : s.After s' n f k) (hw : s.WF) : s'.WF := by
  obtain ⟨left, h1, h2, h3⟩ := h.opened
  refine ⟨fun x hx => ?_, fun x hx => ?_⟩
  · rw [h1, List.mem_append] at hx
    rcases hx with hx | hx
    · exact lt_of_lt_of_le (hw.old x hx) h.fresh
    · exact (h3 x hx).2.2
  · rw [h.disk]
    by_cases e : x.name = n
    · simp [Disk.write, e]
    · rw [h1, List.mem_append] at hx
      rcases hx with hx | hx
      · simpa [Disk.write, e] using hw.there x hx
      · exact absurd (h3 x hx).1 e

theorem Files.After.content {s s' : Files} {n : String} {f : Archive} {k : Nat} (h : s.After s' n f k) : s'.content n = f := by
  simp [Files.content, h.disk, Disk.write]

theorem Files.After.there {s s' : Files} {n : String} {f : Archive} {k : Nat} (h : s.After s' n f k) : s'.disk n ≠ none := by
  simp [h.disk, Disk.write]

theorem Files.After.closed {s s' : Files} {n : String} {f : Archive} (h : s.After s' n f 0) : s'.opened = s.opened := by
  obtain ⟨left, h1, h2, -⟩ := h.opened
  rw [h1, List.length_eq_zero_iff.mp h2, List.append_nil]

theorem Files.After.trans {s s' s'' : Files} {n : String} {f f' : Archive} {k : Nat} (h : s.After s' n f 0)
    (h' : s'.After s'' n f' k) : s.After s'' n f' k := by
  obtain ⟨left, h1, h2, h3⟩ := h'.opened
  refine ⟨by rw [h'.disk, h.disk, write_write], h.fresh.trans h'.fresh, left, by rw [h1, h.closed], h2, fun x hx => ?_⟩
  obtain ⟨a, b, c⟩ := h3 x hx
  exact ⟨a, h.fresh.trans b, c⟩

/-- `m` does to the archive `n` what `g` says and leaves `k` files open. -/
def DoesTo {α : Type _} (m : FM α) (n : String) (g : Archive → Archive × Res α) (k : Archive → Nat) (s : Files) : Prop :=
  ∃ s', m s = (s', ofRes (g (s.content n)).2) ∧ s.After s' n (g (s.content n)).1 (k (s.content n))

theorem DoesTo.next {α β : Type _} {m : FM α} {n : String} {g : Archive → Archive × Res α} {k : Archive → Nat} {s : Files}
    (hm : DoesTo m n g k s) (h0 : ∀ f a, (g f).2 = .ok a → k f = 0) {c : α → FM β} {g' : α → Archive → Archive × Res β}
    {k' : α → Archive → Nat}
    (hc : ∀ a s', s'.opened = s.opened → s'.disk n ≠ none → s.fresh ≤ s'.fresh → (s.WF → s'.WF) → DoesTo (c a) n (g' a) (k' a) s') :
    DoesTo (FM.next m c) n (fun f => match g f with
        | (f1, .ok a) => g' a f1
        | (f1, .error e) => (f1, .error e)) (fun f => match g f with
        | (f1, .ok a) => k' a f1
        | (_, .error _) => k f) s := by
  obtain ⟨s1, e1, h1⟩ := hm
  unfold DoesTo
  simp only [FM.next, e1]
  rcases hg : g (s.content n) with ⟨f1, e | a⟩
  · rw [hg] at h1
    exact ⟨s1, rfl, h1⟩
  · rw [hg] at h1
    simp only [ofRes]
    rw [h0 (s.content n) a (by rw [hg])] at h1
    obtain ⟨s2, e2, h2⟩ := hc a s1 h1.closed h1.there h1.fresh h1.wf
    rw [h1.content] at e2 h2
    exact ⟨s2, e2, h1.trans h2⟩

theorem DoesTo.ret {α : Type _} (a : α) (n : String) {s : Files} (hd : s.disk n ≠ none) :
    DoesTo (FM.ret a) n (fun f => (f, .ok a)) (fun _ => 0) s :=
  ⟨s, rfl, (write_self hd).symm, le_refl _, [], by simp, rfl, by simp⟩

theorem DoesTo.lift {α : Type _} (r : Res α) (n : String) {s : Files} (hd : s.disk n ≠ none) :
    DoesTo (FM.lift r) n (fun f => (f, r)) (fun _ => 0) s :=
  ⟨s, rfl, (write_self hd).symm, le_refl _, [], by simp, rfl, by simp⟩

theorem DoesTo.congr {α : Type _} {m : FM α} {n : String} {g g' : Archive → Archive × Res α} {k k' : Archive → Nat} {s : Files}
    (h : DoesTo m n g k s) (hg : ∀ f, g f = g' f) (hk : ∀ f, k f = k' f) : DoesTo m n g' k' s := by
  rw [← funext hg, ← funext hk]; exact h

/-- The argument can be used: a name nothing locks, or a file open for writing. -/
def Usable (s : Files) : FileArg → Prop
  | .path n => s.Free n
  | .file h => h ∈ s.opened ∧ h.rw = true
  | .other => False

/-- How many files a function leaves open that raises one by name, none by file. -/
def argLeft {α : Type _} (arg : FileArg) (r : Res α) : Nat :=
  match arg with
  | .path _ => raised r
  | _ => 0

theorem session_does {α : Type _} {s : Files} (hw : s.WF) {arg : FileArg} (hu : Usable s arg) {body : Handle → FM α}
    {g : Archive → Archive × Res α} (hb : Acts body g) :
    DoesTo (session arg body) arg.name g (fun f => argLeft arg (g f).2) s := by
  cases arg with
  | path n => exact session_path hw hu hb
  | file h => exact session_file hw hu.1 hu.2 hb
  | other => exact hu.elim

theorem argLeft_ok {α : Type _} {arg : FileArg} {r : Res α} {a : α} (h : r = .ok a) : argLeft arg r = 0 := by
  subst h; cases arg <;> rfl

theorem DoesTo.give {α : Type _} {m : FM α} {n : String} {g : Archive → Archive × Res α} {k : Archive → Nat} {s : Files}
    (h : DoesTo m n g k s) (c : α → FileOut) : DoesTo (m.give c) n (fun f => ((g f).1, (g f).2.map c)) k s := by
  obtain ⟨s', e, h⟩ := h
  unfold DoesTo
  refine ⟨s', ?_, h⟩
  simp only [FM.give, FM.next, e]
  cases (g (s.content n)).2 <;> rfl

theorem fileSave_does {s : Files} (hw : s.WF) {arg : FileArg} (hu : Usable s arg) (y : Larry PyLabel) (key : String) :
    DoesTo (fileSave arg y key) arg.name (fun f => f.save y key) (fun f => argLeft arg (f.save y key).2) s :=
  session_does hw hu (Acts.write _)

theorem fileLabels_acts (key : String) :
    Acts (fun f => fileLabels (.file f) key) (fun a => (a, a.loadLabel (comps key))) := Acts.read (fun a => a.loadLabel (comps key))

theorem load_body_acts (key : String) : Acts (fun f =>
    next (f.read (fun a => a.checkKey (comps key))) fun _ =>
    next (f.read (fun a => a.readX (comps key))) fun x =>
    next (fileLabels (.file f) key) fun label => ret (x, label))
    (fun a => (a, match a.checkKey (comps key) with
      | .error e => .error e
      | .ok _ => match a.readX (comps key) with
        | .error e => .error e
        | .ok x => match a.loadLabel (comps key) with
          | .error e => .error e
          | .ok label => .ok (x, label))) := by
  refine (Acts.next (Acts.read _) fun _ => Acts.next (Acts.read _) fun x =>
    Acts.next (fileLabels_acts key) fun label => Acts.ret (x, label)).congr fun a => ?_
  cases h1 : a.checkKey (comps key) with
  | error e => simp
  | ok u =>
    cases h2 : a.readX (comps key) with
    | error e => simp [h2]
    | ok x => cases h3 : a.loadLabel (comps key) <;> simp [h2, h3]

theorem fileLoad_does {s : Files} (hw : s.WF) {arg : FileArg} (hu : Usable s arg) (key : String) :
    DoesTo (fileLoad arg key) arg.name (fun f => (f, f.load key)) (fun f => match arg with
      | .path n => FileCall.leaves f (.load (.path n) key)
      | _ => 0) s := by
  refine (DoesTo.next (session_does hw hu (load_body_acts key)) (fun f a h => argLeft_ok h)
    (fun a s' _ hd _ _ => DoesTo.lift (Larry.mk' a.1.1 a.1.2 a.2) arg.name hd)).congr (fun f => ?_) (fun f => ?_)
  · simp only [Archive.load]
    cases h1 : f.checkKey (comps key) with
    | error e => rfl
    | ok u =>
      cases h2 : f.readX (comps key) with
      | error e => rfl
      | ok x => cases h3 : f.loadLabel (comps key) <;> rfl
  · simp only [FileCall.leaves]
    cases h1 : f.checkKey (comps key) with
    | error e => cases arg <;> rfl
    | ok u =>
      cases h2 : f.readX (comps key) with
      | error e => cases arg <;> simp [argLeft, raised]
      | ok x => cases h3 : f.loadLabel (comps key) <;> cases arg <;> simp [argLeft, raised]

theorem fileDelete_does {s : Files} (hw : s.WF) {arg : FileArg} (hu : Usable s arg) (key : String) :
    DoesTo (fileDelete arg key) arg.name (fun f => f.delete key) (fun f => argLeft arg (f.delete key).2) s := by
  refine session_does hw hu ((Acts.next (Acts.read _) fun _ => Acts.write (dropKey key)).congr fun a => ?_)
  simp only [Archive.delete, dropKey]
  cases h1 : a.checkKey (comps key) <;> rfl

theorem fileIsLarry_does {s : Files} (hw : s.WF) {arg : FileArg} (hu : Usable s arg) (key : String) :
    DoesTo (fileIsLarry arg key) arg.name (fun f => (f, f.archivedLarry key)) (fun f => argLeft arg (f.archivedLarry key)) s :=
  session_does hw hu (Acts.read _)

theorem fileDirectory_does {s : Files} (hw : s.WF) {arg : FileArg} (hu : Usable s arg) :
    DoesTo (fileDirectory arg) arg.name (fun f => (f, f.keys)) (fun f => argLeft arg f.keys) s :=
  session_does hw hu (Acts.read _)

theorem ioGet_does {s : Files} (hw : s.WF) {n : String} (hf : s.Free n) (hd : s.disk n ≠ none) (key : String) :
    DoesTo (ioGet n key) n (fun f => (f, f.lara key)) (fun f => raised (f.lara key)) s := by
  have h1 : DoesTo (sessionR n fun f => f.read (fun a => a.checkKey (comps key))) n
      (fun f => (f, f.checkKey (comps key))) (fun f => raised (f.checkKey (comps key))) s := sessionR_path hw hd _
  have h2 : ∀ s' : Files, s'.opened = s.opened → s'.disk n ≠ none → s.fresh ≤ s'.fresh → (s.WF → s'.WF) →
      DoesTo (makeLara n key) n (fun f => (f, (f.loadLabel (comps key)).map (fun l => (⟨key, l⟩ : Lara))))
        (fun f => raised (f.loadLabel (comps key))) s' := by
    intro s' ho hd' _ hw'
    have hf' : s'.Free n := fun h hh => hf h (by rw [← ho]; exact hh)
    have h3 : DoesTo (fileLabels (.path n) key) n (fun a => (a, a.loadLabel (comps key)))
        (fun f => argLeft (.path n) (f.loadLabel (comps key))) s' :=
      session_does (arg := .path n) (hw' hw) hf' (fileLabels_acts key)
    refine (DoesTo.next h3 (fun f a h => argLeft_ok h) (fun label s'' _ hd'' _ _ => DoesTo.ret (⟨key, label⟩ : Lara) n hd'')).congr
      (fun f => ?_) (fun f => ?_)
    · cases h4 : f.loadLabel (comps key) <;> rfl
    · cases h4 : f.loadLabel (comps key) <;> rfl
  refine (DoesTo.next h1 (fun f a h => by simp only at h; rw [h]; rfl) (fun _ s' => h2 s')).congr (fun f => ?_) (fun f => ?_)
  · simp only [Archive.lara]
    cases h4 : f.checkKey (comps key) with
    | error e => rfl
    | ok u => cases h5 : f.loadLabel (comps key) <;> simp [h5, Except.map]
  · simp only [Archive.lara]
    cases h4 : f.checkKey (comps key) with
    | error e => rfl
    | ok u => cases h5 : f.loadLabel (comps key) <;> simp [h5, raised]

theorem ioKeys_does {s : Files} (hw : s.WF) {n : String} (hf : s.Free n) :
    DoesTo (ioKeys n) n (fun f => (f, f.keys)) (fun f => raised f.keys) s := fileDirectory_does (arg := .path n) hw hf

theorem ioContains_does {s : Files} (hw : s.WF) {n : String} (hf : s.Free n) (key : String) :
    DoesTo (ioContains n key) n (fun f => (f, f.contains key)) (fun f => raised (f.contains key)) s := by
  refine (DoesTo.next (ioKeys_does hw hf) (fun f a h => by simp only at h; rw [h]; rfl)
    (fun ks s' _ hd _ _ => DoesTo.ret (ks.contains key) n hd)).congr (fun f => ?_) (fun f => ?_)
  · cases h : f.keys <;> simp [Archive.contains, h]
  · cases h : f.keys <;> simp [Archive.contains, h, raised]

theorem ioLen_does {s : Files} (hw : s.WF) {n : String} (hf : s.Free n) :
    DoesTo (ioLen n) n (fun f => (f, f.len)) (fun f => raised f.len) s := by
  refine (DoesTo.next (ioKeys_does hw hf) (fun f a h => by simp only at h; rw [h]; rfl)
    (fun ks s' _ hd _ _ => DoesTo.ret ks.length n hd)).congr (fun f => ?_) (fun f => ?_)
  · cases h : f.keys <;> simp [Archive.len, h]
  · cases h : f.keys <;> simp [Archive.len, h, raised]

theorem ioDel_does {s : Files} (hw : s.WF) {n : String} (hf : s.Free n) (key : String) :
    DoesTo (ioDel n key) n (fun f => f.delete key) (fun f => raised (f.delete key).2) s :=
  fileDelete_does (arg := .path n) hw hf key

theorem ioDelAll_does (n : String) : ∀ (ks : List String) {s : Files}, s.WF → s.Free n → s.disk n ≠ none →
    DoesTo (ioDelAll n ks) n (fun f => f.deleteAll ks) (fun f => raised (f.deleteAll ks).2) s
  | [], s, _, _, hd => DoesTo.ret () n hd
  | k :: ks, s, hw, hf, hd => by
    refine (DoesTo.next (ioDel_does hw hf k) (fun f a h => by rw [h]; rfl)
      (fun _ s' ho hd' _ hw' => ioDelAll_does n ks (hw' hw) (fun h hh => hf h (by rw [← ho]; exact hh)) hd')).congr
      (fun f => ?_) (fun f => ?_)
    · simp only [Archive.deleteAll]
      rcases h : f.delete k with ⟨f1, e | u⟩ <;> rfl
    · simp only [Archive.deleteAll]
      rcases h : f.delete k with ⟨f1, e | u⟩ <;> rfl

theorem ioClear_does {s : Files} (hw : s.WF) {n : String} (hf : s.Free n) :
    DoesTo (ioClear n) n (fun f => f.clear) (fun f => raised f.clear.2) s := by
  refine (DoesTo.next (ioKeys_does hw hf) (fun f a h => by simp only at h; rw [h]; rfl)
    (fun ks s' ho hd _ hw' => ioDelAll_does n ks (hw' hw) (fun h hh => hf h (by rw [← ho]; exact hh)) hd)).congr
    (fun f => ?_) (fun f => ?_)
  · cases h : f.keys <;> simp [Archive.clear, h]
  · cases h : f.keys <;> simp [Archive.clear, h, raised]

theorem ioSet_does {s : Files} (hw : s.WF) {n : String} (hf : s.Free n) (key : String) (y : Larry PyLabel) :
    DoesTo (ioSet n key y) n (fun f => f.setitem key y) (fun f => FileCall.leaves f (.set n key y)) s := by
  -- after the first opening
  obtain ⟨h, hh⟩ : ∃ h : Handle, h = ⟨s.fresh, n, true⟩ := ⟨_, rfl⟩
  obtain ⟨s1, hs1⟩ : ∃ s1 : Files, s1 = ⟨s.disk.write n (s.content n), s.opened ++ [h], s.fresh + 1⟩ := ⟨_, rfl⟩
  have e1 : fileA n s = (s1, .ok h) := by rw [fileA_free hf, hs1, hh]
  have c1 : s1.content n = s.content n := by rw [hs1]; simp [Files.content, Disk.write]
  have t1 : s1.disk n ≠ none := by rw [hs1]; simp [Disk.write]
  have m1 : h ∈ s1.opened := by rw [hs1]; simp
  have n1 : h.name = n := by rw [hh]
  have r1 : h.rw = true := by rw [hh]
  have w1 : s1.WF := by
    rw [hs1]
    refine ⟨fun k hk => ?_, fun k hk => ?_⟩
    · simp only [List.mem_append, List.mem_singleton] at hk
      rcases hk with hk | rfl
      · exact Nat.lt_succ_of_lt (hw.old k hk)
      · rw [hh]; exact Nat.lt_succ_self _
    · simp only [Disk.write]
      split_ifs with e
      · simp
      · simp only [List.mem_append, List.mem_singleton] at hk
        rcases hk with hk | rfl
        · exact hw.there k hk
        · exact absurd n1 e
  have f1 : s1.Free n := by
    rw [hs1]
    intro k hk hn
    simp only [List.mem_append, List.mem_singleton] at hk
    rcases hk with hk | rfl
    · exact hf k hk hn
    · exact r1
  have o1 : s1.isOpen h = true := List.any_eq_true.mpr ⟨h, m1, by simp⟩
  -- the deletion
  have hdel : DoesTo (delIf n key ((s.content n).get [key]).isSome) n
      (fun f => if ((s.content n).get [key]).isSome then f.delete key else (f, .ok ()))
      (fun f => if ((s.content n).get [key]).isSome then raised (f.delete key).2 else 0) s1 := by
    unfold delIf
    split_ifs
    · exact ioDel_does w1 f1 key
    · exact DoesTo.ret () n t1
  -- saving and closing
  have hsave : ∀ s2 : Files, s1.After s2 n (s2.content n) 0 →
      ∃ s3, FM.next (fileSave (.file h) y key) (fun _ => h.close) s2 = (s3, ofRes ((s2.content n).save y key).2) ∧
        s.After s3 n ((s2.content n).save y key).1 (raised ((s2.content n).save y key).2) := by
    intro s2 h2
    obtain ⟨s3, e3, h3⟩ := fileSave_does (s := s2) (h2.wf w1) (arg := .file h) ⟨by rw [h2.closed]; exact m1, r1⟩ y key
    simp only [FileArg.name, n1, argLeft] at e3 h3
    have hd3 : s3.disk = s.disk.write n ((s2.content n).save y key).1 := by
      rw [h3.disk, h2.disk, hs1, write_write, write_write]
    have hfr : s.fresh + 1 ≤ s3.fresh := by
      have := h2.fresh.trans h3.fresh
      rw [hs1] at this
      exact this
    have ho : s3.opened = s.opened ++ [h] := by rw [h3.closed, h2.closed, hs1]
    simp only [FM.next, e3]
    cases hr : ((s2.content n).save y key).2 with
    | error e =>
      refine ⟨s3, rfl, hd3, by omega, [h], ho, rfl, ?_⟩
      intro k hk
      simp only [List.mem_singleton] at hk
      subst hk
      refine ⟨n1, by rw [hh], ?_⟩
      rw [hh]
      exact hfr
    | ok u =>
      refine ⟨_, rfl, hd3, (by simp only; omega), [], ?_, rfl, by simp⟩
      simp only
      rw [ho, List.append_nil]
      exact close_last hw h (by rw [hh])
  obtain ⟨s2, e2, h2⟩ := hdel
  have er : (h.read (fun a => .ok (a.get [key]).isSome) : FM Bool) s1 = (s1, .ok ((s.content n).get [key]).isSome) := by
    simp only [Handle.read, o1, n1, c1, ofRes]
    simp
  have step : ∀ d : Res Unit, (if ((s.content n).get [key]).isSome then (s.content n).delete key
      else (s.content n, .ok ())).2 = d → ioSet n key y s = match d with
        | .ok _ => FM.next (fileSave (.file h) y key) (fun _ => h.close) s2
        | .error e => (s2, .error (.py e)) := by
    intro d hd
    simp only [c1, hd] at e2
    simp only [ioSet, FM.next, e1, er, e2]
    cases d <;> rfl
  unfold DoesTo
  rw [c1] at h2
  cases hg : (s.content n).get [key] with
  | none =>
    simp only [hg, Option.isSome_none, Bool.false_eq_true, if_false] at h2 ⊢
    obtain ⟨s3, e3, h3⟩ := hsave s2 (by rw [h2.content]; exact h2)
    rw [h2.content] at e3 h3
    refine ⟨s3, ?_, ?_⟩
    · rw [step (.ok ()) (by simp [hg])]
      simp only [Archive.setitem, hg]
      exact e3
    · simpa only [Archive.setitem, FileCall.leaves, hg] using h3
  | some nd =>
    simp only [hg, Option.isSome_some, if_true] at h2 ⊢
    rcases hdl : (s.content n).delete key with ⟨f1, e | u⟩
    · rw [hdl] at h2
      refine ⟨s2, ?_, ?_⟩
      · rw [step (.error e) (by simp [hg, hdl])]
        simp only [Archive.setitem, hg, hdl]
        rfl
      · simp only [Archive.setitem, FileCall.leaves, hg, hdl]
        obtain ⟨left, l1, l2, l3⟩ := h2.opened
        refine ⟨by rw [h2.disk, hs1, write_write], ?_, h :: left, ?_, by simp [l2, raised], ?_⟩
        · have := h2.fresh
          rw [hs1] at this
          simp only at this
          omega
        · rw [l1, hs1]; simp
        · have := h2.fresh
          rw [hs1] at this
          simp only at this
          intro k hk
          rcases List.mem_cons.mp hk with rfl | hk
          · refine ⟨n1, by rw [hh], ?_⟩
            rw [hh]
            exact this
          · obtain ⟨a, b, c⟩ := l3 k hk
            rw [hs1] at b
            simp only at b
            exact ⟨a, by omega, c⟩
    · rw [hdl] at h2
      simp only [raised] at h2
      obtain ⟨s3, e3, h3⟩ := hsave s2 (by rw [h2.content]; exact h2)
      rw [h2.content] at e3 h3
      refine ⟨s3, ?_, ?_⟩
      · rw [step (.ok u) (by simp [hg, hdl])]
        simp only [Archive.setitem, hg, hdl]
        exact e3
      · simpa only [Archive.setitem, FileCall.leaves, hg, hdl] using h3

theorem laraGet_does {s : Files} (hw : s.WF) {n : String} (hd : s.disk n ≠ none) (z : Bool) (a : Lara) (idx : Index PyLabel) :
    DoesTo (laraGet z n a idx) n (fun f => (f, a.get z f idx)) (fun f => raised (a.get z f idx)) s :=
  sessionR_path hw hd (fun ar => a.get z ar idx)

theorem laraShape_does {s : Files} (hw : s.WF) {n : String} (hd : s.disk n ≠ none) (a : Lara) :
    DoesTo (laraShape n a) n (fun f => (f, a.shapeIn f)) (fun f => raised (a.shapeIn f)) s :=
  sessionR_path hw hd (fun ar => a.shapeIn ar)

theorem laraSet_does {s : Files} (hw : s.WF) {n : String} (hf : s.Free n) (z : Bool) (a : Lara) (idx : NpIndex) (v : Val) :
    DoesTo (laraSet z n a idx v) n (fun f => a.setAt z f idx (.scalar v)) (fun f => raised (a.setAt z f idx (.scalar v)).2) s :=
  session_does (arg := .path n) hw hf (Acts.write (fun ar => a.setAt z ar idx (.scalar v)))

theorem raised_map {α β : Type _} (r : Res α) (c : α → β) : raised (r.map c) = raised r := by
  cases r <;> rfl

theorem argLeft_map {α β : Type _} (arg : FileArg) (r : Res α) (c : α → β) : argLeft arg (r.map c) = argLeft arg r := by
  cases arg <;> cases r <;> rfl

theorem call_does {s : Files} (hw : s.WF) (c : FileCall) (hu : Usable s c.arg)
    (hd : c.reads = true → s.disk c.name ≠ none) :
    DoesTo c.run c.name (fun f => c.on f) (fun f => match c.arg with
      | .path _ => c.leaves f
      | _ => 0) s := by
  cases c with
  | save arg y key =>
    refine ((fileSave_does hw hu y key).give _).congr (fun f => rfl) (fun f => ?_)
    cases arg <;> simp [argLeft, FileCall.arg, FileCall.leaves, FileCall.on, raised_map]
  | load arg key =>
    refine ((fileLoad_does hw hu key).give _).congr (fun f => rfl) (fun f => ?_)
    cases arg <;> rfl
  | delete arg key =>
    refine ((fileDelete_does hw hu key).give _).congr (fun f => rfl) (fun f => ?_)
    cases arg <;> simp [argLeft, FileCall.arg, FileCall.leaves, FileCall.on, raised_map]
  | isLarry arg key =>
    refine ((fileIsLarry_does hw hu key).give _).congr (fun f => rfl) (fun f => ?_)
    cases arg <;> simp [argLeft, FileCall.arg, FileCall.leaves, FileCall.on, raised_map]
  | directory arg =>
    refine ((fileDirectory_does hw hu).give _).congr (fun f => rfl) (fun f => ?_)
    cases arg <;> simp [argLeft, FileCall.arg, FileCall.leaves, FileCall.on, raised_map]
  | get n key =>
    refine ((ioGet_does hw hu (hd rfl) key).give _).congr (fun f => rfl) (fun f => ?_)
    simp [FileCall.arg, FileCall.leaves, FileCall.on, raised_map]
  | set n key y => exact ((ioSet_does hw hu key y).give _).congr (fun f => rfl) (fun f => rfl)
  | del n key =>
    refine ((ioDel_does hw hu key).give _).congr (fun f => rfl) (fun f => ?_)
    simp [FileCall.arg, FileCall.leaves, FileCall.on, raised_map]
  | contains n key =>
    refine ((ioContains_does hw hu key).give _).congr (fun f => rfl) (fun f => ?_)
    simp [FileCall.arg, FileCall.leaves, FileCall.on, raised_map]
  | len n =>
    refine ((ioLen_does hw hu).give _).congr (fun f => rfl) (fun f => ?_)
    simp [FileCall.arg, FileCall.leaves, FileCall.on, raised_map]
  | clear n =>
    refine ((ioClear_does hw hu).give _).congr (fun f => rfl) (fun f => ?_)
    simp [FileCall.arg, FileCall.leaves, FileCall.on, raised_map]
  | laraGet z n a idx =>
    refine ((laraGet_does hw (hd rfl) z a idx).give _).congr (fun f => rfl) (fun f => ?_)
    simp [FileCall.arg, FileCall.leaves, FileCall.on, raised_map]
  | laraSet z n a idx v =>
    refine ((laraSet_does hw hu z a idx v).give _).congr (fun f => rfl) (fun f => ?_)
    simp [FileCall.arg, FileCall.leaves, FileCall.on, raised_map]
  | laraShape n a =>
    refine ((laraShape_does hw (hd rfl) a).give _).congr (fun f => rfl) (fun f => ?_)
    simp [FileCall.arg, FileCall.leaves, FileCall.on, raised_map]

theorem absent_run {s : Files} {c : FileCall} (h : c.absent s.disk = true) : c.run s = (s, .error .io) := by
  simp only [FileCall.absent, Bool.and_eq_true, Option.isNone_iff_eq_none] at h
  obtain ⟨hr, hn⟩ := h
  cases c <;> simp only [FileCall.reads, Bool.false_eq_true] at hr
  all_goals
    simp only [FileCall.name] at hn
    simp only [FileCall.run, FM.give, FM.next, ioGet, laraGet, laraShape, sessionR, fileR, hn]

/-- One call by a name nothing locks, or by a file open for writing. -/
theorem C103_call {s : Files} (hw : s.WF) (c : FileCall) (hu : Usable s c.arg) :
    ∃ s' left, c.run s = (s', (c.onDisk s.disk).2) ∧ s'.disk = (c.onDisk s.disk).1 ∧ s'.WF ∧
      s'.opened = s.opened ++ left ∧ left.length = c.stays s.disk ∧ ∀ h ∈ left, h.name = c.name := by
  by_cases ha : c.absent s.disk = true
  · exact ⟨s, [], by rw [absent_run ha, FileCall.onDisk, if_pos ha], by rw [FileCall.onDisk, if_pos ha], hw, by simp,
      by simp [FileCall.stays, ha], by simp⟩
  · obtain ⟨s', e, h⟩ := call_does hw c hu (fun hr hn => ha (by simp [FileCall.absent, hr, hn]))
    obtain ⟨left, h1, h2, h3⟩ := h.opened
    refine ⟨s', left, ?_, ?_, h.wf hw, h1, ?_, fun k hk => (h3 k hk).1⟩
    · rw [e, FileCall.onDisk, if_neg ha]; rfl
    · rw [h.disk, FileCall.onDisk, if_neg ha]; rfl
    · rw [h2, FileCall.stays, if_neg ha]; rfl

theorem leaves_ok {f : Archive} {c : FileCall} {o : FileOut} (h : (c.on f).2 = .ok o) : c.leaves f = 0 := by
  cases c with
  | load arg key =>
    simp only [FileCall.on, Archive.load] at h
    simp only [FileCall.leaves]
    cases h1 : f.checkKey (comps key) with
    | error e => rw [h1] at h; simp [Except.map] at h
    | ok u =>
      rw [h1] at h
      cases h2 : f.readX (comps key) with
      | error e => rw [h2] at h; simp [Except.map] at h
      | ok x =>
        rw [h2] at h
        cases h3 : f.loadLabel (comps key) with
        | error e => rw [h3] at h; simp [Except.map] at h
        | ok l => rfl
  | set n key y =>
    simp only [FileCall.on] at h
    simp only [FileCall.leaves]
    have hr : raised (f.setitem key y).2 = 0 := by
      cases h1 : (f.setitem key y).2 with
      | error e => rw [h1] at h; simp [Except.map] at h
      | ok u => rfl
    cases h1 : f.get [key] with
    | none => simpa using hr
    | some nd =>
      rcases h2 : f.delete key with ⟨f1, e | u⟩
      · exfalso
        simp [Archive.setitem, h1, h2, raised] at hr
      · simpa using hr
  | _ => simp only [FileCall.leaves, h, raised]

/-- A call that returns leaves nothing open. -/
theorem C103_returns_closed {s : Files} (hw : s.WF) (c : FileCall) (hu : Usable s c.arg) {s' : Files} {o : FileOut}
    (h : c.run s = (s', .ok o)) : s'.opened = s.opened := by
  obtain ⟨s1, left, e, -, -, ho, hl, -⟩ := C103_call hw c hu
  rw [h] at e
  injection e with e1 e2
  subst e1
  have : c.stays s.disk = 0 := by
    unfold FileCall.onDisk at e2
    unfold FileCall.stays
    split_ifs with ha
    · rfl
    · rw [if_neg ha] at e2
      cases hr : (c.on ((s.disk c.name).getD Archive.empty)).2 with
      | error e => rw [hr] at e2; simp [ofRes] at e2
      | ok o' => cases c.arg <;> simp [leaves_ok hr]
  rw [this] at hl
  rw [ho, List.length_eq_zero_iff.mp hl, List.append_nil]

theorem via_on (f : Archive) (c : FileCall) (arg : FileArg) : (c.via arg).on f = c.on f := by cases c <;> rfl

theorem via_reads (c : FileCall) (arg : FileArg) : (c.via arg).reads = c.reads := by cases c <;> rfl

/-- It makes no difference whether a function is given the name or the open file. -/
theorem C103_name_or_file {s : Files} (hw : s.WF) (c : FileCall) {a b : FileArg} (hn : a.name = b.name)
    (ha : Usable s (c.via a).arg) (hb : Usable s (c.via b).arg) :
    ((c.via a).run s).2 = ((c.via b).run s).2 ∧ ((c.via a).run s).1.disk = ((c.via b).run s).1.disk := by
  have hname : (c.via a).name = (c.via b).name := by cases c <;> simp [FileCall.via, FileCall.name, hn]
  have : (c.via a).onDisk s.disk = (c.via b).onDisk s.disk := by
    unfold FileCall.onDisk FileCall.absent
    rw [via_on, via_on, via_reads, via_reads, hname]
  obtain ⟨s1, _, e1, d1, -⟩ := C103_call hw _ ha
  obtain ⟨s2, _, e2, d2, -⟩ := C103_call hw _ hb
  rw [e1, e2, d1, d2, this]
  exact ⟨rfl, rfl⟩

theorem Usable.mono {s s' : Files} (h : s'.opened = s.opened) {arg : FileArg} (hu : Usable s arg) : Usable s' arg := by
  cases arg <;> simp only [Usable, Files.Free, h] at hu ⊢ <;> exact hu

/-- A program none of whose calls leaves a file open works on the archives as if there were nothing but their content. -/
theorem C103_program : ∀ (cs : List FileCall) {s : Files}, s.WF → (∀ c ∈ cs, Usable s c.arg) → AllClosed s.disk cs →
    (runFiles s cs).1.opened = s.opened ∧ (runFiles s cs).1.disk = (runDisk s.disk cs).1 ∧
      (runFiles s cs).2 = (runDisk s.disk cs).2
  | [], s, _, _, _ => ⟨rfl, rfl, rfl⟩
  | c :: cs, s, hw, hu, ⟨h0, hc⟩ => by
    obtain ⟨s', left, e, d, w, o, l, -⟩ := C103_call hw c (hu c (List.mem_cons_self ..))
    rw [h0] at l
    rw [List.length_eq_zero_iff.mp l, List.append_nil] at o
    rw [← d] at hc
    obtain ⟨i1, i2, i3⟩ := C103_program cs w (fun x hx => (hu x (List.mem_cons_of_mem _ hx)).mono o) hc
    simp only [runFiles, runDisk, e, i1, i2, i3, d, o, and_self]

/-- If what a call leaves open is closed before the next one, that holds for all programs. -/
theorem C103_collected : ∀ (cs : List FileCall) {s : Files}, s.WF → (∀ c ∈ cs, Usable s c.arg) →
    (runCollected s cs).1.opened = s.opened ∧ (runCollected s cs).1.disk = (runDisk s.disk cs).1 ∧
      (runCollected s cs).2 = (runDisk s.disk cs).2
  | [], s, _, _ => ⟨rfl, rfl, rfl⟩
  | c :: cs, s, hw, hu => by
    obtain ⟨s', left, e, d, w, o, l, -⟩ := C103_call hw c (hu c (List.mem_cons_self ..))
    have w' : Files.WF { s' with opened := s.opened } :=
      ⟨fun h hh => w.old h (by rw [o]; exact List.mem_append_left _ hh),
        fun h hh => w.there h (by rw [o]; exact List.mem_append_left _ hh)⟩
    obtain ⟨i1, i2, i3⟩ := C103_collected cs w' (fun x hx => (hu x (List.mem_cons_of_mem _ hx)).mono rfl)
    simp only [runCollected, runDisk, e]
    rw [← d]
    exact ⟨i1, i2, by rw [i3]⟩

theorem onDisk_other {d : Disk} {c : FileCall} {n : String} (h : c.name ≠ n) : (c.onDisk d).1 n = d n := by
  unfold FileCall.onDisk
  split_ifs
  · rfl
  · simp [Disk.write, Ne.symm h]

theorem onDisk_same {d d' : Disk} {c : FileCall} (h : d c.name = d' c.name) :
    (c.onDisk d).1 c.name = (c.onDisk d').1 c.name ∧ (c.onDisk d).2 = (c.onDisk d').2 := by
  unfold FileCall.onDisk FileCall.absent
  rw [h]
  split_ifs
  · exact ⟨h, rfl⟩
  · exact ⟨by simp [Disk.write], rfl⟩

/-- The archives are independent: of the calls of a program those on `n` alone decide what comes to be in `n` and what
they return. -/
theorem C103_separate (n : String) : ∀ (cs : List FileCall) {d d' : Disk}, d n = d' n →
    (runDisk d cs).1 n = (runDisk d' (cs.filter fun c => c.name = n)).1 n ∧
      ((cs.zip (runDisk d cs).2).filter fun p => p.1.name = n) =
        (cs.filter fun c => c.name = n).zip (runDisk d' (cs.filter fun c => c.name = n)).2
  | [], _, _, h => ⟨h, rfl⟩
  | c :: cs, d, d', h => by
    by_cases hc : c.name = n
    · subst hc
      obtain ⟨e1, e2⟩ := onDisk_same (c := c) h
      obtain ⟨i1, i2⟩ := C103_separate c.name cs e1
      simp only [List.filter_cons, decide_true, if_true, runDisk, List.zip_cons_cons, i1, i2, e2, and_self]
    · obtain ⟨i1, i2⟩ := C103_separate n cs (d := (c.onDisk d).1) (d' := d') (by rw [onDisk_other hc]; exact h)
      simp only [List.filter_cons, hc, decide_false, Bool.false_eq_true, if_false, runDisk, List.zip_cons_cons, i1, i2,
        and_self]

/-- Something that is neither a name nor a file: TypeError, and nothing happened. -/
theorem C103_other (s : Files) (c : FileCall) (h : c.arg = .other) : c.run s = (s, .error (.py .typeError)) := by
  cases c <;> simp only [FileCall.arg, reduceCtorEq] at h <;> subst h <;> rfl

theorem empty_checkKey (p : Path) : Archive.empty.checkKey p = .error .keyError := by
  unfold Archive.checkKey
  by_cases h : p = []
  · subst h; rfl
  · have : Archive.empty.get p = none := by simp [Archive.empty, Archive.get, Ne.symm h]
    rw [this]

theorem empty_keys : Archive.empty.keys = .ok [] := by decide

/-- A name there is no file of: reading an element raises IOError; asking what is in it makes an empty archive. -/
theorem C103_misspelt {s : Files} (hw : s.WF) {n : String} (hn : s.disk n = none) :
    (∀ c : FileCall, c.reads = true → c.name = n → c.run s = (s, .error .io)) ∧
    (∀ key, ((FileCall.load (.path n) key).run s).2 = .error (.py .keyError) ∧
      ((FileCall.load (.path n) key).run s).1.disk = s.disk.write n Archive.empty) ∧
    (∀ key, ((FileCall.contains n key).run s).2 = .ok (.bool false) ∧
      ((FileCall.contains n key).run s).1.disk = s.disk.write n Archive.empty) ∧
    (((FileCall.len n).run s).2 = .ok (.nat 0) ∧
      ((FileCall.len n).run s).1.disk = s.disk.write n Archive.empty) := by
  have hf : s.Free n := fun h hh e => absurd hn (e ▸ hw.there h hh)
  refine ⟨fun c hr he => absent_run (by simp [FileCall.absent, hr, he, hn]), fun key => ?_, fun key => ?_, ?_⟩
  · obtain ⟨s', left, e, d, -⟩ := C103_call hw (.load (.path n) key) hf
    rw [e, d]
    simp only [FileCall.onDisk, FileCall.absent, FileCall.reads, FileCall.name, FileArg.name, hn, FileCall.on]
    simp [Archive.load, empty_checkKey, Except.map, ofRes]
  · obtain ⟨s', left, e, d, -⟩ := C103_call hw (.contains n key) hf
    rw [e, d]
    simp only [FileCall.onDisk, FileCall.absent, FileCall.reads, FileCall.name, hn, FileCall.on]
    simp [Archive.contains, empty_keys, Except.map, ofRes]
  · obtain ⟨s', left, e, d, -⟩ := C103_call hw (.len n) hf
    rw [e, d]
    simp only [FileCall.onDisk, FileCall.absent, FileCall.reads, FileCall.name, hn, FileCall.on]
    simp [Archive.len, empty_keys, Except.map, ofRes]

/-! ## A file that stays open for reading -/

/-- The file `k` is open, and all that is open of its name is for reading only. -/
structure Locked (k : Handle) (s : Files) : Prop where
  opened : k ∈ s.opened
  old : k.id < s.fresh
  ro : ∀ h ∈ s.opened, h.name = k.name → h.rw = false
  there : s.disk k.name ≠ none

/-- `m` neither closes `k` nor writes to its archive. -/
def Keeps {α : Type _} (k : Handle) (m : FM α) : Prop :=
  ∀ s, Locked k s → Locked k (m s).1 ∧ (m s).1.disk k.name = s.disk k.name ∧ s.fresh ≤ (m s).1.fresh

/-- A file that is not `k`, and for reading only if it is one of its archive. -/
def Beside (k f : Handle) : Prop := f.name = k.name → f.rw = false

theorem Keeps.next {α β : Type _} {k : Handle} {m : FM α} (hm : Keeps k m) {c : α → FM β} (hc : ∀ a, Keeps k (c a)) :
    Keeps k (FM.next m c) := by
  intro s hs
  obtain ⟨h1, h2, h3⟩ := hm s hs
  unfold FM.next
  rcases e : m s with ⟨s1, r | a⟩
  · rw [e] at h1 h2 h3; exact ⟨h1, h2, h3⟩
  · rw [e] at h1 h2 h3
    obtain ⟨i1, i2, i3⟩ := hc a s1 h1
    exact ⟨i1, i2.trans h2, h3.trans i3⟩

theorem Keeps.ret {α : Type _} (k : Handle) (a : α) : Keeps k (FM.ret a) := fun _ hs => ⟨hs, rfl, le_refl _⟩

theorem Keeps.lift {α : Type _} (k : Handle) (r : Res α) : Keeps k (FM.lift r) := fun _ hs => ⟨hs, rfl, le_refl _⟩

theorem Keeps.read {α : Type _} (k f : Handle) (g : Archive → Res α) : Keeps k (f.read g) := by
  intro s hs
  unfold Handle.read
  split_ifs <;> exact ⟨hs, rfl, le_refl _⟩

theorem Keeps.write {α : Type _} {k f : Handle} (hf : Beside k f) (g : Archive → Archive × Res α) : Keeps k (f.write g) := by
  intro s hs
  unfold Handle.write
  split_ifs with h1 h2
  · exact ⟨hs, rfl, le_refl _⟩
  · exact ⟨hs, rfl, le_refl _⟩
  · have hn : k.name ≠ f.name := fun e => h2 (hf e.symm)
    have hd : (s.put f.name (g (s.content f.name)).1).disk k.name = s.disk k.name := by
      simp [Files.put, Disk.write, hn]
    exact ⟨⟨hs.opened, hs.old, hs.ro, by rw [hd]; exact hs.there⟩, hd, le_refl _⟩

theorem enter_locked {k : Handle} {s : Files} (hs : Locked k s) (n : String) (b : Bool) :
    ∃ f, s.enter n b = (⟨s.disk, s.opened ++ [f], s.fresh + 1⟩, .ok f) ∧ f.id = s.fresh ∧ f.name = n ∧ Beside k f ∧
      Locked k ⟨s.disk, s.opened ++ [f], s.fresh + 1⟩ := by
  have hro : n = k.name → ((s.opened.find? (fun k => k.name = n)).map Handle.rw).getD b = false := by
    intro e
    cases h : s.opened.find? (fun k => decide (k.name = n)) with
    | none =>
      have := List.find?_eq_none.mp h k hs.opened
      simp [e] at this
    | some f =>
      have h1 := List.find?_some h
      have h2 := List.mem_of_find?_eq_some h
      simp only [decide_eq_true_eq] at h1
      simpa using hs.ro f h2 (h1.trans e)
  refine ⟨_, rfl, rfl, rfl, fun e => hro e, ?_⟩
  refine ⟨List.mem_append_left _ hs.opened, Nat.lt_succ_of_lt hs.old, fun h hh e => ?_, hs.there⟩
  rcases List.mem_append.mp hh with hh | hh
  · exact hs.ro h hh e
  · simp only [List.mem_singleton] at hh
    subst hh
    exact hro e

theorem fileA_locked {k : Handle} {s : Files} (hs : Locked k s) (n : String) :
    ∃ f s1, fileA n s = (s1, .ok f) ∧ f.id = s.fresh ∧ f.name = n ∧ Beside k f ∧ Locked k s1 ∧
      s1.disk k.name = s.disk k.name ∧ s1.fresh = s.fresh + 1 := by
  unfold fileA
  cases h : s.disk n with
  | some a =>
    obtain ⟨f, e, h1, h2, h3, h4⟩ := enter_locked hs n true
    exact ⟨f, _, e, h1, h2, h3, h4, rfl, rfl⟩
  | none =>
    have hn : k.name ≠ n := fun e => hs.there (e ▸ h)
    have hd : (s.put n Archive.empty).disk k.name = s.disk k.name := by simp [Files.put, Disk.write, hn]
    obtain ⟨f, e, h1, h2, h3, h4⟩ := enter_locked (s := s.put n Archive.empty)
      ⟨hs.opened, hs.old, hs.ro, by rw [hd]; exact hs.there⟩ n true
    exact ⟨f, _, e, h1, h2, h3, h4, hd, rfl⟩

theorem close_keeps {k f : Handle} {s : Files} (hs : Locked k s) (h : k.id ≠ f.id) :
    Locked k (f.close s).1 ∧ (f.close s).1.disk k.name = s.disk k.name ∧ s.fresh ≤ (f.close s).1.fresh := by
  refine ⟨⟨?_, hs.old, fun x hx => hs.ro x (List.mem_filter.mp hx).1, hs.there⟩, rfl, le_refl _⟩
  exact List.mem_filter.mpr ⟨hs.opened, by simp [h]⟩

/-- A file opened, used and closed again. -/
theorem opened_keeps {α : Type _} {k : Handle} {s s1 : Files} {f : Handle} (hs : Locked k s) (hs1 : Locked k s1)
    (hd : s1.disk k.name = s.disk k.name) (hfr : s1.fresh = s.fresh + 1) (hid : f.id = s.fresh) {body : FM α}
    (hb : Keeps k body) :
    Locked k (FM.next body (fun a => FM.next f.close fun _ => FM.ret a) s1).1 ∧
      (FM.next body (fun a => FM.next f.close fun _ => FM.ret a) s1).1.disk k.name = s.disk k.name ∧
      s.fresh ≤ (FM.next body (fun a => FM.next f.close fun _ => FM.ret a) s1).1.fresh := by
  have hne : k.id ≠ f.id := by have := hs.old; omega
  obtain ⟨i1, i2, i3⟩ := hb s1 hs1
  unfold FM.next
  rcases e : body s1 with ⟨s2, r | a⟩
  · rw [e] at i1 i2 i3; exact ⟨i1, i2.trans hd, by simp only at i3 ⊢; omega⟩
  · rw [e] at i1 i2 i3
    obtain ⟨j1, j2, j3⟩ := close_keeps i1 hne
    exact ⟨j1, j2.trans (i2.trans hd), by simp only [FM.ret] at i3 j3 ⊢; exact (by omega : s.fresh ≤ s2.fresh).trans j3⟩

/-- An argument that does not write to the archive of `k`. -/
def ArgBeside (k : Handle) : FileArg → Prop
  | .file f => Beside k f
  | _ => True

theorem session_keeps {α : Type _} {k : Handle} {arg : FileArg} (ha : ArgBeside k arg) {body : Handle → FM α}
    (hb : ∀ f, Beside k f → Keeps k (body f)) : Keeps k (session arg body) := by
  intro s hs
  cases arg with
  | file f => exact hb f ha s hs
  | other => exact ⟨hs, rfl, le_refl _⟩
  | path n =>
    obtain ⟨f, s1, e, h1, h2, h3, h4, h5, h6⟩ := fileA_locked hs n
    have := opened_keeps hs h4 h5 h6 h1 (hb f h3)
    have e' : session (.path n) body s = FM.next (body f) (fun a => FM.next f.close fun _ => FM.ret a) s1 := by
      simp only [session, FM.next, e]
    rw [e']
    exact this

theorem sessionR_keeps {α : Type _} {k : Handle} (n : String) {body : Handle → FM α}
    (hb : ∀ f, Beside k f → Keeps k (body f)) : Keeps k (sessionR n body) := by
  intro s hs
  cases h : s.disk n with
  | none =>
    have e : sessionR n body s = (s, .error .io) := by simp only [sessionR, FM.next, fileR, h]
    rw [e]
    exact ⟨hs, rfl, le_refl _⟩
  | some a =>
    obtain ⟨f, e, h1, h2, h3, h4⟩ := enter_locked hs n false
    have e' : sessionR n body s = FM.next (body f) (fun a => FM.next f.close fun _ => FM.ret a)
        ⟨s.disk, s.opened ++ [f], s.fresh + 1⟩ := by
      simp only [sessionR, FM.next, fileR, h, e]
    rw [e']
    exact opened_keeps hs h4 rfl rfl h1 (hb f h3)

theorem fileDelete_keeps {k : Handle} {arg : FileArg} (ha : ArgBeside k arg) (key : String) : Keeps k (fileDelete arg key) :=
  session_keeps ha fun f hf => Keeps.next (Keeps.read k f _) fun _ => Keeps.write hf _

theorem fileSave_keeps {k : Handle} {arg : FileArg} (ha : ArgBeside k arg) (y : Larry PyLabel) (key : String) :
    Keeps k (fileSave arg y key) := session_keeps ha fun _ hf => Keeps.write hf _

theorem fileLabels_keeps {k : Handle} {arg : FileArg} (ha : ArgBeside k arg) (key : String) :
    Keeps k (fileLabels arg key) := session_keeps ha fun f _ => Keeps.read k f _

theorem fileLoad_keeps {k : Handle} {arg : FileArg} (ha : ArgBeside k arg) (key : String) : Keeps k (fileLoad arg key) :=
  Keeps.next (session_keeps ha fun f hf => Keeps.next (Keeps.read k f _) fun _ => Keeps.next (Keeps.read k f _) fun _ =>
    Keeps.next (fileLabels_keeps (arg := .file f) hf key) fun _ => Keeps.ret k _) fun _ => Keeps.lift k _

theorem fileDirectory_keeps {k : Handle} {arg : FileArg} (ha : ArgBeside k arg) : Keeps k (fileDirectory arg) :=
  session_keeps ha fun f _ => Keeps.read k f _

theorem ioDelAll_keeps (k : Handle) (n : String) : ∀ ks, Keeps k (ioDelAll n ks)
  | [] => Keeps.ret k _
  | _ :: ks => Keeps.next (fileDelete_keeps (arg := .path n) trivial _) fun _ => ioDelAll_keeps k n ks

theorem ioSet_keeps (k : Handle) (n key : String) (y : Larry PyLabel) : Keeps k (ioSet n key y) := by
  intro s hs
  obtain ⟨f, s1, e, h1, h2, h3, h4, h5, h6⟩ := fileA_locked hs n
  have hb : Keeps k (FM.next (f.read (fun a => .ok (a.get [key]).isSome)) fun there => FM.next (delIf n key there) fun _ =>
      fileSave (.file f) y key) := by
    refine Keeps.next (Keeps.read k f _) fun there => Keeps.next ?_ fun _ => fileSave_keeps (arg := .file f) h3 y key
    unfold delIf
    split_ifs
    · exact fileDelete_keeps (arg := .path n) trivial key
    · exact Keeps.ret k _
  have := opened_keeps hs h4 h5 h6 h1 hb
  have e' : ioSet n key y s = FM.next (FM.next (f.read (fun a => .ok (a.get [key]).isSome)) fun there =>
      FM.next (delIf n key there) fun _ => fileSave (.file f) y key) (fun a => FM.next f.close fun _ => FM.ret a) s1 := by
    simp only [ioSet, FM.next, e]
    rcases f.read (fun a => .ok (a.get [key]).isSome) s1 with ⟨s2, r | there⟩
    · rfl
    · simp only
      rcases delIf n key there s2 with ⟨s3, r | u⟩
      · rfl
      · simp only
        rcases fileSave (.file f) y key s3 with ⟨s4, r | u⟩ <;> rfl
  rw [e']
  exact this

theorem call_keeps {k : Handle} (c : FileCall) (ha : ArgBeside k c.arg) : Keeps k c.run := by
  cases c with
  | save arg y key => exact Keeps.next (fileSave_keeps ha y key) fun _ => Keeps.ret k _
  | load arg key => exact Keeps.next (fileLoad_keeps ha key) fun _ => Keeps.ret k _
  | delete arg key => exact Keeps.next (fileDelete_keeps ha key) fun _ => Keeps.ret k _
  | isLarry arg key => exact Keeps.next (session_keeps ha fun f _ => Keeps.read k f _) fun _ => Keeps.ret k _
  | directory arg => exact Keeps.next (fileDirectory_keeps ha) fun _ => Keeps.ret k _
  | get n key =>
    exact Keeps.next (Keeps.next (sessionR_keeps n fun f _ => Keeps.read k f _) fun _ =>
      Keeps.next (fileLabels_keeps (arg := .path n) trivial key) fun _ => Keeps.ret k _) fun _ => Keeps.ret k _
  | set n key y => exact Keeps.next (ioSet_keeps k n key y) fun _ => Keeps.ret k _
  | del n key => exact Keeps.next (fileDelete_keeps (arg := .path n) trivial key) fun _ => Keeps.ret k _
  | contains n key =>
    exact Keeps.next (Keeps.next (fileDirectory_keeps (arg := .path n) trivial) fun _ => Keeps.ret k _) fun _ => Keeps.ret k _
  | len n =>
    exact Keeps.next (Keeps.next (fileDirectory_keeps (arg := .path n) trivial) fun _ => Keeps.ret k _) fun _ => Keeps.ret k _
  | clear n =>
    exact Keeps.next (Keeps.next (fileDirectory_keeps (arg := .path n) trivial) fun ks => ioDelAll_keeps k n ks)
      fun _ => Keeps.ret k _
  | laraGet z n a idx => exact Keeps.next (sessionR_keeps n fun f _ => Keeps.read k f _) fun _ => Keeps.ret k _
  | laraSet z n a idx v =>
    exact Keeps.next (session_keeps (arg := .path n) trivial fun _ hf => Keeps.write hf _) fun _ => Keeps.ret k _
  | laraShape n a => exact Keeps.next (sessionR_keeps n fun f _ => Keeps.read k f _) fun _ => Keeps.ret k _

/-- `m` raises. -/
def Fails {α : Type _} (m : FM α) (s : Files) : Prop := ∃ e, (m s).2 = .error e

theorem Fails.next {α β : Type _} {m : FM α} {c : α → FM β} {s : Files} (h : ∀ s1 a, m s = (s1, .ok a) → Fails (c a) s1) :
    Fails (FM.next m c) s := by
  unfold Fails FM.next
  rcases e : m s with ⟨s1, r | a⟩
  · exact ⟨r, rfl⟩
  · exact h s1 a e

theorem Fails.first {α β : Type _} {m : FM α} {c : α → FM β} {s : Files} (h : Fails m s) : Fails (FM.next m c) s := by
  refine Fails.next fun s1 a e => ?_
  obtain ⟨r, h⟩ := h
  rw [e] at h
  simp at h

theorem Fails.write {α : Type _} {f : Handle} (hf : f.rw = false) (g : Archive → Archive × Res α) (s : Files) :
    Fails (f.write g) s := by
  unfold Fails Handle.write
  split_ifs <;> exact ⟨_, rfl⟩

theorem session_fails {α : Type _} {k : Handle} {s : Files} (hs : Locked k s) {body : Handle → FM α}
    (hb : ∀ f s, f.rw = false → Fails (body f) s) : Fails (session (.path k.name) body) s := by
  obtain ⟨f, s1, e, -, h2, h3, -⟩ := fileA_locked hs k.name
  refine Fails.next fun s2 a e2 => ?_
  rw [e] at e2
  injection e2 with e2 e3
  injection e3 with e3
  subst e3
  exact Fails.first (hb f s2 (h3 h2))

theorem delete_fails {k : Handle} {s : Files} (hs : Locked k s) (key : String) : Fails (fileDelete (.path k.name) key) s :=
  session_fails hs fun _ _ hf => Fails.next fun _ _ _ => Fails.write hf _ _

theorem set_fails {k : Handle} {s : Files} (hs : Locked k s) (key : String) (y : Larry PyLabel) :
    Fails (ioSet k.name key y) s := by
  obtain ⟨f, s1, e, -, h2, h3, -⟩ := fileA_locked hs k.name
  refine Fails.next fun s2 a e2 => ?_
  rw [e] at e2
  injection e2 with e2 e3
  injection e3 with e3
  subst e3
  exact Fails.next fun _ _ _ => Fails.next fun _ _ _ => Fails.first (Fails.write (h3 h2) _ _)

/-- While a file is open for reading, no program that does not close it changes the archive, and a call by name that is to
change it raises. -/
theorem C103_locked {k : Handle} : ∀ (cs : List FileCall) {s : Files}, Locked k s → (∀ c ∈ cs, ArgBeside k c.arg) →
    (runFiles s cs).1.disk k.name = s.disk k.name ∧
    ∀ p ∈ cs.zip (runFiles s cs).2, p.1.writes = true → p.1.arg = .path k.name → ∃ e, p.2 = .error e
  | [], _, _, _ => ⟨rfl, by simp⟩
  | c :: cs, s, hs, ha => by
    obtain ⟨h1, h2, -⟩ := call_keeps c (ha c (List.mem_cons_self ..)) s hs
    obtain ⟨i1, i2⟩ := C103_locked cs h1 (fun x hx => ha x (List.mem_cons_of_mem _ hx))
    refine ⟨i1.trans h2, fun p hp hw hn => ?_⟩
    simp only [runFiles, List.zip_cons_cons, List.mem_cons] at hp
    rcases hp with rfl | hp
    · clear * - hs hw hn
      simp only at hw hn ⊢
      cases c with
      | save arg y key =>
        simp only [FileCall.arg] at hn
        subst hn
        exact Fails.first (session_fails hs fun _ _ hf => Fails.write hf _ _)
      | delete arg key =>
        simp only [FileCall.arg] at hn
        subst hn
        exact Fails.first (delete_fails hs key)
      | set n key y =>
        simp only [FileCall.arg, FileCall.name, FileArg.path.injEq] at hn
        subst hn
        exact Fails.first (set_fails hs key y)
      | del n key =>
        simp only [FileCall.arg, FileCall.name, FileArg.path.injEq] at hn
        subst hn
        exact Fails.first (delete_fails hs key)
      | laraSet z n a idx v =>
        simp only [FileCall.arg, FileCall.name, FileArg.path.injEq] at hn
        subst hn
        exact Fails.first (session_fails hs fun _ _ hf => Fails.write hf _ _)
      | _ => simp [FileCall.writes] at hw
    · exact i2 p hp hw hn

/-- Asking an archive nothing has open for a key it does not have leaves it open for reading. -/
theorem C103_missing_key_locks {s : Files} {n key : String} {f : Archive} {e : PyErr} (hn : s.disk n = some f)
    (hf : ∀ h ∈ s.opened, h.name ≠ n) (hk : f.checkKey (comps key) = .error e) :
    ((FileCall.get n key).run s).2 = .error (.py e) ∧
    ∃ k, k.name = n ∧ Locked k ((FileCall.get n key).run s).1 ∧ ((FileCall.get n key).run s).1.opened = s.opened ++ [k] := by
  have hfind : s.opened.find? (fun k => decide (k.name = n)) = none :=
    List.find?_eq_none.mpr fun h hh => by simpa using hf h hh
  have hc : ∀ l k, (⟨s.disk, l, k⟩ : Files).content n = f := fun _ _ => by simp [Files.content, hn]
  have hrun : (FileCall.get n key).run s = (⟨s.disk, s.opened ++ [⟨s.fresh, n, false⟩], s.fresh + 1⟩, .error (.py e)) := by
    simp only [FileCall.run, FM.give, ioGet, sessionR, FM.next, fileR, hn, Files.enter, hfind, Handle.read, isOpen_last, hc,
      hk, ofRes]
    simp
  rw [hrun]
  refine ⟨rfl, ⟨s.fresh, n, false⟩, rfl, ⟨by simp, Nat.lt_succ_self _, fun h hh e => ?_, by simp [hn]⟩, rfl⟩
  rcases List.mem_append.mp hh with hh | hh
  · exact absurd e (hf h hh)
  · simp only [List.mem_singleton] at hh
    rw [hh]

/-! ## Examples -/

/-- The archive `a` holds a larry, the empty archive `b` is open for writing. -/
def exFiles : Files :=
  ⟨Disk.write (Disk.write (fun _ => none) "a" exLara) "b" Archive.empty, [⟨0, "b", true⟩], 1⟩

theorem exFiles_wf : exFiles.WF := by
  constructor <;> intro h hh <;> simp only [exFiles, List.mem_singleton] at hh ⊢ <;> subst hh
  · decide
  · simp [Disk.write]

/-- A program for `C103_program`: two archives by name and by open file, a key that is not there, and a file that is not
there. -/
def exFileCalls : List FileCall :=
  [.save (.path "a") exIO1 "w", .save (.file ⟨0, "b", true⟩) exIO1 "u", .contains "a" "w",
    .load (.file ⟨0, "b", true⟩) "none", .get "c" "x", .set "a" "v" exIO1, .del "a" "w"]

/-- The exception of an outcome. -/
def FRes.raised {α : Type _} : FRes α → Option FErr
  | .ok _ => none
  | .error e => some e

example : (∀ c ∈ exFileCalls, Usable exFiles c.arg) ∧ AllClosed exFiles.disk exFileCalls ∧
    (runFiles exFiles exFileCalls).2.map FRes.raised
      = [none, none, none, some (.py .keyError), some .io, none, none] := by
  refine ⟨?_, ?_, by decide +kernel⟩
  · intro c hc
    simp only [exFileCalls, List.mem_cons, List.not_mem_nil, or_false] at hc
    rcases hc with rfl | rfl | rfl | rfl | rfl | rfl | rfl <;>
      simp [FileCall.arg, FileCall.name, Usable, Files.Free, exFiles]
  · simp only [exFileCalls, AllClosed]
    decide +kernel

/-- `io['none']` raises and leaves `a` open for reading: the next save raises, and `a` stays as it was.  Once the file is
closed, the save works. -/
example : (runFiles exFiles [.get "a" "none", .save (.path "a") exIO1 "w", .contains "a" "w"]).2.map FRes.raised
      = [some (.py .keyError), some .readOnly, none] ∧
    (runFiles exFiles [.get "a" "none", .save (.path "a") exIO1 "w"]).1.opened.map Handle.rw = [true, false, false] ∧
    (runCollected exFiles [.get "a" "none", .save (.path "a") exIO1 "w"]).2.map FRes.raised
      = [some (.py .keyError), none] := by decide +kernel

/-- The hypotheses of `C103_missing_key_locks` and `C103_locked`. -/
example : exFiles.disk "a" = some exLara ∧ (∀ h ∈ exFiles.opened, h.name ≠ "a") ∧
    exLara.checkKey (comps "none") = .error .keyError ∧
    Locked ⟨1, "a", false⟩ (runFiles exFiles [.get "a" "none"]).1 := by
  refine ⟨by simp [exFiles, Disk.write], by simp [exFiles], by decide +kernel, ?_⟩
  obtain ⟨-, k, h1, h2, h3⟩ := C103_missing_key_locks (s := exFiles) (n := "a") (key := "none") (f := exLara) (e := .keyError)
    (by simp [exFiles, Disk.write]) (by simp [exFiles]) (by decide +kernel)
  have : (runFiles exFiles [.get "a" "none"]).1.opened = [⟨0, "b", true⟩, ⟨1, "a", false⟩] := by decide +kernel
  have e : k = ⟨1, "a", false⟩ := by
    have h4 : (runFiles exFiles [.get "a" "none"]).1.opened = exFiles.opened ++ [k] := h3
    rw [this] at h4
    simpa [exFiles] using h4.symm
  rw [← e]
  exact h2

/-- Deleting what is not there inside `io[key] = y` leaves two files open. -/
example : (FileCall.set "a" "v" exIO1).stays exFiles.disk = 0 ∧
    (FileCall.set "a" "g" exIO1).stays
      (Disk.write (fun _ => none) "a" (Archive.empty.save exIO1 "g/u").1) = 2 := by decide +kernel

/-- C103. What `is_archived_larry` says: a key under which there is nothing raises ValueError; otherwise it is True exactly for
the larrys that `keys` lists (under the canonical name of the key). -/
theorem C103_is_archived_larry {f : Archive} (hf : f.WF) {ks : List String} (h : f.keys = .ok ks) {key : String}
    (hk : comps key ≠ []) :
    (f.get (comps key) = none → f.archivedLarry key = .error .valueError) ∧
    (f.get (comps key) ≠ none → ∃ b, f.archivedLarry key = .ok b ∧ (b = true ↔ joinSlash (comps key) ∈ ks)) := by
  refine ⟨fun e => by simp [Archive.archivedLarry, e], fun e => ?_⟩
  obtain ⟨n, hn⟩ := Option.ne_none_iff_exists'.mp e
  obtain ⟨b, hb⟩ := keys_isLarry h hk (by rw [hn]; rfl)
  have hc : comps (joinSlash (comps key)) = comps key := comps_join (hf.names' (by rw [hn]; rfl))
  refine ⟨b, by simp only [Archive.archivedLarry, hn, hb], ?_⟩
  rw [(C56_keys f hf ks h).2, hc, hb]
  simp [hk]

example : exLara.keys = .ok ["v"] ∧ comps "/v" ≠ [] ∧ exLara.archivedLarry "/v" = .ok true ∧
    exLara.archivedLarry "none" = .error .valueError ∧ exLara.archivedLarry "v/x" = .ok false := by decide +kernel

end La
