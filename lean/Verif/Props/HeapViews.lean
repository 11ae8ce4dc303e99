import Verif.Props.HeapValues
import Verif.Props.Align
import Verif.Props.Axes

/-!
# C23: views, writes in place, and the calls that write into their arguments

`squeeze`, `pull` and indexing with integers and slices give larrys whose elements are the elements of
the larry they were taken from, now and after any writes; `merge` with equal labels returns its first
argument, changed; `binaryop` with fills writes them into the arguments that needed no realigning.
-/

namespace La
variable {L : Type}

/-! ## Specification

`Heap.Evolves` (HeapView.lean) is the spec of "any writes": from `h` to `h'` elements and labels may have
been overwritten and new things made, but no larry was given another array or other lists of labels. -/

section
variable [LinearOrder L]

/-- Steps that only write elements or labels, or make new things, in a program that holds `env`. -/
def Act.Mild (env : List Ref) (h : Heap L) : Act L → Prop
  | .squeeze _ | .pull .. | .getitem .. | .attrX _ | .attrLabel _ | .item .. | .mkArray .. | .mkList _ | .mkOut _
  | .init .. | .view .. => True
  | .inPlace _ i | .shuffleLabel _ _ i => ∀ p, env[i]? = some (.larry p) → ∃ y, h.larry p = some y
  | .write _ _ i => ∀ v, env[i]? = some (.array v) → h.isBuf v.buf = true
  | .writeList _ i => ∀ b, env[i]? = some (.lst b) → h.isLst b = true
  | a => a.Copies env h

/-- Every step of the program is mild where it happens. -/
def AllMild : List (Act L) → List Ref × Heap L → Prop
  | [], _ => True
  | a :: acts, s => a.Mild s.1 s.2 ∧ AllMild acts (Act.step s a)

/-! ## Lemmas -/

end

/-- Nothing below `b` is written, and the outcome satisfies `Q`. -/
def Frame (b : Nat) {α : Type} (m : HM L α) (Q : α → Prop) : Prop :=
  ∀ h : Heap L, b ≤ h.next → (∀ a < b, (m.after h).cell a = h.cell a) ∧ ∀ v, m.out h = .ok v → Q v

section frame
variable {b : Nat} {α β : Type}

theorem Frame.bind {m : HM L α} {f : α → HM L β} {Q : α → Prop} {R : β → Prop} (hm : Frame b m Q)
    (hf : ∀ v, Q v → Frame b (f v) R) : Frame b (m >>= f) R := by
  intro h hb
  obtain ⟨h1, h2⟩ := hm h hb
  cases ho : m.out h with
  | error e =>
    obtain ⟨e1, e2⟩ := HM.bind_error (f := f) ho
    rw [e1, e2]
    exact ⟨h1, by simp⟩
  | ok v =>
    obtain ⟨e1, e2⟩ := HM.bind_ok (f := f) ho
    rw [e1, e2]
    obtain ⟨h3, h4⟩ := hf v (h2 v ho) (m.after h) (hb.trans (HM.next_le m h))
    exact ⟨fun a ha => by rw [h3 a ha, h1 a ha], h4⟩

theorem Frame.pure {Q : α → Prop} {v : α} (hv : Q v) : Frame b (Pure.pure v : HM L α) Q :=
  fun _ _ => ⟨fun _ _ => rfl, fun w hw => by cases hw; exact hv⟩

theorem Frame.quiet {m : HM L α} (hm : ∀ h, m.after h = h) : Frame b m (fun _ => True) :=
  fun h _ => ⟨fun _ _ => by rw [hm h], fun _ _ => trivial⟩

theorem Frame.lift {r : Res α} : Frame b (HM.lift r : HM L α) (fun _ => True) := Frame.quiet (fun _ => rfl)

theorem Frame.look {f : Heap L → α} : Frame b (HM.look f) (fun _ => True) := Frame.quiet (fun _ => rfl)

theorem Frame.getObj {p : Nat} : Frame b (La.getObj p : HM L Obj) (fun _ => True) := Frame.quiet (getObj_after p)

theorem Frame.alloc {c : HCell L} : Frame b (La.alloc c) (fun a => b ≤ a) :=
  fun h hb => ⟨fun a ha => by
    change (if a = h.next then some c else h.cell a) = _
    rw [if_neg (by omega)], fun v hv => by cases hv; exact hb⟩

theorem Frame.put {a : Nat} {c : HCell L} (ha : b ≤ a) : Frame b (La.put a c) (fun _ => True) :=
  fun h _ => ⟨fun x hx => by
    change (if x = a then some c else h.cell x) = _
    rw [if_neg (by omega)], fun _ _ => trivial⟩

theorem Frame.mono {m : HM L α} {Q R : α → Prop} (hm : Frame b m Q) (hqr : ∀ v, Q v → R v) : Frame b m R :=
  fun h hb => ⟨(hm h hb).1, fun v hv => hqr v ((hm h hb).2 v hv)⟩

theorem Frame.valueOf {p : Nat} : Frame b (La.valueOf p : HM L (Larry L)) (fun _ => True) :=
  Frame.bind Frame.getObj (fun _ _ => Frame.look)

theorem Frame.newArray (x : NDArray Val) (d : DType) : Frame b (La.newArray x d : HM L View) (fun _ => True) :=
  Frame.bind Frame.alloc (fun _ _ => Frame.pure trivial)

theorem Frame.newLists : ∀ ls : List (List L), Frame b (La.newLists ls) (fun _ => True)
  | [] => Frame.pure trivial
  | _ :: ls => Frame.bind Frame.alloc (fun _ _ => Frame.bind (Frame.newLists ls) (fun _ _ => Frame.pure trivial))

theorem Frame.copylabel (o : Obj) : Frame b (La.copylabel o : HM L Nat) (fun a => b ≤ a) :=
  Frame.bind Frame.look (fun _ _ => Frame.bind (Frame.newLists _) (fun _ _ => Frame.alloc))

theorem Frame.newLarry (v : View) (label : Nat) : Frame b (La.newLarry v label : HM L Nat) (fun a => b ≤ a) := Frame.alloc

theorem Frame.hIndex (v : View) (its : List NpItem) : Frame b (La.hIndex v its : HM L View) (fun _ => True) := by
  refine Frame.bind Frame.lift (fun ix _ => ?_)
  split
  · exact Frame.bind Frame.look (fun _ _ => Frame.newArray _ _)
  · exact Frame.pure trivial

theorem Frame.hPart (np : NpItem) (v : View) : Frame b (La.hPart np v : HM L View) (fun _ => True) := by
  unfold La.hPart
  split
  · exact Frame.bind Frame.look (fun _ _ => Frame.bind Frame.lift (fun _ _ => Frame.newArray _ _))
  · exact Frame.hIndex _ _

theorem Frame.listIf (new : Bool) (lab : List L) (a : Nat) : Frame b (La.listIf new lab a) (fun _ => True) := by
  unfold La.listIf
  split
  · exact Frame.alloc.mono (fun _ _ => trivial)
  · exact Frame.pure trivial

theorem Frame.hTupleLabels : ∀ (cs : List (Nat × Option (List L))) (n : Nat),
    Frame b (La.hTupleLabels cs n) (fun _ => True)
  | [], _ => Frame.pure trivial
  | (_, none) :: rest, n => Frame.hTupleLabels rest (n - 1)
  | (_, some _) :: rest, n => Frame.bind (Frame.listIf _ _ _)
      (fun _ _ => Frame.bind (Frame.hTupleLabels rest (n - 1)) (fun _ _ => Frame.pure trivial))

theorem Frame.setLab {label ax : Nat} {l : List L} (hl : b ≤ label) : Frame b (La.setLab label ax l) (fun _ => True) :=
  Frame.bind Frame.alloc (fun _ _ => Frame.bind Frame.look (fun _ _ => Frame.put hl))

theorem Frame.hSqueeze (p : Nat) : Frame b (La.hSqueeze p : HM L Nat) (fun _ => True) :=
  Frame.bind Frame.getObj (fun _ _ => Frame.bind Frame.look (fun _ _ => Frame.bind Frame.alloc
    (fun _ _ => (Frame.newLarry _ _).mono (fun _ _ => trivial))))

theorem Frame.hInit [DecidableEq L] (v : View) (label : Nat) : Frame b (La.hInit v label : HM L Nat) (fun _ => True) :=
  Frame.bind Frame.look (fun _ _ => Frame.bind Frame.lift (fun _ _ => (Frame.newLarry _ _).mono (fun _ _ => trivial)))

theorem Frame.hMake [DecidableEq L] (v : View) (label : Nat) (validate : Bool) :
    Frame b (La.hMake v label validate : HM L Nat) (fun _ => True) := by
  unfold La.hMake
  split
  · exact Frame.hInit _ _
  · exact (Frame.newLarry _ _).mono (fun _ _ => trivial)

theorem Frame.hPull [LinearOrder L] (name : L) (axis : Option Int) (p : Nat) :
    Frame b (La.hPull name axis p) (fun _ => True) := by
  unfold La.hPull
  split
  · exact Frame.lift
  · refine Frame.bind Frame.getObj (fun _ _ => Frame.bind Frame.look (fun _ _ => Frame.bind Frame.look (fun _ _ =>
      Frame.bind Frame.lift (fun _ _ => Frame.bind Frame.lift (fun _ _ => Frame.bind Frame.lift (fun _ _ => ?_))))))
    split
    · exact Frame.lift
    · dsimp only
      split
      · exact Frame.pure trivial
      · exact Frame.bind Frame.alloc (fun _ _ => Frame.bind (Frame.hInit _ _) (fun _ _ => Frame.pure trivial))

theorem Frame.hGetOne [DecidableEq L] (np : NpItem) (lab : List L) (shallow validate : Bool) (p : Nat) :
    Frame b (La.hGetOne np lab shallow validate p) (fun _ => True) := by
  refine Frame.bind Frame.getObj (fun o _ => Frame.bind Frame.look (fun _ _ => Frame.bind (Q := fun a => b ≤ a) ?_
    (fun _ hl => Frame.bind (Frame.setLab hl) (fun _ _ => Frame.bind (Frame.hPart _ _) (fun _ _ =>
      Frame.bind (Frame.hMake _ _ _) (fun _ _ => Frame.pure trivial))))))
  unfold shallowIf
  split
  · exact Frame.alloc
  · exact Frame.copylabel o

theorem Frame.hGetTuple [DecidableEq L] (its : List (Item L)) (p : Nat) :
    Frame b (La.hGetTuple its p) (fun _ => True) := by
  refine Frame.bind Frame.getObj (fun o _ => Frame.bind Frame.look (fun _ _ => Frame.bind Frame.look (fun _ _ =>
    Frame.bind Frame.lift (fun _ _ => Frame.bind (Frame.hTupleLabels _ _) (fun _ _ =>
      Frame.bind (Frame.hIndex _ _) (fun _ _ => ?_))))))
  split
  · exact Frame.pure trivial
  · exact Frame.bind Frame.alloc (fun _ _ => Frame.bind (Frame.hMake _ _ _) (fun _ _ => Frame.pure trivial))

theorem Frame.hGetitem [DecidableEq L] (isList : Bool) (idx : Index L) (p : Nat) :
    Frame b (La.hGetitem isList idx p) (fun _ => True) := by
  cases idx with
  | tuple its => exact Frame.hGetTuple its p
  | one it =>
    cases it with
    | int i =>
      refine Frame.bind Frame.getObj (fun o _ => Frame.bind Frame.look (fun _ _ => Frame.bind Frame.look (fun _ _ => ?_)))
      split
      · exact Frame.lift
      · refine Frame.bind (Frame.hIndex _ _) (fun _ _ => ?_)
        split
        · exact Frame.pure trivial
        · exact Frame.bind Frame.alloc (fun _ _ => Frame.bind (Frame.newLarry _ _) (fun _ _ => Frame.pure trivial))
    | slice s => exact Frame.bind Frame.valueOf (fun _ _ => Frame.bind Frame.lift (fun _ _ => Frame.hGetOne _ _ _ _ _))
    | seq is =>
      exact Frame.bind Frame.valueOf (fun _ _ => Frame.bind Frame.lift (fun _ _ => Frame.bind Frame.lift
        (fun _ _ => Frame.hGetOne _ _ _ _ _)))
    | nd => exact Frame.lift
    | mask bs => exact Frame.bind Frame.valueOf (fun _ _ => Frame.bind Frame.lift (fun _ _ => Frame.hGetOne _ _ _ _ _))
    | lar m =>
      exact Frame.bind Frame.valueOf (fun _ _ => Frame.bind Frame.lift (fun _ _ => Frame.bind Frame.lift
        (fun _ _ => Frame.hGetOne _ _ _ _ _)))
    | other => exact Frame.lift

end frame

theorem Heap.Wf.evolves {h h' : Heap L} (hw : h.Wf) (hle : h.next ≤ h'.next) (hs : ∀ a < h.next, h'.cell a = h.cell a) :
    h.Evolves h' :=
  ⟨hle, fun a c hc => ⟨c, by rw [hs a (hw a c hc).1, hc], HCell.Evolves.refl c⟩⟩

theorem Heap.Evolves.put {h : Heap L} {a : Nat} {c c' : HCell L} (hc : h.cell a = some c) (he : c.Evolves c') :
    h.Evolves (h.upd a c') := by
  refine ⟨le_refl _, fun x d hd => ?_⟩
  by_cases hx : x = a
  · subst hx
    rw [hc] at hd
    cases hd
    exact ⟨c', by simp [Heap.upd], he⟩
  · exact ⟨d, by simp [Heap.upd, hx, hd], HCell.Evolves.refl d⟩

theorem Heap.Evolves.larry {h h2 : Heap L} (hw : h.Wf) (ev : h.Evolves h2) {p : Nat} {y : Larry L}
    (hy : h.larry p = some y) : ∃ w, h2.larry p = some w ∧ w.dtype = y.dtype ∧ w.shape = y.shape := by
  obtain ⟨o, ho⟩ := ObjAt.of_larry hw hy
  have := ho.evolves ev
  refine ⟨_, this.larry, ho.array.dtype, ?_⟩
  have h1 := this.array.shape
  exact h1.symm.trans ho.array.shape

theorem isBuf_iff {h : Heap L} {a : Nat} : h.isBuf a = true ↔ ∃ f, h.cell a = some (.buf f) := by
  unfold Heap.isBuf
  split
  · rename_i f hf; simp [hf]
  · rename_i hn
    simp only [Bool.false_eq_true, false_iff, not_exists]
    exact fun f hf => hn f hf

theorem isLst_iff {h : Heap L} {a : Nat} : h.isLst a = true ↔ ∃ l, h.cell a = some (.lst l) := by
  unfold Heap.isLst
  split
  · rename_i f hf; simp [hf]
  · rename_i hn
    simp only [Bool.false_eq_true, false_iff, not_exists]
    exact fun f hf => hn f hf

theorem writeWhere_evolves {h : Heap L} {v : View} (hb : h.isBuf v.buf = true) (sel : List Nat → Bool)
    (val : List Nat → Val) : h.Evolves ((writeWhere v sel val).after h) := by
  obtain ⟨f, hf⟩ := isBuf_iff.mp hb
  have r : Run h (writeWhere v sel val) () (h.upd v.buf (.buf (writeCells v sel val (h.buf v.buf)))) :=
    Run.bind Run.look Run.put
  rw [r.2]
  exact Heap.Evolves.put hf trivial

theorem hInPlace_evolves {h : Heap L} (hw : h.Wf) {p : Nat} {y : Larry L} (hy : h.larry p = some y)
    (f : Larry L → Res (Larry L)) : h.Evolves ((hInPlace f p).after h) := by
  obtain ⟨o, ho⟩ := ObjAt.of_larry hw hy
  obtain ⟨g, hg, -⟩ := ho.array.data
  have hg' : h.isBuf o.x.buf = true := isBuf_iff.mpr ⟨g, hg⟩
  have hh := Run.getObj ho.cell
  unfold hInPlace
  rw [(HM.bind_ok hh.1).2, hh.2, (HM.bind_ok (m := HM.look _) rfl).2]
  cases hf : f (h.value o) with
  | error e => rw [(HM.bind_error (m := HM.lift (.error e)) rfl).2]; exact Heap.Evolves.refl h
  | ok z =>
    rw [(HM.bind_ok (m := HM.lift (.ok z)) rfl).2]
    exact writeWhere_evolves hg' _ _

theorem hShuffleLabel_evolves {h : Heap L} (hw : h.Wf) {p : Nat} {y : Larry L} (hy : h.larry p = some y)
    (perm : List L → List L) (ax : Int) : h.Evolves ((hShuffleLabel perm ax p).after h) := by
  obtain ⟨o, ho⟩ := ObjAt.of_larry hw hy
  have hh := Run.getObj ho.cell
  unfold hShuffleLabel
  rw [(HM.bind_ok hh.1).2, hh.2, (HM.bind_ok (m := HM.look _) rfl).2]
  cases hf : pyGet (h.out o.label) ax with
  | error e => rw [(HM.bind_error (m := HM.lift (.error e)) rfl).2]; exact Heap.Evolves.refl h
  | ok a =>
    rw [(HM.bind_ok (m := HM.lift (.ok a)) rfl).2, (HM.bind_ok (m := HM.look _) rfl).2]
    obtain ⟨k, -, hk⟩ := pyGet_ok.mp hf
    have hl := ho.label.out.1
    have hlen := hl.length
    have hk1 := (List.getElem?_eq_some_iff.mp hk).1
    have := (List.forall₂_iff_get.mp hl).2 k hk1 (by omega)
    have he : (h.out o.label).get ⟨k, hk1⟩ = a := (List.getElem?_eq_some_iff.mp hk).2
    rw [he] at this
    exact Heap.Evolves.put this.2.2 trivial

section
variable [LinearOrder L]

omit [LinearOrder L] in
theorem Act.read {α : Type} {h : Heap L} {m : HM L α} {f : α → HM L (List Ref)} (hm : m.after h = h)
    (hf : ∀ v, m.out h = .ok v → h.Evolves ((f v).after h)) : h.Evolves ((m >>= f).after h) := by
  cases ho : m.out h with
  | error e => rw [(HM.bind_error ho).2, hm]; exact Heap.Evolves.refl h
  | ok v => rw [(HM.bind_ok ho).2, hm]; exact hf v ho

omit [LinearOrder L] in
/-- The end of a step hands references back. -/
theorem after_give {α β : Type} {h : Heap L} {m : HM L α} {g : α → β} :
    (m >>= fun v => (Pure.pure (g v) : HM L β)).after h = m.after h := by
  cases ho : m.out h with
  | error e => rw [(HM.bind_error ho).2]
  | ok v => rw [(HM.bind_ok ho).2]; rfl

/-- A mild step only writes elements or labels, or makes new things. -/
theorem C23_mild {h : Heap L} (hw : h.Wf) {env : List Ref} {a : Act L} (hm : a.Mild env h) :
    h.Evolves ((a.run env).after h) := by
  have frame : ∀ {α : Type} {m : HM L α} {Q : α → Prop}, Frame h.next m Q → h.Evolves (m.after h) :=
    fun {α m Q} hf => hw.evolves (HM.next_le m h) (hf h (le_refl _)).1
  have copies : a.Copies env h → h.Evolves ((a.run env).after h) :=
    fun hc => hw.evolves (HM.next_le _ h) (C23_copy hw hc).1
  have quiet : ∀ (i : Nat), Frame h.next (asLarry env i : HM L Nat) (fun _ => True) :=
    fun i => Frame.quiet (asLarry_after env i)
  have quietA : ∀ (i : Nat), Frame h.next (asArray env i : HM L View) (fun _ => True) :=
    fun i => Frame.quiet (fun h => by unfold asArray; split <;> rfl)
  have quietL : ∀ (i : Nat), Frame h.next (asList env i : HM L Nat) (fun _ => True) :=
    fun i => Frame.quiet (fun h => by unfold asList; split <;> rfl)
  have quietO : ∀ (i : Nat), Frame h.next (asOut env i : HM L Nat) (fun _ => True) :=
    fun i => Frame.quiet (fun h => by unfold asOut; split <;> rfl)
  have quietLs : ∀ (is : List Nat), Frame h.next (asLists env is : HM L (List Nat)) (fun _ => True) := by
    intro is
    induction is with
    | nil => exact Frame.pure trivial
    | cons i is ih => exact Frame.bind (quietL i) (fun _ _ => Frame.bind ih (fun _ _ => Frame.pure trivial))
  cases a with
  | squeeze i => exact frame (Frame.bind (quiet i) (fun _ _ => Frame.bind (Frame.hSqueeze _) (fun _ _ => Frame.pure (Q := fun _ => True) trivial)))
  | pull name axis i => exact frame (Frame.bind (quiet i) (fun _ _ => Frame.bind (Frame.hPull _ _ _) (fun _ _ => Frame.pure (Q := fun _ => True) trivial)))
  | getitem l idx i => exact frame (Frame.bind (quiet i) (fun _ _ => Frame.bind (Frame.hGetitem _ _ _) (fun _ _ => Frame.pure (Q := fun _ => True) trivial)))
  | attrX i => exact frame (Frame.bind (quiet i) (fun _ _ => Frame.bind Frame.getObj (fun _ _ => Frame.pure (Q := fun _ => True) trivial)))
  | attrLabel i => exact frame (Frame.bind (quiet i) (fun _ _ => Frame.bind Frame.getObj (fun _ _ => Frame.pure (Q := fun _ => True) trivial)))
  | item k i =>
    exact frame (Frame.bind (quietO i) (fun _ _ => Frame.bind Frame.look (fun _ _ => Frame.bind Frame.lift
      (fun _ _ => Frame.pure (Q := fun _ => True) trivial))))
  | mkArray x d => exact frame (Frame.bind (Frame.newArray _ _) (fun _ _ => Frame.pure (Q := fun _ => True) trivial))
  | mkList l => exact frame (Frame.bind Frame.alloc (fun _ _ => Frame.pure (Q := fun _ => True) trivial))
  | mkOut is => exact frame (Frame.bind (quietLs is) (fun _ _ => Frame.bind Frame.alloc (fun _ _ => Frame.pure (Q := fun _ => True) trivial)))
  | init i j =>
    exact frame (Frame.bind (quietA i) (fun _ _ => Frame.bind (quietO j) (fun _ _ => Frame.bind (Frame.hInit _ _)
      (fun _ _ => Frame.pure (Q := fun _ => True) trivial))))
  | view g i => exact frame (Frame.bind (quietA i) (fun _ _ => Frame.pure (Q := fun _ => True) trivial))
  | inPlace f i =>
    refine Act.read (asLarry_after env i h) (fun p hp => ?_)
    obtain ⟨y, hy⟩ := hm p (asLarry_ok hp)
    have := hInPlace_evolves hw hy f
    rwa [← after_give (g := fun _ => ([] : List Ref))] at this
  | shuffleLabel perm ax i =>
    refine Act.read (asLarry_after env i h) (fun p hp => ?_)
    obtain ⟨y, hy⟩ := hm p (asLarry_ok hp)
    have := hShuffleLabel_evolves hw hy perm ax
    rwa [← after_give (g := fun _ => ([] : List Ref))] at this
  | write sel val i =>
    refine Act.read (by unfold asArray; split <;> rfl) (fun v hv => ?_)
    have := writeWhere_evolves (hm v (by
      unfold asArray at hv
      split at hv
      · rename_i w hw; cases hv; exact hw
      · cases hv)) sel val
    rwa [← after_give (g := fun _ => ([] : List Ref))] at this
  | writeList l i =>
    refine Act.read (by unfold asList; split <;> rfl) (fun v hv => ?_)
    obtain ⟨l', hl'⟩ := isLst_iff.mp (hm v (by
      unfold asList at hv
      split at hv
      · rename_i w hw; cases hv; exact hw
      · cases hv))
    have : h.Evolves ((put v (.lst l)).after h) := Heap.Evolves.put hl' trivial
    rwa [← after_give (g := fun _ => ([] : List Ref))] at this
  | _ => exact copies hm

/-- So does a program of mild steps. -/
theorem C23_evolves : ∀ {acts : List (Act L)} {s : List Ref × Heap L}, s.2.Wf → Live s.1 s.2 → AllMild acts s →
    s.2.Evolves (Act.exec acts s).2
  | [], s, _, _, _ => Heap.Evolves.refl s.2
  | a :: acts, s, hw, hl, hm => by
    obtain ⟨h1, h2⟩ := Act.step_after s a
    have e1 := C23_mild hw hm.1
    obtain ⟨w1, w2⟩ := Act.wf hw hl a
    rw [← h1] at e1 w1 w2
    refine Heap.Evolves.trans e1 (C23_evolves w1 ?_ hm.2)
    have hl1 : Live s.1 (Act.step s a).2 := fun r hr => (hl r hr).mono (fun b hb => lt_of_lt_of_le hb e1.le)
    rcases h2 with h2 | ⟨rs, hrs, h2⟩
    · rw [h2]; exact hl1
    · rw [h2]
      intro r hr
      rcases List.mem_append.mp hr with hr | hr
      · exact hl1 r hr
      · exact w2 rs hrs r hr

end

/-- Mild steps: a write through `y[0:1].x`, a shuffle of labels. -/
example : AllMild [.getitem false (.tuple [.slice ⟨some 0, some 1, none⟩]) 4, .attrX 10,
    .write (fun _ => true) (fun _ => fl 7) 11, .shuffleLabel List.reverse 0 4] exS := by
  refine ⟨trivial, trivial, ?_, ?_, trivial⟩
  · intro v hv
    cases hv
    decide +kernel
  · intro p hp
    cases hp
    exact ⟨_, rfl⟩

/-! ## Views -/

/-- `squeeze()` returns a new larry object that shows the squeezed elements and labels of the larry, now
and after any later writes to either. -/
theorem C23_squeeze {h : Heap L} (hw : h.Wf) {p : Nat} {y : Larry L} (hy : h.larry p = some y) :
    ∃ q h', Run h (hSqueeze p) q h' ∧ (∀ a < h.next, h'.cell a = h.cell a) ∧
      ∀ h2, h'.Evolves h2 → ∃ w, h2.larry p = some w ∧ h2.larry q = some w.squeeze := by
  obtain ⟨o, ho⟩ := ObjAt.of_larry hw hy
  obtain ⟨q, h', r, e, hv⟩ := hSqueeze_run ho
  refine ⟨q, h', r, e.same, fun h2 ev => ?_⟩
  obtain ⟨k1, oq, k2⟩ := hv h2 ev
  exact ⟨_, k1.larry, k2.larry⟩

/-- Met by `exA`, and by a larry that has axes to squeeze. -/
example : exS.2.Wf ∧ exS.2.larry 4 = some exA ∧ (Act.exec [.insertaxis (some 0) 5 4, .squeeze 10] exS).1.length = 12 :=
  ⟨exS_wf.1, rfl, by decide +kernel⟩

/-- `pull(name, axis)` returns a new larry object that shows the elements at the position that had the
name, and the labels of the other axes, now and after any later writes to either. -/
theorem C23_pull [LinearOrder L] {h : Heap L} (hw : h.Wf) {p : Nat} {y z : Larry L} (hy : h.larry p = some y) (hval : y.Valid)
    {name : L} {a : Int} (hz : y.pull name (some a) = .ok (.larry z)) :
    ∃ q h', Run h (hPull name (some a) p) (.larry q) h' ∧ (∀ a < h.next, h'.cell a = h.cell a) ∧ h'.larry q = some z ∧
      ∃ ax idx l, pyIdx y.ndim a = some ax ∧ y.label[ax]? = some l ∧ l[idx]? = some name ∧
        ∀ h2, h'.Evolves h2 → ∃ w wq, h2.larry p = some w ∧ h2.larry q = some wq ∧ wq.label = w.label.eraseIdx ax ∧
          wq.dtype = w.dtype ∧ wq.shape = w.shape.eraseIdx ax ∧ ∀ i, wq.x.get i = w.x.get (i.insertIdx ax idx) := by
  obtain ⟨o, ho⟩ := ObjAt.of_larry hw hy
  have := hPull_run name (some a) ho
  rw [hz] at this
  obtain ⟨q, h', r, e, oq, hq, ax, k, idx, ⟨a', ha', hax, hk⟩, hidx, hv⟩ := this
  cases ha'
  have hkx : k = ax := by
    rw [hval.label_length, hax] at hk
    exact (Option.some.injEq _ _ ▸ hk).symm
  subst hkx
  have hlt : k < y.label.length := by
    have := (pyIdx_some.mp hax)
    rw [hval.label_length]
    omega
  obtain ⟨l, hl⟩ : ∃ l, y.label[k]? = some l := ⟨_, List.getElem?_eq_getElem hlt⟩
  refine ⟨q, h', r, e.same, hq.larry, k, idx, l, hax, hl, ?_, fun h2 ev => ?_⟩
  · obtain ⟨c1, c2, -⟩ := C41_labelindex hval hax hl name
    by_cases hn : name ∈ l
    · obtain ⟨i, hi⟩ := List.mem_iff_getElem?.mp hn
      have := c1 true i hi
      rw [hidx] at this
      cases this
      exact hi
    · rw [c2 hn] at hidx
      simp at hidx
  · obtain ⟨k1, k2⟩ := hv h2 ev
    exact ⟨_, _, k1.larry, k2.larry, rfl, rfl, rfl, fun _ => rfl⟩

/-- Met by `exA`. -/
example : exS.2.Wf ∧ exS.2.larry 4 = some exA ∧ exA.Valid ∧ ∃ z, exA.pull 20 (some 0) = .ok (.larry z) :=
  ⟨exS_wf.1, rfl, exA_valid, _, rfl⟩

/-- `y[index]` that gives a larry gives a new larry object.  If all entries of the index are integers and
slices it shows the elements of `y` the index selects, now and after any later writes to either.  Unless
the whole index is a mask, a larry or an integer array, it has the very label lists of `y` for the axes
that the index does not mention. -/
theorem C23_getitem [LinearOrder L] {h : Heap L} (hw : h.Wf) {p : Nat} {y z : Larry L} (hy : h.larry p = some y)
    (hval : y.Valid) {isList : Bool} {idx : Index L} (hz : y.getitem idx = .ok (.larry z)) :
    ∃ q h', Run h (hGetitem isList idx p) (.larry q) h' ∧ (∀ a < h.next, h'.cell a = h.cell a) ∧ h'.larry q = some z ∧
      ∀ h2, h'.Evolves h2 → ∃ w wq, h2.larry p = some w ∧ h2.larry q = some wq ∧
        ((∀ it ∈ idx.entries, (∃ i, it = .int i) ∨ ∃ s, it = .slice s) → w.x.index (idx.entries.map Item.np) = .ok wq.x) ∧
        (idx.deep isList = false → w.label.drop idx.entries.length <:+ wq.label) := by
  obtain ⟨o, ho⟩ := ObjAt.of_larry hw hy
  have := hGetitem_run isList idx ho hval.fits
  rw [hz] at this
  obtain ⟨q, h', oq, r, e, hq, hv⟩ := this
  refine ⟨q, h', r, e.same, hq.larry, fun h2 ev => ?_⟩
  have k1 := (ho.ext e).evolves ev
  have k2 := hq.evolves ev
  obtain ⟨v1, v2⟩ := hv h2 ev
  refine ⟨_, _, k1.larry, k2.larry, fun hs => ?_, fun hd => v2 (by rw [hd]; rfl)⟩
  refine v1 ?_
  rw [List.any_map, List.any_eq_false]
  intro it hit
  rcases hs it hit with ⟨i, rfl⟩ | ⟨s, rfl⟩ <;> simp [Item.np, NpItem.copies]

/-- Met by `exA[1:]` and by `exA[[1]]`, which share the labels of the second axis. -/
example : exS.2.Wf ∧ exS.2.larry 4 = some exA ∧ exA.Valid ∧
    (∃ z, exA.getitem (.one (.slice ⟨some 1, none, none⟩)) = .ok (.larry z)) ∧
    (∃ z, exA.getitem (.one (.seq [1])) = .ok (.larry z)) ∧
    (Index.one (.seq [1]) : Index Nat).deep true = false :=
  ⟨exS_wf.1, rfl, exA_valid, ⟨_, rfl⟩, ⟨_, rfl⟩, rfl⟩

/-- So `z = y[[1]]` has its own elements, yet `z.shufflelabel(1)` moves labels of `y`. -/
theorem C23_shared_labels : ((Act.exec [.getitem true (.one (.seq [1])) 4, .shuffleLabel List.reverse 1 10] exS).2.larry 4).map
    (fun y => (y.label, y.x.get [0, 0], y.x.get [0, 2])) = some ([[10, 20], [2, 1, 3]], fl 1, fl 3) := by decide +kernel

/-- `y[i, j, ...]` that gives a bare array gives a view too. -/
theorem C23_getitem_array [LinearOrder L] {h : Heap L} (hw : h.Wf) {p : Nat} {y : Larry L} {x : NDArray Val}
    (hy : h.larry p = some y) (hval : y.Valid) {isList : Bool} {idx : Index L} (hz : y.getitem idx = .ok (.array x)) :
    ∃ v h', Run h (hGetitem isList idx p) (.array v) h' ∧ (∀ a < h.next, h'.cell a = h.cell a) ∧ h'.array v = x ∧
      ∀ h2, h'.Evolves h2 → ∃ w, h2.larry p = some w ∧ w.x.index (idx.entries.map Item.np) = .ok (h2.array v) := by
  obtain ⟨o, ho⟩ := ObjAt.of_larry hw hy
  have := hGetitem_run isList idx ho hval.fits
  rw [hz] at this
  obtain ⟨v, h', r, e, ha, hv⟩ := this
  exact ⟨v, h', r, e.same, ha.get, fun h2 ev => ⟨_, ((ho.ext e).evolves ev).larry, hv h2⟩⟩

/-- An array comes from fewer integers than axes. -/
example : exS.2.Wf ∧ exS.2.larry 4 = some exA ∧ exA.Valid ∧ ∃ x, exA.getitem (.tuple [.int 1]) = .ok (.array x) :=
  ⟨exS_wf.1, rfl, exA_valid, _, rfl⟩

/-! ## Writes in place -/

/-- An operation on `self.x` in place changes the buffer of the larry and nothing else; the larry has the
new elements, its own dtype, shape and labels.  If it raises nothing changes. -/
theorem C23_inplace {h : Heap L} (hw : h.Wf) {p : Nat} {y : Larry L} (hy : h.larry p = some y)
    (f : Larry L → Res (Larry L)) : ∃ o, h.cell p = some (.obj o) ∧
    (∀ e, f y = .error e → (hInPlace f p).out h = .error e ∧ (hInPlace f p).after h = h) ∧
    ∀ z, f y = .ok z → ∃ h', Run h (hInPlace f p) () h' ∧ (∀ a, a < h.next → a ≠ o.x.buf → h'.cell a = h.cell a) ∧
      h.Evolves h' ∧ ∃ w, h'.larry p = some w ∧ w.label = y.label ∧ w.dtype = y.dtype ∧ w.shape = y.shape ∧
        (o.x.Inj → ∀ i, InB y.shape i → w.x.get i = z.x.get i) := by
  obtain ⟨o, ho⟩ := ObjAt.of_larry hw hy
  have := hInPlace_run f ho
  refine ⟨o, ho.cell, fun e he => ?_, fun z hz => ?_⟩
  · rw [he] at this
    exact this
  · rw [hz] at this
    obtain ⟨h', r, e, x', hx, hs⟩ := this
    have hev := hInPlace_evolves hw hy f
    rw [r.2] at hev
    have hsh : x'.shape = y.x.shape := hx.array.shape.symm.trans ho.array.shape
    exact ⟨h', r, e.same, hev, _, hx.larry, rfl, rfl, hsh, fun hi i hin => (hs hi).2 i (by rw [hsh]; exact hin)⟩

/-- Met by `exA`, whose array shows every cell once. -/
example : exS.2.Wf ∧ exS.2.larry 4 = some exA ∧ ∃ o, exS.2.cell 4 = some (.obj o) ∧ o.x.Inj :=
  ⟨exS_wf.1, rfl, _, rfl, fun _ _ _ _ h => h⟩

/-! ## `merge` -/

/-- `merge` of a larry with one that has the same labels returns the larry itself: the merged values are
written into it. -/
theorem C23_merge_self [LinearOrder L] {h : Heap L} (hw : h.Wf) {p r : Nat} {y other z : Larry L} (hy : h.larry p = some y)
    (hr : h.larry r = some other) (hl : y.label = other.label) {update : Bool} (hz : merge y other update = .ok z) :
    ∃ o h' z', h.cell p = some (.obj o) ∧ Run h (hMerge update p r) p h' ∧
      (∀ a, a < h.next → a ≠ o.x.buf → h'.cell a = h.cell a) ∧ h'.larry p = some z' ∧ (o.x.Inj → z'.Same z) := by
  obtain ⟨o, ho⟩ := ObjAt.of_larry hw hy
  obtain ⟨o', ho'⟩ := ObjAt.of_larry hw hr
  have := hMerge_run update ho ho'
  rw [hz] at this
  obtain ⟨q, h', oq, z', r1, hq, hs, hcase, hqp⟩ := this
  have hq0 := hqp hl
  subst hq0
  refine ⟨o, h', z', ho.cell, r1, ?_, hq.larry, fun hi => hs (fun _ => hi)⟩
  rcases hcase with ⟨-, e⟩ | ⟨-, hf⟩
  · exact e.same
  · have := hf.lo
    have := ho.hi
    omega

/-- Met by `exA` and `exD`. -/
example : exS.2.Wf ∧ exS.2.larry 4 = some exA ∧ exS.2.larry 9 = some exD ∧ exA.label = exD.label ∧
    ∃ z, merge exA exD true = .ok z := ⟨exS_wf.1, rfl, rfl, rfl, _, rfl⟩

/-- So `y.merge(other, update=True)` changes `y`. -/
theorem C23_merge_writes : ((Act.exec [.merge true 4 9] exS).2.larry 4).map (fun y => (y.x.get [0, 0], y.x.get [0, 1])) =
    some (fl 1, fl 20) := by decide +kernel

/-! ## `binaryop` -/

section
variable [LinearOrder L]

omit [LinearOrder L] in
theorem joins_perAxis {n : Nat} {join : JoinArg} {js : List Join} : join.perAxis n = .ok js ↔ JoinsFor n join js := by
  cases join with
  | one j => simp [JoinArg.perAxis, JoinsFor, eq_comm]
  | many js' =>
    simp only [JoinArg.perAxis, JoinsFor]
    split
    · rename_i hn
      simp only [reduceCtorEq, false_iff, not_and]
      rintro rfl
      exact hn
    · rename_i hn
      simp only [Except.ok.injEq]
      constructor
      · rintro rfl
        exact ⟨rfl, not_not.mp hn⟩
      · rintro ⟨rfl, -⟩
        rfl

/-- Whatever the outcome and even if the two larrys share memory, `binaryop` writes to nothing that was
there, except that fills may be written to the array of a larry whose labels the alignment left as they
were: on every axis the labels are equal, or the join is 'skip', or for the first larry 'left' and for the
second 'right'. -/
theorem C23_binaryop {h : Heap L} (hw : h.Wf) {p r : Nat} {y z : Larry L} (hy : h.larry p = some y)
    (hz : h.larry r = some z) (cv : DType → Val → Val) (uf : UFunc2) (join : JoinArg) (cast : Bool)
    (missone misstwo : Option Val) {a : Nat} (ha : a < h.next)
    (hch : ((hBinaryop cv uf join cast missone misstwo p r).after h).cell a ≠ h.cell a) :
    (missone ≠ none ∨ misstwo ≠ none) ∧ ∃ js, JoinsFor z.ndim join js ∧
      ((a ∈ h.foot p ∧ h.isBuf a = true ∧ ∀ c ∈ js.zip (y.label.zip z.label), c.2.1 = c.2.2 ∨ c.1 = .skip ∨ c.1 = .left) ∨
       (a ∈ h.foot r ∧ h.isBuf a = true ∧ ∀ c ∈ js.zip (y.label.zip z.label), c.2.1 = c.2.2 ∨ c.1 = .skip ∨ c.1 = .right)) := by
  obtain ⟨o1, k1⟩ := ObjAt.of_larry hw hy
  obtain ⟨o2, k2⟩ := ObjAt.of_larry hw hz
  obtain ⟨f1, hf1, -⟩ := k1.array.data
  obtain ⟨f2, hf2, -⟩ := k2.array.data
  have e1 : ∀ j : Join, j.takes1 = false ↔ j = .skip ∨ j = .left := by
    intro j; cases j <;> simp [Join.takes1]
  have e2 : ∀ j : Join, j.takes2 = false ↔ j = .skip ∨ j = .right := by
    intro j; cases j <;> simp [Join.takes2]
  constructor
  · by_contra hn
    push Not at hn
    obtain ⟨rfl, rfl⟩ := hn
    obtain ⟨g1, -, -⟩ := SafeAt.use (P := fun b => h.next ≤ b) (h := h)
      (Safe.hBinaryopNone (fun _ hb _ => hb) cv uf join cast p r).at
      (fun b c hb hcell => absurd (hw b c hcell).1 (by omega))
    exact hch (g1 a (by omega))
  · by_contra hn
    push Not at hn
    obtain ⟨g1, -, -⟩ := SafeAt.use (P := fun b => h.next ≤ b ∨ (b ≠ a ∧ (b = o1.x.buf ∨ b = o2.x.buf))) (h := h)
      (SafeAt.hBinaryop (fun _ hb _ => Or.inl hb) cv uf join cast missone misstwo (p := p) (r := r)
        (by
          intro o1' o2' js c1 c2 hj hall
          rw [k1.cell] at c1
          rw [k2.cell] at c2
          cases c1; cases c2
          rw [k1.value, k2.value] at hall
          rw [k2.value] at hj
          refine Or.inr ⟨fun he => ?_, Or.inl rfl⟩
          obtain ⟨c, hc, hne⟩ := (hn js (joins_perAxis.mp hj)).1
            (by rw [← he]; unfold Heap.foot; rw [k1.cell]; simp) (by rw [← he]; exact isBuf_iff.mpr ⟨f1, hf1⟩)
          rcases hall c hc with h' | h'
          · exact hne.1 h'
          · rcases (e1 _).mp h' with h' | h'
            · exact hne.2.1 h'
            · exact hne.2.2 h')
        (by
          intro o1' o2' js c1 c2 hj hall
          rw [k1.cell] at c1
          rw [k2.cell] at c2
          cases c1; cases c2
          rw [k1.value, k2.value] at hall
          rw [k2.value] at hj
          refine Or.inr ⟨fun he => ?_, Or.inr rfl⟩
          obtain ⟨c, hc, hne⟩ := (hn js (joins_perAxis.mp hj)).2
            (by rw [← he]; unfold Heap.foot; rw [k2.cell]; simp) (by rw [← he]; exact isBuf_iff.mpr ⟨f2, hf2⟩)
          rcases hall c hc with h' | h'
          · exact hne.1 h'
          · rcases (e2 _).mp h' with h' | h'
            · exact hne.2.1 h'
            · exact hne.2.2 h'))
      (by
        intro b c hb hcell
        rcases hb with hb | ⟨-, rfl | rfl⟩
        · exact absurd (hw b c hcell).1 (by omega)
        · rw [hf1] at hcell; cases hcell; trivial
        · rw [hf2] at hcell; cases hcell; trivial)
    exact hch (g1 a (by
      rintro (hb | ⟨hb, -⟩)
      · omega
      · exact hb rfl))

/-- The loop of `align_raw` leaves both arrays alone if the labels are the same. -/
theorem alignRawLoop_eq (cast : Bool) : ∀ (ts : List (Join × List L × List L)) (ax : Nat) (s : AlignSt),
    (∀ c ∈ ts, c.1 ≠ .other ∧ c.2.1 = c.2.2) → ∃ labs, alignRawLoop cast ts ax s = .ok (s, labs)
  | [], _, _, _ => ⟨_, rfl⟩
  | (j, l1, l2) :: rest, ax, s, ht => by
    obtain ⟨hj, hl⟩ := ht (j, l1, l2) (by simp)
    dsimp only at hj hl
    subst hl
    obtain ⟨labs, hr⟩ := alignRawLoop_eq cast rest (ax + 1) s (fun c hc => ht c (by simp [hc]))
    have : ∃ lab, alignRawAxis cast j l1 l1 ax s = .ok (s, lab) := by
      cases j <;> simp [alignRawAxis] at hj ⊢
    obtain ⟨lab, hlab⟩ := this
    exact ⟨lab :: labs, by simp only [alignRawLoop, hlab, hr]⟩

/-- `binaryop` on larrys with the same labels that share no memory: the fills end up in both larrys. -/
theorem C23_binaryop_fills {h : Heap L} (hw : h.Wf) {p r : Nat} {y z : Larry L} (hy : h.larry p = some y)
    (hz : h.larry r = some z) (hl : y.label = z.label) (vy : y.Valid) (vz : z.Valid) {o1 o2 : Obj}
    (h1 : h.cell p = some (.obj o1)) (h2 : h.cell r = some (.obj o2)) (hne : o1.x.buf ≠ o2.x.buf) (i1 : o1.x.Inj)
    (i2 : o2.x.Inj) (cv : DType → Val → Val) (uf : UFunc2) {join : JoinArg} {js : List Join}
    (hj : JoinsFor z.ndim join js) (ho : Join.other ∉ js) (cast : Bool) (missone misstwo : Option Val) {q : Nat} {h' : Heap L}
    (hrun : Run h (hBinaryop cv uf join cast missone misstwo p r) q h') :
    ∃ y' z', h'.larry p = some y' ∧ h'.larry r = some z' ∧ y'.label = y.label ∧ z'.label = z.label ∧
      y'.dtype = y.dtype ∧ z'.dtype = z.dtype ∧ y'.shape = y.shape ∧ z'.shape = z.shape ∧
      ∀ i, InB y.shape i → ∀ m1 m2, m1 = isMissingVal y.dtype (y.x.get i) → m2 = isMissingVal z.dtype (z.x.get i) →
        y'.x.get i = (if m1 && !m2 then missone.elim (y.x.get i) (cv y.dtype)
          else if m1 && m2 then misstwo.elim (y.x.get i) (cv y.dtype) else y.x.get i) ∧
        z'.x.get i = (if m2 && !m1 then missone.elim (z.x.get i) (cv z.dtype)
          else if m1 && m2 then misstwo.elim (z.x.get i) (cv z.dtype) else z.x.get i) := by
  obtain ⟨o1', k1⟩ := ObjAt.of_larry hw hy
  obtain ⟨o2', k2⟩ := ObjAt.of_larry hw hz
  obtain rfl : o1' = o1 := by have := k1.cell; rw [h1] at this; cases this; rfl
  obtain rfl : o2' = o2 := by have := k2.cell; rw [h2] at this; cases this; rfl
  have hsh : y.shape = z.shape := by
    have e1 := vy.shape_eq
    have e2 := vz.shape_eq
    rw [hl, ← e2] at e1
    exact e1
  have hnd : y.ndim = z.ndim := by unfold Larry.ndim NDArray.ndim; exact congrArg List.length hsh
  obtain ⟨labs, hal⟩ := alignRawLoop_eq cast (js.zip (y.label.zip z.label)) 0 ⟨y.x, y.dtype, true, z.x, z.dtype, true⟩
    (by
      intro c hc
      refine ⟨fun he => ho (he ▸ (List.of_mem_zip hc).1), ?_⟩
      have := (List.of_mem_zip hc).2
      rw [hl] at this
      obtain ⟨k, hk⟩ := List.mem_iff_getElem?.mp this
      rw [List.getElem?_zip_eq_some] at hk
      exact Option.some.inj (hk.1.symm.trans hk.2))
  rw [← alignRaw_loop hnd hj] at hal
  have := hBinaryop_run cv uf join cast missone misstwo k1 k2 (Or.inr ⟨hne, i1, i2⟩)
  rw [hal] at this
  dsimp only at this
  rw [if_neg (by rw [show y.x.shape = z.x.shape from hsh]; simp)] at this
  split at this
  · rw [hrun.1] at this; simp at this
  · rename_i x d hn
    obtain ⟨q', h'', r', hle, hfr, -, c1, c2⟩ := this
    obtain rfl : h'' = h' := r'.2.symm.trans hrun.2
    obtain ⟨x1, a1, s1⟩ := c1 rfl
    obtain ⟨x2, a2, s2⟩ := c2 rfl
    obtain ⟨f1, hf1, -⟩ := k1.array.data
    obtain ⟨f2, hf2, -⟩ := k2.array.data
    -- only the two buffers can have changed
    have hcell : ∀ a c, h.cell a = some c → (∀ f, c ≠ .buf f) → h''.cell a = some c := by
      intro a c hc hb
      rw [hfr a (hw a c hc).1, hc]
      · rintro rfl
        rw [hf1] at hc
        exact absurd (Option.some.inj hc).symm (hb f1)
      · rintro rfl
        rw [hf2] at hc
        exact absurd (Option.some.inj hc).symm (hb f2)
    have m1 : ObjAt h'' 0 p o1' ⟨x1, y.dtype, y.label⟩ := ⟨Nat.zero_le _, lt_of_lt_of_le k1.hi hle,
      hcell _ _ k1.cell (fun f => by simp), a1, k1.label.pres (le_refl _) hle (fun as ha => hcell _ _ ha (fun f => by simp))
        (fun a l _ ha => hcell _ _ ha (fun f => by simp))⟩
    have m2 : ObjAt h'' 0 r o2' ⟨x2, z.dtype, z.label⟩ := ⟨Nat.zero_le _, lt_of_lt_of_le k2.hi hle,
      hcell _ _ k2.cell (fun f => by simp), a2, k2.label.pres (le_refl _) hle (fun as ha => hcell _ _ ha (fun f => by simp))
        (fun a l _ ha => hcell _ _ ha (fun f => by simp))⟩
    have t1 : (fillMiss cv missone misstwo ⟨y.x, y.dtype, true, z.x, z.dtype, true⟩).x1.shape = y.shape := by
      cases missone <;> cases misstwo <;> rfl
    have t2 : (fillMiss cv missone misstwo ⟨y.x, y.dtype, true, z.x, z.dtype, true⟩).x2.shape = z.shape := by
      cases missone <;> cases misstwo <;> rfl
    refine ⟨_, _, m1.larry, m2.larry, rfl, rfl, rfl, rfl, s1.1.trans t1, s2.1.trans t2, ?_⟩
    rintro i hi m1 m2 rfl rfl
    dsimp only
    rw [s1.2 i (by rw [s1.1, t1]; exact hi), s2.2 i (by rw [s2.1, t2, ← hsh]; exact hi)]
    generalize e1 : isMissingVal y.dtype (y.x.get i) = b1
    generalize e2 : isMissingVal z.dtype (z.x.get i) = b2
    cases missone <;> cases misstwo <;> cases b1 <;> cases b2 <;>
      simp [fillMiss, putmask, NDArray.zipWith, NDArray.map, e1, e2]

/-- A function of two arguments. -/
def exFst : UFunc2 := ⟨fun a _ => a, fun d _ => .ok d⟩

/-- Met by `exA` and `exD`. -/
example : exS.2.Wf ∧ exS.2.larry 4 = some exA ∧ exS.2.larry 9 = some exD ∧ exA.label = exD.label ∧ exA.Valid ∧ exD.Valid ∧
    (∃ o1 o2, exS.2.cell 4 = some (.obj o1) ∧ exS.2.cell 9 = some (.obj o2) ∧ o1.x.buf ≠ o2.x.buf ∧ o1.x.Inj ∧ o2.x.Inj) ∧
    JoinsFor exD.ndim (.one .inner) [.inner, .inner] ∧
    (Act.exec [.binaryop (fun _ v => v) exFst (.one .inner) true (some (fl 0)) none 4 9] exS).1.length = 11 :=
  ⟨exS_wf.1, rfl, rfl, rfl, exA_valid, ⟨rfl, by decide, by decide⟩,
    ⟨_, _, rfl, rfl, by decide, fun _ _ _ _ h => h, fun _ _ _ _ h => h⟩, rfl, by decide +kernel⟩

/-- So `binaryop(func, y, z, missone=0)` changes `y` and `z`. -/
theorem C23_binaryop_writes :
    ((Act.exec [.binaryop (fun _ v => v) exFst (.one .inner) true (some (fl 0)) none 4 9] exS).2.larry 4).map
      (fun y => y.x.get [1, 1]) = some (fl 0) ∧
    ((Act.exec [.binaryop (fun _ v => v) exFst (.one .inner) true (some (fl 0)) none 4 9] exS).2.larry 9).map
      (fun y => y.x.get [0, 0]) = some (fl 0) := by decide +kernel

end

end La
