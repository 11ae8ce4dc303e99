import Verif.HeapFacts

/-!
# Running the methods on references: what is at which address afterwards

`ObjAt h b q o z`: at address `q` there is the larry object `o` with value `z`, and all it consists of is
at addresses from `b` on.  `Refines h m r`: the method `m` run in `h` does on references what `r` says on
values, raises what `r` raises, leaves alone all that was there, and its result is all new.
-/

namespace La
variable {L : Type} {α β : Type}

/-- `m` run from `h` returns `v` and leaves `h'`. -/
def Run (h : Heap L) (m : HM L α) (v : α) (h' : Heap L) : Prop := m.out h = .ok v ∧ m.after h = h'

theorem Run.bind {h h1 h2 : Heap L} {m : HM L α} {f : α → HM L β} {v : α} {w : β} (r1 : Run h m v h1)
    (r2 : Run h1 (f v) w h2) : Run h (m >>= f) w h2 := by
  obtain ⟨e1, e2⟩ := HM.bind_ok (f := f) r1.1
  exact ⟨by rw [e1, r1.2, r2.1], by rw [e2, r1.2, r2.2]⟩

theorem Run.pure {h : Heap L} {v : α} : Run h (Pure.pure v : HM L α) v h := ⟨rfl, rfl⟩

theorem Run.lift {h : Heap L} {r : Res α} {v : α} (hr : r = .ok v) : Run h (HM.lift r) v h := ⟨hr, rfl⟩

theorem Run.look {h : Heap L} {f : Heap L → α} : Run h (HM.look f) (f h) h := ⟨rfl, rfl⟩

theorem Run.getObj {h : Heap L} {p : Nat} {o : Obj} (hc : h.cell p = some (.obj o)) : Run h (La.getObj p) o h :=
  ⟨getObj_ok.mpr hc, getObj_after p h⟩

theorem Run.valueOf {h : Heap L} {p : Nat} {o : Obj} (hc : h.cell p = some (.obj o)) :
    Run h (La.valueOf p) (h.value o) h := Run.bind (Run.getObj hc) Run.look

theorem Run.raises {h h1 : Heap L} {m : HM L α} {f : α → HM L β} {v : α} {e : PyErr} (r1 : Run h m v h1)
    (r2 : (f v).out h1 = .error e) : (m >>= f).out h = .error e := by
  rw [(HM.bind_ok (f := f) r1.1).1, r1.2, r2]

theorem HM.raises_left {h : Heap L} {m : HM L α} {f : α → HM L β} {e : PyErr} (hm : m.out h = .error e) :
    (m >>= f).out h = .error e := (HM.bind_error hm).1

/-- The memory after `alloc`. -/
def Heap.push (h : Heap L) (c : HCell L) : Heap L := ⟨fun a => if a = h.next then some c else h.cell a, h.next + 1⟩

/-- The memory after `put`. -/
def Heap.upd (h : Heap L) (a : Nat) (c : HCell L) : Heap L := ⟨fun b => if b = a then some c else h.cell b, h.next⟩

theorem Run.alloc {h : Heap L} {c : HCell L} : Run h (La.alloc c) h.next (h.push c) := ⟨rfl, rfl⟩

theorem Run.put {h : Heap L} {a : Nat} {c : HCell L} : Run h (La.put a c) () (h.upd a c) := ⟨rfl, rfl⟩

/-- `h'` has all that `h` has below `b`. -/
structure Ext (b : Nat) (h h' : Heap L) : Prop where
  le : h.next ≤ h'.next
  same : ∀ a < b, h'.cell a = h.cell a

/-- `h'` has all that `h` has, except at `c`. -/
structure ExtBut (c : Nat) (h h' : Heap L) : Prop where
  le : h.next ≤ h'.next
  same : ∀ a < h.next, a ≠ c → h'.cell a = h.cell a

theorem Ext.refl {b : Nat} {h : Heap L} : Ext b h h := ⟨le_refl _, fun _ _ => rfl⟩

theorem Ext.trans {b b' : Nat} {h1 h2 h3 : Heap L} (e1 : Ext b h1 h2) (e2 : Ext b' h2 h3) (hb : b ≤ b') : Ext b h1 h3 :=
  ⟨e1.le.trans e2.le, fun a ha => by rw [e2.same a (by omega), e1.same a ha]⟩

theorem Ext.push {h : Heap L} {c : HCell L} : Ext h.next h (h.push c) :=
  ⟨Nat.le_succ _, fun a ha => by simp [Heap.push, Nat.ne_of_lt ha]⟩

theorem ExtBut.ext {c b : Nat} {h h' : Heap L} (e : ExtBut c h h') (hc : b ≤ c) (hb : b ≤ h.next) : Ext b h h' :=
  ⟨e.le, fun a ha => e.same a (by omega) (by omega)⟩

theorem ExtBut.upd {h : Heap L} {a : Nat} {c : HCell L} : ExtBut a h (h.upd a c) :=
  ⟨le_refl _, fun b _ hne => by simp [Heap.upd, hne]⟩

/-- There is an array with elements `x` at addresses from `b` on. -/
structure ArrayAt (h : Heap L) (b : Nat) (v : View) (x : NDArray Val) (d : DType) : Prop where
  lo : b ≤ v.buf
  hi : v.buf < h.next
  dtype : v.dtype = d
  data : ∃ f, h.cell v.buf = some (.buf f) ∧ v.ix.map f = x

/-- The lists `as` are at addresses from `b` on and have the contents `ls`. -/
def ListsAt (h : Heap L) (b : Nat) (as : List Nat) (ls : List (List L)) : Prop :=
  List.Forall₂ (fun a l => b ≤ a ∧ a < h.next ∧ h.cell a = some (.lst l)) as ls

/-- There is a list of lists with contents `ls` at addresses from `b` on. -/
structure LabelAt (h : Heap L) (b : Nat) (label : Nat) (ls : List (List L)) : Prop where
  lo : b ≤ label
  hi : label < h.next
  lists : ∃ as, h.cell label = some (.out as) ∧ ListsAt h b as ls

/-- There is a larry. -/
structure ObjAt (h : Heap L) (b : Nat) (q : Nat) (o : Obj) (z : Larry L) : Prop where
  lo : b ≤ q
  hi : q < h.next
  cell : h.cell q = some (.obj o)
  array : ArrayAt h b o.x z.x z.dtype
  label : LabelAt h b o.label z.label

theorem ListsAt.length {h : Heap L} {b : Nat} {as : List Nat} {ls : List (List L)} (hl : ListsAt h b as ls) :
    as.length = ls.length := List.Forall₂.length_eq hl

theorem ListsAt.get {h : Heap L} {b : Nat} {as : List Nat} {ls : List (List L)} (hl : ListsAt h b as ls) :
    as.map h.lst = ls := by
  unfold ListsAt at hl
  induction hl with
  | nil => rfl
  | cons h1 _ ih =>
    rw [List.map_cons, ih]
    congr 1
    unfold Heap.lst
    rw [h1.2.2]

theorem ListsAt.isLst {h : Heap L} {b : Nat} {as : List Nat} {ls : List (List L)} (hl : ListsAt h b as ls) :
    as.all h.isLst = true := by
  unfold ListsAt at hl
  induction hl with
  | nil => rfl
  | cons h1 _ ih =>
    rw [List.all_cons, ih, Bool.and_true]
    unfold Heap.isLst
    rw [h1.2.2]

theorem ListsAt.pres {h h' : Heap L} {b b' : Nat} {as : List Nat} {ls : List (List L)} (hl : ListsAt h b as ls)
    (hb : b' ≤ b) (hn : h.next ≤ h'.next)
    (hc : ∀ a l, a < h.next → h.cell a = some (.lst l) → h'.cell a = some (.lst l)) : ListsAt h' b' as ls :=
  List.Forall₂.imp (fun a l ha => ⟨hb.trans ha.1, lt_of_lt_of_le ha.2.1 hn, hc a l ha.2.1 ha.2.2⟩) hl

theorem LabelAt.out {h : Heap L} {b : Nat} {label : Nat} {ls : List (List L)} (hl : LabelAt h b label ls) :
    ListsAt h b (h.out label) ls ∧ h.cell label = some (.out (h.out label)) := by
  obtain ⟨as, h1, h2⟩ := hl.lists
  have : h.out label = as := by unfold Heap.out; rw [h1]
  rw [this]
  exact ⟨h2, h1⟩

theorem LabelAt.get {h : Heap L} {b : Nat} {label : Nat} {ls : List (List L)} (hl : LabelAt h b label ls) :
    (h.out label).map h.lst = ls := hl.out.1.get

theorem ArrayAt.get {h : Heap L} {b : Nat} {v : View} {x : NDArray Val} {d : DType} (ha : ArrayAt h b v x d) :
    h.array v = x := by
  obtain ⟨f, h1, h2⟩ := ha.data
  have : h.buf v.buf = f := by unfold Heap.buf; rw [h1]
  unfold Heap.array
  rw [this, h2]

theorem ArrayAt.shape {h : Heap L} {b : Nat} {v : View} {x : NDArray Val} {d : DType} (ha : ArrayAt h b v x d) :
    v.ix.shape = x.shape := by rw [← ha.get]; rfl

theorem ObjAt.value {h : Heap L} {b q : Nat} {o : Obj} {z : Larry L} (ho : ObjAt h b q o z) : h.value o = z := by
  unfold Heap.value
  rw [ho.array.get, ho.label.get, ho.array.dtype]

theorem ObjAt.larry {h : Heap L} {b q : Nat} {o : Obj} {z : Larry L} (ho : ObjAt h b q o z) : h.larry q = some z := by
  unfold Heap.larry
  rw [ho.cell]
  dsimp only
  obtain ⟨f, h1, _⟩ := ho.array.data
  have hb : h.isBuf o.x.buf = true := by unfold Heap.isBuf; rw [h1]
  have hl : h.isOut o.label = true := by unfold Heap.isOut; rw [ho.label.out.2]
  rw [hb, hl, ho.label.out.1.isLst, ho.value]
  rfl

/-- A larry in a memory in order. -/
theorem ObjAt.of_larry {h : Heap L} (hw : ∀ a c, h.cell a = some c → a < h.next ∧ c.Refs (· < h.next)) {p : Nat}
    {y : Larry L} (hy : h.larry p = some y) : ∃ o, ObjAt h 0 p o y := by
  unfold Heap.larry at hy
  split at hy
  · rename_i o ho
    split at hy
    · rename_i hc
      simp only [Bool.and_eq_true] at hc
      simp only [Option.some.injEq] at hy
      subst hy
      have hr := (hw p _ ho).2
      refine ⟨o, ⟨Nat.zero_le _, (hw p _ ho).1, ho, ⟨Nat.zero_le _, hr.1, rfl, ?_⟩, ⟨Nat.zero_le _, hr.2, ?_⟩⟩⟩
      · have := hc.1.1
        unfold Heap.isBuf at this
        split at this
        · rename_i f hf
          refine ⟨f, hf, ?_⟩
          simp only [Heap.value, Heap.array, Heap.buf, hf]
        · simp at this
      · have h2 := hc.1.2
        unfold Heap.isOut at h2
        split at h2
        · rename_i as has
          have hout : h.out o.label = as := by unfold Heap.out; rw [has]
          refine ⟨as, has, ?_⟩
          simp only [Heap.value, hout]
          rw [hout] at hc
          unfold ListsAt
          rw [List.forall₂_map_right_iff]
          refine List.forall₂_same.mpr (fun a ha => ⟨Nat.zero_le _, (hw _ _ has).2 a ha, ?_⟩)
          have h3 := List.all_eq_true.mp hc.2 a ha
          unfold Heap.isLst at h3
          unfold Heap.lst
          split at h3
          · rename_i l hl
            rw [hl]
          · simp at h3
        · simp at h2
    · simp at hy
  · simp at hy

section pres
variable {h h' : Heap L} {b b' : Nat}

theorem ArrayAt.pres {v : View} {x : NDArray Val} {d : DType} (ha : ArrayAt h b v x d) (hb : b' ≤ b)
    (hn : h.next ≤ h'.next) (hc : ∀ f, h.cell v.buf = some (.buf f) → h'.cell v.buf = some (.buf f)) :
    ArrayAt h' b' v x d := by
  obtain ⟨f, h1, h2⟩ := ha.data
  exact ⟨hb.trans ha.lo, lt_of_lt_of_le ha.hi hn, ha.dtype, f, hc f h1, h2⟩

theorem LabelAt.pres {label : Nat} {ls : List (List L)} (hl : LabelAt h b label ls) (hb : b' ≤ b)
    (hn : h.next ≤ h'.next) (hc : ∀ as, h.cell label = some (.out as) → h'.cell label = some (.out as))
    (hc' : ∀ a l, a < h.next → h.cell a = some (.lst l) → h'.cell a = some (.lst l)) : LabelAt h' b' label ls := by
  obtain ⟨as, h1, h2⟩ := hl.lists
  exact ⟨hb.trans hl.lo, lt_of_lt_of_le hl.hi hn, as, hc as h1, h2.pres hb hn hc'⟩

theorem ArrayAt.ext {v : View} {x : NDArray Val} {d : DType} (ha : ArrayAt h b v x d) (e : Ext h.next h h')
    (hb : b' ≤ b := by exact le_refl _) : ArrayAt h' b' v x d :=
  ha.pres hb e.le (fun f hf => by rw [e.same _ ha.hi, hf])

theorem ListsAt.ext {as : List Nat} {ls : List (List L)} (hl : ListsAt h b as ls) (e : Ext h.next h h')
    (hb : b' ≤ b := by exact le_refl _) : ListsAt h' b' as ls :=
  hl.pres hb e.le (fun a l ha hl => by rw [e.same _ ha, hl])

theorem LabelAt.ext {label : Nat} {ls : List (List L)} (hl : LabelAt h b label ls) (e : Ext h.next h h')
    (hb : b' ≤ b := by exact le_refl _) : LabelAt h' b' label ls :=
  hl.pres hb e.le (fun as has => by rw [e.same _ hl.hi, has]) (fun a l ha hl => by rw [e.same _ ha, hl])

theorem ObjAt.ext {q : Nat} {o : Obj} {z : Larry L} (ho : ObjAt h b q o z) (e : Ext h.next h h')
    (hb : b' ≤ b := by exact le_refl _) : ObjAt h' b' q o z :=
  ⟨hb.trans ho.lo, lt_of_lt_of_le ho.hi e.le, by rw [e.same _ ho.hi, ho.cell], ho.array.ext e hb, ho.label.ext e hb⟩

theorem ListsAt.weaken {as : List Nat} {ls : List (List L)} (hl : ListsAt h b as ls) (hb : b' ≤ b) :
    ListsAt h b' as ls := hl.ext Ext.refl hb

theorem ObjAt.weaken {q : Nat} {o : Obj} {z : Larry L} (ho : ObjAt h b q o z) (hb : b' ≤ b) : ObjAt h b' q o z :=
  ho.ext Ext.refl hb

/-- A change at an address that holds a larry leaves arrays and labels alone. -/
theorem ExtBut.array {q : Nat} {o : Obj} (e : ExtBut q h h') (hq : h.cell q = some (.obj o)) {v : View}
    {x : NDArray Val} {d : DType} (ha : ArrayAt h b v x d) : ArrayAt h' b v x d :=
  ha.pres (le_refl _) e.le (fun f hf => by
    rw [e.same _ ha.hi (fun hn => by rw [hn, hq] at hf; simp at hf), hf])

theorem ExtBut.label {q : Nat} {o : Obj} (e : ExtBut q h h') (hq : h.cell q = some (.obj o)) {label : Nat}
    {ls : List (List L)} (hl : LabelAt h b label ls) : LabelAt h' b label ls :=
  hl.pres (le_refl _) e.le
    (fun as has => by rw [e.same _ hl.hi (fun hn => by rw [hn, hq] at has; simp at has), has])
    (fun a l ha hl => by rw [e.same _ ha (fun hn => by rw [hn, hq] at hl; simp at hl), hl])

end pres

section runs
variable {h : Heap L} {b : Nat}

theorem newArray_run (x : NDArray Val) (d : DType) : ∃ v h', Run h (newArray x d) v h' ∧ Ext h.next h h' ∧
    ArrayAt h' h.next v x d := by
  refine ⟨⟨h.next, ⟨x.shape, id⟩, d⟩, h.push (.buf x.get), Run.bind Run.alloc Run.pure, Ext.push, ?_⟩
  exact ⟨le_refl _, Nat.lt_succ_self _, rfl, x.get, by simp [Heap.push], rfl⟩

/-- No two positions of the array show the same cell. -/
def View.Inj (v : View) : Prop :=
  ∀ i j, InB v.ix.shape i → InB v.ix.shape j → v.ix.get i = v.ix.get j → i = j

theorem newArray_inj {x : NDArray Val} {d : DType} {v : View} {h' : Heap L} (r : Run h (newArray x d) v h') : v.Inj := by
  have h1 : Run h (newArray x d) ⟨h.next, ⟨x.shape, id⟩, d⟩ (h.push (.buf x.get)) := Run.bind Run.alloc Run.pure
  have h2 := r.1.symm.trans h1.1
  simp only [Except.ok.injEq] at h2
  rw [h2]
  exact fun i j _ _ hij => hij

theorem newLists_run : ∀ (ls : List (List L)) (h : Heap L), ∃ as h', Run h (newLists ls) as h' ∧ Ext h.next h h' ∧
    ListsAt h' h.next as ls
  | [], h => ⟨[], h, Run.pure, Ext.refl, List.Forall₂.nil⟩
  | l :: ls, h => by
    obtain ⟨as, h', r, e, hl⟩ := newLists_run ls (h.push (.lst l))
    have e0 : Ext h.next h (h.push (.lst l)) := Ext.push
    refine ⟨h.next :: as, h', Run.bind Run.alloc (Run.bind r Run.pure), e0.trans e e0.le, List.Forall₂.cons ?_ ?_⟩
    · refine ⟨le_refl _, lt_of_lt_of_le (Nat.lt_succ_self _) e.le, ?_⟩
      rw [e.same _ (Nat.lt_succ_self _)]
      simp [Heap.push]
    · exact List.Forall₂.imp (fun a l ha => ⟨e0.le.trans ha.1, ha.2⟩) hl

theorem allocOut_run {as : List Nat} {ls : List (List L)} (hl : ListsAt h b as ls) (hb : b ≤ h.next) :
    Run h (alloc (.out as)) h.next (h.push (.out as)) ∧ Ext h.next h (h.push (.out as)) ∧
    LabelAt (h.push (.out as)) b h.next ls := by
  refine ⟨Run.alloc, Ext.push, hb, Nat.lt_succ_self _, as, by simp [Heap.push], hl.ext Ext.push⟩

theorem newLabel_run (ls : List (List L)) : ∃ as h' label h'', Run h (newLists ls) as h' ∧
    Run h' (alloc (.out as)) label h'' ∧ Ext h.next h h'' ∧ LabelAt h'' h.next label ls := by
  obtain ⟨as, h', r, e, hl⟩ := newLists_run ls h
  obtain ⟨r', e', hl'⟩ := allocOut_run hl e.le
  exact ⟨as, h', h'.next, _, r, r', e.trans e' e.le, hl'⟩

theorem copylabel_run {o : Obj} {ls : List (List L)} (hl : LabelAt h b o.label ls) : ∃ label h',
    Run h (copylabel o) label h' ∧ Ext h.next h h' ∧ LabelAt h' h.next label ls := by
  obtain ⟨as, h', label, h'', r1, r2, e, hl'⟩ := newLabel_run (h := h) ls
  refine ⟨label, h'', Run.bind Run.look (Run.bind ?_ r2), e, hl'⟩
  rw [hl.get]
  exact r1

theorem newLarry_run {v : View} {label : Nat} {x : NDArray Val} {d : DType} {ls : List (List L)}
    (ha : ArrayAt h b v x d) (hl : LabelAt h b label ls) (hb : b ≤ h.next) :
    ∃ q h', Run h (newLarry v label) q h' ∧ Ext h.next h h' ∧ ObjAt h' b q ⟨v, label⟩ ⟨x, d, ls⟩ :=
  ⟨h.next, _, Run.alloc, Ext.push, hb, Nat.lt_succ_self _, by simp [Heap.push], ha.ext Ext.push, hl.ext Ext.push⟩

theorem ListsAt.set {as : List Nat} {ls : List (List L)} (hl : ListsAt h b as ls) {a : Nat} {l : List L}
    (ha : b ≤ a ∧ a < h.next ∧ h.cell a = some (.lst l)) (ax : Nat) : ListsAt h b (as.set ax a) (ls.set ax l) := by
  unfold ListsAt at *
  induction hl generalizing ax with
  | nil => exact List.Forall₂.nil
  | cons h1 h2 ih =>
    cases ax with
    | zero => exact List.Forall₂.cons ha h2
    | succ n => exact List.Forall₂.cons h1 (ih n)

/-- Replacing the references in a list of lists. -/
theorem putOut_run {label : Nat} {ls ls' : List (List L)} {as : List Nat} (hl : LabelAt h b label ls)
    (hl' : ListsAt h b as ls') : Run h (put label (.out as)) () (h.upd label (.out as)) ∧
    ExtBut label h (h.upd label (.out as)) ∧ LabelAt (h.upd label (.out as)) b label ls' := by
  refine ⟨Run.put, ExtBut.upd, hl.lo, hl.hi, as, by simp [Heap.upd], hl'.pres (le_refl _) (le_refl _) ?_⟩
  intro a l ha hal
  have : a ≠ label := fun hn => by rw [hn, hl.out.2] at hal; simp at hal
  simp [Heap.upd, this, hal]

theorem setLab_run {label : Nat} {ls : List (List L)} (hl : LabelAt h b label ls) (hb : b ≤ h.next) (ax : Nat)
    (l : List L) : ∃ h', Run h (setLab label ax l) () h' ∧ ExtBut label h h' ∧ LabelAt h' b label (ls.set ax l) := by
  have e0 : Ext h.next h (h.push (.lst l)) := Ext.push
  have hl1 := hl.ext e0
  obtain ⟨r, e, hl2⟩ := putOut_run hl1 (hl1.out.1.set (a := h.next) (l := l)
    ⟨hb, Nat.lt_succ_self _, by simp [Heap.push]⟩ ax)
  refine ⟨_, Run.bind Run.alloc (Run.bind Run.look r), ⟨e0.le.trans e.le, ?_⟩, hl2⟩
  intro a ha hne
  rw [e.same a (lt_of_lt_of_le ha e0.le) hne, e0.same a ha]

theorem setX_run {q : Nat} {o : Obj} {z : Larry L} {v : View} {x : NDArray Val} {d : DType} (ho : ObjAt h b q o z)
    (ha : ArrayAt h b v x d) : ∃ h', Run h (setX q v) () h' ∧ ExtBut q h h' ∧
      ObjAt h' b q ⟨v, o.label⟩ ⟨x, d, z.label⟩ := by
  have e : ExtBut q h (h.upd q (.obj ⟨v, o.label⟩)) := ExtBut.upd
  exact ⟨_, Run.bind (Run.getObj ho.cell) Run.put, e, ho.lo, ho.hi, by simp [Heap.upd], e.array ho.cell ha,
    e.label ho.cell ho.label⟩

theorem setLabel_run {q : Nat} {o : Obj} {z : Larry L} {label : Nat} {ls : List (List L)} (ho : ObjAt h b q o z)
    (hl : LabelAt h b label ls) : ∃ h', Run h (setLabel q label) () h' ∧ ExtBut q h h' ∧
      ObjAt h' b q ⟨o.x, label⟩ ⟨z.x, z.dtype, ls⟩ := by
  have e : ExtBut q h (h.upd q (.obj ⟨o.x, label⟩)) := ExtBut.upd
  exact ⟨_, Run.bind (Run.getObj ho.cell) Run.put, e, ho.lo, ho.hi, by simp [Heap.upd], e.array ho.cell ho.array,
    e.label ho.cell hl⟩

/-- A change of the list of lists of a larry. -/
theorem ObjAt.relabel {h' : Heap L} {q : Nat} {o : Obj} {z : Larry L} {ls : List (List L)} (ho : ObjAt h b q o z)
    (e : ExtBut o.label h h') (hl : LabelAt h' b o.label ls) : ObjAt h' b q o ⟨z.x, z.dtype, ls⟩ := by
  have hne : q ≠ o.label := fun hn => by
    have h1 := ho.cell
    rw [hn, ho.label.out.2] at h1
    simp at h1
  refine ⟨ho.lo, lt_of_lt_of_le ho.hi e.le, by rw [e.same _ ho.hi hne, ho.cell], ?_, hl⟩
  refine ho.array.pres (le_refl _) e.le (fun f hf => ?_)
  rw [e.same _ ho.array.hi (fun hn => by rw [hn, ho.label.out.2] at hf; simp at hf), hf]

/-- A view of the array of a larry. -/
theorem ArrayAt.view {v : View} {x : NDArray Val} {d : DType} (ha : ArrayAt h b v x d) {ix : NDArray (List Nat)}
    {x' : NDArray Val} (hx : ∀ f, v.ix.map f = x → ix.map f = x') : ArrayAt h b ⟨v.buf, ix, v.dtype⟩ x' d := by
  obtain ⟨f, h1, h2⟩ := ha.data
  exact ⟨ha.lo, ha.hi, ha.dtype, f, h1, hx f h2⟩

end runs

/-! ## Methods -/

/-- The method returns a larry with value `z`, all of it new, and leaves the rest alone. -/
def Makes (h : Heap L) (m : HM L Nat) (z : Larry L) : Prop :=
  ∃ q h', Run h m q h' ∧ Ext h.next h h' ∧ ∃ o, ObjAt h' h.next q o z

/-- The method does on references what `r` says on values. -/
def Refines (h : Heap L) (m : HM L Nat) : Res (Larry L) → Prop
  | .ok z => Makes h m z
  | .error e => m.out h = .error e

section methods
variable {h : Heap L} {p : Nat} {o : Obj} {y : Larry L} {b : Nat}

/-- The end of many methods: new labels, a new array, a new larry. -/
theorem build_run {h0 : Heap L} {label : Nat} {ls : List (List L)} (e : Ext h0.next h0 h) (hl : LabelAt h h0.next label ls)
    (x : NDArray Val) (d : DType) :
    ∃ q h', Run h (do let v ← newArray x d; newLarry v label) q h' ∧ Ext h0.next h0 h' ∧
      ∃ o, ObjAt h' h0.next q o ⟨x, d, ls⟩ := by
  obtain ⟨v, h1, r1, e1, ha⟩ := newArray_run (h := h) x d
  have e01 := e.trans e1 e.le
  have ha' : ArrayAt h1 h0.next v x d := ha.ext Ext.refl e.le
  obtain ⟨q, h2, r2, e2, ho⟩ := newLarry_run ha' (hl.ext e1) e01.le
  exact ⟨q, h2, Run.bind r1 r2, e01.trans e2 e01.le, _, ho⟩

theorem hCopy_makes (ho : ObjAt h b p o y) : Makes h (hCopy p) y := by
  obtain ⟨label, h1, r1, e1, hl⟩ := copylabel_run (h := h) ho.label
  obtain ⟨q, h2, r2, e2, o2, ho2⟩ := build_run e1 hl (h1.array o.x) o.x.dtype
  refine ⟨q, h2, Run.bind (Run.getObj ho.cell) (Run.bind r1 (Run.bind Run.look r2)), e2, o2, ?_⟩
  rw [(ho.ext e1).array.get, ho.array.dtype] at ho2
  exact ho2

theorem hUnary_refines (f : Larry L → Res (NDArray Val × DType)) (ho : ObjAt h b p o y) :
    Refines h (hUnary f p) (match f y with | .error e => .error e | .ok r => .ok ⟨r.1, r.2, y.label⟩) := by
  cases hf : f y with
  | error e =>
    refine Run.raises (Run.getObj ho.cell) (Run.raises Run.look (HM.raises_left ?_))
    rw [ho.value]
    exact hf
  | ok r =>
    obtain ⟨label, h1, r1, e1, hl⟩ := copylabel_run (h := h) ho.label
    obtain ⟨q, h2, r2, e2, o2, ho2⟩ := build_run e1 hl r.1 r.2
    refine ⟨q, h2, Run.bind (Run.getObj ho.cell) (Run.bind Run.look (Run.bind (Run.lift ?_) (Run.bind r1 r2))), e2, o2, ho2⟩
    rw [ho.value]
    exact hf

theorem Ext.weaken {b b' : Nat} {h h' : Heap L} (e : Ext b h h') (hb : b' ≤ b) : Ext b' h h' :=
  ⟨e.le, fun a ha => e.same a (by omega)⟩

/-- A new array for a larry. -/
theorem newX_run {q : Nat} {z : Larry L} (ho : ObjAt h b q o z) (hb : b ≤ h.next) (x : NDArray Val) (d : DType) :
    ∃ v h1 h2, Run h (newArray x d) v h1 ∧ Run h1 (setX q v) () h2 ∧ ExtBut q h h2 ∧
      ObjAt h2 b q ⟨v, o.label⟩ ⟨x, d, z.label⟩ := by
  obtain ⟨v, h1, r1, e1, ha⟩ := newArray_run (h := h) x d
  obtain ⟨h2, r2, e2, ho2⟩ := setX_run (ho.ext e1) (ha.ext Ext.refl hb)
  refine ⟨v, h1, h2, r1, r2, ⟨e1.le.trans e2.le, fun a ha hne => ?_⟩, ho2⟩
  rw [e2.same a (lt_of_lt_of_le ha e1.le) hne, e1.same a ha]

theorem hCopyAssign_refines (f : Larry L → Res (NDArray Val × DType)) (ho : ObjAt h b p o y) :
    Refines h (hCopyAssign f p) (match f y with | .error e => .error e | .ok r => .ok ⟨r.1, r.2, y.label⟩) := by
  obtain ⟨q, h1, r1, e1, o1, ho1⟩ := hCopy_makes ho
  cases hf : f y with
  | error e =>
    refine Run.raises r1 (Run.raises (Run.valueOf ho1.cell) (HM.raises_left ?_))
    rw [ho1.value]
    exact hf
  | ok r =>
    obtain ⟨v, h2, h3, r2, r3, e3, ho3⟩ := newX_run ho1 e1.le r.1 r.2
    refine ⟨q, h3, Run.bind r1 (Run.bind (Run.valueOf ho1.cell) (Run.bind (Run.lift ?_)
      (Run.bind r2 (Run.bind r3 Run.pure)))), e1.trans (e3.ext ho1.lo e1.le) (le_refl _), _, ho3⟩
    rw [ho1.value]
    exact hf

theorem ListsAt.eraseIdx {as : List Nat} {ls : List (List L)} (hl : ListsAt h b as ls) (k : Nat) :
    ListsAt h b (as.eraseIdx k) (ls.eraseIdx k) := by
  unfold ListsAt at *
  induction hl generalizing k with
  | nil => exact List.Forall₂.nil
  | cons h1 h2 ih =>
    cases k with
    | zero => exact h2
    | succ n => exact List.Forall₂.cons h1 (ih n)

theorem hReduce_refines (f : Larry L → Res (NDArray Val × DType)) (axis : Int) (ho : ObjAt h b p o y) :
    Refines h (hReduce f axis p) (match f y with
      | .error e => .error e
      | .ok r => match pyPop y.label axis with
        | .error e => .error e
        | .ok ls => .ok ⟨r.1, r.2, ls⟩) := by
  cases hf : f y with
  | error e =>
    refine Run.raises (Run.getObj ho.cell) (Run.raises Run.look (HM.raises_left ?_))
    rw [ho.value]
    exact hf
  | ok r =>
    have hlift : (HM.lift (f (h.value o)) : HM L _).out h = .ok r := by rw [ho.value]; exact hf
    obtain ⟨label, h1, r1, e1, hl⟩ := copylabel_run (h := h) ho.label
    have hlen := hl.out.1.length
    unfold pyPop
    cases hi : pyIdx y.label.length axis with
    | none =>
      refine Run.raises (Run.getObj ho.cell) (Run.raises Run.look (Run.raises ⟨hlift, rfl⟩
        (Run.raises r1 (Run.raises Run.look (HM.raises_left ?_)))))
      change pyPop (h1.out label) axis = _
      unfold pyPop
      rw [hlen, hi]
    | some k =>
      obtain ⟨r2, e2, hl2⟩ := putOut_run hl (hl.out.1.eraseIdx k)
      obtain ⟨q, h3, r3, e3, o3, ho3⟩ := build_run (e1.trans (e2.ext hl.lo e1.le) (le_refl _)) hl2 r.1 r.2
      refine ⟨q, h3, Run.bind (Run.getObj ho.cell) (Run.bind Run.look (Run.bind ⟨hlift, rfl⟩ (Run.bind r1
        (Run.bind Run.look (Run.bind (Run.lift ?_) (Run.bind r2 r3)))))), e3, o3, ho3⟩
      unfold pyPop
      rw [hlen, hi]

theorem hEmpty_makes : Makes h (hEmpty : HM L Nat) Larry.emptyLarry := by
  have e0 : Ext h.next h (h.push (.lst [])) := Ext.push
  have hl0 : ListsAt (h.push (.lst [])) h.next [h.next] [([] : List L)] :=
    List.Forall₂.cons ⟨le_refl _, Nat.lt_succ_self _, by simp [Heap.push]⟩ List.Forall₂.nil
  obtain ⟨r1, e1, hl⟩ := allocOut_run hl0 e0.le
  obtain ⟨q, h3, r3, e3, o3, ho3⟩ := build_run (e0.trans e1 e0.le) hl (Larry.emptyLarry (L := L)).x .float
  exact ⟨q, h3, Run.bind Run.alloc (Run.bind r1 r3), e3, o3, ho3⟩

theorem hCopy_refines (ho : ObjAt h b p o y) : Refines h (hCopy p) (.ok y.copy) := hCopy_makes ho

/-- Chains of calls. -/
theorem Makes.andThen {m : HM L Nat} {z : Larry L} (hm : Makes h m z) {f : Nat → HM L Nat} {r : Res (Larry L)}
    (hf : ∀ q o' (h' : Heap L) b', ObjAt h' b' q o' z → Refines h' (f q) r) : Refines h (m >>= f) r := by
  obtain ⟨q, h1, r1, e1, o1, ho1⟩ := hm
  have := hf q o1 h1 _ ho1
  cases r with
  | error e => exact Run.raises r1 this
  | ok w =>
    obtain ⟨q2, h2, r2, e2, o2, ho2⟩ := this
    exact ⟨q2, h2, Run.bind r1 r2, e1.trans e2 e1.le, o2, ho2.weaken e1.le⟩

/-- As `Refines`, where the result may be made of what is there from `b` on. -/
def RefinesFrom (b : Nat) (h : Heap L) (m : HM L Nat) : Res (Larry L) → Prop
  | .ok z => ∃ q h', Run h m q h' ∧ Ext h.next h h' ∧ ∃ o, ObjAt h' b q o z
  | .error e => m.out h = .error e

theorem Refines.from_ {m : HM L Nat} {r : Res (Larry L)} (hm : Refines h m r) (hb : b ≤ h.next) : RefinesFrom b h m r := by
  cases r with
  | error e => exact hm
  | ok z =>
    obtain ⟨q, h1, r1, e1, o1, ho1⟩ := hm
    exact ⟨q, h1, r1, e1, o1, ho1.weaken hb⟩

theorem Refines.andThen {m : HM L Nat} {f : Nat → HM L Nat} {g : Larry L → Res (Larry L)}
    (hf : ∀ z q o' (h' : Heap L), h.next ≤ h'.next → ObjAt h' h.next q o' z → RefinesFrom h.next h' (f q) (g z))
    {r : Res (Larry L)} : Refines h m r → Refines h (m >>= f) (match r with | .error e => .error e | .ok z => g z) := by
  intro hm
  cases r with
  | error e => exact HM.raises_left hm
  | ok z =>
    obtain ⟨q, h1, r1, e1, o1, ho1⟩ := hm
    have := hf z q o1 h1 e1.le ho1
    dsimp only
    cases hr : g z with
    | error e => rw [hr] at this; exact Run.raises r1 this
    | ok w =>
      rw [hr] at this
      obtain ⟨q', h'', r2, e2, o2, ho2⟩ := this
      exact ⟨q', h'', Run.bind r1 r2, e1.trans e2 e1.le, o2, ho2⟩

theorem Refines.step {α : Type} {m : HM L α} {v : α} (r1 : Run h m v h) {f : α → HM L Nat} {r : Res (Larry L)}
    (hf : Refines h (f v) r) : Refines h (m >>= f) r := by
  cases r with
  | error e => exact Run.raises r1 hf
  | ok z =>
    obtain ⟨q, h', r2, e1, o1, ho1⟩ := hf
    exact ⟨q, h', Run.bind r1 r2, e1, o1, ho1⟩

/-- The method changes the larry at `q` and nothing below `b`; afterwards it has the value `r` says. -/
def Does (h : Heap L) (b q : Nat) (m : HM L Unit) : Res (Larry L) → Prop
  | .ok z => ∃ h' o, Run h m () h' ∧ Ext b h h' ∧ ObjAt h' b q o z
  | .error e => m.out h = .error e

/-- A copy changed in place and returned. -/
theorem Makes.change {m : HM L Nat} {z : Larry L} (hm : Makes h m z) {f : Nat → HM L Unit} {r : Res (Larry L)}
    (hf : ∀ q o' (h' : Heap L), ObjAt h' h.next q o' z → h.next ≤ h'.next → Does h' h.next q (f q) r) :
    Refines h (m >>= fun q => f q >>= fun _ => Pure.pure q) r := by
  obtain ⟨q, h1, r1, e1, o1, ho1⟩ := hm
  have := hf q o1 h1 ho1 e1.le
  cases r with
  | error e => exact Run.raises r1 (HM.raises_left this)
  | ok w =>
    obtain ⟨h2, o2, r2, e2, ho2⟩ := this
    exact ⟨q, h2, Run.bind r1 (Run.bind r2 Run.pure), e1.trans e2 (le_refl _), o2, ho2⟩

theorem Run.value {q : Nat} (ho : ObjAt h b q o y) : Run h (La.valueOf q) y h := by
  have := Run.valueOf ho.cell
  rw [ho.value] at this
  exact this

/-- `q.label[ax] = lab; q.x = view of q.x`. -/
theorem relabelView_run {q : Nat} {z : Larry L} (ho : ObjAt h b q o z) (hb : b ≤ h.next) (ax : Nat) (lab : List L)
    {ix : NDArray (List Nat)} {x' : NDArray Val} (hx : ∀ f, o.x.ix.map f = z.x → ix.map f = x') :
    ∃ h1 h2, Run h (setLab o.label ax lab) () h1 ∧ Run h1 (setX q ⟨o.x.buf, ix, o.x.dtype⟩) () h2 ∧ Ext b h h2 ∧
      ObjAt h2 b q ⟨⟨o.x.buf, ix, o.x.dtype⟩, o.label⟩ ⟨x', z.dtype, z.label.set ax lab⟩ := by
  obtain ⟨h1, r1, e1, hl⟩ := setLab_run ho.label hb ax lab
  have ho1 := ho.relabel e1 hl
  obtain ⟨h2, r2, e2, ho2⟩ := setX_run ho1 (ho1.array.view hx)
  exact ⟨h1, h2, r1, r2, (e1.ext ho.label.lo hb).trans (e2.ext ho.lo (hb.trans e1.le)) (le_refl _), ho2⟩

theorem sliceAx_map {α β : Type _} (a : NDArray α) (f : α → β) (s : PySlice) (ax : Nat) :
    (a.map f).sliceAx s ax = match a.sliceAx s ax with | .error e => .error e | .ok x => .ok (x.map f) := by
  unfold NDArray.sliceAx
  change (match sliceIndices (a.shape.getD ax 0) s with | .error e => _ | .ok ids => _) = _
  cases sliceIndices (a.shape.getD ax 0) s <;> rfl

theorem hFlipLoop_does {q : Nat} : ∀ (axs : List Int) (h : Heap L) (o : Obj) (z : Larry L), ObjAt h b q o z →
    b ≤ h.next → Does h b q (hFlipLoop axs q) (Larry.flipaxisLoop axs z)
  | [], h, o, z, ho, hb => ⟨h, o, Run.pure, Ext.refl, ho⟩
  | axis :: axs, h, o, z, ho, hb => by
    unfold Larry.flipaxisLoop
    have hv := ho.value
    cases hi : pyIdx z.label.length axis with
    | none =>
      refine Run.raises (Run.getObj ho.cell) (Run.raises Run.look (HM.raises_left ?_))
      change pyIdxE (h.value o).label.length axis = _
      rw [hv]; unfold pyIdxE; rw [hi]
    | some ax =>
      have hlift : (HM.lift (pyIdxE (h.value o).label.length axis) : HM L _).out h = .ok ax := by
        change pyIdxE (h.value o).label.length axis = _
        rw [hv]; unfold pyIdxE; rw [hi]
      dsimp only
      cases hs : pySliceList (z.label.getD ax []) ⟨none, none, some (-1)⟩ with
      | error e =>
        refine Run.raises (Run.getObj ho.cell) (Run.raises Run.look (Run.raises ⟨hlift, rfl⟩ (HM.raises_left ?_)))
        rw [hv]; exact hs
      | ok lab =>
        have hlift2 : (HM.lift (pySliceList ((h.value o).label.getD ax []) ⟨none, none, some (-1)⟩) : HM L _).out h = .ok lab := by
          rw [hv]; exact hs
        dsimp only
        have hx : z.x = o.x.ix.map (h.buf o.x.buf) := ho.array.get.symm
        cases hx2 : o.x.ix.sliceAx ⟨none, none, some (-1)⟩ ax with
        | error e =>
          rw [hx, sliceAx_map, hx2]
          obtain ⟨h1, h2, r1, _, _, _⟩ := relabelView_run (ix := o.x.ix) ho hb ax lab (fun f hf => hf)
          refine Run.raises (Run.getObj ho.cell) (Run.raises Run.look (Run.raises ⟨hlift, rfl⟩ (Run.raises ⟨hlift2, rfl⟩
            (Run.raises r1 (HM.raises_left ?_)))))
          exact hx2
        | ok ix =>
          have hz : z.x.sliceAx ⟨none, none, some (-1)⟩ ax = .ok (ix.map (h.buf o.x.buf)) := by rw [hx, sliceAx_map, hx2]
          rw [hz]
          dsimp only
          obtain ⟨h1, h2, r1, r2, e2, ho2⟩ := relabelView_run (ix := ix) (x' := ix.map (h.buf o.x.buf)) ho hb ax lab
            (fun f hf => by
              have := sliceAx_map o.x.ix f ⟨none, none, some (-1)⟩ ax
              rw [hf, hz, hx2] at this
              simpa using this.symm)
          have := hFlipLoop_does axs h2 _ _ ho2 (hb.trans e2.le)
          cases hr : Larry.flipaxisLoop axs ⟨ix.map (h.buf o.x.buf), z.dtype, z.label.set ax lab⟩ with
          | error e =>
            rw [hr] at this
            exact Run.raises (Run.getObj ho.cell) (Run.raises Run.look (Run.raises ⟨hlift, rfl⟩ (Run.raises ⟨hlift2, rfl⟩
              (Run.raises r1 (Run.raises (Run.lift hx2) (Run.raises r2 this))))))
          | ok w =>
            rw [hr] at this
            obtain ⟨h3, o3, r3, e3, ho3⟩ := this
            exact ⟨h3, o3, Run.bind (Run.getObj ho.cell) (Run.bind Run.look (Run.bind ⟨hlift, rfl⟩ (Run.bind ⟨hlift2, rfl⟩
              (Run.bind r1 (Run.bind (Run.lift hx2) (Run.bind r2 r3)))))), e2.trans e3 (le_refl _), ho3⟩

theorem hFlipaxis_refines (axis : Option Int) (ho : ObjAt h b p o y) :
    Refines h (hFlipaxis axis true p) (y.flipaxis axis) := by
  obtain ⟨q, h1, r1, e1, o1, ho1⟩ := hCopy_makes ho
  have hd := hFlipLoop_does (Larry.axesOf y.ndim axis) h1 o1 y ho1 e1.le
  have hv : Run h1 (valueOf q) y h1 := by
    have := Run.valueOf ho1.cell
    rw [ho1.value] at this
    exact this
  unfold Larry.flipaxis
  cases hr : Larry.flipaxisLoop (Larry.axesOf y.ndim axis) y with
  | error e => rw [hr] at hd; exact Run.raises r1 (Run.raises hv (HM.raises_left hd))
  | ok w =>
    rw [hr] at hd
    obtain ⟨h2, o2, r2, e2, ho2⟩ := hd
    exact ⟨q, h2, Run.bind r1 (Run.bind hv (Run.bind r2 Run.pure)), e1.trans e2 (le_refl _), o2, ho2⟩

theorem hLag_refines (nlag : Int) (axis : Option Int) (ho : ObjAt h b p o y) :
    Refines h (hLag nlag axis p) (y.lag nlag axis) := by
  unfold Larry.lag hLag
  cases axis with
  | none => rfl
  | some axis =>
    dsimp only
    obtain ⟨q, h1, r1, e1, o1, ho1⟩ := hCopy_makes ho
    by_cases hn : nlag = 0
    · rw [if_pos hn]
      refine ⟨q, h1, Run.bind r1 ?_, e1, o1, ho1⟩
      rw [if_pos hn]
      exact Run.pure
    rw [if_neg hn]
    have hv := ho1.value
    cases hi : pyIdx y.label.length axis with
    | none =>
      refine Run.raises r1 ?_
      rw [if_neg hn]
      refine Run.raises (Run.getObj ho1.cell) (Run.raises Run.look (HM.raises_left ?_))
      change pyIdxE (h1.value o1).label.length axis = _
      rw [hv]; unfold pyIdxE; rw [hi]
    | some ax =>
      have hlift : (HM.lift (pyIdxE (h1.value o1).label.length axis) : HM L _).out h1 = .ok ax := by
        change pyIdxE (h1.value o1).label.length axis = _
        rw [hv]; unfold pyIdxE; rw [hi]
      dsimp only
      cases hs : pySliceList (y.label.getD ax []) (Larry.lagSlices nlag).1 with
      | error e =>
        refine Run.raises r1 ?_
        rw [if_neg hn]
        refine Run.raises (Run.getObj ho1.cell) (Run.raises Run.look (Run.raises ⟨hlift, rfl⟩ (HM.raises_left ?_)))
        rw [hv]; exact hs
      | ok lab =>
        have hlift2 : (HM.lift (pySliceList ((h1.value o1).label.getD ax []) (Larry.lagSlices nlag).1) : HM L _).out h1 = .ok lab := by
          rw [hv]; exact hs
        dsimp only
        have hx : y.x = o1.x.ix.map (h1.buf o1.x.buf) := ho1.array.get.symm
        cases hx2 : o1.x.ix.sliceAx (Larry.lagSlices nlag).2 ax with
        | error e =>
          rw [hx, sliceAx_map, hx2]
          obtain ⟨h2, h3, r2, _, _, _⟩ := relabelView_run (ix := o1.x.ix) ho1 e1.le ax lab (fun f hf => hf)
          refine Run.raises r1 ?_
          rw [if_neg hn]
          exact Run.raises (Run.getObj ho1.cell) (Run.raises Run.look (Run.raises ⟨hlift, rfl⟩ (Run.raises ⟨hlift2, rfl⟩
            (Run.raises r2 (HM.raises_left hx2)))))
        | ok ix =>
          have hz : y.x.sliceAx (Larry.lagSlices nlag).2 ax = .ok (ix.map (h1.buf o1.x.buf)) := by rw [hx, sliceAx_map, hx2]
          rw [hz]
          obtain ⟨h2, h3, r2, r3, e3, ho3⟩ := relabelView_run (ix := ix) (x' := ix.map (h1.buf o1.x.buf)) ho1 e1.le ax lab
            (fun f hf => by
              have := sliceAx_map o1.x.ix f (Larry.lagSlices nlag).2 ax
              rw [hf, hz, hx2] at this
              simpa using this.symm)
          refine ⟨q, h3, Run.bind r1 ?_, e1.trans e3 (le_refl _), _, ho3⟩
          rw [if_neg hn]
          exact Run.bind (Run.getObj ho1.cell) (Run.bind Run.look (Run.bind ⟨hlift, rfl⟩ (Run.bind ⟨hlift2, rfl⟩
              (Run.bind r2 (Run.bind (Run.lift hx2) (Run.bind r3 Run.pure))))))

theorem ListsAt.reverse {as : List Nat} {ls : List (List L)} (hl : ListsAt h b as ls) :
    ListsAt h b as.reverse ls.reverse := List.rel_reverse hl

theorem hT_refines (ho : ObjAt h b p o y) : Refines h (hT p) (.ok y.T) := by
  obtain ⟨q, h1, r1, e1, o1, ho1⟩ := hCopy_makes ho
  obtain ⟨h2, r2, e2, ho2⟩ := setX_run ho1 (ho1.array.view (ix := o1.x.ix.transpose) (x' := y.x.transpose)
    (fun f hf => by rw [← hf]; rfl))
  obtain ⟨r3, e3, hl3⟩ := allocOut_run ho2.label.out.1.reverse (e1.le.trans e2.le)
  obtain ⟨h4, r4, e4, ho4⟩ := setLabel_run (ho2.ext e3) hl3
  have e12 := e1.trans (e2.ext ho1.lo e1.le) (le_refl _)
  have e13 := e12.trans e3 e12.le
  exact ⟨q, h4, Run.bind r1 (Run.bind (Run.getObj ho1.cell) (Run.bind r2 (Run.bind Run.look (Run.bind r3
    (Run.bind r4 Run.pure))))), e13.trans (e4.ext ho1.lo e13.le) (le_refl _), _, ho4⟩

theorem ListsAt.getElem? {as : List Nat} {ls : List (List L)} (hl : ListsAt h b as ls) (i : Nat) :
    (as[i]? = none ∧ ls[i]? = none) ∨
      ∃ a l, as[i]? = some a ∧ ls[i]? = some l ∧ b ≤ a ∧ a < h.next ∧ h.cell a = some (.lst l) := by
  unfold ListsAt at hl
  induction hl generalizing i with
  | nil => simp
  | cons h1 h2 ih =>
    cases i with
    | zero => exact Or.inr ⟨_, _, rfl, rfl, h1⟩
    | succ n => simpa using ih n

theorem ListsAt.swapList {as : List Nat} {ls : List (List L)} (hl : ListsAt h b as ls) (i j : Nat) :
    ListsAt h b (swapList as i j) (swapList ls i j) := by
  unfold La.swapList
  rcases hl.getElem? i with ⟨h1, h2⟩ | ⟨a, l, h1, h2, ha⟩
  · rw [h1, h2]; exact hl
  rcases hl.getElem? j with ⟨h3, h4⟩ | ⟨a', l', h3, h4, ha'⟩
  · rw [h1, h2, h3, h4]; exact hl
  · rw [h1, h2, h3, h4]
    exact (hl.set ha' i).set ha j

theorem hSwapaxes_refines (axis1 axis2 : Int) (ho : ObjAt h b p o y) :
    Refines h (hSwapaxes axis1 axis2 p) (y.swapaxes axis1 axis2) := by
  obtain ⟨q, h1, r1, e1, o1, ho1⟩ := hCopy_makes ho
  have hlen := ho1.label.out.1.length
  unfold Larry.swapaxes
  cases hi : pyIdx y.label.length axis1 with
  | none =>
    refine Run.raises r1 (Run.raises (Run.getObj ho1.cell) (Run.raises Run.look (HM.raises_left ?_)))
    change pyIdxE _ _ = _
    rw [hlen]; unfold pyIdxE; rw [hi]
  | some i =>
    have hl1 : (HM.lift (pyIdxE (h1.out o1.label).length axis1) : HM L _).out h1 = .ok i := by
      change pyIdxE _ _ = _
      rw [hlen]; unfold pyIdxE; rw [hi]
    cases hj : pyIdx y.label.length axis2 with
    | none =>
      refine Run.raises r1 (Run.raises (Run.getObj ho1.cell) (Run.raises Run.look (Run.raises ⟨hl1, rfl⟩ (HM.raises_left ?_))))
      change pyIdxE _ _ = _
      rw [hlen]; unfold pyIdxE; rw [hj]
    | some j =>
      have hl2 : (HM.lift (pyIdxE (h1.out o1.label).length axis2) : HM L _).out h1 = .ok j := by
        change pyIdxE _ _ = _
        rw [hlen]; unfold pyIdxE; rw [hj]
      obtain ⟨r2, e2, hl⟩ := putOut_run ho1.label (ho1.label.out.1.swapList i j)
      have ho2 := ho1.relabel e2 hl
      obtain ⟨h3, r3, e3, ho3⟩ := setX_run ho2 (ho2.array.view (ix := o1.x.ix.swapaxes i j) (x' := y.x.swapaxes i j)
        (fun f hf => by
          have : o1.x.ix.map f = y.x := hf
          rw [← this]; rfl))
      have e12 := e1.trans (e2.ext ho1.label.lo e1.le) (le_refl _)
      exact ⟨q, h3, Run.bind r1 (Run.bind (Run.getObj ho1.cell) (Run.bind Run.look (Run.bind ⟨hl1, rfl⟩ (Run.bind ⟨hl2, rfl⟩
        (Run.bind r2 (Run.bind r3 Run.pure)))))), e12.trans (e3.ext ho1.lo e12.le) (le_refl _), _, ho3⟩

/-- The label lists after the loop of `maplabel`. -/
def mapLoop (f : L → L) : List Nat → List (List L) → List (List L)
  | [], ls => ls
  | ax :: axs, ls => mapLoop f axs (ls.set ax ((ls.getD ax []).map f))

theorem hMapLoop_run (f : L → L) {q : Nat} : ∀ (axs : List Nat) (h : Heap L) (z : Larry L), ObjAt h b q o z →
    b ≤ h.next → ∃ h', Run h (hMapLoop f o.label axs) () h' ∧ Ext b h h' ∧
      ObjAt h' b q o ⟨z.x, z.dtype, mapLoop f axs z.label⟩
  | [], h, z, ho, hb => ⟨h, Run.pure, Ext.refl, ho⟩
  | ax :: axs, h, z, ho, hb => by
    obtain ⟨h1, r1, e1, hl⟩ := setLab_run ho.label hb ax ((z.label.getD ax []).map f)
    have ho1 := ho.relabel e1 hl
    have e1' := e1.ext ho.label.lo hb
    obtain ⟨h2, r2, e2, ho2⟩ := hMapLoop_run f axs h1 _ ho1 (hb.trans e1.le)
    refine ⟨h2, Run.bind Run.look (Run.bind (v := ()) ?_ r2), e1'.trans e2 (le_refl _), ho2⟩
    rw [ho.label.get]
    exact r1

theorem mapLoop_append (f : L → L) : ∀ (as bs : List Nat) (ls : List (List L)),
    mapLoop f (as ++ bs) ls = mapLoop f bs (mapLoop f as ls)
  | [], bs, ls => rfl
  | a :: as, bs, ls => by rw [List.cons_append, mapLoop, mapLoop, mapLoop_append f as bs]

theorem mapLoop_range (f : L → L) (ls : List (List L)) : ∀ n ≤ ls.length,
    mapLoop f (List.range n) ls = (ls.take n).map (List.map f) ++ ls.drop n
  | 0, _ => rfl
  | n + 1, hn => by
    rw [List.range_succ, mapLoop_append, mapLoop_range f ls n (by omega)]
    have hlt : n < ls.length := by omega
    have hlen : ((ls.take n).map (List.map f)).length = n := by simp; omega
    have hd := List.drop_eq_getElem_cons hlt
    rw [mapLoop, mapLoop, List.set_append_right _ _ (by omega), hlen, Nat.sub_self]
    rw [List.getD_eq_getElem?_getD, List.getElem?_append_right (by omega), hlen, Nat.sub_self]
    rw [List.take_add_one, List.getElem?_eq_getElem hlt, hd]
    simp only [List.getElem?_cons_zero, Option.getD_some, List.set_cons_zero, Option.toList_some, List.map_append,
      List.map_cons, List.map_nil, List.append_assoc, List.cons_append, List.nil_append]

theorem hMaplabel_refines (f : L → L) (axis : Option Int) (ho : ObjAt h b p o y) :
    Refines h (hMaplabel f axis true p) (y.maplabel f axis) := by
  obtain ⟨q, h1, r1, e1, o1, ho1⟩ := hCopy_makes ho
  have hlen := ho1.label.out.1.length
  unfold Larry.maplabel
  cases axis with
  | none =>
    obtain ⟨h2, r2, e2, ho2⟩ := hMapLoop_run f (List.range y.label.length) h1 y ho1 e1.le
    rw [mapLoop_range f y.label _ (le_refl _), List.take_length, List.drop_length, List.append_nil] at ho2
    refine ⟨q, h2, Run.bind r1 (Run.bind (Run.getObj ho1.cell) (Run.bind Run.look ?_)), e1.trans e2 (le_refl _), _, ho2⟩
    dsimp only
    rw [hlen]
    exact Run.bind r2 Run.pure
  | some axis =>
    dsimp only
    cases hi : pyIdx y.label.length axis with
    | none =>
      refine Run.raises r1 (Run.raises (Run.getObj ho1.cell) (Run.raises Run.look (HM.raises_left ?_)))
      change pyIdxE _ _ = _
      rw [hlen]; unfold pyIdxE; rw [hi]
    | some ax =>
      have hl1 : (HM.lift (pyIdxE (h1.out o1.label).length axis) : HM L _).out h1 = .ok ax := by
        change pyIdxE _ _ = _
        rw [hlen]; unfold pyIdxE; rw [hi]
      obtain ⟨h2, r2, e2, ho2⟩ := hMapLoop_run f [ax] h1 y ho1 e1.le
      exact ⟨q, h2, Run.bind r1 (Run.bind (Run.getObj ho1.cell) (Run.bind Run.look (Run.bind ⟨hl1, rfl⟩
        (Run.bind r2 Run.pure)))), e1.trans e2 (le_refl _), _, ho2⟩

/-! ### vacuum, cut_missing, insertaxis, arithmetic -/

theorem hKeepLists_run (w : Larry L) (alone : Nat → Bool) : ∀ (as : List Nat) (ids : List (List Nat)) (ls : List (List L))
    (k : Nat) (h : Heap L), ListsAt h b as ls → b ≤ h.next → as.length = ids.length →
    (∀ (i : Nat) l is, ls[i]? = some l → ids[i]? = some is → alone (k + i) = true → w.keptLab (k + i) is = l) →
    ∃ bs h', Run h (hKeepLists w alone (as.zip (ids.zipIdx k))) bs h' ∧ Ext h.next h h' ∧
      ListsAt h' b bs ((ids.zipIdx k).map (fun c => w.keptLab c.2 c.1))
  | [], [], ls, k, h, hl, hb, hlen, hk => ⟨[], h, Run.pure, Ext.refl, List.Forall₂.nil⟩
  | [], _ :: _, ls, k, h, hl, hb, hlen, hk => by simp at hlen
  | _ :: _, [], ls, k, h, hl, hb, hlen, hk => by simp at hlen
  | a :: as, is :: ids, [], k, h, hl, hb, hlen, hk => by cases hl
  | a :: as, is :: ids, l :: ls, k, h, hl, hb, hlen, hk => by
    cases hl with
    | cons ha hl =>
      have hk' : ∀ (i : Nat) l is, ls[i]? = some l → ids[i]? = some is → alone (k + 1 + i) = true →
          w.keptLab (k + 1 + i) is = l := by
        intro i l is h1 h2 h3
        have := hk (i + 1) l is (by simpa using h1) (by simpa using h2) (by rw [← Nat.add_assoc, Nat.add_right_comm]; exact h3)
        rw [← Nat.add_assoc, Nat.add_right_comm] at this
        exact this
      have hlen' : as.length = ids.length := by simpa using hlen
      cases hal : alone k with
      | true =>
        obtain ⟨bs, h1, r1, e1, hl1⟩ := hKeepLists_run w alone as ids ls (k + 1) h hl hb hlen' hk'
        refine ⟨a :: bs, h1, ?_, e1, List.Forall₂.cons ?_ hl1⟩
        · refine Run.bind (v := a) ?_ (Run.bind r1 Run.pure)
          simp only [hal]
          exact Run.pure
        · refine ⟨ha.1, lt_of_lt_of_le ha.2.1 e1.le, ?_⟩
          rw [e1.same _ ha.2.1, ha.2.2]
          have := hk 0 l is rfl rfl hal
          rw [Nat.add_zero] at this
          simp only [this]
      | false =>
        have e0 : Ext h.next h (h.push (.lst (w.keptLab k is))) := Ext.push
        obtain ⟨bs, h1, r1, e1, hl1⟩ := hKeepLists_run w alone as ids ls (k + 1) _ (ListsAt.ext hl e0) (hb.trans e0.le) hlen' hk'
        refine ⟨h.next :: bs, h1, ?_, e0.trans e1 e0.le, List.Forall₂.cons ?_ hl1⟩
        · refine Run.bind (v := h.next) ?_ (Run.bind r1 Run.pure)
          simp only [hal]
          exact Run.alloc
        · refine ⟨hb, lt_of_lt_of_le (Nat.lt_succ_self _) e1.le, ?_⟩
          rw [e1.same _ (Nat.lt_succ_self _)]
          simp [Heap.push]

theorem hKeepRows_run {q : Nat} {z : Larry L} (ho : ObjAt h b q o z) (hb : b ≤ h.next) (alone : Nat → Bool)
    (ids : List (List Nat)) (hlen : z.label.length = ids.length)
    (hk : ∀ (i : Nat) l is, z.label[i]? = some l → ids[i]? = some is → alone i = true → z.keptLab i is = l) :
    ∃ h' o', Run h (hKeepRows alone ids q) () h' ∧ Ext b h h' ∧
      ObjAt h' b q o' ⟨z.x.grid ids, z.dtype, ids.zipIdx.map (fun c => z.keptLab c.2 c.1)⟩ := by
  have hl := ho.label.out.1
  obtain ⟨bs, h1, r1, e1, hl1⟩ := hKeepLists_run z alone (h.out o.label) ids z.label 0 h hl hb
    (hl.length.trans hlen) (fun i l is h1 h2 h3 => by
      rw [Nat.zero_add] at h3 ⊢
      exact hk i l is h1 h2 h3)
  obtain ⟨v, h2, h3, r2, r3, e3, ho3⟩ := newX_run (ho.ext e1) (hb.trans e1.le) (z.x.grid ids) z.dtype
  have hc1 : h1.cell q = some (.obj o) := (ho.ext e1).cell
  have hl3 : ListsAt h3 b bs (ids.zipIdx.map (fun c => z.keptLab c.2 c.1)) := hl1.pres (le_refl _) e3.le
    (fun a l ha hal => by rw [e3.same _ ha (fun hn => by rw [hn, hc1] at hal; simp at hal), hal])
  have e03 : Ext b h h3 := (e1.weaken hb).trans (e3.ext ho.lo (hb.trans e1.le)) (le_refl _)
  have hb3 : b ≤ h3.next := hb.trans e03.le
  obtain ⟨r4, e4, hl4⟩ := allocOut_run hl3 hb3
  obtain ⟨h5, r5, e5, ho5⟩ := setLabel_run (ho3.ext e4) hl4
  have e04 : Ext b h _ := e03.trans e4 hb3
  have hv := ho.value
  refine ⟨h5, _, Run.bind (Run.getObj ho.cell) (Run.bind Run.look (Run.bind Run.look ?_)),
    e04.trans (e5.ext ho.lo (hb3.trans e4.le)) (le_refl _), ho5⟩
  rw [hv]
  exact Run.bind r1 (Run.bind r2 (Run.bind r3 (Run.bind r4 r5)))

/-- The labels match the shape. -/
def Larry.Fits (y : Larry L) : Prop := y.label.map List.length = y.shape

theorem filterMap_range {α : Type _} (l : List α) : (List.range l.length).filterMap (fun i => l[i]?) = l := by
  rw [List.range_eq_range', ← List.zipIdx_map_snd 0 l, List.filterMap_map]
  conv => rhs; rw [← List.zipIdx_map_fst 0 l]
  rw [← List.filterMap_eq_map]
  refine List.filterMap_congr (fun c hc => ?_)
  have := List.mem_zipIdx_iff_getElem?.mp hc
  simpa using this

theorem Larry.Fits.kept (hf : y.Fits) {i : Nat} {l : List L} (hl : y.label[i]? = some l) :
    y.keptLab i (List.range (y.shape.getD i 0)) = l := by
  unfold Larry.keptLab
  have h1 : y.label.getD i [] = l := by simp [hl]
  have h2 : y.shape.getD i 0 = l.length := by
    rw [← hf]
    simp [hl]
  rw [h1, h2]
  exact filterMap_range l

theorem hKeepRows_does {q : Nat} {z : Larry L} (ho : ObjAt h b q o z) (hb : b ≤ h.next) (hf : z.Fits) (alone : Nat → Bool)
    {g : Nat → Res (List Nat)} (hg : ∀ i, alone i = true → g i = .ok (List.range (z.shape.getD i 0)))
    {ids : List (List Nat)} (hids : mapRes g (List.range z.ndim) = .ok ids) :
    ∃ h' o', Run h (hKeepRows alone ids q) () h' ∧ Ext b h h' ∧
      ObjAt h' b q o' ⟨z.x.grid ids, z.dtype, ids.zipIdx.map (fun c => z.keptLab c.2 c.1)⟩ := by
  have hf2 := mapRes_ok.mp hids
  have hlen : z.label.length = ids.length := by
    have h1 := congrArg List.length hf
    have h2 := hf2.length_eq
    simp only [List.length_map, List.length_range] at h1 h2
    rw [h1, ← h2]
    rfl
  refine hKeepRows_run ho hb alone ids hlen (fun i l is h1 h2 h3 => ?_)
  obtain ⟨hi, h4⟩ := List.getElem?_eq_some_iff.mp h2
  have h5 := (List.forall₂_iff_get.mp hf2).2 i (by have := hf2.length_eq; omega) hi
  simp only [List.get_eq_getElem, List.getElem_range, h4] at h5
  rw [hg i h3] at h5
  cases h5
  exact hf.kept h1

theorem hVacuum_refines (axis : Option (List Int)) (ho : ObjAt h b p o y) (hf : y.Fits) :
    Refines h (hVacuum axis p) (y.vacuum axis) := by
  obtain ⟨q, h1, r1, e1, o1, ho1⟩ := hCopy_makes ho
  unfold Larry.vacuum
  cases hm : mapRes (y.vacuumAxis (Larry.vacuumAxes y.ndim axis)) (List.range y.ndim) with
  | error e => exact Run.raises r1 (Run.raises (Run.value ho1) (HM.raises_left hm))
  | ok ids =>
    obtain ⟨h2, o2, r2, e2, ho2⟩ := hKeepRows_does ho1 e1.le hf
      (fun ax => decide (ax ∉ Larry.vacuumAxes y.ndim axis)) (g := y.vacuumAxis (Larry.vacuumAxes y.ndim axis))
      (fun i hi => by
        unfold Larry.vacuumAxis
        rw [if_pos (of_decide_eq_true hi)]) hm
    exact ⟨q, h2, Run.bind r1 (Run.bind (Run.value ho1) (Run.bind (Run.lift hm) (Run.bind r2 Run.pure))),
      e1.trans e2 (le_refl _), o2, ho2⟩

theorem hCutMissing_refines (fraction : ℚ) (axis : Option Int) (ho : ObjAt h b p o y) (hf : y.Fits) :
    Refines h (hCutMissing fraction axis p) (y.cutMissing fraction axis) := by
  obtain ⟨q, h1, r1, e1, o1, ho1⟩ := hCopy_makes ho
  unfold Larry.cutMissing
  cases ha : Larry.cutAxes y.ndim axis with
  | error e => exact Run.raises r1 (Run.raises (Run.value ho1) (HM.raises_left ha))
  | ok axes =>
    dsimp only
    cases hm : mapRes (y.cutAxis fraction axes) (List.range y.ndim) with
    | error e => exact Run.raises r1 (Run.raises (Run.value ho1) (Run.raises (Run.lift ha) (HM.raises_left hm)))
    | ok ids =>
      obtain ⟨h2, o2, r2, e2, ho2⟩ := hKeepRows_does ho1 e1.le hf
        (fun ax => decide (ax ∈ axes)) (g := y.cutAxis fraction axes)
        (fun i hi => by
          unfold Larry.cutAxis
          rw [if_pos (of_decide_eq_true hi)]) hm
      have e02 := e1.trans e2 (le_refl _)
      dsimp only
      by_cases hs : (y.x.grid ids).size = 0
      · rw [if_pos hs]
        obtain ⟨q3, h3, r3, e3, o3, ho3⟩ := hEmpty_makes (h := h2)
        refine ⟨q3, h3, Run.bind r1 (Run.bind (Run.value ho1) (Run.bind (Run.lift ha) (Run.bind (Run.lift hm)
          (Run.bind r2 ?_)))), e02.trans e3 e02.le, o3, ho3.weaken e02.le⟩
        rw [if_pos hs]
        exact r3
      · rw [if_neg hs]
        refine ⟨q, h2, Run.bind r1 (Run.bind (Run.value ho1) (Run.bind (Run.lift ha) (Run.bind (Run.lift hm)
          (Run.bind r2 ?_)))), e02, o2, ho2⟩
        rw [if_neg hs]
        exact Run.pure

theorem ListsAt.pyInsert {as : List Nat} {ls : List (List L)} (hl : ListsAt h b as ls) {a : Nat} {l : List L}
    (ha : b ≤ a ∧ a < h.next ∧ h.cell a = some (.lst l)) (i : Int) :
    ListsAt h b (pyInsert as i a) (pyInsert ls i l) := by
  unfold La.pyInsert
  rw [hl.length]
  exact List.rel_append (List.forall₂_take _ hl) (List.Forall₂.cons ha (List.forall₂_drop _ hl))

theorem putOut_run' {label : Nat} {ls ls' : List (List L)} {as : List Nat} (hl : LabelAt h b label ls)
    (hl' : ListsAt h b as ls') : ∃ h', Run h (put label (.out as)) () h' ∧ ExtBut label h h' ∧ LabelAt h' b label ls' :=
  ⟨_, putOut_run hl hl'⟩

theorem mk'_eq [DecidableEq L] {x : NDArray Val} {d : DType} {ls : List (List L)} {z : Larry L}
    (hm : Larry.mk' x d ls = .ok z) : z = ⟨x, d, ls⟩ := by
  unfold Larry.mk' at hm
  split at hm
  · simp at hm
  split at hm
  · simp at hm
  split at hm
  · simp at hm
  · cases hm; rfl

theorem hInsertaxis_refines [DecidableEq L] (axis : Option Int) (name : L) (ho : ObjAt h b p o y) :
    Refines h (hInsertaxis axis name p) (y.insertaxis axis name) := by
  unfold hInsertaxis Larry.insertaxis
  cases axis with
  | none => rfl
  | some axis =>
    refine Refines.step (Run.getObj ho.cell) (Refines.step Run.look ?_)
    dsimp only
    rw [ho.value]
    obtain ⟨v, h1, r1, e1, ha⟩ := newArray_run (h := h) y.x y.dtype
    obtain ⟨label, h2, r2, e2, hl2⟩ := copylabel_run (ho.label.ext e1)
    have e02 := e1.trans e2 e1.le
    have e3 : Ext h2.next h2 (h2.push (.lst [name])) := Ext.push
    have hl3 := hl2.ext e3
    have hlen : (h2.out label).length = y.label.length := hl2.out.1.length
    have hins := fun k => ((hl2.out.1.ext e3).weaken e1.le).pyInsert (a := h2.next) (l := [name])
      ⟨e02.le, Nat.lt_succ_self _, by simp [Heap.push]⟩ k
    have hk : ∀ k, k = (if axis = -1 then (y.label.length : Int) else if axis < -1 then axis + 1 else axis) →
        Refines h (do
          let v ← newArray y.x y.dtype
          let label ← copylabel o
          let as ← HM.look (fun h => h.out label)
          let ax : Int := if axis = -1 then as.length else if axis < -1 then axis + 1 else axis
          let a ← alloc (.lst [name])
          put label (.out (La.pyInsert as ax a))
          let v : View := ⟨v.buf, v.ix.expandDims axis, v.dtype⟩
          let z ← HM.look (fun h => h.value ⟨v, label⟩)
          let _ ← HM.lift (Larry.mk' z.x z.dtype z.label)
          newLarry v label) (Larry.mk' (y.x.expandDims axis) y.dtype (La.pyInsert y.label k [name])) := by
      intro k hk
      obtain ⟨h4, r4, e4, hl4⟩ := putOut_run' (hl3.ext Ext.refl e1.le) (hins k)
      have e03 := e02.trans e3 e02.le
      have e04 := e03.trans (e4.ext (e1.le.trans hl2.lo) e03.le) (le_refl _)
      have ha4 : ArrayAt h4 h.next v y.x y.dtype :=
        ((ha.ext e2).ext e3).pres (le_refl _) e4.le (fun f hf => by
          rw [e4.same _ ((ha.ext e2).ext e3).hi (fun hn => by rw [hn, hl3.out.2] at hf; simp at hf), hf])
      have hav := ha4.view (ix := v.ix.expandDims axis) (x' := y.x.expandDims axis) (fun f hf => by rw [← hf]; rfl)
      obtain ⟨q, h5, r5, e5, ho5⟩ := newLarry_run hav hl4 e04.le
      have hval : h4.value ⟨⟨v.buf, v.ix.expandDims axis, v.dtype⟩, label⟩ =
          ⟨y.x.expandDims axis, y.dtype, La.pyInsert y.label k [name]⟩ := by
        unfold Heap.value
        rw [hav.get, hl4.get, ← hav.dtype]
      cases hm : Larry.mk' (y.x.expandDims axis) y.dtype (La.pyInsert y.label k [name]) with
      | error e =>
        refine Run.raises r1 (Run.raises r2 (Run.raises Run.look (Run.raises Run.alloc ?_)))
        dsimp only
        rw [hlen, ← hk]
        refine Run.raises r4 (Run.raises Run.look (HM.raises_left ?_))
        rw [hval]
        exact hm
      | ok z =>
        rw [mk'_eq hm]
        refine ⟨q, h5, Run.bind r1 (Run.bind r2 (Run.bind Run.look (Run.bind Run.alloc ?_))), e04.trans e5 e04.le, _, ho5⟩
        dsimp only
        rw [hlen, ← hk]
        refine Run.bind r4 (Run.bind Run.look (Run.bind (Run.lift (v := z) ?_) r5))
        rw [hval]
        exact hm
    exact hk _ rfl

section order
variable [LinearOrder L]

theorem morph_label {lab : List L} {axis : Int} {z : Larry L} (hz : y.morph lab axis = .ok z) :
    ∃ ax, pyIdx y.label.length axis = some ax ∧ ((y.label.getD ax [] = lab ∧ z = y) ∨
      (y.label.getD ax [] ≠ lab ∧ z.label = y.label.set ax lab)) := by
  unfold Larry.morph at hz
  split at hz
  · simp at hz
  cases hi : pyIdx y.label.length axis with
  | none => rw [hi] at hz; simp at hz
  | some ax =>
    rw [hi] at hz
    dsimp only at hz
    refine ⟨ax, rfl, ?_⟩
    split at hz
    · rename_i he
      cases hz
      exact Or.inl ⟨he, rfl⟩
    · rename_i he
      right
      refine ⟨he, ?_⟩
      split at hz
      · simp at hz
      · split at hz
        · simp at hz
        · cases hz
          rfl

theorem hMorph_refines (lab : List L) (axis : Int) (ho : ObjAt h b p o y) :
    Refines h (hMorph lab axis p) (y.morph lab axis) := by
  cases hz : y.morph lab axis with
  | error e =>
    refine Run.raises (Run.getObj ho.cell) (Run.raises Run.look (HM.raises_left ?_))
    rw [ho.value]
    exact hz
  | ok z =>
    have hlift : (HM.lift ((h.value o).morph lab axis) : HM L _).out h = .ok z := by rw [ho.value]; exact hz
    obtain ⟨ax, hi, hcase⟩ := morph_label hz
    have hax : (pyIdx (h.value o).label.length axis).getD 0 = ax := by rw [ho.value, hi]; rfl
    rcases hcase with ⟨he, rfl⟩ | ⟨hne, hl⟩
    · obtain ⟨q, h1, r1, e1, o1, ho1⟩ := hCopy_makes ho
      refine ⟨q, h1, Run.bind (Run.getObj ho.cell) (Run.bind Run.look (Run.bind ⟨hlift, rfl⟩ ?_)), e1, o1, ho1⟩
      dsimp only
      rw [hax, ho.value, if_pos he]
      exact r1
    · obtain ⟨v, h1, r1, e1, ha⟩ := newArray_run (h := h) z.x z.dtype
      obtain ⟨label, h2, r2, e2, hl2⟩ := copylabel_run (ho.label.ext e1)
      have e02 := e1.trans e2 e1.le
      obtain ⟨h3, r3, e3, hl3⟩ := setLab_run (hl2.ext Ext.refl e1.le) e02.le ax lab
      have e03 := e02.trans (e3.ext (e1.le.trans hl2.lo) e02.le) (le_refl _)
      have ha3 : ArrayAt h3 h.next v z.x z.dtype := (ha.ext e2).pres (le_refl _) e3.le (fun f hf => by
        rw [e3.same _ (ha.ext e2).hi (fun hn => by rw [hn, hl2.out.2] at hf; simp at hf), hf])
      obtain ⟨q, h4, r4, e4, ho4⟩ := newLarry_run ha3 hl3 e03.le
      refine ⟨q, h4, Run.bind (Run.getObj ho.cell) (Run.bind Run.look (Run.bind ⟨hlift, rfl⟩ ?_)),
        e03.trans e4 e03.le, _, by rw [← hl] at ho4; exact ho4⟩
      dsimp only
      rw [hax, ho.value, if_neg hne]
      exact Run.bind r1 (Run.bind r2 (Run.bind r3 r4))

theorem hSortaxisLoop_refines (self : Larry L) (reverse : Bool) : ∀ (axs : List Int) (h : Heap L) (p : Nat) (o : Obj)
    (y : Larry L) (b : Nat), axs ≠ [] → ObjAt h b p o y →
      Refines h (hSortaxisLoop self reverse axs p) (Larry.sortaxisLoop self reverse axs y)
  | [], _, _, _, _, _, hne, _ => absurd rfl hne
  | ax :: axs, h, p, o, y, b, _, ho => by
    have tail : ∀ (z : Larry L) q o' (h' : Heap L), h.next ≤ h'.next → ObjAt h' h.next q o' z →
        RefinesFrom h.next h' (hSortaxisLoop self reverse axs q) (Larry.sortaxisLoop self reverse axs z) := by
      intro z q o' h' hle ho'
      by_cases hnil : axs = []
      · subst hnil
        exact ⟨q, h', Run.pure, Ext.refl, o', ho'⟩
      · exact (hSortaxisLoop_refines self reverse axs h' q o' z _ hnil ho').from_ hle
    unfold Larry.sortaxisLoop hSortaxisLoop
    cases hn : pyGet self.shape ax with
    | error e => exact HM.raises_left rfl
    | ok n =>
      refine Refines.step (Run.lift rfl) ?_
      dsimp only
      by_cases hgt : n > 1
      · rw [if_pos hgt, if_pos hgt]
        cases hl : pyGet self.label ax with
        | error e => exact HM.raises_left rfl
        | ok l =>
          refine Refines.step (Run.lift rfl) ?_
          exact Refines.andThen tail (hMorph_refines (Larry.sortedLab reverse l) ax ho)
      · rw [if_neg hgt, if_neg hgt]
        exact Refines.andThen tail (hCopy_refines ho)

/-- All axes of a 0d larry: the loop does nothing and the larry itself is returned. -/
theorem hSortaxis_refines (axis : Option Int) (reverse : Bool) (ho : ObjAt h b p o y)
    (hn : Larry.axesOf y.ndim axis ≠ []) : Refines h (hSortaxis axis reverse p) (y.sortaxis axis reverse) :=
  Refines.step (Run.value ho) (hSortaxisLoop_refines y reverse _ h p o y b hn ho)

theorem hMorphLoop_refines (lar : Larry L) : ∀ (is : List Nat) (h : Heap L) (p : Nat) (o : Obj)
    (y : Larry L) (b : Nat), is ≠ [] → ObjAt h b p o y →
      Refines h (hMorphLoop lar is p) (Larry.morphLikeLoop lar is y)
  | [], _, _, _, _, _, hne, _ => absurd rfl hne
  | i :: is, h, p, o, y, b, _, ho => by
    have tail : ∀ (z : Larry L) q o' (h' : Heap L), h.next ≤ h'.next → ObjAt h' h.next q o' z →
        RefinesFrom h.next h' (hMorphLoop lar is q) (Larry.morphLikeLoop lar is z) := by
      intro z q o' h' hle ho'
      by_cases hnil : is = []
      · subst hnil
        exact ⟨q, h', Run.pure, Ext.refl, o', ho'⟩
      · exact (hMorphLoop_refines lar is h' q o' z _ hnil ho').from_ hle
    unfold Larry.morphLikeLoop hMorphLoop
    cases hn : lar.getlabel i with
    | error e => exact HM.raises_left rfl
    | ok l => exact Refines.step (Run.lift rfl) (Refines.andThen tail (hMorph_refines l i ho))

theorem hMorphLike_refines {r : Nat} {o' : Obj} {lar : Larry L} {b' : Nat} (ho : ObjAt h b p o y)
    (ho' : ObjAt h b' r o' lar) : Refines h (hMorphLike p r) (y.morphLike lar) := by
  refine Refines.step (Run.value ho) (Refines.step (Run.value ho') ?_)
  unfold Larry.morphLike
  by_cases h1 : y.ndim ≠ lar.ndim
  · rw [if_pos h1, if_pos h1]
    rfl
  rw [if_neg h1, if_neg h1]
  by_cases h2 : y.ndim = 0
  · rw [if_pos h2, h2]
    exact hCopy_refines ho
  · rw [if_neg h2]
    exact hMorphLoop_refines lar _ h p o y b (by simpa using h2) ho

theorem pyIdx_ok {n : Nat} {i : Int} {k : Nat} (hi : pyIdx n i = some k) : pyIdxE n i = .ok k := by
  unfold pyIdxE; rw [hi]

theorem take_label {indices : List Int} {axis : Int} {z : Larry L} (hz : y.take indices axis = .ok z) :
    ∃ ax lab, pyIdx y.label.length axis = some ax ∧ z.label = y.label.set ax lab := by
  unfold Larry.take at hz
  split at hz
  · simp at hz
  · rename_i ax hi
    split at hz
    · simp at hz
    · split at hz
      · simp at hz
      · split at hz
        · simp at hz
        · cases hz
          exact ⟨_, _, hi, rfl⟩

omit [LinearOrder L] in
/-- The list at a position that was set. -/
theorem set_getD {ls : List (List L)} {ax : Nat} {lab : List L} : ls.set ax ((ls.set ax lab).getD ax []) = ls.set ax lab := by
  by_cases hlt : ax < ls.length
  · congr 1
    simp [hlt]
  · rw [List.set_eq_of_length_le (by omega), List.set_eq_of_length_le (by omega)]

theorem hTake_refines (indices : List Int) (axis : Int) (ho : ObjAt h b p o y) :
    Refines h (hTake indices axis p) (y.take indices axis) := by
  refine Refines.step (Run.getObj ho.cell) (Refines.step Run.look ?_)
  dsimp only
  rw [ho.value]
  cases hz : y.take indices axis with
  | error e => exact HM.raises_left rfl
  | ok z =>
    refine Refines.step (Run.lift rfl) ?_
    obtain ⟨ax, lab, hi, hl⟩ := take_label hz
    rw [hi, Option.getD_some]
    obtain ⟨label, h1, r1, e1, hl1⟩ := copylabel_run (h := h) ho.label
    obtain ⟨h2, r2, e2, hl2⟩ := setLab_run hl1 e1.le ax (z.label.getD ax [])
    obtain ⟨q, h3, r3, e3, o3, ho3⟩ := build_run (e1.trans (e2.ext hl1.lo e1.le) (le_refl _)) hl2 z.x z.dtype
    refine ⟨q, h3, Run.bind r1 (Run.bind r2 r3), e3, o3, ?_⟩
    rw [hl, set_getD, ← hl] at ho3
    exact ho3

theorem hKeepLabel_refines (op : LabelOp L) (axis : Option Int) (ho : ObjAt h b p o y) :
    Refines h (hKeepLabel op axis p) (y.keepLabel op axis) := by
  refine Refines.step (Run.value ho) ?_
  cases hz : y.keepLabel op axis with
  | error e => exact HM.raises_left rfl
  | ok z =>
    refine Refines.step (Run.lift rfl) ?_
    obtain ⟨q, h1, r1, e1, o1, ho1⟩ := hCopy_makes ho
    unfold Larry.keepLabel at hz
    split at hz
    · simp at hz
    cases axis with
    | none => simp at hz
    | some axis =>
      dsimp only at hz
      split at hz
      · simp at hz
      split at hz
      · simp at hz
      rename_i ax hi
      rw [Option.getD_some, hi, Option.getD_some]
      by_cases hc : ((y.label.getD ax []).zipIdx.filter (fun c => op.test c.1)).length = 0
      · rw [if_pos hc] at hz
        cases hz
        obtain ⟨q2, h2, r2, e2, o2, ho2⟩ := hEmpty_makes (h := h1)
        refine ⟨q2, h2, Run.bind r1 ?_, e1.trans e2 e1.le, o2, ho2.weaken e1.le⟩
        rw [if_pos hc]
        exact r2
      · rw [if_neg hc] at hz
        have hl : z.label = y.label.set ax (z.label.getD ax []) := by
          cases hz
          exact set_getD.symm
        obtain ⟨h2, r2, e2, hl2⟩ := setLab_run ho1.label e1.le ax (z.label.getD ax [])
        have ho2 := ho1.relabel e2 hl2
        obtain ⟨v, h3, h4, r3, r4, e4, ho4⟩ := newX_run ho2 (e1.le.trans e2.le) z.x z.dtype
        refine ⟨q, h4, Run.bind r1 ?_, (e1.trans (e2.ext ho1.label.lo e1.le) (le_refl _)).trans
          (e4.ext ho1.lo (e1.le.trans e2.le)) (le_refl _), ⟨v, o1.label⟩, ?_⟩
        · rw [if_neg hc]
          exact Run.bind (Run.getObj ho1.cell) (Run.bind r2 (Run.bind r3 (Run.bind r4 Run.pure)))
        · rw [← hl] at ho4
          exact ho4

theorem hBinop_run (uf : UFunc2) (always : Bool) {r : Nat} {o' : Obj} {lar : Larry L} {b' : Nat} (ho : ObjAt h b p o y)
    (ho' : ObjAt h b' r o' lar) : Refines h (hBinop uf always p r)
      (if always then y.compare uf lar else Larry.binop uf y lar) := by
  refine Refines.step (Run.getObj ho.cell) (Refines.step Run.look (Refines.step (Run.value ho') ?_))
  rw [ho.value]
  have key : Refines h (do
      let s ← HM.lift (y.align lar)
      let as ← newLists s.2.2
      let label ← alloc (.out as)
      let x ← HM.lift (npBinop uf s.1 y.dtype s.2.1 lar.dtype)
      let v ← newArray x.1 x.2
      newLarry v label) (y.compare uf lar) := by
    unfold Larry.compare
    cases ha : y.align lar with
    | error e => exact HM.raises_left rfl
    | ok s =>
      refine Refines.step (Run.lift rfl) ?_
      obtain ⟨as, h1, label, h2, r1, r2, e2, hl⟩ := newLabel_run (h := h) s.2.2
      dsimp only
      cases hx : npBinop uf s.1 y.dtype s.2.1 lar.dtype with
      | error e => exact Run.raises r1 (Run.raises r2 (HM.raises_left rfl))
      | ok x =>
        obtain ⟨q, h3, r3, e3, o3, ho3⟩ := build_run e2 hl x.1 x.2
        exact ⟨q, h3, Run.bind r1 (Run.bind r2 (Run.bind (Run.lift rfl) r3)), e3, o3, ho3⟩
  by_cases hc : y.label = lar.label ∧ always = false
  · rw [if_pos hc, hc.2]
    unfold Larry.binop
    rw [if_pos hc.1]
    cases hx : npBinop uf y.x y.dtype lar.x lar.dtype with
    | error e => exact HM.raises_left rfl
    | ok x =>
      refine Refines.step (Run.lift rfl) ?_
      obtain ⟨label, h1, r1, e1, hl⟩ := copylabel_run (h := h) ho.label
      obtain ⟨q, h3, r3, e3, o3, ho3⟩ := build_run e1 hl x.1 x.2
      exact ⟨q, h3, Run.bind r1 r3, e3, o3, ho3⟩
  · rw [if_neg hc]
    cases always with
    | true => exact key
    | false =>
      have hne : y.label ≠ lar.label := fun he => hc ⟨he, rfl⟩
      have : Larry.binop uf y lar = y.compare uf lar := by
        unfold Larry.binop Larry.compare
        rw [if_neg hne]
      simp only [Bool.false_eq_true, if_false]
      rw [this]
      exact key

theorem hBinop_refines (uf : UFunc2) {r : Nat} {o' : Obj} {lar : Larry L} {b' : Nat} (ho : ObjAt h b p o y)
    (ho' : ObjAt h b' r o' lar) : Refines h (hBinop uf false p r) (Larry.binop uf y lar) := hBinop_run uf false ho ho'

theorem hCompare_refines (uf : UFunc2) {r : Nat} {o' : Obj} {lar : Larry L} {b' : Nat} (ho : ObjAt h b p o y)
    (ho' : ObjAt h b' r o' lar) : Refines h (hBinop uf true p r) (y.compare uf lar) := hBinop_run uf true ho ho'

omit [LinearOrder L] in
theorem arrayIf_run (new : Bool) {v : View} {x x' : NDArray Val} {d d' : DType}
    (ha : ArrayAt h 0 v x d) (hx : new = false → x' = x ∧ d' = d) :
    ∃ v' h', Run h (arrayIf new x' d' v) v' h' ∧ Ext h.next h h' ∧ ArrayAt h' 0 v' x' d' ∧
      (new = true → h.next ≤ v'.buf) ∧ (new = false → v' = v) ∧ (v.Inj → v'.Inj) := by
  cases new with
  | true =>
    obtain ⟨v', h1, r1, e1, ha1⟩ := newArray_run (h := h) x' d'
    exact ⟨v', h1, r1, e1, ha1.ext Ext.refl (Nat.zero_le _), fun _ => ha1.lo, by simp, fun _ => newArray_inj r1⟩
  | false =>
    obtain ⟨rfl, rfl⟩ := hx rfl
    exact ⟨v, h, Run.pure, Ext.refl, ha, by simp, fun _ => rfl, id⟩

/-- `align_raw` on one axis leaves an array alone unless it takes from it. -/
theorem alignRawAxis_kept {cast : Bool} {j : Join} {l1 l2 : List L} {ax : Nat} {s : AlignSt}
    {r : AlignSt × Option (List L)} (h : alignRawAxis cast j l1 l2 ax s = .ok r) :
    ((decide (l1 ≠ l2) && j.takes1) = false → r.1.x1 = s.x1 ∧ r.1.d1 = s.d1) ∧
    ((decide (l1 ≠ l2) && j.takes2) = false → r.1.x2 = s.x2 ∧ r.1.d2 = s.d2) := by
  unfold alignRawAxis at h
  cases j <;> simp only at h
  case skip => cases h; simp
  case other => simp at h
  all_goals
    split at h
    · cases h
      simp
    · rename_i he
      repeat' (split at h)
      all_goals first
        | (simp at h; done)
        | (cases h; simp [he, Join.takes1, Join.takes2])

theorem hAlignLoop_run (cast : Bool) {c : Nat} {w1 w2 : View} : ∀ (ts : List (Join × List L × List L)) (ax : Nat)
    (h : Heap L) (v1 v2 : View) (s : AlignSt), c ≤ h.next → ArrayAt h 0 v1 s.x1 s.d1 → ArrayAt h 0 v2 s.x2 s.d2 →
    (s.v1 = false → c ≤ v1.buf) → (s.v2 = false → c ≤ v2.buf) → (s.v1 = true → v1 = w1) → (s.v2 = true → v2 = w2) →
    (w1.Inj → v1.Inj) → (w2.Inj → v2.Inj) → (w1.buf ≠ w2.buf → v1.buf ≠ v2.buf) →
    match alignRawLoop cast ts ax s with
    | .error e => (hAlignLoop cast ts ax v1 v2 s.v1 s.v2).out h = .error e
    | .ok (s', labs) => ∃ v1' v2' h', Run h (hAlignLoop cast ts ax v1 v2 s.v1 s.v2) (v1', v2', s'.v1, s'.v2, labs) h' ∧
        Ext h.next h h' ∧ ArrayAt h' 0 v1' s'.x1 s'.d1 ∧ ArrayAt h' 0 v2' s'.x2 s'.d2 ∧
        (s'.v1 = false → c ≤ v1'.buf) ∧ (s'.v2 = false → c ≤ v2'.buf) ∧
        (s'.v1 = true → v1' = w1) ∧ (s'.v2 = true → v2' = w2) ∧
        (w1.Inj → v1'.Inj) ∧ (w2.Inj → v2'.Inj) ∧ (w1.buf ≠ w2.buf → v1'.buf ≠ v2'.buf)
  | [], ax, h, v1, v2, s, hc, h1, h2, f1, f2, g1, g2, i1, i2, hd =>
    ⟨v1, v2, h, Run.pure, Ext.refl, h1, h2, f1, f2, g1, g2, i1, i2, hd⟩
  | (j, l1, l2) :: ts, ax, h, v1, v2, s, hc, h1, h2, f1, f2, g1, g2, i1, i2, hd => by
    unfold alignRawLoop
    have hs : (⟨h.array v1, v1.dtype, s.v1, h.array v2, v2.dtype, s.v2⟩ : AlignSt) = s := by
      rw [h1.get, h2.get, h1.dtype, h2.dtype]
    cases hr : alignRawAxis cast j l1 l2 ax s with
    | error e =>
      refine Run.raises Run.look (Run.raises Run.look (HM.raises_left ?_))
      rw [hs]
      exact hr
    | ok r =>
      obtain ⟨k1, k2⟩ := alignRawAxis_flags hr
      obtain ⟨m1, m2⟩ := alignRawAxis_kept hr
      obtain ⟨v1', ha, r1, e1, a1, n1, o1, j1⟩ := arrayIf_run (decide (l1 ≠ l2) && j.takes1) h1 (x' := r.1.x1) (d' := r.1.d1) m1
      obtain ⟨v2', hb, r2, e2, a2, n2, o2, j2⟩ := arrayIf_run (decide (l1 ≠ l2) && j.takes2) (h2.ext e1)
        (x' := r.1.x2) (d' := r.1.d2) m2
      have e12 := e1.trans e2 e1.le
      have := hAlignLoop_run cast (c := c) (w1 := w1) (w2 := w2) ts (ax + 1) hb v1' v2' r.1 (hc.trans e12.le) (a1.ext e2) a2
        (fun hv => by
          rw [k1] at hv
          cases hn : (decide (l1 ≠ l2) && j.takes1) with
          | true => exact hc.trans (n1 hn)
          | false => rw [o1 hn]; exact f1 (by rw [hn] at hv; simpa using hv))
        (fun hv => by
          rw [k2] at hv
          cases hn : (decide (l1 ≠ l2) && j.takes2) with
          | true => exact (hc.trans e1.le).trans (n2 hn)
          | false => rw [o2 hn]; exact f2 (by rw [hn] at hv; simpa using hv))
        (fun hv => by
          rw [k1] at hv
          cases hn : (decide (l1 ≠ l2) && j.takes1) with
          | true => rw [hn] at hv; simp at hv
          | false => rw [o1 hn]; exact g1 (by rw [hn] at hv; simpa using hv))
        (fun hv => by
          rw [k2] at hv
          cases hn : (decide (l1 ≠ l2) && j.takes2) with
          | true => rw [hn] at hv; simp at hv
          | false => rw [o2 hn]; exact g2 (by rw [hn] at hv; simpa using hv))
        (fun hi => j1 (i1 hi)) (fun hi => j2 (i2 hi))
        (fun hne => by
          cases hn2 : (decide (l1 ≠ l2) && j.takes2) with
          | true => have := n2 hn2; have := a1.hi; omega
          | false =>
            rw [o2 hn2]
            cases hn1 : (decide (l1 ≠ l2) && j.takes1) with
            | true => have := n1 hn1; have := h2.hi; omega
            | false => rw [o1 hn1]; exact hd hne)
      have hlift : Run h (HM.lift (alignRawAxis cast j l1 l2 ax ⟨h.array v1, v1.dtype, s.v1, h.array v2, v2.dtype, s.v2⟩)) r h := by
        rw [hs]
        exact Run.lift hr
      obtain ⟨s1, lab⟩ := r
      dsimp only at this ⊢
      cases hl : alignRawLoop cast ts (ax + 1) s1 with
      | error e =>
        rw [hl] at this
        exact Run.raises Run.look (Run.raises Run.look (Run.raises hlift (Run.raises r1 (Run.raises r2 (HM.raises_left this)))))
      | ok t =>
        rw [hl] at this
        obtain ⟨u1, u2, h3, r3, e3, rest⟩ := this
        exact ⟨u1, u2, h3, Run.bind Run.look (Run.bind Run.look (Run.bind hlift (Run.bind r1 (Run.bind r2
          (Run.bind r3 Run.pure))))), e12.trans e3 e12.le, rest⟩

theorem alignRaw_eq (lar1 lar2 : Larry L) (join : JoinArg) (cast : Bool) : alignRaw lar1 lar2 join cast =
    if lar1.ndim ≠ lar2.ndim then .error .valueError
    else match join.perAxis lar2.ndim with
      | .error e => .error e
      | .ok js => alignRawLoop cast (js.zip (lar1.label.zip lar2.label)) 0
          ⟨lar1.x, lar1.dtype, true, lar2.x, lar2.dtype, true⟩ := by
  unfold alignRaw JoinArg.perAxis
  split
  · rfl
  · cases join with
    | one j => rfl
    | many js =>
      dsimp only
      split <;> rfl

theorem hAlignRaw_run (join : JoinArg) (cast : Bool) {r : Nat} {o' : Obj} {lar : Larry L} (ho : ObjAt h 0 p o y)
    (ho' : ObjAt h 0 r o' lar) :
    match alignRaw y lar join cast with
    | .error e => (hAlignRaw join cast p r).out h = .error e
    | .ok (s, labs) => ∃ v1 v2 h', Run h (hAlignRaw join cast p r) (v1, v2, s.v1, s.v2, labs) h' ∧
        Ext h.next h h' ∧ ArrayAt h' 0 v1 s.x1 s.d1 ∧ ArrayAt h' 0 v2 s.x2 s.d2 ∧
        (s.v1 = false → h.next ≤ v1.buf) ∧ (s.v2 = false → h.next ≤ v2.buf) ∧
        (s.v1 = true → v1 = o.x) ∧ (s.v2 = true → v2 = o'.x) ∧
        (o.x.Inj → v1.Inj) ∧ (o'.x.Inj → v2.Inj) ∧ (o.x.buf ≠ o'.x.buf → v1.buf ≠ v2.buf) := by
  rw [alignRaw_eq]
  by_cases hn : y.ndim ≠ lar.ndim
  · rw [if_pos hn]
    refine Run.raises (Run.getObj ho.cell) (Run.raises (Run.getObj ho'.cell) (Run.raises Run.look (Run.raises Run.look ?_)))
    rw [ho.value, ho'.value, if_pos hn]
    rfl
  · rw [if_neg hn]
    cases hj : join.perAxis lar.ndim with
    | error e =>
      refine Run.raises (Run.getObj ho.cell) (Run.raises (Run.getObj ho'.cell) (Run.raises Run.look (Run.raises Run.look ?_)))
      rw [ho.value, ho'.value, if_neg hn]
      exact HM.raises_left hj
    | ok js =>
      have := hAlignLoop_run cast (c := h.next) (w1 := o.x) (w2 := o'.x) (js.zip (y.label.zip lar.label)) 0 h o.x o'.x
        ⟨y.x, y.dtype, true, lar.x, lar.dtype, true⟩ (le_refl _) ho.array ho'.array (by simp) (by simp) (fun _ => rfl) (fun _ => rfl) id id id
      dsimp only at this ⊢
      cases hl : alignRawLoop cast (js.zip (y.label.zip lar.label)) 0 ⟨y.x, y.dtype, true, lar.x, lar.dtype, true⟩ with
      | error e =>
        rw [hl] at this
        refine Run.raises (Run.getObj ho.cell) (Run.raises (Run.getObj ho'.cell) (Run.raises Run.look (Run.raises Run.look ?_)))
        rw [ho.value, ho'.value, if_neg hn]
        exact Run.raises (Run.lift hj) this
      | ok t =>
        rw [hl] at this
        obtain ⟨v1, v2, h1, r1, rest⟩ := this
        refine ⟨v1, v2, h1, Run.bind (Run.getObj ho.cell) (Run.bind (Run.getObj ho'.cell) (Run.bind Run.look (Run.bind Run.look ?_))), rest⟩
        rw [ho.value, ho'.value, if_neg hn]
        exact Run.bind (Run.lift hj) r1

omit [LinearOrder L] in
theorem hAlignOut_run {h0 : Heap L} (own : List (List L)) (labs : List (Option (List L))) {v : View} {x : NDArray Val} {d : DType}
    {isview : Bool} (e0 : Ext h0.next h0 h) (ha : ArrayAt h 0 v x d) (hv : isview = false → h0.next ≤ v.buf) :
    ∃ q h', Run h (hAlignOut own labs v isview) q h' ∧ Ext h.next h h' ∧
      ∃ o, ObjAt h' h0.next q o ⟨x, d, pickLabel own labs⟩ := by
  obtain ⟨as, h1, label, h2, r1, r2, e2, hl⟩ := newLabel_run (h := h) (pickLabel own labs)
  have hl2 : LabelAt h2 h0.next label (pickLabel own labs) := hl.ext Ext.refl e0.le
  have ha2 := ha.ext e2
  cases isview with
  | true =>
    obtain ⟨v3, h3, r3, e3, ha3⟩ := newArray_run (h := h2) x v.dtype
    obtain ⟨q, h4, r4, e4, ho4⟩ := newLarry_run (ha3.ext Ext.refl (e0.le.trans e2.le)) (hl2.ext e3) ((e0.le.trans e2.le).trans e3.le)
    have e23 := e2.trans e3 e2.le
    refine ⟨q, h4, Run.bind r1 (Run.bind r2 ?_), e23.trans e4 e23.le, _, by rw [ha.dtype] at ho4; exact ho4⟩
    rw [if_pos rfl]
    refine Run.bind Run.look ?_
    rw [ha2.get]
    exact Run.bind r3 r4
  | false =>
    have ha2' : ArrayAt h2 h0.next v x d := ⟨hv rfl, ha2.hi, ha2.dtype, ha2.data⟩
    obtain ⟨q, h4, r4, e4, ho4⟩ := newLarry_run ha2' hl2 (e0.le.trans e2.le)
    exact ⟨q, h4, Run.bind r1 (Run.bind r2 r4), e2.trans e4 e2.le, _, ho4⟩

theorem hAlign_run (join : JoinArg) (cast : Bool) {r : Nat} {o' : Obj} {lar : Larry L} (ho : ObjAt h 0 p o y)
    (ho' : ObjAt h 0 r o' lar) :
    match align y lar join cast with
    | .error e => (hAlign join cast p r).out h = .error e
    | .ok (z1, z2) => ∃ q1 q2 h', Run h (hAlign join cast p r) (q1, q2) h' ∧ Ext h.next h h' ∧
        (∃ o, ObjAt h' h.next q1 o z1) ∧ ∃ o, ObjAt h' h.next q2 o z2 := by
  have := hAlignRaw_run join cast ho ho'
  unfold align
  cases hr : alignRaw y lar join cast with
  | error e => rw [hr] at this; exact HM.raises_left this
  | ok t =>
    rw [hr] at this
    obtain ⟨v1, v2, h1, r1, e1, a1, a2, f1, f2, -⟩ := this
    obtain ⟨q1, h2, r2, e2, o2, ho2⟩ := hAlignOut_run y.label t.2 e1 a1 f1
    have e02 := e1.trans e2 e1.le
    obtain ⟨q2, h3, r3, e3, o3, ho3⟩ := hAlignOut_run lar.label t.2 e02 (a2.ext e2) f2
    exact ⟨q1, q2, h3, Run.bind r1 (Run.bind (Run.value (ho.ext e1)) (Run.bind (Run.value (ho'.ext e1))
      (Run.bind r2 (Run.bind r3 Run.pure)))), e02.trans e3 e02.le, ⟨o2, ho2.ext e3⟩, o3, ho3⟩

end order
end methods
end La
