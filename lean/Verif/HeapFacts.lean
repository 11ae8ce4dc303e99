import Verif.Heap

/-!
# What each method may touch

`Safe P h0 m Q`: run in a memory that differs from `h0` only at addresses in `P`, `m` keeps it so, keeps
the references stored at addresses in `P` inside `P`, and returns something that satisfies `Q`.  `P` has
to contain every address that is given out between `h0` and the end (`top`).  With `P` the addresses not
in use in `h0`, this says that `m` writes to nothing there was and returns something entirely new.
-/

namespace La
variable {L : Type} {α β : Type}

/-- The references stored in a cell. -/
def HCell.Refs (P : Nat → Prop) : HCell L → Prop
  | .buf _ => True
  | .lst _ => True
  | .out as => ∀ a ∈ as, P a
  | .obj o => P o.x.buf ∧ P o.label

/-- References in `P` lead only to references in `P`. -/
def Heap.Closed (h : Heap L) (P : Nat → Prop) : Prop := ∀ a c, P a → h.cell a = some c → c.Refs P

/-- The memory at the start, and the first address not given out at the end. -/
structure Base (L : Type) where
  cell : Nat → Option (HCell L)
  next : Nat
  top : Nat

/-- `h` came from `h0` by changes in `P` only. -/
structure Inv (P : Nat → Prop) (h0 : Base L) (h : Heap L) : Prop where
  le : h0.next ≤ h.next
  frame : ∀ a, ¬ P a → h.cell a = h0.cell a
  closed : h.Closed P

/-- See the head of this file. -/
def Safe (P : Nat → Prop) (h0 : Base L) (m : HM L α) (Q : α → Prop) : Prop :=
  ∀ h, (m.after h).next ≤ h0.top → Inv P h0 h → Inv P h0 (m.after h) ∧ ∀ v, m.out h = .ok v → Q v

/-- A reference is in `P`. -/
def Ref.In (P : Nat → Prop) : Ref → Prop
  | .larry p => P p
  | .array v => P v.buf
  | .lst a => P a
  | .out a => P a
  | .scalar => True

namespace HM

theorem next_le (m : HM L α) (h : Heap L) : h.next ≤ (m.after h).next := (m h).2.2

theorem bind_error {m : HM L α} {f : α → HM L β} {h : Heap L} {e : PyErr} (hm : m.out h = .error e) :
    (m >>= f).out h = .error e ∧ (m >>= f).after h = m.after h := by
  change (HM.andThen m f h).1 = _ ∧ (HM.andThen m f h).2.1 = _
  unfold out at hm
  unfold andThen after
  split
  · rename_i he
    rw [he] at hm ⊢
    cases hm
    exact ⟨rfl, rfl⟩
  · rename_i he
    rw [he] at hm
    simp at hm

theorem bind_ok {m : HM L α} {f : α → HM L β} {h : Heap L} {v : α} (hm : m.out h = .ok v) :
    (m >>= f).out h = (f v).out (m.after h) ∧ (m >>= f).after h = (f v).after (m.after h) := by
  change (HM.andThen m f h).1 = _ ∧ (HM.andThen m f h).2.1 = _
  unfold out at hm
  unfold andThen out after
  split
  · rename_i he
    rw [he] at hm
    simp at hm
  · rename_i he
    rw [he] at hm ⊢
    cases hm
    exact ⟨rfl, rfl⟩

end HM

section rules
variable {P : Nat → Prop} {h0 : Base L}

/-- A computation that leaves the memory alone. -/
theorem Safe.same {m : HM L α} {Q : α → Prop} (hm : ∀ h, m.after h = h)
    (hq : ∀ h, Inv P h0 h → ∀ v, m.out h = .ok v → Q v) : Safe P h0 m Q := by
  intro h _ hi
  rw [hm h]
  exact ⟨hi, hq h hi⟩

theorem Safe.pure {v : α} {Q : α → Prop} (h : Q v) : Safe P h0 (Pure.pure v : HM L α) Q :=
  Safe.same (fun _ => rfl) (fun _ _ w hw => by cases hw; exact h)

theorem Safe.bind {m : HM L α} {f : α → HM L β} {Q : α → Prop} {Q' : β → Prop} (h1 : Safe P h0 m Q)
    (h2 : ∀ v, Q v → Safe P h0 (f v) Q') : Safe P h0 (m >>= f) Q' := by
  intro h ht hi
  cases hm : m.out h with
  | error e =>
    obtain ⟨e1, e2⟩ := HM.bind_error (f := f) hm
    rw [e2] at ht ⊢
    rw [e1]
    exact ⟨(h1 h ht hi).1, by simp⟩
  | ok v =>
    obtain ⟨e1, e2⟩ := HM.bind_ok (f := f) hm
    rw [e2] at ht ⊢
    rw [e1]
    obtain ⟨g1, g2⟩ := h1 h ((HM.next_le (f v) (m.after h)).trans ht) hi
    exact h2 v (g2 v hm) _ ht g1

theorem Safe.mono {m : HM L α} {Q Q' : α → Prop} (h : Safe P h0 m Q) (hq : ∀ v, Q v → Q' v) : Safe P h0 m Q' :=
  fun hp ht hi => ⟨(h hp ht hi).1, fun v hv => hq v ((h hp ht hi).2 v hv)⟩

theorem Safe.lift (r : Res α) : Safe P h0 (HM.lift r) (fun v => r = .ok v) :=
  Safe.same (fun _ => rfl) (fun _ _ _ hv => hv)

theorem Safe.look (f : Heap L → α) : Safe P h0 (HM.look f) (fun _ => True) :=
  Safe.same (fun _ => rfl) (fun _ _ _ _ => trivial)

theorem Safe.lookOut {a : Nat} (ha : P a) : Safe P h0 (HM.look (fun h => h.out a)) (fun as => ∀ b ∈ as, P b) := by
  refine Safe.same (fun _ => rfl) ?_
  intro h hi v hv b hb
  cases hv
  change b ∈ Heap.out h a at hb
  unfold Heap.out at hb
  split at hb
  · rename_i as has
    exact hi.closed a _ ha has b hb
  · simp at hb

theorem getObj_after (p : Nat) (h : Heap L) : (La.getObj p).after h = h := by
  unfold HM.after La.getObj
  split <;> rfl

theorem getObj_ok {p : Nat} {h : Heap L} {o : Obj} : (La.getObj p).out h = .ok o ↔ h.cell p = some (.obj o) := by
  unfold HM.out La.getObj
  split
  · rename_i o' ho
    simp [ho]
  · rename_i hn
    simp only [reduceCtorEq, false_iff]
    exact fun ho => hn o ho

theorem Safe.getObj (p : Nat) : Safe P h0 (La.getObj p) (fun _ => True) :=
  Safe.same (getObj_after p) (fun _ _ _ _ => trivial)

theorem Safe.getObjIn {p : Nat} (hp : P p) : Safe P h0 (La.getObj p) (fun o => P o.x.buf ∧ P o.label) :=
  Safe.same (getObj_after p) (fun _ hi _ hv => hi.closed p _ hp (getObj_ok.mp hv))

theorem Safe.alloc (hP : ∀ a, h0.next ≤ a → a < h0.top → P a) {c : HCell L} (hc : c.Refs P) :
    Safe P h0 (La.alloc c) P := by
  intro h ht hi
  have hn : P h.next := hP _ hi.le ht
  refine ⟨⟨?_, ?_, ?_⟩, ?_⟩
  · exact Nat.le_succ_of_le hi.le
  · intro a ha
    have : a ≠ h.next := fun e => ha (e ▸ hn)
    simp [La.alloc, HM.after, this, hi.frame a ha]
  · intro a c' ha hc'
    simp only [La.alloc, HM.after] at hc'
    split at hc'
    · cases hc'; exact hc
    · exact hi.closed a c' ha hc'
  · intro v hv
    cases hv; exact hn

theorem Safe.put {a : Nat} (ha : P a) {c : HCell L} (hc : c.Refs P) : Safe P h0 (La.put a c) (fun _ => True) := by
  intro h _ hi
  refine ⟨⟨hi.le, ?_, ?_⟩, fun _ _ => trivial⟩
  · intro b hb
    have : b ≠ a := fun e => hb (e ▸ ha)
    simp [La.put, HM.after, this, hi.frame b hb]
  · intro b c' hb hc'
    simp only [La.put, HM.after] at hc'
    split at hc'
    · cases hc'; exact hc
    · exact hi.closed b c' hb hc'

theorem Safe.valueOf (p : Nat) : Safe P h0 (La.valueOf p) (fun _ => True) :=
  Safe.bind (Safe.getObj p) (fun _ _ => Safe.look _)

theorem Safe.newArray (hP : ∀ a, h0.next ≤ a → a < h0.top → P a) (x : NDArray Val) (d : DType) :
    Safe P h0 (La.newArray x d : HM L View) (fun v => P v.buf) :=
  Safe.bind (Safe.alloc hP (c := .buf x.get) trivial) (fun _ h => Safe.pure h)

theorem Safe.newLists (hP : ∀ a, h0.next ≤ a → a < h0.top → P a) (ls : List (List L)) :
    Safe P h0 (La.newLists ls) (fun as => ∀ b ∈ as, P b) := by
  induction ls with
  | nil => exact Safe.pure (by simp)
  | cons l ls ih =>
    refine Safe.bind (Safe.alloc hP (c := .lst l) trivial) (fun a ha => ?_)
    refine Safe.bind ih (fun as has => Safe.pure ?_)
    simp only [List.mem_cons, forall_eq_or_imp]
    exact ⟨ha, has⟩

theorem Safe.newLarry (hP : ∀ a, h0.next ≤ a → a < h0.top → P a) {v : View} {label : Nat} (hv : P v.buf) (hl : P label) :
    Safe P h0 (La.newLarry v label : HM L Nat) P :=
  Safe.alloc hP (c := .obj ⟨v, label⟩) ⟨hv, hl⟩

theorem Safe.setX {p : Nat} {v : View} (hp : P p) (hv : P v.buf) : Safe P h0 (La.setX p v : HM L Unit) (fun _ => True) :=
  Safe.bind (Safe.getObjIn hp) (fun o ho => Safe.put hp (c := .obj ⟨v, o.label⟩) ⟨hv, ho.2⟩)

theorem Safe.setLabel {p label : Nat} (hp : P p) (hl : P label) :
    Safe P h0 (La.setLabel p label : HM L Unit) (fun _ => True) :=
  Safe.bind (Safe.getObjIn hp) (fun o ho => Safe.put hp (c := .obj ⟨o.x, label⟩) ⟨ho.1, hl⟩)

theorem Safe.outSet {as : List Nat} (has : ∀ b ∈ as, P b) {ax a : Nat} (ha : P a) :
    (HCell.out (as.set ax a) : HCell L).Refs P := by
  intro b hb
  rcases List.mem_or_eq_of_mem_set hb with h | rfl
  · exact has b h
  · exact ha

theorem Safe.setLab (hP : ∀ a, h0.next ≤ a → a < h0.top → P a) {label : Nat} (hl : P label) (ax : Nat) (l : List L) :
    Safe P h0 (La.setLab label ax l) (fun _ => True) := by
  refine Safe.bind (Safe.alloc hP (c := .lst l) trivial) (fun a ha => ?_)
  refine Safe.bind (Safe.lookOut hl) (fun as has => ?_)
  exact Safe.put hl (Safe.outSet has ha)

theorem Safe.writeWhere {v : View} (hv : P v.buf) (sel : List Nat → Bool) (val : List Nat → Val) :
    Safe P h0 (La.writeWhere v sel val : HM L Unit) (fun _ => True) :=
  Safe.bind (Safe.look _) (fun f _ => Safe.put hv (c := .buf (writeCells v sel val f)) trivial)

theorem Safe.writeX {v : View} (hv : P v.buf) (x : NDArray Val) :
    Safe P h0 (La.writeX v x : HM L Unit) (fun _ => True) := Safe.writeWhere hv _ _

/-! ## Copies -/

theorem Safe.copylabel (hP : ∀ a, h0.next ≤ a → a < h0.top → P a) (o : Obj) : Safe P h0 (La.copylabel o : HM L Nat) P := by
  refine Safe.bind (Safe.look _) (fun ls _ => ?_)
  refine Safe.bind (Safe.newLists hP ls) (fun as has => ?_)
  exact Safe.alloc hP (c := .out as) has

theorem Safe.hCopy (hP : ∀ a, h0.next ≤ a → a < h0.top → P a) (p : Nat) : Safe P h0 (La.hCopy p : HM L Nat) P := by
  refine Safe.bind (Safe.getObj p) (fun o _ => ?_)
  refine Safe.bind (Safe.copylabel hP o) (fun label hl => ?_)
  refine Safe.bind (Safe.look _) (fun x _ => ?_)
  exact Safe.bind (Safe.newArray hP x _) (fun v hv => Safe.newLarry hP hv hl)

theorem Safe.hUnary (hP : ∀ a, h0.next ≤ a → a < h0.top → P a) (f : Larry L → Res (NDArray Val × DType)) (p : Nat) :
    Safe P h0 (La.hUnary f p) P := by
  refine Safe.bind (Safe.getObj p) (fun o _ => ?_)
  refine Safe.bind (Safe.look _) (fun y _ => ?_)
  refine Safe.bind (Safe.lift _) (fun r _ => ?_)
  refine Safe.bind (Safe.copylabel hP o) (fun label hl => ?_)
  exact Safe.bind (Safe.newArray hP _ _) (fun v hv => Safe.newLarry hP hv hl)

theorem Safe.hCopyAssign (hP : ∀ a, h0.next ≤ a → a < h0.top → P a) (f : Larry L → Res (NDArray Val × DType)) (p : Nat) :
    Safe P h0 (La.hCopyAssign f p) P := by
  refine Safe.bind (Safe.hCopy hP p) (fun q hq => ?_)
  refine Safe.bind (Safe.valueOf q) (fun y _ => ?_)
  refine Safe.bind (Safe.lift _) (fun r _ => ?_)
  refine Safe.bind (Safe.newArray hP _ _) (fun v hv => ?_)
  exact Safe.bind (Safe.setX hq hv) (fun _ _ => Safe.pure hq)

theorem Safe.hCopyWrite (hP : ∀ a, h0.next ≤ a → a < h0.top → P a) (f : Larry L → Res (NDArray Val)) (p : Nat) :
    Safe P h0 (La.hCopyWrite f p) P := by
  refine Safe.bind (Safe.hCopy hP p) (fun q hq => ?_)
  refine Safe.bind (Safe.getObjIn hq) (fun o ho => ?_)
  refine Safe.bind (Safe.look _) (fun y _ => ?_)
  refine Safe.bind (Safe.lift _) (fun r _ => ?_)
  exact Safe.bind (Safe.writeX ho.1 _) (fun _ _ => Safe.pure hq)

theorem pyPop_mem {as bs : List Nat} {i : Int} (h : pyPop as i = .ok bs) {b : Nat} (hb : b ∈ bs) : b ∈ as := by
  unfold pyPop at h
  split at h
  · simp at h
  · simp only [Except.ok.injEq] at h
    subst h
    exact List.mem_of_mem_eraseIdx hb

theorem Safe.hReduce (hP : ∀ a, h0.next ≤ a → a < h0.top → P a) (f : Larry L → Res (NDArray Val × DType)) (axis : Int)
    (p : Nat) : Safe P h0 (La.hReduce f axis p) P := by
  refine Safe.bind (Safe.getObj p) (fun o _ => ?_)
  refine Safe.bind (Safe.look _) (fun y _ => ?_)
  refine Safe.bind (Safe.lift _) (fun r _ => ?_)
  refine Safe.bind (Safe.copylabel hP o) (fun label hl => ?_)
  refine Safe.bind (Safe.lookOut hl) (fun as has => ?_)
  refine Safe.bind (Safe.lift _) (fun bs hbs => ?_)
  refine Safe.bind (Safe.put hl (c := .out bs) (fun b hb => has b (pyPop_mem hbs hb))) (fun _ _ => ?_)
  exact Safe.bind (Safe.newArray hP _ _) (fun v hv => Safe.newLarry hP hv hl)

theorem Safe.hEmpty (hP : ∀ a, h0.next ≤ a → a < h0.top → P a) : Safe P h0 (La.hEmpty : HM L Nat) P := by
  refine Safe.bind (Safe.alloc hP (c := .lst []) trivial) (fun a ha => ?_)
  refine Safe.bind (Safe.alloc hP (c := .out [a]) (by simpa [HCell.Refs] using ha)) (fun label hl => ?_)
  exact Safe.bind (Safe.newArray hP _ _) (fun v hv => Safe.newLarry hP hv hl)

theorem Safe.hLag (hP : ∀ a, h0.next ≤ a → a < h0.top → P a) (nlag : Int) (axis : Option Int) (p : Nat) :
    Safe P h0 (La.hLag nlag axis p : HM L Nat) P := by
  unfold La.hLag
  split
  · exact Safe.mono (Safe.lift _) (by simp)
  refine Safe.bind (Safe.hCopy hP p) (fun q hq => ?_)
  split
  · exact Safe.pure hq
  refine Safe.bind (Safe.getObjIn hq) (fun o ho => ?_)
  refine Safe.bind (Safe.look _) (fun y _ => ?_)
  refine Safe.bind (Safe.lift _) (fun ax _ => ?_)
  refine Safe.bind (Safe.lift _) (fun lab _ => ?_)
  refine Safe.bind (Safe.setLab hP ho.2 ax lab) (fun _ _ => ?_)
  refine Safe.bind (Safe.lift _) (fun ix _ => ?_)
  exact Safe.bind (Safe.setX hq (v := ⟨o.x.buf, ix, o.x.dtype⟩) ho.1) (fun _ _ => Safe.pure hq)

theorem Safe.hT (hP : ∀ a, h0.next ≤ a → a < h0.top → P a) (p : Nat) : Safe P h0 (La.hT p : HM L Nat) P := by
  refine Safe.bind (Safe.hCopy hP p) (fun q hq => ?_)
  refine Safe.bind (Safe.getObjIn hq) (fun o ho => ?_)
  refine Safe.bind (Safe.setX hq (v := ⟨o.x.buf, o.x.ix.transpose, o.x.dtype⟩) ho.1) (fun _ _ => ?_)
  refine Safe.bind (Safe.lookOut ho.2) (fun as has => ?_)
  refine Safe.bind (Safe.alloc hP (c := .out as.reverse) (fun b hb => has b (by simpa using hb))) (fun label hl => ?_)
  exact Safe.bind (Safe.setLabel hq hl) (fun _ _ => Safe.pure hq)

theorem mem_of_swapList {as : List Nat} {i j b : Nat} (hb : b ∈ swapList as i j) : b ∈ as := by
  unfold swapList at hb
  split at hb
  · rename_i a c ha hc
    rcases List.mem_or_eq_of_mem_set hb with h | rfl
    · rcases List.mem_or_eq_of_mem_set h with h | rfl
      · exact h
      · exact List.mem_of_getElem? hc
    · exact List.mem_of_getElem? ha
  · exact hb

theorem Safe.hSwapaxes (hP : ∀ a, h0.next ≤ a → a < h0.top → P a) (a1 a2 : Int) (p : Nat) :
    Safe P h0 (La.hSwapaxes a1 a2 p : HM L Nat) P := by
  refine Safe.bind (Safe.hCopy hP p) (fun q hq => ?_)
  refine Safe.bind (Safe.getObjIn hq) (fun o ho => ?_)
  refine Safe.bind (Safe.lookOut ho.2) (fun as has => ?_)
  refine Safe.bind (Safe.lift _) (fun i _ => ?_)
  refine Safe.bind (Safe.lift _) (fun j _ => ?_)
  refine Safe.bind (Safe.put ho.2 (c := .out (swapList as i j)) (fun b hb => has b (mem_of_swapList hb))) (fun _ _ => ?_)
  exact Safe.bind (Safe.setX hq (v := ⟨o.x.buf, o.x.ix.swapaxes i j, o.x.dtype⟩) ho.1) (fun _ _ => Safe.pure hq)

theorem Safe.hFlipLoop (hP : ∀ a, h0.next ≤ a → a < h0.top → P a) {q : Nat} (hq : P q) (axs : List Int) :
    Safe P h0 (La.hFlipLoop axs q : HM L Unit) (fun _ => True) := by
  induction axs with
  | nil => exact Safe.pure trivial
  | cons axis axs ih =>
    refine Safe.bind (Safe.getObjIn hq) (fun o ho => ?_)
    refine Safe.bind (Safe.look _) (fun y _ => ?_)
    refine Safe.bind (Safe.lift _) (fun ax _ => ?_)
    refine Safe.bind (Safe.lift _) (fun lab _ => ?_)
    refine Safe.bind (Safe.setLab hP ho.2 ax lab) (fun _ _ => ?_)
    refine Safe.bind (Safe.lift _) (fun ix _ => ?_)
    exact Safe.bind (Safe.setX hq (v := ⟨o.x.buf, ix, o.x.dtype⟩) ho.1) (fun _ _ => ih)

theorem Safe.hCopyIf (hP : ∀ a, h0.next ≤ a → a < h0.top → P a) {copy : Bool} {p : Nat} (hp : copy = true ∨ P p) :
    Safe P h0 (La.hCopyIf copy p : HM L Nat) P := by
  unfold La.hCopyIf
  split
  · exact Safe.hCopy hP p
  · rename_i h
    exact Safe.pure (hp.resolve_left h)

theorem Safe.hFlipaxis (hP : ∀ a, h0.next ≤ a → a < h0.top → P a) (axis : Option Int) {copy : Bool} {p : Nat}
    (hp : copy = true ∨ P p) : Safe P h0 (La.hFlipaxis axis copy p : HM L Nat) P := by
  refine Safe.bind (Safe.hCopyIf hP hp) (fun q hq => ?_)
  refine Safe.bind (Safe.valueOf q) (fun y _ => ?_)
  exact Safe.bind (Safe.hFlipLoop hP hq _) (fun _ _ => Safe.pure hq)

theorem Safe.hMapLoop (hP : ∀ a, h0.next ≤ a → a < h0.top → P a) (f : L → L) {label : Nat} (hl : P label) (axs : List Nat) :
    Safe P h0 (La.hMapLoop f label axs) (fun _ => True) := by
  induction axs with
  | nil => exact Safe.pure trivial
  | cons ax axs ih =>
    refine Safe.bind (Safe.look _) (fun ls _ => ?_)
    exact Safe.bind (Safe.setLab hP hl ax _) (fun _ _ => ih)

theorem Safe.hMaplabel (hP : ∀ a, h0.next ≤ a → a < h0.top → P a) (f : L → L) (axis : Option Int) {copy : Bool} {p : Nat}
    (hp : copy = true ∨ P p) : Safe P h0 (La.hMaplabel f axis copy p) P := by
  refine Safe.bind (Safe.hCopyIf hP hp) (fun q hq => ?_)
  refine Safe.bind (Safe.getObjIn hq) (fun o ho => ?_)
  refine Safe.bind (Safe.look _) (fun as _ => ?_)
  cases axis with
  | none => exact Safe.bind (Safe.hMapLoop hP f ho.2 _) (fun _ _ => Safe.pure hq)
  | some axis =>
    refine Safe.bind (Safe.lift _) (fun ax _ => ?_)
    exact Safe.bind (Safe.hMapLoop hP f ho.2 _) (fun _ _ => Safe.pure hq)

theorem Safe.listIf (hP : ∀ a, h0.next ≤ a → a < h0.top → P a) {new : Bool} {lab : List L} {a : Nat} (ha : new = true ∨ P a) :
    Safe P h0 (La.listIf new lab a) P := by
  unfold La.listIf
  split
  · exact Safe.alloc hP (c := .lst lab) trivial
  · rename_i h
    exact Safe.pure (ha.resolve_left h)

theorem Safe.hKeepLists (hP : ∀ a, h0.next ≤ a → a < h0.top → P a) (y : Larry L) (alone : Nat → Bool) :
    ∀ l : List (Nat × List Nat × Nat), (∀ c ∈ l, P c.1) →
      Safe P h0 (La.hKeepLists y alone l) (fun bs => ∀ b ∈ bs, P b)
  | [], _ => Safe.pure (by simp)
  | (a, ids, ax) :: rest, h => by
    refine Safe.bind (Safe.listIf hP (Or.inr (h (a, ids, ax) (by simp)))) (fun b hb => ?_)
    refine Safe.bind (Safe.hKeepLists hP y alone rest (fun c hc => h c (by simp [hc]))) (fun bs hbs => Safe.pure ?_)
    simp only [List.mem_cons, forall_eq_or_imp]
    exact ⟨hb, hbs⟩

theorem Safe.hKeepRows (hP : ∀ a, h0.next ≤ a → a < h0.top → P a) (alone : Nat → Bool) (ids : List (List Nat)) {q : Nat}
    (hq : P q) : Safe P h0 (La.hKeepRows alone ids q : HM L Unit) (fun _ => True) := by
  refine Safe.bind (Safe.getObjIn hq) (fun o ho => ?_)
  refine Safe.bind (Safe.look _) (fun y _ => ?_)
  refine Safe.bind (Safe.lookOut ho.2) (fun as has => ?_)
  refine Safe.bind (Safe.hKeepLists hP y alone _ (fun c hc => has _ (List.of_mem_zip hc).1)) (fun bs hbs => ?_)
  refine Safe.bind (Safe.newArray hP _ _) (fun v hv => ?_)
  refine Safe.bind (Safe.setX hq hv) (fun _ _ => ?_)
  refine Safe.bind (Safe.alloc hP (c := .out bs) hbs) (fun label hl => ?_)
  exact Safe.setLabel hq hl

theorem Safe.hVacuum (hP : ∀ a, h0.next ≤ a → a < h0.top → P a) (axis : Option (List Int)) (p : Nat) :
    Safe P h0 (La.hVacuum axis p : HM L Nat) P := by
  refine Safe.bind (Safe.hCopy hP p) (fun q hq => ?_)
  refine Safe.bind (Safe.valueOf q) (fun y _ => ?_)
  refine Safe.bind (Safe.lift _) (fun ids _ => ?_)
  exact Safe.bind (Safe.hKeepRows hP _ _ hq) (fun _ _ => Safe.pure hq)

theorem Safe.hCutMissing (hP : ∀ a, h0.next ≤ a → a < h0.top → P a) (fraction : ℚ) (axis : Option Int) (p : Nat) :
    Safe P h0 (La.hCutMissing fraction axis p : HM L Nat) P := by
  refine Safe.bind (Safe.hCopy hP p) (fun q hq => ?_)
  refine Safe.bind (Safe.valueOf q) (fun y _ => ?_)
  refine Safe.bind (Safe.lift _) (fun axes _ => ?_)
  refine Safe.bind (Safe.lift _) (fun ids _ => ?_)
  refine Safe.bind (Safe.hKeepRows hP _ _ hq) (fun _ _ => ?_)
  split
  · exact Safe.hEmpty hP
  · exact Safe.pure hq

theorem Safe.hKeepX (hP : ∀ a, h0.next ≤ a → a < h0.top → P a) (op : CmpOp) (value : Flt) (vac : Bool) (p : Nat) :
    Safe P h0 (La.hKeepX op value vac p : HM L Nat) P := by
  refine Safe.bind (Safe.valueOf p) (fun y _ => ?_)
  refine Safe.bind (Safe.lift _) (fun w _ => ?_)
  refine Safe.bind (Safe.hCopyWrite hP _ p) (fun q hq => ?_)
  split
  · exact Safe.hVacuum hP none q
  · exact Safe.pure hq

theorem pyInsert_mem {as : List Nat} {i : Int} {a b : Nat} (hb : b ∈ pyInsert as i a) : b = a ∨ b ∈ as := by
  unfold pyInsert at hb
  simp only [List.mem_append, List.mem_cons] at hb
  rcases hb with h | h | h
  · exact Or.inr (List.mem_of_mem_take h)
  · exact Or.inl h
  · exact Or.inr (List.mem_of_mem_drop h)

theorem Safe.hInsertaxis [DecidableEq L] (hP : ∀ a, h0.next ≤ a → a < h0.top → P a) (axis : Option Int) (name : L) (p : Nat) :
    Safe P h0 (La.hInsertaxis axis name p) P := by
  unfold La.hInsertaxis
  split
  · exact Safe.mono (Safe.lift _) (by simp)
  rename_i axis
  refine Safe.bind (Safe.getObj p) (fun o _ => ?_)
  refine Safe.bind (Safe.look _) (fun y _ => ?_)
  refine Safe.bind (Safe.newArray hP _ _) (fun v hv => ?_)
  refine Safe.bind (Safe.copylabel hP o) (fun label hl => ?_)
  refine Safe.bind (Safe.lookOut hl) (fun as has => ?_)
  refine Safe.bind (Safe.alloc hP (c := .lst [name]) trivial) (fun a ha => ?_)
  refine Safe.bind (Safe.put hl (c := .out (pyInsert as _ a)) ?_) (fun _ _ => ?_)
  · intro b hb
    rcases pyInsert_mem hb with rfl | h
    · exact ha
    · exact has b h
  refine Safe.bind (Safe.look _) (fun z _ => ?_)
  refine Safe.bind (Safe.lift _) (fun _ _ => ?_)
  exact Safe.newLarry hP (v := ⟨v.buf, v.ix.expandDims axis, v.dtype⟩) hv hl

section order
variable [LinearOrder L]

theorem Safe.hMorph (hP : ∀ a, h0.next ≤ a → a < h0.top → P a) (lab : List L) (axis : Int) (p : Nat) :
    Safe P h0 (La.hMorph lab axis p) P := by
  refine Safe.bind (Safe.getObj p) (fun o _ => ?_)
  refine Safe.bind (Safe.look _) (fun y _ => ?_)
  refine Safe.bind (Safe.lift _) (fun z _ => ?_)
  extract_lets ax
  split
  · exact Safe.hCopy hP p
  · refine Safe.bind (Safe.newArray hP _ _) (fun v hv => ?_)
    refine Safe.bind (Safe.copylabel hP o) (fun label hl => ?_)
    exact Safe.bind (Safe.setLab hP hl ax lab) (fun _ _ => Safe.newLarry hP hv hl)

theorem Safe.hMorphLoop (hP : ∀ a, h0.next ≤ a → a < h0.top → P a) (lar : Larry L) : ∀ (l : List Nat) {p : Nat},
    (l ≠ [] ∨ P p) → Safe P h0 (La.hMorphLoop lar l p) P
  | [], p, hp => Safe.pure (hp.resolve_left (by simp))
  | i :: is, p, _ =>
    Safe.bind (Safe.lift _) (fun l _ => Safe.bind (Safe.hMorph hP l i p)
      (fun q hq => Safe.hMorphLoop hP lar is (Or.inr hq)))

theorem Safe.hMorphLike (hP : ∀ a, h0.next ≤ a → a < h0.top → P a) (p r : Nat) : Safe P h0 (La.hMorphLike p r : HM L Nat) P := by
  refine Safe.bind (Safe.valueOf p) (fun y _ => ?_)
  refine Safe.bind (Safe.valueOf r) (fun lar _ => ?_)
  split
  · exact Safe.mono (Safe.lift _) (by simp)
  split
  · exact Safe.hCopy hP p
  · rename_i hn
    refine Safe.hMorphLoop hP lar _ (Or.inl ?_)
    intro he
    exact hn (by simpa using congrArg List.length he)

theorem Safe.hSortaxisLoop (hP : ∀ a, h0.next ≤ a → a < h0.top → P a) (self : Larry L) (reverse : Bool) :
    ∀ (axs : List Int) {p : Nat}, (axs ≠ [] ∨ P p) → Safe P h0 (La.hSortaxisLoop self reverse axs p) P
  | [], p, hp => Safe.pure (hp.resolve_left (by simp))
  | ax :: axs, p, _ => by
    refine Safe.bind (Safe.lift _) (fun n _ => ?_)
    split
    · refine Safe.bind (Safe.lift _) (fun l _ => ?_)
      exact Safe.bind (Safe.hMorph hP _ _ _) (fun q hq => Safe.hSortaxisLoop hP self reverse axs (Or.inr hq))
    · exact Safe.bind (Safe.hCopy hP _) (fun q hq => Safe.hSortaxisLoop hP self reverse axs (Or.inr hq))

theorem Safe.hTake (hP : ∀ a, h0.next ≤ a → a < h0.top → P a) (indices : List Int) (axis : Int) (p : Nat) :
    Safe P h0 (La.hTake indices axis p : HM L Nat) P := by
  refine Safe.bind (Safe.getObj p) (fun o _ => ?_)
  refine Safe.bind (Safe.look _) (fun y _ => ?_)
  refine Safe.bind (Safe.lift _) (fun z _ => ?_)
  refine Safe.bind (Safe.copylabel hP o) (fun label hl => ?_)
  refine Safe.bind (Safe.setLab hP hl _ _) (fun _ _ => ?_)
  exact Safe.bind (Safe.newArray hP _ _) (fun v hv => Safe.newLarry hP hv hl)

theorem Safe.hKeepLabel (hP : ∀ a, h0.next ≤ a → a < h0.top → P a) (op : LabelOp L) (axis : Option Int) (p : Nat) :
    Safe P h0 (La.hKeepLabel op axis p) P := by
  refine Safe.bind (Safe.valueOf p) (fun y _ => ?_)
  refine Safe.bind (Safe.lift _) (fun z _ => ?_)
  refine Safe.bind (Safe.hCopy hP p) (fun q hq => ?_)
  extract_lets ax
  split
  · exact Safe.hEmpty hP
  · refine Safe.bind (Safe.getObjIn hq) (fun o ho => ?_)
    refine Safe.bind (Safe.setLab hP ho.2 _ _) (fun _ _ => ?_)
    refine Safe.bind (Safe.newArray hP _ _) (fun v hv => ?_)
    exact Safe.bind (Safe.setX hq hv) (fun _ _ => Safe.pure hq)

theorem Safe.hBinop (hP : ∀ a, h0.next ≤ a → a < h0.top → P a) (uf : UFunc2) (always : Bool) (p r : Nat) :
    Safe P h0 (La.hBinop uf always p r : HM L Nat) P := by
  refine Safe.bind (Safe.getObj p) (fun o _ => ?_)
  refine Safe.bind (Safe.look _) (fun y _ => ?_)
  refine Safe.bind (Safe.valueOf r) (fun lar _ => ?_)
  split
  · refine Safe.bind (Safe.lift _) (fun x _ => ?_)
    refine Safe.bind (Safe.copylabel hP o) (fun label hl => ?_)
    exact Safe.bind (Safe.newArray hP _ _) (fun v hv => Safe.newLarry hP hv hl)
  · refine Safe.bind (Safe.lift _) (fun s _ => ?_)
    refine Safe.bind (Safe.newLists hP _) (fun as has => ?_)
    refine Safe.bind (Safe.alloc hP (c := .out as) has) (fun label hl => ?_)
    refine Safe.bind (Safe.lift _) (fun x _ => ?_)
    exact Safe.bind (Safe.newArray hP _ _) (fun v hv => Safe.newLarry hP hv hl)

omit [LinearOrder L] in
theorem Safe.arrayIf (hP : ∀ a, h0.next ≤ a → a < h0.top → P a) {new : Bool} {x : NDArray Val} {d : DType} {v : View}
    (R : View → Prop) (hR : ∀ w : View, P w.buf → R w) (hv : new = false → R v) :
    Safe P h0 (La.arrayIf new x d v : HM L View) R := by
  unfold La.arrayIf
  split
  · exact Safe.mono (Safe.newArray hP x d) hR
  · rename_i h
    exact Safe.pure (hv (by simpa using h))

/-- The flag `x1isview` of `align_raw` is cleared on an axis exactly when that axis calls `take`. -/
theorem alignRawAxis_flags {cast : Bool} {j : Join} {l1 l2 : List L} {ax : Nat} {s : AlignSt}
    {r : AlignSt × Option (List L)} (h : alignRawAxis cast j l1 l2 ax s = .ok r) :
    r.1.v1 = (s.v1 && !(decide (l1 ≠ l2) && j.takes1)) ∧ r.1.v2 = (s.v2 && !(decide (l1 ≠ l2) && j.takes2)) := by
  unfold alignRawAxis at h
  cases j <;> simp only at h
  case skip => cases h; simp [Join.takes1, Join.takes2]
  case other => simp at h
  all_goals
    split at h
    · rename_i he
      cases h
      simp [he]
    · rename_i he
      repeat' (split at h)
      all_goals first
        | (simp at h; done)
        | (cases h; simp [he, Join.takes1, Join.takes2])

/-- The arrays of `align_raw` whose flag is cleared are new; the others are the ones given. -/
theorem Safe.hAlignLoop (hP : ∀ a, h0.next ≤ a → a < h0.top → P a) (cast : Bool) :
    ∀ (l : List (Join × List L × List L)) (ax : Nat) (x1 x2 : View) (f1 f2 : Bool) (R1 R2 : View → Prop),
      (∀ w : View, P w.buf → R1 w) → (∀ w : View, P w.buf → R2 w) → R1 x1 → R2 x2 →
      (f1 = false → P x1.buf) → (f2 = false → P x2.buf) →
      Safe P h0 (La.hAlignLoop cast l ax x1 x2 f1 f2)
        (fun t => R1 t.1 ∧ R2 t.2.1 ∧ (t.2.2.1 = false → P t.1.buf) ∧ (t.2.2.2.1 = false → P t.2.1.buf))
  | [], ax, x1, x2, f1, f2, R1, R2, _, _, h1, h2, g1, g2 => Safe.pure ⟨h1, h2, g1, g2⟩
  | (j, l1, l2) :: rest, ax, x1, x2, f1, f2, R1, R2, e1, e2, h1, h2, g1, g2 => by
    refine Safe.bind (Safe.look _) (fun a1 _ => ?_)
    refine Safe.bind (Safe.look _) (fun a2 _ => ?_)
    refine Safe.bind (Safe.lift _) (fun r hr => ?_)
    obtain ⟨k1, k2⟩ := alignRawAxis_flags hr
    refine Safe.bind (Safe.arrayIf hP (fun w => R1 w ∧ (r.1.v1 = false → P w.buf))
      (fun w hw => ⟨e1 w hw, fun _ => hw⟩) (fun hn => ⟨h1, fun hv => g1 (by rw [k1, hn] at hv; simpa using hv)⟩)) (fun x1' hx1 => ?_)
    refine Safe.bind (Safe.arrayIf hP (fun w => R2 w ∧ (r.1.v2 = false → P w.buf))
      (fun w hw => ⟨e2 w hw, fun _ => hw⟩) (fun hn => ⟨h2, fun hv => g2 (by rw [k2, hn] at hv; simpa using hv)⟩)) (fun x2' hx2 => ?_)
    refine Safe.bind (Safe.hAlignLoop hP cast rest (ax + 1) x1' x2' _ _ R1 R2 e1 e2 hx1.1 hx2.1 hx1.2 hx2.2)
      (fun t ht => Safe.pure ht)

theorem Safe.hAlignRaw (hP : ∀ a, h0.next ≤ a → a < h0.top → P a) (join : JoinArg) (cast : Bool) (p r : Nat) :
    Safe P h0 (La.hAlignRaw join cast p r : HM L _)
      (fun t => (t.2.2.1 = false → P t.1.buf) ∧ (t.2.2.2.1 = false → P t.2.1.buf)) := by
  refine Safe.bind (Safe.getObj p) (fun o1 _ => ?_)
  refine Safe.bind (Safe.getObj r) (fun o2 _ => ?_)
  refine Safe.bind (Safe.look _) (fun lar1 _ => ?_)
  refine Safe.bind (Safe.look _) (fun lar2 _ => ?_)
  split
  · exact Safe.mono (Safe.lift _) (by simp)
  refine Safe.bind (Safe.lift _) (fun js _ => ?_)
  exact Safe.mono (Safe.hAlignLoop hP cast _ 0 _ _ true true (fun _ => True) (fun _ => True) (by simp) (by simp)
    trivial trivial (by simp) (by simp)) (fun t ht => ht.2.2)

theorem Safe.hAlignRawIn (hP : ∀ a, h0.next ≤ a → a < h0.top → P a) (join : JoinArg) (cast : Bool) {p r : Nat} (hp : P p)
    (hr : P r) : Safe P h0 (La.hAlignRaw join cast p r : HM L _) (fun t => P t.1.buf ∧ P t.2.1.buf) := by
  refine Safe.bind (Safe.getObjIn hp) (fun o1 ho1 => ?_)
  refine Safe.bind (Safe.getObjIn hr) (fun o2 ho2 => ?_)
  refine Safe.bind (Safe.look _) (fun lar1 _ => ?_)
  refine Safe.bind (Safe.look _) (fun lar2 _ => ?_)
  split
  · exact Safe.mono (Safe.lift _) (by simp)
  refine Safe.bind (Safe.lift _) (fun js _ => ?_)
  exact Safe.mono (Safe.hAlignLoop hP cast _ 0 _ _ true true (fun w => P w.buf) (fun w => P w.buf) (by simp) (by simp)
    ho1.1 ho2.1 (by simp) (by simp)) (fun t ht => ⟨ht.1, ht.2.1⟩)

omit [LinearOrder L] in
theorem Safe.hAlignOut (hP : ∀ a, h0.next ≤ a → a < h0.top → P a) (own : List (List L)) (labs : List (Option (List L))) {v : View}
    {isview : Bool} (hv : isview = false → P v.buf) : Safe P h0 (La.hAlignOut own labs v isview) P := by
  refine Safe.bind (Safe.newLists hP _) (fun as has => ?_)
  refine Safe.bind (Safe.alloc hP (c := .out as) has) (fun label hl => ?_)
  split
  · refine Safe.bind (Safe.look _) (fun x _ => ?_)
    exact Safe.bind (Safe.newArray hP _ _) (fun v hv => Safe.newLarry hP hv hl)
  · rename_i h
    exact Safe.newLarry hP (hv (by simpa using h)) hl

theorem Safe.hAlign (hP : ∀ a, h0.next ≤ a → a < h0.top → P a) (join : JoinArg) (cast : Bool) (p r : Nat) :
    Safe P h0 (La.hAlign join cast p r : HM L _) (fun q => P q.1 ∧ P q.2) := by
  refine Safe.bind (Safe.hAlignRaw hP join cast p r) (fun t ht => ?_)
  refine Safe.bind (Safe.valueOf p) (fun lar1 _ => ?_)
  refine Safe.bind (Safe.valueOf r) (fun lar2 _ => ?_)
  refine Safe.bind (Safe.hAlignOut hP _ _ ht.1) (fun q1 h1 => ?_)
  exact Safe.bind (Safe.hAlignOut hP _ _ ht.2) (fun q2 h2 => Safe.pure ⟨h1, h2⟩)

omit [LinearOrder L] in
theorem Safe.hFillOne (cv : DType → Val → Val) (miss : Option Val) {x1 x2 : View} (h1 : P x1.buf) (h2 : P x2.buf)
    (s1 s2 : List Nat → Bool) : Safe P h0 (La.hFillOne cv miss x1 x2 s1 s2 : HM L Unit) (fun _ => True) := by
  unfold La.hFillOne
  split
  · exact Safe.pure trivial
  · exact Safe.bind (Safe.writeWhere h1 _ _) (fun _ _ => Safe.writeWhere h2 _ _)

omit [LinearOrder L] in
theorem Safe.hFill (cv : DType → Val → Val) (missone misstwo : Option Val) {x1 x2 : View} (h1 : P x1.buf)
    (h2 : P x2.buf) : Safe P h0 (La.hFill cv missone misstwo x1 x2 : HM L Unit) (fun _ => True) := by
  refine Safe.bind (Safe.look _) (fun a1 _ => ?_)
  refine Safe.bind (Safe.look _) (fun a2 _ => ?_)
  exact Safe.bind (Safe.hFillOne cv missone h1 h2 _ _) (fun _ _ => Safe.hFillOne cv misstwo h1 h2 _ _)

omit [LinearOrder L] in
theorem Safe.hFillNone (cv : DType → Val → Val) (x1 x2 : View) :
    Safe P h0 (La.hFill cv none none x1 x2 : HM L Unit) (fun _ => True) := by
  refine Safe.bind (Safe.look _) (fun a1 _ => ?_)
  refine Safe.bind (Safe.look _) (fun a2 _ => ?_)
  exact Safe.bind (Q := fun _ => True) (Safe.pure trivial) (fun _ _ => Safe.pure trivial)

omit [LinearOrder L] in
/-- The part of `binaryop` after the fills. -/
theorem Safe.binaryopTail (hP : ∀ a, h0.next ≤ a → a < h0.top → P a) (uf : UFunc2) (x1 x2 : View)
    (labs : List (Option (List L))) :
    Safe P h0 (do
      let a1 ← HM.look (fun h => h.array x1)
      let a2 ← HM.look (fun h => h.array x2)
      let x ← HM.lift (npBinop uf a1 x1.dtype a2 x2.dtype)
      let v ← La.newArray x.1 x.2
      let as ← La.newLists (labs.map (fun l => l.getD []))
      let label ← La.alloc (.out as)
      La.newLarry v label : HM L Nat) P := by
  refine Safe.bind (Safe.look _) (fun a1 _ => ?_)
  refine Safe.bind (Safe.look _) (fun a2 _ => ?_)
  refine Safe.bind (Safe.lift _) (fun x _ => ?_)
  refine Safe.bind (Safe.newArray hP _ _) (fun v hv => ?_)
  refine Safe.bind (Safe.newLists hP _) (fun as has => ?_)
  exact Safe.bind (Safe.alloc hP (c := .out as) has) (fun label hl => Safe.newLarry hP hv hl)

theorem Safe.hBinaryop (hP : ∀ a, h0.next ≤ a → a < h0.top → P a) (cv : DType → Val → Val) (uf : UFunc2) (join : JoinArg)
    (cast : Bool) (missone misstwo : Option Val) {p r : Nat} (hp : P p) (hr : P r) :
    Safe P h0 (La.hBinaryop cv uf join cast missone misstwo p r : HM L Nat) P := by
  refine Safe.bind (Safe.hAlignRawIn hP join cast hp hr) (fun t ht => ?_)
  split
  · exact Safe.mono (Safe.lift _) (by simp)
  exact Safe.bind (Safe.hFill cv missone misstwo ht.1 ht.2) (fun _ _ => Safe.binaryopTail hP uf _ _ _)

/-- Without fills `binaryop` writes to nothing and returns something new. -/
theorem Safe.hBinaryopNone (hP : ∀ a, h0.next ≤ a → a < h0.top → P a) (cv : DType → Val → Val) (uf : UFunc2) (join : JoinArg)
    (cast : Bool) (p r : Nat) : Safe P h0 (La.hBinaryop cv uf join cast none none p r : HM L Nat) P := by
  refine Safe.bind (Safe.hAlignRaw hP join cast p r) (fun t ht => ?_)
  split
  · exact Safe.mono (Safe.lift _) (by simp)
  exact Safe.bind (Safe.hFillNone cv _ _) (fun _ _ => Safe.binaryopTail hP uf _ _ _)

theorem Safe.hMergeLoop (hP : ∀ a, h0.next ≤ a → a < h0.top → P a) : ∀ (axs : List Nat) {q1 q2 : Nat}, P q1 →
    Safe P h0 (La.hMergeLoop axs q1 q2 : HM L _) (fun qs => P qs.1)
  | [], q1, q2, h => Safe.pure h
  | ax :: rest, q1, q2, h => by
    refine Safe.bind (Safe.valueOf q1) (fun y1 _ => ?_)
    refine Safe.bind (Safe.valueOf q2) (fun y2 _ => ?_)
    split
    · exact Safe.hMergeLoop hP rest h
    · refine Safe.bind (Safe.hMorph hP _ _ _) (fun q1' h' => ?_)
      exact Safe.bind (Safe.hMorph hP _ _ _) (fun q2' _ => Safe.hMergeLoop hP rest h')

theorem Safe.hMerge (hP : ∀ a, h0.next ≤ a → a < h0.top → P a) (update : Bool) {p : Nat} (r : Nat) (hp : P p) :
    Safe P h0 (La.hMerge update p r : HM L Nat) P := by
  refine Safe.bind (Safe.valueOf p) (fun y _ => ?_)
  refine Safe.bind (Safe.valueOf r) (fun other _ => ?_)
  split
  · exact Safe.mono (Safe.lift _) (by simp)
  refine Safe.bind (Safe.hMergeLoop hP _ hp) (fun qs hqs => ?_)
  refine Safe.bind (Safe.getObjIn hqs) (fun o1 ho1 => ?_)
  refine Safe.bind (Safe.look _) (fun lar1 _ => ?_)
  refine Safe.bind (Safe.valueOf qs.2) (fun lar2 _ => ?_)
  split
  · exact Safe.mono (Safe.lift _) (by simp)
  extract_lets mask1 mask2
  split
  · exact Safe.mono (Safe.lift _) (by simp)
  split
  · split
    · exact Safe.bind (Safe.writeWhere ho1.1 _ _) (fun _ _ => Safe.pure hqs)
    · exact Safe.mono (Safe.lift _) (by simp)
  · exact Safe.pure hqs

end order

/-! ## Views -/

theorem Safe.hSqueeze (hP : ∀ a, h0.next ≤ a → a < h0.top → P a) {p : Nat} (hp : P p) : Safe P h0 (La.hSqueeze p : HM L Nat) P := by
  refine Safe.bind (Safe.getObjIn hp) (fun o ho => ?_)
  refine Safe.bind (Safe.lookOut ho.2) (fun as has => ?_)
  refine Safe.bind (Safe.alloc hP (c := .out _) ?_) (fun label hl => ?_)
  · intro b hb
    obtain ⟨c, hc, rfl⟩ := List.mem_map.mp hb
    exact has _ (List.of_mem_zip (List.mem_of_mem_filter hc)).1
  · exact Safe.newLarry hP (v := ⟨o.x.buf, o.x.ix.squeeze, o.x.dtype⟩) ho.1 hl

theorem Safe.hInit [DecidableEq L] (hP : ∀ a, h0.next ≤ a → a < h0.top → P a) {v : View} {label : Nat} (hv : P v.buf)
    (hl : P label) : Safe P h0 (La.hInit v label : HM L Nat) P := by
  refine Safe.bind (Safe.look _) (fun z _ => ?_)
  exact Safe.bind (Safe.lift _) (fun _ _ => Safe.newLarry hP hv hl)

theorem Safe.hPull [LinearOrder L] (hP : ∀ a, h0.next ≤ a → a < h0.top → P a) (name : L) (axis : Option Int) {p : Nat} (hp : P p) :
    Safe P h0 (La.hPull name axis p) (Ref.In P) := by
  unfold La.hPull
  split
  · exact Safe.mono (Safe.lift _) (by simp)
  refine Safe.bind (Safe.getObjIn hp) (fun o ho => ?_)
  refine Safe.bind (Safe.look _) (fun y _ => ?_)
  refine Safe.bind (Safe.lookOut ho.2) (fun as has => ?_)
  refine Safe.bind (Safe.lift _) (fun bs hbs => ?_)
  refine Safe.bind (Safe.lift _) (fun idx _ => ?_)
  refine Safe.bind (Safe.lift _) (fun ax _ => ?_)
  split
  · exact Safe.mono (Safe.lift _) (by simp)
  extract_lets v
  split
  · exact Safe.pure trivial
  · refine Safe.bind (Safe.alloc hP (c := .out bs) (fun b hb => has b (pyPop_mem hbs hb))) (fun label hl => ?_)
    exact Safe.bind (Safe.hInit hP (v := v) ho.1 hl) (fun q hq => Safe.pure hq)

theorem Safe.hIndex (hP : ∀ a, h0.next ≤ a → a < h0.top → P a) {v : View} {its : List NpItem}
    (hv : its.any NpItem.copies = true ∨ P v.buf) : Safe P h0 (La.hIndex v its : HM L View) (fun w => P w.buf) := by
  refine Safe.bind (Safe.lift _) (fun ix _ => ?_)
  split
  · exact Safe.bind (Safe.look _) (fun x _ => Safe.newArray hP _ _)
  · rename_i h
    exact Safe.pure (hv.resolve_left h)

theorem Safe.hPart (hP : ∀ a, h0.next ≤ a → a < h0.top → P a) {v : View} {np : NpItem} (hv : np.copies = true ∨ P v.buf) :
    Safe P h0 (La.hPart np v : HM L View) (fun w => P w.buf) := by
  unfold La.hPart
  split
  · refine Safe.bind (Safe.look _) (fun x _ => ?_)
    exact Safe.bind (Safe.lift _) (fun x _ => Safe.newArray hP x _)
  · refine Safe.hIndex hP ?_
    rcases hv with hv | hv
    · exact Or.inl (by simp [hv])
    · exact Or.inr hv

theorem Safe.hTupleLabels (hP : ∀ a, h0.next ≤ a → a < h0.top → P a) :
    ∀ (l : List (Nat × Option (List L))) (n : Nat), (l.length ≤ n ∨ ∀ c ∈ l, P c.1) →
      Safe P h0 (La.hTupleLabels l n) (fun bs => ∀ b ∈ bs, P b)
  | [], _, _ => Safe.pure (by simp)
  | (a, none) :: rest, n, h => Safe.hTupleLabels hP rest (n - 1) (by
      rcases h with h | h
      · left; simp at h; omega
      · right; exact fun c hc => h c (by simp [hc]))
  | (a, some lab) :: rest, n, h => by
    refine Safe.bind (Safe.listIf hP (a := a) (lab := lab) (new := decide (0 < n)) ?_) (fun b hb => ?_)
    · rcases h with h | h
      · left; simp at h; simp; omega
      · right; exact h (a, some lab) (by simp)
    refine Safe.bind (Safe.hTupleLabels hP rest (n - 1) ?_) (fun bs hbs => Safe.pure ?_)
    · rcases h with h | h
      · left; simp at h; omega
      · right; exact fun c hc => h c (by simp [hc])
    · simp only [List.mem_cons, forall_eq_or_imp]
      exact ⟨hb, hbs⟩

section dec
variable [DecidableEq L]

theorem Safe.hMake (hP : ∀ a, h0.next ≤ a → a < h0.top → P a) {v : View} {label : Nat} (hv : P v.buf)
    (hl : P label) (validate : Bool) : Safe P h0 (La.hMake v label validate : HM L Nat) P := by
  unfold La.hMake
  split
  · exact Safe.hInit hP hv hl
  · exact Safe.newLarry hP hv hl

theorem Safe.hGetTuple (hP : ∀ a, h0.next ≤ a → a < h0.top → P a) (its : List (Item L)) {p : Nat} (hp : P p) :
    Safe P h0 (La.hGetTuple its p) (Ref.In P) := by
  refine Safe.bind (Safe.getObjIn hp) (fun o ho => ?_)
  refine Safe.bind (Safe.look _) (fun y _ => ?_)
  refine Safe.bind (Safe.lookOut ho.2) (fun as has => ?_)
  refine Safe.bind (Safe.lift _) (fun labs _ => ?_)
  refine Safe.bind (Safe.hTupleLabels hP _ _ (Or.inr (fun c hc => has _ (List.of_mem_zip hc).1))) (fun bs hbs => ?_)
  refine Safe.bind (Safe.hIndex hP (Or.inr ho.1)) (fun v hv => ?_)
  split
  · refine Safe.pure ?_
    split
    · trivial
    · exact hv
  · refine Safe.bind (Safe.alloc hP (c := .out bs) hbs) (fun label hl => ?_)
    exact Safe.bind (Safe.hMake hP hv hl _) (fun q hq => Safe.pure hq)

theorem Safe.hGetOne (hP : ∀ a, h0.next ≤ a → a < h0.top → P a) (np : NpItem) (lab : List L) {shallow : Bool} (validate : Bool)
    {p : Nat} (hp : P p ∨ (shallow = false ∧ np.copies = true)) :
    Safe P h0 (La.hGetOne np lab shallow validate p) (Ref.In P) := by
  have hobj : Safe P h0 (La.getObj p : HM L Obj) (fun o => (P o.x.buf ∧ P o.label) ∨ (shallow = false ∧ np.copies = true)) := by
    rcases hp with hp | hp
    · exact Safe.mono (Safe.getObjIn hp) (fun o ho => Or.inl ho)
    · exact Safe.mono (Safe.getObj p) (fun o _ => Or.inr hp)
  refine Safe.bind hobj (fun o ho => ?_)
  have hout : Safe P h0 (HM.look (fun h => h.out o.label)) (fun as => (∀ b ∈ as, P b) ∨ shallow = false) := by
    rcases ho with ho | ho
    · exact Safe.mono (Safe.lookOut ho.2) (fun o ho => Or.inl ho)
    · exact Safe.mono (Safe.look _) (fun o _ => Or.inr ho.1)
  refine Safe.bind hout (fun as has => ?_)
  refine Safe.bind (Q := P) ?_ (fun label hl => ?_)
  · unfold shallowIf
    split
    · rename_i hs
      exact Safe.alloc hP (c := .out as) (has.resolve_right (by simp [hs]))
    · exact Safe.copylabel hP o
  refine Safe.bind (Safe.setLab hP hl _ _) (fun _ _ => ?_)
  refine Safe.bind (Safe.hPart hP (v := o.x) (np := np) ?_) (fun v hv => ?_)
  · rcases ho with ho | ho
    · exact Or.inr ho.1
    · exact Or.inl ho.2
  exact Safe.bind (Safe.hMake hP hv hl _) (fun q hq => Safe.pure hq)

theorem Safe.hGetitem (hP : ∀ a, h0.next ≤ a → a < h0.top → P a) (isList : Bool) (idx : Index L) {p : Nat} (hp : P p) :
    Safe P h0 (La.hGetitem isList idx p) (Ref.In P) := by
  cases idx with
  | tuple its => exact Safe.hGetTuple hP its hp
  | one it =>
    cases it with
    | int i =>
      refine Safe.bind (Safe.getObjIn hp) (fun o ho => ?_)
      refine Safe.bind (Safe.look _) (fun y _ => ?_)
      refine Safe.bind (Safe.lookOut ho.2) (fun as has => ?_)
      split
      · exact Safe.mono (Safe.lift _) (by simp)
      refine Safe.bind (Safe.hIndex hP (Or.inr ho.1)) (fun v hv => ?_)
      split
      · refine Safe.pure ?_
        split
        · trivial
        · exact hv
      · refine Safe.bind (Safe.alloc hP (c := .out _) (fun b hb => has b (List.mem_of_mem_drop hb))) (fun label hl => ?_)
        exact Safe.bind (Safe.newLarry hP hv hl) (fun q hq => Safe.pure hq)
    | slice s =>
      refine Safe.bind (Safe.valueOf p) (fun y _ => ?_)
      exact Safe.bind (Safe.lift _) (fun lab _ => Safe.hGetOne hP _ _ _ (Or.inl hp))
    | seq is =>
      refine Safe.bind (Safe.valueOf p) (fun y _ => ?_)
      refine Safe.bind (Safe.lift _) (fun _ _ => ?_)
      exact Safe.bind (Safe.lift _) (fun lab _ => Safe.hGetOne hP _ _ _ (Or.inl hp))
    | mask bs =>
      refine Safe.bind (Safe.valueOf p) (fun y _ => ?_)
      exact Safe.bind (Safe.lift _) (fun lab _ => Safe.hGetOne hP _ _ _ (Or.inl hp))
    | lar m =>
      refine Safe.bind (Safe.valueOf p) (fun y _ => ?_)
      refine Safe.bind (Safe.lift _) (fun _ _ => ?_)
      exact Safe.bind (Safe.lift _) (fun lab _ => Safe.hGetOne hP _ _ _ (Or.inl hp))
    | nd => exact Safe.mono (Safe.lift _) (by simp)
    | other => exact Safe.mono (Safe.lift _) (by simp)

end dec

/-! ## In place -/

theorem Safe.hInPlace (f : Larry L → Res (Larry L)) {p : Nat} (hp : P p) :
    Safe P h0 (La.hInPlace f p) (fun _ => True) := by
  refine Safe.bind (Safe.getObjIn hp) (fun o ho => ?_)
  refine Safe.bind (Safe.look _) (fun y _ => ?_)
  exact Safe.bind (Safe.lift _) (fun z _ => Safe.writeX ho.1 _)

theorem Safe.hShuffleLabel (perm : List L → List L) (ax : Int) {p : Nat} (hp : P p) :
    Safe P h0 (La.hShuffleLabel perm ax p) (fun _ => True) := by
  refine Safe.bind (Safe.getObjIn hp) (fun o ho => ?_)
  refine Safe.bind (Safe.lookOut ho.2) (fun as has => ?_)
  refine Safe.bind (Safe.lift _) (fun a ha => ?_)
  refine Safe.bind (Safe.look _) (fun l _ => ?_)
  obtain ⟨k, _, hk⟩ := pyGet_ok.mp ha
  exact Safe.put (has a (List.mem_of_getElem? hk)) (c := .lst (perm l)) trivial

/-! ## Steps -/

variable {env : List Ref}

theorem Safe.asLarry (henv : ∀ r ∈ env, Ref.In P r) (i : Nat) : Safe P h0 (La.asLarry env i : HM L Nat) P := by
  unfold La.asLarry
  split
  · rename_i p h
    exact Safe.pure (henv _ (List.mem_of_getElem? h))
  · exact Safe.mono (Safe.lift _) (by simp)

theorem Safe.asArray (henv : ∀ r ∈ env, Ref.In P r) (i : Nat) :
    Safe P h0 (La.asArray env i : HM L View) (fun v => P v.buf) := by
  unfold La.asArray
  split
  · rename_i p h
    exact Safe.pure (henv _ (List.mem_of_getElem? h))
  · exact Safe.mono (Safe.lift _) (by simp)

theorem Safe.asList (henv : ∀ r ∈ env, Ref.In P r) (i : Nat) : Safe P h0 (La.asList env i : HM L Nat) P := by
  unfold La.asList
  split
  · rename_i p h
    exact Safe.pure (henv _ (List.mem_of_getElem? h))
  · exact Safe.mono (Safe.lift _) (by simp)

theorem Safe.asOut (henv : ∀ r ∈ env, Ref.In P r) (i : Nat) : Safe P h0 (La.asOut env i : HM L Nat) P := by
  unfold La.asOut
  split
  · rename_i p h
    exact Safe.pure (henv _ (List.mem_of_getElem? h))
  · exact Safe.mono (Safe.lift _) (by simp)

theorem Safe.asLists (henv : ∀ r ∈ env, Ref.In P r) : ∀ is : List Nat,
    Safe P h0 (La.asLists env is : HM L (List Nat)) (fun as => ∀ a ∈ as, P a)
  | [] => Safe.pure (by simp)
  | i :: is => by
    refine Safe.bind (Safe.asList henv i) (fun a ha => ?_)
    refine Safe.bind (Safe.asLists henv is) (fun as has => Safe.pure ?_)
    simp only [List.mem_cons, forall_eq_or_imp]
    exact ⟨ha, has⟩

theorem Safe.give {m : HM L Nat} (h : Safe P h0 m P) : Safe P h0 (giveLarry m) (fun rs => ∀ r ∈ rs, Ref.In P r) :=
  Safe.bind h (fun q hq => Safe.pure (by simpa [Ref.In] using hq))

end rules

/-- Every step stays within the references held. -/
theorem Safe.run [LinearOrder L] {P : Nat → Prop} {h0 : Base L} (hP : ∀ a, h0.next ≤ a → a < h0.top → P a) {env : List Ref}
    (henv : ∀ r ∈ env, Ref.In P r) (a : Act L) : Safe P h0 (a.run env) (fun rs => ∀ r ∈ rs, Ref.In P r) := by
  cases a with
  | copy i => exact Safe.bind (Safe.asLarry henv i) (fun p _ => Safe.give (Safe.hCopy hP p))
  | unary f i => exact Safe.bind (Safe.asLarry henv i) (fun p _ => Safe.give (Safe.hUnary hP f p))
  | copyAssign f i => exact Safe.bind (Safe.asLarry henv i) (fun p _ => Safe.give (Safe.hCopyAssign hP f p))
  | copyWrite f i => exact Safe.bind (Safe.asLarry henv i) (fun p _ => Safe.give (Safe.hCopyWrite hP f p))
  | reduce f axis i => exact Safe.bind (Safe.asLarry henv i) (fun p _ => Safe.give (Safe.hReduce hP f axis p))
  | morph lab axis i => exact Safe.bind (Safe.asLarry henv i) (fun p _ => Safe.give (Safe.hMorph hP lab axis p))
  | morphLike i j =>
    refine Safe.bind (Safe.asLarry henv i) (fun p _ => ?_)
    exact Safe.bind (Safe.asLarry henv j) (fun r _ => Safe.give (Safe.hMorphLike hP p r))
  | sortaxis axis reverse i =>
    refine Safe.bind (Safe.asLarry henv i) (fun p hp => Safe.give ?_)
    exact Safe.bind (Safe.valueOf p) (fun y _ => Safe.hSortaxisLoop hP y reverse _ (Or.inr hp))
  | take indices axis i => exact Safe.bind (Safe.asLarry henv i) (fun p _ => Safe.give (Safe.hTake hP indices axis p))
  | keepLabel op axis i => exact Safe.bind (Safe.asLarry henv i) (fun p _ => Safe.give (Safe.hKeepLabel hP op axis p))
  | lag nlag axis i => exact Safe.bind (Safe.asLarry henv i) (fun p _ => Safe.give (Safe.hLag hP nlag axis p))
  | transpose i => exact Safe.bind (Safe.asLarry henv i) (fun p _ => Safe.give (Safe.hT hP p))
  | swapaxes a1 a2 i => exact Safe.bind (Safe.asLarry henv i) (fun p _ => Safe.give (Safe.hSwapaxes hP a1 a2 p))
  | flipaxis axis copy i =>
    exact Safe.bind (Safe.asLarry henv i) (fun p hp => Safe.give (Safe.hFlipaxis hP axis (Or.inr hp)))
  | maplabel f axis copy i =>
    exact Safe.bind (Safe.asLarry henv i) (fun p hp => Safe.give (Safe.hMaplabel hP f axis (Or.inr hp)))
  | vacuum axis i => exact Safe.bind (Safe.asLarry henv i) (fun p _ => Safe.give (Safe.hVacuum hP axis p))
  | cutMissing fr axis i => exact Safe.bind (Safe.asLarry henv i) (fun p _ => Safe.give (Safe.hCutMissing hP fr axis p))
  | keepX op value vac i => exact Safe.bind (Safe.asLarry henv i) (fun p _ => Safe.give (Safe.hKeepX hP op value vac p))
  | insertaxis axis name i => exact Safe.bind (Safe.asLarry henv i) (fun p _ => Safe.give (Safe.hInsertaxis hP axis name p))
  | binop uf always i j =>
    refine Safe.bind (Safe.asLarry henv i) (fun p _ => ?_)
    exact Safe.bind (Safe.asLarry henv j) (fun r _ => Safe.give (Safe.hBinop hP uf always p r))
  | align join cast i j =>
    refine Safe.bind (Safe.asLarry henv i) (fun p _ => ?_)
    refine Safe.bind (Safe.asLarry henv j) (fun r _ => ?_)
    exact Safe.bind (Safe.hAlign hP join cast p r) (fun q hq => Safe.pure (by simpa [Ref.In] using hq))
  | binaryop cv uf join cast m1 m2 i j =>
    refine Safe.bind (Safe.asLarry henv i) (fun p hp => ?_)
    exact Safe.bind (Safe.asLarry henv j) (fun r hr => Safe.give (Safe.hBinaryop hP cv uf join cast m1 m2 hp hr))
  | merge update i j =>
    refine Safe.bind (Safe.asLarry henv i) (fun p hp => ?_)
    exact Safe.bind (Safe.asLarry henv j) (fun r _ => Safe.give (Safe.hMerge hP update r hp))
  | squeeze i => exact Safe.bind (Safe.asLarry henv i) (fun p hp => Safe.give (Safe.hSqueeze hP hp))
  | pull name axis i =>
    refine Safe.bind (Safe.asLarry henv i) (fun p hp => ?_)
    exact Safe.bind (Safe.hPull hP name axis hp) (fun r hr => Safe.pure (by simpa using hr))
  | getitem isList idx i =>
    refine Safe.bind (Safe.asLarry henv i) (fun p hp => ?_)
    exact Safe.bind (Safe.hGetitem hP isList idx hp) (fun r hr => Safe.pure (by simpa using hr))
  | inPlace f i =>
    refine Safe.bind (Safe.asLarry henv i) (fun p hp => ?_)
    exact Safe.bind (Safe.hInPlace f hp) (fun _ _ => Safe.pure (by simp))
  | shuffleLabel perm ax i =>
    refine Safe.bind (Safe.asLarry henv i) (fun p hp => ?_)
    exact Safe.bind (Safe.hShuffleLabel perm ax hp) (fun _ _ => Safe.pure (by simp))
  | attrX i =>
    refine Safe.bind (Safe.asLarry henv i) (fun p hp => ?_)
    exact Safe.bind (Safe.getObjIn hp) (fun o ho => Safe.pure (by simpa [Ref.In] using ho.1))
  | attrLabel i =>
    refine Safe.bind (Safe.asLarry henv i) (fun p hp => ?_)
    exact Safe.bind (Safe.getObjIn hp) (fun o ho => Safe.pure (by simpa [Ref.In] using ho.2))
  | item k i =>
    refine Safe.bind (Safe.asOut henv i) (fun a ha => ?_)
    refine Safe.bind (Safe.lookOut ha) (fun as has => ?_)
    refine Safe.bind (Safe.lift _) (fun b hb => Safe.pure ?_)
    obtain ⟨n, _, hn⟩ := pyGet_ok.mp hb
    simpa [Ref.In] using has b (List.mem_of_getElem? hn)
  | mkArray x d => exact Safe.bind (Safe.newArray hP x d) (fun v hv => Safe.pure (by simpa [Ref.In] using hv))
  | mkList l => exact Safe.bind (Safe.alloc hP (c := .lst l) trivial) (fun a ha => Safe.pure (by simpa [Ref.In] using ha))
  | mkOut is =>
    refine Safe.bind (Safe.asLists henv is) (fun as has => ?_)
    exact Safe.bind (Safe.alloc hP (c := .out as) has) (fun a ha => Safe.pure (by simpa [Ref.In] using ha))
  | init i j =>
    refine Safe.bind (Safe.asArray henv i) (fun v hv => ?_)
    exact Safe.bind (Safe.asOut henv j) (fun l hl => Safe.give (Safe.hInit hP hv hl))
  | view g i =>
    exact Safe.bind (Safe.asArray henv i) (fun v hv => Safe.pure (by simpa [Ref.In] using hv))
  | write sel val i =>
    refine Safe.bind (Safe.asArray henv i) (fun v hv => ?_)
    exact Safe.bind (Safe.writeWhere hv sel val) (fun _ _ => Safe.pure (by simp))
  | writeList l i =>
    refine Safe.bind (Safe.asList henv i) (fun a ha => ?_)
    exact Safe.bind (Safe.put ha (c := .lst l) trivial) (fun _ _ => Safe.pure (by simp))
  | writeOut k i j =>
    refine Safe.bind (Safe.asOut henv i) (fun a ha => ?_)
    refine Safe.bind (Safe.asList henv j) (fun b hb => ?_)
    refine Safe.bind (Safe.lookOut ha) (fun as has => ?_)
    exact Safe.bind (Safe.put ha (Safe.outSet has hb)) (fun _ _ => Safe.pure (by simp))
  | assignX i j =>
    refine Safe.bind (Safe.asLarry henv i) (fun p hp => ?_)
    refine Safe.bind (Safe.asArray henv j) (fun v hv => ?_)
    exact Safe.bind (Safe.setX hp hv) (fun _ _ => Safe.pure (by simp))
  | assignLabel i j =>
    refine Safe.bind (Safe.asLarry henv i) (fun p hp => ?_)
    refine Safe.bind (Safe.asOut henv j) (fun l hl => ?_)
    exact Safe.bind (Safe.setLabel hp hl) (fun _ _ => Safe.pure (by simp))

end La

namespace La
variable {L : Type} {α β : Type}

/-! ## The same at one memory -/

/-- `Safe` for a run from `h`. -/
def SafeAt (P : Nat → Prop) (h0 : Base L) (h : Heap L) (m : HM L α) (Q : α → Prop) : Prop :=
  (m.after h).next ≤ h0.top → Inv P h0 h → Inv P h0 (m.after h) ∧ ∀ v, m.out h = .ok v → Q v

section atOne
variable {P : Nat → Prop} {h0 : Base L} {h : Heap L}

theorem Safe.at {m : HM L α} {Q : α → Prop} (hs : Safe P h0 m Q) : SafeAt P h0 h m Q := hs h

theorem SafeAt.mono {m : HM L α} {Q Q' : α → Prop} (hs : SafeAt P h0 h m Q) (hq : ∀ v, Q v → Q' v) :
    SafeAt P h0 h m Q' := fun ht hi => ⟨(hs ht hi).1, fun v hv => hq v ((hs ht hi).2 v hv)⟩

/-- A computation that only reads. -/
theorem SafeAt.read {m : HM L α} {f : α → HM L β} {Q : β → Prop} (hm : m.after h = h)
    (hf : ∀ v, m.out h = .ok v → SafeAt P h0 h (f v) Q) : SafeAt P h0 h (m >>= f) Q := by
  intro ht hi
  cases hv : m.out h with
  | error e =>
    obtain ⟨e1, e2⟩ := HM.bind_error (f := f) hv
    rw [e1, e2, hm]
    exact ⟨hi, by simp⟩
  | ok v =>
    obtain ⟨e1, e2⟩ := HM.bind_ok (f := f) hv
    rw [e2, hm] at ht ⊢
    rw [e1, hm]
    exact hf v hv ht hi

theorem SafeAt.bind {m : HM L α} {f : α → HM L β} {Q : α → Prop} {Q' : β → Prop} (h1 : SafeAt P h0 h m Q)
    (h2 : ∀ v, Q v → Safe P h0 (f v) Q') : SafeAt P h0 h (m >>= f) Q' := by
  intro ht hi
  cases hm : m.out h with
  | error e =>
    obtain ⟨e1, e2⟩ := HM.bind_error (f := f) hm
    rw [e2] at ht ⊢
    rw [e1]
    exact ⟨(h1 ht hi).1, by simp⟩
  | ok v =>
    obtain ⟨e1, e2⟩ := HM.bind_ok (f := f) hm
    rw [e2] at ht ⊢
    rw [e1]
    obtain ⟨g1, g2⟩ := h1 ((HM.next_le (f v) (m.after h)).trans ht) hi
    exact h2 v (g2 v hm) _ ht g1

theorem SafeAt.lift (r : Res α) : SafeAt P h0 h (HM.lift r) (fun v => r = .ok v) := (Safe.lift r).at

theorem SafeAt.readObj {p : Nat} {f : Obj → HM L β} {Q : β → Prop}
    (hf : ∀ o, h.cell p = some (.obj o) → SafeAt P h0 h (f o) Q) : SafeAt P h0 h (La.getObj p >>= f) Q :=
  SafeAt.read (getObj_after p h) (fun o ho => hf o (getObj_ok.mp ho))

theorem SafeAt.readLook {g : Heap L → α} {f : α → HM L β} {Q : β → Prop}
    (hf : SafeAt P h0 h (f (g h)) Q) : SafeAt P h0 h (HM.look g >>= f) Q :=
  SafeAt.read rfl (fun v hv => by cases hv; exact hf)

theorem valueOf_after (p : Nat) (h : Heap L) : (La.valueOf p).after h = h := by
  unfold La.valueOf
  cases ho : (La.getObj p).out h with
  | error e => rw [(HM.bind_error ho).2, getObj_after]
  | ok o => rw [(HM.bind_ok ho).2, getObj_after]; rfl

theorem valueOf_ok {p : Nat} {h : Heap L} {y : Larry L} :
    (La.valueOf p).out h = .ok y ↔ ∃ o, h.cell p = some (.obj o) ∧ y = h.value o := by
  unfold La.valueOf
  cases ho : (La.getObj p).out h with
  | error e =>
    rw [(HM.bind_error ho).1]
    simp only [reduceCtorEq, false_iff, not_exists, not_and]
    intro o h1
    rw [getObj_ok.mpr h1] at ho
    simp at ho
  | ok o =>
    rw [(HM.bind_ok ho).1, getObj_after]
    have h1 := getObj_ok.mp ho
    constructor
    · intro h2
      cases h2
      exact ⟨o, h1, rfl⟩
    · rintro ⟨o', h2, rfl⟩
      rw [h1] at h2
      cases h2
      rfl

theorem SafeAt.readValue {p : Nat} {f : Larry L → HM L β} {Q : β → Prop}
    (hf : ∀ o, h.cell p = some (.obj o) → SafeAt P h0 h (f (h.value o)) Q) : SafeAt P h0 h (La.valueOf p >>= f) Q :=
  SafeAt.read (valueOf_after p h) (fun y hy => by obtain ⟨o, ho, rfl⟩ := valueOf_ok.mp hy; exact hf o ho)

section order
variable [LinearOrder L]

/-- `merge` of larrys whose labels differ on some axis writes to nothing there was. -/
theorem SafeAt.hMergeLoop (hP : ∀ a, h0.next ≤ a → a < h0.top → P a) {p r : Nat} {o1 o2 : Obj}
    (h1 : h.cell p = some (.obj o1)) (h2 : h.cell r = some (.obj o2)) :
    ∀ axs : List Nat, (∃ ax ∈ axs, (h.value o1).label.getD ax [] ≠ (h.value o2).label.getD ax []) →
      SafeAt P h0 h (La.hMergeLoop axs p r) (fun qs => P qs.1)
  | [], hd => by simp at hd
  | ax :: rest, hd => by
    refine SafeAt.readValue (fun o1' h1' => ?_)
    refine SafeAt.readValue (fun o2' h2' => ?_)
    rw [h1] at h1'
    rw [h2] at h2'
    cases h1'
    cases h2'
    split
    · rename_i he
      refine SafeAt.hMergeLoop hP h1 h2 rest ?_
      obtain ⟨b, hb, hne⟩ := hd
      rcases List.mem_cons.mp hb with rfl | hb
      · exact absurd he hne
      · exact ⟨b, hb, hne⟩
    · refine Safe.at ?_
      refine Safe.bind (Safe.hMorph hP _ _ _) (fun q1' h' => ?_)
      exact Safe.bind (Safe.hMorph hP _ _ _) (fun q2' _ => Safe.hMergeLoop hP rest h')

theorem SafeAt.hMerge (hP : ∀ a, h0.next ≤ a → a < h0.top → P a) (update : Bool) {p r : Nat}
    (hd : ∀ o1 o2, h.cell p = some (.obj o1) → h.cell r = some (.obj o2) →
      ∃ ax < (h.value o1).ndim, (h.value o1).label.getD ax [] ≠ (h.value o2).label.getD ax []) :
    SafeAt P h0 h (La.hMerge update p r) P := by
  refine SafeAt.readValue (fun o1 h1 => ?_)
  refine SafeAt.readValue (fun o2 h2 => ?_)
  split
  · exact SafeAt.mono (SafeAt.lift _) (by simp)
  refine SafeAt.bind (SafeAt.hMergeLoop hP h1 h2 _ ?_) (fun qs hqs => ?_)
  · obtain ⟨ax, hax, hne⟩ := hd o1 o2 h1 h2
    exact ⟨ax, List.mem_range.mpr hax, hne⟩
  refine Safe.bind (Safe.getObjIn hqs) (fun o1 ho1 => ?_)
  refine Safe.bind (Safe.look _) (fun lar1 _ => ?_)
  refine Safe.bind (Safe.valueOf qs.2) (fun lar2 _ => ?_)
  split
  · exact Safe.mono (Safe.lift _) (by simp)
  extract_lets mask1 mask2
  split
  · exact Safe.mono (Safe.lift _) (by simp)
  split
  · split
    · exact Safe.bind (Safe.writeWhere ho1.1 _ _) (fun _ _ => Safe.pure hqs)
    · exact Safe.mono (Safe.lift _) (by simp)
  · exact Safe.pure hqs

/-- The arrays `align_raw` returns are new, except that of a larry none of whose axes was changed. -/
theorem Safe.hAlignLoopNew (hP : ∀ a, h0.next ≤ a → a < h0.top → P a) (cast : Bool) :
    ∀ (l : List (Join × List L × List L)) (ax : Nat) (x1 x2 : View) (f1 f2 : Bool),
      ((∀ c ∈ l, c.2.1 = c.2.2 ∨ c.1.takes1 = false) → P x1.buf) →
      ((∀ c ∈ l, c.2.1 = c.2.2 ∨ c.1.takes2 = false) → P x2.buf) →
      Safe P h0 (La.hAlignLoop cast l ax x1 x2 f1 f2) (fun t => P t.1.buf ∧ P t.2.1.buf)
  | [], ax, x1, x2, f1, f2, h1, h2 => Safe.pure ⟨h1 (by simp), h2 (by simp)⟩
  | (j, l1, l2) :: rest, ax, x1, x2, f1, f2, h1, h2 => by
    refine Safe.bind (Safe.look _) (fun a1 _ => ?_)
    refine Safe.bind (Safe.look _) (fun a2 _ => ?_)
    refine Safe.bind (Safe.lift _) (fun r hr => ?_)
    refine Safe.bind (Safe.arrayIf hP (fun w => (∀ c ∈ rest, c.2.1 = c.2.2 ∨ c.1.takes1 = false) → P w.buf)
      (fun w hw _ => hw) (fun hn hrest => h1 ?_)) (fun x1' hx1 => ?_)
    · intro c hc
      rcases List.mem_cons.mp hc with rfl | hc
      · exact or_iff_not_imp_left.mpr (by simpa using hn)
      · exact hrest c hc
    refine Safe.bind (Safe.arrayIf hP (fun w => (∀ c ∈ rest, c.2.1 = c.2.2 ∨ c.1.takes2 = false) → P w.buf)
      (fun w hw _ => hw) (fun hn hrest => h2 ?_)) (fun x2' hx2 => ?_)
    · intro c hc
      rcases List.mem_cons.mp hc with rfl | hc
      · exact or_iff_not_imp_left.mpr (by simpa using hn)
      · exact hrest c hc
    exact Safe.bind (Safe.hAlignLoopNew hP cast rest (ax + 1) x1' x2' _ _ hx1 hx2) (fun t ht => Safe.pure ht)

/-- What the fills of `binaryop` can reach. -/
theorem SafeAt.hBinaryop (hP : ∀ a, h0.next ≤ a → a < h0.top → P a) (cv : DType → Val → Val) (uf : UFunc2) (join : JoinArg)
    (cast : Bool) (missone misstwo : Option Val) {p r : Nat}
    (h1 : ∀ o1 o2 js, h.cell p = some (.obj o1) → h.cell r = some (.obj o2) → join.perAxis (h.value o2).ndim = .ok js →
      (∀ c ∈ js.zip ((h.value o1).label.zip (h.value o2).label), c.2.1 = c.2.2 ∨ c.1.takes1 = false) → P o1.x.buf)
    (h2 : ∀ o1 o2 js, h.cell p = some (.obj o1) → h.cell r = some (.obj o2) → join.perAxis (h.value o2).ndim = .ok js →
      (∀ c ∈ js.zip ((h.value o1).label.zip (h.value o2).label), c.2.1 = c.2.2 ∨ c.1.takes2 = false) → P o2.x.buf) :
    SafeAt P h0 h (La.hBinaryop cv uf join cast missone misstwo p r) P := by
  refine SafeAt.bind (Q := fun t => P t.1.buf ∧ P t.2.1.buf) ?_ (fun t ht => ?_)
  · refine SafeAt.readObj (fun o1 ho1 => ?_)
    refine SafeAt.readObj (fun o2 ho2 => ?_)
    refine SafeAt.readLook ?_
    refine SafeAt.readLook ?_
    split
    · exact SafeAt.mono (SafeAt.lift _) (by simp)
    · refine SafeAt.read rfl (fun js hjs => ?_)
      exact Safe.at (Safe.hAlignLoopNew hP cast _ 0 _ _ true true (h1 o1 o2 js ho1 ho2 hjs) (h2 o1 o2 js ho1 ho2 hjs))
  · split
    · exact Safe.mono (Safe.lift _) (by simp)
    exact Safe.bind (Safe.hFill cv missone misstwo ht.1 ht.2) (fun _ _ => Safe.binaryopTail hP uf _ _ _)

theorem SafeAt.hSortaxis (hP : ∀ a, h0.next ≤ a → a < h0.top → P a) (axis : Option Int) (reverse : Bool) {p : Nat}
    (hd : axis = none → ∀ o, h.cell p = some (.obj o) → o.x.ix.shape ≠ []) :
    SafeAt P h0 h (La.hSortaxis axis reverse p) P := by
  refine SafeAt.readValue (fun o ho => ?_)
  refine Safe.at (Safe.hSortaxisLoop hP _ reverse _ (Or.inl ?_))
  cases axis with
  | some a => simp [Larry.axesOf]
  | none =>
    have h1 := hd rfl o ho
    have h2 : (h.value o).ndim ≠ 0 := by
      intro h3
      exact h1 (List.length_eq_zero_iff.mp h3)
    simpa [Larry.axesOf] using h2

omit [LinearOrder L] in
theorem Item.isSeq_copies {it : Item L} (h : it.isSeq = true) : it.np.copies = true := by
  cases it <;> simp_all [Item.isSeq, Item.np, NpItem.copies]

theorem SafeAt.hGetTuple (hP : ∀ a, h0.next ≤ a → a < h0.top → P a) (its : List (Item L)) {p : Nat}
    (hs : its.any Item.isSeq = true) (hd : ∀ o, h.cell p = some (.obj o) → (h.out o.label).length ≤ its.length) :
    SafeAt P h0 h (La.hGetTuple its p) (Ref.In P) := by
  refine SafeAt.readObj (fun o ho => ?_)
  refine SafeAt.readLook ?_
  refine SafeAt.readLook ?_
  refine Safe.at ?_
  refine Safe.bind (Safe.lift _) (fun labs _ => ?_)
  refine Safe.bind (Safe.hTupleLabels hP _ _ (Or.inl ?_)) (fun bs hbs => ?_)
  · have := hd o ho
    simp only [List.length_zip]
    omega
  refine Safe.bind (Safe.hIndex hP (Or.inl ?_)) (fun v hv => ?_)
  · obtain ⟨it, hit, hsq⟩ := List.any_eq_true.mp hs
    exact List.any_eq_true.mpr ⟨it.np, List.mem_map_of_mem hit, Item.isSeq_copies hsq⟩
  split
  · refine Safe.pure ?_
    split
    · trivial
    · exact hv
  · refine Safe.bind (Safe.alloc hP (c := .out bs) hbs) (fun label hl => ?_)
    exact Safe.bind (Safe.hMake hP hv hl _) (fun q hq => Safe.pure hq)

/-- A whole-index mask, larry or integer array gives something new. -/
theorem Safe.hGetitemNew (hP : ∀ a, h0.next ≤ a → a < h0.top → P a) {it : Item L} (hs : it.isSeq = true) (p : Nat) :
    Safe P h0 (La.hGetitem false (.one it) p) (Ref.In P) := by
  cases it with
  | int i => simp [Item.isSeq] at hs
  | slice s => simp [Item.isSeq] at hs
  | seq is =>
    refine Safe.bind (Safe.valueOf p) (fun y _ => ?_)
    refine Safe.bind (Safe.lift _) (fun _ _ => ?_)
    exact Safe.bind (Safe.lift _) (fun lab _ => Safe.hGetOne hP _ _ _ (Or.inr ⟨rfl, rfl⟩))
  | mask bs =>
    refine Safe.bind (Safe.valueOf p) (fun y _ => ?_)
    exact Safe.bind (Safe.lift _) (fun lab _ => Safe.hGetOne hP _ _ _ (Or.inr ⟨rfl, rfl⟩))
  | lar m =>
    refine Safe.bind (Safe.valueOf p) (fun y _ => ?_)
    refine Safe.bind (Safe.lift _) (fun _ _ => ?_)
    exact Safe.bind (Safe.lift _) (fun lab _ => Safe.hGetOne hP _ _ _ (Or.inr ⟨rfl, rfl⟩))
  | nd => simp [Item.isSeq] at hs
  | other => simp [Item.isSeq] at hs

end order
end atOne

/-! ## From `Safe` to a run -/

/-- What `Safe` says of a run. -/
theorem SafeAt.use {P : Nat → Prop} {h : Heap L} {m : HM L α} {Q : α → Prop}
    (hs : SafeAt P ⟨h.cell, h.next, (m.after h).next⟩ h m Q) (hcl : h.Closed P) :
    (∀ a, ¬ P a → (m.after h).cell a = h.cell a) ∧ (m.after h).Closed P ∧ ∀ v, m.out h = .ok v → Q v := by
  obtain ⟨h1, h2⟩ := hs (le_refl _) ⟨le_refl _, fun _ _ => rfl, hcl⟩
  exact ⟨h1.frame, h1.closed, h2⟩

end La
