import Verif.Props.HeapProg
import Verif.Props.HeapMore
import Verif.Props.Files
import Verif.MapTry

/-!
# C105: a call that raises leaves everything as it was

Whether a method or function returns a copy, a view or the larry itself, and whether it writes in place or not: if it
raises, no larry, array or list of labels the program holds has changed.  The exceptions are stated exactly.
-/

namespace La
variable {L : Type}

open HM

/-! ## Specification -/

/-- Everything that was in the memory `h` is in the memory `h'`, as it was. -/
def Heap.Keeps (h h' : Heap L) : Prop := ∀ a < h.next, h'.cell a = h.cell a

/-- The function never raises, whatever the dtypes. -/
def UFunc2.Never (uf : UFunc2) : Prop := ∀ d1 d2, ∃ d, uf.dt d1 d2 = .ok d

/-- The conditions under which a call that raises leaves everything as it was:
- `flipaxis` with `copy=False` has to be called on a larry with one label for each element along each axis, all
  different;
- `binaryop` with fills has to be given a function that does not raise. -/
def Act.Careful (env : List Ref) (h : Heap L) : Act L → Prop
  | .flipaxis _ c i => c = true ∨ ∀ p, env[i]? = some (.larry p) → ∃ y, h.larry p = some y ∧ y.Valid
  | .binaryop _ uf _ _ missone misstwo _ _ => (missone = none ∧ misstwo = none) ∨ uf.Never
  | _ => True

/-! ## Lemmas -/

/-- A computation that never raises. -/
def Never {α : Type} (m : HM L α) : Prop := ∀ h, ∃ v, m.out h = .ok v

/-- If the computation raises, nothing below `b` has been written. -/
def Tidy (b : Nat) {α : Type} (m : HM L α) : Prop :=
  ∀ h : Heap L, b ≤ h.next → ∀ e, m.out h = .error e → ∀ a < b, (m.after h).cell a = h.cell a

section tidy
variable {b : Nat} {α β : Type}

theorem Frame.tidy {m : HM L α} {Q : α → Prop} (hm : Frame b m Q) : Tidy b m := fun h hb _ _ => (hm h hb).1

theorem Never.tidy {m : HM L α} (hm : Never m) : Tidy b m := fun h _ e he => by
  obtain ⟨v, hv⟩ := hm h
  rw [hv] at he
  cases he

theorem Tidy.bind {m : HM L α} {f : α → HM L β} {Q : α → Prop} (hm : Frame b m Q) (hf : ∀ v, Q v → Tidy b (f v)) :
    Tidy b (m >>= f) := by
  intro h hb e he a ha
  obtain ⟨h1, h2⟩ := hm h hb
  cases ho : m.out h with
  | error e' => rw [(HM.bind_error ho).2]; exact h1 a ha
  | ok v =>
    obtain ⟨e1, e2⟩ := HM.bind_ok (f := f) ho
    rw [e1] at he
    rw [e2, hf v (h2 v ho) _ (hb.trans (HM.next_le m h)) e he a ha, h1 a ha]

theorem Never.bind {m : HM L α} {f : α → HM L β} (hm : Never m) (hf : ∀ v, Never (f v)) : Never (m >>= f) := by
  intro h
  obtain ⟨v, hv⟩ := hm h
  rw [(HM.bind_ok (f := f) hv).1]
  exact hf v _

theorem Never.pure (v : α) : Never (Pure.pure v : HM L α) := fun _ => ⟨v, rfl⟩
theorem Never.look (f : Heap L → α) : Never (HM.look f) := fun h => ⟨f h, rfl⟩
theorem Never.alloc (c : HCell L) : Never (La.alloc c) := fun h => ⟨h.next, rfl⟩
theorem Never.put (a : Nat) (c : HCell L) : Never (La.put a c) := fun _ => ⟨(), rfl⟩
theorem Never.writeWhere (v : View) (sel : List Nat → Bool) (val : List Nat → Val) :
    Never (La.writeWhere v sel val : HM L Unit) := Never.bind (Never.look _) (fun _ => Never.put _ _)
theorem Never.newArray (x : NDArray Val) (d : DType) : Never (La.newArray x d : HM L View) :=
  Never.bind (Never.alloc _) (fun _ => Never.pure _)
theorem Never.setLab (label ax : Nat) (l : List L) : Never (La.setLab label ax l) :=
  Never.bind (Never.alloc _) (fun _ => Never.bind (Never.look _) (fun _ => Never.put _ _))
theorem Never.hMapLoop (f : L → L) (label : Nat) : ∀ axs : List Nat, Never (La.hMapLoop f label axs)
  | [] => Never.pure _
  | _ :: axs => Never.bind (Never.look _) (fun _ => Never.bind (Never.setLab _ _ _) (fun _ => Never.hMapLoop f label axs))
theorem Never.newLists : ∀ ls : List (List L), Never (La.newLists ls)
  | [] => Never.pure _
  | _ :: ls => Never.bind (Never.alloc _) (fun _ => Never.bind (Never.newLists ls) (fun _ => Never.pure _))
theorem Never.hFillOne (cv : DType → Val → Val) (miss : Option Val) (x1 x2 : View) (s1 s2 : List Nat → Bool) :
    Never (La.hFillOne cv miss x1 x2 s1 s2 : HM L Unit) := by
  cases miss with
  | none => exact Never.pure _
  | some v => exact Never.bind (Never.writeWhere _ _ _) (fun _ => Never.writeWhere _ _ _)
theorem Never.hFill (cv : DType → Val → Val) (m1 m2 : Option Val) (x1 x2 : View) :
    Never (La.hFill cv m1 m2 x1 x2 : HM L Unit) :=
  Never.bind (Never.look _) (fun _ => Never.bind (Never.look _) (fun _ =>
    Never.bind (Never.hFillOne _ _ _ _ _ _) (fun _ => Never.hFillOne _ _ _ _ _ _)))

/-! ### What is only made -/

theorem Frame.hCopy (p : Nat) : Frame b (La.hCopy p : HM L Nat) (fun a => b ≤ a) :=
  Frame.bind Frame.getObj (fun _ _ => Frame.bind (Frame.copylabel _) (fun _ _ => Frame.bind Frame.look (fun _ _ =>
    Frame.bind (Frame.newArray _ _) (fun _ _ => Frame.newLarry _ _))))

theorem Frame.arrayIf (new : Bool) (x : NDArray Val) (d : DType) (v : View) :
    Frame b (La.arrayIf new x d v : HM L View) (fun _ => True) := by
  unfold La.arrayIf
  split
  · exact Frame.newArray _ _
  · exact Frame.pure trivial

section order
variable [LinearOrder L]

theorem Frame.hMorph (lab : List L) (axis : Int) (p : Nat) : Frame b (La.hMorph lab axis p) (fun a => b ≤ a) := by
  refine Frame.bind Frame.getObj (fun o _ => Frame.bind Frame.look (fun _ _ => Frame.bind Frame.lift (fun _ _ => ?_)))
  dsimp only
  split
  · exact Frame.hCopy p
  · exact Frame.bind (Frame.newArray _ _) (fun _ _ => Frame.bind (Frame.copylabel o) (fun _ hl =>
      Frame.bind (Frame.setLab hl) (fun _ _ => Frame.newLarry _ _)))

theorem Frame.hSortaxisLoop (self : Larry L) (reverse : Bool) : ∀ (axs : List Int) (p : Nat),
    Frame b (La.hSortaxisLoop self reverse axs p) (fun _ => True)
  | [], _ => Frame.pure trivial
  | ax :: axs, p => by
    refine Frame.bind Frame.lift (fun n _ => ?_)
    split
    · exact Frame.bind Frame.lift (fun _ _ => Frame.bind (Frame.hMorph _ _ _) (fun q _ => Frame.hSortaxisLoop self reverse axs q))
    · exact Frame.bind (Frame.hCopy _) (fun q _ => Frame.hSortaxisLoop self reverse axs q)

theorem Frame.hAlignLoop (cast : Bool) : ∀ (ts : List (Join × List L × List L)) (ax : Nat) (x1 x2 : View) (f1 f2 : Bool),
    Frame b (La.hAlignLoop cast ts ax x1 x2 f1 f2) (fun _ => True)
  | [], _, _, _, _, _ => Frame.pure trivial
  | (_, _, _) :: rest, ax, _, _, _, _ =>
    Frame.bind Frame.look (fun _ _ => Frame.bind Frame.look (fun _ _ => Frame.bind Frame.lift (fun r _ =>
      Frame.bind (Frame.arrayIf _ _ _ _) (fun y1 _ => Frame.bind (Frame.arrayIf _ _ _ _) (fun y2 _ =>
        Frame.bind (Frame.hAlignLoop cast rest (ax + 1) y1 y2 r.1.v1 r.1.v2) (fun _ _ => Frame.pure trivial))))))

theorem Frame.hAlignRaw (join : JoinArg) (cast : Bool) (p r : Nat) :
    Frame b (La.hAlignRaw (L := L) join cast p r) (fun _ => True) := by
  refine Frame.bind Frame.getObj (fun _ _ => Frame.bind Frame.getObj (fun _ _ => Frame.bind Frame.look (fun _ _ =>
    Frame.bind Frame.look (fun _ _ => ?_))))
  split
  · exact Frame.lift
  · exact Frame.bind Frame.lift (fun _ _ => Frame.hAlignLoop _ _ _ _ _ _ _)

theorem Frame.hMergeLoop : ∀ (axs : List Nat) (q1 q2 : Nat), Frame b (La.hMergeLoop (L := L) axs q1 q2) (fun _ => True)
  | [], _, _ => Frame.pure trivial
  | ax :: rest, q1, q2 => by
    refine Frame.bind Frame.valueOf (fun _ _ => Frame.bind Frame.valueOf (fun _ _ => ?_))
    split
    · exact Frame.hMergeLoop rest q1 q2
    · exact Frame.bind (Frame.hMorph _ _ _) (fun _ _ => Frame.bind (Frame.hMorph _ _ _) (fun _ _ => Frame.hMergeLoop rest _ _))

theorem Tidy.hMerge (update : Bool) (p r : Nat) : Tidy b (La.hMerge (L := L) update p r) := by
  refine Tidy.bind Frame.valueOf (fun _ _ => Tidy.bind Frame.valueOf (fun _ _ => ?_))
  split
  · exact Frame.lift.tidy
  · refine Tidy.bind (Frame.hMergeLoop _ _ _) (fun _ _ => Tidy.bind Frame.getObj (fun _ _ => Tidy.bind Frame.look (fun _ _ =>
      Tidy.bind Frame.valueOf (fun _ _ => ?_))))
    dsimp only
    split_ifs
    · exact Frame.lift.tidy
    · exact Frame.lift.tidy
    · exact (Never.bind (Never.writeWhere _ _ _) (fun _ => Never.pure _)).tidy
    · exact Frame.lift.tidy
    · exact (Never.pure _).tidy

theorem Tidy.hBinaryop (cv : DType → Val → Val) (uf : UFunc2) (hu : uf.Never) (join : JoinArg) (cast : Bool)
    (m1 m2 : Option Val) (p r : Nat) : Tidy b (La.hBinaryop (L := L) cv uf join cast m1 m2 p r) := by
  by_cases hm : m1 = none ∧ m2 = none
  · obtain ⟨rfl, rfl⟩ := hm
    refine Tidy.bind (Frame.hAlignRaw _ _ _ _) (fun t _ => ?_)
    rw [if_neg (by simp)]
    have hfill : Frame b (La.hFill cv none none t.1 t.2.1 : HM L Unit) (fun _ => True) :=
      Frame.bind Frame.look (fun _ _ => Frame.bind Frame.look (fun _ _ =>
        Frame.bind (Q := fun _ => True) (Frame.pure trivial) (fun _ _ => Frame.pure trivial)))
    exact Tidy.bind hfill (fun _ _ => Tidy.bind Frame.look (fun _ _ => Tidy.bind Frame.look (fun _ _ =>
      Tidy.bind Frame.lift (fun _ _ => (Never.bind (Never.newArray _ _) (fun _ => Never.bind (Never.newLists _) (fun _ =>
        Never.bind (Never.alloc _) (fun _ => Never.alloc _)))).tidy))))
  · refine Tidy.bind (Frame.hAlignRaw _ _ _ _) (fun t _ => ?_)
    split
    · exact Frame.lift.tidy
    · rename_i hs
      have hsome : (m1.isSome || m2.isSome) = true := by
        cases m1 <;> cases m2 <;> simp_all
      rw [hsome, Bool.true_and] at hs
      have hsh : t.1.ix.shape = t.2.1.ix.shape := by simpa using hs
      refine Never.tidy (fun h => ?_)
      obtain ⟨u, hu'⟩ := Never.hFill (L := L) cv m1 m2 t.1 t.2.1 h
      rw [(HM.bind_ok hu').1, (HM.bind_ok (m := HM.look _) rfl).1, (HM.bind_ok (m := HM.look _) rfl).1]
      obtain ⟨d, hd⟩ := hu t.1.dtype t.2.1.dtype
      refine Never.bind (m := HM.lift _) (fun h' => ?_) (fun x => Never.bind (Never.newArray _ _) (fun _ =>
        Never.bind (Never.newLists _) (fun _ => Never.bind (Never.alloc _) (fun _ => Never.alloc _)))) _
      change ∃ v, npBinop _ _ _ _ _ = .ok v
      unfold npBinop
      rw [hd]
      dsimp only
      have : ∀ k : Heap L, broadcastShape (k.array t.1).shape (k.array t.2.1).shape = .ok t.1.ix.shape := by
        intro k
        change broadcastShape t.1.ix.shape t.2.1.ix.shape = _
        rw [← hsh, broadcastShape_self]
      exact ⟨_, by erw [this]⟩

theorem Frame.hSortbyTail (argsort : List Val → List Nat) (element : L) (axis : Int) (reverse : Bool) (p : Nat) :
    Frame b (La.hSortbyTail argsort element axis reverse p) (fun _ => True) := by
  refine Frame.bind Frame.valueOf (fun lar _ => ?_)
  dsimp only
  generalize (if axis < 0 then axis + (lar.ndim : Int) else axis) = ax
  split
  · exact Frame.lift
  · refine Frame.bind Frame.lift (fun _ _ => ?_)
    split
    · exact Frame.hGetitem _ _ _
    · exact Frame.hGetitem _ _ _

theorem Frame.hSortby (argsort : List Val → List Nat) (element : L) (axis : Int) (reverse : Bool) (p : Nat) :
    Frame b (La.hSortby argsort element axis reverse p) (fun _ => True) := by
  refine Frame.bind Frame.valueOf (fun _ _ => ?_)
  split_ifs
  · exact Frame.lift
  · refine Frame.bind Frame.lift (fun _ _ => ?_)
    split
    · exact Frame.bind (Frame.hCopy p) (fun _ _ => Frame.pure trivial)
    · exact Frame.hSortbyTail _ _ _ _ _
  · exact Frame.hSortbyTail _ _ _ _ _

theorem Frame.hLix (idx : HIndex L) (p : Nat) : Frame b (La.hLix idx p) (fun _ => True) := by
  have labs : ∀ cs : List (HItem L × Option (List L)), Frame b (La.hLixLabels cs) (fun _ => True) := by
    intro cs
    induction cs with
    | nil => exact Frame.pure trivial
    | cons c cs ih =>
      obtain ⟨it, lab⟩ := c
      cases lab with
      | none => cases it <;> exact ih
      | some lab =>
        cases it with
        | list a => exact Frame.bind ih (fun _ _ => Frame.pure trivial)
        | _ => exact Frame.bind Frame.alloc (fun _ _ => Frame.bind ih (fun _ _ => Frame.pure trivial))
  refine Frame.bind Frame.valueOf (fun _ _ => ?_)
  split_ifs
  · exact Frame.pure trivial
  · exact Frame.lift
  · cases idx with
    | one it => exact Frame.bind Frame.look (fun _ _ => Frame.bind Frame.lift (fun _ _ => Frame.hGetitem _ _ _))
    | tuple its =>
      refine Frame.bind Frame.look (fun _ _ => Frame.bind Frame.lift (fun _ _ => Frame.bind (labs _) (fun _ _ =>
        Frame.bind Frame.lift (fun _ _ => Frame.bind (Frame.newArray _ _) (fun _ _ => ?_)))))
      split
      · exact Frame.pure trivial
      · exact Frame.bind Frame.alloc (fun _ _ => Frame.bind (Frame.hInit _ _) (fun _ _ => Frame.pure trivial))

end order

theorem Frame.hLarryOf [DecidableEq L] (num : Nat → L) (x : NDArray Val) (d : DType) (label : Option Nat) :
    Frame b (La.hLarryOf num x d label) (fun _ => True) := by
  refine Frame.bind (Frame.newArray _ _) (fun _ _ => ?_)
  cases label with
  | some a => exact Frame.hInit _ _
  | none => exact Frame.bind (Frame.newLists _) (fun _ _ => Frame.bind Frame.alloc (fun _ _ => Frame.hInit _ _))

theorem Frame.hLabels (label : Option Nat) : Frame b (La.hLabels label : HM L _) (fun _ => True) := by
  cases label with
  | none => exact Frame.pure trivial
  | some a => exact Frame.bind Frame.look (fun _ _ => Frame.pure trivial)

theorem Frame.hLrange [DecidableEq L] (num : Nat → L) (shape : Option (List Nat)) (label : Option Nat) (start step : Int)
    (dtype : Option DType) : Frame b (La.hLrange num shape label start step dtype) (fun _ => True) := by
  refine Frame.bind (Frame.hLabels _) (fun _ _ => Frame.bind Frame.lift (fun _ _ => ?_))
  split_ifs
  all_goals first | exact Frame.lift | exact Frame.hLarryOf _ _ _ _

theorem Frame.hEmptyLike [DecidableEq L] (mem : List Nat → Val) (num : Nat → L) (shape : Option (List Nat))
    (label : Option Nat) (dtype : Option DType) : Frame b (La.hEmptyLike mem num shape label dtype) (fun _ => True) :=
  Frame.bind (Frame.hLabels _) (fun _ _ => Frame.bind Frame.lift (fun _ _ => Frame.hLarryOf _ _ _ _))

theorem Tidy.hFilled [DecidableEq L] (mem : List Nat → Val) (num : Nat → L) (n : Int) (shape : Option (List Nat))
    (label : Option Nat) (dtype : Option DType) : Tidy b (La.hFilled mem num n shape label dtype) :=
  Tidy.bind (Frame.hEmptyLike _ _ _ _ _) (fun _ _ => Tidy.bind Frame.getObj (fun _ _ =>
    (Never.bind (Never.writeWhere _ _ _) (fun _ => Never.pure _)).tidy))

theorem Frame.asLarry (env : List Ref) (i : Nat) : Frame b (La.asLarry env i : HM L Nat) (fun _ => True) :=
  Frame.quiet (asLarry_after env i)

theorem Frame.asArray (env : List Ref) (i : Nat) : Frame b (La.asArray env i : HM L View) (fun _ => True) :=
  Frame.quiet (fun h => by unfold La.asArray; split <;> rfl)

theorem Frame.asList (env : List Ref) (i : Nat) : Frame b (La.asList env i : HM L Nat) (fun _ => True) :=
  Frame.quiet (fun h => by unfold La.asList; split <;> rfl)

theorem Frame.asOut (env : List Ref) (i : Nat) : Frame b (La.asOut env i : HM L Nat) (fun _ => True) :=
  Frame.quiet (fun h => by unfold La.asOut; split <;> rfl)

theorem Frame.asOut? (env : List Ref) (i : Option Nat) : Frame b (La.asOut? env i : HM L _) (fun _ => True) := by
  cases i with
  | none => exact Frame.pure trivial
  | some i => exact Frame.bind (Frame.asOut env i) (fun _ _ => Frame.pure trivial)

theorem Frame.fetch (env : List Ref) (it : HItem L) : Frame b (it.fetch env) (fun _ => True) := by
  cases it with
  | list i => exact Frame.bind (Frame.asList env i) (fun _ _ => Frame.pure trivial)
  | _ => exact Frame.pure trivial

theorem Frame.fetchItems (env : List Ref) : ∀ its : List (HItem L), Frame b (La.fetchItems env its) (fun _ => True)
  | [] => Frame.pure trivial
  | it :: its => Frame.bind (Frame.fetch env it) (fun _ _ => Frame.bind (Frame.fetchItems env its) (fun _ _ => Frame.pure trivial))

theorem Frame.fetchIndex (env : List Ref) (idx : HIndex L) : Frame b (idx.fetch env) (fun _ => True) := by
  cases idx with
  | one it => exact Frame.bind (Frame.fetch env it) (fun _ _ => Frame.pure trivial)
  | tuple its => exact Frame.bind (Frame.fetchItems env its) (fun _ _ => Frame.pure trivial)

/-- Handing back what was made. -/
theorem Tidy.give {m : HM L α} (hm : Tidy b m) (g : α → β) : Tidy b (m >>= fun v => (Pure.pure (g v) : HM L β)) := by
  intro h hb e he a ha
  rw [after_give]
  cases ho : m.out h with
  | error e' => exact hm h hb e' ho a ha
  | ok v => rw [(HM.bind_ok ho).1] at he; cases he

end tidy

section
variable [LinearOrder L]

theorem flipaxis_tidy {h : Heap L} (hw : h.Wf) {env : List Ref} {axis : Option Int} {i : Nat}
    (hv : ∀ p, env[i]? = some (.larry p) → ∃ y, h.larry p = some y ∧ y.Valid) {e : PyErr}
    (he : ((Act.flipaxis axis false i).run env).out h = .error e) : ((Act.flipaxis axis false i).run env).after h = h := by
  change ((asLarry env i >>= fun p => giveLarry (hFlipaxis axis false p) : HM L (List Ref)).out h) = _ at he
  change ((asLarry env i >>= fun p => giveLarry (hFlipaxis axis false p) : HM L (List Ref)).after h) = _
  cases ho : (asLarry env i : HM L Nat).out h with
  | error e' => rw [(HM.bind_error ho).2, asLarry_after]
  | ok p =>
    obtain ⟨y, hy, hval⟩ := hv p (asLarry_ok ho)
    obtain ⟨o, hobj⟩ := ObjAt.of_larry hw hy
    have := hFlipaxis_self axis hobj hval
    rw [(HM.bind_ok ho).1, asLarry_after] at he
    rw [(HM.bind_ok ho).2, asLarry_after]
    unfold giveLarry at he ⊢
    rw [after_give]
    cases hf : y.flipaxis axis with
    | error e' => rw [hf] at this; exact this.2
    | ok z =>
      rw [hf] at this
      obtain ⟨h', hr, -⟩ := this
      rw [(HM.bind_ok hr.1).1] at he
      cases he

/-! ## Theorems -/

/-- A step of a program, or a call of one of the functions, that raises leaves everything that was there as it was. -/
theorem C105_act {h : Heap L} (hw : h.Wf) {env : List Ref} {a : Act L} (hc : a.Careful env h) {e : PyErr}
    (he : (a.run env).out h = .error e) :
    h.Keeps ((a.run env).after h) ∧ ∀ r, r.In (· < h.next) → ((a.run env).after h).see r = h.see r := by
  suffices hk : h.Keeps ((a.run env).after h) from
    ⟨hk, fun r hr => Heap.see_congr (P := (· < h.next)) (fun b c _ hcell => (hw b c hcell).2) hk hr⟩
  have copies : a.Copies env h → h.Keeps ((a.run env).after h) := fun hcp => (C23_copy hw hcp).1
  have tidy : Tidy h.next (a.run env) → h.Keeps ((a.run env).after h) := fun ht => ht h (le_refl _) e he
  have one : ∀ (i : Nat) {f : Nat → HM L (List Ref)}, (∀ p, Tidy h.next (f p)) → Tidy h.next (asLarry env i >>= f) :=
    fun i f hf => Tidy.bind (Frame.asLarry env i) (fun p _ => hf p)
  cases a with
  | sortaxis axis reverse i =>
    exact tidy (one i fun p => (Frame.bind Frame.valueOf (fun _ _ => Frame.hSortaxisLoop _ _ _ _)).tidy.give _)
  | flipaxis axis c i =>
    cases c with
    | true => exact copies rfl
    | false =>
      rw [flipaxis_tidy hw (hc.resolve_left (by simp)) he]
      exact fun _ _ => rfl
  | maplabel f axis c i =>
    cases c with
    | true => exact copies rfl
    | false =>
      refine tidy (one i fun p => Tidy.give ?_ _)
      refine Tidy.bind (Q := fun _ => True) (Frame.pure trivial) (fun q _ => Tidy.bind Frame.getObj (fun o _ =>
        Tidy.bind Frame.look (fun as _ => ?_)))
      cases axis with
      | none => exact (Never.bind (Never.hMapLoop f _ _) (fun _ => Never.pure _)).tidy
      | some ax => exact Tidy.bind Frame.lift (fun _ _ => (Never.bind (Never.hMapLoop f _ _) (fun _ => Never.pure _)).tidy)
  | binaryop cv uf join cast m1 m2 i j =>
    rcases hc with hm | hu
    · exact copies hm
    · exact tidy (one i fun p => one j fun r => (Tidy.hBinaryop cv uf hu join cast m1 m2 p r).give _)
  | merge update i j => exact tidy (one i fun p => one j fun r => (Tidy.hMerge update p r).give _)
  | squeeze i => exact tidy (one i fun p => (Frame.hSqueeze p).tidy.give _)
  | pull name axis i => exact tidy (one i fun p => (Frame.hPull name axis p).tidy.give _)
  | getitem l idx i => exact tidy (one i fun p => (Frame.hGetitem l idx p).tidy.give _)
  | inPlace f i =>
    exact tidy (one i fun p => Tidy.give (Tidy.bind Frame.getObj (fun _ _ => Tidy.bind Frame.look (fun _ _ =>
      Tidy.bind Frame.lift (fun _ _ => (Never.writeWhere _ _ _).tidy)))) _)
  | shuffleLabel perm ax i =>
    exact tidy (one i fun p => Tidy.give (Tidy.bind Frame.getObj (fun _ _ => Tidy.bind Frame.look (fun _ _ =>
      Tidy.bind Frame.lift (fun _ _ => Tidy.bind Frame.look (fun _ _ => (Never.put _ _).tidy))))) _)
  | attrX i => exact tidy (one i fun p => Frame.getObj.tidy.give _)
  | attrLabel i => exact tidy (one i fun p => Frame.getObj.tidy.give _)
  | item k i =>
    exact tidy (Tidy.bind (Frame.asOut env i) (fun _ _ => Tidy.bind Frame.look (fun _ _ => Frame.lift.tidy.give _)))
  | mkArray x d => exact tidy ((Never.newArray x d).tidy.give _)
  | mkList l => exact tidy ((Never.alloc _).tidy.give _)
  | mkOut is =>
    have quiet : ∀ is : List Nat, Frame h.next (asLists env is : HM L (List Nat)) (fun _ => True) := by
      intro is
      induction is with
      | nil => exact Frame.pure trivial
      | cons i is ih => exact Frame.bind (Frame.asList env i) (fun _ _ => Frame.bind ih (fun _ _ => Frame.pure trivial))
    exact tidy (Tidy.bind (quiet is) (fun _ _ => (Never.alloc _).tidy.give _))
  | init i j =>
    exact tidy (Tidy.bind (Frame.asArray env i) (fun _ _ => Tidy.bind (Frame.asOut env j) (fun _ _ =>
      (Frame.hInit _ _).tidy.give _)))
  | view g i => exact tidy (Tidy.bind (Frame.asArray env i) (fun _ _ => (Never.pure _).tidy))
  | write sel val i => exact tidy (Tidy.bind (Frame.asArray env i) (fun _ _ => (Never.writeWhere _ _ _).tidy.give _))
  | writeList l i => exact tidy (Tidy.bind (Frame.asList env i) (fun _ _ => (Never.put _ _).tidy.give _))
  | writeOut k i j =>
    exact tidy (Tidy.bind (Frame.asOut env i) (fun _ _ => Tidy.bind (Frame.asList env j) (fun _ _ =>
      Tidy.bind Frame.look (fun _ _ => (Never.put _ _).tidy.give _))))
  | assignX i j =>
    exact tidy (one i fun p => Tidy.bind (Frame.asArray env j) (fun _ _ =>
      Tidy.give (Tidy.bind Frame.getObj (fun _ _ => (Never.put _ _).tidy)) _))
  | assignLabel i j =>
    exact tidy (one i fun p => Tidy.bind (Frame.asOut env j) (fun _ _ =>
      Tidy.give (Tidy.bind Frame.getObj (fun _ _ => (Never.put _ _).tidy)) _))
  | _ => exact copies trivial

/-- So does a call of one of the other functions. -/
theorem C105_call {h : Heap L} (hw : h.Wf) {env : List Ref} {c : Call L} {e : PyErr} (he : (c.run env).out h = .error e) :
    h.Keeps ((c.run env).after h) ∧ ∀ r, r.In (· < h.next) → ((c.run env).after h).see r = h.see r := by
  suffices hk : h.Keeps ((c.run env).after h) from
    ⟨hk, fun r hr => Heap.see_congr (P := (· < h.next)) (fun b c _ hcell => (hw b c hcell).2) hk hr⟩
  have fresh : c.Fresh env h → h.Keeps ((c.run env).after h) := fun hcp => (C99_fresh hw hcp).1
  have tidy : Tidy h.next (c.run env) → h.Keeps ((c.run env).after h) := fun ht => ht h (le_refl _) e he
  have one : ∀ (i : Nat) {f : Nat → HM L (List Ref)}, (∀ p, Tidy h.next (f p)) → Tidy h.next (asLarry env i >>= f) :=
    fun i f hf => Tidy.bind (Frame.asLarry env i) (fun p _ => hf p)
  cases c with
  | getx copy i =>
    refine tidy (one i fun p => Tidy.give (Tidy.bind Frame.getObj (fun _ _ => Tidy.bind Frame.look (fun _ _ => ?_))) _)
    split
    · exact (Never.newArray _ _).tidy
    · exact (Never.pure _).tidy
  | getlabel axis copy i =>
    refine tidy (one i fun p => Tidy.give (Tidy.bind Frame.getObj (fun _ _ => Tidy.bind Frame.look (fun _ _ =>
      Tidy.bind Frame.look (fun _ _ => ?_)))) _)
    split
    · exact Frame.lift.tidy
    · refine Tidy.bind Frame.lift (fun _ _ => Tidy.bind Frame.look (fun _ _ => ?_))
      split
      · exact (Never.alloc _).tidy
      · exact (Never.pure _).tidy
  | sortby argsort element axis reverse i => exact tidy (one i fun p => (Frame.hSortby _ _ _ _ _).tidy.give _)
  | lix idx i => exact tidy (one i fun p => Tidy.bind (Frame.fetchIndex env idx) (fun _ _ => (Frame.hLix _ _).tidy.give _))
  | lrange num shape label start step dtype =>
    exact tidy (Tidy.bind (Frame.asOut? env label) (fun _ _ => (Frame.hLrange _ _ _ _ _ _).tidy.give _))
  | filled mem num n shape label dtype =>
    exact tidy (Tidy.bind (Frame.asOut? env label) (fun _ _ => (Tidy.hFilled _ _ _ _ _ _).give _))
  | _ => exact fresh trivial

end

/-! ### `maplabel` with a function that raises -/

/-- When the function never raises this is `maplabel` as in Verif/Heap.lean. -/
theorem C105_maplabel_total (f : L → L) (axis : Option Int) (copy : Bool) (p : Nat) :
    hMapTry (fun l => .ok (f l)) axis copy p = hMaplabel f axis copy p := by
  have hm : ∀ l : List L, mapRes (fun l => (.ok (f l) : Res L)) l = .ok (l.map f) := by
    intro l
    induction l with
    | nil => rfl
    | cons a l ih => simp [mapRes, ih]
  have loop : ∀ (label : Nat) (axs : List Nat), hMapTryLoop (fun l => .ok (f l)) label axs = hMapLoop f label axs := by
    intro label axs
    induction axs with
    | nil => rfl
    | cons ax axs ih =>
      unfold hMapTryLoop hMapLoop
      rw [ih]
      simp only [hm]
      rfl
  unfold hMapTry hMaplabel
  simp only [loop]
  cases axis <;> rfl

/-- With `copy=True`, or with an axis given, a function that raises leaves everything as it was. -/
theorem C105_maplabel {h : Heap L} (hw : h.Wf) (f : L → Res L) {axis : Option Int} {copy : Bool} {p : Nat}
    (hc : copy = true ∨ ∃ a, axis = some a) {e : PyErr} (he : (hMapTry f axis copy p).out h = .error e) :
    h.Keeps ((hMapTry f axis copy p).after h) ∧
      ∀ r, r.In (· < h.next) → ((hMapTry f axis copy p).after h).see r = h.see r := by
  suffices hk : h.Keeps ((hMapTry f axis copy p).after h) from
    ⟨hk, fun r hr => Heap.see_congr (P := (· < h.next)) (fun b c _ hcell => (hw b c hcell).2) hk hr⟩
  by_cases hcp : copy = true
  · obtain ⟨h1, -, -⟩ := SafeAt.use (P := fun b => h.next ≤ b) (h := h) (m := hMapTry f axis copy p) (Q := fun b => h.next ≤ b) (by
      have loop : ∀ {label : Nat}, h.next ≤ label → ∀ axs : List Nat, Safe (fun b => h.next ≤ b)
          (⟨h.cell, h.next, ((hMapTry f axis copy p).after h).next⟩ : Base L) (hMapTryLoop f label axs) (fun _ => True) := by
        intro label hl axs
        induction axs with
        | nil => exact Safe.pure trivial
        | cons ax axs ih =>
          exact Safe.bind (Safe.look _) (fun _ _ => Safe.bind (Safe.lift _) (fun _ _ =>
            Safe.bind (Safe.setLab (fun _ hb _ => hb) hl ax _) (fun _ _ => ih)))
      refine (Safe.bind (Safe.hCopyIf (fun _ hb _ => hb) (.inl hcp)) (fun q hq => Safe.bind (Safe.getObjIn hq) (fun o ho =>
        Safe.bind (Safe.look _) (fun as _ => ?_)))).at
      cases axis with
      | none => exact Safe.bind (loop ho.2 _) (fun _ _ => Safe.pure hq)
      | some axis => exact Safe.bind (Safe.lift _) (fun _ _ => Safe.bind (loop ho.2 _) (fun _ _ => Safe.pure hq)))
      (fun b c hb hcell => absurd (hw b c hcell).1 (by omega))
    exact fun b hb => h1 b (by omega)
  · obtain ⟨a, rfl⟩ := hc.resolve_left hcp
    have hcp' : copy = false := by simpa using hcp
    subst hcp'
    have ht : Tidy h.next (hMapTry f (some a) false p) :=
      Tidy.bind (Q := fun _ => True) (Frame.pure trivial) (fun _ _ => Tidy.bind Frame.getObj (fun _ _ => Tidy.bind Frame.look (fun _ _ =>
        Tidy.bind Frame.lift (fun _ _ => Tidy.give (Tidy.bind Frame.look (fun _ _ => Tidy.bind Frame.lift (fun _ _ =>
          (Never.bind (Never.setLab _ _ _) (fun _ => Never.pure _)).tidy))) _))))
    exact ht h (le_refl _) e he

/-- The loop over the axes from number `ms.length` on. -/
theorem hMapTryLoop_part (f : L → Res L) {q : Nat} {o : Obj} {x : NDArray Val} {d : DType} {e : PyErr} :
    ∀ (ls ms : List (List L)) (h : Heap L), ObjAt h 0 q o ⟨x, d, ms ++ ls⟩ →
      (hMapTryLoop f o.label (List.range' ms.length ls.length)).out h = .error e →
      ∃ k l ns, ls[k]? = some l ∧ mapRes f l = .error e ∧ mapRes (mapRes f) (ls.take k) = .ok ns ∧
        ObjAt ((hMapTryLoop f o.label (List.range' ms.length ls.length)).after h) 0 q o ⟨x, d, ms ++ ns ++ ls.drop k⟩
  | [], ms, h, ho, he => by cases he
  | l :: ls, ms, h, ho, he => by
    have hget : (ms ++ l :: ls).getD ms.length [] = l := by simp
    have hlook : (fun h : Heap L => (h.out o.label).map h.lst) h = ms ++ l :: ls := ho.label.get
    rw [List.length_cons, List.range'_succ] at he ⊢
    unfold hMapTryLoop at he ⊢
    rw [(HM.bind_ok (m := HM.look _) rfl).1] at he
    rw [(HM.bind_ok (m := HM.look _) rfl).2]
    change ((HM.lift (mapRes f (((h.out o.label).map h.lst).getD ms.length [])) >>= _ : HM L Unit).out h) = _ at he
    change ∃ k m ns, _ ∧ _ ∧ _ ∧
      ObjAt ((HM.lift (mapRes f (((h.out o.label).map h.lst).getD ms.length [])) >>= _ : HM L Unit).after h) _ _ _ _
    rw [show ((h.out o.label).map h.lst) = ms ++ l :: ls from hlook, hget] at he ⊢
    cases hm : mapRes f l with
    | error e' =>
      rw [hm, (HM.bind_error (m := HM.lift (.error e')) rfl).1] at he
      cases he
      refine ⟨0, l, [], rfl, hm, rfl, ?_⟩
      rw [(HM.bind_error (m := HM.lift (.error e)) rfl).2]
      change ObjAt h 0 q o _
      simpa using ho
    | ok l' =>
      rw [hm, (HM.bind_ok (m := HM.lift (.ok l')) rfl).1] at he
      rw [(HM.bind_ok (m := HM.lift (.ok l')) rfl).2]
      change ((setLab o.label ms.length l' >>= _ : HM L Unit).out h) = _ at he
      change ∃ k m ns, _ ∧ _ ∧ _ ∧ ObjAt ((setLab o.label ms.length l' >>= _ : HM L Unit).after h) _ _ _ _
      obtain ⟨h1, r1, e1, hl⟩ := setLab_run ho.label (Nat.zero_le _) ms.length l'
      have ho1 := ho.relabel e1 hl
      have hset : (ms ++ l :: ls).set ms.length l' = (ms ++ [l']) ++ ls := by simp
      rw [show (⟨x, d, ms ++ l :: ls⟩ : Larry L).label = ms ++ l :: ls from rfl, hset] at ho1
      rw [(HM.bind_ok r1.1).1, r1.2] at he
      rw [(HM.bind_ok r1.1).2, r1.2]
      have hlen : ms.length + 1 = (ms ++ [l']).length := by simp
      rw [hlen] at he ⊢
      obtain ⟨k, m, ns, g1, g2, g3, g4⟩ := hMapTryLoop_part f ls (ms ++ [l']) h1 ho1 he
      refine ⟨k + 1, m, l' :: ns, by simpa using g1, g2, ?_, ?_⟩
      · simp [mapRes, hm, g3]
      · simpa using g4

/-- With `copy=False` and no axis a function that raises on a label of axis `k` (and on none before) leaves the larry
with the labels of the axes before `k` mapped and the others as they were. -/
theorem C105_maplabel_partway {h : Heap L} (hw : h.Wf) (f : L → Res L) {p : Nat} {y : Larry L} (hy : h.larry p = some y)
    {e : PyErr} (he : (hMapTry f none false p).out h = .error e) :
    ∃ k l ns, y.label[k]? = some l ∧ mapRes f l = .error e ∧ mapRes (mapRes f) (y.label.take k) = .ok ns ∧
      ((hMapTry f none false p).after h).larry p = some ⟨y.x, y.dtype, ns ++ y.label.drop k⟩ := by
  obtain ⟨o, ho⟩ := ObjAt.of_larry hw hy
  have hlen := ho.label.out.1.length
  have r1 : Run h (hCopyIf false p : HM L Nat) p h := Run.pure
  have r2 := Run.getObj ho.cell
  have r3 : Run h (HM.look (fun h : Heap L => h.out o.label)) (h.out o.label) h := Run.look
  unfold hMapTry at he ⊢
  rw [(HM.bind_ok r1.1).1, r1.2, (HM.bind_ok r2.1).1, r2.2, (HM.bind_ok r3.1).1, r3.2] at he
  rw [Run.after_bind r1, Run.after_bind r2, Run.after_bind r3]
  dsimp only at he ⊢
  rw [after_give (g := fun _ : Unit => p)]
  rw [hlen, List.range_eq_range'] at he ⊢
  have he' : (hMapTryLoop f o.label (List.range' 0 y.label.length)).out h = .error e := by
    cases hl : (hMapTryLoop f o.label (List.range' 0 y.label.length)).out h with
    | error e' => rw [(HM.bind_error hl).1] at he; cases he; rfl
    | ok u => rw [(HM.bind_ok hl).1] at he; cases he
  obtain ⟨k, l, ns, g1, g2, g3, g4⟩ := hMapTryLoop_part f y.label [] h (by simpa using ho) (by simpa using he')
  exact ⟨k, l, ns, g1, g2, g3, by simpa using g4.larry⟩

/-! ### Archives -/

/-- The calls on archives that write more than once: `save`, `io[key] = y` and `clear`. -/
def FileCall.Several : FileCall → Prop
  | .save .. | .set .. | .clear _ => True
  | _ => False

theorem error_of_map {α β : Type} {g : α → β} {r : Res α} {e : PyErr} (h : Except.map g r = .error e) :
    r = .error e := by
  cases r with
  | error e' => cases h; rfl
  | ok a => cases h

theorem delete_error {f : Archive} {key : String} {e : PyErr} (h : (f.delete key).2 = .error e) : (f.delete key).1 = f := by
  unfold Archive.delete at h ⊢
  cases he : f.checkKey (comps key) with
  | error e' => rfl
  | ok u =>
    rw [he] at h
    dsimp only at h ⊢
    split
    · rfl
    · rename_i hk
      rw [if_neg hk] at h
      cases h

/-- Every other call on an archive that raises leaves the archive as it was. -/
theorem C105_archive {f : Archive} {c : FileCall} (hc : ¬ c.Several) {e : PyErr} (he : (c.on f).2 = .error e) :
    (c.on f).1 = f := by
  cases c with
  | save => exact absurd trivial hc
  | set => exact absurd trivial hc
  | clear => exact absurd trivial hc
  | delete arg key => exact delete_error (error_of_map he)
  | del n key => exact delete_error (error_of_map he)
  | laraSet z n a idx v =>
    have he := error_of_map he
    change (a.setAt z f idx (.scalar v)).1 = f
    unfold Lara.setAt at he ⊢
    split
    · rfl
    · rfl
    · rfl
    · rename_i x d hx
      rw [hx] at he
      dsimp only at he ⊢
      split
      · rfl
      · rename_i g hg
        rw [hg] at he
        cases he
  | _ => rfl

/-- So every file is as it was; only a file that was not there may now be there, with nothing in it. -/
theorem C105_files {s : Files} (hw : s.WF) {c : FileCall} (hu : Usable s c.arg) (hc : ¬ c.Several) {s' : Files} {e : FErr}
    (h : c.run s = (s', .error e)) (n : String) :
    s'.disk n = s.disk n ∨ (n = c.name ∧ s.disk n = none ∧ s'.disk n = some Archive.empty) := by
  obtain ⟨s'', left, h1, h2, -⟩ := C103_call hw c hu
  rw [h] at h1
  obtain ⟨rfl, he⟩ := Prod.mk.inj h1
  rw [h2]
  unfold FileCall.onDisk at he ⊢
  split
  · exact .inl rfl
  · rename_i ha
    rw [if_neg ha] at he
    have hr : ∃ e', (c.on ((s.disk c.name).getD Archive.empty)).2 = .error e' := by
      cases hr : (c.on ((s.disk c.name).getD Archive.empty)).2 with
      | error e' => exact ⟨e', rfl⟩
      | ok v => rw [hr] at he; cases he
    obtain ⟨e', hr⟩ := hr
    rw [C105_archive hc hr]
    dsimp only
    unfold Disk.write
    by_cases hn : n = c.name
    · subst hn
      rw [if_pos rfl]
      cases hd : s.disk c.name with
      | none => exact .inr ⟨rfl, rfl, rfl⟩
      | some f => exact .inl rfl
    · exact .inl (if_neg hn)

/-- `save` on a key that holds a larry raises and changes nothing. -/
theorem C105_save_existing {f : Archive} (hf : f.WF) {key : String} (hl : f.isLarry (comps key) = .ok true)
    (y : Larry PyLabel) : (∃ e, (f.save y key).2 = .error e) ∧ ∀ q, (f.save y key).1.get q = f.get q := by
  have hg := isLarry_some hl
  obtain ⟨m, hx⟩ : ∃ m, f.get (comps key ++ ["x"]) = some m := by
    unfold Archive.isLarry at hl
    rw [hg] at hl
    dsimp only at hl
    cases hx : f.get (comps key ++ ["x"]) with
    | none => rw [hx] at hl; simp at hl
    | some m => exact ⟨m, rfl⟩
  have hway : ∀ q n, q <+: comps key → f.get q = some n → ∃ b, n = .group b := by
    rintro q n ⟨r, hr⟩ hq
    by_cases hr0 : r = []
    · subst hr0
      rw [List.append_nil] at hr
      rw [hr, hg] at hq
      exact ⟨true, by cases hq; rfl⟩
    · obtain ⟨b, hb⟩ := hf.parents q r hr0 (by rw [hr, hg]; rfl)
      rw [hb] at hq
      exact ⟨b, by cases hq; rfl⟩
  by_cases hd : y.dtype = .object
  · let y' : Larry PyLabel := ⟨y.x, .float, y.label⟩
    obtain ⟨h1, h2⟩ := save_existing (n := m) (y := y') hf (by simp [y']) hg hway hx
    unfold Archive.save at h1 h2 ⊢
    cases hcg : f.createGroups [] (comps key) with
    | mk f1 u =>
      rw [hcg] at h1 h2
      cases u with
      | error e => exact ⟨⟨e, rfl⟩, h2⟩
      | ok u =>
        dsimp only at h1 h2 ⊢
        rw [if_pos hd]
        rw [if_neg (by simp [y'])] at h1 h2
        refine ⟨⟨_, rfl⟩, ?_⟩
        cases hcr : (f1.flag (comps key)).create (comps key ++ ["x"]) (.arr y'.x y'.dtype) with
        | error e => rw [hcr] at h2; exact h2
        | ok f2 =>
          have hb := (Archive.create_ok hcr).1
          have hs := (Archive.createGroups_spec f [] (comps key)).2.1 _ _ hx
          rw [hcg] at hs
          rw [Archive.get_flag, if_neg (by simp), hs] at hb
          cases hb
  · obtain ⟨h1, h2⟩ := save_existing (n := m) (y := y) hf hd hg hway hx
    exact ⟨⟨_, h1⟩, h2⟩

/-! ## Cases -/

/-- A function on no dtypes. -/
def exRaising : UFunc2 := ⟨fun a _ => a, fun _ _ => .error .typeError⟩

/-- The calls raise: `merge` of overlapping larrys, `pull` of a name that is not there, `flipaxis` in place along an axis
that is not there, `insertaxis` without axis. -/
example : ((Act.merge false 4 9).run exS.1).raised exS.2 = some .valueError ∧
    ((Act.pull 99 (some 0) 4).run exS.1).raised exS.2 = some .indexError ∧
    ((Act.flipaxis (some 2) false 4).run exS.1).raised exS.2 = some .indexError ∧
    (Act.flipaxis (some 2) false 4).Careful exS.1 exS.2 ∧
    ((Act.insertaxis none 5 4).run exS.1).raised exS.2 = some .valueError := by
  refine ⟨by decide +kernel, by decide +kernel, by decide +kernel, .inr ?_, rfl⟩
  intro p hp
  cases hp
  exact ⟨exA, rfl, exA_valid⟩

/-- So do calls of the other functions: `getlabel` of an axis that is not there, `lrange` with step 0. -/
example : ((Call.getlabel 2 false 4).run exS.1).raised exS.2 = some .indexError ∧
    ((Call.lrange (fun n => n) none (some 3) 0 0 none).run exS.1).raised exS.2 = some .zeroDivisionError := by
  decide +kernel

/-- `binaryop` writes the fills before it calls the function: with a function that raises, `0` is in the second larry in
place of the missing value. -/
theorem C105_binaryop_writes :
    ((Act.binaryop (fun _ v => v) exRaising (.one .inner) true (some (fl 0)) none 4 9).run exS.1).raised exS.2 =
      some .typeError ∧
    (exS.2.larry 9).map (fun y => y.x.get [0, 0]) = some (.flt .nan) ∧
    ((((Act.binaryop (fun _ v => v) exRaising (.one .inner) true (some (fl 0)) none 4 9).run exS.1).after exS.2).larry 9).map
      (fun y => y.x.get [0, 0]) = some (fl 0) := by
  decide +kernel

/-- One more, for labels other than 1. -/
def exMapTry (n : Nat) : Res Nat := if n = 1 then .error .keyError else .ok (n + 1)

/-- `maplabel(func, copy=False)` with a function that raises on a label of the second axis: the labels of the first
have been mapped. -/
theorem C105_maplabel_half : (hMapTry exMapTry none false 4).out exS.2 = .error .keyError ∧
    (((hMapTry exMapTry none false 4).after exS.2).larry 4).map Larry.label = some [[11, 21], [3, 1, 2]] := by
  decide +kernel

/-- With an axis, and with `copy=True`, it raises and changes nothing. -/
example : (hMapTry exMapTry (some 1) false 4).out exS.2 = .error .keyError ∧
    (hMapTry exMapTry none true 4).out exS.2 = .error .keyError ∧ exS.2.Wf := ⟨by decide +kernel, by decide +kernel, exS_wf.1⟩

/-- Deleting a key that is not there raises. -/
example : ¬ (FileCall.del "a.hdf5" "b").Several ∧
    ((Archive.empty.save exIO1 "a").1.delete "b").2 = .error .keyError := by
  refine ⟨id, by decide +kernel⟩

/-- `save` on a key that holds a larry. -/
example : (Archive.empty.save exIO1 "a").1.isLarry (comps "a") = .ok true := by decide +kernel

end La
