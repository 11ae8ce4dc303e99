import Verif.HeapMore
import Verif.HeapView

/-!
# Facts about the functions of Verif/HeapMore.lean

`Safe`: they stay within what they are given and what is new.  `Refines`: they return what the functions on values
return.
-/

namespace La
variable {L : Type}

theorem mem_of_pyGet {α : Type _} {l : List α} {i : Int} {a : α} (h : pyGet l i = .ok a) : a ∈ l := by
  unfold pyGet at h
  split at h
  · cases h
  · split at h
    · cases h
    · rename_i h'
      cases h
      exact List.mem_of_getElem? h'

/-! ## Staying within -/

section rules
variable {P : Nat → Prop} {h0 : Base L}

theorem Safe.fail {α : Type} {e : PyErr} {Q : α → Prop} : Safe P h0 (HM.lift (.error e) : HM L α) Q :=
  Safe.mono (Safe.lift _) (by simp)

theorem Safe.hValues (ps : List Nat) : Safe P h0 (La.hValues ps : HM L (List (Larry L))) (fun _ => True) := by
  induction ps with
  | nil => exact Safe.pure trivial
  | cons p ps ih => exact Safe.bind (Safe.valueOf p) (fun y _ => Safe.bind ih (fun ys _ => Safe.pure trivial))

theorem Safe.hGetx (hP : ∀ a, h0.next ≤ a → a < h0.top → P a) {copy : Bool} {p : Nat} (hp : copy = true ∨ P p) :
    Safe P h0 (La.hGetx copy p : HM L View) (fun v => P v.buf) := by
  cases copy with
  | true =>
    refine Safe.bind (Safe.getObj p) (fun o _ => ?_)
    exact Safe.bind (Safe.look _) (fun x _ => Safe.newArray hP _ _)
  | false =>
    refine Safe.bind (Safe.getObjIn (hp.resolve_left (by simp))) (fun o ho => ?_)
    exact Safe.bind (Safe.look _) (fun x _ => Safe.pure ho.1)

theorem Safe.hGetlabel (hP : ∀ a, h0.next ≤ a → a < h0.top → P a) (axis : Int) {copy : Bool} {p : Nat}
    (hp : copy = true ∨ P p) : Safe P h0 (La.hGetlabel axis copy p : HM L Nat) P := by
  cases copy with
  | true =>
    refine Safe.bind (Safe.getObj p) (fun o _ => ?_)
    refine Safe.bind (Safe.look _) (fun y _ => ?_)
    refine Safe.bind (Safe.look _) (fun as _ => ?_)
    split
    · exact Safe.fail
    refine Safe.bind (Safe.lift _) (fun a _ => ?_)
    exact Safe.bind (Safe.look _) (fun l _ => Safe.alloc hP (c := .lst l) trivial)
  | false =>
    refine Safe.bind (Safe.getObjIn (hp.resolve_left (by simp))) (fun o ho => ?_)
    refine Safe.bind (Safe.look _) (fun y _ => ?_)
    refine Safe.bind (Safe.lookOut ho.2) (fun as has => ?_)
    split
    · exact Safe.fail
    refine Safe.bind (Safe.lift _) (fun a ha => ?_)
    refine Safe.bind (Safe.look _) (fun l _ => Safe.pure (has a (mem_of_pyGet ha)))

theorem Safe.hCopylabel (hP : ∀ a, h0.next ≤ a → a < h0.top → P a) (p : Nat) :
    Safe P h0 (La.hCopylabel p : HM L Nat) P :=
  Safe.bind (Safe.getObj p) (fun o _ => Safe.copylabel hP o)

/-- A new list of lists. -/
theorem Safe.newLabel (hP : ∀ a, h0.next ≤ a → a < h0.top → P a) (ls : List (List L)) {α : Type} {f : Nat → HM L α}
    {Q : α → Prop} (hf : ∀ a, P a → Safe P h0 (f a) Q) :
    Safe P h0 (La.newLists ls >>= fun as => La.alloc (.out as) >>= f) Q := by
  refine Safe.bind (Safe.newLists hP ls) (fun as has => ?_)
  exact Safe.bind (Safe.alloc hP (c := .out as) has) hf

theorem Safe.hCov (hP : ∀ a, h0.next ≤ a → a < h0.top → P a) (p : Nat) : Safe P h0 (La.hCov p : HM L Nat) P := by
  refine Safe.bind (Safe.valueOf p) (fun y _ => ?_)
  split
  · exact Safe.fail
  refine Safe.newLabel hP _ (fun label hl => ?_)
  refine Safe.bind (Safe.lift _) (fun x _ => ?_)
  exact Safe.bind (Safe.newArray hP _ _) (fun v hv => Safe.newLarry hP hv hl)

theorem Safe.hFlatten (hP : ∀ a, h0.next ≤ a → a < h0.top → P a) (tup : List L → L) (order : String) (p : Nat) :
    Safe P h0 (La.hFlatten tup order p : HM L Nat) P := by
  refine Safe.bind (Safe.valueOf p) (fun y _ => ?_)
  refine Safe.bind (Safe.lift _) (fun fl _ => ?_)
  refine Safe.newLabel hP _ (fun label hl => ?_)
  exact Safe.bind (Safe.newArray hP _ _) (fun v hv => Safe.newLarry hP hv hl)

theorem Safe.hPanel (hP : ∀ a, h0.next ≤ a → a < h0.top → P a) (tup : List L → L) (p : Nat) :
    Safe P h0 (La.hPanel tup p : HM L Nat) P := by
  refine Safe.bind (Safe.valueOf p) (fun y _ => ?_)
  split
  · exact Safe.fail
  refine Safe.bind (Safe.hCopy hP p) (fun q hq => ?_)
  refine Safe.bind (Safe.getObjIn hq) (fun o ho => ?_)
  refine Safe.bind (Safe.look _) (fun y _ => ?_)
  refine Safe.bind (Safe.lookOut ho.2) (fun as has => ?_)
  refine Safe.bind (Safe.lift _) (fun fl _ => ?_)
  refine Safe.bind (Safe.alloc hP (c := .lst _) trivial) (fun a ha => ?_)
  refine Safe.bind (Safe.lift _) (fun a0 ha0 => ?_)
  have h0' : P a0 := has a0 (mem_of_pyGet ha0)
  refine Safe.bind (Safe.alloc hP (c := .out [a, a0]) (by simpa [HCell.Refs] using ⟨ha, h0'⟩)) (fun label hl => ?_)
  refine Safe.bind (Safe.setLabel hq hl) (fun _ _ => ?_)
  refine Safe.bind (Safe.lift _) (fun x _ => ?_)
  refine Safe.bind (Safe.newArray hP _ _) (fun v hv => ?_)
  exact Safe.bind (Safe.setX hq hv) (fun _ _ => Safe.pure hq)

theorem Safe.hLabels (label : Option Nat) : Safe P h0 (La.hLabels label : HM L (Option (List (List L)))) (fun _ => True) := by
  cases label with
  | none => exact Safe.pure trivial
  | some a => exact Safe.bind (Safe.look _) (fun _ _ => Safe.pure trivial)

theorem Safe.hLarryOf [DecidableEq L] (hP : ∀ a, h0.next ≤ a → a < h0.top → P a) (num : Nat → L) (x : NDArray Val) (d : DType)
    {label : Option Nat} (hl : ∀ a, label = some a → P a) : Safe P h0 (La.hLarryOf num x d label) P := by
  refine Safe.bind (Safe.newArray hP x d) (fun v hv => ?_)
  cases label with
  | some a => exact Safe.hInit hP hv (hl a rfl)
  | none => exact Safe.newLabel hP _ (fun a ha => Safe.hInit hP hv ha)

theorem Safe.hLrange [DecidableEq L] (hP : ∀ a, h0.next ≤ a → a < h0.top → P a) (num : Nat → L) (shape : Option (List Nat))
    {label : Option Nat} (start step : Int) (dtype : Option DType) (hl : ∀ a, label = some a → P a) :
    Safe P h0 (La.hLrange num shape label start step dtype) P := by
  refine Safe.bind (Safe.hLabels label) (fun ls _ => ?_)
  refine Safe.bind (Safe.lift _) (fun shape _ => ?_)
  split
  · exact Safe.fail
  split
  · exact Safe.fail
  split
  · exact Safe.fail
  exact Safe.hLarryOf hP num _ _ hl

theorem Safe.hEmptyLike [DecidableEq L] (hP : ∀ a, h0.next ≤ a → a < h0.top → P a) (mem : List Nat → Val) (num : Nat → L)
    (shape : Option (List Nat)) {label : Option Nat} (dtype : Option DType) (hl : ∀ a, label = some a → P a) :
    Safe P h0 (La.hEmptyLike mem num shape label dtype) P := by
  refine Safe.bind (Safe.hLabels label) (fun ls _ => ?_)
  refine Safe.bind (Safe.lift _) (fun shape _ => ?_)
  exact Safe.hLarryOf hP num _ _ hl

theorem Safe.hFilled [DecidableEq L] (hP : ∀ a, h0.next ≤ a → a < h0.top → P a) (mem : List Nat → Val) (num : Nat → L) (n : Int)
    (shape : Option (List Nat)) {label : Option Nat} (dtype : Option DType) (hl : ∀ a, label = some a → P a) :
    Safe P h0 (La.hFilled mem num n shape label dtype) P := by
  refine Safe.bind (Safe.hEmptyLike hP mem num shape dtype hl) (fun q hq => ?_)
  refine Safe.bind (Safe.getObjIn hq) (fun o ho => ?_)
  exact Safe.bind (Safe.writeX ho.1 _) (fun _ _ => Safe.pure hq)

section order
variable [LinearOrder L]

theorem Safe.hMorphEach (hP : ∀ a, h0.next ≤ a → a < h0.top → P a) (label : List L) :
    ∀ l : List (Nat × Int), Safe P h0 (La.hMorphEach label l) (fun qs => ∀ q ∈ qs, P q)
  | [] => Safe.pure (by simp)
  | (p, a) :: rest => by
    refine Safe.bind (Safe.hMorph hP label a p) (fun q hq => ?_)
    refine Safe.bind (Safe.hMorphEach hP label rest) (fun qs hqs => Safe.pure ?_)
    simp only [List.mem_cons, forall_eq_or_imp]
    exact ⟨hq, hqs⟩

theorem Safe.hAlignAxis (hP : ∀ a, h0.next ≤ a → a < h0.top → P a) (axis : List Int) (join : Join) (ps : List Nat) :
    Safe P h0 (La.hAlignAxis axis join ps : HM L (List Nat)) (fun qs => ∀ q ∈ qs, P q) := by
  refine Safe.bind (Safe.hValues ps) (fun lars _ => ?_)
  split
  · exact Safe.fail
  split
  · exact Safe.fail
  split
  · exact Safe.fail
  exact Safe.bind (Safe.lift _) (fun label _ => Safe.hMorphEach hP label _)

theorem Safe.hStackPages (hP : ∀ a, h0.next ≤ a → a < h0.top → P a) (kwargs : List (L × Nat)) (row col : List L) (keys : List L) :
    Safe P h0 (La.hStackPages kwargs row col keys) (fun _ => True) := by
  induction keys with
  | nil => exact Safe.pure trivial
  | cons key keys ih =>
    refine Safe.bind (Safe.lift _) (fun p _ => ?_)
    refine Safe.bind (Safe.hMorph hP row 0 p) (fun q _ => ?_)
    refine Safe.bind (Safe.hMorph hP col 1 q) (fun q _ => ?_)
    refine Safe.bind (Safe.valueOf q) (fun y _ => ?_)
    refine Safe.bind (Safe.lift _) (fun page _ => ?_)
    exact Safe.bind ih (fun _ _ => Safe.pure trivial)

theorem Safe.hStack (hP : ∀ a, h0.next ≤ a → a < h0.top → P a) (mode : Option Bool) (kwargs : List (L × Nat)) :
    Safe P h0 (La.hStack mode kwargs) P := by
  refine Safe.bind (Safe.hValues _) (fun lars _ => ?_)
  split
  · exact Safe.fail
  cases mode with
  | none => exact Safe.fail
  | some m =>
    refine Safe.bind (Safe.lift _) (fun row _ => ?_)
    refine Safe.bind (Safe.lift _) (fun col _ => ?_)
    refine Safe.bind (Safe.hStackPages hP kwargs row col _) (fun pages _ => ?_)
    refine Safe.newLabel hP _ (fun label hl => ?_)
    exact Safe.bind (Safe.newArray hP _ _) (fun v hv => Safe.hInit hP hv hl)

theorem Safe.hSortby (hP : ∀ a, h0.next ≤ a → a < h0.top → P a) (argsort : List Val → List Nat) (element : L) (axis : Int)
    (reverse : Bool) {p : Nat} (hp : P p) : Safe P h0 (La.hSortby argsort element axis reverse p) (Ref.In P) := by
  have tail : Safe P h0 (La.hSortbyTail argsort element axis reverse p) (Ref.In P) := by
    refine Safe.bind (Safe.valueOf p) (fun y _ => ?_)
    dsimp only
    generalize (if axis < 0 then axis + (y.ndim : Int) else axis) = ax
    split
    · exact Safe.fail
    refine Safe.bind (Safe.lift _) (fun k _ => ?_)
    split <;> exact Safe.hGetitem hP _ _ hp
  refine Safe.bind (Safe.valueOf p) (fun y _ => ?_)
  split
  · exact Safe.fail
  split
  · refine Safe.bind (Safe.lift _) (fun l _ => ?_)
    split
    · exact Safe.bind (Safe.hCopy hP p) (fun q hq => Safe.pure hq)
    · exact tail
  · exact tail

theorem SafeAt.hSortby (hP : ∀ a, h0.next ≤ a → a < h0.top → P a) {h : Heap L} (argsort : List Val → List Nat) (element : L)
    (axis : Int) (reverse : Bool) {p : Nat} (hd : ∀ o, h.cell p = some (.obj o) → (h.out o.label).length ≤ 2) :
    SafeAt P h0 h (La.hSortby argsort element axis reverse p) (Ref.In P) := by
  have tail : SafeAt P h0 h (La.hSortbyTail argsort element axis reverse p) (Ref.In P) := by
    refine SafeAt.readValue (fun o ho => ?_)
    dsimp only
    generalize (if axis < 0 then axis + ((h.value o).ndim : Int) else axis) = ax
    split
    · exact Safe.fail.at
    refine SafeAt.read rfl (fun k _ => ?_)
    split
    · exact SafeAt.hGetTuple hP _ (by simp [Item.isSeq]) (by simpa using hd)
    · exact SafeAt.hGetTuple hP _ (by simp [Item.isSeq]) (by simpa using hd)
  refine SafeAt.readValue (fun o ho => ?_)
  split
  · exact Safe.fail.at
  split
  · refine SafeAt.read rfl (fun l _ => ?_)
    split
    · exact Safe.at (Safe.bind (Q' := Ref.In P) (Safe.hCopy hP p) (fun q hq => Safe.pure hq))
    · exact tail
  · exact tail

omit [LinearOrder L] in
theorem Safe.hLixLabels (hP : ∀ a, h0.next ≤ a → a < h0.top → P a) :
    ∀ l : List (HItem L × Option (List L)), (∀ c ∈ l, ∀ a, c.1 = .list a → P a) →
      Safe P h0 (La.hLixLabels l) (fun as => ∀ a ∈ as, P a)
  | [], _ => Safe.pure (by simp)
  | (it, none) :: rest, h => by
    cases it <;> exact Safe.hLixLabels hP rest (fun c hc => h c (List.mem_cons_of_mem _ hc))
  | (.list a, some _) :: rest, h => by
    refine Safe.bind (Safe.hLixLabels hP rest (fun c hc => h c (List.mem_cons_of_mem _ hc))) (fun bs hbs => Safe.pure ?_)
    simp only [List.mem_cons, forall_eq_or_imp]
    exact ⟨h _ List.mem_cons_self a rfl, hbs⟩
  | (.slice _, some lab) :: rest, h | (.int _, some lab) :: rest, h | (.other, some lab) :: rest, h => by
    unfold La.hLixLabels
    refine Safe.bind (Safe.alloc hP (c := .lst lab) trivial) (fun a ha => ?_)
    refine Safe.bind (Safe.hLixLabels hP rest (fun c hc => h c (List.mem_cons_of_mem _ hc))) (fun bs hbs => Safe.pure ?_)
    simp only [List.mem_cons, forall_eq_or_imp]
    exact ⟨ha, hbs⟩

/-- The part of `lix` for tuples. -/
theorem Safe.lixTuple (hP : ∀ a, h0.next ≤ a → a < h0.top → P a) {its : List (HItem L)}
    (hits : ∀ it ∈ its, ∀ a, it = .list a → P a) (y : Larry L) :
    Safe P h0 (do
      let ls ← HM.look (fun h => its.map (HItem.value h))
      let sels ← HM.lift (lixSel y ls)
      let as ← La.hLixLabels ((its ++ List.replicate (y.ndim - its.length) (HItem.slice {})).zip (sels.map Prod.snd))
      let ids ← HM.lift (ixIds y.shape (sels.map Prod.fst))
      let v ← La.newArray (y.x.grid ids).squeeze y.dtype
      if v.ix.shape = [] then return .scalar
      else do
        let label ← La.alloc (.out as)
        let q ← La.hInit v label
        return .larry q : HM L Ref) (Ref.In P) := by
  refine Safe.bind (Safe.look _) (fun ls _ => ?_)
  refine Safe.bind (Safe.lift _) (fun sels _ => ?_)
  refine Safe.bind (Safe.hLixLabels hP _ ?_) (fun as has => ?_)
  · intro c hc a ha
    rcases List.mem_append.mp (List.of_mem_zip hc).1 with h | h
    · exact hits _ h a ha
    · rw [(List.mem_replicate.mp h).2] at ha
      cases ha
  refine Safe.bind (Safe.lift _) (fun ids _ => ?_)
  refine Safe.bind (Safe.newArray hP _ _) (fun v hv => ?_)
  split
  · exact Safe.pure trivial
  refine Safe.bind (Safe.alloc hP (c := .out as) has) (fun label hl => ?_)
  exact Safe.bind (Safe.hInit hP hv hl) (fun q hq => Safe.pure hq)

/-- The lists between the brackets are in `P`. -/
def HIndex.In (P : Nat → Prop) : HIndex L → Prop
  | .one it => ∀ a, it = .list a → P a
  | .tuple its => ∀ it ∈ its, ∀ a, it = .list a → P a

theorem Safe.hLix (hP : ∀ a, h0.next ≤ a → a < h0.top → P a) {idx : HIndex L} (hidx : idx.In P) {p : Nat} (hp : P p) :
    Safe P h0 (La.hLix idx p) (Ref.In P) := by
  refine Safe.bind (Safe.valueOf p) (fun y _ => ?_)
  split
  · exact Safe.pure hp
  split
  · exact Safe.fail
  cases idx with
  | one it =>
    refine Safe.bind (Safe.look _) (fun it _ => ?_)
    exact Safe.bind (Safe.lift _) (fun np _ => Safe.hGetitem hP _ _ hp)
  | tuple its => exact Safe.lixTuple hP hidx y

theorem SafeAt.hLix (hP : ∀ a, h0.next ≤ a → a < h0.top → P a) {h : Heap L} {its : List (HItem L)}
    (hits : (HIndex.tuple its).In P) {p : Nat}
    (hd : ∀ o, h.cell p = some (.obj o) → (h.value o).shape ≠ [0]) :
    SafeAt P h0 h (La.hLix (.tuple its) p) (Ref.In P) := by
  refine SafeAt.readValue (fun o ho => ?_)
  rw [if_neg (hd o ho)]
  split
  · exact Safe.fail.at
  · exact (Safe.lixTuple hP hits _).at

end order

/-! ### Programs -/

theorem Safe.asLarrys {env : List Ref} (henv : ∀ r ∈ env, Ref.In P r) (is : List Nat) :
    Safe P h0 (La.asLarrys env is : HM L (List Nat)) (fun ps => ∀ p ∈ ps, P p) := by
  induction is with
  | nil => exact Safe.pure (by simp)
  | cons i is ih =>
    refine Safe.bind (Safe.asLarry henv i) (fun p hp => Safe.bind ih (fun ps hps => Safe.pure ?_))
    simp only [List.mem_cons, forall_eq_or_imp]
    exact ⟨hp, hps⟩

theorem asLarrys_after (env : List Ref) (h : Heap L) : ∀ is : List Nat, (La.asLarrys env is : HM L (List Nat)).after h = h := by
  have one : ∀ i, (asLarry env i : HM L Nat).after h = h := by
    intro i
    unfold asLarry
    split <;> rfl
  intro is
  induction is with
  | nil => rfl
  | cons i is ih =>
    unfold La.asLarrys
    cases hm : (asLarry env i : HM L Nat).out h with
    | error e => rw [(HM.bind_error hm).2, one]
    | ok p =>
      rw [(HM.bind_ok hm).2, one]
      cases hm : (La.asLarrys env is : HM L (List Nat)).out h with
      | error e => rw [(HM.bind_error hm).2, ih]
      | ok v =>
        rw [(HM.bind_ok hm).2, ih]
        rfl

theorem Safe.asOut? {env : List Ref} (henv : ∀ r ∈ env, Ref.In P r) (i : Option Nat) :
    Safe P h0 (La.asOut? env i : HM L (Option Nat)) (fun a => ∀ b, a = some b → P b) := by
  cases i with
  | none => exact Safe.pure (by simp)
  | some i => exact Safe.bind (Safe.asOut henv i) (fun a ha => Safe.pure (by simpa using ha))

theorem Safe.fetchItem {env : List Ref} (henv : ∀ r ∈ env, Ref.In P r) (it : HItem L) :
    Safe P h0 (it.fetch env) (fun it => ∀ a, it = .list a → P a) := by
  cases it with
  | list i => exact Safe.bind (Safe.asList henv i) (fun a ha => Safe.pure (by simpa using ha))
  | slice s => exact Safe.pure (by simp)
  | int i => exact Safe.pure (by simp)
  | other => exact Safe.pure (by simp)

theorem Safe.fetchItems {env : List Ref} (henv : ∀ r ∈ env, Ref.In P r) (its : List (HItem L)) :
    Safe P h0 (La.fetchItems env its) (fun its => ∀ it ∈ its, ∀ a, it = .list a → P a) := by
  induction its with
  | nil => exact Safe.pure (by simp)
  | cons it its ih =>
    refine Safe.bind (Safe.fetchItem henv it) (fun it hit => Safe.bind ih (fun its hits => Safe.pure ?_))
    simp only [List.mem_cons, forall_eq_or_imp]
    exact ⟨hit, hits⟩

theorem Safe.fetch {env : List Ref} (henv : ∀ r ∈ env, Ref.In P r) (idx : HIndex L) :
    Safe P h0 (idx.fetch env) (HIndex.In P) := by
  cases idx with
  | one it => exact Safe.bind (Safe.fetchItem henv it) (fun it hit => Safe.pure hit)
  | tuple its => exact Safe.bind (Safe.fetchItems henv its) (fun it hit => Safe.pure hit)

variable [LinearOrder L]

/-- Every call stays within the references held. -/
theorem Safe.callRun (hP : ∀ a, h0.next ≤ a → a < h0.top → P a) {env : List Ref} (henv : ∀ r ∈ env, Ref.In P r) (c : Call L) :
    Safe P h0 (c.run env) (fun rs => ∀ r ∈ rs, Ref.In P r) := by
  cases c with
  | getx copy i =>
    refine Safe.bind (Safe.asLarry henv i) (fun p hp => ?_)
    exact Safe.bind (Safe.hGetx hP (Or.inr hp)) (fun v hv => Safe.pure (by simpa [Ref.In] using hv))
  | getlabel axis copy i =>
    refine Safe.bind (Safe.asLarry henv i) (fun p hp => ?_)
    exact Safe.bind (Safe.hGetlabel hP axis (Or.inr hp)) (fun v hv => Safe.pure (by simpa [Ref.In] using hv))
  | copylabel i =>
    refine Safe.bind (Safe.asLarry henv i) (fun p hp => ?_)
    exact Safe.bind (Safe.hCopylabel hP p) (fun v hv => Safe.pure (by simpa [Ref.In] using hv))
  | cov i => exact Safe.bind (Safe.asLarry henv i) (fun p _ => Safe.give (Safe.hCov hP p))
  | flatten tup order i => exact Safe.bind (Safe.asLarry henv i) (fun p _ => Safe.give (Safe.hFlatten hP tup order p))
  | panel tup i => exact Safe.bind (Safe.asLarry henv i) (fun p _ => Safe.give (Safe.hPanel hP tup p))
  | alignAxis axis join is =>
    refine Safe.bind (Safe.asLarrys henv is) (fun ps _ => ?_)
    exact Safe.bind (Safe.hAlignAxis hP axis join ps) (fun qs hqs => Safe.pure (by simpa [Ref.In] using hqs))
  | stack mode kwargs =>
    exact Safe.bind (Safe.asLarrys henv _) (fun ps _ => Safe.give (Safe.hStack hP mode _))
  | sortby argsort element axis reverse i =>
    refine Safe.bind (Safe.asLarry henv i) (fun p hp => ?_)
    exact Safe.bind (Safe.hSortby hP argsort element axis reverse hp) (fun r hr => Safe.pure (by simpa using hr))
  | lix idx i =>
    refine Safe.bind (Safe.asLarry henv i) (fun p hp => ?_)
    refine Safe.bind (Safe.fetch henv idx) (fun idx hidx => ?_)
    exact Safe.bind (Safe.hLix hP hidx hp) (fun r hr => Safe.pure (by simpa using hr))
  | lrange num shape label start step dtype =>
    exact Safe.bind (Safe.asOut? henv label) (fun a ha => Safe.give (Safe.hLrange hP num shape start step dtype ha))
  | filled mem num n shape label dtype =>
    exact Safe.bind (Safe.asOut? henv label) (fun a ha => Safe.give (Safe.hFilled hP mem num n shape dtype ha))

/-- Every step stays within the references held. -/
theorem Safe.stepRun (hP : ∀ a, h0.next ≤ a → a < h0.top → P a) {env : List Ref} (henv : ∀ r ∈ env, Ref.In P r) (a : Step L) :
    Safe P h0 (a.run env) (fun rs => ∀ r ∈ rs, Ref.In P r) := by
  cases a with
  | act a => exact Safe.run hP henv a
  | call c => exact Safe.callRun hP henv c

end rules
end La
