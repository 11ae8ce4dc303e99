import Verif.Protocol
import Verif.Props.Operand
import Verif.Props.Index

/-!
# C125: larrys in loops and conditions
-/

namespace La
variable {L : Type _}
open Larry

/-! ## Specification -/

/-- The item at the label `name` of axis 0: for one axis the value there, for more axes the larry of what is left. -/
inductive ItemAt (y : Larry L) (name : L) : GetOut L → Prop
  | value {v : Val} (hn : y.ndim = 1) (h : y.Has [name] v) : ItemAt y name (.scalar v)
  | row {z : Larry L} (hn : 2 ≤ y.ndim) (hz : z.Valid) (hl : z.label = y.label.drop 1) (hd : z.dtype = y.dtype)
      (h : ∀ names v, z.Has names v ↔ y.Has (name :: names) v) : ItemAt y name (.larry z)

/-- Two values are the same number; NaN is not the same as anything. -/
def SameNumber (v w : Val) : Prop := ∃ g, IsNumber v g ∧ IsNumber w g ∧ g ≠ .nan

/-! ## Python's loops -/

theorem seqLoop_unique {α : Type _} {get : Nat → Res α} {k : Nat} {as bs : List α} {r t : Option PyErr} (h : SeqLoop get k as r)
    (h' : SeqLoop get k bs t) : as = bs ∧ r = t := by
  induction h generalizing bs t with
  | stop h =>
    cases h' with
    | stop => exact ⟨rfl, rfl⟩
    | fail g he => rw [h] at g; cases g; exact absurd rfl he
    | step g => rw [h] at g; cases g
  | fail h he =>
    cases h' with
    | stop g => rw [h] at g; cases g; exact absurd rfl he
    | fail g => rw [h] at g; cases g; exact ⟨rfl, rfl⟩
    | step g => rw [h] at g; cases g
  | step h _ ih =>
    cases h' with
    | stop g => rw [h] at g; cases g
    | fail g => rw [h] at g; cases g
    | step g t =>
      rw [h] at g
      cases g
      obtain ⟨rfl, rfl⟩ := ih t
      exact ⟨rfl, rfl⟩

theorem seqFind_unique {α : Type _} {get : Nat → Res α} {test : α → Res Bool} {k : Nat} {r t : Res Bool} (h : SeqFind get test k r)
    (h' : SeqFind get test k t) : r = t := by
  induction h generalizing t with
  | stop h =>
    cases h' with
    | stop => rfl
    | fail g he => rw [h] at g; cases g; exact absurd rfl he
    | bad g | found g | next g => rw [h] at g; cases g
  | fail h he =>
    cases h' with
    | stop g => rw [h] at g; cases g; exact absurd rfl he
    | fail g => rw [h] at g; cases g; rfl
    | bad g | found g | next g => rw [h] at g; cases g
  | bad h ht =>
    cases h' with
    | stop g | fail g => rw [h] at g; cases g
    | bad g gt => rw [h] at g; cases g; rw [ht] at gt; cases gt; rfl
    | found g gt | next g gt => rw [h] at g; cases g; rw [ht] at gt; cases gt
  | found h ht =>
    cases h' with
    | stop g | fail g => rw [h] at g; cases g
    | found => rfl
    | bad g gt | next g gt => rw [h] at g; cases g; rw [ht] at gt; cases gt
  | next h ht _ ih =>
    cases h' with
    | stop g | fail g => rw [h] at g; cases g
    | bad g gt | found g gt => rw [h] at g; cases g; rw [ht] at gt; cases gt
    | next g gt t => rw [h] at g; cases g; exact ih t

theorem seqLoop_of {α : Type _} {get : Nat → Res α} {as : List α} {k : Nat} (h : ∀ (i : Nat) a, as[i]? = some a → get (k + i) = .ok a)
    (he : get (k + as.length) = .error .indexError) : SeqLoop get k as none := by
  induction as generalizing k with
  | nil => exact .stop he
  | cons a as ih =>
    refine .step (h 0 a rfl) (ih (fun i b hb => ?_) ?_)
    · have := h (i + 1) b hb
      rwa [show k + (i + 1) = k + 1 + i by omega] at this
    · rwa [List.length_cons, show k + (as.length + 1) = k + 1 + as.length by omega] at he

/-- A search in which the test never raises. -/
theorem seqFind_of {α : Type _} {get : Nat → Res α} {test : α → Res Bool} {p : α → Bool} {as : List α} {k : Nat}
    (h : ∀ (i : Nat) a, as[i]? = some a → get (k + i) = .ok a) (he : get (k + as.length) = .error .indexError)
    (hp : ∀ a ∈ as, test a = .ok (p a)) : SeqFind get test k (.ok (as.any p)) := by
  induction as generalizing k with
  | nil => exact .stop he
  | cons a as ih =>
    have h0 := h 0 a rfl
    have ht := hp a (by simp)
    cases ha : p a with
    | true => rw [ha] at ht; simpa [ha] using SeqFind.found h0 ht
    | false =>
      rw [ha] at ht
      rw [List.any_cons, ha, Bool.false_or]
      refine .next h0 ht (ih (fun i b hb => ?_) ?_ (fun b hb => hp b (by simp [hb])))
      · have := h (i + 1) b hb
        rwa [show k + (i + 1) = k + 1 + i by omega] at this
      · rwa [List.length_cons, show k + (as.length + 1) = k + 1 + as.length by omega] at he

section
variable [LinearOrder L]

/-! ## The items of a larry -/

theorem item_in {y : Larry L} (hv : y.Valid) {l : List L} {ls : List (List L)} (hl : y.label = l :: ls) {k : Nat} {n : L}
    (hk : l[k]? = some n) : ∃ g, y.item k = .ok g ∧ ItemAt y n g := by
  have hs : ¬ Scrambled (Index.one (Item.int (L := L) k)).items := by
    rintro ⟨⟨s, p, a, b, h1, h2, h3, -⟩, -⟩
    have e1 := (List.getElem?_eq_some_iff.mp h2).1
    have e2 := (List.getElem?_eq_some_iff.mp h3).1
    simp only [Index.items, List.length_cons, List.length_nil] at e1 e2
    omega
  have hm : ∀ m, Item.lar m ∈ (Index.one (Item.int (L := L) k)).items → m.Valid := by
    intro m h; simp [Index.items] at h
  have hp : TakesParts y.label (Index.one (Item.int (L := L) k)).items (.one n :: ls.map Part.many) := by
    rw [hl]
    exact takesParts_one.mpr ⟨k, hk, .inl rfl⟩
  have hnd : y.ndim = ls.length + 1 := by rw [← hv.label_length, hl]; rfl
  have hone : OneList (Index.one (Item.int (L := L) k)).items := by
    intro p q a b h1 h2 h3
    have e1 := (List.getElem?_eq_some_iff.mp h1).1
    have e2 := (List.getElem?_eq_some_iff.mp h2).1
    simp only [Index.items, List.length_cons, List.length_nil] at e1 e2
    omega
  have hlab : Part.labels (.one n :: ls.map Part.many) = ls := by simp [Part.labels, labels_whole]
  obtain ⟨g, hg⟩ := (C33_succeeds hv hm hs).mpr ⟨by simp [Index.items, hnd], hone, _, hp, fun l' h' => by
    rw [hlab] at h'
    exact hv.nodup l' (by rw [hl]; simp [h'])⟩
  obtain ⟨parts, h1, h2⟩ := C33_getitem hv hm hs hg
  obtain ⟨k1, k2⟩ := C33_kind hv hm hs hg
  cases takesParts_unique hv.nodup h1 hp
  rw [hlab] at h2
  refine ⟨g, hg, ?_⟩
  cases g with
  | scalar v =>
    obtain ⟨-, h4⟩ := k1.mp ⟨v, rfl⟩
    exact .value (by simpa [Index.items] using h4.symm) (by simpa [Part.names, h2.1] using h2.2)
  | array x => obtain ⟨its, h, -⟩ := k2.mp ⟨x, rfl⟩; cases h
  | larry z =>
    have hne : ls ≠ [] := by
      intro h0
      obtain ⟨w, h⟩ := k1.mpr ⟨fun it h => ⟨k, by simpa [Index.items] using h⟩, by simp [Index.items, hnd, h0]⟩
      cases h
    have h0 := List.length_pos_iff.mpr hne
    refine .row (by omega) h2.2.2.1 (by rw [h2.1, hl]; rfl) h2.2.1 (fun names v => ?_)
    rw [h2.2.2.2]
    constructor
    · rintro ⟨hN, h⟩
      simpa [Part.names, names_whole hN] using h
    · intro h
      have hN := Named_of_Holds h
      rw [hl] at hN
      exact ⟨hN.2, by simpa [Part.names, names_whole hN.2] using h⟩

theorem item_out {y : Larry L} (hv : y.Valid) {l : List L} {ls : List (List L)} (hl : y.label = l :: ls) {k : Nat}
    (hk : l.length ≤ k) : y.item k = .error .indexError := by
  have hs : y.shape.getD 0 0 = l.length := by rw [shape, hv.shape_eq, hl]; rfl
  have : (k : Int) ≥ (y.shape.getD 0 0 : Nat) := by rw [hs]; exact_mod_cast hk
  simp only [item, getitem]
  rw [if_pos this]

/-- All items. -/
theorem items_of {y : Larry L} (hv : y.Valid) {l : List L} {ls : List (List L)} (hl : y.label = l :: ls) :
    ∃ items : List (GetOut L), List.Forall₂ (ItemAt y) l items ∧ (∀ (i : Nat) a, items[i]? = some a → y.item i = .ok a) := by
  have key : ∀ (l' : List L) (k : Nat), (∀ (i : Nat) n, l'[i]? = some n → l[k + i]? = some n) →
      ∃ items : List (GetOut L), List.Forall₂ (ItemAt y) l' items ∧ (∀ (i : Nat) a, items[i]? = some a → y.item (k + i) = .ok a) := by
    intro l'
    induction l' with
    | nil => exact fun k _ => ⟨[], .nil, by simp⟩
    | cons n l' ih =>
      intro k h
      obtain ⟨g, h1, h2⟩ := item_in hv hl (h 0 n rfl)
      obtain ⟨gs, h3, h4⟩ := ih (k + 1) (fun i m hm => by
        have := h (i + 1) m hm
        rwa [show k + (i + 1) = k + 1 + i by omega] at this)
      refine ⟨g :: gs, .cons h2 h3, fun i a ha => ?_⟩
      cases i with
      | zero => cases ha; exact h1
      | succ i => rw [show k + (i + 1) = k + 1 + i by omega]; exact h4 i a ha
  obtain ⟨items, h1, h2⟩ := key l 0 (by simp)
  exact ⟨items, h1, fun i a ha => by have := h2 i a ha; rwa [Nat.zero_add] at this⟩

/-! ## C125 -/

/-- C125. `for item in y` ends without an exception; it gives one item for each label of axis 0, in that order, and nothing else:
the value at the label for one axis, and for more axes the larry of the remaining axes with the values at that label. -/
theorem C125_loop {y : Larry L} (hv : y.Valid) {l : List L} {ls : List (List L)} (hl : y.label = l :: ls) :
    ∃ items, y.Loop items none ∧ List.Forall₂ (ItemAt y) l items ∧
      ∀ items' r, y.Loop items' r → items' = items ∧ r = none := by
  obtain ⟨items, h1, h2⟩ := items_of hv hl
  have h : y.Loop items none := seqLoop_of (fun i a ha => by rw [Nat.zero_add]; exact h2 i a ha)
    (item_out hv hl (by rw [Nat.zero_add, h1.length_eq]))
  exact ⟨items, h, h1, fun items' r h' => seqLoop_unique h' h⟩

theorem firstItems_of {α : Type _} {get : Nat → Res α} {as : List α} {k n : Nat}
    (h : ∀ (i : Nat) a, as[i]? = some a → get (k + i) = .ok a) (he : get (k + as.length) = .error .indexError) :
    firstItems get k n = if n ≤ as.length then .ok (as.take n) else .error .valueError := by
  induction n generalizing k as with
  | zero => simp [firstItems]
  | succ n ih =>
    cases as with
    | nil => have he : get k = .error .indexError := he; simp [firstItems, he]
    | cons a as =>
      have h0 : get k = .ok a := h 0 a rfl
      have := ih (k := k + 1) (as := as) (fun i b hb => by
        have := h (i + 1) b hb
        rwa [show k + (i + 1) = k + 1 + i by omega] at this) (by
        rwa [List.length_cons, show k + (as.length + 1) = k + 1 + as.length by omega] at he)
      simp only [firstItems, h0, this, List.length_cons, Nat.add_le_add_iff_right]
      by_cases hle : n ≤ as.length <;> simp [hle]

/-- C125. `a, b, ... = y` with `n` names gives the items of the loop if axis 0 has `n` labels, and raises ValueError otherwise. -/
theorem C125_unpack {y : Larry L} (hv : y.Valid) {l : List L} {ls : List (List L)} (hl : y.label = l :: ls) (n : Nat) :
    (n = l.length → ∃ items, y.unpack n = .ok items ∧ y.Loop items none) ∧ (n ≠ l.length → y.unpack n = .error .valueError) := by
  obtain ⟨items, h1, h2⟩ := items_of hv hl
  have hlen := h1.length_eq
  have hend : y.item (0 + items.length) = .error .indexError := item_out hv hl (by rw [Nat.zero_add, hlen])
  have hget : ∀ (i : Nat) a, items[i]? = some a → y.item (0 + i) = .ok a := fun i a ha => by rw [Nat.zero_add]; exact h2 i a ha
  have h3 := firstItems_of (n := n) hget hend
  constructor
  · rintro rfl
    refine ⟨items, ?_, seqLoop_of hget hend⟩
    rw [if_pos (by omega), hlen, List.take_length] at h3
    have he : y.item items.length = .error .indexError := by rwa [Nat.zero_add] at hend
    simp only [unpack, unpackItems, hlen, h3, he]
  · intro hne
    by_cases hle : n ≤ items.length
    · rw [if_pos hle] at h3
      obtain ⟨a, ha⟩ : ∃ a, items[n]? = some a := ⟨_, List.getElem?_eq_getElem (by omega)⟩
      simp only [unpack, unpackItems, h3, h2 n a ha]
    · rw [if_neg hle] at h3
      simp only [unpack, unpackItems, h3]

theorem forall₂_mem {α β : Type _} {R : α → β → Prop} {as : List α} {bs : List β} (h : List.Forall₂ R as bs) :
    (∀ b ∈ bs, ∃ a ∈ as, R a b) ∧ ∀ a ∈ as, ∃ b ∈ bs, R a b := by
  induction h with
  | nil => simp
  | cons h _ ih =>
    constructor
    · rintro b (_ | ⟨_, hb⟩)
      · exact ⟨_, by simp, h⟩
      · obtain ⟨a, ha, hr⟩ := ih.1 b hb
        exact ⟨a, by simp [ha], hr⟩
    · rintro a (_ | ⟨_, ha⟩)
      · exact ⟨_, by simp, h⟩
      · obtain ⟨b, hb, hr⟩ := ih.2 a ha
        exact ⟨b, by simp [hb], hr⟩

/-- The search when the test does not raise. -/
theorem in_of {y : Larry L} (hv : y.Valid) {l : List L} {ls : List (List L)} (hl : y.label = l :: ls) (py3 : Bool) (s : Sought L)
    {p : GetOut L → Bool} (hp : ∀ n g, ItemAt y n g → sameItem py3 y.dtype s g = .ok (p g)) :
    ∃ items, List.Forall₂ (ItemAt y) l items ∧ ∀ r, y.In py3 s r ↔ r = .ok (items.any p) := by
  obtain ⟨items, h1, h2⟩ := items_of hv hl
  have h : y.In py3 s (.ok (items.any p)) := seqFind_of (fun i a ha => by rw [Nat.zero_add]; exact h2 i a ha)
    (item_out hv hl (by rw [Nat.zero_add, h1.length_eq])) (fun a ha => by
      obtain ⟨n, -, hn⟩ := (forall₂_mem h1).1 a ha
      exact hp n a hn)
  exact ⟨items, h1, fun r => ⟨fun h' => seqFind_unique h' h, fun e => e ▸ h⟩⟩

/-- C125. `v in y` for a number and a larry of one axis: True exactly when the number is among the values. -/
theorem C125_in_values {y : Larry L} (hv : y.Valid) (ht : y.Typed) (hd : y.dtype.Number) (hn : y.ndim = 1) (py3 : Bool) {v : Val}
    {d : DType} (hvd : v.hasDType d = true) (hdn : d.Number) :
    ∃ b, (∀ r, y.In py3 (.number v d) r ↔ r = .ok b) ∧ (b = true ↔ ∃ names w, y.Has names w ∧ SameNumber v w) := by
  obtain ⟨l, ls, hl⟩ := List.exists_cons_of_ne_nil hv.ndim_pos
  have hls : ls = [] := by
    have : y.label.length = 1 := hv.label_length.trans hn
    rw [hl] at this
    simpa using this
  subst hls
  obtain ⟨items, h1, h2⟩ := in_of hv hl py3 (.number v d) (p := fun g => match g with
    | .scalar w => RelOp.eq.test v.num w.num
    | _ => true) (by
      intro n g hg
      cases hg with
      | value => rfl
      | row h => omega)
  refine ⟨_, h2, ?_⟩
  rw [List.any_eq_true]
  have same : ∀ w, w.hasDType y.dtype = true → (RelOp.eq.test v.num w.num = true ↔ SameNumber v w) := by
    intro w hw
    have hv' := num_isNumber hdn hvd
    have hw' := num_isNumber hd hw
    rw [test_asks]
    constructor
    · rintro ⟨e, hne⟩; exact ⟨v.num, hv', e ▸ hw', hne⟩
    · rintro ⟨g, g1, g2, g3⟩
      rw [g1.num, g2.num]
      exact ⟨rfl, g3⟩
  constructor
  · rintro ⟨g, hg, hp⟩
    obtain ⟨n, -, hi⟩ := (forall₂_mem h1).1 g hg
    cases hi with
    | value _ hw => exact ⟨[n], _, hw, (same _ ((typed_iff hv).mp ht _ _ hw)).mp hp⟩
    | row h => omega
  · rintro ⟨names, w, hw, hs⟩
    have hN := Named_of_Holds hw
    rw [hl] at hN
    obtain ⟨n, rfl⟩ : ∃ n, names = [n] := by
      have := Named_length hN
      match names, this with
      | [n], _ => exact ⟨n, rfl⟩
    obtain ⟨g, hg, hi⟩ := (forall₂_mem h1).2 n hN.1
    cases hi with
    | value _ hw' =>
      refine ⟨_, hg, ?_⟩
      have : w = _ := Holds_unique hv.nodup hw hw'
      exact (same _ ((typed_iff hv).mp ht _ _ hw')).mpr (this ▸ hs)
    | row h => omega

omit [LinearOrder L] in
theorem row_typed {y z : Larry L} (hv : y.Valid) (ht : y.Typed) (hz : z.Valid) (hd : z.dtype = y.dtype) {n : L}
    (h : ∀ names v, z.Has names v ↔ y.Has (n :: names) v) : z.Typed :=
  (typed_iff hz).mpr fun names v k => hd ▸ (typed_iff hv).mp ht _ _ ((h names v).mp k)

/-- A number and a larry compare to a larry. -/
theorem ask_number (py3 : Bool) {y : Larry L} (hv : y.Valid) (ht : y.Typed) (hd : y.dtype.Number) {v : Val} {d : DType}
    (hvd : v.hasDType d = true) (hdn : d.Number) (c : RelOp) :
    ∃ z, (BinOp.rel c).run py3 (.scalar (numberClass d) v d) (.larry y) = .ok (.larry z) := by
  have hc : numberClass d ≠ .other := by rcases hdn with rfl | rfl | rfl <;> simp [numberClass]
  obtain ⟨z, h, -⟩ := C113_left py3 (.rel c) hv ht hd (o := .scalar (numberClass d) v d) (x := ⟨[], fun _ => v⟩) (d := d) (.scalar hc)
    ⟨hdn, fun _ _ => hvd⟩ (scalar_fits _) (by
      intro c' _ h
      generalize hk : numberClass d = k at h
      cases h
      rcases hdn with rfl | rfl | rfl <;> simp [numberClass] at hk) (by simp)
  exact ⟨z, h⟩

/-- Two larrys compare to a larry if they have the same number of axes. -/
theorem ask_larrys (py3 : Bool) {x y : Larry L} (hx : x.Valid) (hy : y.Valid) (tx : x.Typed) (ty : y.Typed) (dx : x.dtype.Number)
    (dy : y.dtype.Number) (c : RelOp) : (x.ndim = y.ndim → ∃ z, (BinOp.rel c).run py3 (.larry x) (.larry y) = .ok (.larry z)) ∧
    (x.ndim ≠ y.ndim → (BinOp.rel c).run py3 (.larry x) (.larry y) = .error .indexError) := by
  rw [run_larrys]
  constructor
  · intro hn
    obtain ⟨z, h, -⟩ := BinOp.larrys_spec py3 (.rel c) hx hy tx ty dx dy hn
    exact ⟨z, by rw [h]; rfl⟩
  · intro hn
    exact map_error (C11_compare_ndim hn _)

theorem any_true {α : Type _} (l : List α) : l.any (fun _ => true) = !l.isEmpty := by cases l <;> simp

/-- C125. `v in y` for a number and a larry of two or more axes: True as soon as axis 0 has a label, whatever the values are. -/
theorem C125_in_rows {y : Larry L} (hv : y.Valid) (ht : y.Typed) (hd : y.dtype.Number) (hn : 2 ≤ y.ndim) (py3 : Bool) {v : Val}
    {d : DType} (hvd : v.hasDType d = true) (hdn : d.Number) {l : List L} {ls : List (List L)} (hl : y.label = l :: ls)
    (r : Res Bool) : y.In py3 (.number v d) r ↔ r = .ok (decide (l ≠ [])) := by
  obtain ⟨items, h1, h2⟩ := in_of hv hl py3 (.number v d) (p := fun _ => true) (by
    intro n g hg
    cases hg with
    | value h => omega
    | row _ hz hlz hdz h =>
      obtain ⟨w, hw⟩ := ask_number py3 hz (row_typed hv ht hz hdz h) (hdz ▸ hd) hvd hdn .eq
      simp only [sameItem, askEq, Sought.operand, hw]
      rfl)
  rw [h2, any_true]
  have := h1.length_eq
  cases l <;> cases items <;> simp_all

/-- C125. `z in y` for a larry `z`: False if axis 0 of `y` is empty; otherwise True if `y` has one axis or `z` has as many axes as the
items, whatever the values are, and IndexError if not. -/
theorem C125_in_larry {y z : Larry L} (hv : y.Valid) (ht : y.Typed) (hd : y.dtype.Number) (hz : z.Valid) (tz : z.Typed)
    (hdz : z.dtype.Number) (py3 : Bool) {l : List L} {ls : List (List L)} (hl : y.label = l :: ls) (r : Res Bool) :
    y.In py3 (.larry z) r ↔ r = if l = [] then .ok false else if y.ndim = 1 ∨ y.ndim = z.ndim + 1 then .ok true
      else .error .indexError := by
  have hnd : y.ndim = ls.length + 1 := by rw [← hv.label_length, hl]; rfl
  by_cases hn : y.ndim = 1 ∨ y.ndim = z.ndim + 1
  · obtain ⟨items, h1, h2⟩ := in_of hv hl py3 (.larry z) (p := fun _ => true) (by
      intro n g hg
      cases hg with
      | @value w _ hw =>
        have hc : elementClass y.dtype ≠ .other := by rcases hd with e | e | e <;> simp [elementClass, e]
        obtain ⟨u, hu, -⟩ := C113_right py3 (.rel .eq) hz tz hdz (o := .scalar (elementClass y.dtype) w y.dtype)
          (x := ⟨[], fun _ => w⟩) (.scalar hc) ⟨hd, fun _ _ => (typed_iff hv).mp ht _ _ hw⟩ (scalar_fits _)
        simp only [sameItem, askEq, hu]
        rfl
      | @row w hn2 hw hlw hdw h =>
        have e : z.ndim = w.ndim := by
          rw [← hw.label_length, hlw, hl, List.drop_one, List.tail_cons]
          omega
        obtain ⟨u, hu⟩ := (ask_larrys py3 hz hw tz (row_typed hv ht hw hdw h) hdz (hdw ▸ hd) .eq).1 e
        simp only [sameItem, askEq, Sought.operand, hu]
        rfl)
    rw [h2, any_true, if_pos hn]
    have := h1.length_eq
    cases l <;> cases items <;> simp_all
  · rw [if_neg hn]
    cases l with
    | nil =>
      have h : y.In py3 (.larry z) (.ok false) := .stop (item_out hv hl (by simp))
      exact ⟨fun h' => seqFind_unique h' h, fun e => e ▸ h⟩
    | cons n l =>
      have h : y.In py3 (.larry z) (.error .indexError) := by
        obtain ⟨g, h1, h2⟩ := item_in hv hl (k := 0) rfl
        refine .bad h1 ?_
        cases h2 with
        | value h => exact absurd (.inl h) hn
        | @row w hn2 hw hlw hdw h =>
          have e : z.ndim ≠ w.ndim := by
            rw [← hw.label_length, hlw, hl, List.drop_one, List.tail_cons]
            intro e
            exact hn (.inr (by omega))
          have := (ask_larrys py3 hz hw tz (row_typed hv ht hw hdw h) hdz (hdw ▸ hd) .eq).2 e
          simp only [sameItem, askEq, Sought.operand, this]
          rfl
      exact ⟨fun h' => seqFind_unique h' h, fun e => e ▸ h⟩

/-- C125. A comparison of two larrys, used as a condition, is true whatever the values are, or raises IndexError if the numbers of
axes differ. -/
theorem C125_condition (py3 : Bool) {x y : Larry L} (hx : x.Valid) (hy : y.Valid) (tx : x.Typed) (ty : y.Typed)
    (dx : x.dtype.Number) (dy : y.dtype.Number) (c : RelOp) :
    ((BinOp.rel c).run py3 (.larry x) (.larry y)).map Outcome.bool = if x.ndim = y.ndim then .ok true else .error .indexError := by
  obtain ⟨h1, h2⟩ := ask_larrys py3 hx hy tx ty dx dy c
  split
  · rename_i h
    obtain ⟨z, hz⟩ := h1 h
    rw [hz]
    rfl
  · rename_i h
    rw [h2 h]
    rfl

/-- C125. `a < y < b` with a number `a` is `y < b`: the first comparison has no effect.  In the same way for the other comparisons. -/
theorem C125_between (py3 : Bool) (c1 c2 : RelOp) {y : Larry L} (hv : y.Valid) (ht : y.Typed) (hd : y.dtype.Number) {v : Val}
    {d : DType} (hvd : v.hasDType d = true) (hdn : d.Number) (b : Operand L) :
    between py3 c1 c2 (.scalar (numberClass d) v d) y b = (BinOp.rel c2).run py3 (.larry y) b := by
  obtain ⟨z, hz⟩ := ask_number py3 hv ht hd hvd hdn c1
  simp only [between, hz, Outcome.bool, if_true]

/-- C125. So is `x < y < z` with a larry `x` of as many axes. -/
theorem C125_between_larrys (py3 : Bool) (c1 c2 : RelOp) {x y : Larry L} (hx : x.Valid) (hy : y.Valid) (tx : x.Typed) (ty : y.Typed)
    (dx : x.dtype.Number) (dy : y.dtype.Number) (hn : x.ndim = y.ndim) (b : Operand L) :
    between py3 c1 c2 (.larry x) y b = (BinOp.rel c2).run py3 (.larry y) b := by
  obtain ⟨z, hz⟩ := (ask_larrys py3 hx hy tx ty dx dy c1).1 hn
  simp only [between, hz, Outcome.bool, if_true]

/-- C125. Python's `max(y, z, ...)` and `min(y, z, ...)` of larrys of the same number of axes are the last argument. -/
theorem C125_max (py3 : Bool) (c : RelOp) {n : Nat} (m : Larry L) (zs : List (Larry L))
    (h : ∀ z ∈ m :: zs, z.Valid ∧ z.Typed ∧ z.dtype.Number ∧ z.ndim = n) :
    best py3 c m zs = .ok ((m :: zs).getLast (by simp)) := by
  induction zs generalizing m with
  | nil => rfl
  | cons z zs ih =>
    obtain ⟨m1, m2, m3, m4⟩ := h m (by simp)
    obtain ⟨z1, z2, z3, z4⟩ := h z (by simp)
    obtain ⟨w, hw⟩ := (ask_larrys py3 z1 m1 z2 m2 z3 m3 c).1 (z4.trans m4.symm)
    simp only [best, hw, Outcome.bool, if_true]
    rw [ih z (fun u hu => h u (by simp at hu ⊢; tauto))]
    simp

/-- C125. `lars.index(z)` is 0 and `lars.count(z)` the length of the list, if the larrys have as many axes as `z`. -/
theorem C125_index (py3 : Bool) {z : Larry L} (hz : z.Valid) (tz : z.Typed) (dz : z.dtype.Number) (ys : List (Larry L))
    (h : ∀ y ∈ ys, y.Valid ∧ y.Typed ∧ y.dtype.Number ∧ y.ndim = z.ndim) :
    (ys ≠ [] → listIndex py3 z 0 ys = .ok 0) ∧ listCount py3 z ys = .ok ys.length := by
  have key : ∀ y ∈ ys, askEq py3 (.larry y) (.larry z) = .ok true := by
    intro y hy
    obtain ⟨h1, h2, h3, h4⟩ := h y hy
    have := C125_condition py3 h1 hz h2 tz h3 dz .eq
    rwa [if_pos h4] at this
  clear h
  constructor
  · intro hne
    obtain ⟨y, ys, rfl⟩ := List.exists_cons_of_ne_nil hne
    simp [listIndex, key y (by simp)]
  · induction ys with
    | nil => rfl
    | cons y ys ih => simp [listCount, key y (by simp), ih (fun u hu => key u (by simp [hu]))]

end

/-! ## Cases -/

/-- Rows 7 and 6, columns 1 and 2. -/
def exTiles : Larry Nat := ⟨.ofList [2, 2] [.int 1, .int 2, .int 3, .int 4], .int, [[7, 6], [1, 2]]⟩
/-- A line with a missing value. -/
def exBeads : Larry Nat := ⟨.ofList [3] [fl 1, .flt .nan, fl 3], .float, [[9, 4, 5]]⟩

theorem exTiles_ok : exTiles.Valid ∧ exTiles.Typed ∧ exTiles.dtype.Number :=
  ⟨⟨rfl, by decide, by decide⟩, fun idx h => (by decide +kernel :
    ∀ idx ∈ allIdx exTiles.x.shape, (exTiles.x.get idx).hasDType exTiles.dtype = true) idx (mem_allIdx.mpr h), .inr (.inl rfl)⟩
theorem exBeads_ok : exBeads.Valid ∧ exBeads.Typed ∧ exBeads.dtype.Number :=
  ⟨⟨rfl, by decide, by decide⟩, fun idx h => (by decide +kernel :
    ∀ idx ∈ allIdx exBeads.x.shape, (exBeads.x.get idx).hasDType exBeads.dtype = true) idx (mem_allIdx.mpr h), .inr (.inr rfl)⟩

/-- The loop over the rows: the second item is the row 6. -/
example : ∃ (items : List (GetOut Nat)) (z : Larry Nat), exTiles.Loop items none ∧ items.length = 2 ∧ items[1]? = some (.larry z) ∧
    z.label = [[1, 2]] ∧ z.Has [2] (.int 4) := by
  obtain ⟨items, h1, h2, -⟩ := C125_loop exTiles_ok.1 (l := [7, 6]) (ls := [[1, 2]]) rfl
  match items, h2 with
  | [a, b], .cons _ (.cons h .nil) =>
    cases h with
    | value h => exact absurd h (by decide)
    | @row z _ _ hl _ h => exact ⟨_, z, h1, rfl, rfl, hl, (h _ _).mpr ⟨[1, 1], by simp [At, exTiles], by decide⟩⟩

example : exTiles.unpack 3 = .error .valueError := (C125_unpack exTiles_ok.1 (l := [7, 6]) rfl 3).2 (by decide)

/-- C125. In a line a number is found, also one of another type; NaN is never found. -/
theorem C125_in_line (py3 : Bool) : exBeads.In py3 (.number (.int 3) .int) (.ok true) ∧
    exBeads.In py3 (.number (.flt .nan) .float) (.ok false) := by
  obtain ⟨h1, h2, h3⟩ := exBeads_ok
  constructor
  · obtain ⟨b, k1, k2⟩ := C125_in_values h1 h2 h3 rfl py3 (v := .int 3) (d := .int) rfl (.inr (.inl rfl))
    have : b = true := k2.mpr ⟨[5], fl 3, ⟨[2], by simp [At, exBeads], by decide +kernel⟩, .fin 3, by simpa using IsNumber.int 3, .flt _, by simp⟩
    exact (k1 _).mpr (by rw [this])
  · obtain ⟨b, k1, k2⟩ := C125_in_values h1 h2 h3 rfl py3 (v := .flt .nan) (d := .float) rfl (.inr (.inr rfl))
    cases b with
    | false => exact (k1 _).mpr rfl
    | true =>
      obtain ⟨_, w, -, g, g1, -, g3⟩ := k2.mp rfl
      cases g1
      exact absurd rfl g3

/-- C125. `5 in y` is True for a table that holds 1, 2, 3 and 4. -/
theorem C125_in_table (py3 : Bool) : exTiles.In py3 (.number (.int 5) .int) (.ok true) ∧ ∀ names, ¬ exTiles.Has names (.int 5) := by
  obtain ⟨h1, h2, h3⟩ := exTiles_ok
  refine ⟨(C125_in_rows h1 h2 h3 (by decide) py3 rfl (.inr (.inl rfl)) (l := [7, 6]) rfl _).mpr rfl, ?_⟩
  rintro names ⟨idx, hi, h⟩
  have hb : InB [2, 2] idx := At_inB hi
  have key : ∀ idx ∈ allIdx [2, 2], exTiles.x.get idx ≠ .int 5 := by decide
  exact key idx (mem_allIdx.mpr hb) h

/-- Another line, with smaller values. -/
def exPearls : Larry Nat := ⟨.ofList [3] [fl 0, fl 0, fl 0], .float, [[9, 4, 5]]⟩

theorem exPearls_ok : exPearls.Valid ∧ exPearls.Typed ∧ exPearls.dtype.Number :=
  ⟨⟨rfl, by decide, by decide⟩, fun idx h => (by decide +kernel :
    ∀ idx ∈ allIdx exPearls.x.shape, (exPearls.x.get idx).hasDType exPearls.dtype = true) idx (mem_allIdx.mpr h), .inr (.inr rfl)⟩

/-- `max` gives the line of zeros, and so does `min`; `==` as a condition is true. -/
example (py3 : Bool) : best py3 .gt exBeads [exPearls] = .ok exPearls ∧ best py3 .lt exBeads [exPearls] = .ok exPearls ∧
    ((BinOp.rel .eq).run py3 (.larry exBeads) (.larry exPearls)).map Outcome.bool = .ok true := by
  obtain ⟨h1, h2, h3⟩ := exBeads_ok
  obtain ⟨k1, k2, k3⟩ := exPearls_ok
  have h : ∀ z ∈ [exBeads, exPearls], z.Valid ∧ z.Typed ∧ z.dtype.Number ∧ z.ndim = 1 := by
    intro z hz
    simp only [List.mem_cons, List.not_mem_nil, or_false] at hz
    rcases hz with rfl | rfl
    · exact ⟨h1, h2, h3, rfl⟩
    · exact ⟨k1, k2, k3, rfl⟩
  exact ⟨C125_max py3 .gt _ _ h, C125_max py3 .lt _ _ h, C125_condition py3 h1 k1 h2 k2 h3 k3 .eq⟩

/-- `2 < y < 9` is `y < 9`: the 1 at the label 9 is inside. -/
example (py3 : Bool) : ∃ z, between py3 .lt .lt (.scalar .int (.int 2) .int) exBeads (.scalar .int (.int 9) .int) = .ok (.larry z) ∧
    z.Has [9] (.bool true) := by
  obtain ⟨h1, h2, h3⟩ := exBeads_ok
  have := C125_between py3 .lt .lt h1 h2 h3 (v := .int 2) (d := .int) rfl (.inr (.inl rfl)) (.scalar .int (.int 9) .int)
  rw [show numberClass .int = .int from rfl] at this
  rw [this]
  exact ⟨_, rfl, [0], by simp [At, exBeads], by decide +kernel⟩

end La
