import Verif.Props.Parts

/-!
# C100: changes along different axes can be made in any order

Many methods only rearrange, pick, rename or shift the lines of one axis.  Such a call on one axis and such a
call on another can be swapped, and a program of them can be regrouped axis by axis.
-/

namespace La
variable {L : Type _}

/-- The calls that rearrange the lines of one axis and look at nothing but its labels.  `item it` is indexing
with `it` (a slice, a list of integers, a list of bools or a larry of bools) at that axis and full slices
before it: `y[:, :, it]`. -/
inductive AxisMove (L : Type _)
  | pick (p : Pick L)
  | lag (nlag : Int)
  | maplabel (f : L → L)
  | item (it : Item L)

/-- The larry among the things indexing returns. -/
def GetOut.larry? : Res (GetOut L) → Res (Larry L)
  | .ok (.larry z) => .ok z
  | .ok _ => .error .typeError
  | .error e => .error e

/-- The call, with the model's definition of each method. -/
def AxisMove.run [LinearOrder L] (y : Larry L) (axis : Int) : AxisMove L → Res (Larry L)
  | .pick p => p.run y axis
  | .lag n => y.lag n (some axis)
  | .maplabel f => y.maplabel f (some axis)
  | .item it => match pyIdx y.ndim axis with
    | none => .error .indexError
    | some ax => GetOut.larry? (y.getitem (.tuple (List.replicate ax (.slice {}) ++ [it])))

/-- The labels that a call leaves on an axis with labels `l`, when it finds what it looks for. -/
def MoveLeaves [LinearOrder L] (l lab : List L) : AxisMove L → Prop
  | .pick (.morph ls) => lab = ls ∧ ls.Nodup
  | .pick p => PickLeaves l lab p
  | .lag n => lab = if 0 ≤ n then l.drop n.toNat else l.take (l.length - (-n).toNat)
  | .maplabel f => lab = l.map f ∧ lab.Nodup
  | .item it => lab.Nodup ∧ (∀ m, it = .lar m → m.Valid) ∧ Picks l it (.many lab)

/-- The line under the new label `b` is the one that was under `a`. -/
def From (l : List L) (b a : L) : AxisMove L → Prop
  | .lag n => ∃ i j : Nat, l[i]? = some b ∧ l[j]? = some a ∧ (i : Int) = j + n
  | .maplabel f => a ∈ l ∧ b = f a
  | _ => a ∈ l ∧ b = a

/-- The call makes room for missing values: `morph` onto labels that are not all there, or onto none. -/
def Widens (l : List L) : AxisMove L → Prop
  | .pick (.morph ls) => l ≠ ls ∧ (ls = [] ∨ ∃ b ∈ ls, b ∉ l)
  | _ => False

/-- What such a call makes of `y`: the axis has the labels `lab`, each cell has the value found under the label
its line came from, and lines that came from nowhere are missing.  Integers and bools become floats when room
is made for missing values. -/
structure MovedBy (m : AxisMove L) (ax : Nat) (l lab : List L) (y z : Larry L) : Prop where
  valid : z.Valid
  label_eq : z.label = y.label.set ax lab
  widened : (y.dtype = .int ∨ y.dtype = .bool) ∧ Widens l m → z.dtype = .float
  kept : ¬ ((y.dtype = .int ∨ y.dtype = .bool) ∧ Widens l m) → z.dtype = y.dtype
  has : ∀ names v, z.Has names v ↔
    (∃ b a u, names[ax]? = some b ∧ b ∈ lab ∧ From l b a m ∧ y.Has (names.set ax a) u ∧
      v = castVal y.dtype z.dtype u) ∨
    (Named z.label names ∧ ∃ b, names[ax]? = some b ∧ (∀ a, ¬ From l b a m) ∧ missingMarker z.dtype = some v)

/-! ## Names -/

theorem Named_set_both {label : List (List L)} {names : List L} (h : Named label names) (ax : Nat) {l : List L}
    {a : L} (ha : a ∈ l) : Named (label.set ax l) (names.set ax a) := by
  induction label generalizing names ax with
  | nil => cases names <;> simp_all [Named]
  | cons m ms ih =>
    cases names with
    | nil => simp [Named] at h
    | cons n ns =>
      cases ax with
      | zero => exact ⟨ha, h.2⟩
      | succ ax => exact ⟨h.1, ih h.2 ax⟩

theorem set_same_name {names : List L} {ax : Nat} {b : L} (h : names[ax]? = some b) : names.set ax b = names := by
  obtain ⟨_, rfl⟩ := List.getElem?_eq_some_iff.mp h
  exact List.set_getElem_self _

theorem set_same_label {label : List (List L)} {ax : Nat} {l : List L} (h : label[ax]? = some l) :
    label.set ax l = label := by
  obtain ⟨_, rfl⟩ := List.getElem?_eq_some_iff.mp h
  exact List.set_getElem_self _

/-- Giving a cell of the new larry an old name gives a cell of the old larry. -/
theorem Named_back {label : List (List L)} {ax : Nat} {l lab : List L} (hl : label[ax]? = some l) {names : List L}
    (h : Named (label.set ax lab) names) {a : L} (ha : a ∈ l) : Named label (names.set ax a) := by
  have := Named_set_both h ax ha
  rwa [List.set_set, set_same_label hl] at this

theorem Named_forth {label : List (List L)} {ax : Nat} {lab : List L} {names : List L} {a b : L}
    (h : Named label (names.set ax a)) (hb : names[ax]? = some b) (hm : b ∈ lab) :
    Named (label.set ax lab) names := by
  have := Named_set_both h ax hm
  rwa [List.set_set, set_same_name hb] at this

/-! ## Each call -/

theorem moved_of_part {m : AxisMove L} {ax : Nat} {l lab : List L} {y z : Larry L} (hl : y.label[ax]? = some l)
    (hm : ∀ b a, From l b a m ↔ a ∈ l ∧ b = a) (hw : ¬ Widens l m) (h : z.PartOf y (y.label.set ax lab)) :
    MovedBy m ax l lab y z := by
  have hax := (List.getElem?_eq_some_iff.mp hl).1
  refine ⟨h.valid, h.label_eq, fun hh => absurd hh.2 hw, fun _ => h.dtype_eq, fun names v => ?_⟩
  rw [h.has names v, h.dtype_eq]
  constructor
  · rintro ⟨h1, h2⟩
    obtain ⟨-, b, hb, hb'⟩ := (Named_set_iff hax).mp h1
    obtain ⟨-, b', hc, hc'⟩ := (Named_iff_except hl).mp (Named_of_Holds h2)
    rw [hb] at hc
    cases hc
    exact .inl ⟨b, b, v, hb, hb', (hm b b).mpr ⟨hc', rfl⟩, by rw [set_same_name hb]; exact h2, by simp [castVal]⟩
  · rintro (⟨b, a, u, hb, hb', hf, hu, rfl⟩ | ⟨hN, b, hb, hno, -⟩)
    · obtain ⟨-, rfl⟩ := (hm b a).mp hf
      rw [set_same_name hb] at hu
      refine ⟨?_, by simpa [castVal] using hu⟩
      have := Named_of_Holds hu
      exact (Named_set_iff hax).mpr ⟨((Named_iff_except hl).mp this).1, b, hb, hb'⟩
    · obtain ⟨w, hw⟩ := Holds_of_Named (x := z.x) hN
      have := ((h.has _ _).mp hw).2
      obtain ⟨-, b', hc, hc'⟩ := (Named_iff_except hl).mp (Named_of_Holds this)
      rw [hb] at hc
      cases hc
      exact absurd ((hm b b).mpr ⟨hc', rfl⟩) (hno b)

theorem moved_morph [LinearOrder L] {y : Larry L} (hy : y.Valid) {a : Int} {ax : Nat}
    (ha : pyIdx y.ndim a = some ax) {l ls : List L} (hl : y.label[ax]? = some l) (hnd : ls.Nodup) :
    ∃ z, y.morph ls a = .ok z ∧ MovedBy (.pick (.morph ls)) ax l ls y z := by
  have hax := (List.getElem?_eq_some_iff.mp hl).1
  obtain ⟨z, h1, h2, h3, h4, h5⟩ := Larry.morph_spec hy hnd ha hl
  refine ⟨z, h1, h3, h2, fun h => ?_, fun h => ?_, fun names v => ?_⟩
  · rw [h4]; exact if_pos h
  · rw [h4]; exact if_neg h
  · rw [show z.Has names v ↔ _ from h5 names v, h2]
    constructor
    · rintro ⟨hN, hh⟩
      obtain ⟨he, b, hb, hb'⟩ := (Named_set_iff hax).mp hN
      rcases hh with ⟨w, hw, rfl⟩ | ⟨hno, hmk⟩
      · obtain ⟨-, b', hc, hc'⟩ := (Named_iff_except hl).mp (Named_of_Holds hw)
        rw [hb] at hc
        cases hc
        exact .inl ⟨b, b, w, hb, hb', ⟨hc', rfl⟩, by rw [set_same_name hb]; exact hw, rfl⟩
      · refine .inr ⟨hN, b, hb, fun a hf => ?_, hmk⟩
        obtain ⟨h6, rfl⟩ := hf
        exact hno ((Named_iff_except hl).mpr ⟨he, b, hb, h6⟩)
    · rintro (⟨b, a, u, hb, hb', ⟨h6, rfl⟩, hu, rfl⟩ | ⟨hN, b, hb, hno, hmk⟩)
      · refine ⟨Named_forth (Named_of_Holds hu) hb hb', .inl ⟨u, ?_, rfl⟩⟩
        rwa [set_same_name hb] at hu
      · refine ⟨hN, .inr ⟨fun hh => ?_, hmk⟩⟩
        obtain ⟨-, b', hc, hc'⟩ := (Named_iff_except hl).mp hh
        rw [hb] at hc
        cases hc
        exact hno b ⟨hc', rfl⟩

/-- Calls that put each line under one new label. -/
theorem moved_of_source {m : AxisMove L} {ax : Nat} {l lab : List L} {y z : Larry L} (hl : y.label[ax]? = some l)
    (hz : z.Valid) (hlab : z.label = y.label.set ax lab) (hd : z.dtype = y.dtype) (hw : ¬ Widens l m)
    (hsrc : ∀ b ∈ lab, ∃ a, From l b a m)
    (h : ∀ names b a v, b ∈ lab → From l b a m → names[ax]? = some b →
      (z.Has names v ↔ y.Has (names.set ax a) v)) : MovedBy m ax l lab y z := by
  have hax := (List.getElem?_eq_some_iff.mp hl).1
  refine ⟨hz, hlab, fun hh => absurd hh.2 hw, fun _ => hd, fun names v => ⟨fun hh => ?_, ?_⟩⟩
  · have hN := Named_of_Holds hh
    rw [hlab] at hN
    obtain ⟨-, b, hb, hb'⟩ := (Named_set_iff hax).mp hN
    obtain ⟨a, ha⟩ := hsrc b hb'
    exact .inl ⟨b, a, v, hb, hb', ha, (h names b a v hb' ha hb).mp hh, by simp [castVal, hd]⟩
  · rintro (⟨b, a, u, hb, hb', hf, hu, rfl⟩ | ⟨hN, b, hb, hno, -⟩)
    · exact (h _ _ _ _ hb' hf hb).mpr (by simpa [castVal, hd] using hu)
    · rw [hlab] at hN
      obtain ⟨-, b', hc, hc'⟩ := (Named_set_iff hax).mp hN
      rw [hb] at hc
      cases hc
      obtain ⟨a, ha⟩ := hsrc b hc'
      exact absurd ha (hno a)

theorem lag_source {l lab : List L} {n : Int}
    (h : lab = if 0 ≤ n then l.drop n.toNat else l.take (l.length - (-n).toNat)) :
    ∀ b ∈ lab, ∃ a, From l b a (.lag n) := by
  intro b hb
  subst h
  split at hb
  · next hn =>
    obtain ⟨i, hi⟩ := List.mem_iff_getElem?.mp hb
    rw [List.getElem?_drop] at hi
    have hlt := (List.getElem?_eq_some_iff.mp hi).1
    refine ⟨l[i]'(by omega), n.toNat + i, i, hi, List.getElem?_eq_getElem _, by omega⟩
  · next hn =>
    obtain ⟨i, hi⟩ := List.mem_iff_getElem?.mp hb
    rw [List.getElem?_take] at hi
    split at hi
    · next hlt =>
      refine ⟨l[i + (-n).toNat]'(by omega), i, i + (-n).toNat, hi, List.getElem?_eq_getElem _, by omega⟩
    · cases hi

theorem moved_lag {y : Larry L} (hy : y.Valid) {a : Int} {ax : Nat} (ha : pyIdx y.ndim a = some ax)
    {l lab : List L} (hl : y.label[ax]? = some l) {n : Int}
    (h : lab = if 0 ≤ n then l.drop n.toNat else l.take (l.length - (-n).toNat)) :
    ∃ z, y.lag n (some a) = .ok z ∧ MovedBy (.lag n) ax l lab y z := by
  obtain ⟨h1, h2, h3⟩ := C26_lag hy ha hl
  have hnd := hy.nodup l (List.mem_of_getElem? hl)
  have hsrc := lag_source h
  have hself : ∀ names : List L, ∀ b, names[ax]? = some b → names = names.set ax b :=
    fun names b hb => (set_same_name hb).symm
  rcases lt_trichotomy n 0 with hn | rfl | hn
  · obtain ⟨z, g1, g2, g3, g4, g5⟩ := h3 (-n).toNat (by omega)
    rw [show (-(((-n).toNat : Nat) : Int)) = n by omega] at g1
    rw [if_neg (by omega)] at h
    refine ⟨z, g1, moved_of_source hl g2 (by rw [g4, h]) g3 (by simp [Widens]) hsrc ?_⟩
    rintro names b c v hb ⟨i, j, hi, hj, hij⟩ hx
    have := g5 i b c names v hi (by rw [show i + (-n).toNat = j by omega]; exact hj)
    rwa [← hself names b hx] at this
  · refine ⟨y, h1, moved_of_source hl hy ?_ rfl (by simp [Widens]) hsrc ?_⟩
    · simp [h, set_same_label hl]
    · rintro names b c v hb ⟨i, j, hi, hj, hij⟩ hx
      have : i = j := by omega
      subst this
      rw [hi] at hj
      cases hj
      rw [← hself names b hx]
  · obtain ⟨z, g1, g2, g3, g4, g5⟩ := h2 n.toNat (by omega)
    rw [show ((n.toNat : Nat) : Int) = n by omega] at g1
    rw [if_pos (by omega)] at h
    refine ⟨z, g1, moved_of_source hl g2 (by rw [g4, h]) g3 (by simp [Widens]) hsrc ?_⟩
    rintro names b c v hb ⟨i, j, hi, hj, hij⟩ hx
    have := g5 j b c names v (by rw [show j + n.toNat = i by omega]; exact hi) hj
    rwa [← hself names b hx] at this

theorem moved_maplabel {y : Larry L} (hy : y.Valid) {a : Int} {ax : Nat} (ha : pyIdx y.ndim a = some ax)
    {l : List L} (hl : y.label[ax]? = some l) {f : L → L} (hnd : (l.map f).Nodup) :
    ∃ z, y.maplabel f (some a) = .ok z ∧ MovedBy (.maplabel f) ax l (l.map f) y z := by
  have hax := (List.getElem?_eq_some_iff.mp hl).1
  have hself := set_same_label hl
  have hsh : y.x.shape = (y.label.set ax (l.map f)).map List.length := by
    rw [List.map_set, List.length_map, ← List.map_set, hself]
    exact hy.shape_eq
  refine ⟨{ y with label := y.label.set ax (l.map f) }, ?_, ?_⟩
  · simp [Larry.maplabel, hy.label_length, ha, hl]
  refine moved_of_source hl ⟨hsh, ?_, ?_⟩ rfl rfl (by simp [Widens]) ?_ ?_
  · intro l' hl'
    rcases List.mem_or_eq_of_mem_set hl' with h | rfl
    · exact hy.nodup _ h
    · exact hnd
  · intro h
    have := congrArg List.length h
    simp at this
    exact hy.ndim_pos (List.eq_nil_of_length_eq_zero (by simpa using this))
  · intro b hb
    obtain ⟨c, hc, rfl⟩ := List.mem_map.mp hb
    exact ⟨c, hc, rfl⟩
  · rintro names b c v - ⟨hc, rfl⟩ hx
    have key : ∀ idx, At (y.label.set ax (l.map f)) idx names ↔ At y.label idx (names.set ax c) := by
      intro idx
      rw [At_iff, At_iff]
      simp only [List.length_set]
      refine and_congr_right fun h1 => and_congr_right fun h2 => ⟨fun h k l' i n e1 e2 e3 => ?_,
        fun h k l' i n e1 e2 e3 => ?_⟩
      · by_cases hk : k = ax
        · subst hk
          rw [hl] at e1
          cases e1
          rw [List.getElem?_set_self (by have := (List.getElem?_eq_some_iff.mp hx).1; simpa using this)] at e3
          cases e3
          have := h k (l.map f) i (f c) (List.getElem?_set_self hax) e2 hx
          obtain ⟨p, hp⟩ := List.mem_iff_getElem?.mp hc
          have hp' : (l.map f)[p]? = some (f c) := by simp [hp]
          rw [nodup_getElem?_inj hnd this hp']
          exact hp
        · exact h k l' i n (by rw [List.getElem?_set_ne (Ne.symm hk)]; exact e1) e2
            (by rwa [List.getElem?_set_ne (Ne.symm hk)] at e3)
      · by_cases hk : k = ax
        · subst hk
          rw [List.getElem?_set_self hax] at e1
          cases e1
          rw [hx] at e3
          cases e3
          have := h k l i c hl e2
            (List.getElem?_set_self (by have := (List.getElem?_eq_some_iff.mp hx).1; simpa using this))
          simp [this]
        · exact h k l' i n (by rwa [List.getElem?_set_ne (Ne.symm hk)] at e1) e2
            (by rw [List.getElem?_set_ne (Ne.symm hk)]; exact e3)
    constructor
    · rintro ⟨idx, h1, h2⟩
      exact ⟨idx, (key idx).mp h1, h2⟩
    · rintro ⟨idx, h1, h2⟩
      exact ⟨idx, (key idx).mpr h1, h2⟩

theorem takesParts_at [LinearOrder L] {label : List (List L)} {ax : Nat} {l lab : List L} (hl : label[ax]? = some l) {it : Item L}
    (h : Picks l it (.many lab)) :
    TakesParts label (List.replicate ax (Item.slice {}) ++ [it]) ((label.set ax lab).map Part.many) := by
  induction label generalizing ax with
  | nil => simp at hl
  | cons m ms ih =>
    cases ax with
    | zero =>
      simp only [List.getElem?_cons_zero, Option.some.injEq] at hl
      subst hl
      exact Larry.takesParts_one.mpr h
    | succ ax =>
      have := ih (by simpa using hl)
      unfold TakesParts at this ⊢
      have e : padTo (m :: ms).length (List.replicate (ax + 1) (Item.slice {}) ++ [it]) =
          Item.slice {} :: padTo ms.length (List.replicate ax (Item.slice {}) ++ [it]) := by
        simp [padTo, List.replicate_succ]
      rw [e, List.zip_cons_cons, List.set_cons_succ, List.map_cons]
      refine .cons ⟨List.range m.length, sliceIndices_all _, ?_⟩ this
      apply List.ext_getElem?
      intro k
      rcases Nat.lt_or_ge k m.length with hk | hk
      · simp [hk]
      · simp [hk]

theorem picks_sub {l lab : List L} {it : Item L} (h : Picks l it (.many lab)) : ∀ b ∈ lab, b ∈ l := by
  intro b hb
  cases it with
  | int i => exact h.elim
  | slice s =>
    obtain ⟨ids, -, h2⟩ := h
    have : some b ∈ ids.map (fun i => l[i]?) := by rw [h2]; exact List.mem_map_of_mem hb
    obtain ⟨k, -, hk⟩ := List.mem_map.mp this
    exact List.mem_of_getElem? hk
  | seq is =>
    replace h : List.Forall₂ (PyAt l) is lab := h
    induction h with
    | nil => simp at hb
    | cons h1 _ ih =>
      rcases List.mem_cons.mp hb with rfl | hb
      · obtain ⟨k, hk, -⟩ := h1
        exact List.mem_of_getElem? hk
      · exact ih hb
  | mask bs =>
    obtain ⟨-, rfl⟩ := h
    obtain ⟨p, hp, rfl⟩ := List.mem_map.mp hb
    exact (List.of_mem_zip (List.mem_filter.mp hp).1).1
  | lar m => exact h.2.2.1.subset hb
  | nd => exact h.elim
  | other => exact h.elim

theorem moved_item [LinearOrder L] {y : Larry L} (hy : y.Valid) {a : Int} {ax : Nat} (ha : pyIdx y.ndim a = some ax)
    {l lab : List L} (hl : y.label[ax]? = some l) {it : Item L} (hnd : lab.Nodup)
    (hm : ∀ m, it = .lar m → m.Valid) (hp : Picks l it (.many lab)) :
    ∃ z, (AxisMove.item it).run y a = .ok z ∧ MovedBy (.item it) ax l lab y z := by
  have hax := (List.getElem?_eq_some_iff.mp hl).1
  have hget : ∀ (k : Nat) c, (List.replicate ax (Item.slice {}) ++ [it])[k]? = some c → ¬ c.IsSlice → k = ax := by
    intro k c hc hs
    rcases Nat.lt_or_ge k ax with hk | hk
    · rw [List.getElem?_append_left (by simpa using hk), List.getElem?_replicate, if_pos hk] at hc
      cases hc
      exact absurd ⟨_, rfl⟩ hs
    · have := (List.getElem?_eq_some_iff.mp hc).1
      simp at this
      omega
  have hmem : ∀ m, Item.lar m ∈ (Index.tuple (List.replicate ax (Item.slice {}) ++ [it])).items → m.Valid := by
    intro m h
    simp only [Index.items, List.mem_append, List.mem_singleton] at h
    rcases h with h | h
    · cases (List.mem_replicate.mp h).2
    · exact hm m h.symm
  have hscr : ¬ Scrambled (Index.tuple (List.replicate ax (Item.slice {}) ++ [it])).items := by
    rintro ⟨-, p, t, q, b, c, d, h1, h2, h3, h4, h5, h6, h7, h8⟩
    have e1 := hget p _ h3 h6
    have e2 := hget q _ h5 h8
    omega
  have hone : OneList (List.replicate ax (Item.slice {}) ++ [it]) := by
    intro p q b c h1 h2 h3 h4
    rw [hget p _ h1 h3.2, hget q _ h2 h4.2]
  have hparts := takesParts_at hl hp
  have hlabs : Part.labels ((y.label.set ax lab).map Part.many) = y.label.set ax lab := Larry.labels_whole _
  obtain ⟨r, hr⟩ := (C33_succeeds hy hmem hscr).mpr ⟨by
      simp only [Index.items, List.length_append, List.length_replicate, List.length_singleton]
      rw [← hy.label_length]; exact hax, hone, _, hparts, by
      rw [hlabs]
      intro l' hl'
      rcases List.mem_or_eq_of_mem_set hl' with h | rfl
      · exact hy.nodup _ h
      · exact hnd⟩
  obtain ⟨parts, h1, h2⟩ := C33_getitem hy hmem hscr hr
  have hpe := takesParts_unique hy.nodup h1 hparts
  subst hpe
  obtain ⟨k1, k2⟩ := C33_kind hy hmem hscr hr
  have hnint : ¬ it.IsInt := by
    rintro ⟨i, rfl⟩
    exact hp
  have hlast : it ∈ List.replicate ax (Item.slice {}) ++ [it] := by simp
  cases r with
  | scalar v => exact absurd ((k1.mp ⟨v, rfl⟩).1 it hlast) hnint
  | array x =>
    obtain ⟨its, e, h3, -⟩ := k2.mp ⟨x, rfl⟩
    cases e
    exact absurd (h3 it hlast) hnint
  | larry z =>
    refine ⟨z, by simp only [AxisMove.run, ha, hr, GetOut.larry?], ?_⟩
    obtain ⟨g1, g2, g3, g4⟩ := h2
    rw [hlabs] at g1 g4
    refine moved_of_part hl (fun _ _ => Iff.rfl) (by simp [Widens]) ⟨g1, g3, g2, fun names v => ?_⟩
    rw [g4]
    refine and_congr_right fun hN => ?_
    beta_reduce
    rw [Larry.names_whole hN]

/-- C100. What each of these calls does. -/
theorem C100_each [LinearOrder L] {y : Larry L} (hy : y.Valid) {a : Int} {ax : Nat} (ha : pyIdx y.ndim a = some ax)
    {l lab : List L} (hl : y.label[ax]? = some l) {m : AxisMove L} (hm : MoveLeaves l lab m) :
    ∃ z, m.run y a = .ok z ∧ MovedBy m ax l lab y z := by
  cases m with
  | lag n => exact moved_lag hy ha hl hm
  | maplabel f =>
    obtain ⟨rfl, h⟩ := hm
    exact moved_maplabel hy ha hl h
  | item it => exact moved_item hy ha hl hm.1 hm.2.1 hm.2.2
  | pick p =>
    have part : ∀ hp : PickLeaves l lab p, ¬ Widens l (.pick p) → ∃ z, (AxisMove.pick p).run y a = .ok z ∧
        MovedBy (.pick p) ax l lab y z := by
      intro hp hw
      obtain ⟨z, h1, h2⟩ := pick_run hy ha hl hp
      exact ⟨z, h1, moved_of_part hl (fun _ _ => Iff.rfl) hw h2⟩
    cases p with
    | morph ls =>
      obtain ⟨rfl, h⟩ := hm
      exact moved_morph hy ha hl h
    | take is => exact part hm (by simp [Widens])
    | flipaxis => exact part hm (by simp [Widens])
    | sortaxis r => exact part hm (by simp [Widens])
    | keepLabel op => exact part hm (by simp [Widens])

/-- Calls for which returning and finding what they look for are the same: all but `keep_label`, which returns an
empty larry when it finds nothing, `maplabel`, which does not look whether two labels become one, and indexing with
an integer, which removes the axis. -/
def AxisMove.Plain : AxisMove L → Prop
  | .pick (.keepLabel _) => False
  | .maplabel _ => False
  | .item it => ¬ it.IsInt ∧ ∀ m, it = .lar m → m.Valid
  | _ => True

theorem exists_positions {n : Nat} {is : List Int} (h : ∀ i ∈ is, pyIdx n i ≠ none) :
    ∃ ks : List Nat, List.Forall₂ (fun i k => pyIdx n i = some k) is ks := by
  induction is with
  | nil => exact ⟨[], .nil⟩
  | cons i is ih =>
    obtain ⟨ks, hk⟩ := ih fun j hj => h j (List.mem_cons_of_mem _ hj)
    cases hi : pyIdx n i with
    | none => exact absurd hi (h i (by simp))
    | some k => exact ⟨k :: ks, .cons hi hk⟩

theorem takesParts_get {label : List (List L)} {ax : Nat} {l : List L} (hl : label[ax]? = some l) {it : Item L}
    {parts : List (Part L)} (h : TakesParts label (List.replicate ax (Item.slice {}) ++ [it]) parts) :
    ∃ part ∈ parts, Picks l it part := by
  induction label generalizing ax parts with
  | nil => simp at hl
  | cons m ms ih =>
    unfold TakesParts at h
    cases ax with
    | zero =>
      simp only [List.getElem?_cons_zero, Option.some.injEq] at hl
      subst hl
      have e : padTo (m :: ms).length (List.replicate 0 (Item.slice {}) ++ [it]) =
          it :: List.replicate ms.length (Item.slice {}) := by simp [padTo]
      rw [e, List.zip_cons_cons] at h
      cases h with
      | cons h1 _ => exact ⟨_, by simp, h1⟩
    | succ ax =>
      have e : padTo (m :: ms).length (List.replicate (ax + 1) (Item.slice {}) ++ [it]) =
          Item.slice {} :: padTo ms.length (List.replicate ax (Item.slice {}) ++ [it]) := by
        simp [padTo, List.replicate_succ]
      rw [e, List.zip_cons_cons] at h
      cases h with
      | cons _ h2 =>
        obtain ⟨part, h3, h4⟩ := ih (by simpa using hl) h2
        exact ⟨part, List.mem_cons_of_mem _ h3, h4⟩

theorem mem_labels {parts : List (Part L)} {ls : List L} (h : Part.many ls ∈ parts) : ls ∈ Part.labels parts := by
  induction parts with
  | nil => simp at h
  | cons p ps ih =>
    rcases List.mem_cons.mp h with rfl | h'
    · simp [Part.labels]
    · cases p with
      | one n => exact ih h'
      | many ms => exact List.mem_cons_of_mem _ (ih h')

theorem item_plain {ax : Nat} {it : Item L} (hm : ∀ m, it = .lar m → m.Valid) :
    (∀ m, Item.lar m ∈ (Index.tuple (List.replicate ax (Item.slice {}) ++ [it])).items → m.Valid) ∧
    ¬ Scrambled (Index.tuple (List.replicate ax (Item.slice {}) ++ [it])).items := by
  have hget : ∀ (k : Nat) c, (List.replicate ax (Item.slice {}) ++ [it])[k]? = some c → ¬ c.IsSlice → k = ax := by
    intro k c hc hs
    rcases Nat.lt_or_ge k ax with hk | hk
    · rw [List.getElem?_append_left (by simpa using hk), List.getElem?_replicate, if_pos hk] at hc
      cases hc
      exact absurd ⟨_, rfl⟩ hs
    · have := (List.getElem?_eq_some_iff.mp hc).1
      simp at this
      omega
  constructor
  · intro m h
    simp only [Index.items, List.mem_append, List.mem_singleton] at h
    rcases h with h | h
    · cases (List.mem_replicate.mp h).2
    · exact hm m h.symm
  · rintro ⟨-, p, t, q, b, c, d, h1, h2, h3, h4, h5, h6, h7, h8⟩
    have e1 := hget p _ h3 h6
    have e2 := hget q _ h5 h8
    omega

/-- C100. When these calls return: it depends on the labels of their own axis only. -/
theorem C100_returns [LinearOrder L] {y : Larry L} (hy : y.Valid) {a : Int} {ax : Nat} (ha : pyIdx y.ndim a = some ax)
    {l : List L} (hl : y.label[ax]? = some l) {m : AxisMove L} (hp : m.Plain) :
    (∃ z, m.run y a = .ok z) ↔ ∃ lab, MoveLeaves l lab m := by
  refine ⟨?_, fun ⟨lab, hm⟩ => (C100_each hy ha hl hm).imp fun _ h => h.1⟩
  rintro ⟨z, h⟩
  cases m with
  | lag n => exact ⟨_, rfl⟩
  | maplabel f => exact hp.elim
  | item it =>
    obtain ⟨h1, h2⟩ := hp
    obtain ⟨g1, g2⟩ := item_plain (ax := ax) h2
    simp only [AxisMove.run, ha] at h
    cases hr : y.getitem (.tuple (List.replicate ax (Item.slice {}) ++ [it])) with
    | error e => simp [hr, GetOut.larry?] at h
    | ok r =>
      obtain ⟨-, -, parts, k1, k2⟩ := (C33_succeeds hy g1 g2).mp ⟨r, hr⟩
      obtain ⟨part, k3, k4⟩ := takesParts_get hl k1
      cases part with
      | one n =>
        cases it with
        | int i => exact absurd ⟨i, rfl⟩ h1
        | _ => exact k4.elim
      | many ls => exact ⟨ls, k2 _ (mem_labels k3), h2, k4⟩
  | pick p =>
    cases p with
    | morph ls =>
      by_cases hnd : ls.Nodup
      · exact ⟨ls, rfl, hnd⟩
      · have h : y.morph ls a = .ok z := h
        rw [C13_morph_error hy (.inl hnd)] at h
        cases h
    | take is =>
      obtain ⟨-, e1, e2⟩ := C34_take_errors hy a is
      by_cases hin : ∀ i ∈ is, pyIdx l.length i ≠ none
      · obtain ⟨ks, hk⟩ := exists_positions hin
        by_cases hnd : ks.Nodup
        · obtain ⟨-, lab, -, h5, -⟩ := C34_take hy ha hl hk hnd
          exact ⟨lab, ks, hk, hnd, h5⟩
        · have h : y.take is a = .ok z := h
          rw [e2 ax l ks ha hl hk hnd] at h
          cases h
      · obtain ⟨i, hi, hi'⟩ : ∃ i ∈ is, pyIdx l.length i = none := by
          by_contra hc
          exact hin fun i hi he => hc ⟨i, hi, he⟩
        have h : y.take is a = .ok z := h
        rw [e1 ax l ha hl ⟨i, hi, pyIdx_none.mp hi'⟩] at h
        cases h
    | flipaxis => exact ⟨_, rfl⟩
    | sortaxis r =>
      obtain ⟨w, -, h2, -, h4, h5, -⟩ := C24_sortaxis hy r (axesMeant_one ha)
      have hax := (List.getElem?_eq_some_iff.mp hl).1
      exact ⟨_, (h5 ax l _ hl (List.getElem?_eq_getElem (by omega))).1 (by simp)⟩
    | keepLabel op => exact hp.elim

/-! ## Two axes -/

/-- Lines that came from nowhere are only made by calls that make room for missing values. -/
theorem source_or_widens [LinearOrder L] {l lab : List L} {m : AxisMove L} (hm : MoveLeaves l lab m) {b : L}
    (hb : b ∈ lab) : (∃ a, From l b a m) ∨ Widens l m := by
  have sub : b ∈ l → (∃ a, a ∈ l ∧ b = a) := fun h => ⟨b, h, rfl⟩
  cases m with
  | lag n => exact .inl (lag_source hm b hb)
  | maplabel f =>
    obtain ⟨rfl, -⟩ := hm
    obtain ⟨c, hc, rfl⟩ := List.mem_map.mp hb
    exact .inl ⟨c, hc, rfl⟩
  | item it => exact .inl (sub (picks_sub hm.2.2 b hb))
  | pick p =>
    cases p with
    | morph ls =>
      obtain ⟨rfl, -⟩ := hm
      by_cases h : b ∈ l
      · exact .inl (sub h)
      · exact .inr ⟨fun e => h (e ▸ hb), .inr ⟨b, hb, h⟩⟩
    | take is =>
      obtain ⟨ks, -, -, h3⟩ := hm
      have : some b ∈ ks.map (fun (k : Nat) => l[k]?) := by rw [← h3]; exact List.mem_map_of_mem hb
      obtain ⟨k, -, hk⟩ := List.mem_map.mp this
      exact .inl (sub (List.mem_of_getElem? hk))
    | flipaxis =>
      have hm : lab = l.reverse := hm
      subst hm
      exact .inl (sub (by simpa using hb))
    | sortaxis r => exact .inl (sub (hm.1.mem_iff.mp hb))
    | keepLabel op => exact .inl (sub (hm.2.2.1.subset hb))

theorem MovedBy.ndim_eq {m : AxisMove L} {ax : Nat} {l lab : List L} {y z : Larry L} (hy : y.Valid)
    (h : MovedBy m ax l lab y z) : z.ndim = y.ndim := by
  rw [← h.valid.label_length, ← hy.label_length, h.label_eq, List.length_set]

/-- The dtype after two calls does not depend on their order. -/
theorem moved_dtype {p q : AxisMove L} {ax bx : Nat} {la lb lab lbb : List L} {y z z' w w' : Larry L}
    (h1 : MovedBy p ax la lab y z) (h2 : MovedBy q bx lb lbb z w) (h3 : MovedBy q bx lb lbb y z')
    (h4 : MovedBy p ax la lab z' w') :
    w.dtype = w'.dtype ∧
    (∀ t, castVal z.dtype w.dtype (castVal y.dtype z.dtype t) =
      castVal z'.dtype w'.dtype (castVal y.dtype z'.dtype t)) ∧
    (∀ u, missingMarker z.dtype = some u → missingMarker w'.dtype = some (castVal z.dtype w.dtype u)) ∧
    (Widens lb q → ∃ u, missingMarker z'.dtype = some u ∧
      missingMarker w.dtype = some (castVal z'.dtype w'.dtype u)) := by
  have k1 := h1.widened
  have k2 := h1.kept
  have k3 := h2.widened
  have k4 := h2.kept
  have k5 := h3.widened
  have k6 := h3.kept
  have k7 := h4.widened
  have k8 := h4.kept
  clear h1 h2 h3 h4
  generalize y.dtype = d at *
  generalize z.dtype = d1 at *
  generalize w.dtype = d2 at *
  generalize z'.dtype = d3 at *
  generalize w'.dtype = d4 at *
  by_cases hp : Widens la p <;> by_cases hq : Widens lb q <;>
    simp only [hp, hq, and_true, and_false, not_false_eq_true, false_implies, true_implies] at k1 k2 k3 k4 k5 k6 k7 k8 ⊢ <;>
    cases d <;> simp_all [castVal, missingMarker]

/-- Two calls on different axes: both orders give the same cells. -/
theorem moved_commute [LinearOrder L] {p q : AxisMove L} {ax bx : Nat} (hne : ax ≠ bx) {la lb lab lbb : List L}
    {y z z' w w' : Larry L} (hla : y.label[ax]? = some la) (hlb : y.label[bx]? = some lb)
    (hp : MoveLeaves la lab p) (hq : MoveLeaves lb lbb q) (h1 : MovedBy p ax la lab y z) (h2 : MovedBy q bx lb lbb z w)
    (h3 : MovedBy q bx lb lbb y z') (h4 : MovedBy p ax la lab z' w') : w.Same w' := by
  obtain ⟨d1, d2, d3, d4⟩ := moved_dtype h1 h2 h3 h4
  have hlab : w.label = w'.label := by
    rw [h2.label_eq, h1.label_eq, h4.label_eq, h3.label_eq, List.set_comm _ _ hne]
  have hax := (List.getElem?_eq_some_iff.mp hla).1
  have hbx := (List.getElem?_eq_some_iff.mp hlb).1
  have other : ∀ (names : List L) (c : L), (names.set bx c)[ax]? = names[ax]? := fun names c =>
    List.getElem?_set_ne (Ne.symm hne)
  have other' : ∀ (names : List L) (c : L), (names.set ax c)[bx]? = names[bx]? := fun names c =>
    List.getElem?_set_ne hne
  refine h2.valid.same_of_has h4.valid hlab d1 fun names v hv => ?_
  have hN : Named w'.label names := by rw [← hlab]; exact Named_of_Holds hv
  have hback : ∀ a, a ∈ la → Named z'.label (names.set ax a) := fun a ha => by
    have := Named_set_both hN ax ha
    rwa [h4.label_eq, List.set_set, set_same_label (by rw [h3.label_eq, List.getElem?_set_ne (Ne.symm hne)]; exact hla)]
      at this
  rcases (h2.has names v).mp hv with ⟨b, a, u, hb, hb', hf, hu, rfl⟩ | ⟨-, b, hb, hno, hmk⟩
  · rcases (h1.has _ u).mp hu with ⟨c, e, t, hc, hc', hg, ht, rfl⟩ | ⟨-, c, hc, hno, hmk⟩
    · rw [other] at hc
      refine (h4.has _ _).mpr (.inl ⟨c, e, castVal y.dtype z'.dtype t, hc, hc', hg, ?_, (d2 t)⟩)
      refine (h3.has _ _).mpr (.inl ⟨b, a, t, by rw [other']; exact hb, hb', hf, ?_, rfl⟩)
      rwa [List.set_comm _ _ hne]
    · rw [other] at hc
      exact (h4.has _ _).mpr (.inr ⟨hN, c, hc, hno, d3 u hmk⟩)
  · have hNw := (Named_set_iff (label := z.label) (ax := bx) (lab := lbb) (names := names)
      (by rw [h1.label_eq, List.length_set]; exact hbx)).mp (by rw [← h2.label_eq, hlab]; exact hN)
    obtain ⟨-, b', hb1, hb2⟩ := hNw
    rw [hb] at hb1
    cases hb1
    have hw : Widens lb q := (source_or_widens hq hb2).resolve_left fun ⟨a, ha⟩ => hno a ha
    obtain ⟨u, hu1, hu2⟩ := d4 hw
    have hv' : v = castVal z'.dtype w'.dtype u := by rw [hmk] at hu2; simpa using hu2
    have hNa := (Named_set_iff (label := z'.label) (ax := ax) (lab := lab) (names := names)
      (by rw [h3.label_eq, List.length_set]; exact hax)).mp (by rw [← h4.label_eq]; exact hN)
    obtain ⟨-, c, hc, hc'⟩ := hNa
    by_cases hsrc : ∃ e, From la c e p
    · obtain ⟨e, he⟩ := hsrc
      have hel : e ∈ la := by
        cases p with
        | lag n => obtain ⟨_, _, _, h, _⟩ := he; exact List.mem_of_getElem? h
        | maplabel f => exact he.1
        | item it => exact he.1
        | pick p => exact he.1
      refine (h4.has _ _).mpr (.inl ⟨c, e, u, hc, hc', he, ?_, hv'⟩)
      exact (h3.has _ _).mpr (.inr ⟨hback e hel, b, by rw [other']; exact hb, hno, hu1⟩)
    · refine (h4.has _ _).mpr (.inr ⟨hN, c, hc, fun e he => hsrc ⟨e, he⟩, ?_⟩)
      rw [← d1]; exact hmk

/-- C100. `take`, `flipaxis`, `sortaxis`, `keep_label`, `morph`, `lag`, `maplabel` and indexing on one axis can be
swapped with any of them on another axis: both orders return, and they give the same larry. -/
theorem C100_commute [LinearOrder L] {y : Larry L} (hy : y.Valid) {a b : Int} {ax bx : Nat}
    (ha : pyIdx y.ndim a = some ax) (hb : pyIdx y.ndim b = some bx) (hne : ax ≠ bx) {la lb lab lbb : List L}
    (hla : y.label[ax]? = some la) (hlb : y.label[bx]? = some lb) {p q : AxisMove L} (hp : MoveLeaves la lab p)
    (hq : MoveLeaves lb lbb q) :
    ∃ z w z' w', p.run y a = .ok z ∧ q.run z b = .ok w ∧ q.run y b = .ok z' ∧ p.run z' a = .ok w' ∧ w.Same w' := by
  obtain ⟨z, h1, h2⟩ := C100_each hy ha hla hp
  obtain ⟨z', h3, h4⟩ := C100_each hy hb hlb hq
  obtain ⟨w, h5, h6⟩ := C100_each h2.valid (a := b) (ax := bx) (by rw [h2.ndim_eq hy]; exact hb)
    (by rw [h2.label_eq, List.getElem?_set_ne hne]; exact hlb) hq
  obtain ⟨w', h7, h8⟩ := C100_each h4.valid (a := a) (ax := ax) (by rw [h4.ndim_eq hy]; exact ha)
    (by rw [h4.label_eq, List.getElem?_set_ne (Ne.symm hne)]; exact hla) hp
  exact ⟨z, w, z', w', h1, h5, h3, h7, moved_commute hne hla hlb hp hq h2 h6 h4 h8⟩

/-! ## Programs -/

/-- The program is run: its calls are made one after the other, and each finds what it looks for. -/
inductive Ran [LinearOrder L] : List (Int × AxisMove L) → Larry L → Larry L → Prop
  | nil (y : Larry L) : Ran [] y y
  | cons {y z w : Larry L} {a : Int} {ax : Nat} {l lab : List L} {m : AxisMove L} {P : List (Int × AxisMove L)}
      (ha : pyIdx y.ndim a = some ax) (hl : y.label[ax]? = some l) (hm : MoveLeaves l lab m)
      (hr : m.run y a = .ok z) (rest : Ran P z w) : Ran ((a, m) :: P) y w

theorem same_trans {y z w : Larry L} (h1 : y.Same z) (h2 : z.Same w) : y.Same w :=
  ⟨h1.1.trans h2.1, h1.2.1.trans h2.2.1, h1.2.2.trans h2.2.2⟩

theorem moved_congr {m : AxisMove L} {ax : Nat} {l lab : List L} {y y' z z' : Larry L} (hy : y.Valid)
    (hs : y.Same y') (h : MovedBy m ax l lab y z) (h' : MovedBy m ax l lab y' z') : z.Same z' := by
  have hlab : z.label = z'.label := by rw [h.label_eq, h'.label_eq, hs.1]
  have hd : z.dtype = z'.dtype := by
    by_cases hc : (y.dtype = .int ∨ y.dtype = .bool) ∧ Widens l m
    · rw [h.widened hc, h'.widened (by rw [← hs.2.1]; exact hc)]
    · rw [h.kept hc, h'.kept (by rw [← hs.2.1]; exact hc), hs.2.1]
  refine h.valid.same_of_has h'.valid hlab hd fun names v hv => ?_
  rcases (h.has _ _).mp hv with ⟨b, a, u, h1, h2, h3, h4, rfl⟩ | ⟨h1, b, h2, h3, h4⟩
  · exact (h'.has _ _).mpr (.inl ⟨b, a, u, h1, h2, h3, (hs.has hy).mp h4, by rw [hs.2.1, hd]⟩)
  · exact (h'.has _ _).mpr (.inr ⟨hlab ▸ h1, b, h2, h3, hd ▸ h4⟩)

theorem moved_run [LinearOrder L] {y z : Larry L} (hy : y.Valid) {a : Int} {ax : Nat} (ha : pyIdx y.ndim a = some ax)
    {l lab : List L} (hl : y.label[ax]? = some l) {m : AxisMove L} (hm : MoveLeaves l lab m)
    (hr : m.run y a = .ok z) : MovedBy m ax l lab y z := by
  obtain ⟨z', h1, h2⟩ := C100_each hy ha hl hm
  rw [hr] at h1
  cases h1
  exact h2

theorem same_ndim {y y' : Larry L} (h : y.Same y') : y.ndim = y'.ndim := by
  unfold Larry.ndim NDArray.ndim
  rw [h.2.2.1]

/-- Programs do not tell apart larrys with the same labels, dtype and elements. -/
theorem Ran.congr [LinearOrder L] {P : List (Int × AxisMove L)} {y w : Larry L} (h : Ran P y w) :
    ∀ {y' : Larry L}, y.Valid → y'.Valid → y.Same y' → ∃ w', Ran P y' w' ∧ w.Same w' := by
  induction h with
  | nil y => intro y' _ _ hs; exact ⟨y', .nil _, hs⟩
  | cons ha hl hm hr _ ih =>
    intro y' hy hy' hs
    have ha' := same_ndim hs ▸ ha
    have hl' := hs.1 ▸ hl
    obtain ⟨z', h1, h2⟩ := C100_each hy' ha' hl' hm
    have h3 := moved_run hy ha hl hm hr
    obtain ⟨w', h4, h5⟩ := ih h3.valid h2.valid (moved_congr hy hs h3 h2)
    exact ⟨w', .cons ha' hl' hm h1 h4, h5⟩

/-- A first call can be put off until before the next call on its axis. -/
theorem Ran.putOff [LinearOrder L] {Q1 Q2 : List (Int × AxisMove L)} {a : Int} {ax : Nat} {l lab : List L}
    {p : AxisMove L} (hp : MoveLeaves l lab p) :
    ∀ {y z w : Larry L}, y.Valid → pyIdx y.ndim a = some ax → y.label[ax]? = some l → p.run y a = .ok z →
      (∀ s ∈ Q1, pyIdx y.ndim s.1 ≠ some ax) → Ran (Q1 ++ Q2) z w →
      ∃ w', Ran (Q1 ++ (a, p) :: Q2) y w' ∧ w.Same w' := by
  induction Q1 with
  | nil =>
    intro y z w _ ha hl hr _ h
    exact ⟨w, .cons ha hl hp hr h, Larry.Same.refl _⟩
  | cons s Q1 ih =>
    intro y z w hy ha hl hr hno h
    obtain ⟨b, q⟩ := s
    cases h with
    | @cons _ z1 _ _ bx lb lbb _ _ hb hlb hq hr2 rest =>
      have m1 := moved_run hy ha hl hp hr
      rw [m1.ndim_eq hy] at hb
      have hne : ax ≠ bx := fun e => hno (b, q) (by simp) (e ▸ hb)
      have hlb' : y.label[bx]? = some lb := by
        rwa [m1.label_eq, List.getElem?_set_ne hne] at hlb
      obtain ⟨z0, w0, z', w', k1, k2, k3, k4, k5⟩ := C100_commute hy ha hb hne hl hlb' hp hq
      rw [hr] at k1
      cases k1
      rw [hr2] at k2
      cases k2
      have m2 := moved_run m1.valid (by rw [m1.ndim_eq hy]; exact hb) hlb hq hr2
      have m3 := moved_run hy hb hlb' hq k3
      have ha' : pyIdx z'.ndim a = some ax := by rw [m3.ndim_eq hy]; exact ha
      have hl' : z'.label[ax]? = some l := by rw [m3.label_eq, List.getElem?_set_ne (Ne.symm hne)]; exact hl
      have m4 := moved_run m3.valid ha' hl' hp k4
      obtain ⟨w1, g1, g2⟩ := rest.congr m2.valid m4.valid k5
      obtain ⟨w2, g3, g4⟩ := ih m3.valid ha' hl' k4
        (fun s hs => by rw [m3.ndim_eq hy]; exact hno s (List.mem_cons_of_mem _ hs)) g1
      exact ⟨w2, .cons hb hlb' hq k3 g3, same_trans g2 g4⟩

/-- C100. Two programs that make the same calls in the same order on each axis, however the calls on different
axes are mixed, give the same larry.  In particular a program can be regrouped axis by axis. -/
theorem C100_regroup [LinearOrder L] {P : List (Int × AxisMove L)} {y w : Larry L} (h : Ran P y w) :
    ∀ {Q : List (Int × AxisMove L)}, y.Valid →
      (∀ k : Option Nat, P.filter (fun s => pyIdx y.ndim s.1 = k) = Q.filter (fun s => pyIdx y.ndim s.1 = k)) →
      ∃ w', Ran Q y w' ∧ w.Same w' := by
  induction h with
  | nil y =>
    intro Q hy hk
    cases Q with
    | nil => exact ⟨y, .nil _, Larry.Same.refl _⟩
    | cons s Q =>
      have := hk (pyIdx y.ndim s.1)
      simp at this
  | @cons y z w a ax l lab m P ha hl hm hr rest ih =>
    intro Q hy hk
    have m1 := moved_run hy ha hl hm hr
    have hk1 := hk (some ax)
    rw [List.filter_cons_of_pos (by simp [ha])] at hk1
    obtain ⟨Q1, Q2, rfl, h1, h2, h3⟩ := List.filter_eq_cons_iff.mp hk1.symm
    have h1' : ∀ s ∈ Q1, pyIdx y.ndim s.1 ≠ some ax := fun s hs => by simpa using h1 s hs
    obtain ⟨w1, g1, g2⟩ := ih (Q := Q1 ++ Q2) m1.valid fun k => by
      rw [m1.ndim_eq hy]
      by_cases hc : k = some ax
      · subst hc
        have e : Q1.filter (fun s => pyIdx y.ndim s.1 = some ax) = [] :=
          List.filter_eq_nil_iff.mpr fun s hs => by simpa using h1' s hs
        rw [List.filter_append, e, List.nil_append, h3]
      · have := hk k
        have hc' : ¬ (some ax = k) := fun h => hc h.symm
        rw [List.filter_cons_of_neg (by simp [ha, hc']), List.filter_append,
          List.filter_cons_of_neg (by simp [ha, hc']), ← List.filter_append] at this
        exact this
    obtain ⟨w2, g3, g4⟩ := Ran.putOff hm hy ha hl hr h1' g1
    exact ⟨w2, g3, same_trans g2 g4⟩

/-! ## One axis -/

/-- The labels `lag` leaves. -/
def lagLabels (l : List L) (n : Int) : List L := if 0 ≤ n then l.drop n.toNat else l.take (l.length - (-n).toNat)

theorem lagLabels_at {l : List L} {n : Int} {p : Nat} {b : L} (h : (lagLabels l n)[p]? = some b) :
    l[p + n.toNat]? = some b := by
  unfold lagLabels at h
  split at h
  · rw [List.getElem?_drop] at h
    rwa [Nat.add_comm]
  · rw [List.getElem?_take] at h
    split at h
    · rw [show p + n.toNat = p by omega]; exact h
    · cases h

theorem lagLabels_add {l : List L} {i j : Int} (hij : (0 ≤ i ∧ 0 ≤ j) ∨ (i ≤ 0 ∧ j ≤ 0)) :
    lagLabels (lagLabels l i) j = lagLabels l (i + j) := by
  apply List.ext_getElem?
  intro k
  have h0 : ∀ (l : List L) (n : Int) (k : Nat), (lagLabels l n)[k]? =
      if k + n.natAbs < l.length then l[k + n.toNat]? else none := by
    intro l n k
    unfold lagLabels
    split
    · rw [List.getElem?_drop, Nat.add_comm]
      split
      · rfl
      · rw [List.getElem?_eq_none]; omega
    · rw [List.getElem?_take]
      split
      · rw [if_pos (by omega)]; congr 1; omega
      · rw [if_neg (by omega)]
  have hlen : (lagLabels l i).length = l.length - i.natAbs := by
    unfold lagLabels
    split
    · rw [List.length_drop]; omega
    · rw [List.length_take]; omega
  rw [h0, h0 l (i + j), h0 l i, hlen]
  by_cases hc : k + (i + j).natAbs < l.length
  · rw [if_pos (by omega), if_pos (by omega), if_pos hc]
    congr 1
    omega
  · rw [if_neg hc, if_neg (by omega)]

/-- C100. Lagging twice in the same direction is lagging once by the sum. -/
theorem C100_lag_lag {y : Larry L} (hy : y.Valid) {a : Int} {ax : Nat} (ha : pyIdx y.ndim a = some ax)
    {i j : Int} (hij : (0 ≤ i ∧ 0 ≤ j) ∨ (i ≤ 0 ∧ j ≤ 0)) :
    ∃ z w w', y.lag i (some a) = .ok z ∧ z.lag j (some a) = .ok w ∧ y.lag (i + j) (some a) = .ok w' ∧
      w.Same w' := by
  obtain ⟨l, hl, hax⟩ := label_at hy ha
  have hnd := hy.nodup l (List.mem_of_getElem? hl)
  obtain ⟨z, h1, m1⟩ := moved_lag (lab := lagLabels l i) hy ha hl (n := i) rfl
  have hlz : z.label[ax]? = some (lagLabels l i) := by rw [m1.label_eq, List.getElem?_set_self hax]
  obtain ⟨w, h2, m2⟩ := moved_lag (lab := lagLabels (lagLabels l i) j) m1.valid (by rw [m1.ndim_eq hy]; exact ha) hlz
    (n := j) rfl
  obtain ⟨w', h3, m3⟩ := moved_lag (lab := lagLabels l (i + j)) hy ha hl (n := i + j) rfl
  have hno : ∀ (l : List L) (n : Int), ¬ Widens l (.lag n) := fun _ _ => id
  have hd1 := m1.kept fun h => hno _ _ h.2
  have hd2 := m2.kept fun h => hno _ _ h.2
  have hd3 := m3.kept fun h => hno _ _ h.2
  have hin : ∀ {ax : Nat} {l lab names : List L} {n : Int} {y z : Larry L} {b : L}, y.label[ax]? = some l →
      MovedBy (.lag n) ax l (lagLabels l n) y z → Named z.label names → names[ax]? = some b →
      (∀ c, ¬ From l b c (.lag n)) → False := by
    intro ax l lab names n y z b hl hm hN hb hno
    rw [hm.label_eq] at hN
    obtain ⟨-, b', hb1, hb2⟩ := (Named_set_iff (List.getElem?_eq_some_iff.mp hl).1).mp hN
    rw [hb] at hb1
    cases hb1
    obtain ⟨c, hc⟩ := lag_source (n := n) rfl b hb2
    exact hno c hc
  refine ⟨z, w, w', h1, h2, h3, m2.valid.same_of_has m3.valid ?_ (hd2.trans (hd1.trans hd3.symm)) ?_⟩
  · rw [m2.label_eq, m1.label_eq, List.set_set, m3.label_eq, lagLabels_add hij]
  · intro names v hv
    rcases (m2.has _ _).mp hv with ⟨b, c, u, hb, hb', ⟨p, q, hp, hq, hpq⟩, hu, rfl⟩ | ⟨hN, b, hb, hno, -⟩
    · have hax' : ax < names.length := (List.getElem?_eq_some_iff.mp hb).1
      rcases (m1.has _ _).mp hu with ⟨c', e, t, hc, hc', ⟨r, s, hr, hs, hrs⟩, ht, rfl⟩ | ⟨hN, c', hc, hno, -⟩
      · rw [List.getElem?_set_self hax'] at hc
        cases hc
        rw [List.set_set] at ht
        refine (m3.has _ _).mpr (.inl ⟨b, e, t, hb, by rw [← lagLabels_add hij]; exact hb', ?_, ht,
          by rw [hd2, hd1, hd3]; simp [castVal]⟩)
        have hp' := lagLabels_at hp
        have hq' := lagLabels_at hq
        have := nodup_getElem?_inj hnd hr hq'
        exact ⟨_, s, hp', hs, by omega⟩
      · exact (hin (lab := l) hl m1 hN hc hno).elim
    · exact (hin (lab := l) hlz m2 hN hb hno).elim

/-! ## A call that finds nothing -/

/-- C100. The condition that each call finds what it looks for cannot be dropped: `keep_label` that keeps nothing
returns an empty one-dimensional larry, on which calls on the other axis fail or mean another axis. -/
theorem C100_keep_nothing :
    (∃ z, exA.keepLabel (.gt 9) (some 1) = .ok z ∧ z.take [0] 0 = .error .indexError) ∧
    (∃ z w, exA.take [0] 0 = .ok z ∧ z.keepLabel (.gt 9) (some 1) = .ok w ∧ w.label = [[]]) := by
  refine ⟨⟨_, rfl, rfl⟩, _, _, rfl, rfl, rfl⟩

theorem Ran.begin [LinearOrder L] {y : Larry L} {lbl : List (List L)} (hy : y.Valid) (hl : y.label = lbl) {a : Int}
    (ax : Nat) (l lab : List L) {m : AxisMove L} {P : List (Int × AxisMove L)} (ha : pyIdx lbl.length a = some ax)
    (hx : lbl[ax]? = some l) (hm : MoveLeaves l lab m)
    (rest : ∀ z : Larry L, z.Valid → z.label = lbl.set ax lab → ∃ w, Ran P z w) : ∃ w, Ran ((a, m) :: P) y w := by
  subst hl
  rw [hy.label_length] at ha
  obtain ⟨z, h1, h2⟩ := C100_each hy ha hx hm
  obtain ⟨w, hw⟩ := rest z h2.valid h2.label_eq
  exact ⟨w, .cons ha hx hm h1 hw⟩

/-- The hypotheses are met: a program on an integer larry with a `morph` that makes room for missing values. -/
example : ∃ w, Ran [(0, .pick (.morph [9, 20])), (-1, .lag 1), (-2, .maplabel (· + 1)),
    (1, .item (.slice ⟨none, none, some (-1)⟩)), (-2, .pick (.take [-1])), (1, .pick (.keepLabel (.gt 1)))] exB w := by
  refine Ran.begin exB_valid rfl 0 [20, 30] [9, 20] (by decide) rfl ⟨rfl, by decide⟩ fun z hz hl => ?_
  refine Ran.begin hz hl 1 [2, 3] [3] (by decide) rfl rfl fun z hz hl => ?_
  refine Ran.begin hz hl 0 [9, 20] [10, 21] (by decide) rfl ⟨rfl, by decide⟩ fun z hz hl => ?_
  refine Ran.begin hz hl 1 [3] [3] (by decide) rfl ⟨by decide, by simp, [0], by decide, rfl⟩ fun z hz hl => ?_
  refine Ran.begin hz hl 0 [10, 21] [21] (by decide) rfl ⟨[1], .cons (by decide) .nil, by decide, rfl⟩ fun z hz hl => ?_
  refine Ran.begin hz hl 1 [3] [3] (by decide) rfl ⟨by simp, by simp, List.Sublist.refl _, by simp [Wanted]⟩ fun z hz hl => ?_
  exact ⟨z, .nil z⟩

end La
