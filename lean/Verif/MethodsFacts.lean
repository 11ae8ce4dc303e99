import Verif.Methods
import Verif.MorphFacts
import Mathlib.Data.List.InsertIdx

/-! # Facts about the structural methods -/

namespace La
variable {L : Type _}

/-- `z` is the part of `y` with labels `label'`: a well-formed larry with exactly these labels, `y`'s
dtype and in each of its cells `y`'s value under the same names. -/
structure Larry.PartOf (z y : Larry L) (label' : List (List L)) : Prop where
  label_eq : z.label = label'
  valid : z.Valid
  dtype_eq : z.dtype = y.dtype
  has : ∀ names v, z.Has names v ↔ Named label' names ∧ y.Has names v

namespace Larry

theorem PartOf.refl {y : Larry L} (h : y.Valid) : y.PartOf y y.label :=
  ⟨rfl, h, rfl, fun _ _ => ⟨fun h => ⟨Named_of_Holds h, h⟩, fun h => h.2⟩⟩

theorem PartOf.trans {w z y : Larry L} {l l' : List (List L)} (h : z.PartOf y l)
    (h' : w.PartOf z l') : w.PartOf y l' := by
  refine ⟨h'.label_eq, h'.valid, h'.dtype_eq.trans h.dtype_eq, fun names v => ?_⟩
  rw [h'.has, h.has]
  refine ⟨fun ⟨a, _, c⟩ => ⟨a, c⟩, fun ⟨a, c⟩ => ⟨a, ?_, c⟩⟩
  obtain ⟨u, hu⟩ := Holds_of_Named (x := w.x) (label := w.label) (names := names)
    (by rw [h'.label_eq]; exact a)
  exact (((h.has names u).mp ((h'.has names u).mp hu).2)).1

/-- The part with given labels is determined. -/
theorem PartOf.same {z z' y : Larry L} {l : List (List L)} (h : z.PartOf y l) (h' : z'.PartOf y l) :
    z.Same z' :=
  h.valid.same_of_has h'.valid (h.label_eq.trans h'.label_eq.symm)
    (h.dtype_eq.trans h'.dtype_eq.symm) (fun names v hh => (h'.has names v).mpr ((h.has names v).mp hh))

theorem partOf_gather {y : Larry L} (hv : y.Valid) {ax : Nat} {l lab : List L} {ids : List Nat}
    (hl : y.label[ax]? = some l) (hids : ids.map (fun i => l[i]?) = lab.map some)
    (hnd : lab.Nodup) :
    PartOf ⟨y.x.gather ids ax, y.dtype, y.label.set ax lab⟩ y (y.label.set ax lab) := by
  have hax := (List.getElem?_eq_some_iff.mp hl).1
  have hr := reindexed_gather (x := y.x) hl hv.nodup hids none
  refine ⟨rfl, validLabels_set hv hnd (gather_shape hv.shape_eq (getElem?_of_map hids).1), rfl, ?_⟩
  intro names v
  refine (hr names v).trans ?_
  simp only [id_eq, reduceCtorEq, and_false, or_false]
  constructor
  · rintro ⟨h, w, hw, rfl⟩; exact ⟨h, hw⟩
  · rintro ⟨h, hw⟩; exact ⟨h, v, hw, rfl⟩

end Larry

/-! ## Lists -/

theorem filterMap_getElem? {α : Type _} {l : List α} {ids : List Nat} (h : ∀ i ∈ ids, i < l.length) :
    ids.map (fun i => l[i]?) = (ids.filterMap (fun i => l[i]?)).map some := by
  induction ids with
  | nil => rfl
  | cons i is ih =>
    have hi := h i (by simp)
    simp [List.getElem?_eq_getElem hi, ih (fun j hj => h j (by simp [hj]))]

theorem nodup_of_positions {α : Type _} {l lab : List α} {ids : List Nat} (hl : l.Nodup)
    (hids : ids.map (fun i => l[i]?) = lab.map some) (hnd : ids.Nodup) : lab.Nodup := by
  induction ids generalizing lab with
  | nil => cases lab <;> simp_all
  | cons i is ih =>
    cases lab with
    | nil => simp at hids
    | cons a as =>
      simp only [List.map_cons, List.cons.injEq] at hids
      rw [List.nodup_cons] at hnd ⊢
      refine ⟨fun ha => ?_, ih hids.2 hnd.2⟩
      obtain ⟨k, hk⟩ := List.mem_iff_getElem?.mp ha
      obtain ⟨j, hj1, hj2⟩ := (getElem?_of_map hids.2).2 k a hk
      exact hnd.1 (nodup_getElem?_inj hl hids.1 hj2 ▸ List.mem_of_getElem? hj1)

theorem positions_nodup {α : Type _} {l lab : List α} {ids : List Nat}
    (hids : ids.map (fun i => l[i]?) = lab.map some) (hnd : lab.Nodup) : ids.Nodup := by
  have : (ids.map (fun i => l[i]?)).Nodup := by
    rw [hids]; exact hnd.map (Option.some_injective _)
  exact this.of_map _

theorem pySliceList_ok {α : Type _} {l lab : List α} {s : PySlice} :
    pySliceList l s = .ok lab ↔ ∃ ids, sliceIndices l.length s = .ok ids ∧
      ids.map (fun i => l[i]?) = lab.map some := by
  unfold pySliceList
  cases h : sliceIndices l.length s with
  | error e => simp
  | ok ids =>
    have hm := filterMap_getElem? (l := l) (sliceIndices_spec h).1
    constructor
    · intro h'
      simp only [Except.ok.injEq] at h'
      subst h'
      exact ⟨ids, rfl, hm⟩
    · rintro ⟨ids', h1, h2⟩
      simp only [Except.ok.injEq] at h1
      subst h1
      rw [hm] at h2
      have := List.map_injective_iff.mpr (Option.some_injective α) h2
      simp only [this]

theorem pyItems_ok {α : Type _} {l lab : List α} {indices : List Int} :
    pyItems l indices = .ok lab ↔ ∃ ids, mapRes (pyIdxE l.length) indices = .ok ids ∧
      ids.map (fun i => l[i]?) = lab.map some := by
  unfold pyItems
  simp only [mapRes_ok]
  constructor
  · intro h
    induction h with
    | nil => exact ⟨[], .nil, rfl⟩
    | cons h _ ih =>
      obtain ⟨ids, h1, h2⟩ := ih
      obtain ⟨k, hk1, hk2⟩ := pyGet_ok.mp h
      exact ⟨k :: ids, .cons (pyIdxE_ok.mpr hk1) h1, by simp [hk2, h2]⟩
  · rintro ⟨ids, h1, h2⟩
    induction h1 generalizing lab with
    | nil => cases lab with
      | nil => exact .nil
      | cons => simp at h2
    | cons h _ ih =>
      cases lab with
      | nil => simp at h2
      | cons a as =>
        simp only [List.map_cons, List.cons.injEq] at h2
        exact .cons (pyGet_ok.mpr ⟨_, pyIdxE_ok.mp h, h2.1⟩) (ih h2.2)

theorem pyItems_error {α : Type _} {l : List α} {indices : List Int} {e : PyErr} :
    pyItems l indices = .error e ↔ e = .indexError ∧ ∃ i ∈ indices, pyIdx l.length i = none := by
  unfold pyItems
  constructor
  · intro h
    obtain ⟨a, ha, he⟩ := mapRes_error h
    cases hp : pyIdx l.length a with
    | none =>
      rw [pyGet_error hp] at he
      simp only [Except.error.injEq] at he
      exact ⟨he.symm, a, ha, hp⟩
    | some k =>
      have hk := pyIdx_lt hp
      have : pyGet l a = .ok l[k] := pyGet_ok.mpr ⟨k, hp, by simp [hk]⟩
      rw [this] at he; simp at he
  · rintro ⟨rfl, i, hi, hp⟩
    cases hm : mapRes (pyGet l) indices with
    | ok r =>
      rw [mapRes_ok] at hm
      obtain ⟨hlen, h⟩ := List.forall₂_iff_get.mp hm
      obtain ⟨k, hk, rfl⟩ := List.getElem_of_mem hi
      have hb := h k hk (hlen ▸ hk)
      simp only [List.get_eq_getElem] at hb
      rw [pyGet_error hp] at hb
      simp at hb
    | error e =>
      obtain ⟨a, ha, he⟩ := mapRes_error hm
      cases hp' : pyIdx l.length a with
      | none =>
        rw [pyGet_error hp'] at he
        simp only [Except.error.injEq] at he
        rw [he]
      | some k =>
        have hk := pyIdx_lt hp'
        have : pyGet l a = .ok l[k] := pyGet_ok.mpr ⟨k, hp', by simp [hk]⟩
        rw [this] at he; simp at he

theorem swapList_getElem? {α : Type _} {l : List α} {i j : Nat} (hi : i < l.length) (hj : j < l.length)
    (k : Nat) : (swapList l i j)[k]? = if k = i then l[j]? else if k = j then l[i]? else l[k]? := by
  unfold swapList
  rw [List.getElem?_eq_getElem hi, List.getElem?_eq_getElem hj]
  simp only [List.getElem?_set, List.length_set]
  by_cases h1 : k = i
  · by_cases h2 : k = j
    · subst h1 h2; simp [hi]
    · subst h1; simp [hi, Ne.symm h2]
  · by_cases h2 : k = j
    · subst h2; simp [hj, h1]
    · simp [h1, h2, Ne.symm h1, Ne.symm h2]

theorem swapList_length {α : Type _} (l : List α) (i j : Nat) : (swapList l i j).length = l.length := by
  unfold swapList
  split <;> simp

theorem swapList_mem {α : Type _} {l : List α} {i j : Nat} {a : α} (hi : i < l.length)
    (hj : j < l.length) : a ∈ swapList l i j → a ∈ l := by
  intro h
  obtain ⟨k, hk⟩ := List.mem_iff_getElem?.mp h
  rw [swapList_getElem? hi hj] at hk
  split at hk
  · exact List.mem_of_getElem? hk
  · split at hk <;> exact List.mem_of_getElem? hk

theorem swapList_swapList {α : Type _} {l : List α} {i j : Nat} (hi : i < l.length)
    (hj : j < l.length) : swapList (swapList l i j) i j = l := by
  apply List.ext_getElem?
  intro k
  have hi' : i < (swapList l i j).length := by rw [swapList_length]; exact hi
  have hj' : j < (swapList l i j).length := by rw [swapList_length]; exact hj
  rw [swapList_getElem? hi' hj', swapList_getElem? hi hj, swapList_getElem? hi hj,
    swapList_getElem? hi hj]
  by_cases h1 : k = i
  · subst h1
    by_cases h2 : j = k <;> simp [h2]
  · by_cases h2 : k = j
    · subst h2; simp [h1]
    · simp [h1, h2]

theorem swapList_map {α β : Type _} (f : α → β) (l : List α) (i j : Nat) :
    swapList (l.map f) i j = (swapList l i j).map f := by
  unfold swapList
  simp only [List.getElem?_map]
  cases l[i]? <;> cases l[j]? <;> simp [List.map_set]

theorem At_swap {label : List (List L)} {idx : List Nat} {names : List L} {i j : Nat}
    (hi : i < label.length) (hj : j < label.length) (h : At label idx names) :
    At (swapList label i j) (swapList idx i j) (swapList names i j) := by
  rw [At_iff] at h ⊢
  obtain ⟨h1, h2, h3⟩ := h
  refine ⟨by simp [swapList_length, h1], by simp [swapList_length, h2], ?_⟩
  intro k l a n hl ha hn
  rw [swapList_getElem? hi hj] at hl
  rw [swapList_getElem? (by omega) (by omega)] at ha hn
  by_cases c1 : k = i
  · rw [if_pos c1] at hl ha hn; exact h3 _ _ _ _ hl ha hn
  · rw [if_neg c1] at hl ha hn
    by_cases c2 : k = j
    · rw [if_pos c2] at hl ha hn; exact h3 _ _ _ _ hl ha hn
    · rw [if_neg c2] at hl ha hn; exact h3 _ _ _ _ hl ha hn

/-! ## Adding and removing one axis -/

theorem At_insertIdx {label : List (List L)} {idx : List Nat} {names : List L} {k i : Nat}
    {l : List L} {n : L} (hk : k ≤ label.length) (h1 : idx.length = label.length)
    (h2 : names.length = label.length) :
    At (label.insertIdx k l) (idx.insertIdx k i) (names.insertIdx k n) ↔
      At label idx names ∧ l[i]? = some n := by
  induction k generalizing label idx names with
  | zero => simp [At, and_comm]
  | succ k ih =>
    cases label with
    | nil => simp at hk
    | cons l0 ls =>
      cases idx with
      | nil => simp at h1
      | cons i0 is =>
        cases names with
        | nil => simp at h2
        | cons n0 ns =>
          simp only [List.insertIdx_succ_cons, At]
          rw [ih (by simpa using hk) (by simpa using h1) (by simpa using h2), and_assoc]

theorem exists_insertIdx {α : Type _} {l : List α} {k : Nat} (hk : k < l.length) :
    ∃ a l', l = l'.insertIdx k a ∧ l' = l.eraseIdx k ∧ l[k]? = some a :=
  ⟨l[k], l.eraseIdx k, (List.insertIdx_eraseIdx_getElem hk).symm, rfl, by simp [hk]⟩

theorem getElem?_insertIdx_self' {α : Type _} {l : List α} {k : Nat} {a : α} (hk : k ≤ l.length) :
    (l.insertIdx k a)[k]? = some a := by
  rw [List.getElem?_insertIdx_self]; simp [hk]

/-- Picking one position along an axis: a cell of the result is the cell of the original with the
picked label put back. -/
theorem holds_pick {α : Type _} {label : List (List L)} {x : NDArray α} {ax i : Nat} {l : List L} {n : L}
    (hl : label[ax]? = some l) (hnd : ∀ l ∈ label, l.Nodup) (hi : l[i]? = some n) {names : List L}
    {v : α} : Holds (label.eraseIdx ax) (x.pick i ax) names v ↔
      names.length + 1 = label.length ∧ Holds label x (names.insertIdx ax n) v := by
  have hax := (List.getElem?_eq_some_iff.mp hl).1
  have hlab : (label.eraseIdx ax).insertIdx ax l = label := by
    obtain ⟨_, h⟩ := List.getElem?_eq_some_iff.mp hl
    rw [← h]; exact List.insertIdx_eraseIdx_getElem hax
  have hlen : (label.eraseIdx ax).length + 1 = label.length := by
    rw [List.length_eraseIdx_of_lt hax]; omega
  constructor
  · rintro ⟨idx, hat, rfl⟩
    obtain ⟨h1, h2⟩ := At_length hat
    refine ⟨by omega, idx.insertIdx ax i, ?_, rfl⟩
    rw [← hlab, At_insertIdx (by omega) h1 h2]
    exact ⟨hat, hi⟩
  · rintro ⟨h2, idx, hat, rfl⟩
    have h1 := (At_length hat).1
    obtain ⟨j, idx', rfl, h4, h5⟩ := exists_insertIdx (l := idx) (k := ax) (by omega)
    have h6 : idx'.length + 1 = label.length := by
      rw [← h1, List.length_insertIdx_of_le_length]
      rw [h4, List.length_eraseIdx_of_lt (by omega)]; omega
    rw [← hlab, At_insertIdx (by omega) (by omega) (by omega)] at hat
    refine ⟨idx', hat.1, ?_⟩
    rw [nodup_getElem?_inj (hnd l (List.mem_of_getElem? hl)) hat.2 hi]
    rfl

end La

namespace La
variable {L : Type _}
namespace Larry

theorem morph_sub [LinearOrder L] {y : Larry L} (hv : y.Valid) {lab : List L} (hnd : lab.Nodup)
    {axis : Int} {ax : Nat} (hax : pyIdx y.ndim axis = some ax) {l : List L}
    (hl : y.label[ax]? = some l) (hsub : ∀ b ∈ lab, b ∈ l) (hne : lab = [] → l = []) :
    ∃ z, y.morph lab axis = .ok z ∧ z.PartOf y (y.label.set ax lab) := by
  obtain ⟨z, h1, h2, h3, h4, h5⟩ := morph_spec hv hnd hax hl
  have hd : z.dtype = y.dtype := by
    rw [h4, morphDType, if_neg]
    rintro ⟨_, hne', h | ⟨b, hb, hbl⟩⟩
    · exact hne' ((hne h).trans h.symm)
    · exact hbl (hsub b hb)
  refine ⟨z, h1, h2, h3, hd, fun names v => ?_⟩
  have := h5 names v
  rw [hd, castVal_self] at this
  rw [← h2]
  refine this.trans ⟨?_, ?_⟩
  · rintro ⟨hN, ⟨w, hw, rfl⟩ | ⟨hno, _⟩⟩
    · exact ⟨hN, hw⟩
    · refine absurd ?_ hno
      rw [h2, Named_set_iff (List.getElem?_eq_some_iff.mp hl).1] at hN
      rw [Named_iff_except hl]
      exact ⟨hN.1, hN.2.imp (fun n h => ⟨h.1, hsub n h.2⟩)⟩
  · rintro ⟨hN, hw⟩
    exact ⟨hN, .inl ⟨v, hw, rfl⟩⟩

/-- The state of a loop that treats each axis once: on the axes done the labels are `g` of the original
ones, elsewhere they are the original ones. -/
structure AxisLoop (y z : Larry L) (done : List Nat) (g : List L → List L) : Prop where
  part : z.PartOf y z.label
  labels : ∀ k : Nat, z.label[k]? = (y.label[k]?).map (fun l => if k ∈ done then g l else l)

theorem AxisLoop.length {y z : Larry L} {done : List Nat} {g : List L → List L}
    (h : AxisLoop y z done g) : z.label.length = y.label.length := by
  by_contra hne
  rcases Nat.lt_or_gt_of_ne hne with hlt | hlt
  · have := h.labels z.label.length
    simp [hlt] at this
  · have := h.labels y.label.length
    simp [hlt] at this

theorem AxisLoop.step {y z w : Larry L} {done : List Nat} {g : List L → List L} {k : Nat} {l : List L}
    (h : AxisLoop y z done g) (hk : k ∉ done) (hl : y.label[k]? = some l)
    (hw : w.PartOf z (z.label.set k (g l))) : AxisLoop y w (done ++ [k]) g := by
  have hlt : k < y.label.length := (List.getElem?_eq_some_iff.mp hl).1
  refine ⟨hw.label_eq ▸ h.part.trans hw, fun j => ?_⟩
  rw [hw.label_eq, List.getElem?_set, h.labels j]
  by_cases hj : k = j
  · subst hj
    rw [if_pos rfl, if_pos (by rw [h.length]; exact hlt), hl]
    simp
  · rw [if_neg hj]
    simp [Ne.symm hj]

theorem AxisLoop.init {y : Larry L} (hv : y.Valid) (g : List L → List L) : AxisLoop y y [] g :=
  ⟨PartOf.refl hv, fun k => by simp⟩

theorem sortedLab_perm [LinearOrder L] (r : Bool) (l : List L) : (sortedLab r l).Perm l := by
  unfold sortedLab
  split
  · exact pySortedRev_perm_self l
  · exact pySorted_perm_self l

theorem sortaxisLoop_spec [LinearOrder L] {y : Larry L} (hv : y.Valid) (r : Bool) (axs : List Int)
    (axes : List Nat) (hf : List.Forall₂ (fun a k => pyIdx y.ndim a = some k) axs axes) :
    ∀ (done : List Nat) (z : Larry L), (done ++ axes).Nodup → AxisLoop y z done (sortedLab r) →
    ∃ w, sortaxisLoop y r axs z = .ok w ∧ AxisLoop y w (done ++ axes) (sortedLab r) := by
  induction hf with
  | nil => intro done z _ h; exact ⟨z, rfl, by simpa using h⟩
  | cons hak _ ih =>
    rename_i a k axs axes _
    intro done z hnd h
    have hkl : k < y.label.length := by rw [hv.label_length]; exact pyIdx_lt hak
    have hkdone : k ∉ done := by
      intro hk
      exact (List.nodup_append.mp hnd).2.2 k hk k (by simp) rfl
    obtain ⟨l, hl⟩ : ∃ l, y.label[k]? = some l := ⟨_, List.getElem?_eq_getElem hkl⟩
    have hsh : y.x.shape[k]? = some l.length := by rw [hv.shape_eq]; simp [hl]
    have g1 : pyGet y.shape a = .ok l.length := pyGet_ok.mpr ⟨k, hak, hsh⟩
    have g2 : pyGet y.label a = .ok l :=
      pyGet_ok.mpr ⟨k, by rw [hv.label_length]; exact hak, hl⟩
    have hlnd : l.Nodup := hv.nodup l (List.mem_of_getElem? hl)
    have hzl : z.label[k]? = some l := by rw [h.labels, hl]; simp [hkdone]
    have hzn : z.ndim = y.ndim := by
      rw [← h.part.valid.label_length, ← hv.label_length, h.length]
    simp only [sortaxisLoop, g1]
    by_cases hn : l.length > 1
    · rw [if_pos hn]
      simp only [g2]
      have hp := sortedLab_perm r l
      obtain ⟨w, hw1, hw2⟩ := morph_sub h.part.valid (lab := sortedLab r l) (hp.nodup_iff.mpr hlnd)
        (by rw [hzn]; exact hak) hzl (fun b hb => hp.mem_iff.mp hb)
        (fun h0 => by rw [h0] at hp; exact (List.Perm.nil_eq hp).symm)
      rw [hw1]
      obtain ⟨w', e1, e2⟩ := ih (done ++ [k]) w (by simpa using hnd) (h.step hkdone hl hw2)
      exact ⟨w', e1, by simpa using e2⟩
    · rw [if_neg hn]
      have hsame : sortedLab r l = l := by
        have : l.length = 0 ∨ l.length = 1 := by omega
        rcases this with h0 | h1
        · rw [List.length_eq_zero_iff] at h0; subst h0; cases r <;> rfl
        · obtain ⟨a, rfl⟩ := List.length_eq_one_iff.mp h1
          cases r <;> rfl
      have hstep : AxisLoop y z (done ++ [k]) (sortedLab r) := by
        refine h.step hkdone hl ?_
        have : z.label.set k (sortedLab r l) = z.label := by
          obtain ⟨_, e⟩ := List.getElem?_eq_some_iff.mp hzl
          rw [hsame, ← e, List.set_getElem_self]
        rw [this]
        exact PartOf.refl h.part.valid
      obtain ⟨w', e1, e2⟩ := ih (done ++ [k]) z (by simpa using hnd) hstep
      exact ⟨w', e1, by simpa using e2⟩

theorem flipaxisLoop_spec {y : Larry L} (hv : y.Valid) (axs : List Int)
    (axes : List Nat) (hf : List.Forall₂ (fun a k => pyIdx y.ndim a = some k) axs axes) :
    ∀ (done : List Nat) (z : Larry L), (done ++ axes).Nodup → AxisLoop y z done List.reverse →
    ∃ w, flipaxisLoop axs z = .ok w ∧ AxisLoop y w (done ++ axes) List.reverse := by
  induction hf with
  | nil => intro done z _ h; exact ⟨z, rfl, by simpa using h⟩
  | cons hak _ ih =>
    rename_i a k axs axes _
    intro done z hnd h
    have hkl : k < y.label.length := by rw [hv.label_length]; exact pyIdx_lt hak
    have hkdone : k ∉ done := by
      intro hk
      exact (List.nodup_append.mp hnd).2.2 k hk k (by simp) rfl
    obtain ⟨l, hl⟩ : ∃ l, y.label[k]? = some l := ⟨_, List.getElem?_eq_getElem hkl⟩
    have hlnd : l.Nodup := hv.nodup l (List.mem_of_getElem? hl)
    have hzl : z.label[k]? = some l := by rw [h.labels, hl]; simp [hkdone]
    have g1 : pyIdx z.label.length a = some k := by
      rw [h.length, hv.label_length]; exact hak
    have g2 : z.label.getD k [] = l := by simp [List.getD, hzl]
    have hids : (List.range l.length).reverse.map (fun i => l[i]?) = l.reverse.map some := by
      rw [List.map_reverse, List.map_reverse]
      congr 1
      apply List.ext_getElem?
      intro i
      simp only [List.getElem?_map]
      rcases Nat.lt_or_ge i l.length with hi | hi
      · simp [hi]
      · simp [hi]
    have g3 : pySliceList l ⟨none, none, some (-1)⟩ = .ok l.reverse :=
      pySliceList_ok.mpr ⟨_, sliceIndices_flip l.length, hids⟩
    have hsh : z.x.shape.getD k 0 = l.length := by
      rw [h.part.valid.shape_eq]; simp [List.getD, hzl]
    have g4 : z.x.sliceAx ⟨none, none, some (-1)⟩ k =
        .ok (z.x.gather (List.range l.length).reverse k) := by
      have e : sliceIndices (z.x.shape.getD k 0) ⟨none, none, some (-1)⟩ =
          .ok (List.range l.length).reverse := by rw [hsh]; exact sliceIndices_flip _
      simp only [NDArray.sliceAx, e]
    simp only [flipaxisLoop, g1, g2, g3, g4]
    have hw := partOf_gather h.part.valid hzl hids (List.nodup_reverse.mpr hlnd)
    obtain ⟨w', e1, e2⟩ := ih (done ++ [k]) _ (by simpa using hnd) (h.step hkdone hl hw)
    exact ⟨w', e1, by simpa using e2⟩

/-- Permuting the labels of each axis does not change which names exist. -/
theorem AxisLoop.named {y z : Larry L} {done : List Nat} {g : List L → List L}
    (h : AxisLoop y z done g) (hg : ∀ l, (g l).Perm l) {names : List L} :
    Named z.label names ↔ Named y.label names := by
  rw [Named_iff, Named_iff, h.length]
  refine and_congr_right fun _ => ?_
  constructor
  · intro hh k l n hl hn
    have := hh k (if k ∈ done then g l else l) n (by rw [h.labels, hl]; rfl) hn
    split at this
    · exact (hg l).mem_iff.mp this
    · exact this
  · intro hh k l' n hl hn
    rw [h.labels] at hl
    cases hy : y.label[k]? with
    | none => rw [hy] at hl; simp at hl
    | some l =>
      rw [hy, Option.map_some, Option.some.injEq] at hl
      rw [← hl]
      split
      · exact (hg l).mem_iff.mpr (hh k l n hy hn)
      · exact hh k l n hy hn

theorem AxisLoop.has {y z : Larry L} {done : List Nat} {g : List L → List L}
    (h : AxisLoop y z done g) (hg : ∀ l, (g l).Perm l) {names : List L} {v : Val} :
    z.Has names v ↔ y.Has names v := by
  rw [h.part.has, h.named hg]
  exact ⟨fun h => h.2, fun h => ⟨Named_of_Holds h, h⟩⟩

end Larry
end La
