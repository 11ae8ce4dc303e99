import Verif.IndexFacts
import Verif.Examples

/-! # C33: indexing by position -/

namespace La
variable {L : Type _}

/-! ## Specification -/

/-- `l[i]` is `n`, counting from the end if `i` is negative. -/
def PyAt (l : List L) (i : Int) (n : L) : Prop :=
  ∃ k : Nat, l[k]? = some n ∧ ((k : Int) = i ∨ (k : Int) = i + l.length)

/-- What an entry of an index takes from an axis: one label, and the axis disappears, or a list of
labels. -/
inductive Part (L : Type _)
  | one (n : L)
  | many (ls : List L)

/-- On an axis with labels `l` the entry takes this part. -/
def Picks (l : List L) : Item L → Part L → Prop
  | .int i, .one n => PyAt l i n
  | .slice s, .many ls => ∃ ids, sliceIndices l.length s = .ok ids ∧ ids.map (fun i => l[i]?) = ls.map some
  | .seq is, .many ls => List.Forall₂ (PyAt l) is ls
  | .mask bs, .many ls => (∀ k : Nat, bs[k]? = some true → k < l.length) ∧
      ls = ((l.zip bs).filter (fun p => p.2)).map (fun p => p.1)
  | .lar m, .many ls => m.dtype = .bool ∧ m.label = [l] ∧ ls.Sublist l ∧ ∀ n, n ∈ ls ↔ m.Has [n] (.bool true)
  | _, _ => False

/-- The labels that remain. -/
def Part.labels : List (Part L) → List (List L)
  | [] => []
  | .one _ :: ps => Part.labels ps
  | .many ls :: ps => ls :: Part.labels ps

/-- The full name of a cell of the result: the labels of the integer entries are put back. -/
def Part.names : List (Part L) → List L → List L
  | [], ns => ns
  | .one n :: ps, ns => n :: Part.names ps ns
  | .many _ :: ps, n :: ns => n :: Part.names ps ns
  | .many _ :: _, [] => []

/-- The entries between the brackets. -/
def Index.items : Index L → List (Item L)
  | .one it => [it]
  | .tuple its => its

/-- Axes not mentioned are taken whole. -/
def padTo (n : Nat) (its : List (Item L)) : List (Item L) := its ++ List.replicate (n - its.length) (Item.slice {})

/-- The index takes these parts from the axes. -/
def TakesParts (label : List (List L)) (its : List (Item L)) (parts : List (Part L)) : Prop :=
  List.Forall₂ (fun p part => Picks p.1 p.2 part) (label.zip (padTo label.length its)) parts

/-- An integer. -/
def Item.IsInt (it : Item L) : Prop := ∃ i, it = .int i
/-- A slice. -/
def Item.IsSlice (it : Item L) : Prop := ∃ s, it = .slice s
/-- A list, an array or a larry. -/
def Item.IsList (it : Item L) : Prop := ¬ it.IsInt ∧ ¬ it.IsSlice

/-- There is at most one list. -/
def OneList (its : List (Item L)) : Prop :=
  ∀ (p q : Nat) (a b : Item L), its[p]? = some a → its[q]? = some b → a.IsList → b.IsList → p = q

/-- The list comes after a slice, and a slice stands between two entries that are no slices. -/
def Scrambled (its : List (Item L)) : Prop :=
  (∃ (s p : Nat) (a b : Item L), s < p ∧ its[s]? = some a ∧ its[p]? = some b ∧ a.IsSlice ∧ b.IsList) ∧
  ∃ (p t q : Nat) (a b c : Item L), p < t ∧ t < q ∧ its[p]? = some a ∧ its[t]? = some b ∧ its[q]? = some c ∧
    ¬ a.IsSlice ∧ b.IsSlice ∧ ¬ c.IsSlice

/-- The result has these labels and in the cell `names` the value `v` with `P names v`. -/
def GetOut.Shows (d : DType) (label : List (List L)) (P : List L → Val → Prop) : GetOut L → Prop
  | .scalar v => label = [] ∧ P [] v
  | .array x => x.shape = label.map List.length ∧ ∀ names v, Holds label x names v ↔ Named label names ∧ P names v
  | .larry z => z.label = label ∧ z.dtype = d ∧ z.Valid ∧ ∀ names v, z.Has names v ↔ Named label names ∧ P names v

/-! ## One axis -/

theorem pyAt_iff {l : List L} {i : Int} {n : L} : PyAt l i n ↔ ∃ k, pyIdx l.length i = some k ∧ l[k]? = some n := by
  constructor
  · rintro ⟨k, h1, h2⟩
    exact ⟨k, pyIdx_some.mpr ⟨(List.getElem?_eq_some_iff.mp h1).1, h2⟩, h1⟩
  · rintro ⟨k, h1, h2⟩
    exact ⟨k, h2, (pyIdx_some.mp h1).2⟩

theorem trues_cons (b : Bool) (bs : List Bool) :
    trues (b :: bs) = (if b then [0] else []) ++ (trues bs).map (· + 1) := by
  have h : ∀ (bs : List Bool) (k : Nat), ((bs.zipIdx (k + 1)).filter Prod.fst).map Prod.snd =
      (((bs.zipIdx k).filter Prod.fst).map Prod.snd).map (· + 1) := by
    intro bs
    induction bs with
    | nil => intro k; rfl
    | cons c bs ih =>
      intro k
      cases c <;> simp [List.zipIdx_cons, ih]
  unfold trues
  cases b <;> simp [List.zipIdx_cons, h bs 0]

theorem mem_trues {bs : List Bool} {k : Nat} : k ∈ trues bs ↔ bs[k]? = some true := by
  induction bs generalizing k with
  | nil => simp [trues]
  | cons b bs ih =>
    rw [trues_cons]
    cases k with
    | zero => cases b <;> simp
    | succ k => cases b <;> simp [ih]

theorem nodup_trues (bs : List Bool) : (trues bs).Nodup := by
  induction bs with
  | nil => simp [trues]
  | cons b bs ih =>
    rw [trues_cons]
    have := ih.map (f := (· + 1)) (fun a b h => by simpa using h)
    cases b <;> simp [this]

theorem trues_labels {l : List L} {bs : List Bool} (h : ∀ k ∈ trues bs, k < l.length) :
    (trues bs).map (fun i => l[i]?) = (((l.zip bs).filter (fun p => p.2)).map (fun p => p.1)).map some := by
  induction bs generalizing l with
  | nil => simp [trues]
  | cons b bs ih =>
    cases l with
    | nil =>
      have : trues (b :: bs) = [] := by
        rw [List.eq_nil_iff_forall_not_mem]
        intro k hk
        simpa using h k hk
      simp [this]
    | cons a l =>
      rw [trues_cons] at h ⊢
      have := ih (l := l) (fun k hk => by
        have := h (k + 1) (by simp [hk])
        simpa using this)
      cases b <;> simp [← this]

theorem mapRes_trues {bs : List Bool} {n : Nat} (h : ∀ k ∈ trues bs, k < n) :
    mapRes (pyIdxE n) ((trues bs).map (fun k : Nat => (k : Int))) = .ok (trues bs) := by
  rw [mapRes_ok, List.forall₂_map_left_iff, List.forall₂_same]
  intro k hk
  exact pyIdxE_ok.mpr (pyIdx_ofNat (h k hk))

theorem maskLabels_ok {l lab : List L} {bs : List Bool} : maskLabels l bs = .ok lab ↔
    (∀ k ∈ trues bs, k < l.length) ∧ (trues bs).map (fun i => l[i]?) = lab.map some := by
  unfold maskLabels
  rw [pyItems_ok]
  constructor
  · rintro ⟨ids, h1, h2⟩
    have hlt : ∀ k ∈ trues bs, k < l.length := by
      intro k hk
      cases hj : pyIdxE l.length (k : Int) with
      | error e =>
        obtain ⟨e', he⟩ := mapRes_error_of (List.mem_map.mpr ⟨k, hk, rfl⟩) hj
        rw [h1] at he; simp at he
      | ok j =>
      have := pyIdx_some.mp (pyIdxE_ok.mp hj)
      omega
    rw [mapRes_trues hlt] at h1
    simp only [Except.ok.injEq] at h1
    subst h1
    exact ⟨hlt, h2⟩
  · rintro ⟨h1, h2⟩
    exact ⟨_, mapRes_trues h1, h2⟩

theorem maskLabels_error {l : List L} {bs : List Bool} {e : PyErr} (h : maskLabels l bs = .error e) :
    ¬ ∀ k ∈ trues bs, k < l.length := by
  intro h'
  have := maskLabels_ok.mpr ⟨h', trues_labels h'⟩
  rw [h] at this; simp at this

/-- The larry index as a list of booleans. -/
theorem larMask_ok [DecidableEq L] {l : List L} {m : Larry L} (hm : m.Valid) {bs : List Bool} (h : larMask l m = .ok bs) :
    m.dtype = .bool ∧ m.label = [l] ∧ bs = m.x.vals.map (fun v => decide (v = .bool true)) ∧ bs.length = l.length ∧
    ∀ k : Nat, bs[k]? = some true ↔ k < l.length ∧ m.x.get [k] = .bool true := by
  unfold larMask at h
  split at h
  · simp at h
  · rename_i h1
    split at h
    · simp at h
    · rename_i h2
      split at h
      · simp at h
      · rename_i h3
        simp only [Except.ok.injEq] at h
        simp only [ne_eq, not_not] at h1 h2 h3
        have hl : m.label.length = 1 := by rw [hm.label_length, h2]
        obtain ⟨l', hl'⟩ := List.length_eq_one_iff.mp hl
        rw [hl'] at h3
        simp only [List.getD_cons_zero] at h3
        subst h3
        have hs : m.x.shape = [l.length] := by rw [hm.shape_eq, hl']; rfl
        have hvals : m.x.vals = (List.range l.length).map (fun i => m.x.get [i]) := by
          simp only [NDArray.vals, hs, allIdx]
          simp only [List.map_cons, List.map_nil, List.map_flatMap]
          exact List.map_eq_flatMap.symm
        subst h
        refine ⟨h1, hl', rfl, by rw [hvals]; simp, fun k => ?_⟩
        rw [hvals]
        simp only [List.map_map, List.getElem?_map, Option.map_eq_some_iff, Function.comp]
        constructor
        · rintro ⟨a, ha, hb⟩
          obtain ⟨ha1, ha2⟩ := List.getElem?_eq_some_iff.mp ha
          simp at ha1 ha2
          subst ha2
          exact ⟨ha1, by simpa using hb⟩
        · rintro ⟨ha, hb⟩
          exact ⟨k, by simp [ha], by simp [hb]⟩

/-- Kinds of entries. -/
def SameKind (it : Item L) : NpSel → Prop
  | .int _ => it.IsInt
  | .slice _ => it.IsSlice
  | .fancy _ => it.IsList

/-- The positions belong to the part. -/
def Coupled (l : List L) : NpSel → Part L → Prop
  | .int k, .one n => l[k]? = some n
  | .slice ids, .many ls => ids.map (fun i => l[i]?) = ls.map some
  | .fancy ids, .many ls => ids.map (fun i => l[i]?) = ls.map some
  | _, _ => False

/-- The label list of a part. -/
def Part.lab? : Part L → Option (List L)
  | .one _ => none
  | .many ls => some ls

theorem forall₂_pyAt {l ls : List L} {is : List Int} :
    List.Forall₂ (PyAt l) is ls ↔ pyItems l is = .ok ls := by
  unfold pyItems
  rw [mapRes_ok]
  constructor <;> intro h <;> refine h.imp (fun i n h => ?_)
  · exact pyGet_ok.mpr (pyAt_iff.mp h)
  · exact pyAt_iff.mpr (pyGet_ok.mp h)

theorem zip_filter_sublist {l : List L} {bs : List Bool} :
    (((l.zip bs).filter (fun p => p.2)).map (fun p => p.1)).Sublist l := by
  induction l generalizing bs with
  | nil => simp
  | cons a l ih =>
    cases bs with
    | nil => simp
    | cons b bs => cases b <;> simp [ih, List.Sublist.cons]

theorem keep_resolve [DecidableEq L] {l : List L} {it : Item L} (hm : ∀ m, it = .lar m → m.Valid)
    {o : Option (List L)} {sel : NpSel} (h1 : it.keep l l.length = .ok o) (h2 : it.np.resolve l.length = .ok sel) :
    ∃ part, Picks l it part ∧ Coupled l sel part ∧ o = part.lab? ∧ SameKind it sel := by
  cases it with
  | int i =>
    simp only [Item.np, NpItem.resolve] at h2
    cases hk : pyIdx l.length i with
    | none => simp [hk] at h2
    | some k =>
      simp only [hk, Except.ok.injEq] at h2
      subst h2
      simp only [Item.keep] at h1
      split at h1
      · simp at h1
      · simp only [Except.ok.injEq] at h1
        have hlt := pyIdx_lt hk
        exact ⟨.one l[k], pyAt_iff.mpr ⟨k, hk, by simp⟩, by simp [Coupled, hlt], h1.symm, ⟨i, rfl⟩⟩
  | slice s =>
    simp only [Item.np, NpItem.resolve] at h2
    simp only [Item.keep] at h1
    cases hp : pySliceList l s with
    | error e => simp [hp] at h1
    | ok lab =>
      simp only [hp, Except.ok.injEq] at h1
      obtain ⟨ids, h3, h4⟩ := pySliceList_ok.mp hp
      simp only [h3, Except.ok.injEq] at h2
      subst h2
      exact ⟨.many lab, ⟨ids, h3, h4⟩, h4, h1.symm, ⟨s, rfl⟩⟩
  | seq is =>
    simp only [Item.np, NpItem.resolve] at h2
    simp only [Item.keep] at h1
    cases hp : pyItems l is with
    | error e => simp [hp] at h1
    | ok lab =>
      simp only [hp, Except.ok.injEq] at h1
      obtain ⟨ids, h3, h4⟩ := pyItems_ok.mp hp
      simp only [h3, Except.ok.injEq] at h2
      subst h2
      exact ⟨.many lab, forall₂_pyAt.mpr hp, h4, h1.symm, by rintro ⟨i, hi⟩; simp at hi,
        by rintro ⟨i, hi⟩; simp at hi⟩
  | mask bs =>
    simp only [Item.np, NpItem.resolve] at h2
    simp only [Item.keep] at h1
    cases hp : maskLabels l bs with
    | error e => simp [hp] at h1
    | ok lab =>
      simp only [hp, Except.ok.injEq] at h1
      obtain ⟨h3, h4⟩ := maskLabels_ok.mp hp
      split at h2
      · simp at h2
      · simp only [Except.ok.injEq] at h2
        subst h2
        refine ⟨.many lab, ⟨fun k hk => h3 k (mem_trues.mpr hk), ?_⟩, h4, h1.symm, by rintro ⟨i, hi⟩; simp at hi,
          by rintro ⟨i, hi⟩; simp at hi⟩
        rw [trues_labels h3] at h4
        exact (List.map_injective_iff.mpr (Option.some_injective L) h4).symm
  | lar m =>
    simp only [Item.np, NpItem.resolve] at h2
    simp only [Item.keep] at h1
    cases hb : larMask l m with
    | error e => simp [hb] at h1
    | ok bs =>
      obtain ⟨hd, hl, hbs, hlen, hspec⟩ := larMask_ok (hm m rfl) hb
      rw [← hbs] at h2
      simp only [hb] at h1
      cases hp : maskLabels l bs with
      | error e => simp [hp] at h1
      | ok lab =>
        simp only [hp, Except.ok.injEq] at h1
        obtain ⟨h3, h4⟩ := maskLabels_ok.mp hp
        split at h2
        · simp at h2
        · simp only [Except.ok.injEq] at h2
          subst h2
          have h5 := h4
          rw [trues_labels h3] at h5
          have h6 := (List.map_injective_iff.mpr (Option.some_injective L) h5).symm
          refine ⟨.many lab, ⟨hd, hl, h6 ▸ zip_filter_sublist, fun n => ?_⟩, h4, h1.symm, by rintro ⟨i, hi⟩; simp at hi,
            by rintro ⟨i, hi⟩; simp at hi⟩
          constructor
          · intro hn
            obtain ⟨j, hj⟩ := List.mem_iff_getElem?.mp hn
            obtain ⟨k, hk1, hk2⟩ := (getElem?_of_map h4).2 j n hj
            have := (hspec k).mp (mem_trues.mp (List.mem_of_getElem? hk1))
            exact ⟨[k], by rw [hl]; simp [At, hk2], this.2⟩
          · rintro ⟨idx, hat, hv⟩
            rw [hl] at hat
            rcases idx with _ | ⟨k, _ | ⟨k', idx⟩⟩
            · simp [At] at hat
            · simp only [At, and_true] at hat
              have hk := (hspec k).mpr ⟨(List.getElem?_eq_some_iff.mp hat).1, hv⟩
              have hmem : some n ∈ (trues bs).map (fun i => l[i]?) :=
                List.mem_map.mpr ⟨k, mem_trues.mpr hk, hat⟩
              rw [h4] at hmem
              simpa using hmem
            · simp [At] at hat
  | nd => simp [Item.keep] at h1
  | other => simp [Item.keep] at h1

/-- The converse: an entry that takes a part raises nothing. -/
theorem keep_resolve_of_picks [DecidableEq L] {l : List L} {it : Item L} (hm : ∀ m, it = .lar m → m.Valid) {part : Part L}
    (h : Picks l it part) : ∃ o sel, it.keep l l.length = .ok o ∧ it.np.resolve l.length = .ok sel := by
  cases it with
  | int i =>
    cases part with
    | many ls => simp [Picks] at h
    | one n =>
      obtain ⟨k, h1, h2⟩ := pyAt_iff.mp h
      have := pyIdx_some.mp h1
      refine ⟨none, .int k, ?_, ?_⟩
      · simp only [Item.keep]
        rw [if_neg (by omega)]
      · simp [Item.np, NpItem.resolve, h1]
  | slice s =>
    cases part with
    | one n => simp [Picks] at h
    | many ls =>
      obtain ⟨ids, h1, h2⟩ := h
      have := pySliceList_ok.mpr ⟨ids, h1, h2⟩
      exact ⟨some ls, .slice ids, by simp [Item.keep, this], by simp [Item.np, NpItem.resolve, h1]⟩
  | seq is =>
    cases part with
    | one n => simp [Picks] at h
    | many ls =>
      have h1 := forall₂_pyAt.mp h
      obtain ⟨ids, h2, h3⟩ := pyItems_ok.mp h1
      exact ⟨some ls, .fancy ids, by simp [Item.keep, h1], by simp [Item.np, NpItem.resolve, h2]⟩
  | mask bs =>
    cases part with
    | one n => simp [Picks] at h
    | many ls =>
      have h1 : ∀ k ∈ trues bs, k < l.length := fun k hk => h.1 k (mem_trues.mp hk)
      have h2 := maskLabels_ok.mpr ⟨h1, trues_labels h1⟩
      refine ⟨_, .fancy (trues bs), by simp only [Item.keep, h2]; rfl, ?_⟩
      simp only [Item.np, NpItem.resolve]
      rw [if_neg]
      simpa using h1
  | lar m =>
    cases part with
    | one n => simp [Picks] at h
    | many ls =>
      obtain ⟨hd, hl, -, -⟩ := h
      have hmv := hm m rfl
      have hnd : m.ndim = 1 := by rw [← hmv.label_length, hl]; rfl
      have hb : larMask l m = .ok (m.x.vals.map (fun v => decide (v = .bool true))) := by
        simp [larMask, hd, hnd, hl]
      obtain ⟨-, -, hbs, hlen, hspec⟩ := larMask_ok hmv hb
      have h1 : ∀ k ∈ trues (m.x.vals.map (fun v => decide (v = .bool true))), k < l.length :=
        fun k hk => ((hspec k).mp (mem_trues.mp hk)).1
      have h2 := maskLabels_ok.mpr ⟨h1, trues_labels h1⟩
      refine ⟨_, .fancy (trues (m.x.vals.map (fun v => decide (v = .bool true)))), by simp only [Item.keep, hb, h2]; rfl, ?_⟩
      simp only [Item.np, NpItem.resolve]
      rw [if_neg]
      simpa using h1
  | nd => cases part <;> simp [Picks] at h
  | other => cases part <;> simp [Picks] at h

theorem sublist_eq_of_mem {l s t : List L} (hl : l.Nodup) (hs : s.Sublist l) (ht : t.Sublist l)
    (h : ∀ n, n ∈ s ↔ n ∈ t) : s = t := by
  induction l generalizing s t with
  | nil => rw [List.sublist_nil.mp hs, List.sublist_nil.mp ht]
  | cons a l ih =>
    rw [List.nodup_cons] at hl
    cases hs with
    | cons _ hs =>
      have has : a ∉ s := fun ha => hl.1 (hs.subset ha)
      cases ht with
      | cons _ ht => exact ih hl.2 hs ht h
      | cons_cons _ ht => exact absurd ((h a).mpr (by simp)) has
    | cons_cons _ hs =>
      rename_i s'
      cases ht with
      | cons _ ht => exact absurd (ht.subset ((h a).mp (by simp))) hl.1
      | cons_cons _ ht =>
        rename_i t'
        have has : a ∉ s' := fun ha => hl.1 (hs.subset ha)
        have hat : a ∉ t' := fun ha => hl.1 (ht.subset ha)
        rw [ih hl.2 hs ht (fun n => ?_)]
        have := h n
        simp only [List.mem_cons] at this
        constructor
        · intro hn
          rcases this.mp (Or.inr hn) with rfl | hh
          · exact absurd hn has
          · exact hh
        · intro hn
          rcases this.mpr (Or.inr hn) with rfl | hh
          · exact absurd hn hat
          · exact hh

/-- An entry takes one part. -/
theorem Picks.unique {l : List L} (hl : l.Nodup) {it : Item L} {p q : Part L} (h : Picks l it p) (h' : Picks l it q) :
    p = q := by
  cases it with
  | int i =>
    cases p <;> cases q <;> simp only [Picks] at h h'
    obtain ⟨k, h1, h2⟩ := pyAt_iff.mp h
    obtain ⟨k', h1', h2'⟩ := pyAt_iff.mp h'
    rw [h1] at h1'
    simp only [Option.some.injEq] at h1'
    subst h1'
    rw [h2] at h2'
    simpa using h2'
  | slice s =>
    cases p <;> cases q <;> simp only [Picks] at h h'
    obtain ⟨ids, h1, h2⟩ := h
    obtain ⟨ids', h1', h2'⟩ := h'
    rw [h1] at h1'
    simp only [Except.ok.injEq] at h1'
    subst h1'
    rw [h2] at h2'
    rw [List.map_injective_iff.mpr (Option.some_injective L) h2']
  | seq is =>
    cases p <;> cases q <;> simp only [Picks] at h h'
    have h1 := forall₂_pyAt.mp h
    have h2 := forall₂_pyAt.mp h'
    rw [h1] at h2
    simp only [Except.ok.injEq] at h2
    rw [h2]
  | mask bs =>
    cases p <;> cases q <;> simp only [Picks] at h h'
    rw [h.2, h'.2]
  | lar m =>
    cases p <;> cases q <;> simp only [Picks] at h h'
    rw [sublist_eq_of_mem hl h.2.2.1 h'.2.2.1 (fun n => (h.2.2.2 n).trans (h'.2.2.2 n).symm)]
  | nd => cases p <;> simp only [Picks] at h
  | other => cases p <;> simp only [Picks] at h

/-! ## All axes -/

/-- Everything known about an index that passes the checks, axis by axis. -/
theorem axes_ok [DecidableEq L] {ls : List (List L)} {its : List (Item L)} (hlen : its.length = ls.length)
    (hm : ∀ m, Item.lar m ∈ its → m.Valid) {labs : List (Option (List L))} {ss : List NpSel}
    (h1 : mapRes (fun p : (List L × Nat) × Item L => p.2.keep p.1.1 p.1.2) ((ls.zip (ls.map List.length)).zip its) = .ok labs)
    (h2 : mapRes (fun p : NpItem × Nat => p.1.resolve p.2) ((its.map Item.np).zip (ls.map List.length)) = .ok ss) :
    ∃ parts, List.Forall₂ (fun p part => Picks p.1 p.2 part) (ls.zip its) parts ∧
      List.Forall₂ SameKind its ss ∧ labs.filterMap id = Part.labels parts ∧
      keptLens ss = (Part.labels parts).map List.length ∧
      ∀ idx names, At (Part.labels parts) idx names → At ls (fill ss idx) (Part.names parts names) := by
  induction ls generalizing its labs ss with
  | nil =>
    cases its with
    | cons => simp at hlen
    | nil =>
      simp [mapRes] at h1 h2
      subst h1 h2
      refine ⟨[], by simp, .nil, rfl, rfl, fun idx names h => ?_⟩
      cases idx <;> cases names <;> simp_all [Part.labels, At, fill, Part.names]
  | cons l ls ih =>
    cases its with
    | nil => simp at hlen
    | cons it its =>
      simp only [List.map_cons, List.zip_cons_cons, mapRes] at h1 h2
      cases hk : it.keep l l.length with
      | error e => simp [hk] at h1
      | ok o =>
      cases hr : it.np.resolve l.length with
      | error e => simp [hr] at h2
      | ok sel =>
      cases hks : mapRes (fun p : (List L × Nat) × Item L => p.2.keep p.1.1 p.1.2) ((ls.zip (ls.map List.length)).zip its) with
      | error e => simp [hk, hks] at h1
      | ok labs' =>
      cases hrs : mapRes (fun p : NpItem × Nat => p.1.resolve p.2) ((its.map Item.np).zip (ls.map List.length)) with
      | error e => simp [hr, hrs] at h2
      | ok ss' =>
      simp only [hk, hks, Except.ok.injEq] at h1
      simp only [hr, hrs, Except.ok.injEq] at h2
      subst h1 h2
      obtain ⟨parts, g1, g2, g3, g4, g5⟩ := ih (by simpa using hlen) (fun m hmem => hm m (by simp [hmem])) hks hrs
      obtain ⟨part, p1, p2, p3, p4⟩ := keep_resolve (fun m he => hm m (by simp [he])) hk hr
      refine ⟨part :: parts, .cons p1 g1, .cons p4 g2, ?_, ?_, ?_⟩
      · cases part with
        | one n => subst p3; exact g3
        | many ms => subst p3; exact congrArg (ms :: ·) g3
      · cases part with
        | one n => cases sel <;> simp only [Coupled] at p2; exact g4
        | many ms =>
          cases sel <;> simp only [Coupled] at p2 <;>
          · simp only [keptLens, Part.labels, List.map_cons, g4]
            rw [(getElem?_of_map p2).1]
      · intro idx names hat
        cases part with
        | one n =>
          cases sel <;> simp only [Coupled] at p2
          exact ⟨p2, g5 idx names hat⟩
        | many ms =>
          have aux : ∀ ids : List Nat, ids.map (fun i => l[i]?) = ms.map some → ∀ i n, ms[i]? = some n →
              l[ids.getD i 0]? = some n := by
            intro ids hids i n hn
            obtain ⟨k, hk1, hk2⟩ := (getElem?_of_map hids).2 i n hn
            simp [List.getD, hk1, hk2]
          cases idx with
          | nil => simp [Part.labels, At] at hat
          | cons i idx =>
            cases names with
            | nil => simp [Part.labels, At] at hat
            | cons n names =>
              simp only [Part.labels, At] at hat
              cases sel <;> simp only [Coupled] at p2
              · exact ⟨aux _ p2 i n hat.1, g5 idx names hat.2⟩
              · exact ⟨aux _ p2 i n hat.1, g5 idx names hat.2⟩

theorem axes_of_picks [DecidableEq L] {ls : List (List L)} {its : List (Item L)} {parts : List (Part L)}
    (hm : ∀ m, Item.lar m ∈ its → m.Valid) (hlen : its.length = ls.length)
    (h : List.Forall₂ (fun p part => Picks p.1 p.2 part) (ls.zip its) parts) :
    (∃ labs, mapRes (fun p : (List L × Nat) × Item L => p.2.keep p.1.1 p.1.2) ((ls.zip (ls.map List.length)).zip its) = .ok labs) ∧
    ∃ ss, mapRes (fun p : NpItem × Nat => p.1.resolve p.2) ((its.map Item.np).zip (ls.map List.length)) = .ok ss := by
  induction ls generalizing its parts with
  | nil =>
    cases its with
    | cons => simp at hlen
    | nil => exact ⟨⟨[], rfl⟩, ⟨[], rfl⟩⟩
  | cons l ls ih =>
    cases its with
    | nil => simp at hlen
    | cons it its =>
      cases h with
      | cons h0 hs =>
      obtain ⟨⟨labs, g1⟩, ⟨ss, g2⟩⟩ := ih (fun m hmem => hm m (by simp [hmem])) (by simpa using hlen) hs
      obtain ⟨o, sel, g3, g4⟩ := keep_resolve_of_picks (it := it)
        (fun m he => hm m (by simp [he])) h0
      exact ⟨⟨o :: labs, by simp only [List.map_cons, List.zip_cons_cons, mapRes, g3, g1]⟩,
        ⟨sel :: ss, by simp only [List.map_cons, List.zip_cons_cons, mapRes, g4, g2]⟩⟩

theorem takesParts_unique {label : List (List L)} (hnd : ∀ l ∈ label, l.Nodup) {its : List (Item L)} {ps qs : List (Part L)}
    (h : TakesParts label its ps) (h' : TakesParts label its qs) : ps = qs := by
  unfold TakesParts at h h'
  generalize padTo label.length its = pits at h h'
  induction label generalizing pits ps qs with
  | nil =>
    simp only [List.zip_nil_left] at h h'
    cases h; cases h'; rfl
  | cons l ls ih =>
    cases pits with
    | nil => simp only [List.zip_nil_right] at h h'; cases h; cases h'; rfl
    | cons it pits =>
      cases h with
      | cons h0 hs => cases h' with
        | cons h0' hs' =>
          rw [Picks.unique (hnd l (by simp)) h0 h0', ih (fun l hl => hnd l (by simp [hl])) _ hs hs']

theorem padTo_length {n : Nat} {its : List (Item L)} (h : its.length ≤ n) : (padTo n its).length = n := by
  simp [padTo]; omega

theorem padTo_list {n p : Nat} {its : List (Item L)} {a : Item L} (h : (padTo n its)[p]? = some a) (ha : ¬ a.IsSlice) :
    its[p]? = some a := by
  unfold padTo at h
  by_cases hp : p < its.length
  · rwa [List.getElem?_append_left hp] at h
  · rw [List.getElem?_append_right (by omega)] at h
    have := List.mem_of_getElem? h
    rw [List.mem_replicate] at this
    exact absurd ⟨{}, this.2⟩ ha

theorem not_scrambledSel {n : Nat} {its : List (Item L)} {ss : List NpSel} (h : List.Forall₂ SameKind (padTo n its) ss)
    (hs : ¬ Scrambled its) : ¬ ScrambledSel ss := by
  obtain ⟨hlen, hk⟩ := List.forall₂_iff_get.mp h
  have get : ∀ (k : Nat) (s : NpSel), ss[k]? = some s → ∃ it, (padTo n its)[k]? = some it ∧ SameKind it s := by
    intro k s hks
    obtain ⟨h1, h2⟩ := List.getElem?_eq_some_iff.mp hks
    refine ⟨(padTo n its)[k]'(by omega), by simp, ?_⟩
    have := hk k (by omega) h1
    simpa [h2] using this
  have adv : ∀ it s, s.isAdv = true → SameKind (L := L) it s → ¬ it.IsSlice := by
    intro it s ha hks
    cases s with
    | slice => simp [NpSel.isAdv] at ha
    | int => rintro ⟨x, rfl⟩; obtain ⟨i, hi⟩ := hks; simp at hi
    | fancy => exact hks.2
  have before : ∀ (s p : Nat) (b : Item L), s < p → its[p]? = some b → ∀ a, (padTo n its)[s]? = some a → its[s]? = some a := by
    intro s p b hsp hb a ha
    have := (List.getElem?_eq_some_iff.mp hb).1
    unfold padTo at ha
    rwa [List.getElem?_append_left (by omega)] at ha
  rintro ⟨⟨s, p, js, ids, hsp, hs1, hs2⟩, a, t, b, x, js', z, hat, htb, h1, h2, h3, h4, h5⟩
  apply hs
  obtain ⟨its1, e1, k1⟩ := get _ _ hs1
  obtain ⟨its2, e2, k2⟩ := get _ _ hs2
  have e2' := padTo_list e2 k2.2
  obtain ⟨ita, e3, k3⟩ := get _ _ h1
  obtain ⟨itt, e4, k4⟩ := get _ _ h3
  obtain ⟨itb, e5, k5⟩ := get _ _ h4
  have e5' := padTo_list e5 (adv _ _ h5 k5)
  have e4' := before _ _ _ htb e5' _ e4
  exact ⟨⟨s, p, its1, its2, hsp, before _ _ _ hsp e2' _ e1, e2', k1, k2⟩,
    a, t, b, ita, itt, itb, hat, htb, before _ _ _ (by omega) e5' _ e3, e4', e5', adv _ _ h2 k3, k4, adv _ _ h5 k5⟩

/-- The number of lists, as numpy counts them. -/
theorem fancy_le_one {its : List (Item L)} {ss : List NpSel} (h : List.Forall₂ SameKind its ss) :
    (fancyLens ss).length ≤ 1 ↔ OneList its := by
  have zero : ∀ {its : List (Item L)} {ss : List NpSel}, List.Forall₂ SameKind its ss →
      ((fancyLens ss).length = 0 ↔ ∀ a ∈ its, ¬ a.IsList) := by
    intro its ss h
    induction h with
    | nil => simp [fancyLens]
    | @cons it s its ss h0 _ ih =>
      cases s with
      | int k =>
        have : ¬ it.IsList := fun hh => hh.1 h0
        simp [fancyLens, ih, this] at ih ⊢
      | slice k =>
        have : ¬ it.IsList := fun hh => hh.2 h0
        simp [fancyLens, ih, this] at ih ⊢
      | fancy k =>
        have : it.IsList := h0
        simp [fancyLens, this]
  induction h with
  | nil => simp [fancyLens, OneList]
  | @cons it s its ss h0 hs ih =>
    have notlist : ¬ it.IsList → (OneList (it :: its) ↔ OneList its) := by
      intro hn
      constructor
      · intro h p q a b ha hb h1 h2
        have := h (p + 1) (q + 1) a b (by simpa using ha) (by simpa using hb) h1 h2
        omega
      · intro h p q a b ha hb h1 h2
        cases p with
        | zero => simp at ha; subst ha; exact absurd h1 hn
        | succ p => cases q with
          | zero => simp at hb; subst hb; exact absurd h2 hn
          | succ q => rw [h p q a b (by simpa using ha) (by simpa using hb) h1 h2]
    cases s with
    | int k => rw [notlist (fun hh => hh.1 h0)]; exact ih
    | slice k => rw [notlist (fun hh => hh.2 h0)]; exact ih
    | fancy k =>
      have : it.IsList := h0
      have hz := zero hs
      simp only [fancyLens, List.length_cons]
      constructor
      · intro hle
        have h0 := hz.mp (by omega)
        intro p q a b ha hb h1 h2
        cases p with
        | zero => cases q with
          | zero => rfl
          | succ q => exact absurd h2 (h0 b (List.mem_of_getElem? (by simpa using hb)))
        | succ p => exact absurd h1 (h0 a (List.mem_of_getElem? (by simpa using ha)))
      · intro h
        have : (fancyLens ss).length = 0 := by
          rw [hz]
          intro a ha hl
          obtain ⟨q, hq⟩ := List.mem_iff_getElem?.mp ha
          have := h 0 (q + 1) it a (by simp) (by simpa using hq) this hl
          omega
        omega

theorem oneList_padTo {n : Nat} {its : List (Item L)} : OneList (padTo n its) ↔ OneList its := by
  constructor
  · intro h p q a b ha hb
    exact h p q a b (by unfold padTo; rw [List.getElem?_append_left (List.getElem?_eq_some_iff.mp ha).1]; exact ha)
      (by unfold padTo; rw [List.getElem?_append_left (List.getElem?_eq_some_iff.mp hb).1]; exact hb)
  · intro h p q a b ha hb h1 h2
    exact h p q a b (padTo_list ha h1.2) (padTo_list hb h2.2) h1 h2

/-! ## `y[i0, i1, ...]` -/

theorem sliceLens_insert_length (ss : List NpSel) (n : Nat) (k : Nat) (hk : k ≤ (sliceLens ss).length) :
    ((sliceLens ss).insertIdx k n).length + (fancyLens ss).length = (keptLens ss).length + 1 := by
  have : (sliceLens ss).length + (fancyLens ss).length = (keptLens ss).length := by
    clear hk
    induction ss with
    | nil => rfl
    | cons s ss ih => cases s <;> simp only [sliceLens, fancyLens, keptLens, List.length_cons] <;> omega
  rw [List.length_insertIdx_of_le_length hk]
  omega

theorem advPos_le (ss : List NpSel) : advPos ss ≤ (sliceLens ss).length := by
  unfold advPos
  split
  · clear * -
    induction ss with
    | nil => simp
    | cons s ss ih =>
      cases s with
      | slice js =>
        rw [List.takeWhile_cons_of_pos (by rfl)]
        simp only [List.length_cons, sliceLens]
        omega
      | int k => rw [List.takeWhile_cons_of_neg (by simp [NpSel.isAdv])]; simp
      | fancy k => rw [List.takeWhile_cons_of_neg (by simp [NpSel.isAdv])]; simp
  · omega

namespace Larry
variable [DecidableEq L]

theorem keepAll_eq {y : Larry L} (hv : y.Valid) (its : List (Item L)) :
    y.keepAll its = mapRes (fun p : (List L × Nat) × Item L => p.2.keep p.1.1 p.1.2)
      ((y.label.zip (y.label.map List.length)).zip (padTo y.label.length its)) := by
  unfold keepAll padTo
  rw [hv.label_length, shape, hv.shape_eq]

theorem npResolve_eq {y : Larry L} (hv : y.Valid) {its : List (Item L)} (hlen : its.length ≤ y.ndim) :
    npResolve y.x.shape (its.map Item.np) = mapRes (fun p : NpItem × Nat => p.1.resolve p.2)
      (((padTo y.label.length its).map Item.np).zip (y.label.map List.length)) := by
  have h1 : y.x.shape.length = y.label.length := by rw [hv.shape_eq]; simp
  unfold npResolve padTo
  rw [if_neg (by simp only [List.length_map]; rw [h1, hv.label_length]; omega)]
  rw [List.map_append, List.map_replicate, List.length_map, h1]
  rw [hv.shape_eq]
  rfl

theorem mk'_ok {x : NDArray Val} {d : DType} {label : List (List L)} {z : Larry L} :
    mk' x d label = .ok z ↔ z = ⟨x, d, label⟩ ∧ ValidLabels label x.shape := by
  unfold mk'
  by_cases h1 : x.ndim = label.length
  · by_cases h2 : x.ndim = 0
    · simp only [h1, ne_eq, not_true_eq_false, if_false]
      rw [if_pos (by omega)]
      simp only [reduceCtorEq, false_iff, not_and]
      rintro - ⟨-, -, h⟩
      apply h
      rw [← List.length_eq_zero_iff]; omega
    · simp only [h1, ne_eq, not_true_eq_false, if_false]
      rw [if_neg (by omega)]
      by_cases h3 : (label.zip x.shape).any (fun p => p.2 != p.1.length || hasDup p.1) = true
      · rw [if_pos h3]
        simp only [reduceCtorEq, false_iff, not_and]
        rintro - ⟨ha, hb, -⟩
        rw [List.any_eq_true] at h3
        obtain ⟨p, hp, hp'⟩ := h3
        obtain ⟨k, hk⟩ := List.mem_iff_getElem?.mp hp
        rw [List.getElem?_zip_eq_some] at hk
        rw [ha, List.getElem?_map, hk.1] at hk
        simp only [Option.map_some, Option.some.injEq] at hk
        have hnd := hb p.1 (List.of_mem_zip hp).1
        rw [← hasDup_false] at hnd
        simp [← hk.2, hnd] at hp'
      · rw [if_neg h3]
        simp only [Except.ok.injEq]
        constructor
        · rintro rfl
          refine ⟨rfl, ?_, ?_, ?_⟩
          · apply List.ext_getElem?
            intro k
            by_cases hk : k < label.length
            · have hk' : k < x.shape.length := by unfold NDArray.ndim at h1; omega
              have hmem : (label[k], x.shape[k]) ∈ label.zip x.shape :=
                List.mem_iff_getElem?.mpr ⟨k, by rw [List.getElem?_zip_eq_some]; simp [hk, hk']⟩
              have : ¬ ((x.shape[k] != label[k].length || hasDup label[k]) = true) :=
                fun hh => h3 (List.any_eq_true.mpr ⟨_, hmem, hh⟩)
              simp only [Bool.or_eq_true, bne_iff_ne, ne_eq, not_or, not_not] at this
              simp [hk, hk', this.1]
            · have hk' : ¬ k < x.shape.length := by unfold NDArray.ndim at h1; omega
              simp [hk, hk']
          · intro l hl
            obtain ⟨k, hk, rfl⟩ := List.getElem_of_mem hl
            have hk' : k < x.shape.length := by unfold NDArray.ndim at h1; omega
            have hmem : (label[k], x.shape[k]) ∈ label.zip x.shape :=
              List.mem_iff_getElem?.mpr ⟨k, by rw [List.getElem?_zip_eq_some]; simp [hk, hk']⟩
            have : ¬ ((x.shape[k] != label[k].length || hasDup label[k]) = true) :=
              fun hh => h3 (List.any_eq_true.mpr ⟨_, hmem, hh⟩)
            simp only [Bool.or_eq_true, bne_iff_ne, ne_eq, not_or, not_not, Bool.not_eq_true] at this
            exact hasDup_false.mp this.2
          · intro h0; rw [h0] at h1; exact h2 h1
        · rintro ⟨rfl, -⟩; rfl
  · simp only [ne_eq, h1, not_false_eq_true, if_true, reduceCtorEq, false_iff, not_and]
    rintro - ⟨h, -, -⟩
    apply h1
    unfold NDArray.ndim
    rw [h]; simp

theorem isInt_iff {it : Item L} : it.isInt = true ↔ it.IsInt := by
  cases it <;> simp [Item.isInt, Item.IsInt]

theorem labels_nil_iff {label : List (List L)} {its : List (Item L)} {parts : List (Part L)}
    (hlen : its.length = label.length)
    (h : List.Forall₂ (fun p part => Picks p.1 p.2 part) (label.zip its) parts) :
    Part.labels parts = [] ↔ ∀ it ∈ its, it.IsInt := by
  induction label generalizing its parts with
  | nil =>
    cases its with
    | nil => cases h; simp [Part.labels]
    | cons => simp at hlen
  | cons l ls ih =>
    cases its with
    | nil => simp at hlen
    | cons it its =>
      cases h with
      | @cons _ part _ parts h0 hs =>
        have := ih (by simpa using hlen) hs
        cases part with
        | one n =>
          have hi : it.IsInt := by
            cases it <;> simp only [Picks] at h0
            exact ⟨_, rfl⟩
          simp [Part.labels, this, hi]
        | many ms =>
          have hi : ¬ it.IsInt := by
            rintro ⟨i, rfl⟩
            simp [Picks] at h0
          simp [Part.labels, hi]

/-- The labels picked by slices are distinct. -/
theorem slices_nodup {ls : List (List L)} {pits : List (Item L)} {parts : List (Part L)} (hnd : ∀ l ∈ ls, l.Nodup)
    (g1 : List.Forall₂ (fun p part => Picks p.1 p.2 part) (ls.zip pits) parts) (hno : ∀ it ∈ pits, ¬ it.IsList) :
    ∀ l ∈ Part.labels parts, l.Nodup := by
  induction ls generalizing pits parts with
  | nil => simp only [List.zip_nil_left] at g1; cases g1; simp [Part.labels]
  | cons l ls ih =>
    cases pits with
    | nil => simp only [List.zip_nil_right] at g1; cases g1; simp [Part.labels]
    | cons it pits =>
      cases g1 with
      | @cons _ part _ parts h0 hs =>
        have := ih (fun l hl => hnd l (by simp [hl])) hs (fun it hit => hno it (by simp [hit]))
        cases part with
        | one n => exact this
        | many ms =>
          intro l' hl'
          simp only [Part.labels, List.mem_cons] at hl'
          rcases hl' with rfl | hl'
          · have hn := hno it (by simp)
            cases it with
            | slice s =>
              obtain ⟨ids, h1, h2⟩ := h0
              exact nodup_of_positions (hnd l (by simp)) h2 (sliceIndices_spec h1).2
            | int i => simp [Picks] at h0
            | seq i => exact absurd ⟨by rintro ⟨i, hi⟩; simp at hi, by rintro ⟨i, hi⟩; simp at hi⟩ hn
            | mask i => exact absurd ⟨by rintro ⟨i, hi⟩; simp at hi, by rintro ⟨i, hi⟩; simp at hi⟩ hn
            | lar i => exact absurd ⟨by rintro ⟨i, hi⟩; simp at hi, by rintro ⟨i, hi⟩; simp at hi⟩ hn
            | nd => simp [Picks] at h0
            | other => simp [Picks] at h0
          · exact this l' hl'

/-- The end of `y[i0, i1, ...]`, given the positions selected. -/
theorem tuple_tail {y : Larry L} (hv : y.Valid) {its : List (Item L)} (hlen : its.length ≤ y.ndim)
    {parts : List (Part L)} {labs : List (Option (List L))} {ss : List NpSel} {x : NDArray Val}
    (g1 : TakesParts y.label its parts) (g3 : labs.filterMap id = Part.labels parts)
    (g4 : keptLens ss = (Part.labels parts).map List.length)
    (g5 : ∀ idx names, At (Part.labels parts) idx names → At y.label (fill ss idx) (Part.names parts names))
    (hxs : x.shape = keptLens ss) (hxg : ∀ idx, InB (keptLens ss) idx → x.get idx = y.x.get (fill ss idx))
    {r : GetOut L}
    (h : ((if its.all Item.isInt then .ok (.ofArray x)
      else match make x y.dtype (labs.filterMap id) (its.any Item.isSeq) with
        | .error e => .error e
        | .ok z => .ok (.larry z)) : Res (GetOut L)) = .ok r) :
    (∀ l ∈ Part.labels parts, l.Nodup) ∧
      r.Shows y.dtype (Part.labels parts) (fun names v => y.Has (Part.names parts names) v) ∧
      ((∃ v, r = .scalar v) ↔ (∀ it ∈ its, it.IsInt) ∧ its.length = y.ndim) ∧
      ((∃ x, r = .array x) ↔ (∀ it ∈ its, it.IsInt) ∧ its.length < y.ndim) := by
  have hlab := hv.label_length
  have hplen : (padTo y.label.length its).length = y.label.length := padTo_length (by omega)
  have hall : its.all Item.isInt = true ↔ ∀ it ∈ its, it.IsInt := by
    rw [List.all_eq_true]
    exact forall₂_congr (fun _ _ => isInt_iff)
  have hshape : x.shape = (Part.labels parts).map List.length := by
    rw [hxs, g4]
  have hget : ∀ idx names, At (Part.labels parts) idx names →
      At y.label (fill ss idx) (Part.names parts names) ∧ x.get idx = y.x.get (fill ss idx) :=
    fun idx names hat => ⟨g5 idx names hat, hxg idx (by rw [g4]; exact At_inB hat)⟩
  have hhas : ∀ names v, Holds (Part.labels parts) x names v ↔
      Named (Part.labels parts) names ∧ y.Has (Part.names parts names) v := by
    intro names v
    constructor
    · rintro ⟨idx, hat, rfl⟩
      obtain ⟨h1, h2⟩ := hget idx names hat
      exact ⟨Named_of_At hat, _, h1, h2.symm⟩
    · rintro ⟨hN, idx', hat', rfl⟩
      obtain ⟨idx, hat⟩ := At_of_Named hN
      obtain ⟨h1, h2⟩ := hget idx names hat
      exact ⟨idx, hat, by rw [h2, At_unique hv.nodup h1 hat']⟩
  -- labels of slices are distinct anyway; those of lists were checked
  have hnil := labels_nil_iff hplen g1
  have hpad : (∀ it ∈ padTo y.label.length its, it.IsInt) ↔ (∀ it ∈ its, it.IsInt) ∧ its.length = y.ndim := by
    unfold padTo
    constructor
    · intro hh
      refine ⟨fun it hit => hh it (by simp [hit]), ?_⟩
      by_contra hne
      obtain ⟨i, hi⟩ := hh (Item.slice {}) (by simp; omega)
      simp at hi
    · rintro ⟨h1, h2⟩ it hit
      rw [h2, hlab, Nat.sub_self] at hit
      exact h1 it (by simpa using hit)
  have hslice_nodup := slices_nodup hv.nodup g1
  by_cases hai : its.all Item.isInt = true
  · rw [if_pos hai] at h
    simp only [Except.ok.injEq] at h
    have hnol : ∀ it ∈ padTo y.label.length its, ¬ it.IsList := by
      intro it hit hl
      obtain ⟨p, hp⟩ := List.mem_iff_getElem?.mp hit
      exact hl.1 (hall.mp hai it (List.mem_of_getElem? (padTo_list hp hl.2)))
    refine ⟨hslice_nodup hnol, ?_⟩
    unfold GetOut.ofArray at h
    by_cases hsh : x.shape = []
    · rw [if_pos hsh] at h
      subst h
      have hl : Part.labels parts = [] := by
        rw [hshape] at hsh; simpa using hsh
      have hfull := hpad.mp (hnil.mp hl)
      refine ⟨⟨hl, ?_⟩, ⟨fun _ => hfull, fun _ => ⟨_, rfl⟩⟩, ⟨by rintro ⟨_, h⟩; simp at h, fun h => by omega⟩⟩
      obtain ⟨h1, h2⟩ := hget [] [] (by rw [hl]; trivial)
      exact ⟨_, h1, h2.symm⟩
    · rw [if_neg hsh] at h
      subst h
      have hl : Part.labels parts ≠ [] := fun hh => hsh (by rw [hshape, hh]; rfl)
      have hne : its.length ≠ y.ndim := fun hh => hl (hnil.mpr (hpad.mpr ⟨hall.mp hai, hh⟩))
      refine ⟨⟨hshape, hhas⟩, by simp [hne], ?_⟩
      simp only [GetOut.array.injEq, exists_eq', true_iff]
      exact ⟨hall.mp hai, by omega⟩
  · rw [if_neg hai] at h
    cases hmk : make x y.dtype (labs.filterMap id) (its.any Item.isSeq) with
    | error e => rw [hmk] at h; simp at h
    | ok z =>
    simp only [hmk, Except.ok.injEq] at h
    subst h
    have hne : Part.labels parts ≠ [] := fun hh => hai (hall.mpr (hpad.mp (hnil.mp hh)).1)
    have hz : z = ⟨x, y.dtype, Part.labels parts⟩ ∧ ∀ l ∈ Part.labels parts, l.Nodup := by
      rw [g3] at hmk
      unfold make at hmk
      by_cases hseq : its.any Item.isSeq = true
      · rw [if_pos hseq] at hmk
        obtain ⟨h1, h2⟩ := mk'_ok.mp hmk
        exact ⟨h1, h2.nodup⟩
      · rw [if_neg hseq] at hmk
        simp only [Except.ok.injEq] at hmk
        refine ⟨hmk.symm, hslice_nodup ?_⟩
        intro a hit hal
        obtain ⟨p, hap⟩ := List.mem_iff_getElem?.mp hit
        have ha := padTo_list hap hal.2
        have hni : a.isSeq = false := by
          by_contra hx
          exact hseq (List.any_eq_true.mpr ⟨a, List.mem_of_getElem? ha, by simpa using hx⟩)
        have hpl : p < y.label.length := by
          have := (List.getElem?_eq_some_iff.mp hap).1; omega
        have hz : (y.label.zip (padTo y.label.length its))[p]? = some (y.label[p], a) := by
          rw [List.getElem?_zip_eq_some]; simp [hpl, hap]
        obtain ⟨hzl, hzp⟩ := List.forall₂_iff_get.mp g1
        obtain ⟨hz1, hz2⟩ := List.getElem?_eq_some_iff.mp hz
        have := hzp p hz1 (by omega)
        simp only [List.get_eq_getElem, hz2] at this
        cases a <;> simp [Item.isSeq] at hni
        · exact hal.1 ⟨_, rfl⟩
        · exact hal.2 ⟨_, rfl⟩
        · cases hp : parts[p]'(by omega) <;> simp [hp, Picks] at this
        · cases hp : parts[p]'(by omega) <;> simp [hp, Picks] at this
    obtain ⟨rfl, hnd⟩ := hz
    refine ⟨hnd, ⟨rfl, rfl, ⟨hshape, hnd, hne⟩, hhas⟩, ?_, ?_⟩
    · simp only [reduceCtorEq, exists_false, false_iff]
      rintro ⟨hh, -⟩
      exact hai (hall.mpr hh)
    · simp only [reduceCtorEq, exists_false, false_iff]
      rintro ⟨hh, -⟩
      exact hai (hall.mpr hh)

/-- Everything about `y[i0, i1, ...]`. -/
theorem getTuple_spec {y : Larry L} (hv : y.Valid) {its : List (Item L)} (hm : ∀ m, Item.lar m ∈ its → m.Valid)
    (hs : ¬ Scrambled its) {r : GetOut L} (h : y.getTuple its = .ok r) :
    ∃ parts, TakesParts y.label its parts ∧ OneList its ∧ its.length ≤ y.ndim ∧ (∀ l ∈ Part.labels parts, l.Nodup) ∧
      r.Shows y.dtype (Part.labels parts) (fun names v => y.Has (Part.names parts names) v) ∧
      ((∃ v, r = .scalar v) ↔ (∀ it ∈ its, it.IsInt) ∧ its.length = y.ndim) ∧
      ((∃ x, r = .array x) ↔ (∀ it ∈ its, it.IsInt) ∧ its.length < y.ndim) := by
  unfold getTuple at h
  cases hk : y.keepAll its with
  | error e => simp [hk] at h
  | ok labs =>
  simp only [hk] at h
  cases hx : y.x.index (its.map Item.np) with
  | error e => simp [hx] at h
  | ok x =>
  simp only [hx] at h
  unfold NDArray.index npSelect at hx
  cases hr : npResolve y.x.shape (its.map Item.np) with
  | error e => simp [hr] at hx
  | ok ss =>
  simp only [hr] at hx
  have hlen : its.length ≤ y.ndim := by
    by_contra hc
    unfold npResolve at hr
    rw [if_pos (by simp only [List.length_map]; unfold ndim NDArray.ndim at hc; omega)] at hr
    simp at hr
  have hlab := hv.label_length
  have hplen : (padTo y.label.length its).length = y.label.length := padTo_length (by omega)
  have hm' : ∀ m, Item.lar m ∈ padTo y.label.length its → m.Valid := by
    intro m hmem
    unfold padTo at hmem
    rcases List.mem_append.mp hmem with hh | hh
    · exact hm m hh
    · rw [List.mem_replicate] at hh; simp at hh
  rw [keepAll_eq hv] at hk
  rw [npResolve_eq hv hlen] at hr
  obtain ⟨parts, g1, g2, g3, g4, g5⟩ := axes_ok hplen hm' hk hr
  cases hg : npGrid ss with
  | error e => simp [hg] at hx
  | ok g =>
  simp only [hg, Except.ok.injEq] at hx
  have hall : its.all Item.isInt = true ↔ ∀ it ∈ its, it.IsInt := by
    rw [List.all_eq_true]
    exact forall₂_congr (fun _ _ => isInt_iff)
  have hone : OneList its := by
    rw [← oneList_padTo (n := y.label.length), ← fancy_le_one g2]
    by_contra hc
    have hval : its.all Item.isInt = false := by
      by_contra hh
      simp only [Bool.not_eq_false] at hh
      apply hc
      rw [fancy_le_one g2, oneList_padTo]
      intro p q a b ha _ hal _
      exact absurd (hall.mp hh a (List.mem_of_getElem? ha)) hal.1
    rw [hval] at h
    simp only [Bool.false_eq_true, if_false] at h
    have hseq : its.any Item.isSeq = true := by
      by_contra hh
      apply hc
      rw [fancy_le_one g2, oneList_padTo]
      intro p q a b ha hb hal _
      exfalso
      have hni : a.isSeq = false := by
        by_contra hx
        exact hh (List.any_eq_true.mpr ⟨a, List.mem_of_getElem? ha, by simpa using hx⟩)
      -- an entry that is neither integer, slice nor list would have raised
      have hap : (padTo y.label.length its)[p]? = some a := by
        unfold padTo; rw [List.getElem?_append_left (List.getElem?_eq_some_iff.mp ha).1]; exact ha
      have hpl : p < y.label.length := by
        have := (List.getElem?_eq_some_iff.mp hap).1; omega
      have hz : (y.label.zip (padTo y.label.length its))[p]? = some (y.label[p], a) := by
        rw [List.getElem?_zip_eq_some]; simp [hpl, hap]
      obtain ⟨hzl, hzp⟩ := List.forall₂_iff_get.mp g1
      obtain ⟨hz1, hz2⟩ := List.getElem?_eq_some_iff.mp hz
      have := hzp p hz1 (by omega)
      simp only [List.get_eq_getElem, hz2] at this
      cases a <;> simp [Item.isSeq] at hni
      · exact hal.1 ⟨_, rfl⟩
      · exact hal.2 ⟨_, rfl⟩
      · cases hp : parts[p]'(by omega) <;> simp [hp, Picks] at this
      · cases hp : parts[p]'(by omega) <;> simp [hp, Picks] at this
    simp only [make, hseq, if_true] at h
    cases hmk : mk' x y.dtype (labs.filterMap id) with
    | error e => rw [hmk] at h; simp at h
    | ok z =>
      obtain ⟨-, hvl⟩ := mk'_ok.mp hmk
      have h1 := congrArg List.length hvl.shape_eq
      rw [g3] at h1
      have h2 := congrArg List.length g4
      simp only [List.length_map] at h1 h2
      unfold npGrid at hg
      cases hf : fancyLens ss with
      | nil => rw [hf] at hc; simp at hc
      | cons n ns =>
        simp only [hf] at hg
        cases hb : bcastLens (n :: ns) with
        | error e => simp [hb] at hg
        | ok m =>
          simp only [hb, Except.ok.injEq] at hg
          have h3 := sliceLens_insert_length ss m (advPos ss) (advPos_le ss)
          rw [← hx, ← hg] at h1
          simp only [NDArray.map] at h1
          omega
  obtain ⟨g', hg1, hg2, hg3⟩ := npGrid_ok ((fancy_le_one g2).mpr (oneList_padTo.mpr hone)) (not_scrambledSel g2 hs)
  rw [hg] at hg1
  simp only [Except.ok.injEq] at hg1
  subst hg1
  refine ⟨parts, g1, hone, hlen, tuple_tail hv hlen g1 g3 g4 g5 (by rw [← hx]; exact hg2) ?_ h⟩
  intro idx hin
  rw [← hx]
  simp only [NDArray.map]
  rw [hg3 idx hin]

/-- When `y[i0, i1, ...]` succeeds. -/
theorem getTuple_of {y : Larry L} (hv : y.Valid) {its : List (Item L)} (hm : ∀ m, Item.lar m ∈ its → m.Valid)
    (hs : ¬ Scrambled its) {parts : List (Part L)} (hp : TakesParts y.label its parts) (hone : OneList its)
    (hlen : its.length ≤ y.ndim) (hnd : ∀ l ∈ Part.labels parts, l.Nodup) : ∃ r, y.getTuple its = .ok r := by
  have hlab := hv.label_length
  have hplen : (padTo y.label.length its).length = y.label.length := padTo_length (by omega)
  have hm' : ∀ m, Item.lar m ∈ padTo y.label.length its → m.Valid := by
    intro m hmem
    unfold padTo at hmem
    rcases List.mem_append.mp hmem with hh | hh
    · exact hm m hh
    · rw [List.mem_replicate] at hh; simp at hh
  obtain ⟨⟨labs, hk⟩, ss, hr⟩ := axes_of_picks hm' hplen hp
  obtain ⟨parts', g1, g2, g3, g4, g5⟩ := axes_ok hplen hm' hk hr
  have := takesParts_unique hv.nodup hp g1
  subst this
  obtain ⟨g, hg1, hg2, hg3⟩ := npGrid_ok ((fancy_le_one g2).mpr (oneList_padTo.mpr hone)) (not_scrambledSel g2 hs)
  have hx : y.x.index (its.map Item.np) = .ok (g.map y.x.get) := by
    unfold NDArray.index npSelect
    rw [npResolve_eq hv hlen, hr]
    simp only [hg1]
  unfold getTuple
  rw [keepAll_eq hv, hk]
  simp only [hx]
  by_cases hai : its.all Item.isInt = true
  · rw [if_pos hai]; exact ⟨_, rfl⟩
  · rw [if_neg hai]
    have hmk : make (g.map y.x.get) y.dtype (labs.filterMap id) (its.any Item.isSeq) =
        .ok ⟨g.map y.x.get, y.dtype, labs.filterMap id⟩ := by
      unfold make
      split
      · rw [mk'_ok]
        refine ⟨rfl, ?_, by rw [g3]; exact hnd, ?_⟩
        · rw [g3, ← g4, ← hg2]; rfl
        · rw [g3]
          intro h0
          apply hai
          rw [List.all_eq_true]
          intro it hit
          exact isInt_iff.mpr ((labels_nil_iff hplen g1).mp h0 it (by unfold padTo; simp [hit]))
      · rfl
    rw [hmk]
    exact ⟨_, rfl⟩

/-! ## A single entry -/

theorem mapRes_keep_whole (ls : List (List L)) :
    mapRes (fun p : (List L × Nat) × Item L => p.2.keep p.1.1 p.1.2)
      ((ls.zip (ls.map List.length)).zip (List.replicate ls.length (Item.slice {}))) = .ok (ls.map some) := by
  induction ls with
  | nil => rfl
  | cons l ls ih =>
    have hl : pySliceList l {} = .ok l := by
      rw [pySliceList_ok]
      refine ⟨List.range l.length, sliceIndices_all _, ?_⟩
      apply List.ext_getElem?
      intro k
      by_cases hk : k < l.length
      · simp [hk]
      · simp [hk]
    simp only [List.map_cons, List.zip_cons_cons, List.length_cons, List.replicate_succ, mapRes, ih]
    simp [Item.keep, hl]

theorem keepAll_one {y : Larry L} (hv : y.Valid) {l : List L} {ls : List (List L)} (hl : y.label = l :: ls) (it : Item L) :
    y.keepAll [it] = match it.keep l l.length with
      | .error e => .error e
      | .ok o => .ok (o :: ls.map some) := by
  rw [keepAll_eq hv, hl]
  have : padTo (l :: ls).length [it] = it :: List.replicate ls.length (Item.slice {}) := by simp [padTo]
  rw [this]
  simp only [List.map_cons, List.zip_cons_cons, mapRes, mapRes_keep_whole]
  cases it.keep l l.length <;> rfl

theorem not_scrambled_one (it : Item L) : ¬ Scrambled [it] := by
  rintro ⟨⟨s, p, a, b, h, -, h2, -⟩, -⟩
  have := (List.getElem?_eq_some_iff.mp h2).1
  simp at this; omega

theorem oneList_one (it : Item L) : OneList [it] := by
  intro p q a b ha hb _ _
  have h1 := (List.getElem?_eq_some_iff.mp ha).1
  have h2 := (List.getElem?_eq_some_iff.mp hb).1
  simp at h1 h2; omega

theorem takesParts_one {l : List L} {ls : List (List L)} {it : Item L} {part : Part L} :
    TakesParts (l :: ls) [it] (part :: ls.map Part.many) ↔ Picks l it part := by
  unfold TakesParts
  have : padTo (l :: ls).length [it] = it :: List.replicate ls.length (Item.slice {}) := by simp [padTo]
  rw [this, List.zip_cons_cons, List.forall₂_cons]
  simp only [and_iff_left_iff_imp]
  intro _
  clear * -
  induction ls with
  | nil => exact .nil
  | cons l ls ih =>
    rw [List.length_cons, List.replicate_succ, List.zip_cons_cons, List.map_cons]
    refine .cons ⟨List.range l.length, sliceIndices_all _, ?_⟩ ih
    apply List.ext_getElem?
    intro k
    by_cases hk : k < l.length
    · simp [hk]
    · simp [hk]

theorem labels_whole (ls : List (List L)) : Part.labels (ls.map Part.many) = ls := by
  induction ls with
  | nil => rfl
  | cons l ls ih => simp [Part.labels, ih]

theorem names_whole {ls : List (List L)} {names : List L} (h : Named ls names) :
    Part.names (ls.map Part.many) names = names := by
  induction ls generalizing names with
  | nil => cases names <;> simp_all [Named, Part.names]
  | cons l ls ih =>
    cases names with
    | nil => simp [Named] at h
    | cons n names => simp [Part.names, ih h.2]

/-- A slice, a boolean array or a larry alone does the same as in a tuple. -/
theorem one_eq_tuple {y : Larry L} (hv : y.Valid) {it : Item L} (hit : it.IsSlice ∨ (∃ bs, it = .mask bs) ∨ ∃ m, it = .lar m)
    (hm : ∀ m, it = .lar m → m.Valid) {r : GetOut L} : y.getitem (.one it) = .ok r ↔ y.getTuple [it] = .ok r := by
  obtain ⟨l, ls, hl⟩ := List.exists_cons_of_ne_nil hv.ndim_pos
  have hmem : ∀ m, Item.lar m ∈ [it] → m.Valid := fun m h => hm m (List.mem_singleton.mp h).symm
  have hl0 : y.label.getD 0 [] = l := by rw [hl]; rfl
  have hset : ∀ lab, y.label.set 0 lab = lab :: ls := by intro lab; rw [hl]; rfl
  have hnd : l.Nodup := hv.nodup l (by simp [hl])
  have hnds : ∀ l' ∈ ls, l'.Nodup := fun l' h' => hv.nodup l' (by simp [hl, h'])
  have h1 : [it].length ≤ y.ndim := by rw [← hv.label_length, hl]; simp
  -- lists of distinct positions give valid larrys
  have key : ∀ (lab : List L) (x : NDArray Val), it.keep l l.length = .ok (some lab) → lab.Nodup →
      y.x.index [it.np] = .ok x → mk' x y.dtype (lab :: ls) = .ok ⟨x, y.dtype, lab :: ls⟩ := by
    intro lab x hkeep hlnd hx
    have hres : ∃ sel, it.np.resolve l.length = .ok sel := by
      unfold NDArray.index npSelect at hx
      have hr := npResolve_eq hv h1 (its := [it])
      simp only [List.map_cons, List.map_nil] at hr
      rw [hr, hl] at hx
      have : padTo (l :: ls).length [it] = it :: List.replicate ls.length (Item.slice {}) := by simp [padTo]
      rw [this] at hx
      simp only [List.map_cons, List.zip_cons_cons, mapRes] at hx
      cases hh : it.np.resolve l.length with
      | error e => simp [hh] at hx
      | ok sel => exact ⟨sel, rfl⟩
    obtain ⟨sel, hsel⟩ := hres
    obtain ⟨part, p1, -, p3, -⟩ := keep_resolve hm hkeep hsel
    cases part with
    | one n => simp [Part.lab?] at p3
    | many ms =>
      simp only [Part.lab?, Option.some.injEq] at p3
      subst p3
      have hp : TakesParts y.label [it] (Part.many lab :: ls.map Part.many) := by rw [hl]; exact takesParts_one.mpr p1
      have hlabs : Part.labels (Part.many lab :: ls.map Part.many) = lab :: ls := by simp [Part.labels, labels_whole]
      obtain ⟨r', hr'⟩ := getTuple_of hv hmem (not_scrambled_one it) hp (oneList_one it) h1 (by
        rw [hlabs]
        intro l' hl'
        rcases List.mem_cons.mp hl' with rfl | h'
        · exact hlnd
        · exact hnds l' h')
      obtain ⟨parts, q1, -, -, -, q5, -, -⟩ := getTuple_spec hv hmem (not_scrambled_one it) hr'
      have := takesParts_unique hv.nodup hp q1
      subst this
      have hni : it.isInt = false := by
        rcases hit with ⟨s, rfl⟩ | ⟨s, rfl⟩ | ⟨s, rfl⟩ <;> rfl
      unfold getTuple at hr'
      rw [keepAll_one hv hl, hkeep] at hr'
      simp only [List.map_cons, List.map_nil, hx, List.all_cons, List.all_nil, hni, Bool.false_and, Bool.false_eq_true,
        if_false] at hr'
      have hfm : (some lab :: ls.map some).filterMap id = lab :: ls := by
        simp [List.filterMap_map]
      rw [hfm] at hr'
      cases hmk : make x y.dtype (lab :: ls) ([it].any Item.isSeq) with
      | error e => rw [hmk] at hr'; simp at hr'
      | ok z =>
        rw [hmk] at hr'
        simp only [Except.ok.injEq] at hr'
        subst hr'
        have hz : z = ⟨x, y.dtype, lab :: ls⟩ := by
          unfold make at hmk
          split at hmk
          · exact (mk'_ok.mp hmk).1
          · simpa using hmk.symm
        subst hz
        exact mk'_ok.mpr ⟨rfl, q5.2.2.1⟩
  have hfm : ∀ lab : List L, (some lab :: ls.map some).filterMap id = lab :: ls := by
    intro lab; simp [List.filterMap_map]
  unfold getTuple
  rw [keepAll_one hv hl]
  rcases hit with ⟨s, rfl⟩ | ⟨bs, rfl⟩ | ⟨m, rfl⟩
  · simp only [getitem, hl0, hset, Item.keep]
    cases hp : pySliceList l s with
    | error e => simp
    | ok lab =>
      simp only [List.map_cons, List.map_nil, Item.np]
      cases hx : y.x.index [.slice s] with
      | error e => simp
      | ok x => simp [make, Item.isInt, Item.isSeq]
  · simp only [getitem, hl0, hset, Item.keep]
    cases hp : maskLabels l bs with
    | error e => simp
    | ok lab =>
      simp only [List.map_cons, List.map_nil, Item.np]
      cases hx : y.x.index [.mask bs] with
      | error e => simp
      | ok x =>
        have := key lab x (by simp [Item.keep, hp]) (nodup_of_positions hnd (maskLabels_ok.mp hp).2 (nodup_trues _)) hx
        simp [make, Item.isInt, Item.isSeq, this]
  · simp only [getitem, hl0, hset, Item.keep]
    cases hb : larMask l m with
    | error e => simp
    | ok bs =>
      have hbs := (larMask_ok (hm m rfl) hb).2.2.1
      simp only
      cases hp : maskLabels l bs with
      | error e => simp
      | ok lab =>
        simp only [List.map_cons, List.map_nil, Item.np, ← hbs]
        cases hx : y.x.index [.mask bs] with
        | error e => simp
        | ok x =>
          have := key lab x (by simp [Item.keep, hb, hp])
            (nodup_of_positions hnd (maskLabels_ok.mp hp).2 (nodup_trues _)) (by simpa [Item.np, ← hbs] using hx)
          simp [make, Item.isInt, Item.isSeq, this]

/-- A list alone. -/
theorem getSeq_spec {y : Larry L} (hv : y.Valid) {l : List L} {ls : List (List L)} (hl : y.label = l :: ls) (is : List Int) :
    (∀ r, y.getSeq is = .ok r → ∃ lab z, Picks l (.seq is) (.many lab) ∧ lab.Nodup ∧ r = .larry z ∧ z.PartOf y (lab :: ls)) ∧
    ∀ lab, Picks l (.seq is) (.many lab) → lab.Nodup → ∃ r, y.getSeq is = .ok r := by
  have hl0 : y.label.getD 0 [] = l := by rw [hl]; rfl
  have hl0' : y.label[0]? = some l := by rw [hl]; rfl
  have hset : ∀ lab, y.label.set 0 lab = lab :: ls := by intro lab; rw [hl]; rfl
  have hsh : y.x.shape = l.length :: ls.map List.length := by rw [hv.shape_eq, hl]; rfl
  have htake : ∀ ids, mapRes (pyIdxE l.length) is = .ok ids → y.x.take is 0 = .ok (y.x.gather ids 0) := by
    intro ids hids
    unfold NDArray.take
    have : pyIdx y.x.ndim 0 = some 0 := by
      simp [pyIdx, NDArray.ndim, hsh]
    simp only [this, hsh, List.getD_cons_zero, hids]
  unfold getSeq
  rw [hl0]
  constructor
  · intro r h
    cases hp : pyItems l is with
    | error e => simp [hp] at h
    | ok lab =>
      obtain ⟨ids, h1, h2⟩ := pyItems_ok.mp hp
      simp only [hp] at h
      cases hd : hasDup lab with
      | true => simp [hd] at h
      | false =>
        simp only [hd, Bool.false_eq_true, if_false, htake ids h1, hset, Except.ok.injEq] at h
        refine ⟨lab, _, forall₂_pyAt.mpr hp, hasDup_false.mp hd, h.symm, ?_⟩
        have := partOf_gather hv hl0' h2 (hasDup_false.mp hd)
        rw [hset] at this
        exact this
  · intro lab h hnd
    have hp := forall₂_pyAt.mp h
    obtain ⟨ids, h1, h2⟩ := pyItems_ok.mp hp
    rw [hp]
    simp only [hasDup_false.mpr hnd, Bool.false_eq_true, if_false, htake ids h1]
    exact ⟨_, rfl⟩

/-- An integer alone. -/
theorem getInt_spec {y : Larry L} (hv : y.Valid) (i : Int) {r : GetOut L} : y.getitem (.one (.int i)) = .ok r ↔
    ∃ x, y.getTuple [.int i] = .ok (.ofArray x) ∧ x.shape = (y.label.drop 1).map List.length ∧
      r = if y.ndim ≤ 1 then .ofArray x else .larry ⟨x, y.dtype, y.label.drop 1⟩ := by
  obtain ⟨l, ls, hl⟩ := List.exists_cons_of_ne_nil hv.ndim_pos
  have hsh : y.shape = l.length :: ls.map List.length := by rw [shape, hv.shape_eq, hl]; rfl
  have hshape : ∀ x, y.x.index [.int i] = .ok x → x.shape = (y.label.drop 1).map List.length := by
    intro x hx
    unfold NDArray.index npSelect at hx
    have h1 : ([.int i] : List (Item L)).length ≤ y.ndim := by rw [← hv.label_length, hl]; simp
    have hr := npResolve_eq hv h1
    simp only [List.map_cons, List.map_nil, Item.np] at hr
    rw [hr] at hx
    have hp1 : padTo y.label.length [Item.int (L := L) i] = .int i :: List.replicate ls.length (Item.slice {}) := by
      simp [padTo, hl]
    rw [hp1, hl] at hx
    simp only [List.map_cons, List.zip_cons_cons, mapRes, Item.np] at hx
    cases hk : (NpItem.int i).resolve l.length with
    | error e => simp [hk] at hx
    | ok sel =>
      simp only [hk] at hx
      cases hm : mapRes (fun p : NpItem × Nat => p.1.resolve p.2)
          (((List.replicate ls.length (Item.slice (L := L) {})).map Item.np).zip (ls.map List.length)) with
      | error e => simp only [hm] at hx; simp at hx
      | ok ss =>
        have hw : mapRes (fun p : (List L × Nat) × Item L => p.2.keep p.1.1 p.1.2)
            ((ls.zip (ls.map List.length)).zip (List.replicate ls.length (Item.slice {}))) = .ok (ls.map some) :=
          mapRes_keep_whole ls
        obtain ⟨parts, g1, g2, g3, g4, g5⟩ := axes_ok (by simp) (by intro m hm; rw [List.mem_replicate] at hm; simp at hm) hw hm
        have hsel : ∃ k, sel = .int k := by
          simp only [NpItem.resolve] at hk
          cases hpk : pyIdx l.length i with
          | none => simp [hpk] at hk
          | some k => simp only [hpk, Except.ok.injEq] at hk; exact ⟨k, hk.symm⟩
        obtain ⟨k, rfl⟩ := hsel
        have hfan : fancyLens ss = [] := by
          clear * - g2
          generalize hr : List.replicate ls.length (Item.slice (L := L) {}) = its at g2
          have hall : ∀ it ∈ its, it.IsSlice := by
            intro it hit; rw [← hr, List.mem_replicate] at hit; exact ⟨{}, hit.2⟩
          clear hr
          induction g2 with
          | nil => rfl
          | @cons it s its ss h0 _ ih =>
            have := hall it (by simp)
            cases s with
            | int k => exact ih (fun it hit => hall it (by simp [hit]))
            | slice k => exact ih (fun it hit => hall it (by simp [hit]))
            | fancy k => exact absurd this h0.2
        simp only [hm, npGrid, fancyLens, hfan, Except.ok.injEq] at hx
        rw [← hx]
        simp only [NDArray.map, sliceLens, sliceLens_no_fancy hfan, g4, hl, List.drop_succ_cons, List.drop_zero]
        rw [← g3]
        simp [List.filterMap_map]
  unfold getTuple
  rw [keepAll_one hv hl]
  simp only [getitem, hsh, List.getD_cons_zero, Item.keep]
  by_cases h1 : i ≥ (l.length : Int)
  · simp [h1]
  · simp only [h1, if_false, List.map_cons, List.map_nil, Item.np]
    cases hx : y.x.index [.int i] with
    | error e => simp
    | ok x =>
      have hs := hshape x hx
      simp only [List.all_cons, List.all_nil, Item.isInt, Bool.and_true, if_true, Except.ok.injEq]
      constructor
      · intro h
        refine ⟨x, rfl, hs, ?_⟩
        split at h
        · rename_i h2; rw [if_pos h2]; simpa using h.symm
        · rename_i h2; rw [if_neg h2]; simpa using h.symm
      · rintro ⟨x', h2, h3, rfl⟩
        by_cases h4 : y.ndim ≤ 1
        · rw [if_pos h4, if_pos h4, h2]
        · rw [if_neg h4, if_neg h4]
          have hne : x.shape ≠ [] := by
            rw [hs, hl]
            rw [← hv.label_length, hl] at h4
            cases ls with
            | nil => simp at h4
            | cons => simp
          have hne' : x'.shape ≠ [] := by rw [h3, ← hs]; exact hne
          unfold GetOut.ofArray at h2
          rw [if_neg hne, if_neg hne'] at h2
          simp only [GetOut.array.injEq] at h2
          rw [h2]

end Larry
/-! ## C33 -/

section
variable [DecidableEq L]

/-- C33. Whatever `y[index]` returns holds `y`'s values under `y`'s labels: the axes indexed by an integer
are gone, the others keep the labels picked, and every cell has the value `y` has under the same
labels (with the labels of the integers put back).  The one exception is an index where a list comes
after a slice and a slice stands between entries that are no slices (`Scrambled`). -/
theorem C33_getitem {y : Larry L} (hv : y.Valid) {idx : Index L} (hm : ∀ m, Item.lar m ∈ idx.items → m.Valid)
    (hs : ¬ Scrambled idx.items) {r : GetOut L} (h : y.getitem idx = .ok r) :
    ∃ parts, TakesParts y.label idx.items parts ∧
      r.Shows y.dtype (Part.labels parts) (fun names v => y.Has (Part.names parts names) v) := by
  obtain ⟨l, ls, hl⟩ := List.exists_cons_of_ne_nil hv.ndim_pos
  cases idx with
  | tuple its =>
    obtain ⟨parts, h1, -, -, -, h2, -, -⟩ := Larry.getTuple_spec hv hm hs h
    exact ⟨parts, h1, h2⟩
  | one it =>
    have hm' : ∀ m, it = .lar m → m.Valid := fun m he => hm m (by simp [Index.items, he])
    have viaTuple : it.IsSlice ∨ (∃ bs, it = .mask bs) ∨ (∃ m, it = .lar m) →
        ∃ parts, TakesParts y.label (Index.one it).items parts ∧
          r.Shows y.dtype (Part.labels parts) (fun names v => y.Has (Part.names parts names) v) := by
      intro hit
      obtain ⟨parts, h1, -, -, -, h2, -, -⟩ := Larry.getTuple_spec hv hm hs ((Larry.one_eq_tuple hv hit hm').mp h)
      exact ⟨parts, h1, h2⟩
    cases it with
    | slice s => exact viaTuple (Or.inl ⟨s, rfl⟩)
    | mask bs => exact viaTuple (Or.inr (Or.inl ⟨bs, rfl⟩))
    | lar m => exact viaTuple (Or.inr (Or.inr ⟨m, rfl⟩))
    | int i =>
      obtain ⟨x, h1, h2, rfl⟩ := (Larry.getInt_spec hv i).mp h
      obtain ⟨parts, g1, -, -, -, g5, g6, g7⟩ := Larry.getTuple_spec hv hm hs h1
      refine ⟨parts, g1, ?_⟩
      by_cases hn : y.ndim ≤ 1
      · rw [if_pos hn]; exact g5
      · rw [if_neg hn]
        have hne : x.shape ≠ [] := by
          rw [h2, hl]
          rw [← hv.label_length, hl] at hn
          cases ls with
          | nil => simp at hn
          | cons => simp
        unfold GetOut.ofArray at g5
        rw [if_neg hne] at g5
        have hlabs : Part.labels parts = y.label.drop 1 := by
          have : ∃ n, Picks l (.int i) (.one n) ∧ parts = .one n :: ls.map Part.many := by
            have g1' := g1
            rw [hl] at g1'
            simp only [Index.items, TakesParts] at g1'
            have hpad : padTo (l :: ls).length [Item.int (L := L) i] = .int i :: List.replicate ls.length (Item.slice {}) := by
              simp [padTo]
            rw [hpad, List.zip_cons_cons] at g1'
            cases g1' with
            | @cons _ part _ parts h0 hs =>
              cases part with
              | many ms => simp [Picks] at h0
              | one n =>
                refine ⟨n, h0, ?_⟩
                have := takesParts_unique hv.nodup g1 (by rw [hl]; exact Larry.takesParts_one.mpr h0)
                exact this
          obtain ⟨n, -, rfl⟩ := this
          rw [hl]
          exact Larry.labels_whole ls
        refine ⟨hlabs.symm, rfl, ⟨h2, ?_, ?_⟩, ?_⟩
        · intro l' hl'
          exact hv.nodup l' (List.mem_of_mem_drop hl')
        · change y.label.drop 1 ≠ []
          intro h0
          rw [h0] at h2
          exact hne h2
        · intro names v
          rw [← g5.2, hlabs]
          rfl
    | seq is =>
      obtain ⟨lab, z, h1, h2, rfl, h4⟩ := (Larry.getSeq_spec hv hl is).1 r h
      refine ⟨.many lab :: ls.map Part.many, ?_, ?_⟩
      · rw [hl]; exact Larry.takesParts_one.mpr h1
      · have hlabs : Part.labels (Part.many lab :: ls.map Part.many) = lab :: ls := by
          simp [Part.labels, Larry.labels_whole]
        rw [hlabs]
        refine ⟨h4.label_eq, h4.dtype_eq, h4.valid, fun names v => ?_⟩
        rw [h4.has]
        refine and_congr_right (fun hN => ?_)
        have : Part.names ((lab :: ls).map Part.many) names = names := Larry.names_whole hN
        simp only [List.map_cons] at this
        simp only [this]
    | nd => simp [Larry.getitem] at h
    | other => simp [Larry.getitem] at h

/-- C33. `y[index]` succeeds exactly when there are no more entries than axes, at most one of them is a
list (or array or larry), each entry finds what it asks for on its axis, and no label is picked
twice. -/
theorem C33_succeeds {y : Larry L} (hv : y.Valid) {idx : Index L} (hm : ∀ m, Item.lar m ∈ idx.items → m.Valid)
    (hs : ¬ Scrambled idx.items) : (∃ r, y.getitem idx = .ok r) ↔
    idx.items.length ≤ y.ndim ∧ OneList idx.items ∧
      ∃ parts, TakesParts y.label idx.items parts ∧ ∀ l ∈ Part.labels parts, l.Nodup := by
  obtain ⟨l, ls, hl⟩ := List.exists_cons_of_ne_nil hv.ndim_pos
  have tup : ∀ its, (∀ m, Item.lar m ∈ its → m.Valid) → ¬ Scrambled its → ((∃ r, y.getTuple its = .ok r) ↔
      its.length ≤ y.ndim ∧ OneList its ∧ ∃ parts, TakesParts y.label its parts ∧ ∀ l ∈ Part.labels parts, l.Nodup) := by
    intro its hm hs
    constructor
    · rintro ⟨r, h⟩
      obtain ⟨parts, h1, h2, h3, h4, -⟩ := Larry.getTuple_spec hv hm hs h
      exact ⟨h3, h2, parts, h1, h4⟩
    · rintro ⟨h1, h2, parts, h3, h4⟩
      exact Larry.getTuple_of hv hm hs h3 h2 h1 h4
  cases idx with
  | tuple its => exact tup its hm hs
  | one it =>
    have hm' : ∀ m, it = .lar m → m.Valid := fun m he => hm m (by simp [Index.items, he])
    refine Iff.trans ?_ (tup [it] hm hs)
    cases it with
    | slice s => exact exists_congr (fun r => Larry.one_eq_tuple hv (Or.inl ⟨s, rfl⟩) hm')
    | mask bs => exact exists_congr (fun r => Larry.one_eq_tuple hv (Or.inr (Or.inl ⟨bs, rfl⟩)) hm')
    | lar m => exact exists_congr (fun r => Larry.one_eq_tuple hv (Or.inr (Or.inr ⟨m, rfl⟩)) hm')
    | int i =>
      constructor
      · rintro ⟨r, h⟩
        obtain ⟨x, h1, -, -⟩ := (Larry.getInt_spec hv i).mp h
        exact ⟨_, h1⟩
      · rintro ⟨r, h⟩
        -- the same checks
        unfold Larry.getTuple at h
        rw [Larry.keepAll_one hv hl] at h
        have hsh : y.shape = l.length :: ls.map List.length := by rw [Larry.shape, hv.shape_eq, hl]; rfl
        simp only [Larry.getitem, hsh, List.getD_cons_zero]
        simp only [Item.keep] at h
        by_cases h1 : i ≥ (l.length : Int)
        · simp [h1] at h
        · simp only [h1, if_false, List.map_cons, List.map_nil, Item.np] at h ⊢
          cases hx : y.x.index [.int i] with
          | error e => simp [hx] at h
          | ok x =>
            simp only
            split
            · exact ⟨_, rfl⟩
            · exact ⟨_, rfl⟩
    | seq is =>
      rw [tup [.seq is] hm hs]
      have hseq := Larry.getSeq_spec hv hl is
      change (∃ r, y.getSeq is = .ok r) ↔ _
      constructor
      · rintro ⟨r, h⟩
        obtain ⟨lab, z, h1, h2, -, -⟩ := hseq.1 r h
        refine ⟨by rw [← hv.label_length, hl]; simp, Larry.oneList_one _, .many lab :: ls.map Part.many, ?_, ?_⟩
        · rw [hl]; exact Larry.takesParts_one.mpr h1
        · intro l' hl'
          simp only [Part.labels, Larry.labels_whole, List.mem_cons] at hl'
          rcases hl' with rfl | hl'
          · exact h2
          · exact hv.nodup l' (by simp [hl, hl'])
      · rintro ⟨-, -, parts, h3, h4⟩
        have h3' := h3
        rw [hl] at h3'
        simp only [TakesParts] at h3'
        have hpad : padTo (l :: ls).length [Item.seq (L := L) is] = .seq is :: List.replicate ls.length (Item.slice {}) := by
          simp [padTo]
        rw [hpad, List.zip_cons_cons] at h3'
        cases h3' with
        | @cons _ part _ parts h0 hs =>
          cases part with
          | one n => simp [Picks] at h0
          | many lab => exact hseq.2 lab h0 (h4 lab (by simp [Part.labels]))
    | nd =>
      constructor
      · rintro ⟨r, h⟩; simp [Larry.getitem] at h
      · rintro ⟨r, h⟩
        unfold Larry.getTuple at h
        rw [Larry.keepAll_one hv hl] at h
        simp [Item.keep] at h
    | other =>
      constructor
      · rintro ⟨r, h⟩; simp [Larry.getitem] at h
      · rintro ⟨r, h⟩
        unfold Larry.getTuple at h
        rw [Larry.keepAll_one hv hl] at h
        simp [Item.keep] at h

/-- C33. What kind of thing comes back: an element when there is an integer for every axis; a bare
array without labels when a tuple has integers only and fewer than axes; else a larry. -/
theorem C33_kind {y : Larry L} (hv : y.Valid) {idx : Index L} (hm : ∀ m, Item.lar m ∈ idx.items → m.Valid)
    (hs : ¬ Scrambled idx.items) {r : GetOut L} (h : y.getitem idx = .ok r) :
    ((∃ v, r = .scalar v) ↔ (∀ it ∈ idx.items, it.IsInt) ∧ idx.items.length = y.ndim) ∧
    ((∃ x, r = .array x) ↔ ∃ its, idx = .tuple its ∧ (∀ it ∈ its, it.IsInt) ∧ its.length < y.ndim) := by
  obtain ⟨l, ls, hl⟩ := List.exists_cons_of_ne_nil hv.ndim_pos
  have hn := hv.label_length
  cases idx with
  | tuple its =>
    obtain ⟨parts, -, -, -, -, -, h1, h2⟩ := Larry.getTuple_spec hv hm hs h
    refine ⟨h1, h2.trans ⟨fun hh => ⟨its, rfl, hh⟩, ?_⟩⟩
    rintro ⟨its', he, hh⟩
    cases he
    exact hh
  | one it =>
    have hm' : ∀ m, it = .lar m → m.Valid := fun m he => hm m (by simp [Index.items, he])
    have viaTuple : it.IsSlice ∨ (∃ bs, it = .mask bs) ∨ (∃ m, it = .lar m) → ∃ z, r = .larry z := by
      intro hit
      obtain ⟨parts, -, -, -, -, -, h1, h2⟩ := Larry.getTuple_spec hv hm hs ((Larry.one_eq_tuple hv hit hm').mp h)
      have hni : ¬ it.IsInt := by
        rintro ⟨i, rfl⟩
        rcases hit with ⟨s, hs⟩ | ⟨s, hs⟩ | ⟨s, hs⟩ <;> simp at hs
      cases r with
      | scalar v => exact absurd ((h1.mp ⟨v, rfl⟩).1 it (by simp [Index.items])) hni
      | array v => exact absurd ((h2.mp ⟨v, rfl⟩).1 it (by simp [Index.items])) hni
      | larry z => exact ⟨z, rfl⟩
    have larryCase : ∀ z, r = .larry z → ¬ ((∀ it' ∈ [it], it'.IsInt) ∧ [it].length = y.ndim) →
        ((∃ v, r = .scalar v) ↔ (∀ it' ∈ [it], it'.IsInt) ∧ [it].length = y.ndim) ∧
        ((∃ x, r = .array x) ↔ ∃ its, Index.one it = .tuple its ∧ (∀ it ∈ its, it.IsInt) ∧ its.length < y.ndim) := by
      rintro z rfl hz
      exact ⟨⟨by rintro ⟨v, hv⟩; simp at hv, fun hh => absurd hh hz⟩,
        ⟨by rintro ⟨v, hv⟩; simp at hv, by rintro ⟨its, he, -⟩; simp at he⟩⟩
    have notInt : ¬ it.IsInt → ¬ ((∀ it' ∈ [it], it'.IsInt) ∧ [it].length = y.ndim) :=
      fun hni hh => hni (hh.1 it (by simp))
    cases it with
    | slice s =>
      obtain ⟨z, hz⟩ := viaTuple (Or.inl ⟨s, rfl⟩)
      exact larryCase z hz (notInt (by rintro ⟨i, hi⟩; simp at hi))
    | mask s =>
      obtain ⟨z, hz⟩ := viaTuple (Or.inr (Or.inl ⟨s, rfl⟩))
      exact larryCase z hz (notInt (by rintro ⟨i, hi⟩; simp at hi))
    | lar s =>
      obtain ⟨z, hz⟩ := viaTuple (Or.inr (Or.inr ⟨s, rfl⟩))
      exact larryCase z hz (notInt (by rintro ⟨i, hi⟩; simp at hi))
    | seq is =>
      obtain ⟨lab, z, -, -, hz, -⟩ := (Larry.getSeq_spec hv hl is).1 r h
      exact larryCase z hz (notInt (by rintro ⟨i, hi⟩; simp at hi))
    | int i =>
      obtain ⟨x, h1, h2, hr⟩ := (Larry.getInt_spec hv i).mp h
      by_cases h3 : y.ndim ≤ 1
      · rw [if_pos h3] at hr
        have h4 : y.ndim = 1 := by rw [hl, List.length_cons] at hn; omega
        have h5 : ls = [] := by rw [hl, List.length_cons] at hn; exact List.length_eq_zero_iff.mp (by omega)
        rw [hl, h5] at h2
        simp only [List.drop_succ_cons, List.drop_nil, List.map_nil] at h2
        rw [GetOut.ofArray, if_pos h2] at hr
        subst hr
        refine ⟨⟨fun _ => ⟨by simp [Index.items, Item.IsInt], h4.symm⟩, fun _ => ⟨_, rfl⟩⟩,
          ⟨by rintro ⟨v, hv⟩; simp at hv, by rintro ⟨its, he, -⟩; simp at he⟩⟩
      · rw [if_neg h3] at hr
        refine larryCase _ hr ?_
        rintro ⟨-, hh⟩
        simp at hh; omega
    | nd => simp [Larry.getitem] at h
    | other => simp [Larry.getitem] at h

theorem keep_error {l : List L} {it : Item L} {n : Nat} {e : PyErr} (h : it.keep l n = .error e) :
    e = .indexError ∨ e = .valueError := by
  have hsl : ∀ n s e, sliceIndices n s = .error e → e = .valueError := by
    intro n s e h
    unfold sliceIndices at h
    split at h <;> simp at h
    exact h.symm
  cases it with
  | int i => simp only [Item.keep] at h; split at h <;> simp at h; exact Or.inl h.symm
  | slice s =>
    simp only [Item.keep, pySliceList] at h
    cases hs : sliceIndices l.length s with
    | error e' => simp [hs] at h; subst h; exact Or.inr (hsl _ _ _ hs)
    | ok => simp [hs] at h
  | seq is => simp only [Item.keep] at h; split at h <;> simp at h; exact Or.inl h.symm
  | mask bs => simp only [Item.keep] at h; split at h <;> simp at h; exact Or.inl h.symm
  | lar m =>
    simp only [Item.keep] at h
    cases hb : larMask l m with
    | error e' =>
      simp [hb] at h; subst h
      unfold larMask at hb
      split at hb
      · exact Or.inl (by simpa using hb.symm)
      · split at hb
        · exact Or.inl (by simpa using hb.symm)
        · split at hb
          · exact Or.inl (by simpa using hb.symm)
          · simp at hb
    | ok bs => simp only [hb] at h; split at h <;> simp at h; exact Or.inl h.symm
  | nd => simp [Item.keep] at h; exact Or.inl h.symm
  | other => simp [Item.keep] at h; exact Or.inl h.symm

/-- An index error or a value error. -/
def IdxErr (e : PyErr) : Prop := e = .indexError ∨ e = .valueError

theorem resolve_error {n : Nat} {it : NpItem} {e : PyErr} (h : it.resolve n = .error e) : IdxErr e := by
  cases it with
  | int i => simp only [NpItem.resolve] at h; split at h <;> simp at h; exact Or.inl h.symm
  | slice s =>
    simp only [NpItem.resolve] at h
    cases hs : sliceIndices n s with
    | error e' =>
      simp [hs] at h; subst h
      unfold sliceIndices at hs
      split at hs <;> simp at hs
      exact Or.inr hs.symm
    | ok => simp [hs] at h
  | seq is =>
    simp only [NpItem.resolve] at h
    cases hs : mapRes (pyIdxE n) is with
    | error e' =>
      simp [hs] at h; subst h
      obtain ⟨a, -, ha⟩ := mapRes_error hs
      unfold pyIdxE at ha
      split at ha <;> simp at ha
      exact Or.inl ha.symm
    | ok => simp [hs] at h
  | mask bs => simp only [NpItem.resolve] at h; split at h <;> simp at h; exact Or.inl h.symm

theorem bcastLens_error {ns : List Nat} {e : PyErr} (h : bcastLens ns = .error e) : e = .valueError := by
  induction ns generalizing e with
  | nil => simp [bcastLens] at h
  | cons n ns ih =>
    simp only [bcastLens] at h
    cases hb : bcastLens ns with
    | error e' => simp [hb] at h; subst h; exact ih hb
    | ok m =>
      simp only [hb, bdim] at h
      split at h
      · simp at h
      · split at h
        · simp at h
        · split at h <;> simp at h
          exact h.symm

theorem index_error {x : NDArray Val} {its : List NpItem} {e : PyErr} (h : x.index its = .error e) : IdxErr e := by
  unfold NDArray.index npSelect at h
  cases hr : npResolve x.shape its with
  | error e' =>
    simp [hr] at h; subst h
    unfold npResolve at hr
    split at hr
    · exact Or.inl (by simpa using hr.symm)
    · obtain ⟨a, -, ha⟩ := mapRes_error hr
      exact resolve_error ha
  | ok ss =>
    simp only [hr] at h
    cases hg : npGrid ss with
    | ok g => simp [hg] at h
    | error e' =>
      simp [hg] at h; subst h
      unfold npGrid at hg
      split at hg
      · simp at hg
      · split at hg
        · rename_i hb
          simp at hg; subst hg
          exact Or.inr (bcastLens_error hb)
        · simp at hg

theorem mk'_error {x : NDArray Val} {d : DType} {label : List (List L)} {e : PyErr}
    (h : Larry.mk' x d label = .error e) : e = .valueError := by
  unfold Larry.mk' at h
  split at h
  · simpa using h.symm
  · split at h
    · simpa using h.symm
    · split at h
      · simpa using h.symm
      · simp at h

/-- C33. When `y[index]` raises it is an IndexError or a ValueError, whatever the index. -/
theorem C33_errors {y : Larry L} {idx : Index L} {e : PyErr} (h : y.getitem idx = .error e) :
    e = .indexError ∨ e = .valueError := by
  have hlar : ∀ {l : List L} {m e}, larMask l m = .error e → IdxErr e := by
    intro l m e hb
    unfold larMask at hb
    split at hb
    · exact Or.inl (by simpa using hb.symm)
    · split at hb
      · exact Or.inl (by simpa using hb.symm)
      · split at hb
        · exact Or.inl (by simpa using hb.symm)
        · simp at hb
  cases idx with
  | tuple its =>
    simp only [Larry.getitem, Larry.getTuple] at h
    cases hk : y.keepAll its with
    | error e' =>
      simp [hk] at h; subst h
      obtain ⟨a, -, ha⟩ := mapRes_error hk
      exact keep_error ha
    | ok labs =>
      simp only [hk] at h
      cases hx : y.x.index (its.map Item.np) with
      | error e' => simp only [hx] at h; cases h; exact index_error hx
      | ok x =>
        simp only [hx] at h
        split at h
        · simp at h
        · cases hmk : Larry.make x y.dtype (labs.filterMap id) (its.any Item.isSeq) with
          | ok z => rw [hmk] at h; simp at h
          | error e' =>
            rw [hmk] at h
            cases h
            unfold Larry.make at hmk
            split at hmk
            · exact Or.inr (mk'_error hmk)
            · simp at hmk
  | one it =>
    cases it with
    | int i =>
      simp only [Larry.getitem] at h
      split at h
      · exact Or.inl (by simpa using h.symm)
      · split at h
        · rename_i hx; cases h; exact index_error hx
        · split at h <;> simp at h
    | slice s =>
      simp only [Larry.getitem] at h
      split at h
      · rename_i e' hx
        cases h
        exact keep_error (it := .slice s) (l := y.label.getD 0 []) (n := 0) (by simp only [Item.keep, hx])
      · split at h
        · rename_i hx; cases h; exact index_error hx
        · simp at h
    | seq is =>
      simp only [Larry.getitem, Larry.getSeq] at h
      split at h
      · exact Or.inl (by simpa using h.symm)
      · split at h
        · exact Or.inl (by simpa using h.symm)
        · split at h
          · rename_i e' hx
            cases h
            unfold NDArray.take at hx
            split at hx
            · exact Or.inr (by simpa using hx.symm)
            split at hx
            · rename_i e'' hx'
              cases hx
              obtain ⟨a, -, ha⟩ := mapRes_error hx'
              unfold pyIdxE at ha
              split at ha <;> simp at ha
              exact Or.inl ha.symm
            · simp at hx
          · simp at h
    | mask bs =>
      simp only [Larry.getitem] at h
      split at h
      · exact Or.inl (by simpa using h.symm)
      · split at h
        · rename_i hx; cases h; exact index_error hx
        · simp at h
    | lar m =>
      simp only [Larry.getitem] at h
      split at h
      · rename_i hx; cases h; exact hlar hx
      · split at h
        · exact Or.inl (by simpa using h.symm)
        · split at h
          · rename_i hx; cases h; exact index_error hx
          · split at h
            · rename_i hx; cases h; exact Or.inr (mk'_error hx)
            · simp at h
    | nd => exact Or.inl (by simpa [Larry.getitem] using h.symm)
    | other => exact Or.inl (by simpa [Larry.getitem] using h.symm)

end

/-! ### The scrambled case -/

/-- 2x2x2 int larry with the elements 0 ... 7. -/
def exCube : Larry Nat :=
  ⟨NDArray.ofList [2, 2, 2] [.int 0, .int 1, .int 2, .int 3, .int 4, .int 5, .int 6, .int 7], .int,
    [[1, 2], [3, 4], [5, 6]]⟩

theorem exCube_valid : exCube.Valid := ⟨rfl, by decide, by decide⟩

/-- C33 is false for scrambled indices: `y[0, :, [0, 1]]` returns a larry that has under the labels
(3, 6) the value `y` has under (1, 4, 5), not the one under (1, 3, 6). -/
theorem C33_scrambled : ∃ z, exCube.getitem (.tuple [.int 0, .slice {}, .seq [0, 1]]) = .ok (.larry z) ∧
    z.Valid ∧ z.Has [3, 6] (.int 2) ∧ exCube.Has [1, 3, 6] (.int 1) := by
  refine ⟨⟨⟨[2, 2], _⟩, .int, [[3, 4], [5, 6]]⟩, rfl, ⟨rfl, by decide, by decide⟩, ?_, ?_⟩
  · exact ⟨[0, 1], by simp [At], by decide⟩
  · exact ⟨[0, 0, 1], by simp [exCube, At], by decide⟩

/-- The hypotheses are met: an integer, a slice with step and a list. -/
example : ¬ Scrambled (L := Nat) [.slice ⟨none, none, some (-1)⟩, .seq [1, 0], .int (-1)] ∧
    ∃ r, exCube.getitem (.tuple [.slice ⟨none, none, some (-1)⟩, .seq [1, 0], .int (-1)]) = .ok r := by
  refine ⟨?_, _, rfl⟩
  rintro ⟨-, p, t, q, a, b, c, h1, h2, h3, h4, h5, h6, h7, h8⟩
  have hq := (List.getElem?_eq_some_iff.mp h5).1
  simp at hq
  have : t = 1 := by omega
  subst this
  simp at h4
  subst h4
  obtain ⟨s, hs⟩ := h7
  simp at hs

/-- A 1d boolean larry with the labels of axis 0. -/
example : ∃ z, exCube.getitem (.one (.lar ⟨NDArray.ofList [2] [.bool false, .bool true], .bool, [[1, 2]]⟩)) = .ok (.larry z) ∧
    z.label = [[2], [3, 4], [5, 6]] := ⟨_, rfl, rfl⟩

end La
