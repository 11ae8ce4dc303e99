import Verif.SetitemFacts

/-! # C37: item assignment -/

namespace La
variable {L : Type _}

/-! ## Specification -/

/-- The label is among those the part takes. -/
def Part.Takes : Part L → L → Prop
  | .one m, n => n = m
  | .many ls, n => n ∈ ls

/-- The cell is in the block the parts describe. -/
def InParts (parts : List (Part L)) (names : List L) : Prop := List.Forall₂ Part.Takes parts names

/-! ## Facts -/

theorem inParts_iff {parts : List (Part L)} {names : List L} :
    InParts parts names ↔ ∃ ns, Named (Part.labels parts) ns ∧ names = Part.names parts ns := by
  induction parts generalizing names with
  | nil =>
    constructor
    · intro h; cases h; exact ⟨[], trivial, rfl⟩
    · rintro ⟨ns, h, he⟩
      cases ns with
      | nil => rw [he]; exact .nil
      | cons => simp [Part.labels, Named] at h
  | cons part parts ih =>
    cases part with
    | one m =>
      constructor
      · intro h
        cases h with
        | cons h1 h2 =>
          obtain ⟨ns, h3, rfl⟩ := ih.mp h2
          exact ⟨ns, h3, by simp only [Part.names]; rw [show _ = m from h1]⟩
      · rintro ⟨ns, h, rfl⟩
        exact .cons rfl (ih.mpr ⟨ns, h, rfl⟩)
    | many ls =>
      constructor
      · intro h
        cases h with
        | @cons _ n _ _ h1 h2 =>
          obtain ⟨ns, h3, rfl⟩ := ih.mp h2
          exact ⟨n :: ns, ⟨h1, h3⟩, rfl⟩
      · rintro ⟨ns, h, rfl⟩
        cases ns with
        | nil => simp [Part.labels, Named] at h
        | cons n ns => exact .cons h.1 (ih.mpr ⟨ns, h.2, rfl⟩)

theorem names_inj {parts : List (Part L)} {ns ns' : List L} (h : Named (Part.labels parts) ns)
    (h' : Named (Part.labels parts) ns') (he : Part.names parts ns = Part.names parts ns') : ns = ns' := by
  induction parts generalizing ns ns' with
  | nil => exact he
  | cons part parts ih =>
    cases part with
    | one m => exact ih h h' (by simpa [Part.names] using he)
    | many ls =>
      cases ns with
      | nil => simp [Part.labels, Named] at h
      | cons n ns =>
        cases ns' with
        | nil => simp [Part.labels, Named] at h'
        | cons n' ns' =>
          simp only [Part.names, List.cons.injEq] at he
          rw [he.1, ih h.2 h'.2 he.2]

theorem toItem_np (it : NpItem) : (it.toItem : Item L).np = it := by cases it <;> rfl

theorem map_toItem_np (its : List NpItem) : (its.map (NpItem.toItem (L := L))).map Item.np = its := by
  induction its with
  | nil => rfl
  | cons it its ih => simp only [List.map_cons, ih, toItem_np]

theorem toItem_ne_lar (it : NpItem) (m : Larry L) : it.toItem ≠ .lar m := by cases it <;> simp [NpItem.toItem]

theorem picks_of_resolve [DecidableEq L] {l : List L} {it : NpItem} {sel : NpSel} (h : it.resolve l.length = .ok sel) :
    ∃ part, Picks l it.toItem part ∧ Coupled l sel part ∧ SameKind (it.toItem : Item L) sel := by
  have key : ∃ o, (it.toItem : Item L).keep l l.length = .ok o := by
    cases it with
    | int i =>
      simp only [NpItem.resolve] at h
      cases hk : pyIdx l.length i with
      | none => simp [hk] at h
      | some k =>
        have := pyIdx_some.mp hk
        exact ⟨none, by simp only [NpItem.toItem, Item.keep]; rw [if_neg (by omega)]⟩
    | slice s =>
      simp only [NpItem.resolve] at h
      cases hk : sliceIndices l.length s with
      | error e => simp [hk] at h
      | ok ids =>
        obtain ⟨h1, -⟩ := sliceIndices_spec hk
        have := pySliceList_ok.mpr ⟨ids, hk, filterMap_getElem? h1⟩
        exact ⟨_, by simp only [NpItem.toItem, Item.keep, this]; rfl⟩
    | seq is =>
      simp only [NpItem.resolve] at h
      cases hk : mapRes (pyIdxE l.length) is with
      | error e => simp [hk] at h
      | ok ids =>
        have h1 : ∀ i ∈ ids, i < l.length := by
          intro i hi
          obtain ⟨k, hki, rfl⟩ := List.getElem_of_mem hi
          obtain ⟨hl2, hp⟩ := List.forall₂_iff_get.mp (mapRes_ok.mp hk)
          exact pyIdx_lt (pyIdxE_ok.mp (hp k (by omega) hki))
        have := pyItems_ok.mpr ⟨ids, hk, filterMap_getElem? h1⟩
        exact ⟨_, by simp only [NpItem.toItem, Item.keep, this]; rfl⟩
    | mask bs =>
      simp only [NpItem.resolve] at h
      split at h
      · simp at h
      · rename_i hk
        have hk' : ∀ k ∈ trues bs, k < l.length := by
          intro k hk2
          by_contra hc
          exact hk (List.any_eq_true.mpr ⟨k, hk2, by simpa using hc⟩)
        have := maskLabels_ok.mpr ⟨hk', trues_labels hk'⟩
        exact ⟨_, by simp only [NpItem.toItem, Item.keep, this]; rfl⟩
  obtain ⟨o, ho⟩ := key
  obtain ⟨part, h1, h2, -, h3⟩ := keep_resolve (fun m hm => absurd hm (toItem_ne_lar it m)) ho (by rw [toItem_np]; exact h)
  exact ⟨part, h1, h2, h3⟩

theorem coupled_takes {l : List L} (hl : l.Nodup) {sel : NpSel} {part : Part L} (h : Coupled l sel part) {i : Nat} {n : L}
    (hi : l[i]? = some n) : sel.Takes i ↔ part.Takes n := by
  have hmany : ∀ (ids : List Nat) (ls : List L), ids.map (fun i => l[i]?) = ls.map some → (i ∈ ids ↔ n ∈ ls) := by
    intro ids ls he
    constructor
    · intro h1
      have : some n ∈ ls.map some := by rw [← he]; exact List.mem_map.mpr ⟨i, h1, hi⟩
      simpa using this
    · intro h1
      have : some n ∈ ids.map (fun i => l[i]?) := by rw [he]; exact List.mem_map.mpr ⟨n, h1, rfl⟩
      obtain ⟨j, hj, he⟩ := List.mem_map.mp this
      rw [nodup_getElem?_inj hl hi he]; exact hj
  cases sel with
  | int k =>
    cases part with
    | many ls => simp [Coupled] at h
    | one m =>
      simp only [Coupled] at h
      constructor
      · intro h1
        have h1 : i = k := h1
        subst h1
        rw [h] at hi
        simpa [Part.Takes] using hi.symm
      · intro h1
        have h1 : n = m := h1
        subst h1
        exact nodup_getElem?_inj hl hi h
  | slice ids =>
    cases part with
    | one m => simp [Coupled] at h
    | many ls => exact hmany ids ls h
  | fancy ids =>
    cases part with
    | one m => simp [Coupled] at h
    | many ls => exact hmany ids ls h

theorem axes_resolve [DecidableEq L] {ls : List (List L)} (hnd : ∀ l ∈ ls, l.Nodup) {its : List NpItem}
    (hlen : its.length = ls.length) {ss : List NpSel}
    (h : mapRes (fun p : NpItem × Nat => p.1.resolve p.2) (its.zip (ls.map List.length)) = .ok ss) :
    ∃ parts, List.Forall₂ (fun p part => Picks p.1 p.2 part) (ls.zip (its.map NpItem.toItem)) parts ∧
      List.Forall₂ SameKind (its.map (NpItem.toItem (L := L))) ss ∧
      ∀ p names, At ls p names → (List.Forall₂ NpSel.Takes ss p ↔ InParts parts names) := by
  induction ls generalizing its ss with
  | nil =>
    cases its with
    | cons => simp at hlen
    | nil =>
      simp [mapRes] at h
      subst h
      refine ⟨[], by simp, .nil, fun p names hat => ?_⟩
      cases p <;> cases names <;> simp_all [At, InParts]
  | cons l ls ih =>
    cases its with
    | nil => simp at hlen
    | cons it its =>
      simp only [List.map_cons, List.zip_cons_cons, mapRes] at h
      cases hk : it.resolve l.length with
      | error e => simp [hk] at h
      | ok sel =>
        simp only [hk] at h
        cases hr : mapRes (fun p : NpItem × Nat => p.1.resolve p.2) (its.zip (ls.map List.length)) with
        | error e => simp [hr] at h
        | ok ss' =>
          simp only [hr, Except.ok.injEq] at h
          subst h
          obtain ⟨parts, h1, h2, h3⟩ := ih (fun l' hl' => hnd l' (by simp [hl'])) (by simpa using hlen) hr
          obtain ⟨part, g1, g2, g3⟩ := picks_of_resolve hk
          refine ⟨part :: parts, .cons g1 h1, .cons g3 h2, fun p names hat => ?_⟩
          cases p with
          | nil => simp [At] at hat
          | cons i p =>
            cases names with
            | nil => simp [At] at hat
            | cons n names =>
              simp only [InParts, List.forall₂_cons]
              rw [coupled_takes (hnd l (by simp)) g2 hat.1, h3 p names hat.2]
              rfl

namespace Larry

theorem npSelect_eq {y : Larry L} (hv : y.Valid) {its : List NpItem} (hlen : its.length ≤ y.ndim) :
    npResolve y.x.shape its = mapRes (fun p : NpItem × Nat => p.1.resolve p.2)
      ((its ++ List.replicate (y.label.length - its.length) (NpItem.slice {})).zip (y.label.map List.length)) := by
  have h1 : y.x.shape.length = y.label.length := by rw [hv.shape_eq]; simp
  unfold npResolve
  rw [if_neg (by rw [h1, hv.label_length]; omega)]
  rw [h1, hv.shape_eq]

theorem map_pad (n : Nat) (its : List NpItem) :
    (its ++ List.replicate (n - its.length) (NpItem.slice {})).map (NpItem.toItem (L := L)) =
      padTo n (its.map NpItem.toItem) := by
  rw [padTo, List.map_append, List.map_replicate, List.length_map]
  rfl

variable [DecidableEq L]

/-- What a successful assignment knows about the positions. -/
theorem select_spec {y : Larry L} (hv : y.Valid) {its : List NpItem} (h1 : OneList (its.map (NpItem.toItem (L := L))))
    {g : NDArray (List Nat)} (h : npSelect y.x.shape its = .ok g) :
    ∃ parts, TakesParts y.label (its.map NpItem.toItem) parts ∧ its.length ≤ y.ndim ∧
      (∀ p names, At y.label p names → ((∃ idx, InB g.shape idx ∧ g.get idx = p) ↔ InParts parts names)) ∧
      (¬ Scrambled (its.map (NpItem.toItem (L := L))) → g.shape = (Part.labels parts).map List.length ∧
        ∀ idx ns, At (Part.labels parts) idx ns → At y.label (g.get idx) (Part.names parts ns)) := by
  have hlen : its.length ≤ y.ndim := by
    by_contra hc
    unfold npSelect npResolve at h
    rw [if_pos (by unfold ndim NDArray.ndim at hc; omega)] at h
    simp at h
  unfold npSelect at h
  cases hr : npResolve y.x.shape its with
  | error e => simp [hr] at h
  | ok ss =>
  simp only [hr] at h
  rw [npSelect_eq hv hlen] at hr
  have hll := hv.label_length
  have hplen : (its ++ List.replicate (y.label.length - its.length) (NpItem.slice {})).length = y.label.length := by
    simp; omega
  obtain ⟨parts, a1, a2, a3⟩ := axes_resolve hv.nodup hplen hr
  rw [map_pad] at a1 a2
  have hfl : (fancyLens ss).length ≤ 1 := by rw [fancy_le_one a2, oneList_padTo]; exact h1
  obtain ⟨g', b1, b2⟩ := npGrid_range hfl
  rw [b1] at h
  simp only [Except.ok.injEq] at h
  subst h
  refine ⟨parts, a1, hlen, fun p names hat => (b2 p).trans (a3 p names hat), fun hs => ?_⟩
  have hnl : ∀ m, Item.lar m ∈ padTo y.label.length (its.map (NpItem.toItem (L := L))) → m.Valid := by
    intro m hmem
    unfold padTo at hmem
    rcases List.mem_append.mp hmem with hh | hh
    · obtain ⟨it, -, he⟩ := List.mem_map.mp hh
      exact absurd he (toItem_ne_lar it m)
    · rw [List.mem_replicate] at hh; simp at hh
  have hpl : (padTo y.label.length (its.map (NpItem.toItem (L := L)))).length = y.label.length :=
    padTo_length (by simp; omega)
  obtain ⟨⟨labs, hk⟩, -⟩ := axes_of_picks hnl hpl a1
  rw [← map_toItem_np (L := L) (its ++ _), map_pad] at hr
  obtain ⟨parts', c1, c2, c3, c4, c5⟩ := axes_ok hpl hnl hk hr
  have := takesParts_unique hv.nodup (show TakesParts y.label (its.map NpItem.toItem) parts from a1) c1
  subst this
  obtain ⟨g'', d1, d2, d3⟩ := npGrid_ok hfl (not_scrambledSel c2 hs)
  rw [b1] at d1
  simp only [Except.ok.injEq] at d1
  subst d1
  refine ⟨by rw [d2, c4], fun idx ns hat => ?_⟩
  rw [d3 idx (by rw [c4]; exact At_inB hat)]
  exact c5 idx ns hat

/-- The positions exist when the index finds what it asks for. -/
theorem select_of {y : Larry L} (hv : y.Valid) {its : List NpItem} (h1 : OneList (its.map (NpItem.toItem (L := L))))
    (hlen : its.length ≤ y.ndim) {parts : List (Part L)} (h : TakesParts y.label (its.map NpItem.toItem) parts) :
    ∃ g, npSelect y.x.shape its = .ok g := by
  have hll := hv.label_length
  have hnl : ∀ m, Item.lar m ∈ padTo y.label.length (its.map (NpItem.toItem (L := L))) → m.Valid := by
    intro m hmem
    unfold padTo at hmem
    rcases List.mem_append.mp hmem with hh | hh
    · obtain ⟨it, -, he⟩ := List.mem_map.mp hh
      exact absurd he (toItem_ne_lar it m)
    · rw [List.mem_replicate] at hh; simp at hh
  have hpl : (padTo y.label.length (its.map (NpItem.toItem (L := L)))).length = y.label.length :=
    padTo_length (by simp; omega)
  obtain ⟨-, ss, hss⟩ := axes_of_picks hnl hpl h
  rw [← map_pad, map_toItem_np, ← npSelect_eq hv hlen] at hss
  unfold npSelect
  simp only [hss]
  rw [npSelect_eq hv hlen] at hss
  have hplen : (its ++ List.replicate (y.label.length - its.length) (NpItem.slice {})).length = y.label.length := by
    simp; omega
  obtain ⟨-, -, a2, -⟩ := axes_resolve hv.nodup hplen hss
  rw [map_pad] at a2
  have hfl : (fancyLens ss).length ≤ 1 := by rw [fancy_le_one a2, oneList_padTo]; exact h1
  obtain ⟨g', b1, -⟩ := npGrid_range hfl
  exact ⟨g', b1⟩

end Larry

/-! ## C37 -/

section
variable [DecidableEq L]

/-- C37. `y[m] = v` with a larry `m` raises IndexError unless the labels of `m` and `y` are identical. -/
theorem C37_mask_unaligned {y m : Larry L} {v : Val} (h : y.label ≠ m.label) :
    y.setMask m v = .error .indexError := by
  simp [Larry.setMask, h]

/-- C37. With identical labels and a boolean `m`, the cells where `m` is True become `v` and all others
keep their value. -/
theorem C37_mask {y m : Larry L} (hv : y.Valid) (h : y.label = m.label) (hd : m.dtype = .bool) (v : Val) :
    ∃ z, y.setMask m v = .ok z ∧ z.Valid ∧ z.label = y.label ∧ z.dtype = y.dtype ∧
      (∀ names, m.Has names (.bool true) → z.Has names v) ∧
      ∀ names w, y.Has names w → ¬ m.Has names (.bool true) → z.Has names w := by
  refine ⟨⟨⟨y.x.shape, fun p => if m.x.get p = .bool true then v else y.x.get p⟩, y.dtype, y.label⟩,
    by simp [Larry.setMask, h, hd], ⟨hv.shape_eq, hv.nodup, hv.ndim_pos⟩, rfl, rfl, ?_, ?_⟩
  · rintro names ⟨p, h1, h2⟩
    exact ⟨p, by rw [h]; exact h1, by simp [h2]⟩
  · rintro names w ⟨p, h1, h2⟩ h3
    refine ⟨p, h1, ?_⟩
    change (if m.x.get p = .bool true then v else y.x.get p) = w
    rw [if_neg (fun hc => h3 ⟨p, by rw [← h]; exact h1, hc⟩)]
    exact h2

/-- C37. The code does not check that `m` is boolean: with identical labels an integer larry sets whole
rows, those whose positions are among its elements. -/
theorem C37_mask_int {y m : Larry L} (hv : y.Valid) (h : y.label = m.label) (hd : m.dtype = .int) (v : Val)
    {z : Larry L} (hz : y.setMask m v = .ok z) :
    z.Valid ∧ z.label = y.label ∧ ∀ (l : List L) (n : L) (names : List L) (w : Val), y.label.head? = some l →
      y.Has (n :: names) w →
      ((∃ i ∈ Larry.intVals m.x, PyAt l i n) → z.Has (n :: names) v) ∧
      ((¬ ∃ i ∈ Larry.intVals m.x, PyAt l i n) → z.Has (n :: names) w) := by
  obtain ⟨l0, ls, hl⟩ := List.exists_cons_of_ne_nil hv.ndim_pos
  have hsh : y.x.shape.getD 0 0 = l0.length := by rw [hv.shape_eq, hl]; rfl
  have hnd := hv.nodup l0 (by rw [hl]; simp)
  simp only [Larry.setMask, if_pos h, hd] at hz
  cases hk : mapRes (pyIdxE (y.x.shape.getD 0 0)) (Larry.intVals m.x) with
  | error e => rw [hk] at hz; simp at hz
  | ok ids =>
    rw [hk] at hz
    simp only [Except.ok.injEq] at hz
    subst hz
    refine ⟨⟨hv.shape_eq, hv.nodup, hv.ndim_pos⟩, rfl, ?_⟩
    rintro l n names w hl' ⟨p, hp, rfl⟩
    rw [hl] at hl' hp
    simp only [List.head?_cons, Option.some.injEq] at hl'
    subst hl'
    cases p with
    | nil => simp [At] at hp
    | cons k p =>
      have hmem : k ∈ ids ↔ ∃ i ∈ Larry.intVals m.x, PyAt l0 i n := by
        rw [hsh] at hk
        have hf := mapRes_ok.mp hk
        obtain ⟨hlen, hget⟩ := List.forall₂_iff_get.mp hf
        constructor
        · intro hk2
          obtain ⟨j, hj, rfl⟩ := List.getElem_of_mem hk2
          exact ⟨_, List.getElem_mem (by omega : j < (Larry.intVals m.x).length),
            pyAt_iff.mpr ⟨_, pyIdxE_ok.mp (hget j (by omega) hj), hp.1⟩⟩
        · rintro ⟨i, hi, hat⟩
          obtain ⟨j, hj, rfl⟩ := List.getElem_of_mem hi
          obtain ⟨k', h1, h2⟩ := pyAt_iff.mp hat
          have h3 := pyIdxE_ok.mp (hget j hj (by omega))
          simp only [List.get_eq_getElem] at h3
          rw [h1] at h3
          simp only [Option.some.injEq] at h3
          rw [nodup_getElem?_inj hnd hp.1 h2, h3]
          exact List.getElem_mem _
      constructor
      · intro hin
        refine ⟨k :: p, by rw [hl]; exact hp, ?_⟩
        simp [NDArray.assignAx, hmem.mpr hin]
      · intro hin
        refine ⟨k :: p, by rw [hl]; exact hp, ?_⟩
        simp [NDArray.assignAx, mt hmem.mp hin]

/-- C37. `y[index] = v` with a scalar: it succeeds exactly when there are no more entries than axes and
each entry finds what it asks for on its axis, and then exactly the cells of the block selected become
`v`. -/
theorem C37_scalar (conv : Val → Val) {y : Larry L} (hv : y.Valid) {idx : NpIndex}
    (h1 : OneList (idx.items.map (NpItem.toItem (L := L)))) (v : Val) :
    ((∃ z, y.setAt conv idx (.scalar v) = .ok z) ↔
      idx.items.length ≤ y.ndim ∧ ∃ parts, TakesParts y.label (idx.items.map NpItem.toItem) parts) ∧
    ∀ z, y.setAt conv idx (.scalar v) = .ok z →
      ∃ parts, TakesParts y.label (idx.items.map NpItem.toItem) parts ∧
        z.Valid ∧ z.label = y.label ∧ z.dtype = y.dtype ∧
        (∀ names, Named y.label names → InParts parts names → z.Has names v) ∧
        ∀ names w, y.Has names w → ¬ InParts parts names → z.Has names w := by
  constructor
  · constructor
    · rintro ⟨z, h⟩
      simp only [Larry.setAt, Larry.putAt] at h
      cases hg : npSelect y.x.shape idx.items with
      | error e => simp [hg] at h
      | ok g =>
        obtain ⟨parts, a1, a2, -⟩ := Larry.select_spec hv h1 hg
        exact ⟨a2, parts, a1⟩
    · rintro ⟨h2, parts, h3⟩
      obtain ⟨g, hg⟩ := Larry.select_of hv h1 h2 h3
      exact ⟨_, by simp only [Larry.setAt, Larry.putAt, hg]; rfl⟩
  · intro z h
    simp only [Larry.setAt, Larry.putAt] at h
    cases hg : npSelect y.x.shape idx.items with
    | error e => simp [hg] at h
    | ok g =>
      simp only [hg, Except.ok.injEq] at h
      subst h
      obtain ⟨parts, a1, a2, a3, -⟩ := Larry.select_spec hv h1 hg
      refine ⟨parts, a1, ⟨by rw [NDArray.assignGrid_shape]; exact hv.shape_eq, hv.nodup, hv.ndim_pos⟩, rfl, rfl, ?_, ?_⟩
      · intro names hn hin
        obtain ⟨p, hp⟩ := At_of_Named hn
        exact ⟨p, hp, NDArray.assignGrid_eq (fun _ _ _ => rfl) ((a3 p names hp).mpr hin)⟩
      · rintro names w ⟨p, hp, rfl⟩ hin
        exact ⟨p, hp, NDArray.assignGrid_ne (fun idx hi he => hin ((a3 p names hp).mp ⟨idx, hi, he⟩))⟩

/-- C37. `y[index] = z` with a larry: if it succeeds then `z` has exactly the labels of `y[index]`, the
cells of the block selected get the values of `z` under the same labels, and all other cells keep
theirs. -/
theorem C37_larry (conv : Val → Val) {y z : Larry L} (hv : y.Valid) {idx : NpIndex}
    (hs : ¬ Scrambled (idx.items.map (NpItem.toItem (L := L)))) {r : Larry L}
    (h : y.setAt conv idx (.lar z) = .ok r) :
    ∃ parts, TakesParts y.label (idx.items.map NpItem.toItem) parts ∧ z.label = Part.labels parts ∧
      r.Valid ∧ r.label = y.label ∧ r.dtype = y.dtype ∧
      (∀ names w, z.Has names w → r.Has (Part.names parts names) (conv w)) ∧
      ∀ names w, y.Has names w → ¬ InParts parts names → r.Has names w := by
  have hitems : (idx.toIndex : Index L).items = idx.items.map NpItem.toItem := by cases idx <;> rfl
  have hm : ∀ m, Item.lar m ∈ (idx.toIndex : Index L).items → m.Valid := by
    intro m hmem
    rw [hitems] at hmem
    obtain ⟨it, -, he⟩ := List.mem_map.mp hmem
    exact absurd he (toItem_ne_lar it m)
  simp only [Larry.setAt] at h
  cases hget : y.getitem idx.toIndex with
  | error e => simp [hget] at h
  | ok out =>
  have hs' : ¬ Scrambled (idx.toIndex : Index L).items := by rw [hitems]; exact hs
  obtain ⟨-, hone, -⟩ := (C33_succeeds hv hm hs').mp ⟨_, hget⟩
  obtain ⟨parts, g1, g2⟩ := C33_getitem hv hm hs' hget
  rw [hitems] at g1 hone
  cases out with
  | scalar v => simp [hget] at h
  | array x => simp [hget] at h
  | larry s =>
    simp only [hget] at h
    obtain ⟨s1, s2, s3, s4⟩ := g2
    split at h
    · rename_i hlab
      simp only [Larry.putAt] at h
      cases hg : npSelect y.x.shape idx.items with
      | error e => simp [hg] at h
      | ok g =>
        simp only [hg, Except.ok.injEq] at h
        subst h
        obtain ⟨parts', a1, a2, a3, a4⟩ := Larry.select_spec hv hone hg
        have := takesParts_unique hv.nodup g1 a1
        subst this
        obtain ⟨a4, a5⟩ := a4 hs
        have hzl : z.label = Part.labels parts := by rw [← hlab, s1]
        have hnd : ∀ l ∈ Part.labels parts, l.Nodup := by rw [← s1]; exact s3.nodup
        refine ⟨parts, a1, hzl, ⟨by rw [NDArray.assignGrid_shape]; exact hv.shape_eq, hv.nodup, hv.ndim_pos⟩, rfl, rfl, ?_, ?_⟩
        · rintro ns w ⟨i, hi, rfl⟩
          rw [hzl] at hi
          refine ⟨g.get i, a5 i ns hi, NDArray.assignGrid_eq ?_ ⟨i, by rw [a4]; exact At_inB hi, rfl⟩⟩
          intro i' hi' he
          rw [a4] at hi'
          obtain ⟨ns', hns'⟩ := At_of_inB hi'
          have e1 := a5 i' ns' hns'
          rw [he] at e1
          have e2 := At_names_unique e1 (a5 i ns hi)
          have e3 := names_inj (Named_of_At hns') (Named_of_At hi) e2
          subst e3
          rw [At_unique hnd hns' hi]
        · rintro names w ⟨p, hp, rfl⟩ hin
          exact ⟨p, hp, NDArray.assignGrid_ne (fun idx hi he => hin ((a3 p names hp).mp ⟨idx, hi, he⟩))⟩
    · simp at h

/-- C37. With the labels of `y[index]` it does succeed. -/
theorem C37_larry_aligned (conv : Val → Val) {y z s : Larry L} (hv : y.Valid) {idx : NpIndex}
    (hs : ¬ Scrambled (idx.items.map (NpItem.toItem (L := L))))
    (hget : y.getitem idx.toIndex = .ok (.larry s)) (h : s.label = z.label) :
    ∃ r, y.setAt conv idx (.lar z) = .ok r := by
  have hitems : (idx.toIndex : Index L).items = idx.items.map NpItem.toItem := by cases idx <;> rfl
  have hm : ∀ m, Item.lar m ∈ (idx.toIndex : Index L).items → m.Valid := by
    intro m hmem
    rw [hitems] at hmem
    obtain ⟨it, -, he⟩ := List.mem_map.mp hmem
    exact absurd he (toItem_ne_lar it m)
  have hs' : ¬ Scrambled (idx.toIndex : Index L).items := by rw [hitems]; exact hs
  obtain ⟨hlen, hone, parts, hp, -⟩ := (C33_succeeds hv hm hs').mp ⟨_, hget⟩
  rw [hitems] at hlen hone hp
  rw [List.length_map] at hlen
  obtain ⟨g, hg⟩ := Larry.select_of hv hone hlen hp
  exact ⟨_, by simp only [Larry.setAt, hget, if_pos h, Larry.putAt, hg]; rfl⟩

/-- C37. A larry whose labels differ from those of `y[index]` raises IndexError. -/
theorem C37_larry_unaligned (conv : Val → Val) {y z s : Larry L} {idx : NpIndex}
    (hget : y.getitem idx.toIndex = .ok (.larry s)) (h : s.label ≠ z.label) :
    y.setAt conv idx (.lar z) = .error .indexError := by
  simp [Larry.setAt, hget, h]

end

/-- The hypotheses are met: a slice with a step and an integer; a larry aligned with `y[:, 0]`. -/
example : OneList ([NpItem.slice ⟨none, none, some (-1)⟩, NpItem.seq [2]].map (NpItem.toItem (L := Nat))) ∧
    (∃ z, exA.setAt id (.tuple [.slice ⟨none, none, some (-1)⟩, .seq [2]]) (.scalar (fl 0)) = .ok z) ∧
    ∃ z, exA.setAt id (.tuple [.slice {}, .int 0]) (.lar ⟨NDArray.ofList [2] [fl 8, fl 9], .float, [[10, 20]]⟩) = .ok z ∧
      z.x.get [1, 0] = fl 9 := by
  refine ⟨?_, ⟨_, rfl⟩, ⟨_, rfl, by decide +kernel⟩⟩
  intro p q a b ha hb hal hbl
  match p, q with
  | 0, _ =>
    simp at ha; subst ha
    exact absurd ⟨_, rfl⟩ hal.2
  | _, 0 =>
    simp at hb; subst hb
    exact absurd ⟨_, rfl⟩ hbl.2
  | 1, 1 => rfl
  | 1, (n + 2) => simp at hb
  | (n + 2), _ => simp at ha

end La
