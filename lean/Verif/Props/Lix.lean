import Verif.Lix
import Verif.Props.Setitem
import Verif.Props.Axes

/-! # C35, C36: indexing and assignment by label -/

namespace La
variable {L : Type _}

/-! ## Specification -/

/-- The bound of a slice: absent, a position, or the position of a label. -/
def LBoundAt (l : List L) : LBound L → Option Int → Prop
  | .none, none => True
  | .int i, some j => j = i
  | .list [n], some j => ∃ k : Nat, l[k]? = some n ∧ j = (k : Int)
  | _, _ => False

/-- The labels an entry of a lix expression selects on an axis with labels `l`. -/
def LPicks (l : List L) : LItem L → List L → Prop
  | .list ns, ls => ls = ns ∧ ∀ n ∈ ns, n ∈ l
  | .int i, ls => ∃ n, PyAt l i n ∧ ls = [n]
  | .slice s, ls => ∃ a b ids, LBoundAt l s.start a ∧ LBoundAt l s.stop b ∧
      sliceIndices l.length ⟨a, b, s.step⟩ = .ok ids ∧ ids.map (fun i => l[i]?) = ls.map some
  | .other, _ => False

/-- Axes not mentioned are taken whole. -/
def lixPad (n : Nat) (its : List (LItem L)) : List (LItem L) := its ++ List.replicate (n - its.length) (LItem.slice {})

/-- The expression selects these labels, axis by axis. -/
def LTakes (label : List (List L)) (its : List (LItem L)) (pls : List (List L)) : Prop :=
  List.Forall₂ (fun p ls => LPicks p.1 p.2 ls) (label.zip (lixPad label.length its)) pls

/-- An axis with one label left disappears. -/
def Part.squeezed : List L → Part L
  | [n] => .one n
  | ls => .many ls

/-- An entry alone: a slice keeps its axis. -/
def LItem.part : LItem L → List L → Part L
  | .slice _, ls => .many ls
  | _, ls => Part.squeezed ls

/-! ## One axis -/

section
variable [LinearOrder L]

theorem mapRes_asInts {ids : List Nat} {n : Nat} (h : ∀ i ∈ ids, i < n) : mapRes (pyIdxE n) (asInts ids) = .ok ids := by
  rw [mapRes_ok, asInts, List.forall₂_map_left_iff, List.forall₂_same]
  intro k hk
  exact pyIdxE_ok.mpr (pyIdx_ofNat (h k hk))

theorem labels2indices_ok {l ns : List L} {ids : List Nat} (h : labels2indices l ns = .ok ids) :
    ids.map (fun i => l[i]?) = ns.map some := by
  have := mapRes_ok.mp h
  clear h
  induction this with
  | nil => rfl
  | @cons n i ns ids h0 _ ih =>
    have : l[i]? = some n := by
      unfold indexE at h0
      cases hp : pyIndex l n with
      | none => simp [hp] at h0
      | some j => simp [hp] at h0; subst h0; exact pyIndex_some hp
    simp [this, ih]

theorem labels2indices_of {l ns : List L} (h : ∀ n ∈ ns, n ∈ l) : ∃ ids, labels2indices l ns = .ok ids := by
  cases hr : labels2indices l ns with
  | ok ids => exact ⟨ids, rfl⟩
  | error e =>
    obtain ⟨n, hn, he⟩ := mapRes_error hr
    unfold indexE at he
    cases hp : pyIndex l n with
    | none => exact absurd (h n hn) (pyIndex_none.mp hp)
    | some j => simp [hp] at he

theorem lt_of_map_some {l ls : List L} {ids : List Nat} (h : ids.map (fun i => l[i]?) = ls.map some) :
    ∀ i ∈ ids, i < l.length := by
  intro i hi
  have : l[i]? ∈ ls.map some := by rw [← h]; exact List.mem_map.mpr ⟨i, hi, rfl⟩
  obtain ⟨n, -, hn⟩ := List.mem_map.mp this
  exact (List.getElem?_eq_some_iff.mp hn.symm).1

theorem bound_resolve {y : Larry L} (hv : y.Valid) {ax : Nat} {l : List L} (hl : y.label[ax]? = some l) {b : LBound L}
    {o : Option Int} : b.resolve y ax = .ok o ↔ LBoundAt l b o := by
  have hnd := hv.nodup l (List.mem_of_getElem? hl)
  cases b with
  | none => cases o <;> simp [LBound.resolve, LBoundAt]
  | int i => cases o <;> simp [LBound.resolve, LBoundAt]; exact eq_comm
  | other => cases o <;> simp [LBound.resolve, LBoundAt]
  | list ns =>
    cases ns with
    | nil => cases o <;> simp [LBound.resolve, LBoundAt]
    | cons n ns =>
      cases ns with
      | cons => cases o <;> simp [LBound.resolve, LBoundAt]
      | nil =>
        simp only [LBound.resolve, Larry.labelindex_exact hv hl]
        cases hp : pyIndex l n with
        | none =>
          have := pyIndex_none.mp hp
          cases o with
          | none => simp [LBoundAt]
          | some j =>
            simp only [LBoundAt]
            constructor
            · intro h; simp at h
            · rintro ⟨k, hk, -⟩; exact absurd (List.mem_of_getElem? hk) this
        | some i =>
          have hi := pyIndex_some hp
          cases o with
          | none => simp [LBoundAt]
          | some j =>
            simp only [LBoundAt, Except.ok.injEq, Option.some.injEq]
            constructor
            · intro h; exact ⟨i, hi, h.symm⟩
            · rintro ⟨k, hk, rfl⟩
              rw [nodup_getElem?_inj hnd hi hk]

theorem slicemaker_ok {y : Larry L} (hv : y.Valid) {ax : Nat} {l : List L} (hl : y.label[ax]? = some l) {s : LSlice L}
    {ps : PySlice} : slicemaker y ax s = .ok ps ↔
      ∃ a b, LBoundAt l s.start a ∧ LBoundAt l s.stop b ∧ ps = ⟨a, b, s.step⟩ := by
  unfold slicemaker
  cases ha : s.start.resolve y ax with
  | error e =>
    constructor
    · intro h; simp at h
    · rintro ⟨a, b, h1, -⟩
      rw [(bound_resolve hv hl).mpr h1] at ha; simp at ha
  | ok a =>
    have ha' := (bound_resolve hv hl).mp ha
    cases hb : s.stop.resolve y ax with
    | error e =>
      constructor
      · intro h; simp at h
      · rintro ⟨a, b, -, h1, -⟩
        rw [(bound_resolve hv hl).mpr h1] at hb; simp at hb
    | ok b =>
      have hb' := (bound_resolve hv hl).mp hb
      simp only [Except.ok.injEq]
      constructor
      · intro h; exact ⟨a, b, ha', hb', h.symm⟩
      · rintro ⟨a', b', h1, h2, rfl⟩
        have e1 := (bound_resolve hv hl).mpr h1
        have e2 := (bound_resolve hv hl).mpr h2
        rw [ha] at e1; rw [hb] at e2
        simp only [Except.ok.injEq] at e1 e2
        rw [e1, e2]

theorem getD_of_getElem? {α : Type _} {l : List α} {k : Nat} {a d : α} (h : l[k]? = some a) : l.getD k d = a := by
  simp [List.getD, h]

theorem shape_getD {y : Larry L} (hv : y.Valid) {ax : Nat} {l : List L} (hl : y.label[ax]? = some l) :
    y.shape.getD ax 0 = l.length := by
  rw [Larry.shape, hv.shape_eq]
  simp [List.getD, hl]

theorem sel_spec {y : Larry L} (hv : y.Valid) {ax : Nat} {l : List L} (hl : y.label[ax]? = some l) {it : LItem L}
    {is : List Int} {o : Option (List L)} {ids : List Nat} (h1 : it.sel y ax = .ok (is, o))
    (h2 : mapRes (pyIdxE l.length) is = .ok ids) :
    ∃ ls, LPicks l it ls ∧ ids.map (fun i => l[i]?) = ls.map some ∧ o = if ls.length > 1 then some ls else none := by
  have hl0 : y.label.getD ax [] = l := getD_of_getElem? hl
  cases it with
  | list ns =>
    simp only [LItem.sel, hl0] at h1
    cases hk : labels2indices l ns with
    | error e => simp [hk] at h1
    | ok js =>
      simp only [hk, Except.ok.injEq, Prod.mk.injEq] at h1
      obtain ⟨rfl, rfl⟩ := h1
      have hj := labels2indices_ok hk
      rw [mapRes_asInts (lt_of_map_some hj)] at h2
      simp only [Except.ok.injEq] at h2
      subst h2
      refine ⟨ns, ⟨rfl, fun n hn => ?_⟩, hj, rfl⟩
      have : some n ∈ js.map (fun i => l[i]?) := by rw [hj]; exact List.mem_map.mpr ⟨n, hn, rfl⟩
      obtain ⟨i, -, hi⟩ := List.mem_map.mp this
      exact List.mem_of_getElem? hi
  | int i =>
    simp only [LItem.sel, Except.ok.injEq, Prod.mk.injEq] at h1
    obtain ⟨rfl, rfl⟩ := h1
    simp only [mapRes] at h2
    cases hk : pyIdxE l.length i with
    | error e => simp [hk] at h2
    | ok k =>
      simp only [hk, Except.ok.injEq] at h2
      subst h2
      have hk' := pyIdxE_ok.mp hk
      have hlt := pyIdx_lt hk'
      refine ⟨[l[k]], ⟨l[k], pyAt_iff.mpr ⟨k, hk', List.getElem?_eq_getElem hlt⟩, rfl⟩, ?_, by simp⟩
      simp [List.getElem?_eq_getElem hlt]
  | slice s =>
    simp only [LItem.sel, hl0, shape_getD hv hl] at h1
    cases hs : slicemaker y ax s with
    | error e => simp [hs] at h1
    | ok ps =>
      simp only [hs] at h1
      obtain ⟨a, b, ha, hb, rfl⟩ := (slicemaker_ok hv hl).mp hs
      cases hi : sliceIndices l.length ⟨a, b, s.step⟩ with
      | error e => simp [hi] at h1
      | ok js =>
        simp only [hi] at h1
        cases hp : pySliceList l ⟨a, b, s.step⟩ with
        | error e => simp [hp] at h1
        | ok lab =>
          simp only [hp, Except.ok.injEq, Prod.mk.injEq] at h1
          obtain ⟨rfl, rfl⟩ := h1
          obtain ⟨js', e1, e2⟩ := pySliceList_ok.mp hp
          rw [hi] at e1
          simp only [Except.ok.injEq] at e1
          subst e1
          rw [mapRes_asInts (lt_of_map_some e2)] at h2
          simp only [Except.ok.injEq] at h2
          subst h2
          exact ⟨lab, ⟨a, b, js, ha, hb, hi, e2⟩, e2, rfl⟩
  | other => simp [LItem.sel] at h1

theorem sel_of {y : Larry L} (hv : y.Valid) {ax : Nat} {l : List L} (hl : y.label[ax]? = some l) {it : LItem L}
    {ls : List L} (h : LPicks l it ls) : ∃ is o ids, it.sel y ax = .ok (is, o) ∧ mapRes (pyIdxE l.length) is = .ok ids := by
  have hl0 : y.label.getD ax [] = l := getD_of_getElem? hl
  cases it with
  | list ns =>
    obtain ⟨rfl, h2⟩ := h
    obtain ⟨ids, hids⟩ := labels2indices_of h2
    exact ⟨asInts ids, if ls.length > 1 then some ls else none, ids, by simp only [LItem.sel, hl0, hids],
      mapRes_asInts (lt_of_map_some (labels2indices_ok hids))⟩
  | int i =>
    obtain ⟨n, h1, rfl⟩ := h
    obtain ⟨k, h1, -⟩ := pyAt_iff.mp h1
    refine ⟨[i], none, [k], rfl, ?_⟩
    simp [mapRes, pyIdxE_ok.mpr h1]
  | slice s =>
    obtain ⟨a, b, ids, ha, hb, hi, he⟩ := h
    have hs := (slicemaker_ok hv hl).mpr ⟨a, b, ha, hb, rfl⟩
    have hp := pySliceList_ok.mpr ⟨ids, hi, he⟩
    exact ⟨asInts ids, if ls.length > 1 then some ls else none, ids,
      by simp only [LItem.sel, hs, shape_getD hv hl, hi, hl0, hp], mapRes_asInts (lt_of_map_some he)⟩
  | other => simp [LPicks] at h

theorem LPicks.unique {l : List L} (hl : l.Nodup) {it : LItem L} {ls ls' : List L} (h : LPicks l it ls)
    (h' : LPicks l it ls') : ls = ls' := by
  have hb : ∀ {b : LBound L} {o o'}, LBoundAt l b o → LBoundAt l b o' → o = o' := by
    intro b o o' h h'
    cases b with
    | none => cases o <;> cases o' <;> simp_all [LBoundAt]
    | int i => cases o <;> cases o' <;> simp_all [LBoundAt]
    | other => cases o <;> simp [LBoundAt] at h
    | list ns =>
      match ns with
      | [] => cases o <;> simp [LBoundAt] at h
      | [n] =>
        cases o with
        | none => simp [LBoundAt] at h
        | some j => cases o' with
          | none => simp [LBoundAt] at h'
          | some j' =>
            obtain ⟨k, hk, rfl⟩ := h
            obtain ⟨k', hk', rfl⟩ := h'
            rw [nodup_getElem?_inj hl hk hk']
      | _ :: _ :: _ => cases o <;> simp [LBoundAt] at h
  cases it with
  | list ns => rw [h.1, h'.1]
  | int i =>
    obtain ⟨n, h1, rfl⟩ := h
    obtain ⟨n', h1', rfl⟩ := h'
    obtain ⟨k, a, b⟩ := pyAt_iff.mp h1
    obtain ⟨k', a', b'⟩ := pyAt_iff.mp h1'
    rw [a] at a'
    simp only [Option.some.injEq] at a'
    subst a'
    rw [b] at b'
    simpa using b'
  | slice s =>
    obtain ⟨a, b, ids, h1, h2, h3, h4⟩ := h
    obtain ⟨a', b', ids', h1', h2', h3', h4'⟩ := h'
    have e1 := hb h1 h1'; have e2 := hb h2 h2'
    subst e1 e2
    rw [h3] at h3'
    simp only [Except.ok.injEq] at h3'
    subst h3'
    rw [h4] at h4'
    exact (List.map_injective_iff.mpr (Option.some_injective _)) h4'
  | other => simp [LPicks] at h

theorem LTakes.unique {label : List (List L)} (hnd : ∀ l ∈ label, l.Nodup) {its : List (LItem L)} {pls pls' : List (List L)}
    (h : LTakes label its pls) (h' : LTakes label its pls') : pls = pls' := by
  unfold LTakes at h h'
  have hnd : ∀ p ∈ label.zip (lixPad label.length its), p.1.Nodup := fun p hp => hnd _ (List.of_mem_zip hp).1
  generalize label.zip (lixPad label.length its) = q at h h' hnd
  induction h generalizing pls' with
  | nil => cases h'; rfl
  | @cons p l q pls h0 _ ih =>
    cases h' with
    | cons h0' hs' => rw [LPicks.unique (hnd p (by simp)) h0 h0', ih hs' (fun p hp => hnd p (by simp [hp]))]

/-! ## All axes -/

/-- The positions picked on every axis: `pls` are the labels at the positions `ids`. -/
def PosOf (label : List (List L)) (ids : List (List Nat)) (pls : List (List L)) : Prop :=
  pickAll label ids = pls ∧ List.Forall₂ (fun l is => ∀ i ∈ is, i < l.length) label ids ∧ ids.map List.length = pls.map List.length

theorem axes_spec {y : Larry L} (hv : y.Valid) (ls : List (List L)) : ∀ (k : Nat) (its : List (LItem L)),
    (∀ (j : Nat) l, ls[j]? = some l → y.label[k + j]? = some l) → its.length = ls.length →
    ∀ sels, mapRes (fun p : LItem L × Nat => p.1.sel y p.2) (its.zipIdx k) = .ok sels →
    ∀ ids, mapRes (fun p : Nat × List Int => mapRes (pyIdxE p.1) p.2) ((ls.map List.length).zip (sels.map Prod.fst)) = .ok ids →
    ∃ pls, List.Forall₂ (fun p l => LPicks p.1 p.2 l) (ls.zip its) pls ∧ PosOf ls ids pls ∧
      sels.filterMap Prod.snd = pls.filter (fun l => decide (l.length > 1)) ∧
      (sels.map Prod.fst).map List.length = pls.map List.length ∧
      mapRes (fun p : List L × List Int => pyItems p.1 p.2) (ls.zip (sels.map Prod.fst)) = .ok pls := by
  induction ls with
  | nil =>
    intro k its _ hlen sels h1 ids h2
    cases its with
    | cons => simp at hlen
    | nil =>
      simp [mapRes] at h1
      subst h1
      simp [mapRes] at h2
      subst h2
      exact ⟨[], by simp, ⟨rfl, .nil, rfl⟩, rfl, rfl, rfl⟩
  | cons l ls ih =>
    intro k its hk hlen sels h1 ids h2
    cases its with
    | nil => simp at hlen
    | cons it its =>
      simp only [List.zipIdx_cons, mapRes] at h1
      have hl : y.label[k]? = some l := by simpa using hk 0 l rfl
      cases hs : it.sel y k with
      | error e => simp [hs] at h1
      | ok p =>
        obtain ⟨is, o⟩ := p
        simp only [hs] at h1
        cases hr : mapRes (fun p : LItem L × Nat => p.1.sel y p.2) (its.zipIdx (k + 1)) with
        | error e => simp [hr] at h1
        | ok sels' =>
          simp only [hr, Except.ok.injEq] at h1
          subst h1
          simp only [List.map_cons, List.zip_cons_cons, mapRes] at h2
          cases hi : mapRes (pyIdxE l.length) is with
          | error e => simp [hi] at h2
          | ok is' =>
            simp only [hi] at h2
            cases hr2 : mapRes (fun p : Nat × List Int => mapRes (pyIdxE p.1) p.2)
                ((ls.map List.length).zip (sels'.map Prod.fst)) with
            | error e => simp [hr2] at h2
            | ok ids' =>
              simp only [hr2, Except.ok.injEq] at h2
              subst h2
              obtain ⟨pls, a1, ⟨a2, a3, a4⟩, a5, a6, a7⟩ := ih (k + 1) its (fun j l' hj => by
                have := hk (j + 1) l' (by simpa using hj)
                rw [← this]; congr 1; omega) (by simpa using hlen) sels' hr ids' hr2
              obtain ⟨lab, b1, b2, b3⟩ := sel_spec hv hl hs hi
              have hlt := lt_of_map_some b2
              have hll : is'.length = lab.length := by simpa using congrArg List.length b2
              have hil : is.length = is'.length := (mapRes_ok.mp hi).length_eq
              refine ⟨lab :: pls, .cons b1 a1, ⟨?_, .cons hlt a3, by simp [hll, a4]⟩, ?_, by simp only [List.map_cons, a6, hil, hll], ?_⟩
              · have hp : pickAll (l :: ls) (is' :: ids') = is'.filterMap (fun i => l[i]?) :: pickAll ls ids' := rfl
                rw [hp, a2]
                congr 1
                have e := filterMap_getElem? hlt
                rw [b2] at e
                exact ((List.map_injective_iff.mpr (Option.some_injective _)) e).symm
              · subst b3
                by_cases hg : lab.length > 1
                · simp [List.filterMap_cons, hg, a5]
                · simp [List.filterMap_cons, hg, a5]
              · have : pyItems l is = .ok lab := pyItems_ok.mpr ⟨is', hi, b2⟩
                simp only [List.map_cons, List.zip_cons_cons, mapRes, this, a7]

theorem axes_of {y : Larry L} (hv : y.Valid) (ls : List (List L)) : ∀ (k : Nat) (its : List (LItem L)),
    (∀ (j : Nat) l, ls[j]? = some l → y.label[k + j]? = some l) → its.length = ls.length →
    ∀ pls, List.Forall₂ (fun p l => LPicks p.1 p.2 l) (ls.zip its) pls →
    ∃ sels ids, mapRes (fun p : LItem L × Nat => p.1.sel y p.2) (its.zipIdx k) = .ok sels ∧
      mapRes (fun p : Nat × List Int => mapRes (pyIdxE p.1) p.2) ((ls.map List.length).zip (sels.map Prod.fst)) = .ok ids := by
  induction ls with
  | nil =>
    intro k its _ hlen pls _
    cases its with
    | cons => simp at hlen
    | nil => exact ⟨[], [], rfl, rfl⟩
  | cons l ls ih =>
    intro k its hk hlen pls h
    cases its with
    | nil => simp at hlen
    | cons it its =>
      have hl : y.label[k]? = some l := by simpa using hk 0 l rfl
      rw [List.zip_cons_cons] at h
      cases h with
      | @cons _ lab _ pls h0 hs =>
        obtain ⟨sels, ids, e1, e2⟩ := ih (k + 1) its (fun j l' hj => by
          have := hk (j + 1) l' (by simpa using hj)
          rw [← this]; congr 1; omega) (by simpa using hlen) pls hs
        obtain ⟨is, o, js, f1, f2⟩ := sel_of hv hl h0
        refine ⟨(is, o) :: sels, js :: ids, ?_, ?_⟩
        · simp only [List.zipIdx_cons, mapRes, f1, e1]
        · simp only [List.map_cons, List.zip_cons_cons, mapRes, f2, e2]

theorem lixPad_length {n : Nat} {its : List (LItem L)} (h : its.length ≤ n) : (lixPad n its).length = n := by
  simp [lixPad]; omega

/-- The loop and the bounds check. -/
theorem lixSel_spec {y : Larry L} (hv : y.Valid) {its : List (LItem L)} {sels : List (List Int × Option (List L))}
    (h : lixSel y its = .ok sels) {ids : List (List Nat)} (h2 : ixIds y.shape (sels.map Prod.fst) = .ok ids) :
    its.length ≤ y.ndim ∧ ∃ pls, LTakes y.label its pls ∧ PosOf y.label ids pls ∧
      sels.filterMap Prod.snd = pls.filter (fun l => decide (l.length > 1)) ∧ [] ∉ pls ∧
      y.lixLabels (sels.map Prod.fst) = .ok pls := by
  unfold lixSel at h
  split at h
  · simp at h
  · rename_i hlen
    have hll := hv.label_length
    have hp : its ++ List.replicate (y.ndim - its.length) (LItem.slice {}) = lixPad y.label.length its := by
      rw [lixPad, hll]
    rw [hp] at h
    unfold ixIds at h2
    split at h2
    · simp at h2
    · rename_i hne
      rw [Larry.shape, hv.shape_eq] at h2
      obtain ⟨pls, a1, a2, a3, a4, a5⟩ := axes_spec hv y.label 0 _ (fun j l hj => by simpa using hj)
        (lixPad_length (by omega)) sels h ids h2
      refine ⟨by omega, pls, a1, a2, a3, ?_, a5⟩
      intro hmem
      apply hne
      have : 0 ∈ (sels.map Prod.fst).map List.length := by rw [a4]; exact List.mem_map.mpr ⟨[], hmem, rfl⟩
      obtain ⟨z, hz, hz0⟩ := List.mem_map.mp this
      rw [List.length_eq_zero_iff] at hz0
      rw [← hz0]; exact hz

theorem lixSel_of {y : Larry L} (hv : y.Valid) {its : List (LItem L)} (hlen : its.length ≤ y.ndim) {pls : List (List L)}
    (h : LTakes y.label its pls) (hne : [] ∉ pls) : ∃ sels ids, lixSel y its = .ok sels ∧
      ixIds y.shape (sels.map Prod.fst) = .ok ids := by
  have hll := hv.label_length
  obtain ⟨sels, ids, e1, e2⟩ := axes_of hv y.label 0 _ (fun j l hj => by simpa using hj) (lixPad_length (by omega)) pls h
  refine ⟨sels, ids, ?_, ?_⟩
  · unfold lixSel
    rw [if_neg (by omega), ← hll]; exact e1
  · unfold ixIds
    obtain ⟨pls', a1, a2, a3, a4, a5⟩ := axes_spec hv y.label 0 _ (fun j l hj => by simpa using hj)
        (lixPad_length (by omega)) sels e1 ids e2
    have hpl : pls' = pls := LTakes.unique hv.nodup a1 h
    subst hpl
    rw [if_neg]
    · rw [Larry.shape, hv.shape_eq]; exact e2
    · intro hmem
      apply hne
      have : 0 ∈ pls'.map List.length := by rw [← a4]; exact List.mem_map.mpr ⟨[], hmem, rfl⟩
      obtain ⟨z, hz, hz0⟩ := List.mem_map.mp this
      rw [List.length_eq_zero_iff] at hz0
      rw [← hz0]; exact hz

end

/-! ## Squeezing -/

theorem labels_squeezed {pls : List (List L)} : Part.labels (pls.map Part.squeezed) = dropUnit (pls.map List.length) pls := by
  induction pls with
  | nil => rfl
  | cons ls pls ih =>
    match ls with
    | [] => simp [Part.squeezed, Part.labels, dropUnit, ih]
    | [n] => simp [Part.squeezed, Part.labels, dropUnit, ih]
    | a :: b :: ls => simp [Part.squeezed, Part.labels, dropUnit, ih]

theorem filter_squeezed {pls : List (List L)} (h : [] ∉ pls) :
    pls.filter (fun l => decide (l.length > 1)) = Part.labels (pls.map Part.squeezed) := by
  induction pls with
  | nil => rfl
  | cons ls pls ih =>
    have ih := ih (fun hh => h (by simp [hh]))
    match ls with
    | [] => simp at h
    | [n] => simp [Part.squeezed, Part.labels, ih]
    | a :: b :: ls => simp [Part.squeezed, Part.labels, ih]

theorem names_squeezed {pls : List (List L)} {i : List Nat} {full : List L} (h : At pls i full) :
    Part.names (pls.map Part.squeezed) (dropUnit (pls.map List.length) full) = full := by
  induction pls generalizing i full with
  | nil => cases i <;> cases full <;> simp_all [At, Part.names, dropUnit]
  | cons ls pls ih =>
    cases i with
    | nil => simp [At] at h
    | cons k i =>
      cases full with
      | nil => simp [At] at h
      | cons n full =>
        have := ih h.2
        match ls with
        | [] => simp [At] at h
        | [m] =>
          have h1 : m = n := by
            have := h.1
            cases k with
            | zero => simpa using this
            | succ k => simp at this
          simp [Part.squeezed, Part.names, dropUnit, this, h1]
        | a :: b :: ls => simp [Part.squeezed, Part.names, dropUnit, this]

/-! ## C35 -/

section
variable [LinearOrder L]

/-- The squeezed block has the values of `y`. -/
theorem squeezed_block {y : Larry L} {ids : List (List Nat)} {pls : List (List L)} (h : PosOf y.label ids pls) :
    (y.x.grid ids).squeeze.shape = (Part.labels (pls.map Part.squeezed)).map List.length ∧
    ∀ idx names, At (Part.labels (pls.map Part.squeezed)) idx names →
      y.Has (Part.names (pls.map Part.squeezed) names) ((y.x.grid ids).squeeze.get idx) := by
  obtain ⟨h1, h2, h3⟩ := h
  constructor
  · change (ids.map List.length).filter (· ≠ 1) = _
    rw [labels_squeezed, h3, ← dropUnit_shape _ _ rfl]
  · intro idx names hat
    rw [labels_squeezed] at hat
    obtain ⟨full, g1, rfl⟩ := At_unsqueeze hat
    rw [names_squeezed g1]
    have g1' := g1
    rw [← h1] at g1'
    refine ⟨_, ((At_pickAll h2).mp g1').2, ?_⟩
    change y.x.get _ = y.x.get (List.zipWith _ ids (unsqueeze (ids.map List.length) idx))
    rw [h3, h1]

theorem shows_of {y : Larry L} (hv : y.Valid) {label : List (List L)} {x : NDArray Val} {N : List L → List L}
    (h : ∀ idx names, At label idx names → y.Has (N names) (x.get idx)) (names : List L) (v : Val) :
    Holds label x names v ↔ Named label names ∧ y.Has (N names) v := by
  constructor
  · rintro ⟨idx, hat, rfl⟩
    exact ⟨Named_of_At hat, h idx names hat⟩
  · rintro ⟨hn, hh⟩
    obtain ⟨idx, hat⟩ := At_of_Named hn
    exact ⟨idx, hat, Holds_unique hv.nodup (h idx names hat) hh⟩

/-- C35. `y.lix[i0, i1, ...]`: the result is the block of cells with the labels selected on each axis;
axes with one label left disappear, and every value stays under its labels. -/
theorem C35_tuple {y : Larry L} (hv : y.Valid) (h0 : 0 ∉ y.shape) {its : List (LItem L)} {r : GetOut L}
    (h : y.lixGet (.tuple its) = .ok r) :
    ∃ pls, LTakes y.label its pls ∧
      r.Shows y.dtype (Part.labels (pls.map Part.squeezed)) (fun names v => y.Has (Part.names (pls.map Part.squeezed) names) v) ∧
      (∀ x, r ≠ .array x) ∧ ((∃ v, r = .scalar v) ↔ ∀ ls ∈ pls, ls.length = 1) := by
  have hne : y.shape ≠ [0] := fun hh => h0 (by rw [hh]; simp)
  simp only [Larry.lixGet, if_neg hne, if_neg h0] at h
  cases hs : lixSel y its with
  | error e => simp [hs] at h
  | ok sels =>
  simp only [hs] at h
  cases hi : ixIds y.shape (sels.map Prod.fst) with
  | error e => simp [hi] at h
  | ok ids =>
  simp only [hi] at h
  obtain ⟨h1, pls, h2, h3, h4, h5, -⟩ := lixSel_spec hv hs hi
  obtain ⟨g1, g2⟩ := squeezed_block h3
  rw [filter_squeezed h5] at h4
  have hones : Part.labels (pls.map Part.squeezed) = [] ↔ ∀ ls ∈ pls, ls.length = 1 := by
    rw [← filter_squeezed h5, List.filter_eq_nil_iff]
    refine forall₂_congr (fun ls hls => ?_)
    have : ls ≠ [] := fun hh => h5 (hh ▸ hls)
    have := List.length_pos_iff.mpr this
    simp; omega
  refine ⟨pls, h2, ?_⟩
  split at h
  · rename_i hsc
    simp only [Except.ok.injEq] at h
    subst h
    have hl : Part.labels (pls.map Part.squeezed) = [] := by
      rw [g1] at hsc; simpa using hsc
    refine ⟨⟨hl, g2 [] [] (by rw [hl]; trivial)⟩, by simp, ⟨fun _ => hones.mp hl, fun _ => ⟨_, rfl⟩⟩⟩
  · rename_i hsc
    rw [h4] at h
    cases hmk : Larry.mk' (y.x.grid ids).squeeze y.dtype (Part.labels (pls.map Part.squeezed)) with
    | error e => rw [hmk] at h; simp at h
    | ok z =>
      rw [hmk] at h
      simp only [Except.ok.injEq] at h
      subst h
      obtain ⟨rfl, hval⟩ := Larry.mk'_ok.mp hmk
      refine ⟨⟨rfl, rfl, hval, fun names v => ?_⟩, by simp, ⟨by rintro ⟨v, hv⟩; simp at hv, fun hh => ?_⟩⟩
      · exact shows_of hv g2 names v
      · have := hones.mpr hh
        rw [g1, this] at hsc
        exact absurd rfl hsc

/-- C35. When `y.lix[i0, i1, ...]` succeeds: no more entries than axes, every label and position asked
for exists, no axis is left without labels and no label is asked for twice. -/
theorem C35_tuple_succeeds {y : Larry L} (hv : y.Valid) (h0 : 0 ∉ y.shape) {its : List (LItem L)} :
    (∃ r, y.lixGet (.tuple its) = .ok r) ↔
      its.length ≤ y.ndim ∧ ∃ pls, LTakes y.label its pls ∧ ∀ ls ∈ pls, ls ≠ [] ∧ ls.Nodup := by
  have hne : y.shape ≠ [0] := fun hh => h0 (by rw [hh]; simp)
  constructor
  · rintro ⟨r, h⟩
    simp only [Larry.lixGet, if_neg hne, if_neg h0] at h
    cases hs : lixSel y its with
    | error e => simp [hs] at h
    | ok sels =>
    simp only [hs] at h
    cases hi : ixIds y.shape (sels.map Prod.fst) with
    | error e => simp [hi] at h
    | ok ids =>
    simp only [hi] at h
    obtain ⟨h1, pls, h2, h3, h4, h5, -⟩ := lixSel_spec hv hs hi
    refine ⟨h1, pls, h2, fun ls hls => ⟨fun hh => h5 (hh ▸ hls), ?_⟩⟩
    by_cases hlen : ls.length > 1
    · split at h
      · rename_i hsc
        have hm : ls ∈ Part.labels (pls.map Part.squeezed) := by
          rw [← filter_squeezed h5]; exact List.mem_filter.mpr ⟨hls, by simpa using hlen⟩
        rw [(squeezed_block h3).1] at hsc
        simp only [List.map_eq_nil_iff] at hsc
        rw [hsc] at hm; simp at hm
      · cases hmk : Larry.mk' (y.x.grid ids).squeeze y.dtype (sels.filterMap Prod.snd) with
        | error e => rw [hmk] at h; simp at h
        | ok z =>
          obtain ⟨rfl, hval⟩ := Larry.mk'_ok.mp hmk
          refine hval.nodup ls ?_
          rw [h4]; exact List.mem_filter.mpr ⟨hls, by simpa using hlen⟩
    · match ls, hlen with
      | [], _ => simp
      | [a], _ => simp
      | a :: b :: ls, hl => simp at hl
  · rintro ⟨h1, pls, h2, h3⟩
    obtain ⟨sels, ids, e1, e2⟩ := lixSel_of hv h1 h2 (fun hh => (h3 [] hh).1 rfl)
    obtain ⟨-, pls', h2', h3', h4', h5', -⟩ := lixSel_spec hv e1 e2
    have hpl : pls' = pls := LTakes.unique hv.nodup h2' h2
    subst hpl
    simp only [Larry.lixGet, if_neg hne, if_neg h0, e1, e2]
    split
    · exact ⟨_, rfl⟩
    · rename_i hsc
      rw [h4', filter_squeezed h5']
      have hs := (squeezed_block h3').1
      have : Larry.mk' (y.x.grid ids).squeeze y.dtype (Part.labels (pls'.map Part.squeezed)) =
          .ok ⟨(y.x.grid ids).squeeze, y.dtype, Part.labels (pls'.map Part.squeezed)⟩ := by
        refine Larry.mk'_ok.mpr ⟨rfl, hs, fun l hl => ?_, fun hh => ?_⟩
        · rw [← filter_squeezed h5'] at hl
          exact (h3 l (List.mem_filter.mp hl).1).2
        · rw [hs, hh] at hsc; exact hsc rfl
      rw [this]
      exact ⟨_, rfl⟩

/-- A single entry as an entry of `y[...]`. -/
theorem lixOne_spec {y : Larry L} (hv : y.Valid) {l : List L} {rest : List (List L)} (hl : y.label = l :: rest)
    {it : LItem L} {it' : NpItem} (h : y.lixOne it = .ok it') {ls : List L} :
    LPicks l it ls ↔ Picks l it'.toItem (it.part ls) := by
  have hl0 : y.label[0]? = some l := by rw [hl]; rfl
  have hnd : l.Nodup := hv.nodup l (by rw [hl]; simp)
  cases it with
  | list ns =>
    simp only [Larry.lixOne, Larry.lixList, getD_of_getElem? hl0] at h
    cases hk : labels2indices l ns with
    | error e => simp [hk] at h
    | ok ids =>
      simp only [hk, Except.ok.injEq] at h
      have hj := labels2indices_ok hk
      have hlen : ids.length = ns.length := by simpa using congrArg List.length hj
      have hin : ∀ n ∈ ns, n ∈ l := by
        intro n hn
        have : some n ∈ ids.map (fun i => l[i]?) := by rw [hj]; exact List.mem_map.mpr ⟨n, hn, rfl⟩
        obtain ⟨i, -, hi⟩ := List.mem_map.mp this
        exact List.mem_of_getElem? hi
      by_cases h1 : ns.length = 1
      · rw [if_pos h1] at h
        subst h
        obtain ⟨n, rfl⟩ := List.length_eq_one_iff.mp h1
        obtain ⟨i, rfl⟩ := List.length_eq_one_iff.mp (hlen.trans h1)
        simp only [List.map_cons, List.map_nil, List.cons.injEq, and_true] at hj
        have hat : PyAt l (i : Int) n := ⟨i, hj, Or.inl rfl⟩
        simp only [List.getD_cons_zero, NpItem.toItem, LItem.part]
        constructor
        · rintro ⟨rfl, -⟩
          exact hat
        · intro hp
          match ls, hp with
          | [m], hp =>
            have h1 : Picks l (.int (i : Int)) (.one m) := hp
            have h2 : Picks l (.int (i : Int)) (.one n) := hat
            have := Picks.unique hnd h1 h2
            simp only [Part.one.injEq] at this
            subst this
            exact ⟨rfl, hin⟩
      · rw [if_neg h1] at h
        subst h
        have hseq : Picks l (.seq (asInts ids)) (.many ns) :=
          forall₂_pyAt.mpr (pyItems_ok.mpr ⟨ids, mapRes_asInts (lt_of_map_some hj), hj⟩)
        have hmany : Part.squeezed ns = .many ns := by
          match ns, h1 with
          | [], _ => rfl
          | [a], h1 => simp at h1
          | _ :: _ :: _, _ => rfl
        simp only [NpItem.toItem, LItem.part]
        constructor
        · rintro ⟨rfl, -⟩
          rw [hmany]; exact hseq
        · intro hp
          have := Picks.unique hnd hp hseq
          have : ls = ns := by
            match ls, this with
            | [], this => simpa [Part.squeezed] using this
            | _ :: _ :: _, this => simpa [Part.squeezed] using this
          exact ⟨this, hin⟩
  | slice s =>
    simp only [Larry.lixOne] at h
    cases hs : slicemaker y 0 s with
    | error e => simp [hs] at h
    | ok ps =>
      simp only [hs, Except.ok.injEq] at h
      subst h
      obtain ⟨a, b, ha, hb, rfl⟩ := (slicemaker_ok hv hl0).mp hs
      simp only [NpItem.toItem, LItem.part, Picks]
      constructor
      · rintro ⟨a', b', ids, ha', hb', h1, h2⟩
        have e := (slicemaker_ok hv hl0).mpr ⟨a', b', ha', hb', rfl⟩
        rw [hs] at e
        simp only [Except.ok.injEq, PySlice.mk.injEq, and_true] at e
        obtain ⟨rfl, rfl⟩ := e
        exact ⟨ids, h1, h2⟩
      · rintro ⟨ids, h1, h2⟩
        exact ⟨a, b, ids, ha, hb, h1, h2⟩
  | int i =>
    simp only [Larry.lixOne, Except.ok.injEq] at h
    subst h
    simp only [NpItem.toItem, LItem.part]
    constructor
    · rintro ⟨n, h1, rfl⟩; exact h1
    · intro hp
      match ls, hp with
      | [m], hp => exact ⟨m, hp, rfl⟩
  | other => simp [Larry.lixOne] at h

theorem lixOne_of {y : Larry L} (hv : y.Valid) {l : List L} {rest : List (List L)} (hl : y.label = l :: rest)
    {it : LItem L} {ls : List L} (h : LPicks l it ls) : ∃ it', y.lixOne it = .ok it' := by
  have hl0 : y.label[0]? = some l := by rw [hl]; rfl
  cases it with
  | list ns =>
    obtain ⟨ids, hids⟩ := labels2indices_of h.2
    simp only [Larry.lixOne, Larry.lixList, getD_of_getElem? hl0, hids]
    exact ⟨_, rfl⟩
  | slice s =>
    obtain ⟨a, b, ids, ha, hb, -, -⟩ := h
    have hs := (slicemaker_ok hv hl0).mpr ⟨a, b, ha, hb, rfl⟩
    simp only [Larry.lixOne, hs]
    exact ⟨_, rfl⟩
  | int i => exact ⟨_, rfl⟩
  | other => simp [LPicks] at h

/-- The part determines the labels picked. -/
theorem part_inj {it : LItem L} {ls ls' : List L} (h : it.part ls = it.part ls') : ls = ls' := by
  have hsq : ∀ a b : List L, Part.squeezed a = Part.squeezed b → a = b := by
    intro a b h
    match a, b with
    | [], [] => rfl
    | [], [y] => simp [Part.squeezed] at h
    | [], _ :: _ :: _ => simp [Part.squeezed] at h
    | [x], [] => simp [Part.squeezed] at h
    | [x], [y] => simpa [Part.squeezed] using h
    | [x], _ :: _ :: _ => simp [Part.squeezed] at h
    | _ :: _ :: _, [] => simp [Part.squeezed] at h
    | _ :: _ :: _, [y] => simp [Part.squeezed] at h
    | _ :: _ :: _, _ :: _ :: _ => simpa [Part.squeezed] using h
  cases it with
  | slice s => simpa [LItem.part] using h
  | list ns => exact hsq _ _ h
  | int i => exact hsq _ _ h
  | other => exact hsq _ _ h

/-- Every part an entry takes is the part of a list of labels. -/
theorem part_of_picks {y : Larry L} {l : List L} {it : LItem L} {it' : NpItem} (h : y.lixOne it = .ok it') {part : Part L}
    (hp : Picks l it'.toItem part) (hns : ∀ n, it'.toItem (L := L) ≠ .mask n) (hlist : ∀ ns, it = .list ns → ∃ ls, part = it.part ls) :
    ∃ ls, part = it.part ls := by
  cases it with
  | list ns => exact hlist ns rfl
  | slice s =>
    simp only [Larry.lixOne] at h
    cases hs : slicemaker y 0 s with
    | error e => simp [hs] at h
    | ok ps =>
      simp only [hs, Except.ok.injEq] at h
      subst h
      cases part with
      | one n => simp [NpItem.toItem, Picks] at hp
      | many ls => exact ⟨ls, rfl⟩
  | int i =>
    simp only [Larry.lixOne, Except.ok.injEq] at h
    subst h
    cases part with
    | one n => exact ⟨[n], rfl⟩
    | many ls => simp [NpItem.toItem, Picks] at hp
  | other => simp [Larry.lixOne] at h

/-- What a single entry picks. -/
theorem lixOne_pick {y : Larry L} (hv : y.Valid) {l : List L} {rest : List (List L)} (hl : y.label = l :: rest)
    {it : LItem L} {it' : NpItem} {part : Part L} (h : y.lixOne it = .ok it') (hp : Picks l it'.toItem part) :
    ∃ ls, part = it.part ls ∧ LPicks l it ls := by
  have hl0 : y.label[0]? = some l := by rw [hl]; rfl
  have hnd : l.Nodup := hv.nodup l (by rw [hl]; simp)
  have : ∃ ls, part = it.part ls := by
    refine part_of_picks h hp ?_ ?_
    · intro n hn
      cases it with
      | list ns =>
        simp only [Larry.lixOne, Larry.lixList] at h
        cases hk : labels2indices (y.label.getD 0 []) ns with
        | error e => rw [hk] at h; simp at h
        | ok ids =>
          rw [hk] at h
          simp only [Except.ok.injEq] at h
          subst h
          split at hn <;> simp [NpItem.toItem] at hn
      | slice s =>
        simp only [Larry.lixOne] at h
        split at h
        · simp at h
        · simp only [Except.ok.injEq] at h; subst h; simp [NpItem.toItem] at hn
      | int i => simp only [Larry.lixOne, Except.ok.injEq] at h; subst h; simp [NpItem.toItem] at hn
      | other => simp [Larry.lixOne] at h
    · rintro ns rfl
      have : LPicks l (.list ns) ns := by
        refine ⟨rfl, ?_⟩
        simp only [Larry.lixOne, Larry.lixList, getD_of_getElem? hl0] at h
        cases hk : labels2indices l ns with
        | error e => simp [hk] at h
        | ok ids =>
          have hj := labels2indices_ok hk
          intro n hn
          have : some n ∈ ids.map (fun i => l[i]?) := by rw [hj]; exact List.mem_map.mpr ⟨n, hn, rfl⟩
          obtain ⟨i, -, hi⟩ := List.mem_map.mp this
          exact List.mem_of_getElem? hi
      exact ⟨ns, Picks.unique hnd hp ((lixOne_spec hv hl h).mp this)⟩
  obtain ⟨ls, rfl⟩ := this
  exact ⟨ls, rfl, (lixOne_spec hv hl h).mpr hp⟩

theorem one_parts {y : Larry L} (hv : y.Valid) {l : List L} {rest : List (List L)} (hl : y.label = l :: rest)
    {it' : NpItem} {parts : List (Part L)} (h : TakesParts y.label [it'.toItem] parts) :
    ∃ part, Picks l it'.toItem part ∧ parts = part :: rest.map Part.many := by
  have hp := h
  rw [hl] at hp
  have hpad : padTo (l :: rest).length [it'.toItem (L := L)] = it'.toItem :: List.replicate rest.length (Item.slice {}) := by
    simp [padTo]
  simp only [TakesParts, hpad, List.zip_cons_cons] at hp
  cases hp with
  | @cons _ part _ parts h1 _ =>
    refine ⟨part, h1, ?_⟩
    exact takesParts_unique hv.nodup h (by rw [hl]; exact Larry.takesParts_one.mpr h1)

theorem takes_part {it : LItem L} {ls : List L} {n : L} : (it.part ls).Takes n ↔ n ∈ ls := by
  have hsq : (Part.squeezed ls).Takes n ↔ n ∈ ls := by
    match ls with
    | [] => simp [Part.squeezed, Part.Takes]
    | [m] => simp [Part.squeezed, Part.Takes]
    | _ :: _ :: _ => simp [Part.squeezed, Part.Takes]
  cases it with
  | slice s => simp [LItem.part, Part.Takes]
  | list ns => exact hsq
  | int i => exact hsq
  | other => exact hsq

theorem inParts_whole {rest : List (List L)} {names : List L} : InParts (rest.map Part.many) names ↔ Named rest names := by
  induction rest generalizing names with
  | nil => cases names <;> simp [InParts, Named]
  | cons l rest ih =>
    cases names with
    | nil => simp [InParts, Named]
    | cons n names =>
      have := @ih names
      simp only [InParts] at this
      simp [InParts, Named, this, Part.Takes]

/-- C35. `y.lix[i]` with a single entry selects on the first axis; a list with one label or a position
removes the axis, a slice does not. -/
theorem C35_one {y : Larry L} (hv : y.Valid) (h0 : 0 ∉ y.shape) {l : List L} {rest : List (List L)} (hl : y.label = l :: rest)
    {it : LItem L} :
    (∀ r, y.lixGet (.one it) = .ok r → ∃ ls, LPicks l it ls ∧
      r.Shows y.dtype (Part.labels (it.part ls :: rest.map Part.many))
        (fun names v => y.Has (Part.names (it.part ls :: rest.map Part.many) names) v) ∧ ∀ x, r ≠ .array x) ∧
    ((∃ r, y.lixGet (.one it) = .ok r) ↔ ∃ ls, LPicks l it ls ∧ ls.Nodup) := by
  have hne : y.shape ≠ [0] := fun hh => h0 (by rw [hh]; simp)
  have hl0 : y.label[0]? = some l := by rw [hl]; rfl
  have hnd : l.Nodup := hv.nodup l (by rw [hl]; simp)
  have hpick := fun {it' part} => @lixOne_pick L _ y hv l rest hl it it' part
  have hm : ∀ (it' : NpItem) m, Item.lar m ∈ (Index.one (it'.toItem (L := L))).items → m.Valid := by
    intro it' m hmem
    simp only [Index.items, List.mem_singleton] at hmem
    exact absurd hmem.symm (toItem_ne_lar it' m)
  have hparts := fun {it' parts} => @one_parts L _ y hv l rest hl it' parts
  constructor
  · intro r h
    simp only [Larry.lixGet, if_neg hne, if_neg h0] at h
    cases hk : y.lixOne it with
    | error e => simp [hk] at h
    | ok it' =>
      simp only [hk] at h
      obtain ⟨parts, g1, g2⟩ := C33_getitem hv (hm it') (Larry.not_scrambled_one _) h
      obtain ⟨part, h1, rfl⟩ := hparts g1
      obtain ⟨ls, rfl, h2⟩ := hpick hk h1
      refine ⟨ls, h2, g2, fun x hx => ?_⟩
      have := (C33_kind hv (hm it') (Larry.not_scrambled_one _) h).2.mp ⟨x, hx⟩
      obtain ⟨its, he, -⟩ := this
      simp at he
  · have hsucc : ∀ {it'}, y.lixOne it = .ok it' → ((∃ r, y.lixGet (.one it) = .ok r) ↔
        ∃ parts, TakesParts y.label [it'.toItem] parts ∧ ∀ l ∈ Part.labels parts, l.Nodup) := by
      intro it' hk
      simp only [Larry.lixGet, if_neg hne, if_neg h0, hk]
      rw [C33_succeeds hv (hm it') (Larry.not_scrambled_one _)]
      constructor
      · exact fun h => h.2.2
      · intro h
        refine ⟨?_, Larry.oneList_one _, h⟩
        rw [← hv.label_length, hl]; simp [Index.items]
    have hnod : ∀ ls, LPicks l it ls → ((∀ l' ∈ Part.labels (it.part ls :: rest.map Part.many), l'.Nodup) ↔ ls.Nodup) := by
      intro ls _
      have hrest : ∀ l' ∈ Part.labels (rest.map Part.many), l'.Nodup := by
        rw [Larry.labels_whole]
        intro l' hl'
        exact hv.nodup l' (by rw [hl]; simp [hl'])
      have hmany : (∀ l' ∈ Part.labels (Part.many ls :: rest.map Part.many), l'.Nodup) ↔ ls.Nodup := by
        simp only [Part.labels, List.mem_cons]
        constructor
        · intro h; exact h ls (Or.inl rfl)
        · rintro h l' (rfl | h')
          · exact h
          · exact hrest l' h'
      have hsq : (∀ l' ∈ Part.labels (Part.squeezed ls :: rest.map Part.many), l'.Nodup) ↔ ls.Nodup := by
        match ls, hmany with
        | [], hmany => exact hmany
        | [n], _ => simp only [Part.squeezed, Part.labels]; exact ⟨fun _ => by simp, fun _ => hrest⟩
        | _ :: _ :: _, hmany => exact hmany
      cases it with
      | slice s => exact hmany
      | list ns => exact hsq
      | int i => exact hsq
      | other => exact hsq
    constructor
    · rintro ⟨r, h⟩
      cases hk : y.lixOne it with
      | error e => simp [Larry.lixGet, if_neg hne, if_neg h0, hk] at h
      | ok it' =>
        obtain ⟨parts, g1, g2⟩ := (hsucc hk).mp ⟨r, h⟩
        obtain ⟨part, h1, rfl⟩ := hparts g1
        obtain ⟨ls, rfl, h2⟩ := hpick hk h1
        exact ⟨ls, h2, (hnod ls h2).mp g2⟩
    · rintro ⟨ls, h1, h2⟩
      obtain ⟨it', hk⟩ := lixOne_of hv hl h1
      exact (hsucc hk).mpr ⟨it.part ls :: rest.map Part.many, by rw [hl]; exact Larry.takesParts_one.mpr ((lixOne_spec hv hl hk).mp h1),
        (hnod ls h1).mpr h2⟩

/-- C35. Larrys with an empty axis: with shape (0,) the larry itself comes back, else ValueError. -/
theorem C35_empty (y : Larry L) (idx : LIndex L) :
    (y.shape = [0] → y.lixGet idx = .ok (.larry y)) ∧
    (y.shape ≠ [0] → 0 ∈ y.shape → y.lixGet idx = .error .valueError) := by
  constructor
  · intro h; simp [Larry.lixGet, h]
  · intro h h'; simp [Larry.lixGet, h, h']

/-! ## C36 -/

theorem ixGrid_range {ids : List (List Nat)} {p : List Nat} :
    (∃ idx, InB (Larry.ixGrid ids).shape idx ∧ (Larry.ixGrid ids).get idx = p) ↔ List.Forall₂ (fun is i => i ∈ is) ids p := by
  simp only [Larry.ixGrid]
  induction ids generalizing p with
  | nil =>
    constructor
    · rintro ⟨idx, h, rfl⟩; exact .nil
    · intro h; cases h; exact ⟨[], by simp [InB], rfl⟩
  | cons is ids ih =>
    constructor
    · rintro ⟨idx, h, rfl⟩
      cases idx with
      | nil => simp [InB] at h
      | cons i idx =>
        exact .cons (getD_of_lt h.1) (ih.mp ⟨idx, h.2, rfl⟩)
    · intro h
      cases h with
      | @cons _ k _ p h1 h2 =>
        obtain ⟨idx, g1, g2⟩ := ih.mpr h2
        obtain ⟨i, hi, he⟩ := exists_getD h1
        exact ⟨i :: idx, ⟨hi, g1⟩, by simp only [List.zipWith_cons_cons, he, g2]⟩

theorem posOf_range {label : List (List L)} (hnd : ∀ l ∈ label, l.Nodup) {ids : List (List Nat)} {pls : List (List L)}
    (h : PosOf label ids pls) {p : List Nat} {names : List L} (hat : At label p names) :
    List.Forall₂ (fun is i => i ∈ is) ids p ↔ Named pls names := by
  obtain ⟨rfl, h2, -⟩ := h
  induction h2 generalizing p names with
  | nil => cases p <;> cases names <;> simp_all [At, pickAll, Named]
  | @cons l is ls iss h0 _ ih =>
    cases p with
    | nil => simp [At] at hat
    | cons i p =>
      cases names with
      | nil => simp [At] at hat
      | cons n names =>
        have hp : pickAll (l :: ls) (is :: iss) = is.filterMap (fun i => l[i]?) :: pickAll ls iss := rfl
        rw [hp, List.forall₂_cons, ih (fun l' hl' => hnd l' (by simp [hl'])) hat.2]
        simp only [Named]
        refine and_congr_left (fun _ => ?_)
        rw [List.mem_filterMap]
        constructor
        · intro hi; exact ⟨i, hi, hat.1⟩
        · rintro ⟨j, hj, he⟩
          rw [nodup_getElem?_inj (hnd l (by simp)) hat.1 he]; exact hj

/-- C36. `y.lix[i0, i1, ...] = v` with a scalar: it succeeds exactly when the selection exists, and then
the cells selected, and no others, become `v`. -/
theorem C36_scalar (conv : Val → Val) {y : Larry L} (hv : y.Valid) (h0 : 0 ∉ y.shape) {its : List (LItem L)} (v : Val) :
    ((∃ z, y.lixSet conv (.tuple its) (.scalar v) = .ok z) ↔
      its.length ≤ y.ndim ∧ ∃ pls, LTakes y.label its pls ∧ [] ∉ pls) ∧
    ∀ z, y.lixSet conv (.tuple its) (.scalar v) = .ok z →
      ∃ pls, LTakes y.label its pls ∧ z.Valid ∧ z.label = y.label ∧ z.dtype = y.dtype ∧
        (∀ names, Named y.label names → Named pls names → z.Has names v) ∧
        ∀ names w, y.Has names w → ¬ Named pls names → z.Has names w := by
  have hne : y.shape ≠ [0] := fun hh => h0 (by rw [hh]; simp)
  constructor
  · constructor
    · rintro ⟨z, h⟩
      simp only [Larry.lixSet, if_neg hne, if_neg h0] at h
      cases hs : lixSel y its with
      | error e => simp [hs] at h
      | ok sels =>
      simp only [hs] at h
      cases hi : ixIds y.shape (sels.map Prod.fst) with
      | error e => simp [hi] at h
      | ok ids =>
        obtain ⟨h1, pls, h2, -, -, h5, -⟩ := lixSel_spec hv hs hi
        exact ⟨h1, pls, h2, h5⟩
    · rintro ⟨h1, pls, h2, h3⟩
      obtain ⟨sels, ids, e1, e2⟩ := lixSel_of hv h1 h2 h3
      simp only [Larry.lixSet, if_neg hne, if_neg h0, e1, e2]
      exact ⟨_, rfl⟩
  · intro z h
    simp only [Larry.lixSet, if_neg hne, if_neg h0] at h
    cases hs : lixSel y its with
    | error e => simp [hs] at h
    | ok sels =>
    simp only [hs] at h
    cases hi : ixIds y.shape (sels.map Prod.fst) with
    | error e => simp [hi] at h
    | ok ids =>
      simp only [hi, Except.ok.injEq] at h
      subst h
      obtain ⟨h1, pls, h2, h3, -⟩ := lixSel_spec hv hs hi
      refine ⟨pls, h2, ⟨by rw [NDArray.assignGrid_shape]; exact hv.shape_eq, hv.nodup, hv.ndim_pos⟩, rfl, rfl, ?_, ?_⟩
      · intro names hn hin
        obtain ⟨p, hp⟩ := At_of_Named hn
        exact ⟨p, hp, NDArray.assignGrid_eq (fun _ _ _ => rfl) (ixGrid_range.mpr ((posOf_range hv.nodup h3 hp).mpr hin))⟩
      · rintro names w ⟨p, hp, rfl⟩ hin
        exact ⟨p, hp, NDArray.assignGrid_ne (fun idx hi he =>
          hin ((posOf_range hv.nodup h3 hp).mp (ixGrid_range.mp ⟨idx, hi, he⟩)))⟩

/-- C36. `y.lix[i0, i1, ...] = z` with a larry: it succeeds exactly when `z` has on every axis the labels
selected (in that order), and then every cell selected gets the value of `z` under the same labels and
no other cell changes. -/
theorem C36_larry (conv : Val → Val) {y z : Larry L} (hv : y.Valid) (hz : z.Valid) (h0 : 0 ∉ y.shape) {its : List (LItem L)} :
    ((∃ r, y.lixSet conv (.tuple its) (.lar z) = .ok r) ↔
      its.length ≤ y.ndim ∧ LTakes y.label its z.label ∧ [] ∉ z.label) ∧
    ∀ r, y.lixSet conv (.tuple its) (.lar z) = .ok r →
      r.Valid ∧ r.label = y.label ∧ r.dtype = y.dtype ∧
        (∀ names w, z.Has names w → r.Has names (conv w)) ∧
        ∀ names w, y.Has names w → ¬ Named z.label names → r.Has names w := by
  have hne : y.shape ≠ [0] := fun hh => h0 (by rw [hh]; simp)
  have main : ∀ r, y.lixSet conv (.tuple its) (.lar z) = .ok r → ∃ ids,
      its.length ≤ y.ndim ∧ LTakes y.label its z.label ∧ [] ∉ z.label ∧ PosOf y.label ids z.label ∧
      r = ⟨y.x.assignGrid (Larry.ixGrid ids) (fun i => conv (z.x.get i)), y.dtype, y.label⟩ := by
    intro r h
    simp only [Larry.lixSet, if_neg hne, if_neg h0] at h
    cases hs : lixSel y its with
    | error e => simp [hs] at h
    | ok sels =>
    simp only [hs] at h
    split at h
    · simp at h
    · cases hlb : y.lixLabels (sels.map Prod.fst) with
      | error e => simp [hlb] at h
      | ok labs =>
      simp only [hlb] at h
      split at h
      · simp at h
      · rename_i heq
        simp only [ne_eq, not_not] at heq
        cases hi : ixIds y.shape (sels.map Prod.fst) with
        | error e => simp [hi] at h
        | ok ids =>
          simp only [hi, Except.ok.injEq] at h
          obtain ⟨h1, pls, h2, h3, -, h5, h6⟩ := lixSel_spec hv hs hi
          rw [hlb] at h6
          simp only [Except.ok.injEq] at h6
          subst h6
          subst heq
          exact ⟨ids, h1, h2, h5, h3, h.symm⟩
  constructor
  · constructor
    · rintro ⟨r, h⟩
      obtain ⟨ids, h1, h2, h3, -⟩ := main r h
      exact ⟨h1, h2, h3⟩
    · rintro ⟨h1, h2, h3⟩
      obtain ⟨sels, ids, e1, e2⟩ := lixSel_of hv h1 h2 h3
      obtain ⟨-, pls, g1, g2, -, -, g3⟩ := lixSel_spec hv e1 e2
      have := LTakes.unique hv.nodup g1 h2
      subst this
      have hnd : z.ndim = sels.length := by
        have a1 : z.label.length = (y.label.zip (lixPad y.label.length its)).length := h2.length_eq.symm
        have a2 : sels.length = (lixPad y.label.length its).length := by
          unfold lixSel at e1
          rw [if_neg (by omega)] at e1
          have := (mapRes_ok.mp e1).length_eq
          rw [← this]
          simp [lixPad, hv.label_length]
        rw [List.length_zip, lixPad_length (by rw [hv.label_length]; exact h1)] at a1
        rw [lixPad_length (by rw [hv.label_length]; exact h1)] at a2
        rw [← hz.label_length, a1, a2]
        simp
      simp only [Larry.lixSet, if_neg hne, if_neg h0, e1, e2, g3]
      rw [if_neg (by simpa using hnd), if_neg (by simp)]
      exact ⟨_, rfl⟩
  · intro r h
    obtain ⟨ids, h1, h2, h3, h4, rfl⟩ := main r h
    refine ⟨⟨by rw [NDArray.assignGrid_shape]; exact hv.shape_eq, hv.nodup, hv.ndim_pos⟩, rfl, rfl, ?_, ?_⟩
    · rintro names w ⟨i, hi, rfl⟩
      have hi' := hi
      rw [← h4.1] at hi'
      have hat := (At_pickAll h4.2.1).mp hi'
      refine ⟨_, hat.2, NDArray.assignGrid_eq ?_ ⟨i, hat.1, rfl⟩⟩
      intro i' hi2 he
      have hsh : (Larry.ixGrid ids).shape = z.label.map List.length := h4.2.2
      rw [hsh] at hi2
      obtain ⟨ns', hns'⟩ := At_of_inB hi2
      have e1 := hns'
      rw [← h4.1] at e1
      have e2 := ((At_pickAll h4.2.1).mp e1).2
      have he' : List.zipWith (fun (l : List Nat) i => l.getD i 0) ids i' = List.zipWith (fun (l : List Nat) i => l.getD i 0) ids i := he
      rw [he'] at e2
      have e3 := At_names_unique e2 hat.2
      subst e3
      rw [At_unique hz.nodup hns' hi]
    · rintro names w ⟨p, hp, rfl⟩ hin
      exact ⟨p, hp, NDArray.assignGrid_ne (fun idx hi he =>
        hin ((posOf_range hv.nodup h4 hp).mp (ixGrid_range.mp ⟨idx, hi, he⟩)))⟩

/-- C36. `y.lix[i] = v` with a single entry and a scalar: it succeeds exactly when the entry selects, and
then the rows selected, and no others, become `v`. -/
theorem C36_one_scalar (conv : Val → Val) {y : Larry L} (hv : y.Valid) (h0 : 0 ∉ y.shape) {l : List L} {rest : List (List L)}
    (hl : y.label = l :: rest) {it : LItem L} (v : Val) :
    ((∃ z, y.lixSet conv (.one it) (.scalar v) = .ok z) ↔ ∃ ls, LPicks l it ls) ∧
    ∀ z, y.lixSet conv (.one it) (.scalar v) = .ok z →
      ∃ ls, LPicks l it ls ∧ z.Valid ∧ z.label = y.label ∧ z.dtype = y.dtype ∧
        (∀ n names, Named y.label (n :: names) → n ∈ ls → z.Has (n :: names) v) ∧
        ∀ n names w, y.Has (n :: names) w → n ∉ ls → z.Has (n :: names) w := by
  have hne : y.shape ≠ [0] := fun hh => h0 (by rw [hh]; simp)
  have hone : ∀ it' : NpItem, OneList ((NpIndex.one it').items.map (NpItem.toItem (L := L))) :=
    fun it' => Larry.oneList_one _
  constructor
  · constructor
    · rintro ⟨z, h⟩
      simp only [Larry.lixSet, if_neg hne, if_neg h0] at h
      cases hk : y.lixOne it with
      | error e => simp [hk] at h
      | ok it' =>
        simp only [hk] at h
        obtain ⟨-, parts, g⟩ := (C37_scalar conv hv (hone it') v).1.mp ⟨z, h⟩
        obtain ⟨part, g1, rfl⟩ := one_parts hv hl g
        obtain ⟨ls, -, g2⟩ := lixOne_pick hv hl hk g1
        exact ⟨ls, g2⟩
    · rintro ⟨ls, h⟩
      obtain ⟨it', hk⟩ := lixOne_of hv hl h
      simp only [Larry.lixSet, if_neg hne, if_neg h0, hk]
      refine (C37_scalar conv hv (hone it') v).1.mpr ⟨?_, it.part ls :: rest.map Part.many, ?_⟩
      · rw [← hv.label_length, hl]; simp [NpIndex.items]
      · rw [hl]; exact Larry.takesParts_one.mpr ((lixOne_spec hv hl hk).mp h)
  · intro z h
    simp only [Larry.lixSet, if_neg hne, if_neg h0] at h
    cases hk : y.lixOne it with
    | error e => simp [hk] at h
    | ok it' =>
      simp only [hk] at h
      obtain ⟨parts, g, a1, a2, a3, a4, a5⟩ := (C37_scalar conv hv (hone it') v).2 z h
      obtain ⟨part, g1, rfl⟩ := one_parts hv hl g
      obtain ⟨ls, rfl, g2⟩ := lixOne_pick hv hl hk g1
      have hin : ∀ n names, InParts (it.part ls :: rest.map Part.many) (n :: names) ↔ n ∈ ls ∧ Named rest names := by
        intro n names
        have := @inParts_whole L _ rest names
        simp only [InParts] at this
        simp [InParts, this, takes_part]
      refine ⟨ls, g2, a1, a2, a3, ?_, ?_⟩
      · intro n names hn hm
        refine a4 _ hn ((hin _ _).mpr ⟨hm, ?_⟩)
        rw [hl] at hn
        exact hn.2
      · intro n names w hw hm
        exact a5 _ _ hw (fun hh => hm ((hin _ _).mp hh).1)

/-- C36. `y.lix[i] = z` with a single entry and a larry: `z` has the labels of the selection, every cell
selected gets the value of `z` under the same labels and no other cell changes. -/
theorem C36_one_larry (conv : Val → Val) {y z : Larry L} (hv : y.Valid) (h0 : 0 ∉ y.shape) {l : List L} {rest : List (List L)}
    (hl : y.label = l :: rest) {it : LItem L} {r : Larry L} (h : y.lixSet conv (.one it) (.lar z) = .ok r) :
    ∃ ls, LPicks l it ls ∧ z.label = Part.labels (it.part ls :: rest.map Part.many) ∧
      r.Valid ∧ r.label = y.label ∧ r.dtype = y.dtype ∧
      (∀ names w, z.Has names w → r.Has (Part.names (it.part ls :: rest.map Part.many) names) (conv w)) ∧
      ∀ n names w, y.Has (n :: names) w → n ∉ ls → r.Has (n :: names) w := by
  have hne : y.shape ≠ [0] := fun hh => h0 (by rw [hh]; simp)
  simp only [Larry.lixSet, if_neg hne, if_neg h0] at h
  cases hk : y.lixOne it with
  | error e => simp [hk] at h
  | ok it' =>
    simp only [hk] at h
    obtain ⟨parts, g, b, a1, a2, a3, a4, a5⟩ := C37_larry (idx := .one it') conv hv (Larry.not_scrambled_one _) h
    obtain ⟨part, g1, rfl⟩ := one_parts hv hl g
    obtain ⟨ls, rfl, g2⟩ := lixOne_pick hv hl hk g1
    refine ⟨ls, g2, b, a1, a2, a3, a4, fun n names w hw hm => a5 _ _ hw ?_⟩
    intro hh
    simp only [InParts, List.forall₂_cons, takes_part] at hh
    exact hm hh.1

/-- C36. `y.lix[i] = z` succeeds exactly when `y.lix[i]` is a larry with the labels of `z`. -/
theorem C36_one_larry_succeeds (conv : Val → Val) {y z : Larry L} (hv : y.Valid) (h0 : 0 ∉ y.shape) {it : LItem L} :
    (∃ r, y.lixSet conv (.one it) (.lar z) = .ok r) ↔ ∃ s, y.lixGet (.one it) = .ok (.larry s) ∧ s.label = z.label := by
  have hne : y.shape ≠ [0] := fun hh => h0 (by rw [hh]; simp)
  simp only [Larry.lixSet, Larry.lixGet, if_neg hne, if_neg h0]
  cases hk : y.lixOne it with
  | error e => simp
  | ok it' =>
    simp only []
    constructor
    · rintro ⟨r, h⟩
      simp only [Larry.setAt] at h
      cases hg : y.getitem (NpIndex.one it').toIndex with
      | error e => simp [hg] at h
      | ok out =>
        cases out with
        | larry s =>
          simp only [hg] at h
          by_cases he : s.label = z.label
          · exact ⟨s, hg, he⟩
          · simp [if_neg he] at h
        | scalar v => simp [hg] at h
        | array x => simp [hg] at h
    · rintro ⟨s, h1, h2⟩
      exact C37_larry_aligned (idx := .one it') conv hv (Larry.not_scrambled_one _) h1 h2

/-- C36. Assignment to a larry with an empty axis raises. -/
theorem C36_empty (conv : Val → Val) (y : Larry L) (idx : LIndex L) (v : SetVal L) :
    (y.shape = [0] → y.lixSet conv idx v = .error .indexError) ∧
    (y.shape ≠ [0] → 0 ∈ y.shape → y.lixSet conv idx v = .error .valueError) := by
  constructor
  · intro h; simp [Larry.lixSet, h]
  · intro h h'; simp [Larry.lixSet, h, h']

end
/-- The hypotheses are met: `exA.lix[[20], [1]:]`, `exA.lix[[20]]`, and assignments. -/
example : exA.Valid ∧ 0 ∉ exA.shape ∧
    (∃ r, exA.lixGet (.tuple [.list [20], .slice { start := .list [1] }]) = .ok (.larry r) ∧ r.label = [[1, 2]] ∧
      r.x.get [0] = exA.x.get [1, 1]) ∧
    (∃ r, exA.lixGet (.one (.list [20])) = .ok (.larry r) ∧ r.label = [[3, 1, 2]]) ∧
    (∃ r, exA.lixGet (.tuple [.list [20], .list [2]]) = .ok (.scalar r) ∧ r = exA.x.get [1, 2]) ∧
    (∃ z, exA.lixSet id (.tuple [.list [20], .slice { start := .list [1] }]) (.scalar (fl 7)) = .ok z ∧
      z.x.get [1, 2] = fl 7 ∧ z.x.get [0, 2] = exA.x.get [0, 2]) ∧
    (∃ z, exA.lixSet id (.tuple [.list [20], .list [2, 3]])
        (.lar ⟨NDArray.ofList [1, 2] [fl 8, fl 9], .float, [[20], [2, 3]]⟩) = .ok z ∧ z.x.get [1, 0] = fl 9) ∧
    ∃ z, exA.lixSet id (.one (.list [20])) (.lar ⟨NDArray.ofList [3] [fl 7, fl 8, fl 9], .float, [[3, 1, 2]]⟩) = .ok z ∧
      z.x.get [1, 1] = fl 8 :=
  ⟨⟨rfl, by decide, by decide⟩, by decide, ⟨_, rfl, rfl, by decide +kernel⟩, ⟨_, rfl, rfl⟩, ⟨_, rfl, by decide +kernel⟩,
    ⟨_, rfl, by decide +kernel, by decide +kernel⟩, ⟨_, rfl, by decide +kernel⟩, ⟨_, rfl, by decide +kernel⟩⟩

end La
