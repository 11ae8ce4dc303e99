import Verif.Flarry
import Verif.BinopFacts
import Verif.MorphLike

/-! # Facts about `align_raw` -/

namespace La
open Larry
variable {L : Type _} [LinearOrder L]

/-! ## Specification vocabulary for joins -/

/-- The join introduces a label on this axis that the first input does not have. -/
def NewIn1 (j : Join) (l1 l2 : List L) : Prop := (j = .outer ∨ j = .right) ∧ ∃ b ∈ l2, b ∉ l1

/-- The join introduces a label on this axis that the second input does not have. -/
def NewIn2 (j : Join) (l1 l2 : List L) : Prop := (j = .outer ∨ j = .left) ∧ ∃ b ∈ l1, b ∉ l2

/-- Labels of the two outputs along one axis. -/
def AxisJoined (j : Join) (l1 l2 r1 r2 : List L) : Prop :=
  match j with
  | .inner => InnerJoined l1 l2 r1 ∧ r2 = r1
  | .outer => OuterJoined l1 l2 r1 ∧ r2 = r1
  | .left => r1 = l1 ∧ r2 = l1
  | .right => r1 = l2 ∧ r2 = l2
  | .skip => r1 = l1 ∧ r2 = l2
  | .other => False

/-- Axis by axis: joins, labels of the inputs, labels of the outputs. -/
inductive AllJoined : List Join → List (List L) → List (List L) → List (List L) → List (List L) → Prop
  | nil : AllJoined [] [] [] [] []
  | cons {j l1 l2 r1 r2 js ls1 ls2 rs1 rs2} : AxisJoined j l1 l2 r1 r2 →
      AllJoined js ls1 ls2 rs1 rs2 →
      AllJoined (j :: js) (l1 :: ls1) (l2 :: ls2) (r1 :: rs1) (r2 :: rs2)

/-- dtype without a missing marker. -/
def NoMarker (d : DType) : Prop := d = .int ∨ d = .bool

open Classical in
/-- float if the dtype has no marker and `c`; else unchanged. -/
noncomputable def floatIf (d : DType) (c : Prop) : DType := if NoMarker d ∧ c then .float else d

theorem floatIf_floatIf (d : DType) (c c' : Prop) :
    floatIf (floatIf d c) c' = floatIf d (c ∨ c') := by
  unfold floatIf
  cases d <;> by_cases h1 : c <;> by_cases h2 : c' <;> simp [h1, h2, NoMarker]

theorem floatIf_congr {d : DType} {c c' : Prop} (h : c ↔ c') : floatIf d c = floatIf d c' := by
  rw [propext h]

theorem floatIf_false {d : DType} {c : Prop} (h : ¬ c) : floatIf d c = d := by
  simp [floatIf, h]

theorem noMarker_iff {d : DType} : NoMarker d ↔ missingMarker d = none := missingMarker_none.symm

theorem floatIf_of_marker {d : DType} {c : Prop} {m : Val} (h : missingMarker d = some m) :
    floatIf d c = d := by
  have : ¬ NoMarker d := fun h' => by rw [noMarker_iff.mp h'] at h; simp at h
  simp [floatIf, this]

theorem castVal_floatIf (d : DType) (c c' : Prop) :
    castVal (floatIf d c) (floatIf (floatIf d c) c') ∘ castVal d (floatIf d c) =
      castVal d (floatIf (floatIf d c) c') := by
  funext v
  cases d <;> by_cases h1 : c <;> by_cases h2 : c' <;> simp [floatIf, h1, h2, castVal, NoMarker]

/-- Effect on one array of one axis step. -/
structure SideRel (done rest : List (List L)) (l r : List L) (x : NDArray Val) (d : DType)
    (x' : NDArray Val) (d' : DType) : Prop where
  shape_eq : x'.shape = (done ++ r :: rest).map List.length
  dtype_eq : d' = floatIf d (∃ b ∈ r, b ∉ l)
  re : Reindexed (done ++ l :: rest) x (done ++ r :: rest) x' (castVal d d') (missingMarker d')

theorem SideRel.refl {done rest : List (List L)} {l : List L} {x : NDArray Val} {d : DType}
    (hs : x.shape = (done ++ l :: rest).map List.length) : SideRel done rest l l x d x d where
  shape_eq := hs
  dtype_eq := by rw [floatIf_false]; rintro ⟨b, h, h'⟩; exact h' h
  re := by rw [castVal_self]; exact Reindexed.refl _ _ _

/-- `take` of the positions found by `listmap_fill(…, fill=0)`. -/
theorem take_fill {label : List (List L)} {x : NDArray Val} {ax : Nat} {l lab : List L}
    (hl : label[ax]? = some l) (hs : x.shape = label.map List.length) (hne : lab = [] ∨ l ≠ []) :
    ∃ ids, x.take (listmapFill l lab 0).1 ax = .ok (x.gather ids ax) ∧ ids.length = lab.length ∧
      (∀ (k : Nat) b, lab[k]? = some b → b ∈ l → ∃ i, ids[k]? = some i ∧ l[i]? = some b) ∧
      (∀ (k : Nat) b, lab[k]? = some b → (k ∈ (listmapFill l lab 0).2 ↔ b ∉ l)) := by
  rw [listmapFill_eq]
  obtain ⟨ids, hids⟩ : ∃ ids : List Nat, ids.map Int.ofNat = lab.map (fillVal l 0) := by
    refine ⟨lab.map (fun b => (fillVal l 0 b).toNat), ?_⟩
    rw [List.map_map]
    apply List.map_congr_left
    intro b _
    by_cases hb : b ∈ l
    · obtain ⟨i, hi, _⟩ := fillVal_mem (0 : Int) hb
      simp [hi]
    · simp [fillVal_not_mem (0 : Int) hb]
  have hlen : ids.length = lab.length := by simpa using congrArg List.length hids
  have hat : ∀ (k : Nat) b, lab[k]? = some b → ∃ i, ids[k]? = some i ∧
      (i : Int) = fillVal l 0 b := by
    intro k b hb
    have := congrArg (fun t => t[k]?) hids
    simp only [List.getElem?_map, hb, Option.map_some] at this
    cases hi : ids[k]? with
    | none => simp [hi] at this
    | some i => exact ⟨i, rfl, by simpa [hi] using this⟩
  have hbound : ∀ i ∈ ids, i < l.length := by
    intro i hi
    obtain ⟨k, hk⟩ := List.mem_iff_getElem?.mp hi
    have hk' : k < lab.length := by rw [← hlen]; exact (List.getElem?_eq_some_iff.mp hk).1
    obtain ⟨j, hj, hj'⟩ := hat k lab[k] (by simp)
    rw [hk] at hj; cases hj
    by_cases hb : lab[k] ∈ l
    · obtain ⟨i', hi', hi''⟩ := fillVal_mem (0 : Int) hb
      rw [hi'] at hj'
      have : i = i' := by exact_mod_cast hj'
      subst this
      exact (List.getElem?_eq_some_iff.mp hi'').1
    · rw [fillVal_not_mem (0 : Int) hb] at hj'
      have hll : l ≠ [] := by
        rcases hne with h | h
        · subst h; simp at hk'
        · exact h
      have := List.length_pos_iff.mpr hll
      omega
  have hsh : x.shape[ax]? = some l.length := by rw [hs]; simp [hl]
  refine ⟨ids, ?_, hlen, ?_, ?_⟩
  · rw [← hids]; exact take_nat hsh hbound
  · intro k b hb hbl
    obtain ⟨i, hi, hi'⟩ := hat k b hb
    obtain ⟨j, hj, hj'⟩ := fillVal_mem (0 : Int) hbl
    rw [hj] at hi'
    have : i = j := by exact_mod_cast hi'
    subst this
    exact ⟨i, hi, hj'⟩
  · intro k b hb
    rw [mem_missPos]
    constructor
    · rintro ⟨b', hb', h⟩; rw [hb] at hb'; cases hb'; exact h
    · intro h; exact ⟨b, hb, h⟩

/-- Filling from an empty axis: numpy refuses. -/
theorem take_fill_empty {x : NDArray Val} {ax : Nat} {lab : List L}
    (hax : x.shape[ax]? = some 0) (hne : lab ≠ []) :
    x.take (listmapFill ([] : List L) lab 0).1 ax = .error .indexError := by
  have hlt := (List.getElem?_eq_some_iff.mp hax).1
  have h1 : pyIdx x.ndim (ax : Int) = some ax := pyIdx_ofNat (by simpa [NDArray.ndim] using hlt)
  have h2 : x.shape.getD ax 0 = 0 := by simp [List.getD, hax]
  rw [listmapFill_eq]
  simp only [NDArray.take, h1, h2]
  cases lab with
  | nil => exact absurd rfl hne
  | cons b t =>
    have : fillVal ([] : List L) 0 b = 0 := fillVal_not_mem 0 (by simp)
    simp only [List.map_cons, mapRes, this]
    rfl

theorem fillMissing_spec {done rest : List (List L)} {x : NDArray Val} {l lab : List L} {d : DType}
    (hs : x.shape = (done ++ l :: rest).map List.length) (hnd : ∀ l' ∈ done ++ l :: rest, l'.Nodup)
    {cast : Bool} (hne : lab = [] ∨ l ≠ [])
    (hc : ¬ (cast = false ∧ NoMarker d ∧ ∃ b ∈ lab, b ∉ l)) :
    ∃ xt x' d', x.take (listmapFill l lab 0).1 done.length = .ok xt ∧
      fillMissing cast xt d (listmapFill l lab 0).2 done.length = .ok (x', d') ∧
      SideRel done rest l lab x d x' d' := by
  have hl : (done ++ l :: rest)[done.length]? = some l := by simp
  have hset : (done ++ l :: rest).set done.length lab = done ++ lab :: rest := by simp
  obtain ⟨ids, h1, h2, h3, h4⟩ := take_fill hl hs hne
  have hgs := gather_shape (x := x) (ax := done.length) hs h2
  rw [hset] at hgs
  have hfill := fun m => reindexed_gather_fill (x := x) hl hnd h2 h3 h4 m
  have hfillF := fun m => reindexed_gather_fill (x := x.map Val.toFloat) hl hnd h2 h3 h4 m
  rw [hset] at hfill hfillF
  refine ⟨x.gather ids done.length, ?_⟩
  by_cases hnew : ∃ b ∈ lab, b ∉ l
  · have hmiss : (listmapFill l lab 0).2.length > 0 := by
      obtain ⟨b, hb, hbl⟩ := hnew
      obtain ⟨k, hk⟩ := List.mem_iff_getElem?.mp hb
      exact List.length_pos_of_mem ((h4 k b hk).mpr hbl)
    simp only [fillMissing, if_pos hmiss]
    cases hm : missingMarker d with
    | some m =>
      refine ⟨_, _, h1, rfl, hgs, (floatIf_of_marker hm).symm, ?_⟩
      rw [castVal_self, hm]; exact hfill m
    | none =>
      have hno := noMarker_iff.mpr hm
      have hcast : cast = true := by
        cases cast with
        | true => rfl
        | false => exact absurd ⟨rfl, hno, hnew⟩ hc
      simp only [hcast, if_true]
      refine ⟨_, _, h1, rfl, hgs, by simp [floatIf, hno, hnew], ?_⟩
      have hmap : Reindexed (done ++ l :: rest) x (done ++ l :: rest) (x.map Val.toFloat) Val.toFloat
          (some (Val.flt Flt.nan)) := (Reindexed.refl (done ++ l :: rest) x none).map Val.toFloat
            |>.of_subset _ (fun _ h => h)
      have h5 := hmap.trans (hfillF (.flt .nan)) (fun ⟨_, h, h'⟩ => absurd h h') (fun _ _ h => h)
      refine Reindexed.congr_f ?_ h5
      intro _ v _
      have : d ≠ .float := by rintro rfl; simp [NoMarker] at hno
      simp [castVal, this]
  · have hold : ∀ b ∈ lab, b ∈ l := fun b hb => by
      by_contra h; exact hnew ⟨b, hb, h⟩
    have hmiss : ¬ ((listmapFill l lab 0).2.length > 0) := by
      intro h
      obtain ⟨k, hk⟩ := List.exists_mem_of_length_pos h
      rw [listmapFill_eq] at hk
      obtain ⟨b, hb, hbl⟩ := mem_missPos.mp hk
      exact hbl (hold b (List.mem_of_getElem? hb))
    have hids' : ids.map (fun i => l[i]?) = lab.map some := by
      apply List.ext_getElem?
      intro k
      simp only [List.getElem?_map]
      cases hb : lab[k]? with
      | none =>
        have : ids[k]? = none := by
          rw [List.getElem?_eq_none_iff] at hb ⊢; omega
        simp [this]
      | some b =>
        obtain ⟨i, hi, hi'⟩ := h3 k b hb (hold b (List.mem_of_getElem? hb))
        simp [hi, hi']
    simp only [fillMissing, if_neg hmiss]
    refine ⟨_, _, h1, rfl, hgs, (floatIf_false hnew).symm, ?_⟩
    rw [castVal_self]
    have := reindexed_gather (x := x) hl hnd hids' (missingMarker d)
    rw [hset] at this
    exact this

theorem listmap_side {done rest : List (List L)} {x : NDArray Val} {l lab : List L} (d : DType)
    (hs : x.shape = (done ++ l :: rest).map List.length) (hnd : ∀ l' ∈ done ++ l :: rest, l'.Nodup)
    (hsub : ∀ b ∈ lab, b ∈ l) :
    ∃ ids x', listmap l lab = .ok ids ∧ x.take (ids.map Int.ofNat) done.length = .ok x' ∧
      SideRel done rest l lab x d x' d := by
  obtain ⟨ids, h1⟩ := listmap_total hsub
  have h2 := listmap_ok h1
  have h3 : x.take (ids.map Int.ofNat) (done.length : Int) = .ok (x.gather ids done.length) :=
    take_nat (n := l.length) (by simp [hs]) (listmap_bounds h2)
  have h4 := take_step hs hnd h2
  have hno : ¬ ∃ b ∈ lab, b ∉ l := fun ⟨b, hb, h⟩ => h (hsub b hb)
  refine ⟨ids, _, h1, h3, h4.1, (floatIf_false hno).symm, ?_⟩
  rw [castVal_self]
  refine h4.2.of_subset _ ?_
  intro names hN
  obtain ⟨n1, n2, rfl, hlen, k1, k2⟩ := Named_split hN
  rw [Named_append hlen]
  cases n2 with
  | nil => simp [Named] at k2
  | cons n ns => exact ⟨k1, hsub _ k2.1, k2.2⟩

/-- What can go wrong on one axis. -/
inductive AxisFails (cast : Bool) (d1 d2 : DType) (j : Join) (l1 l2 : List L) : PyErr → Prop
  | unknown : j = .other → AxisFails cast d1 d2 j l1 l2 .valueError
  | empty1 : NewIn1 j l1 l2 → l1 = [] → AxisFails cast d1 d2 j l1 l2 .indexError
  | empty2 : NewIn2 j l1 l2 → l2 = [] → AxisFails cast d1 d2 j l1 l2 .indexError
  | cast1 : cast = false → NoMarker d1 → NewIn1 j l1 l2 → AxisFails cast d1 d2 j l1 l2 .typeError
  | cast2 : cast = false → NoMarker d2 → NewIn2 j l1 l2 → AxisFails cast d1 d2 j l1 l2 .typeError

omit [LinearOrder L] in
theorem exists_new_of_ne_nil_empty {l1 l2 : List L} (h1 : l1 = []) (h : l1 ≠ l2) :
    ∃ b ∈ l2, b ∉ l1 := by
  subst h1
  cases l2 with
  | nil => exact absurd rfl h
  | cons b t => exact ⟨b, by simp, by simp⟩

theorem alignRawAxis_ok {cast : Bool} {j : Join} {l1 l2 : List L} {done1 done2 rest1 rest2 : List (List L)}
    {s : AlignSt} (hlen : done1.length = done2.length)
    (hs1 : s.x1.shape = (done1 ++ l1 :: rest1).map List.length)
    (hs2 : s.x2.shape = (done2 ++ l2 :: rest2).map List.length)
    (hn1 : ∀ l ∈ done1 ++ l1 :: rest1, l.Nodup) (hn2 : ∀ l ∈ done2 ++ l2 :: rest2, l.Nodup)
    (hok : ∀ e, ¬ AxisFails cast s.d1 s.d2 j l1 l2 e) :
    ∃ s' lab r1 r2, alignRawAxis cast j l1 l2 done1.length s = .ok (s', lab) ∧
      AxisJoined j l1 l2 r1 r2 ∧ r1 = lab.getD l1 ∧ r2 = lab.getD l2 ∧ (lab = none ↔ j = .skip) ∧
      SideRel done1 rest1 l1 r1 s.x1 s.d1 s'.x1 s'.d1 ∧
      SideRel done2 rest2 l2 r2 s.x2 s.d2 s'.x2 s'.d2 ∧
      ((∃ b ∈ r1, b ∉ l1) ↔ NewIn1 j l1 l2) ∧ ((∃ b ∈ r2, b ∉ l2) ↔ NewIn2 j l1 l2) := by
  have hsame : ∀ l : List L, ¬ ∃ b ∈ l, b ∉ l := fun l ⟨b, h, h'⟩ => h' h
  cases j with
  | other => exact absurd (AxisFails.unknown rfl) (hok _)
  | skip =>
    refine ⟨s, none, l1, l2, rfl, ⟨rfl, rfl⟩, rfl, rfl, by simp, .refl hs1, .refl hs2, ?_, ?_⟩ <;>
      simp [NewIn1, NewIn2]
  | inner =>
    by_cases heq : l1 = l2
    · subst heq
      refine ⟨s, some l1, l1, l1, by simp [alignRawAxis], ⟨⟨fun _ => rfl, fun h => absurd rfl h⟩, rfl⟩,
        rfl, rfl, by simp, .refl hs1, .refl hs2, ?_, ?_⟩ <;> simp [NewIn1, NewIn2]
    · have hj := innerJoined_sorted heq
      obtain ⟨i1, x1, a1, a2, a3⟩ := listmap_side s.d1 hs1 hn1 (fun b hb => (hj.mem.mp hb).1)
      obtain ⟨i2, x2, b1, b2, b3⟩ := listmap_side s.d2 hs2 hn2 (fun b hb => (hj.mem.mp hb).2)
      rw [← hlen] at b2
      refine ⟨{ s with x1 := x1, v1 := false, x2 := x2, v2 := false }, some (pySorted (setInter l1 l2)), _, _,
        by simp only [alignRawAxis, if_neg heq, a1, a2, b1, b2], ⟨hj, rfl⟩, rfl, rfl, by simp, a3, b3, ?_, ?_⟩
      · simp only [NewIn1, reduceCtorEq, or_self, false_and, iff_false]
        rintro ⟨b, hb, h⟩; exact h (hj.mem.mp hb).1
      · simp only [NewIn2, reduceCtorEq, or_self, false_and, iff_false]
        rintro ⟨b, hb, h⟩; exact h (hj.mem.mp hb).2
  | outer =>
    by_cases heq : l1 = l2
    · subst heq
      refine ⟨s, some l1, l1, l1, by simp [alignRawAxis], ⟨⟨fun _ => rfl, fun h => absurd rfl h⟩, rfl⟩,
        rfl, rfl, by simp, .refl hs1, .refl hs2, ?_, ?_⟩ <;> simp [NewIn1, NewIn2]
    · have hj := outerJoined_sorted heq
      have e1 : (∃ b ∈ pySorted (setUnion l1 l2), b ∉ l1) ↔ NewIn1 .outer l1 l2 := by
        constructor
        · rintro ⟨b, hb, h⟩; exact ⟨.inl rfl, b, (hj.mem.mp hb).resolve_left h, h⟩
        · rintro ⟨_, b, hb, h⟩; exact ⟨b, hj.mem.mpr (.inr hb), h⟩
      have e2 : (∃ b ∈ pySorted (setUnion l1 l2), b ∉ l2) ↔ NewIn2 .outer l1 l2 := by
        constructor
        · rintro ⟨b, hb, h⟩; exact ⟨.inl rfl, b, (hj.mem.mp hb).resolve_right h, h⟩
        · rintro ⟨_, b, hb, h⟩; exact ⟨b, hj.mem.mpr (.inl hb), h⟩
      have ne1 : l1 ≠ [] := fun h => hok _ (.empty1 ⟨.inl rfl, exists_new_of_ne_nil_empty h heq⟩ h)
      have ne2 : l2 ≠ [] := fun h => hok _ (.empty2 ⟨.inl rfl,
        exists_new_of_ne_nil_empty h (Ne.symm heq)⟩ h)
      obtain ⟨t1, x1, d1, a1, a2, a3⟩ := fillMissing_spec (lab := pySorted (setUnion l1 l2)) (d := s.d1)
        (cast := cast) hs1 hn1 (.inr ne1) (fun ⟨h, h', h''⟩ => hok _ (.cast1 h h' (e1.mp h'')))
      obtain ⟨t2, x2, d2, b1, b2, b3⟩ := fillMissing_spec (lab := pySorted (setUnion l1 l2)) (d := s.d2)
        (cast := cast) hs2 hn2 (.inr ne2) (fun ⟨h, h', h''⟩ => hok _ (.cast2 h h' (e2.mp h'')))
      rw [← hlen] at b1 b2
      refine ⟨⟨x1, d1, false, x2, d2, false⟩, some (pySorted (setUnion l1 l2)), _, _,
        by simp only [alignRawAxis, if_neg heq, a1, a2, b1, b2], ⟨hj, rfl⟩, rfl, rfl, by simp, a3, b3, e1, e2⟩
  | left =>
    by_cases heq : l1 = l2
    · subst heq
      refine ⟨s, some l1, l1, l1, by simp [alignRawAxis], ⟨rfl, rfl⟩,
        rfl, rfl, by simp, .refl hs1, .refl hs2, ?_, ?_⟩ <;> simp [NewIn1, NewIn2]
    · have e2 : (∃ b ∈ l1, b ∉ l2) ↔ NewIn2 .left l1 l2 := by simp [NewIn2]
      have ne2 : l1 = [] ∨ l2 ≠ [] := by
        by_cases h : l2 = []
        · exact absurd (AxisFails.empty2 (e2.mp (exists_new_of_ne_nil_empty h (Ne.symm heq))) h) (hok _)
        · exact .inr h
      obtain ⟨t2, x2, d2, b1, b2, b3⟩ := fillMissing_spec (lab := l1) (d := s.d2)
        (cast := cast) hs2 hn2 ne2 (fun ⟨h, h', h''⟩ => hok _ (.cast2 h h' (e2.mp h'')))
      rw [← hlen] at b1 b2
      refine ⟨{ s with x2 := x2, d2 := d2, v2 := false }, some _, _, _,
        by simp only [alignRawAxis, if_neg heq, b1, b2], ⟨rfl, rfl⟩, rfl, rfl, by simp, .refl hs1, b3,
          ?_, e2⟩
      simp [NewIn1]
  | right =>
    by_cases heq : l1 = l2
    · subst heq
      refine ⟨s, some l1, l1, l1, by simp [alignRawAxis], ⟨rfl, rfl⟩,
        rfl, rfl, by simp, .refl hs1, .refl hs2, ?_, ?_⟩ <;> simp [NewIn1, NewIn2]
    · have e1 : (∃ b ∈ l2, b ∉ l1) ↔ NewIn1 .right l1 l2 := by simp [NewIn1]
      have ne1 : l2 = [] ∨ l1 ≠ [] := by
        by_cases h : l1 = []
        · exact absurd (AxisFails.empty1 (e1.mp (exists_new_of_ne_nil_empty h heq)) h) (hok _)
        · exact .inr h
      obtain ⟨t1, x1, d1, a1, a2, a3⟩ := fillMissing_spec (lab := l2) (d := s.d1)
        (cast := cast) hs1 hn1 ne1 (fun ⟨h, h', h''⟩ => hok _ (.cast1 h h' (e1.mp h'')))
      refine ⟨{ s with x1 := x1, d1 := d1, v1 := false }, some _, _, _,
        by simp only [alignRawAxis, if_neg heq, a1, a2], ⟨rfl, rfl⟩, rfl, rfl, by simp, a3, .refl hs2,
          e1, ?_⟩
      simp [NewIn2]

theorem noMarker_floatIf {d : DType} {c : Prop} (h : NoMarker (floatIf d c)) : NoMarker d := by
  cases d <;> by_cases hc : c <;> simp_all [floatIf, NoMarker]

theorem AxisFails.mono {cast : Bool} {d1 d2 d1' d2' : DType} {j : Join} {l1 l2 : List L} {e : PyErr}
    (h1 : cast = false → NoMarker d1 → NoMarker d1') (h2 : cast = false → NoMarker d2 → NoMarker d2')
    (h : AxisFails cast d1 d2 j l1 l2 e) : AxisFails cast d1' d2' j l1 l2 e := by
  cases h with
  | unknown h => exact .unknown h
  | empty1 h h' => exact .empty1 h h'
  | empty2 h h' => exact .empty2 h h'
  | cast1 h h' h'' => exact .cast1 h (h1 h h') h''
  | cast2 h h' h'' => exact .cast2 h (h2 h h') h''

/-- The exception of a failing axis.  Taking labels out of an empty axis comes before the casts. -/
def AxisRaises (cast : Bool) (d1 d2 : DType) (j : Join) (l1 l2 : List L) (e : PyErr) : Prop :=
  AxisFails cast d1 d2 j l1 l2 e ∧ (AxisFails cast d1 d2 j l1 l2 .indexError → e = .indexError)

theorem noIndex {cast : Bool} {d1 d2 : DType} {j : Join} {l1 l2 : List L} {e : PyErr}
    (h1 : l1 ≠ [] ∨ ¬ NewIn1 j l1 l2) (h2 : l2 ≠ [] ∨ ¬ NewIn2 j l1 l2) :
    AxisFails cast d1 d2 j l1 l2 .indexError → e = .indexError := by
  intro h
  cases h with
  | empty1 a b => exact absurd a (h1.resolve_left (not_not.mpr b))
  | empty2 a b => exact absurd a (h2.resolve_left (not_not.mpr b))

theorem AxisRaises.unique {cast : Bool} {d1 d2 : DType} {j : Join} {l1 l2 : List L} {e e' : PyErr}
    (h : AxisRaises cast d1 d2 j l1 l2 e) (h' : AxisRaises cast d1 d2 j l1 l2 e') : e = e' := by
  obtain ⟨h1, h2⟩ := h
  obtain ⟨h1', h2'⟩ := h'
  cases h1 with
  | unknown h => cases h1' <;> simp_all [NewIn1, NewIn2]
  | empty1 a b => exact (h2' (.empty1 a b)).symm
  | empty2 a b => exact (h2' (.empty2 a b)).symm
  | cast1 a b c =>
    cases h1' with
    | unknown h => simp_all [NewIn1]
    | empty1 a b => exact h2 (.empty1 a b)
    | empty2 a b => exact h2 (.empty2 a b)
    | cast1 => rfl
    | cast2 => rfl
  | cast2 a b c =>
    cases h1' with
    | unknown h => simp_all [NewIn2]
    | empty1 a b => exact h2 (.empty1 a b)
    | empty2 a b => exact h2 (.empty2 a b)
    | cast1 => rfl
    | cast2 => rfl

theorem alignRawAxis_fail {cast : Bool} {j : Join} {l1 l2 : List L}
    {done1 done2 rest1 rest2 : List (List L)} {s : AlignSt} (hlen : done1.length = done2.length)
    (hs1 : s.x1.shape = (done1 ++ l1 :: rest1).map List.length)
    (hs2 : s.x2.shape = (done2 ++ l2 :: rest2).map List.length)
    (hn1 : ∀ l ∈ done1 ++ l1 :: rest1, l.Nodup) (hn2 : ∀ l ∈ done2 ++ l2 :: rest2, l.Nodup)
    {e0 : PyErr} (hf : AxisFails cast s.d1 s.d2 j l1 l2 e0) :
    ∃ e, alignRawAxis cast j l1 l2 done1.length s = .error e ∧
      AxisRaises cast s.d1 s.d2 j l1 l2 e := by
  have hsh1 : s.x1.shape[done1.length]? = some l1.length := by rw [hs1]; simp
  have hsh2 : s.x2.shape[done1.length]? = some l2.length := by rw [hs2, hlen]; simp
  -- one array that can only fail because of the cast
  have hcastfail : ∀ (x : NDArray Val) (d : DType) (l lab : List L), cast = false → NoMarker d →
      (∃ b ∈ lab, b ∉ l) → fillMissing cast x d (listmapFill l lab 0).2 done1.length =
        .error .typeError := by
    intro x d l lab hc hd ⟨b, hb, hbl⟩
    obtain ⟨k, hk⟩ := List.mem_iff_getElem?.mp hb
    have hpos : (listmapFill l lab 0).2.length > 0 := by
      rw [listmapFill_eq]
      exact List.length_pos_of_mem (mem_missPos.mpr ⟨b, hk, hbl⟩)
    simp [fillMissing, if_pos hpos, noMarker_iff.mp hd, hc]
  cases j with
  | other => exact ⟨.valueError, rfl, .unknown rfl, fun h => by cases h <;> simp_all [NewIn1, NewIn2]⟩
  | skip => cases hf <;> simp_all [NewIn1, NewIn2]
  | inner => cases hf <;> simp_all [NewIn1, NewIn2]
  | left =>
    have hN2 : NewIn2 .left l1 l2 := by
      cases hf with
      | unknown h => simp at h
      | empty1 h _ => simp [NewIn1] at h
      | empty2 h _ => exact h
      | cast1 _ _ h => simp [NewIn1] at h
      | cast2 _ _ h => exact h
    have hne : l1 ≠ l2 := by
      rintro rfl; obtain ⟨_, b, h, h'⟩ := hN2; exact h' h
    have hl1 : l1 ≠ [] := by
      obtain ⟨_, b, h, _⟩ := hN2; exact List.ne_nil_of_mem h
    by_cases hl2 : l2 = []
    · refine ⟨.indexError, ?_, .empty2 hN2 hl2, fun _ => rfl⟩
      subst hl2
      simp only [alignRawAxis, if_neg hne]
      rw [take_fill_empty (by simpa using hsh2) hl1]
    · have hc : cast = false ∧ NoMarker s.d2 := by
        cases hf with
        | unknown h => simp at h
        | empty1 h _ => simp [NewIn1] at h
        | empty2 _ h => exact absurd h hl2
        | cast1 _ _ h => simp [NewIn1] at h
        | cast2 h h' _ => exact ⟨h, h'⟩
      refine ⟨.typeError, ?_, .cast2 hc.1 hc.2 hN2, noIndex (.inr (by simp [NewIn1])) (.inl hl2)⟩
      have hl : (done2 ++ l2 :: rest2)[done1.length]? = some l2 := by rw [hlen]; simp
      obtain ⟨ids, h1, _⟩ := take_fill (lab := l1) hl hs2 (.inr hl2)
      simp only [alignRawAxis, if_neg hne, h1]
      rw [hcastfail _ _ _ _ hc.1 hc.2 hN2.2]
  | right =>
    have hN1 : NewIn1 .right l1 l2 := by
      cases hf with
      | unknown h => simp at h
      | empty1 h _ => exact h
      | empty2 h _ => simp [NewIn2] at h
      | cast1 _ _ h => exact h
      | cast2 _ _ h => simp [NewIn2] at h
    have hne : l1 ≠ l2 := by
      rintro rfl; obtain ⟨_, b, h, h'⟩ := hN1; exact h' h
    have hl2 : l2 ≠ [] := by
      obtain ⟨_, b, h, _⟩ := hN1; exact List.ne_nil_of_mem h
    by_cases hl1 : l1 = []
    · refine ⟨.indexError, ?_, .empty1 hN1 hl1, fun _ => rfl⟩
      subst hl1
      simp only [alignRawAxis, if_neg hne]
      rw [take_fill_empty (by simpa using hsh1) hl2]
    · have hc : cast = false ∧ NoMarker s.d1 := by
        cases hf with
        | unknown h => simp at h
        | empty1 _ h => exact absurd h hl1
        | empty2 h _ => simp [NewIn2] at h
        | cast1 h h' _ => exact ⟨h, h'⟩
        | cast2 _ _ h => simp [NewIn2] at h
      refine ⟨.typeError, ?_, .cast1 hc.1 hc.2 hN1, noIndex (.inl hl1) (.inr (by simp [NewIn2]))⟩
      have hl : (done1 ++ l1 :: rest1)[done1.length]? = some l1 := by simp
      obtain ⟨ids, h1, _⟩ := take_fill (lab := l2) hl hs1 (.inr hl1)
      simp only [alignRawAxis, if_neg hne, h1]
      rw [hcastfail _ _ _ _ hc.1 hc.2 hN1.2]
  | outer =>
    have hne : l1 ≠ l2 := by
      rintro rfl
      cases hf with
      | unknown h => simp at h
      | empty1 h _ => obtain ⟨_, b, h, h'⟩ := h; exact h' h
      | empty2 h _ => obtain ⟨_, b, h, h'⟩ := h; exact h' h
      | cast1 _ _ h => obtain ⟨_, b, h, h'⟩ := h; exact h' h
      | cast2 _ _ h => obtain ⟨_, b, h, h'⟩ := h; exact h' h
    have hj := outerJoined_sorted hne
    have hlab : l1 ≠ [] ∨ l2 ≠ [] := by
      by_contra h
      simp only [not_or, ne_eq, not_not] at h
      exact hne (h.1.trans h.2.symm)
    have hlabne : pySorted (setUnion l1 l2) ≠ [] := by
      rcases hlab with h | h <;> obtain ⟨b, hb⟩ := List.exists_mem_of_ne_nil _ h
      · exact List.ne_nil_of_mem (hj.mem.mpr (.inl hb))
      · exact List.ne_nil_of_mem (hj.mem.mpr (.inr hb))
    by_cases hl1 : l1 = []
    · refine ⟨.indexError, ?_, .empty1 ⟨.inl rfl, exists_new_of_ne_nil_empty hl1 hne⟩ hl1, fun _ => rfl⟩
      simp only [alignRawAxis, if_neg hne]
      subst hl1
      rw [take_fill_empty (by simpa using hsh1) hlabne]
    · have hla : (done1 ++ l1 :: rest1)[done1.length]? = some l1 := by simp
      have hlb : (done2 ++ l2 :: rest2)[done1.length]? = some l2 := by rw [hlen]; simp
      obtain ⟨ids1, a1, _⟩ := take_fill (lab := pySorted (setUnion l1 l2)) hla hs1 (.inr hl1)
      by_cases hl2 : l2 = []
      · refine ⟨.indexError, ?_, .empty2 ⟨.inl rfl, exists_new_of_ne_nil_empty hl2 (Ne.symm hne)⟩ hl2, fun _ => rfl⟩
        simp only [alignRawAxis, if_neg hne, a1]
        subst hl2
        rw [take_fill_empty (by simpa using hsh2) hlabne]
      · obtain ⟨ids2, b1, _⟩ := take_fill (lab := pySorted (setUnion l1 l2)) hlb hs2 (.inr hl2)
        by_cases hc1 : cast = false ∧ NoMarker s.d1 ∧ NewIn1 .outer l1 l2
        · refine ⟨.typeError, ?_, .cast1 hc1.1 hc1.2.1 hc1.2.2, noIndex (.inl hl1) (.inl hl2)⟩
          simp only [alignRawAxis, if_neg hne, a1, b1]
          rw [hcastfail _ _ _ _ hc1.1 hc1.2.1]
          obtain ⟨_, b, hb, h⟩ := hc1.2.2
          exact ⟨b, hj.mem.mpr (.inr hb), h⟩
        · have hc2 : cast = false ∧ NoMarker s.d2 ∧ NewIn2 .outer l1 l2 := by
            cases hf with
            | unknown h => simp at h
            | empty1 _ h => exact absurd h hl1
            | empty2 _ h => exact absurd h hl2
            | cast1 h h' h'' => exact absurd ⟨h, h', h''⟩ hc1
            | cast2 h h' h'' => exact ⟨h, h', h''⟩
          refine ⟨.typeError, ?_, .cast2 hc2.1 hc2.2.1 hc2.2.2, noIndex (.inl hl1) (.inl hl2)⟩
          obtain ⟨t1, x1, d1, c1, c2, _⟩ := fillMissing_spec (lab := pySorted (setUnion l1 l2))
            (d := s.d1) (cast := cast) hs1 hn1 (.inr hl1) (fun ⟨h, h', b, hb, h''⟩ => hc1 ⟨h, h',
              .inl rfl, b, (hj.mem.mp hb).resolve_left h'', h''⟩)
          simp only [alignRawAxis, if_neg hne, c1, b1, c2]
          rw [hcastfail _ _ _ _ hc2.1 hc2.2.1]
          obtain ⟨_, b, hb, h⟩ := hc2.2.2
          exact ⟨b, hj.mem.mpr (.inl hb), h⟩

/-- One side: a step followed by the rest of the loop. -/
theorem SideRel.trans {done rem rs : List (List L)} {l r : List L} {x x' x'' : NDArray Val}
    {d d' d'' : DType} {c : Prop} (h : SideRel done rem l r x d x' d')
    (hd : d'' = floatIf d' c)
    (h' : Reindexed (done ++ r :: rem) x' (done ++ r :: rs) x'' (castVal d' d'') (missingMarker d'')) :
    Reindexed (done ++ l :: rem) x (done ++ r :: rs) x'' (castVal d d'') (missingMarker d'') := by
  have h2 := h.re.trans h' ?_ ?_
  · rw [hd, h.dtype_eq, castVal_floatIf, ← h.dtype_eq, ← hd] at h2
    exact h2
  · rintro ⟨names, hN, hno⟩
    obtain ⟨v, hv⟩ := Holds_of_Named (x := x') hN
    rcases ((h.re names v).mp hv).2 with ⟨w, hw, _⟩ | ⟨_, hm⟩
    · exact absurd (Named_of_Holds hw) hno
    · rw [hd, floatIf_of_marker hm, castVal_self]; simp
  · intro names ha hb
    exact Named_mid_replace ha hb

theorem alignRawLoop_ok {cast : Bool} (js : List Join) :
    ∀ (rem1 rem2 done1 done2 : List (List L)) (s : AlignSt), js.length = rem1.length →
    rem1.length = rem2.length → done1.length = done2.length →
    s.x1.shape = (done1 ++ rem1).map List.length → s.x2.shape = (done2 ++ rem2).map List.length →
    (∀ l ∈ done1 ++ rem1, l.Nodup) → (∀ l ∈ done2 ++ rem2, l.Nodup) →
    (∀ p ∈ js.zip (rem1.zip rem2), ∀ e, ¬ AxisFails cast s.d1 s.d2 p.1 p.2.1 p.2.2 e) →
    ∃ s' labs r1 r2, alignRawLoop cast (js.zip (rem1.zip rem2)) done1.length s = .ok (s', labs) ∧
      AllJoined js rem1 rem2 r1 r2 ∧ r1 = pickLabel rem1 labs ∧ r2 = pickLabel rem2 labs ∧
      ((∀ j ∈ js, j ≠ .skip) → labs = r1.map some) ∧
      s'.x1.shape = (done1 ++ r1).map List.length ∧ s'.x2.shape = (done2 ++ r2).map List.length ∧
      s'.d1 = floatIf s.d1 (∃ p ∈ js.zip (rem1.zip rem2), NewIn1 p.1 p.2.1 p.2.2) ∧
      s'.d2 = floatIf s.d2 (∃ p ∈ js.zip (rem1.zip rem2), NewIn2 p.1 p.2.1 p.2.2) ∧
      Reindexed (done1 ++ rem1) s.x1 (done1 ++ r1) s'.x1 (castVal s.d1 s'.d1) (missingMarker s'.d1) ∧
      Reindexed (done2 ++ rem2) s.x2 (done2 ++ r2) s'.x2 (castVal s.d2 s'.d2) (missingMarker s'.d2) := by
  induction js with
  | nil =>
    intro rem1 rem2 done1 done2 s h1 h2 _ hs1 hs2 _ _ _
    have e1 : rem1 = [] := List.length_eq_zero_iff.mp (by simpa using h1.symm)
    subst e1
    have e2 : rem2 = [] := List.length_eq_zero_iff.mp (by simpa using h2.symm)
    subst e2
    refine ⟨s, [], [], [], rfl, .nil, rfl, rfl, by simp, hs1, hs2, ?_, ?_, ?_, ?_⟩
    · rw [floatIf_false]; simp
    · rw [floatIf_false]; simp
    · rw [castVal_self]; exact Reindexed.refl _ _ _
    · rw [castVal_self]; exact Reindexed.refl _ _ _
  | cons j js ih =>
    intro rem1 rem2 done1 done2 s h1 h2 h3 hs1 hs2 hn1 hn2 hok
    obtain ⟨l1, rem1, rfl⟩ : ∃ a t, rem1 = a :: t := List.exists_cons_of_length_pos (by
      simp at h1; omega)
    obtain ⟨l2, rem2, rfl⟩ : ∃ a t, rem2 = a :: t := List.exists_cons_of_length_pos (by
      simp at h1 h2; omega)
    simp only [List.length_cons, Nat.add_right_cancel_iff] at h1 h2
    simp only [List.zip_cons_cons, List.mem_cons, forall_eq_or_imp] at hok
    obtain ⟨s', lab, r1, r2, a1, a2, a3, a4, a5, a6, a7, a8, a9⟩ :=
      alignRawAxis_ok h3 hs1 hs2 hn1 hn2 hok.1
    have hnd : ∀ {done rem : List (List L)} {l r : List L}, (∀ l' ∈ done ++ l :: rem, l'.Nodup) →
        r.Nodup → ∀ l' ∈ (done ++ [r]) ++ rem, l'.Nodup := by
      intro done rem l r h hr l' hl'
      simp only [List.append_assoc, List.singleton_append, List.mem_append, List.mem_cons] at hl'
      rcases hl' with hl' | rfl | hl'
      · exact h l' (by simp [hl'])
      · exact hr
      · exact h l' (by simp [hl'])
    have hl1 : l1.Nodup := hn1 l1 (by simp)
    have hl2 : l2.Nodup := hn2 l2 (by simp)
    have hr : r1.Nodup ∧ r2.Nodup := by
      cases j <;> simp only [AxisJoined] at a2
      · obtain ⟨h, rfl⟩ := a2; exact ⟨h.nodup hl1, h.nodup hl1⟩
      · obtain ⟨h, rfl⟩ := a2; exact ⟨h.nodup hl1, h.nodup hl1⟩
      · rw [a2.1, a2.2]; exact ⟨hl1, hl1⟩
      · rw [a2.1, a2.2]; exact ⟨hl2, hl2⟩
      · rw [a2.1, a2.2]; exact ⟨hl1, hl2⟩
    obtain ⟨s'', labs, rs1, rs2, b1, b2, b3, b4, b5, b6, b7, b8, b9, b10, b11⟩ :=
      ih rem1 rem2 (done1 ++ [r1]) (done2 ++ [r2]) s' h1 h2 (by simp [h3])
        (by simpa using a6.shape_eq) (by simpa using a7.shape_eq) (hnd hn1 hr.1) (hnd hn2 hr.2)
        (fun p hp e hf => hok.2 p hp e (hf.mono
          (fun _ h => by rw [a6.dtype_eq] at h; exact noMarker_floatIf h)
          (fun _ h => by rw [a7.dtype_eq] at h; exact noMarker_floatIf h)))
    simp only [List.length_append, List.length_singleton] at b1
    simp only [List.append_assoc, List.singleton_append] at b6 b7 b10 b11
    refine ⟨s'', lab :: labs, r1 :: rs1, r2 :: rs2, ?_, .cons a2 b2, ?_, ?_, ?_, b6, b7, ?_, ?_, ?_, ?_⟩
    · simp only [List.zip_cons_cons, alignRawLoop, a1, b1]
    · simp [pickLabel, a3, b3]
    · simp [pickLabel, a4, b4]
    · intro hskip
      have hl : lab ≠ none := fun h => hskip j (by simp) (a5.mp h)
      obtain ⟨lb, rfl⟩ := Option.ne_none_iff_exists'.mp hl
      rw [a3, b5 (fun j' hj' => hskip j' (by simp [hj']))]
      simp
    · rw [b8, a6.dtype_eq, floatIf_floatIf]
      apply floatIf_congr
      rw [a8]
      simp
    · rw [b9, a7.dtype_eq, floatIf_floatIf]
      apply floatIf_congr
      rw [a9]
      simp
    · exact a6.trans b8 b10
    · exact a7.trans b9 b11

/-- The exception is that of the first axis that fails. -/
inductive FirstRaises (cast : Bool) (d1 d2 : DType) : List (Join × List L × List L) → PyErr → Prop
  | here {p ps e} : AxisRaises cast d1 d2 p.1 p.2.1 p.2.2 e → FirstRaises cast d1 d2 (p :: ps) e
  | later {p ps e} : (∀ e', ¬ AxisFails cast d1 d2 p.1 p.2.1 p.2.2 e') → FirstRaises cast d1 d2 ps e →
      FirstRaises cast d1 d2 (p :: ps) e

theorem AxisFails.congr {cast : Bool} {d1 d2 d1' d2' : DType} {j : Join} {l1 l2 : List L} {e : PyErr}
    (h1 : cast = false → d1 = d1') (h2 : cast = false → d2 = d2') :
    AxisFails cast d1 d2 j l1 l2 e ↔ AxisFails cast d1' d2' j l1 l2 e :=
  ⟨.mono (fun hc h => h1 hc ▸ h) (fun hc h => h2 hc ▸ h), .mono (fun hc h => h1 hc ▸ h) (fun hc h => h2 hc ▸ h)⟩

theorem FirstRaises.mono {cast : Bool} {d1 d2 d1' d2' : DType} {ps : List (Join × List L × List L)} {e : PyErr}
    (h1 : cast = false → d1 = d1') (h2 : cast = false → d2 = d2') (h : FirstRaises cast d1 d2 ps e) :
    FirstRaises cast d1' d2' ps e := by
  induction h with
  | here h => exact .here ⟨(AxisFails.congr h1 h2).mp h.1, fun h' => h.2 ((AxisFails.congr h1 h2).mpr h')⟩
  | later h _ ih => exact .later (fun e' h' => h e' ((AxisFails.congr h1 h2).mpr h')) ih

theorem FirstRaises.fails {cast : Bool} {d1 d2 : DType} {ps : List (Join × List L × List L)} {e : PyErr}
    (h : FirstRaises cast d1 d2 ps e) : ∃ p ∈ ps, AxisFails cast d1 d2 p.1 p.2.1 p.2.2 e := by
  induction h with
  | here h => exact ⟨_, by simp, h.1⟩
  | later _ _ ih =>
    obtain ⟨p, hp, h⟩ := ih
    exact ⟨p, by simp [hp], h⟩

theorem FirstRaises.unique {cast : Bool} {d1 d2 : DType} {ps : List (Join × List L × List L)} {e e' : PyErr}
    (h : FirstRaises cast d1 d2 ps e) (h' : FirstRaises cast d1 d2 ps e') : e = e' := by
  induction h with
  | here h =>
    cases h' with
    | here h' => exact h.unique h'
    | later h' _ => exact absurd h.1 (h' _)
  | later h _ ih =>
    cases h' with
    | here h' => exact absurd h'.1 (h _)
    | later _ h' => exact ih h'

theorem alignRawLoop_fail {cast : Bool} (js : List Join) :
    ∀ (rem1 rem2 done1 done2 : List (List L)) (s : AlignSt), js.length = rem1.length →
    rem1.length = rem2.length → done1.length = done2.length →
    s.x1.shape = (done1 ++ rem1).map List.length → s.x2.shape = (done2 ++ rem2).map List.length →
    (∀ l ∈ done1 ++ rem1, l.Nodup) → (∀ l ∈ done2 ++ rem2, l.Nodup) →
    (∃ p ∈ js.zip (rem1.zip rem2), ∃ e, AxisFails cast s.d1 s.d2 p.1 p.2.1 p.2.2 e) →
    ∃ e, alignRawLoop cast (js.zip (rem1.zip rem2)) done1.length s = .error e ∧
      FirstRaises cast s.d1 s.d2 (js.zip (rem1.zip rem2)) e := by
  induction js with
  | nil =>
    intro rem1 rem2 done1 done2 s _ _ _ _ _ _ _ ⟨p, hp, _⟩
    simp at hp
  | cons j js ih =>
    intro rem1 rem2 done1 done2 s h1 h2 h3 hs1 hs2 hn1 hn2 hf
    obtain ⟨l1, rem1, rfl⟩ : ∃ a t, rem1 = a :: t := List.exists_cons_of_length_pos (by
      simp at h1; omega)
    obtain ⟨l2, rem2, rfl⟩ : ∃ a t, rem2 = a :: t := List.exists_cons_of_length_pos (by
      simp at h1 h2; omega)
    simp only [List.length_cons, Nat.add_right_cancel_iff] at h1 h2
    by_cases hfirst : ∃ e, AxisFails cast s.d1 s.d2 j l1 l2 e
    · obtain ⟨e, he⟩ := hfirst
      obtain ⟨e', h4, h5⟩ := alignRawAxis_fail h3 hs1 hs2 hn1 hn2 he
      refine ⟨e', ?_, .here h5⟩
      simp only [List.zip_cons_cons, alignRawLoop, h4]
    · have hok : ∀ e, ¬ AxisFails cast s.d1 s.d2 j l1 l2 e := fun e he => hfirst ⟨e, he⟩
      obtain ⟨s', lab, r1, r2, a1, a2, a3, a4, a5, a6, a7, a8, a9⟩ :=
        alignRawAxis_ok h3 hs1 hs2 hn1 hn2 hok
      have hnd : ∀ {done rem : List (List L)} {l r : List L}, (∀ l' ∈ done ++ l :: rem, l'.Nodup) →
          r.Nodup → ∀ l' ∈ (done ++ [r]) ++ rem, l'.Nodup := by
        intro done rem l r h hr l' hl'
        simp only [List.append_assoc, List.singleton_append, List.mem_append, List.mem_cons] at hl'
        rcases hl' with hl' | rfl | hl'
        · exact h l' (by simp [hl'])
        · exact hr
        · exact h l' (by simp [hl'])
      have hl1 : l1.Nodup := hn1 l1 (by simp)
      have hl2 : l2.Nodup := hn2 l2 (by simp)
      have hr : r1.Nodup ∧ r2.Nodup := by
        cases j <;> simp only [AxisJoined] at a2
        · obtain ⟨h, rfl⟩ := a2; exact ⟨h.nodup hl1, h.nodup hl1⟩
        · obtain ⟨h, rfl⟩ := a2; exact ⟨h.nodup hl1, h.nodup hl1⟩
        · rw [a2.1, a2.2]; exact ⟨hl1, hl1⟩
        · rw [a2.1, a2.2]; exact ⟨hl2, hl2⟩
        · rw [a2.1, a2.2]; exact ⟨hl1, hl2⟩
      -- without a cast the dtypes have not changed
      have hd1 : cast = false → s'.d1 = s.d1 := by
        intro hc
        rw [a6.dtype_eq]
        unfold floatIf
        rw [if_neg]
        rintro ⟨h, h'⟩
        exact hok _ (.cast1 hc h (a8.mp h'))
      have hd2 : cast = false → s'.d2 = s.d2 := by
        intro hc
        rw [a7.dtype_eq]
        unfold floatIf
        rw [if_neg]
        rintro ⟨h, h'⟩
        exact hok _ (.cast2 hc h (a9.mp h'))
      obtain ⟨p, hp, e, he⟩ := hf
      simp only [List.zip_cons_cons, List.mem_cons] at hp
      rcases hp with rfl | hp
      · exact absurd he (hok e)
      · obtain ⟨e', h4, h5⟩ := ih rem1 rem2 (done1 ++ [r1]) (done2 ++ [r2]) s' h1 h2 (by simp [h3])
          (by simpa using a6.shape_eq) (by simpa using a7.shape_eq) (hnd hn1 hr.1) (hnd hn2 hr.2)
          ⟨p, hp, e, he.mono (fun hc h => by rw [hd1 hc]; exact h) (fun hc h => by rw [hd2 hc]; exact h)⟩
        simp only [List.length_append, List.length_singleton] at h4
        refine ⟨e', ?_, .later hok (h5.mono (fun hc => by rw [hd1 hc]) (fun hc => by rw [hd2 hc]))⟩
        simp only [List.zip_cons_cons, alignRawLoop, a1, h4]

end La
