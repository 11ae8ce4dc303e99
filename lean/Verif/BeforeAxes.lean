import Verif.Before

/-! # Before the later data came in: the methods that rearrange, select or rename (property C108) -/

namespace La
variable {L : Type _} {later : L → Prop} [DecidablePred later]

theorem sofar_reverse (l : List L) : sofar later l.reverse = (sofar later l).reverse := List.filter_reverse ..

theorem sofar_map {f : L → L} {l : List L} (h : ∀ b ∈ l, later (f b) ↔ later b) : sofar later (l.map f) = (sofar later l).map f := by
  unfold sofar
  rw [List.filter_map]
  congr 1
  refine List.filter_congr fun b hb => ?_
  simp [h b hb]

/-- The labels so far are the first ones of an axis in time order. -/
theorem InTime.sofar {l : List L} (h : InTime later l) : ∃ k, k ≤ l.length ∧ La.sofar later l = l.take k := by
  induction l with
  | nil => exact ⟨0, by simp, rfl⟩
  | cons a l ih =>
    obtain ⟨h1, h2⟩ := List.pairwise_cons.mp h
    by_cases ha : later a
    · refine ⟨0, by simp, ?_⟩
      unfold La.sofar
      rw [List.take_zero, List.filter_eq_nil_iff]
      intro b hb
      have : later b := by
        rcases List.mem_cons.mp hb with rfl | hb
        · exact ha
        · exact h1 b hb ha
      simpa using this
    · obtain ⟨k, hk, e⟩ := ih h2
      refine ⟨k + 1, by simpa using hk, ?_⟩
      unfold La.sofar at e ⊢
      rw [List.filter_cons_of_pos (by simpa using ha), e, List.take_succ_cons]

/-- The labels so far are the last ones of an axis in reversed time order. -/
theorem BackInTime.sofar {l : List L} (h : BackInTime later l) : ∃ k, k ≤ l.length ∧ La.sofar later l = l.drop k := by
  obtain ⟨k, hk, e⟩ := h.reverse.sofar
  rw [sofar_reverse] at e
  rw [List.length_reverse] at hk
  refine ⟨l.length - k, by omega, ?_⟩
  have := congrArg List.reverse e
  rw [List.reverse_reverse, List.reverse_take, List.reverse_reverse, List.length_reverse] at this
  exact this

theorem sofar_later {l : List L} (h : ∀ b ∈ l, later b) : sofar later l = [] := by
  unfold sofar
  rw [List.filter_eq_nil_iff]
  intro b hb
  simpa using h b hb

theorem InTime.sofar_drop {l : List L} (h : InTime later l) (k : Nat) : La.sofar later (l.drop k) = (La.sofar later l).drop k := by
  induction l generalizing k with
  | nil => simp [La.sofar]
  | cons a l ih =>
    obtain ⟨h1, h2⟩ := List.pairwise_cons.mp h
    cases k with
    | zero => rfl
    | succ k =>
      by_cases ha : later a
      · have hl : ∀ b ∈ l, later b := fun b hb => h1 b hb ha
        rw [List.drop_succ_cons, sofar_later fun b hb => hl b (List.mem_of_mem_drop hb), sofar_later (l := a :: l), List.drop_nil]
        intro b hb
        rcases List.mem_cons.mp hb with rfl | hb
        · exact ha
        · exact hl b hb
      · rw [List.drop_succ_cons, ih h2]
        unfold La.sofar
        rw [List.filter_cons_of_pos (by simpa using ha), List.drop_succ_cons]

theorem BackInTime.sofar_take {l : List L} (h : BackInTime later l) (k : Nat) :
    La.sofar later (l.take (l.length - k)) = (La.sofar later l).take ((La.sofar later l).length - k) := by
  have := h.reverse.sofar_drop k
  rw [List.drop_reverse, sofar_reverse, sofar_reverse, List.drop_reverse] at this
  simpa using this

namespace Larry

theorem Before.get {z y : Larry L} (hy : y.Valid) (h : z.Before later y) {idx' idx : List Nat} {names : List L}
    (h' : At z.label idx' names) (hat : At y.label idx names) : z.x.get idx' = y.x.get idx :=
  Holds_unique hy.nodup (h.cells names _ ⟨idx', h', rfl⟩) ⟨idx, hat, rfl⟩

theorem before_of_get {z y : Larry L} (hl : z.label = y.label.map (sofar later)) (hd : z.dtype = y.dtype)
    (hx : ∀ idx' idx names, At z.label idx' names → At y.label idx names → z.x.get idx' = y.x.get idx) : z.Before later y := by
  refine ⟨hl, hd, ?_⟩
  rintro names v ⟨idx', h', rfl⟩
  have hN := Named_of_At h'
  rw [hl, named_sofar] at hN
  obtain ⟨idx, hat⟩ := At_of_Named hN.1
  exact ⟨idx, hat, (hx idx' idx names h' hat).symm⟩

/-- Every cell of the result for the data so far is read from one cell, and the result for all data reads it from the same. -/
theorem before_through {y' y z' z : Larry L} (h : y'.Before later y) (hl : z'.label = z.label.map (sofar later))
    (hd : z'.dtype = z.dtype) (hz : ∀ names v, z'.Has names v → Early later names → ∃ ns, y'.Has ns v ∧ (y.Has ns v → z.Has names v)) :
    z'.Before later z := by
  refine ⟨hl, hd, fun names v hv => ?_⟩
  have hN := Named_of_Holds hv
  rw [hl, named_sofar] at hN
  obtain ⟨ns, h1, h2⟩ := hz names v hv hN.2
  exact h2 (h.cells _ _ h1)

/-- Parts. -/
theorem partOf_before {y' y z' z : Larry L} (h : y'.Before later y) {lab' lab : List (List L)} (hz' : z'.PartOf y' lab')
    (hz : z.PartOf y lab) (hl : lab' = lab.map (sofar later)) : z'.Before later z := by
  refine ⟨by rw [hz'.label_eq, hz.label_eq, hl], by rw [hz'.dtype_eq, hz.dtype_eq, h.dtype], fun names v hv => ?_⟩
  obtain ⟨h1, h2⟩ := (hz'.has names v).mp hv
  rw [hl, named_sofar] at h1
  exact (hz.has names v).mpr ⟨h1.1, h.cells _ _ h2⟩

section
variable [LinearOrder L]

theorem inOrder_sofar {reverse : Bool} {l : List L} (h : InOrder reverse l) : InOrder reverse (sofar later l) := List.Pairwise.filter _ h

omit [DecidablePred later] in
theorem inOrder_ext {reverse : Bool} {l l' : List L} (hp : l.Perm l') (h : InOrder reverse l) (h' : InOrder reverse l') : l = l' := by
  cases reverse with
  | false => exact ascending_ext (by simpa [InOrder] using h) (by simpa [InOrder] using h') fun a => hp.mem_iff
  | true =>
    have e : l.reverse = l'.reverse := ascending_ext (List.pairwise_reverse.mpr (by simpa [InOrder] using h))
      (List.pairwise_reverse.mpr (by simpa [InOrder] using h')) fun a => by simp [hp.mem_iff]
    simpa using e

omit [LinearOrder L] in
theorem label_before {y' y z' z : Larry L} (h : y'.Before later y) (h4' : z'.label.length = y'.label.length)
    (h4 : z.label.length = y.label.length) (hk : ∀ (k : Nat) l m m', y.label[k]? = some l → z.label[k]? = some m → z'.label[k]? = some m' →
      m' = sofar later m) : z'.label = z.label.map (sofar later) := by
  refine List.ext_getElem? fun k => ?_
  rw [List.getElem?_map]
  by_cases hlt : k < y.label.length
  · have hl := List.getElem?_eq_getElem hlt
    have hm := List.getElem?_eq_getElem (l := z.label) (i := k) (by omega)
    have hm' := List.getElem?_eq_getElem (l := z'.label) (i := k) (by rw [h4', h.naxes]; exact hlt)
    rw [hm', hm, hk k _ _ _ hl hm hm', Option.map_some]
  · rw [List.getElem?_eq_none (by rw [h4', h.naxes]; omega), List.getElem?_eq_none (by omega), Option.map_none]

theorem sortaxis_before {y' y : Larry L} (hy' : y'.Valid) (hy : y.Valid) (h : y'.Before later y) (axis : Option Int) (reverse : Bool) :
    Res.Both (Before later) (y'.sortaxis axis reverse) (y.sortaxis axis reverse) := by
  have hn := h.ndim hy' hy
  have key : ∀ axes, AxesMeant y.ndim axis axes → Res.Both (Before later) (y'.sortaxis axis reverse) (y.sortaxis axis reverse) := by
    intro axes hm
    obtain ⟨z, h1, -, h3, h4, h5, h6⟩ := C24_sortaxis hy reverse hm
    obtain ⟨z', h1', -, h3', h4', h5', h6'⟩ := C24_sortaxis hy' reverse (hn ▸ hm)
    rw [h1, h1']
    refine .ok ⟨label_before h h4' h4 fun k l m m' hl hm hm' => ?_, by rw [h3', h3, h.dtype], fun names v hv =>
      (h6 _ _).mpr (h.cells _ _ ((h6' _ _).mp hv))⟩
    obtain ⟨a, b⟩ := h5 k l m hl hm
    obtain ⟨a', b'⟩ := h5' k _ m' (h.label_at hl) hm'
    by_cases hk : k ∈ axes
    · exact inOrder_ext ((a' hk).1.trans ((a hk).1.filter _).symm) (a' hk).2 (inOrder_sofar (a hk).2)
    · rw [b hk, b' hk]
  cases axis with
  | none => exact key _ rfl
  | some a =>
    by_cases ha : (y.ndim : Int) ≤ a ∨ a < -(y.ndim : Int)
    · rw [C24_sortaxis_axis reverse ha]; exact .right
    · push Not at ha
      by_cases h0 : 0 ≤ a
      · exact key [a.toNat] ⟨a.toNat, rfl, by omega, by omega⟩
      · exact key [(a + y.ndim).toNat] ⟨(a + y.ndim).toNat, rfl, by omega, by omega⟩

omit [LinearOrder L] in
theorem flipaxis_before {y' y : Larry L} (hy' : y'.Valid) (hy : y.Valid) (h : y'.Before later y) (axis : Option Int) :
    Res.Both (Before later) (y'.flipaxis axis) (y.flipaxis axis) := by
  have hn := h.ndim hy' hy
  have key : ∀ axes, AxesMeant y.ndim axis axes → Res.Both (Before later) (y'.flipaxis axis) (y.flipaxis axis) := by
    intro axes hm
    obtain ⟨z, h1, -, h3, h4, h5, h6⟩ := C25_flipaxis hy hm
    obtain ⟨z', h1', -, h3', h4', h5', h6'⟩ := C25_flipaxis hy' (hn ▸ hm)
    rw [h1, h1']
    refine .ok ⟨label_before h h4' h4 fun k l m m' hl hm hm' => ?_, by rw [h3', h3, h.dtype], fun names v hv =>
      (h6 _ _).mpr (h.cells _ _ ((h6' _ _).mp hv))⟩
    obtain ⟨a, b⟩ := h5 k l m hl hm
    obtain ⟨a', b'⟩ := h5' k _ m' (h.label_at hl) hm'
    by_cases hk : k ∈ axes
    · rw [a hk, a' hk, sofar_reverse]
    · rw [b hk, b' hk]
  cases axis with
  | none => exact key _ rfl
  | some a =>
    by_cases ha : (y.ndim : Int) ≤ a ∨ a < -(y.ndim : Int)
    · rw [C25_flipaxis_axis hy ha]; exact .right
    · push Not at ha
      by_cases h0 : 0 ≤ a
      · exact key [a.toNat] ⟨a.toNat, rfl, by omega, by omega⟩
      · exact key [(a + y.ndim).toNat] ⟨(a + y.ndim).toNat, rfl, by omega, by omega⟩

/-- `keep_label`, where it keeps a label that is not a later one. -/
theorem keepLabel_before {y' y : Larry L} (hy' : y'.Valid) (hy : y.Valid) (h : y'.Before later y) (op : LabelOp L) {axis : Option Int}
    (hk : ∀ a ax l, axis = some a → pyIdx y.ndim a = some ax → y.label[ax]? = some l → ∃ b ∈ l, Wanted op b ∧ ¬ later b) :
    Res.Both (Before later) (y'.keepLabel op axis) (y.keepLabel op axis) := by
  have hn := h.ndim hy' hy
  by_cases hop : op = .unknown
  · subst hop
    rw [(C38_keep_label_errors hy .unknown).1 axis]; exact .right
  cases axis with
  | none => rw [(C38_keep_label_errors hy op).2.1]; exact .right
  | some a =>
    cases ha : pyIdx y.ndim a with
    | none => rw [(C38_keep_label_errors hy op).2.2 a hop ha]; exact .right
    | some ax =>
      obtain ⟨l, hl⟩ := axis_label hy ha
      obtain ⟨b, b1, b2, b3⟩ := hk a ax l rfl ha hl
      obtain ⟨z, lab, e1, e2, e3, e4⟩ := (C38_keep_label hy hop ha hl).2 ⟨b, b1, b2⟩
      obtain ⟨z', lab', e1', e2', e3', e4'⟩ := (C38_keep_label hy' hop (hn ▸ ha) (h.label_at hl)).2 ⟨b, mem_sofar.mpr ⟨b1, b3⟩, b2⟩
      rw [e1, e1']
      refine .ok (partOf_before h e2' e2 ?_)
      rw [h.label, List.map_set]
      congr 1
      refine sublist_eq_of_mem (sofar_nodup (hy.nodup l (List.mem_of_getElem? hl))) e3' (t := sofar later lab) (e3.filter _) fun b => ?_
      have : b ∈ sofar later lab ↔ b ∈ lab ∧ ¬ later b := mem_sofar
      rw [e4', mem_sofar, this, e4]
      tauto

/-- `take` along an axis without later labels. -/
theorem take_before {y' y : Larry L} (hy' : y'.Valid) (hy : y.Valid) (h : y'.Before later y) (is : List Int) {axis : Int}
    (hax : ∀ ax l, pyIdx y.ndim axis = some ax → y.label[ax]? = some l → Early later l) :
    Res.Both (Before later) (y'.take is axis) (y.take is axis) := by
  have hn := h.ndim hy' hy
  have herr := C34_take_errors hy axis is
  cases ha : pyIdx y.ndim axis with
  | none => rw [herr.1 ha]; exact .right
  | some ax =>
    obtain ⟨l, hl⟩ := axis_label hy ha
    have he := hax ax l ha hl
    have hl' := h.label_at hl
    rw [sofar_early he] at hl'
    cases hp : pyItems l is with
    | error e =>
      have : y.take is axis = .error e := by
        have hd : y.label.getD ax [] = l := by simp [hl]
        simp [take, hy.label_length, ha, hl, hp]
      rw [this]; exact .right
    | ok lab =>
      obtain ⟨ids, h1, h2⟩ := pyItems_ok.mp hp
      have hids : List.Forall₂ (fun i k => pyIdx l.length i = some k) is ids :=
        (mapRes_ok.mp h1).imp fun _ _ h => pyIdxE_ok.mp h
      by_cases hnd : ids.Nodup
      · obtain ⟨z, lab, e1, e2, e3⟩ := C34_take hy ha hl hids hnd
        obtain ⟨z', lab', e1', e2', e3'⟩ := C34_take hy' (hn ▸ ha) hl' hids hnd
        obtain rfl : lab' = lab := by
          rw [← e2] at e2'
          exact List.map_injective_iff.mpr (Option.some_injective L) e2'
        rw [e1, e1']
        refine .ok (partOf_before h e3' e3 ?_)
        rw [h.label, List.map_set, sofar_early]
        intro b hb
        obtain ⟨k, hk⟩ := List.getElem?_of_mem hb
        have := congrArg (fun x => x[k]?) e2
        simp only [List.getElem?_map, hk, Option.map_some] at this
        cases hi : ids[k]? with
        | none => rw [hi] at this; simp at this
        | some j =>
          rw [hi] at this
          simp only [Option.map_some, Option.some.injEq] at this
          exact he b (List.mem_of_getElem? this.symm)
      · rw [herr.2.2 ax l ids ha hl hids hnd]; exact .right

omit [LinearOrder L] in
theorem T_before {y' y : Larry L} (hy' : y'.Valid) (hy : y.Valid) (h : y'.Before later y) : y'.T.Before later y.T := by
  obtain ⟨-, d, l, k, -⟩ := C27_transpose hy
  obtain ⟨-, d', l', k', -⟩ := C27_transpose hy'
  refine before_through h (by rw [l, l', h.label, List.map_reverse]) (by rw [d, d', h.dtype]) fun names v hv _ =>
    ⟨names.reverse, (k' names.reverse v).mp (by rwa [List.reverse_reverse]), fun hu => ?_⟩
  have := (k names.reverse v).mpr hu
  rwa [List.reverse_reverse] at this

omit [LinearOrder L] in
theorem swapaxes_before {y' y : Larry L} (hy' : y'.Valid) (hy : y.Valid) (h : y'.Before later y) (a b : Int) :
    Res.Both (Before later) (y'.swapaxes a b) (y.swapaxes a b) := by
  have hn := h.ndim hy' hy
  have hlen := hy.label_length
  have hlen' := hy'.label_length
  by_cases hE : pyIdx y.ndim a = none ∨ pyIdx y.ndim b = none
  · rw [C27_swapaxes_axis hy hE]; exact .right
  · push Not at hE
    obtain ⟨i, hi⟩ := Option.ne_none_iff_exists'.mp hE.1
    obtain ⟨j, hj⟩ := Option.ne_none_iff_exists'.mp hE.2
    have li := pyIdx_lt hi
    have lj := pyIdx_lt hj
    obtain ⟨w, e1, e2, e3, e4, e5, -⟩ := C27_swapaxes hy hi hj
    obtain ⟨w', e1', e2', e3', e4', e5', -⟩ := C27_swapaxes hy' (hn ▸ hi) (hn ▸ hj)
    rw [e1, e1']
    refine .ok (before_through h ?_ (by rw [e3, e3', h.dtype]) fun names v hv _ => ?_)
    · rw [exchanged_iff (by omega) (by omega)] at e4 e4'
      rw [e4, e4', h.label]
      refine List.ext_getElem? fun k => ?_
      rw [swapList_getElem? (by rw [List.length_map]; omega) (by rw [List.length_map]; omega),
        List.getElem?_map (l := swapList y.label i j), swapList_getElem? (by omega) (by omega)]
      split
      · rw [List.getElem?_map]
      · split <;> rw [List.getElem?_map]
    · have hl : names.length = y.ndim := by
        rw [(Named_iff.mp (Named_of_Holds hv)).1, e4'.1, hlen', hn]
      have hX : Exchanged i j (swapList names i j) names := by
        rw [exchanged_iff (by rw [swapList_length]; omega) (by rw [swapList_length]; omega)]
        refine List.ext_getElem? fun k => ?_
        rw [swapList_getElem? (by rw [swapList_length]; omega) (by rw [swapList_length]; omega)]
        simp only [swapList_getElem? (show i < names.length by omega) (show j < names.length by omega)]
        by_cases k1 : k = i <;> by_cases k2 : k = j <;> simp_all
      have hs : (swapList names i j).length = y.ndim := by rw [swapList_length]; exact hl
      exact ⟨swapList names i j, (e5' _ names v hX (hn ▸ hs)).mp hv, (e5 _ names v hX hs).mpr⟩

theorem insertaxis_before {y' y : Larry L} (hy' : y'.Valid) (hy : y.Valid) (h : y'.Before later y) (axis : Option Int) {name : L}
    (hname : ¬ later name) : Res.Both (Before later) (y'.insertaxis axis name) (y.insertaxis axis name) := by
  have hn := h.ndim hy' hy
  have hlen := hy.label_length
  have hlen' := hy'.label_length
  have hone : sofar later [name] = [name] := sofar_early (by simpa [Early] using hname)
  cases axis with
  | none => exact fun _ _ h1 => absurd h1 (by simp [insertaxis])
  | some a =>
    by_cases ha : a < -(y.ndim + 1 : Int)
    · rcases C31_insertaxis_far hy name ha with k | ⟨w, k1, k2, k3, k4, k5⟩
      · rw [k]; exact .right
      rcases C31_insertaxis_far hy' name (hn ▸ ha) with k' | ⟨w', k1', k2', k3', k4', k5'⟩
      · rw [k']; exact .left
      rw [k1, k1']
      refine .ok (before_through h (by rw [k4, k4', List.map_cons, hone, h.label]) (by rw [k3, k3', h.dtype]) fun names v hv _ => ?_)
      have hN := Named_of_Holds hv
      rw [k4'] at hN
      cases names with
      | nil => exact hN.elim
      | cons n ns =>
        obtain rfl := List.mem_singleton.mp hN.1
        exact ⟨ns, (k5' _ _).mp hv, (k5 _ _).mpr⟩
    · obtain ⟨p, hp⟩ : ∃ p, NewAxisAt y.ndim a p := by
        by_cases h0 : 0 ≤ a
        · exact ⟨(Min.min a y.ndim).toNat, .inl ⟨h0, by omega⟩⟩
        · exact ⟨(a + y.ndim + 1).toNat, .inr ⟨by omega, by omega, by omega⟩⟩
      have hple : p ≤ y.ndim := by rcases hp with ⟨-, h1⟩ | ⟨h0, -, h1⟩ <;> omega
      obtain ⟨w, k1, k2, k3, k4, k5⟩ := C31_insertaxis hy name hp
      obtain ⟨w', k1', k2', k3', k4', k5'⟩ := C31_insertaxis hy' name (hn ▸ hp)
      rw [k1, k1']
      refine .ok (before_through h (by rw [k4, k4', h.label, List.map_insertIdx, hone]) (by rw [k3, k3', h.dtype]) fun names v hv _ => ?_)
      have hN := Named_iff.mp (Named_of_Holds hv)
      rw [k4', List.length_insertIdx_of_le_length (by omega)] at hN
      obtain ⟨n, ns, rfl, h4, -⟩ := exists_insertIdx (l := names) (k := p) (by omega)
      have hnl : ns.length = y.ndim := by
        rw [h4, List.length_eraseIdx_of_lt (by omega)]; omega
      have : n ∈ [name] := hN.2 p [name] n (by exact List.getElem?_insertIdx_self .. |>.trans (if_pos (by omega)))
        (List.getElem?_insertIdx_self .. |>.trans (if_pos (by omega)))
      obtain rfl := List.mem_singleton.mp this
      exact ⟨ns, (k5' _ _ (hn ▸ hnl)).mp hv, (k5 _ _ hnl).mpr⟩

omit [LinearOrder L] in
/-- `maplabel`, where the later labels are those that become later labels. -/
theorem maplabel_before {y' y : Larry L} (hy : y.Valid) (h : y'.Before later y) (f : L → L) (axis : Option Int)
    (hf : ∀ (k : Nat) l, y.label[k]? = some l → (∀ a, axis = some a → a = k ∨ a = (k : Int) - y.ndim) → ∀ b ∈ l, later (f b) ↔ later b) :
    Res.Both (Before later) (y'.maplabel f axis) (y.maplabel f axis) := by
  cases axis with
  | none =>
    refine .ok (before_through (z' := ⟨_, _, _⟩) (z := ⟨_, _, _⟩) h ?_ h.dtype fun names v hv _ => ?_)
    · show y'.label.map _ = (y.label.map _).map _
      rw [h.label, List.map_map, List.map_map]
      refine List.map_congr_left fun l hl => ?_
      obtain ⟨k, hk⟩ := List.getElem?_of_mem hl
      exact (sofar_map (hf k l hk (by simp))).symm
    · obtain ⟨ns, rfl, hns⟩ := (holds_through (fun _ _ => at_map) names v).mp hv
      exact ⟨ns, hns, fun hu => (holds_through (fun _ _ => at_map) _ v).mpr ⟨ns, rfl, hu⟩⟩
  | some a =>
    unfold maplabel
    dsimp only
    rw [h.naxes]
    cases hk : pyIdx y.label.length a with
    | none => exact .right
    | some k =>
      have hk1 := pyIdx_lt hk
      have hk1' : k < y'.label.length := by rw [h.naxes]; exact hk1
      refine .ok (before_through (z' := ⟨_, _, _⟩) (z := ⟨_, _, _⟩) h ?_ h.dtype fun names v hv _ => ?_)
      · show y'.label.set k _ = (y.label.set k _).map _
        have hl := List.getElem?_eq_getElem hk1
        have hd : y.label.getD k [] = y.label[k] := by simp [hl]
        have hd' : y'.label.getD k [] = sofar later y.label[k] := by
          have := h.label_at hl
          rw [List.getD_eq_getElem?_getD, this]; rfl
        rw [List.map_set, ← h.label, hd, hd', sofar_map (hf k _ hl ?_)]
        intro a' ha'
        obtain rfl : a = a' := by simpa using ha'
        rw [hy.label_length] at hk
        have := pyIdx_some.mp hk
        omega
      · obtain ⟨ns, rfl, hns⟩ := (holds_through (fun _ _ => at_mapAt hk1') names v).mp hv
        exact ⟨ns, hns, fun hu => (holds_through (fun _ _ => at_mapAt hk1) _ v).mpr ⟨ns, rfl, hu⟩⟩

/-- `pull` of a label that is not a later one, where a larry is left in both cases. -/
theorem pull_before {y' y : Larry L} (hy' : y'.Valid) (hy : y.Valid) (h : y'.Before later y) {name : L} (hname : ¬ later name)
    {axis : Option Int} (hs : ∀ a ax m, axis = some a → pyIdx y.ndim a = some ax → y.label.eraseIdx ax ≠ [[m]])
    (hs' : ∀ a ax m, axis = some a → pyIdx y.ndim a = some ax → y'.label.eraseIdx ax ≠ [[m]]) :
    Res.Both (Out.Before later) (y'.pull name axis) (y.pull name axis) := by
  have hn := h.ndim hy' hy
  cases axis with
  | none => rw [(C31_pull_errors hy name).1]; exact .right
  | some a =>
    cases ha : pyIdx y.ndim a with
    | none => rw [(C31_pull_errors hy name).2.1 a ha]; exact .right
    | some ax =>
      obtain ⟨l, hl⟩ := axis_label hy ha
      by_cases hm : name ∈ l
      · have k := C31_pull hy ha hl hm
        have k' := C31_pull hy' (hn ▸ ha) (h.label_at hl) (mem_sofar.mpr ⟨hm, hname⟩)
        by_cases h1 : y.ndim = 1
        · rw [k.1 h1]; exact .right
        · obtain ⟨w, e1, e2, e3, e4, e5⟩ := k.2.2 h1 fun m => hs a ax m rfl ha
          obtain ⟨w', e1', e2', e3', e4', e5'⟩ := k'.2.2 (hn ▸ h1) fun m => hs' a ax m rfl ha
          rw [e1, e1']
          refine .ok (show w'.Before later w from before_through h (by rw [e4, e4', h.label, List.eraseIdx_map])
            (by rw [e3, e3', h.dtype]) fun names v hv _ => ?_)
          obtain ⟨g1, g2⟩ := (e5' _ _).mp hv
          exact ⟨_, g2, fun hu => (e5 _ _).mpr ⟨hn ▸ g1, hu⟩⟩
      · rw [(C31_pull_errors hy name).2.2 a ax l ha hl hm]; exact .right

theorem lag_before {y' y : Larry L} (hy' : y'.Valid) (hy : y.Valid) (h : y'.Before later y) (nlag : Int) {axis : Option Int}
    (ho : ∀ a ax l, axis = some a → pyIdx y.ndim a = some ax → y.label[ax]? = some l →
      (0 < nlag → InTime later l) ∧ (nlag < 0 → BackInTime later l)) :
    Res.Both (Before later) (y'.lag nlag axis) (y.lag nlag axis) := by
  have hn := h.ndim hy' hy
  cases axis with
  | none => rw [(C26_lag_axis hy nlag).1]; exact .right
  | some a =>
    by_cases h0 : nlag = 0
    · subst h0
      exact .ok h
    cases ha : pyIdx y.ndim a with
    | none => rw [(C26_lag_axis hy nlag).2 a h0 (pyIdx_none.mp ha)]; exact .right
    | some ax =>
      obtain ⟨l, hl⟩ := axis_label hy ha
      have hl' := h.label_at hl
      have hax : ax < y.label.length := by rw [hy.label_length]; exact pyIdx_lt ha
      have hax' : ax < y'.label.length := by rw [h.naxes]; exact hax
      have hn0 : ∀ {z : Larry L} {names : List L} {v : Val} {l : List L}, z.label = y'.label.set ax l → z.Has names v →
          ∃ n, names[ax]? = some n ∧ n ∈ l ∧ names.set ax n = names := by
        intro z names v l hl hv
        have hN := Named_iff.mp (Named_of_Holds hv)
        rw [hl, List.length_set] at hN
        have hb : ax < names.length := by omega
        refine ⟨names[ax], List.getElem?_eq_getElem hb, hN.2 ax l _ (by simp [hax']) (List.getElem?_eq_getElem hb), ?_⟩
        simp
      obtain ⟨-, kp, kn⟩ := C26_lag hy ha hl
      obtain ⟨-, kp', kn'⟩ := C26_lag hy' (hn ▸ ha) hl'
      have ho := ho a ax l rfl ha hl
      rcases lt_or_gt_of_ne h0 with hneg | hpos
      · obtain ⟨k, rfl⟩ : ∃ k : Nat, nlag = -(k : Int) := ⟨nlag.natAbs, by omega⟩
        obtain ⟨w, e1, e2, e3, e4, e5⟩ := kn k (by omega)
        obtain ⟨w', e1', e2', e3', e4', e5'⟩ := kn' k (by omega)
        obtain ⟨c, hc, hd⟩ := (ho.2 (by omega)).sofar
        rw [e1, e1']
        refine .ok (before_through h ?_ (by rw [e3, e3', h.dtype]) fun names v hv _ => ?_)
        · rw [e4, e4', h.label, List.map_set, (ho.2 (by omega)).sofar_take]
        · obtain ⟨n, f1, f2, f3⟩ := hn0 e4' hv
          obtain ⟨i, hi⟩ := List.mem_iff_getElem?.mp f2
          have hil : i < (sofar later l).length - k := by
            have := (List.getElem?_eq_some_iff.mp hi).1
            rw [List.length_take] at this; omega
          rw [List.getElem?_take_of_lt hil] at hi
          have hi2 : (sofar later l)[i + k]? = some (sofar later l)[i + k] := List.getElem?_eq_getElem (by omega)
          refine ⟨_, (e5' i n _ names v hi hi2).mp (f3.symm ▸ hv), fun hu => ?_⟩
          have := (e5 (c + i) n _ names v (by rw [← List.getElem?_drop, ← hd]; exact hi)
            (by rw [show c + i + k = c + (i + k) by omega, ← List.getElem?_drop, ← hd]; exact hi2)).mpr hu
          rwa [f3] at this
      · obtain ⟨k, rfl⟩ : ∃ k : Nat, nlag = (k : Int) := ⟨nlag.natAbs, by omega⟩
        obtain ⟨w, e1, e2, e3, e4, e5⟩ := kp k (by omega)
        obtain ⟨w', e1', e2', e3', e4', e5'⟩ := kp' k (by omega)
        obtain ⟨c, hc, hd⟩ := (ho.1 (by omega)).sofar
        rw [e1, e1']
        refine .ok (before_through h ?_ (by rw [e3, e3', h.dtype]) fun names v hv _ => ?_)
        · rw [e4, e4', h.label, List.map_set, (ho.1 (by omega)).sofar_drop]
        · obtain ⟨n, f1, f2, f3⟩ := hn0 e4' hv
          obtain ⟨i, hi⟩ := List.mem_iff_getElem?.mp f2
          rw [List.getElem?_drop, Nat.add_comm] at hi
          have hil := (List.getElem?_eq_some_iff.mp hi).1
          have hi2 : (sofar later l)[i]? = some (sofar later l)[i] := List.getElem?_eq_getElem (by omega)
          refine ⟨_, (e5' i n _ names v hi hi2).mp (f3.symm ▸ hv), fun hu => ?_⟩
          have up : ∀ {j : Nat} {b : L}, (sofar later l)[j]? = some b → l[j]? = some b := by
            intro j b hj
            rw [hd] at hj
            have := (List.getElem?_eq_some_iff.mp hj).1
            rw [List.length_take] at this
            rwa [List.getElem?_take_of_lt (by omega)] at hj
          have := (e5 i n _ names v (up hi) (up hi2)).mpr hu
          rwa [f3] at this

/-! ## Element by element, and in place -/

omit [LinearOrder L] in
theorem map_before {y' y : Larry L} (hy : y.Valid) (h : y'.Before later y) (g : Val → Val) (d : DType) :
    (⟨y'.x.map g, d, y'.label⟩ : Larry L).Before later ⟨y.x.map g, d, y.label⟩ :=
  before_of_get h.label rfl fun idx' idx names h1 h2 => by
    show g (y'.x.get idx') = g (y.x.get idx)
    rw [h.get hy h1 h2]

omit [LinearOrder L] in
theorem clip_before {y' y : Larry L} (hy : y.Valid) (h : y'.Before later y) (lo hi : Flt) :
    Res.Both (Before later) (y'.clip lo hi) (y.clip lo hi) := by
  unfold clip
  rw [h.dtype]
  split
  · exact .right
  · split
    · exact .right
    · exact .ok (map_before hy h (fun v => storeAs y.dtype (clip1 lo hi v.num)) y.dtype)

omit [LinearOrder L] in
theorem ismissing_before {y' y : Larry L} (hy : y.Valid) (h : y'.Before later y) : y'.ismissing.Before later y.ismissing := by
  refine before_of_get h.label rfl fun idx' idx names h1 h2 => ?_
  show Val.bool ((La.ismissing y'.dtype y'.x).get idx') = Val.bool ((La.ismissing y.dtype y.x).get idx)
  rw [h.dtype]
  unfold La.ismissing
  split
  · rfl
  · simp only [NDArray.map, h.get hy h1 h2]

theorem set_before {y' y : Larry L} (hy' : y'.Valid) (hy : y.Valid) (h : y'.Before later y) (names : List L) (v : Val) :
    Res.Both (Before later) (y'.set names v) (y.set names v) := by
  unfold set
  cases e' : y'.labelIdx names with
  | error e => exact .left
  | ok index' =>
    cases e : y.labelIdx names with
    | error e => exact .right
    | ok index =>
      rw [labelIdx_ok hy'] at e'
      rw [labelIdx_ok hy] at e
      dsimp only
      split
      · split
        · refine .ok (before_of_get h.label h.dtype fun idx' idx ns h1 h2 => ?_)
          show (if _ then _ else _) = (if _ then _ else _)
          have h1 : At y'.label idx' ns := h1
          have h2 : At y.label idx ns := h2
          rw [h.get hy h1 h2]
          have : idx' = index' ↔ idx = index := by
            constructor
            · rintro rfl
              exact At_unique hy.nodup h2 (At_names_unique e' h1 ▸ e)
            · rintro rfl
              exact At_unique hy'.nodup h1 (At_names_unique e h2 ▸ e')
          simp only [this]
        · exact .right
      · exact .left

theorem setMask_before {y' y m' m : Larry L} (hy : y.Valid) (h : y'.Before later y) (hm : m.Valid) (hr : m'.Before later m)
    (hd : m.dtype ≠ .int) (v : Val) : Res.Both (Before later) (y'.setMask m' v) (y.setMask m v) := by
  unfold setMask
  rw [hr.dtype]
  split
  · rename_i hl'
    by_cases hl : y.label = m.label
    · rw [if_pos hl]
      cases hdt : m.dtype <;> simp only [hdt] at hd ⊢
      case bool =>
        refine .ok (before_of_get (z := ⟨_, _, _⟩) (y := ⟨_, _, _⟩) h.label h.dtype fun idx' idx ns h1 h2 => ?_)
        show (if m'.x.get idx' = _ then _ else _) = (if m.x.get idx = _ then _ else _)
        rw [h.get hy h1 h2, hr.get hm (hl' ▸ h1) (hl ▸ h2)]
      case int => exact absurd rfl hd
      all_goals exact .right
    · rw [if_neg hl]; exact .right
  · exact .left

end
end Larry
end La
