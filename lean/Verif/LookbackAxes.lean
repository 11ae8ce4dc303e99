import Verif.Lookback

/-! # Larrys that agree up to a moment: the methods that rearrange, select or rename (property C106) -/

namespace La
variable {L : Type _} {later : L → Prop}

/-- The labels of the axis are in time order: after a later label come only later labels. -/
def InTime (later : L → Prop) (l : List L) : Prop := l.Pairwise fun a b => later a → later b

/-- The labels of the axis are in reversed time order. -/
def BackInTime (later : L → Prop) (l : List L) : Prop := l.Pairwise fun a b => later b → later a

theorem InTime.early {l : List L} (h : InTime later l) {i j : Nat} {a b : L} (hij : i ≤ j) (hi : l[i]? = some a) (hj : l[j]? = some b)
    (hb : ¬ later b) : ¬ later a := by
  rcases Nat.lt_or_eq_of_le hij with hlt | rfl
  · obtain ⟨h1, e1⟩ := List.getElem?_eq_some_iff.mp hi
    obtain ⟨h2, e2⟩ := List.getElem?_eq_some_iff.mp hj
    have := List.pairwise_iff_getElem.mp h i j h1 h2 hlt
    rw [e1, e2] at this
    exact fun ha => hb (this ha)
  · rw [hi] at hj
    obtain rfl : a = b := by simpa using hj
    exact hb

theorem InTime.reverse {l : List L} (h : InTime later l) : BackInTime later l.reverse := List.pairwise_reverse.mpr h

theorem BackInTime.reverse {l : List L} (h : BackInTime later l) : InTime later l.reverse := List.pairwise_reverse.mpr h

theorem BackInTime.early {l : List L} (h : BackInTime later l) {i j : Nat} {a b : L} (hij : i ≤ j) (hi : l[i]? = some a)
    (hj : l[j]? = some b) (ha : ¬ later a) : ¬ later b := by
  rcases Nat.lt_or_eq_of_le hij with hlt | rfl
  · obtain ⟨h1, e1⟩ := List.getElem?_eq_some_iff.mp hi
    obtain ⟨h2, e2⟩ := List.getElem?_eq_some_iff.mp hj
    have := List.pairwise_iff_getElem.mp h i j h1 h2 hlt
    rw [e1, e2] at this
    exact fun hb => ha (this hb)
  · rw [hi] at hj
    obtain rfl : a = b := by simpa using hj
    exact ha

theorem Early.of_subset {a b : List L} (h : Early later a) (hs : ∀ n ∈ b, n ∈ a) : Early later b := fun n hn => h n (hs n hn)

theorem Early.insertIdx {ns : List L} {n : L} (h : Early later ns) (hn : ¬ later n) (k : Nat) : Early later (ns.insertIdx k n) := by
  intro _ hm
  rcases List.eq_or_mem_of_mem_insertIdx hm with rfl | hm
  · exact hn
  · exact h _ hm

theorem Early.of_insertIdx {ns : List L} {n : L} {k : Nat} (hk : k ≤ ns.length) (h : Early later (ns.insertIdx k n)) : Early later ns :=
  h.of_subset fun _ hm => (List.mem_insertIdx hk).mpr (.inr hm)

namespace Larry

/-- Every cell of the result is read from one cell of the argument; the cells without later labels from cells without later labels. -/
theorem until_through {y y' : Larry L} (h : y.Until later y') {r r' : Res (Larry L)}
    (hr : Res.Agree (Larry.Rel NoVal NoDType) r r') (hn : ∀ z', r' = .ok z' → ∀ l ∈ z'.label, l.Nodup) (g : Val → Val)
    (hz : ∀ z z' names v, r = .ok z → r' = .ok z' → Early later names → z.Has names v → ∃ ns u, Early later ns ∧ y.Has ns u ∧ v = g u ∧
      ∀ u', y'.Has ns u' → z'.Has names (g u')) : Res.Agree (Until later) r r' := by
  refine until_of hr fun z z' h1 h2 names v v' he hv hv' => ?_
  obtain ⟨ns, u, k1, k2, rfl, k3⟩ := hz z z' names v h1 h2 he hv
  obtain ⟨u', hu'⟩ := Holds_of_Named (x := y'.x) (h.label ▸ Named_of_Holds k2)
  rw [Holds_unique (hn z' h2) hv' (k3 u' hu'), h.cells ns u u' k1 k2 hu']

section
variable [LinearOrder L]

theorem sortaxis_until {y y' : Larry L} (hy : y.Valid) (hy' : y'.Valid) (h : y.Until later y') (axis : Option Int) (reverse : Bool) :
    Res.Agree (Until later) (y.sortaxis axis reverse) (y'.sortaxis axis reverse) :=
  until_same h (sortaxis_rel fills_no (h.rel hy hy') axis reverse) (fun _ hz names v => ((sortaxis_reordered hy hz).has names v).mp)
    fun _ hz names v => ((sortaxis_reordered hy' hz).has names v).mp

omit [LinearOrder L] in
theorem flipaxis_until {y y' : Larry L} (hy : y.Valid) (hy' : y'.Valid) (h : y.Until later y') (axis : Option Int) :
    Res.Agree (Until later) (y.flipaxis axis) (y'.flipaxis axis) :=
  until_same h (flipaxis_rel (h.rel hy hy') axis) (fun _ hz names v => ((flipaxis_reordered hy hz).has names v).mp)
    fun _ hz names v => ((flipaxis_reordered hy' hz).has names v).mp

theorem keepLabel_has {y z : Larry L} (hy : y.Valid) {op : LabelOp L} {axis : Option Int} (h : y.keepLabel op axis = .ok z)
    (names : List L) (v : Val) (hh : z.Has names v) : y.Has names v := by
  by_cases hop : op = .unknown
  · subst hop
    rw [(C38_keep_label_errors hy .unknown).1 axis] at h; simp at h
  cases axis with
  | none => rw [(C38_keep_label_errors hy op).2.1] at h; simp at h
  | some a =>
    cases ha : pyIdx y.ndim a with
    | none => rw [(C38_keep_label_errors hy op).2.2 a hop ha] at h; simp at h
    | some ax =>
      obtain ⟨l, hl⟩ := axis_label hy ha
      have k := C38_keep_label hy hop ha hl
      by_cases hw : ∃ b ∈ l, Wanted op b
      · obtain ⟨z', lab, e1, e2, e3, e4⟩ := k.2 hw
        rw [e1] at h
        obtain rfl : z' = z := by simpa using h
        exact ((e2.has _ _).mp hh).2
      · obtain ⟨z', e1, e2, e3, e4⟩ := k.1 fun b hb hb' => hw ⟨b, hb, hb'⟩
        rw [e1] at h
        obtain rfl : z' = z := by simpa using h
        obtain ⟨idx, hat, -⟩ := hh
        rw [e2] at hat
        cases idx with
        | nil => exact hat.elim
        | cons i is => cases names with
          | nil => exact hat.elim
          | cons n ns => simp [At] at hat

theorem keepLabel_until {y y' : Larry L} (hy : y.Valid) (hy' : y'.Valid) (h : y.Until later y') (op : LabelOp L) (axis : Option Int) :
    Res.Agree (Until later) (y.keepLabel op axis) (y'.keepLabel op axis) :=
  until_same h (keepLabel_rel trivial hy (h.rel hy hy') op axis) (fun _ hz => keepLabel_has hy hz) fun _ hz => keepLabel_has hy' hz

theorem take_has {y z : Larry L} (hy : y.Valid) {is : List Int} {axis : Int} (h : y.take is axis = .ok z)
    (names : List L) (v : Val) (hh : z.Has names v) : y.Has names v := by
  have herr := C34_take_errors hy axis is
  cases ha : pyIdx y.ndim axis with
  | none => rw [herr.1 ha] at h; simp at h
  | some ax =>
    obtain ⟨l, hl⟩ := axis_label hy ha
    have hd : y.label.getD ax [] = l := by simp [hl]
    cases hp : pyItems l is with
    | error e => simp [take, hy.label_length, ha, hl, hp] at h
    | ok lab =>
      obtain ⟨ids, h1, h2⟩ := pyItems_ok.mp hp
      have hids : List.Forall₂ (fun i k => pyIdx l.length i = some k) is ids :=
        (mapRes_ok.mp h1).imp fun _ _ h => pyIdxE_ok.mp h
      by_cases hnd : ids.Nodup
      · obtain ⟨z', lab', e1, -, e2⟩ := C34_take hy ha hl hids hnd
        rw [e1] at h
        obtain rfl : z' = z := by simpa using h
        exact ((e2.has _ _).mp hh).2
      · rw [herr.2.2 ax l ids ha hl hids hnd] at h; simp at h

theorem take_until {y y' : Larry L} (hy : y.Valid) (hy' : y'.Valid) (h : y.Until later y') (is : List Int) (axis : Int) :
    Res.Agree (Until later) (y.take is axis) (y'.take is axis) :=
  until_same h (take_rel (h.rel hy hy') is axis) (fun _ hz => take_has hy hz) fun _ hz => take_has hy' hz

omit [LinearOrder L] in
theorem T_until {y y' : Larry L} (hy : y.Valid) (hy' : y'.Valid) (h : y.Until later y') : y.T.Until later y'.T := by
  obtain ⟨-, -, -, k, -⟩ := C27_transpose hy
  obtain ⟨-, -, -, k', -⟩ := C27_transpose hy'
  refine .rel_of (T_rel (h.rel hy hy')) fun names v v' he hv hv' => ?_
  have e := (k names.reverse v).mp (by rwa [List.reverse_reverse])
  have e' := (k' names.reverse v').mp (by rwa [List.reverse_reverse])
  exact h.cells _ v v' (fun n hn => he n (List.mem_reverse.mp hn)) e e'

theorem swapaxes_until {y y' : Larry L} (hy : y.Valid) (hy' : y'.Valid) (h : y.Until later y') (a b : Int) :
    Res.Agree (Until later) (y.swapaxes a b) (y'.swapaxes a b) := by
  have hn := h.ndim hy hy'
  have hlen := hy.label_length
  refine until_through h (swapaxes_rel hy (h.rel hy hy') a b) (fun z' hz' => (swapaxes_valid hy' hz').nodup) id
    fun z z' names v h1 h2 he hv => ?_
  by_cases hE : pyIdx y.ndim a = none ∨ pyIdx y.ndim b = none
  · rw [C27_swapaxes_axis hy hE] at h1; simp at h1
  · push Not at hE
    obtain ⟨i, hi⟩ := Option.ne_none_iff_exists'.mp hE.1
    obtain ⟨j, hj⟩ := Option.ne_none_iff_exists'.mp hE.2
    have li := pyIdx_lt hi
    have lj := pyIdx_lt hj
    obtain ⟨w, e1, e2, e3, e4, e5, -⟩ := C27_swapaxes hy hi hj
    obtain ⟨w', e1', e2', e3', e4', e5', -⟩ := C27_swapaxes hy' (hn ▸ hi) (hn ▸ hj)
    rw [e1] at h1
    rw [e1'] at h2
    obtain rfl : w = z := by simpa using h1
    obtain rfl : w' = z' := by simpa using h2
    have hl : names.length = y.ndim := by
      rw [(Named_iff.mp (Named_of_Holds hv)).1, e4.1, hlen]
    have hX : Exchanged i j (swapList names i j) names := by
      rw [exchanged_iff (by rw [swapList_length]; omega) (by rw [swapList_length]; omega)]
      refine List.ext_getElem? fun k => ?_
      rw [swapList_getElem? (by rw [swapList_length]; omega) (by rw [swapList_length]; omega)]
      simp only [swapList_getElem? (show i < names.length by omega) (show j < names.length by omega)]
      by_cases k1 : k = i <;> by_cases k2 : k = j <;> simp_all
    have hs : (swapList names i j).length = y.ndim := by rw [swapList_length]; exact hl
    refine ⟨swapList names i j, v, he.of_subset fun n hn => ?_, (e5 _ names v hX hs).mp hv, rfl, fun u' hu' =>
      (e5' _ names u' hX (hn ▸ hs)).mpr hu'⟩
    obtain ⟨k, hk⟩ := List.mem_iff_getElem?.mp hn
    rw [swapList_getElem? (by omega) (by omega)] at hk
    split at hk
    · exact List.mem_of_getElem? hk
    · split at hk <;> exact List.mem_of_getElem? hk

omit [LinearOrder L] in
theorem early_dropUnit : ∀ {shape : List Nat} {label : List (List L)} {names : List L}, shape = label.map List.length →
    Named label names → (∀ l ∈ label, l.length = 1 → Early later l) → Early later (dropUnit shape names) → Early later names
  | [], label, names, hs, hn, hu, he => by
    cases label with
    | nil => cases names with
      | nil => exact he
      | cons _ _ => exact hn.elim
    | cons _ _ => simp at hs
  | s :: shape, label, names, hs, hn, hu, he => by
    cases label with
    | nil => simp at hs
    | cons l label => cases names with
      | nil => exact hn.elim
      | cons n names =>
        simp only [List.map_cons, List.cons.injEq] at hs
        simp only [List.mem_cons, forall_eq_or_imp] at hu
        simp only [dropUnit] at he
        split at he
        · rename_i h1
          have := early_dropUnit hs.2 hn.2 hu.2 he
          intro m hm
          rcases List.mem_cons.mp hm with rfl | hm
          · exact hu.1 (hs.1 ▸ h1) m hn.1
          · exact this m hm
        · have := early_dropUnit hs.2 hn.2 hu.2 fun m hm => he m (List.mem_cons_of_mem _ hm)
          intro m hm
          rcases List.mem_cons.mp hm with rfl | hm
          · exact he m List.mem_cons_self
          · exact this m hm

omit [LinearOrder L] in
/-- `squeeze`, where no label that goes is a later one. -/
theorem squeeze_until {y y' : Larry L} (hy : y.Valid) (hy' : y'.Valid) (h : y.Until later y')
    (hu : ∀ l ∈ y.label, l.length = 1 → Early later l) (hv : y'.squeeze.Valid) : y.squeeze.Until later y'.squeeze := by
  have hs : y.shape = y'.shape := h.shape hy hy'
  obtain ⟨-, -, k1, k2, -⟩ := C32_squeeze hy
  obtain ⟨-, -, k1', k2', -⟩ := C32_squeeze hy'
  refine .rel_of (squeeze_rel (h.rel hy hy')) fun names v v' he hh hh' => ?_
  obtain ⟨n, rfl, hn⟩ := k2 _ _ hh
  obtain ⟨u, hu'⟩ := Holds_of_Named (x := y'.x) (h.label ▸ Named_of_Holds hn)
  have := k1' n u hu'
  rw [← hs] at this
  rw [Holds_unique hv.nodup hh' this]
  exact h.cells n v u (early_dropUnit hy.shape_eq (Named_of_Holds hn) hu he) hn hu'

theorem insertaxis_until {y y' : Larry L} (hy : y.Valid) (hy' : y'.Valid) (h : y.Until later y') (axis : Option Int) (name : L) :
    Res.Agree (Until later) (y.insertaxis axis name) (y'.insertaxis axis name) := by
  have hn := h.ndim hy hy'
  have hlen := hy.label_length
  refine until_through h (insertaxis_rel (h.rel hy hy') axis name) (fun z' hz' => (insertaxis_valid hz').nodup) id
    fun z z' names v h1 h2 he hv => ?_
  cases axis with
  | none => exact absurd h1 (by simp [insertaxis])
  | some a =>
    by_cases ha : a < -(y.ndim + 1 : Int)
    · rcases C31_insertaxis_far hy name ha with k | ⟨w, k1, k2, k3, k4, k5⟩
      · rw [k] at h1; simp at h1
      rcases C31_insertaxis_far hy' name (hn ▸ ha) with k' | ⟨w', k1', k2', k3', k4', k5'⟩
      · rw [k'] at h2; simp at h2
      rw [k1] at h1
      rw [k1'] at h2
      obtain rfl : w = z := by simpa using h1
      obtain rfl : w' = z' := by simpa using h2
      have hN := Named_of_Holds hv
      rw [k4] at hN
      cases names with
      | nil => exact hN.elim
      | cons n ns =>
        obtain rfl := List.mem_singleton.mp hN.1
        exact ⟨ns, v, he.of_subset fun _ => List.mem_cons_of_mem _, (k5 _ _).mp hv, rfl, fun u' => (k5' _ _).mpr⟩
    · obtain ⟨p, hp⟩ : ∃ p, NewAxisAt y.ndim a p := by
        by_cases h0 : 0 ≤ a
        · exact ⟨(Min.min a y.ndim).toNat, .inl ⟨h0, by omega⟩⟩
        · exact ⟨(a + y.ndim + 1).toNat, .inr ⟨by omega, by omega, by omega⟩⟩
      have hple : p ≤ y.ndim := by rcases hp with ⟨-, h1⟩ | ⟨h0, -, h1⟩ <;> omega
      obtain ⟨w, k1, k2, k3, k4, k5⟩ := C31_insertaxis hy name hp
      obtain ⟨w', k1', k2', k3', k4', k5'⟩ := C31_insertaxis hy' name (hn ▸ hp)
      rw [k1] at h1
      rw [k1'] at h2
      obtain rfl : w = z := by simpa using h1
      obtain rfl : w' = z' := by simpa using h2
      have hN := Named_iff.mp (Named_of_Holds hv)
      rw [k4, List.length_insertIdx_of_le_length (by omega)] at hN
      obtain ⟨n, ns, rfl, h4, -⟩ := exists_insertIdx (l := names) (k := p) (by omega)
      have hnl : ns.length = y.ndim := by
        rw [h4, List.length_eraseIdx_of_lt (by omega)]; omega
      have : n ∈ [name] := hN.2 p [name] n (by exact List.getElem?_insertIdx_self .. |>.trans (if_pos (by omega)))
        (List.getElem?_insertIdx_self .. |>.trans (if_pos (by omega)))
      obtain rfl := List.mem_singleton.mp this
      exact ⟨ns, v, he.of_insertIdx (by omega), (k5 _ _ hnl).mp hv, rfl, fun u' => (k5' _ _ (hn ▸ hnl)).mpr⟩

omit [LinearOrder L] in
/-- `maplabel`, where a later label stays a later one. -/
theorem maplabel_until {y y' : Larry L} (hy : y.Valid) (hy' : y'.Valid) (h : y.Until later y') (f : L → L) (axis : Option Int)
    (hf : ∀ (k : Nat) l, y.label[k]? = some l → (∀ a, axis = some a → a = k ∨ a = (k : Int) - y.ndim) → ∀ b ∈ l, later b → later (f b))
    (hv : ∀ z, y'.maplabel f axis = .ok z → z.Valid) : Res.Agree (Until later) (y.maplabel f axis) (y'.maplabel f axis) := by
  refine until_through h (maplabel_rel (h.rel hy hy') f axis) (fun z' hz' => (hv z' hz').nodup) id
    fun z z' names v h1 h2 he hh => ?_
  cases axis with
  | none =>
    obtain rfl : _ = z := by simpa [maplabel] using h1
    obtain rfl : _ = z' := by simpa [maplabel] using h2
    obtain ⟨ns, rfl, hns⟩ := (holds_through (fun _ _ => at_map) names v).mp hh
    refine ⟨ns, v, fun n hn hl => ?_, hns, rfl, fun u' hu' => (holds_through (fun _ _ => at_map) _ u').mpr ⟨ns, rfl, hu'⟩⟩
    obtain ⟨k, hk⟩ := List.mem_iff_getElem?.mp hn
    have hN := Named_iff.mp (Named_of_Holds hns)
    have hkl : k < y.label.length := by rw [← hN.1]; exact (List.getElem?_eq_some_iff.mp hk).1
    exact he (f n) (List.mem_map_of_mem hn) (hf k _ (List.getElem?_eq_getElem hkl) (by simp) n
      (hN.2 k _ n (List.getElem?_eq_getElem hkl) hk) hl)
  | some a =>
    unfold maplabel at h1 h2
    have hlab := h.label
    rw [← hlab] at h2
    cases hk : pyIdx y.label.length a with
    | none => simp [hk] at h1
    | some k =>
      simp only [hk, Except.ok.injEq] at h1 h2
      have hk1 := pyIdx_lt hk
      subst h1 h2
      obtain ⟨ns, rfl, hns⟩ := (holds_through (fun _ _ => at_mapAt hk1) names v).mp hh
      refine ⟨ns, v, fun n hn hl => ?_, hns, rfl, fun u' hu' => (holds_through (fun _ _ => at_mapAt hk1) _ u').mpr ⟨ns, rfl, ?_⟩⟩
      · obtain ⟨i, hi⟩ := List.mem_iff_getElem?.mp hn
        have hN := Named_iff.mp (Named_of_Holds hns)
        by_cases hik : i = k
        · subst hik
          refine he (f n) (List.mem_of_getElem? (i := i) (by simp [hi])) (hf i _ (List.getElem?_eq_getElem hk1) ?_ n
            (hN.2 i _ n (List.getElem?_eq_getElem hk1) hi) hl)
          intro a' ha'
          obtain rfl : a = a' := by simpa using ha'
          rw [hy.label_length] at hk
          have := pyIdx_some.mp hk
          omega
        · exact he n (List.mem_of_getElem? (i := i) (by rw [List.getElem?_modify]; simp [hi, Ne.symm hik])) hl
      · show Holds y.label y'.x ns u'
        rw [hlab]; exact hu'

theorem pull_until {y y' : Larry L} (hy : y.Valid) (hy' : y'.Valid) (h : y.Until later y') {name : L} (hname : ¬ later name)
    (axis : Option Int) : Res.Agree (Out.Until later) (y.pull name axis) (y'.pull name axis) := by
  have hn := h.ndim hy hy'
  rcases (pull_rel (h.rel hy hy') name axis).cases with ⟨r, r', h1, h2, h3⟩ | ⟨e, h1, h2⟩
  · refine .ok h1 h2 ?_
    match r, r', h3 with
    | .scalar _, .scalar _, _ => trivial
    | .larry z, .larry z', h3 =>
      refine .rel_of h3 fun names v v' he hv hv' => ?_
      cases axis with
      | none => rw [(C31_pull_errors hy name).1] at h1; simp at h1
      | some a =>
        cases ha : pyIdx y.ndim a with
        | none => rw [(C31_pull_errors hy name).2.1 a ha] at h1; simp at h1
        | some ax =>
          obtain ⟨l, hl⟩ := axis_label hy ha
          have hl' : y'.label[ax]? = some l := h.label ▸ hl
          by_cases hm : name ∈ l
          · have k := C31_pull hy ha hl hm
            have k' := C31_pull hy' (hn ▸ ha) hl' hm
            by_cases h1' : y.ndim = 1
            · rw [k.1 h1'] at h1; simp at h1
            · have hs : ∀ m, y.label.eraseIdx ax ≠ [[m]] := by
                intro m hm
                obtain ⟨v, e, -⟩ := k.2.1 m hm
                rw [e] at h1; simp at h1
              obtain ⟨w, e1, e2, e3, e4, e5⟩ := k.2.2 h1' hs
              obtain ⟨w', e1', e2', e3', e4', e5'⟩ := k'.2.2 (hn ▸ h1') (h.label ▸ hs)
              rw [e1] at h1
              rw [e1'] at h2
              obtain rfl : w = z := by simpa using h1
              obtain rfl : w' = z' := by simpa using h2
              exact h.cells _ v v' (he.insertIdx hname ax) ((e5 _ _).mp hv).2 ((e5' _ _).mp hv').2
          · rw [(C31_pull_errors hy name).2.2 a ax l ha hl hm] at h1; simp at h1
  · exact .error h1 h2

/-! ## Indexing -/

omit [LinearOrder L] in
theorem early_parts : ∀ {parts : List (Part L)} {names : List L}, (∀ n, Part.one n ∈ parts → ¬ later n) → Early later names →
    Early later (Part.names parts names)
  | [], _, _, he => he
  | .one n :: parts, names, hp, he => by
    intro m hm
    rcases List.mem_cons.mp hm with rfl | hm
    · exact hp _ List.mem_cons_self
    · exact early_parts (fun n hn => hp n (List.mem_cons_of_mem _ hn)) he m hm
  | .many _ :: parts, n :: names, hp, he => by
    intro m hm
    rcases List.mem_cons.mp hm with rfl | hm
    · exact he _ List.mem_cons_self
    · exact early_parts (fun n hn => hp n (List.mem_cons_of_mem _ hn)) (he.of_subset fun _ => List.mem_cons_of_mem _) m hm
  | .many _ :: _, [], _, _ => fun _ hm => (List.not_mem_nil hm).elim

omit [LinearOrder L] in
theorem shows_until {y y' : Larry L} (h : y.Until later y') {parts : List (Part L)} (hp : ∀ n, Part.one n ∈ parts → ¬ later n)
    {d d' : DType} {r r' : GetOut L} (hr : r.Rel NoVal NoDType r')
    (h1 : r.Shows d (Part.labels parts) fun names v => y.Has (Part.names parts names) v)
    (h2 : r'.Shows d' (Part.labels parts) fun names v => y'.Has (Part.names parts names) v) : r.Until later r' :=
  match r, r', hr, h1, h2 with
  | .scalar _, .scalar _, _, _, _ => trivial
  | .array _, .array _, _, _, _ => trivial
  | .larry _, .larry _, hr, h1, h2 => .rel_of hr fun names v v' he hv hv' =>
      h.cells _ v v' (early_parts hp he) ((h1.2.2.2 names v).mp hv).2 ((h2.2.2.2 names v').mp hv').2

/-- `y[index]`, where no label of an axis that goes is a later one. -/
theorem getitem_until {y y' : Larry L} (hy : y.Valid) (hy' : y'.Valid) (h : y.Until later y') {idx : Index L}
    (hm : ∀ m, Item.lar m ∈ idx.items → m.Valid) (hs : ¬ Scrambled idx.items)
    (hp : ∀ parts, TakesParts y.label idx.items parts → ∀ n, Part.one n ∈ parts → ¬ later n) :
    Res.Agree (GetOut.Until later) (y.getitem idx) (y'.getitem idx) := by
  rcases (getitem_rel (h.rel hy hy') idx).cases with ⟨r, r', h1, h2, h3⟩ | ⟨e, h1, h2⟩
  · obtain ⟨ps, k1, k2⟩ := C33_getitem hy hm hs h1
    obtain ⟨ps', k1', k2'⟩ := C33_getitem hy' hm hs h2
    rw [← h.label] at k1'
    obtain rfl := takesParts_unique hy.nodup k1 k1'
    exact .ok h1 h2 (shows_until h (hp ps k1) h3 k2 k2')
  · exact .error h1 h2

/-- `y.lix[index]`, where no label of an axis that goes is a later one. -/
theorem lixGet_until {y y' : Larry L} (hy : y.Valid) (hy' : y'.Valid) (h : y.Until later y') {idx : LIndex L}
    (hp : ∀ its pls, idx = .tuple its → LTakes y.label its pls → ∀ n, [n] ∈ pls → ¬ later n)
    (hp1 : ∀ it l rest n, idx = .one it → y.label = l :: rest → LPicks l it [n] → (∀ s, it ≠ .slice s) → ¬ later n) :
    Res.Agree (GetOut.Until later) (y.lixGet idx) (y'.lixGet idx) := by
  have hsh := h.shape hy hy'
  have hrel := lixGet_rel (h.rel hy hy') idx
  have he := C35_empty y idx
  have he' := C35_empty y' idx
  by_cases h0 : y.shape = [0]
  · rw [he.1 h0, he'.1 (by rw [← h0]; exact hsh.symm)]
    exact h
  · by_cases h00 : 0 ∈ y.shape
    · exact .error (he.2 h0 h00) (he'.2 (fun hh => h0 (hsh.trans hh)) (by rw [Larry.shape, ← hsh]; exact h00))
    · have h00' : 0 ∉ y'.shape := by rw [Larry.shape, ← hsh]; exact h00
      rcases hrel.cases with ⟨r, r', h1, h2, h3⟩ | ⟨e, h1, h2⟩
      · refine .ok h1 h2 ?_
        cases idx with
        | tuple its =>
          obtain ⟨pls, k1, k2, -⟩ := C35_tuple hy h00 h1
          obtain ⟨pls', k1', k2', -⟩ := C35_tuple hy' h00' h2
          rw [← h.label] at k1'
          obtain rfl := LTakes.unique hy.nodup k1 k1'
          refine shows_until h (fun n hn => hp its pls rfl k1 n ?_) h3 k2 k2'
          obtain ⟨ls, h4, h5⟩ := List.mem_map.mp hn
          unfold Part.squeezed at h5
          split at h5
          · simp only [Part.one.injEq] at h5; subst h5; exact h4
          · simp at h5
        | one it =>
          obtain ⟨l, rest, hl⟩ : ∃ l rest, y.label = l :: rest := by
            cases hlab : y.label with
            | nil => exact absurd hlab hy.ndim_pos
            | cons l rest => exact ⟨l, rest, rfl⟩
          obtain ⟨ls, k1, k2, -⟩ := (C35_one hy h00 hl).1 r h1
          obtain ⟨ls', k1', k2', -⟩ := (C35_one hy' h00' (h.label ▸ hl)).1 r' h2
          have hnd : l.Nodup := hy.nodup l (by rw [hl]; exact List.mem_cons_self)
          obtain rfl := LPicks.unique hnd k1 k1'
          refine shows_until h (fun n hn => ?_) h3 k2 k2'
          rcases List.mem_cons.mp hn with hn | hn
          · cases it <;> simp only [LItem.part] at hn
            case slice => simp at hn
            all_goals
              unfold Part.squeezed at hn
              split at hn
              · simp only [Part.one.injEq] at hn; subst hn; exact hp1 _ l rest _ rfl hl k1 (by simp)
              · simp at hn
          · obtain ⟨_, -, h5⟩ := List.mem_map.mp hn
            simp at h5
      · exact .error h1 h2

theorem lag_until {y y' : Larry L} (hy : y.Valid) (hy' : y'.Valid) (h : y.Until later y') (nlag : Int) (axis : Option Int)
    (ho : ∀ a ax l, axis = some a → pyIdx y.ndim a = some ax → y.label[ax]? = some l →
      (0 < nlag → InTime later l) ∧ (nlag < 0 → BackInTime later l)) :
    Res.Agree (Until later) (y.lag nlag axis) (y'.lag nlag axis) := by
  have hn := h.ndim hy hy'
  refine until_through h (lag_rel (h.rel hy hy') nlag axis) (fun z' hz' => (lag_valid hy' hz').nodup) id
    fun z z' names v h1 h2 he hv => ?_
  have hn0 : ∀ {z : Larry L} {names : List L} {v : Val} {ax : Nat} {l : List L}, z.label = y.label.set ax l → ax < y.label.length →
      z.Has names v → ∃ n, names[ax]? = some n ∧ n ∈ l ∧ names.set ax n = names := by
    intro z names v ax l hl hax hv
    have hN := Named_iff.mp (Named_of_Holds hv)
    rw [hl, List.length_set] at hN
    have hb : ax < names.length := by omega
    refine ⟨names[ax], List.getElem?_eq_getElem hb, hN.2 ax l _ (by simp [hax]) (List.getElem?_eq_getElem hb), ?_⟩
    simp
  cases axis with
  | none => rw [(C26_lag_axis hy nlag).1] at h1; simp at h1
  | some a =>
    by_cases h0 : nlag = 0
    · subst h0
      obtain rfl : y = z := by simpa [lag, copy] using h1
      obtain rfl : y' = z' := by simpa [lag, copy] using h2
      exact ⟨names, v, he, hv, rfl, fun _ h => h⟩
    cases ha : pyIdx y.ndim a with
    | none => rw [(C26_lag_axis hy nlag).2 a h0 (pyIdx_none.mp ha)] at h1; simp at h1
    | some ax =>
      obtain ⟨l, hl⟩ := axis_label hy ha
      have hl' : y'.label[ax]? = some l := h.label ▸ hl
      have hax : ax < y.label.length := by rw [hy.label_length]; exact pyIdx_lt ha
      obtain ⟨-, kp, kn⟩ := C26_lag hy ha hl
      obtain ⟨-, kp', kn'⟩ := C26_lag hy' (hn ▸ ha) hl'
      have ho := ho a ax l rfl ha hl
      have hset : ∀ {n n' : L}, ¬ later n' → Early later (names.set ax n') := by
        intro n n' hn' m hm
        rcases List.mem_or_eq_of_mem_set hm with hm | rfl
        · exact he m hm
        · exact hn'
      rcases lt_or_gt_of_ne h0 with hneg | hpos
      · obtain ⟨k, rfl⟩ : ∃ k : Nat, nlag = -(k : Int) := ⟨nlag.natAbs, by omega⟩
        obtain ⟨w, e1, e2, e3, e4, e5⟩ := kn k (by omega)
        obtain ⟨w', e1', e2', e3', e4', e5'⟩ := kn' k (by omega)
        rw [e1] at h1
        rw [e1'] at h2
        obtain rfl : w = z := by simpa using h1
        obtain rfl : w' = z' := by simpa using h2
        obtain ⟨n, f1, f2, f3⟩ := hn0 e4 hax hv
        obtain ⟨i, hi⟩ := List.mem_iff_getElem?.mp f2
        have hil : i < l.length - k := by
          have := (List.getElem?_eq_some_iff.mp hi).1
          rw [List.length_take] at this; omega
        rw [List.getElem?_take_of_lt hil] at hi
        have hi2 : l[i + k]? = some l[i + k] := List.getElem?_eq_getElem (by omega)
        have hb := (ho.2 (by omega)).early (Nat.le_add_right i k) hi hi2 (he n (List.mem_of_getElem? f1))
        refine ⟨names.set ax l[i + k], v, hset (n := n) hb, (e5 i n _ names v hi hi2).mp (f3.symm ▸ hv), rfl, fun u' hu' => ?_⟩
        have := (e5' i n _ names u' hi hi2).mpr hu'
        rwa [f3] at this
      · obtain ⟨k, rfl⟩ : ∃ k : Nat, nlag = (k : Int) := ⟨nlag.natAbs, by omega⟩
        obtain ⟨w, e1, e2, e3, e4, e5⟩ := kp k (by omega)
        obtain ⟨w', e1', e2', e3', e4', e5'⟩ := kp' k (by omega)
        rw [e1] at h1
        rw [e1'] at h2
        obtain rfl : w = z := by simpa using h1
        obtain rfl : w' = z' := by simpa using h2
        obtain ⟨n, f1, f2, f3⟩ := hn0 e4 hax hv
        obtain ⟨i, hi⟩ := List.mem_iff_getElem?.mp f2
        rw [List.getElem?_drop, Nat.add_comm] at hi
        have hil := (List.getElem?_eq_some_iff.mp hi).1
        have hi2 : l[i]? = some l[i] := List.getElem?_eq_getElem (by omega)
        have hb := (ho.1 (by omega)).early (Nat.le_add_right i k) hi2 hi (he n (List.mem_of_getElem? f1))
        refine ⟨names.set ax l[i], v, hset (n := n) hb, (e5 i n _ names v hi hi2).mp (f3.symm ▸ hv), rfl, fun u' hu' => ?_⟩
        have := (e5' i n _ names u' hi hi2).mpr hu'
        rwa [f3] at this

/-! ## Element by element, and in place -/

omit [LinearOrder L] in
theorem map_until {y y' : Larry L} (hy : y.Valid) (h : y.Until later y') (g : Val → Val) (d : DType) :
    (⟨y.x.map g, d, y.label⟩ : Larry L).Until later ⟨y'.x.map g, d, y'.label⟩ :=
  until_of_get hy.nodup h.label rfl fun idx names hat he => by
    show g (y.x.get idx) = g (y'.x.get idx)
    rw [h.get hat he]

omit [LinearOrder L] in
theorem clip_until {y y' : Larry L} (hy : y.Valid) (h : y.Until later y') (lo hi : Flt) :
    Res.Agree (Until later) (y.clip lo hi) (y'.clip lo hi) := by
  unfold clip
  rw [← h.dtype]
  split
  · exact rfl
  · split
    · exact rfl
    exact map_until hy h (fun v => storeAs y.dtype (clip1 lo hi v.num)) y.dtype

omit [LinearOrder L] in
theorem ismissing_until {y y' : Larry L} (hy : y.Valid) (h : y.Until later y') : y.ismissing.Until later y'.ismissing := by
  refine until_of_get hy.nodup h.label rfl fun idx names hat he => ?_
  show Val.bool ((La.ismissing y.dtype y.x).get idx) = Val.bool ((La.ismissing y'.dtype y'.x).get idx)
  rw [← h.dtype]
  unfold La.ismissing
  split
  · rfl
  · simp only [NDArray.map, h.get hat he]

theorem set_until {y y' : Larry L} (hy : y.Valid) (hy' : y'.Valid) (h : y.Until later y') (names : List L) (v : Val) :
    Res.Agree (Until later) (y.set names v) (y'.set names v) := by
  have hl := labelIdx_rel (h.rel hy hy') names
  unfold set
  rw [← hl, ← h.shape hy hy']
  split
  · exact rfl
  · split
    · refine until_of_get (y := ⟨_, _, _⟩) (z := ⟨_, _, _⟩) hy.nodup h.label h.dtype fun idx ns hat he => ?_
      show (if _ then _ else _) = (if _ then _ else _)
      rw [h.get hat he]
    · exact rfl

omit [LinearOrder L] in
theorem assignGrid_get {α : Type _} {a b : NDArray α} (g : NDArray (List Nat)) (v : List Nat → α) {p : List Nat} (h : a.get p = b.get p) :
    (a.assignGrid g v).get p = (b.assignGrid g v).get p := by
  unfold NDArray.assignGrid
  generalize allIdx g.shape = is
  induction is generalizing a b with
  | nil => exact h
  | cons i is ih =>
    refine ih ?_
    show (if _ then _ else _) = (if _ then _ else _)
    rw [h]

omit [LinearOrder L] in
theorem putAt_until {y y' : Larry L} (hy : y.Valid) (hy' : y'.Valid) (h : y.Until later y') (its : List NpItem) (v : List Nat → Val) :
    Res.Agree (Until later) (y.putAt its v) (y'.putAt its v) := by
  unfold putAt
  rw [← h.shape hy hy']
  split
  · exact rfl
  · exact until_of_get (y := ⟨_, _, _⟩) (z := ⟨_, _, _⟩) hy.nodup h.label h.dtype fun idx ns hat he => assignGrid_get _ _ (h.get hat he)

theorem setAt_until (conv : Val → Val) {y y' : Larry L} (hy : y.Valid) (hy' : y'.Valid) (h : y.Until later y') (idx : NpIndex)
    (v : SetVal L) : Res.Agree (Until later) (y.setAt conv idx v) (y'.setAt conv idx v) := by
  unfold setAt
  cases v with
  | scalar v => exact putAt_until hy hy' h _ _
  | lar z =>
    rcases (getitem_rel (h.rel hy hy') idx.toIndex).cases with ⟨r, r', h1, h2, h3⟩ | ⟨e, h1, h2⟩
    · simp only [h1, h2]
      match r, r', h3 with
      | .scalar _, .scalar _, _ => exact rfl
      | .array _, .array _, _ => exact rfl
      | .larry s, .larry s', h3 =>
        simp only [h3.label]
        split
        · exact putAt_until hy hy' h _ _
        · exact rfl
    · simp only [h1, h2]; exact rfl

theorem setMask_until {y y' m m' : Larry L} (hy : y.Valid) (h : y.Until later y') (hr : m.Until later m')
    (hd : m.dtype ≠ .int) (v : Val) : Res.Agree (Until later) (y.setMask m v) (y'.setMask m' v) := by
  unfold setMask
  rw [← h.label, ← hr.label, ← hr.dtype]
  split
  · rename_i hl
    cases hm : m.dtype <;> simp only [hm] at hd ⊢
    case bool =>
      refine until_of_get (y := ⟨_, _, _⟩) (z := ⟨_, _, _⟩) hy.nodup rfl h.dtype fun idx ns hat he => ?_
      show (if m.x.get idx = _ then _ else _) = (if m'.x.get idx = _ then _ else _)
      rw [h.get hat he, hr.get (hl ▸ hat) he]
    case int => exact absurd rfl hd
    all_goals exact rfl
  · exact rfl

theorem lixSet_until (conv : Val → Val) {y y' : Larry L} (hy : y.Valid) (hy' : y'.Valid) (h : y.Until later y') (idx : LIndex L)
    (v : SetVal L) : Res.Agree (Until later) (y.lixSet conv idx v) (y'.lixSet conv idx v) := by
  have hs : y.shape = y'.shape := h.shape hy hy'
  have hput : ∀ (g : NDArray (List Nat)) (f : List Nat → Val),
      (⟨y.x.assignGrid g f, y.dtype, y.label⟩ : Larry L).Until later ⟨y'.x.assignGrid g f, y'.dtype, y.label⟩ := fun g f =>
    until_of_get (y := ⟨_, _, _⟩) (z := ⟨_, _, _⟩) hy.nodup rfl h.dtype fun idx ns hat he => assignGrid_get _ _ (h.get hat he)
  unfold lixSet
  rw [← hs]
  split
  · exact rfl
  · split
    · exact rfl
    · cases idx with
      | one it =>
        simp only [← lixOne_rel (h.rel hy hy')]
        cases y.lixOne it with
        | error e => exact rfl
        | ok it' => exact setAt_until conv hy hy' h _ _
      | tuple its =>
        simp only [← lixSel_rel (h.rel hy hy')]
        cases lixSel y its with
        | error e => exact rfl
        | ok sels =>
          simp only
          have hll : y'.lixLabels (sels.map Prod.fst) = y.lixLabels (sels.map Prod.fst) := by unfold lixLabels; rw [h.label]
          cases v with
          | scalar v =>
            simp only
            cases ixIds y.shape (sels.map Prod.fst) with
            | error e => exact rfl
            | ok ids => rw [← h.label]; exact hput _ _
          | lar z =>
            simp only [hll]
            split
            · exact rfl
            · cases y.lixLabels (sels.map Prod.fst) with
              | error e => exact rfl
              | ok labs =>
                simp only
                split
                · exact rfl
                · cases ixIds y.shape (sels.map Prod.fst) with
                  | error e => exact rfl
                  | ok ids => rw [← h.label]; exact hput _ _

end
end Larry
end La
