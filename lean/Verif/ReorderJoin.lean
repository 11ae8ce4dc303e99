import Verif.ReorderAxes

/-! # Order of labels: align, align_axis, binaryop, union, intersection, stack (property C66) -/

namespace La
open Larry
variable {L : Type _}

theorem mapRes_agree {α α' β β' : Type _} {R : α → α' → Prop} {S : β → β' → Prop} {f : α → Res β} {g : α' → Res β'}
    (hf : ∀ a b, R a b → Res.Agree S (f a) (g b)) {as : List α} {bs : List α'} (h : List.Forall₂ R as bs) :
    Res.Agree (List.Forall₂ S) (mapRes f as) (mapRes g bs) := by
  induction h with
  | nil => exact .nil
  | @cons a b as bs h1 _ ih =>
    unfold mapRes
    rcases (hf a b h1).cases with ⟨x, y, e1, e2, hs⟩ | ⟨e, e1, e2⟩
    · simp only [e1, e2]
      rcases ih.cases with ⟨xs, ys, f1, f2, ht⟩ | ⟨e, f1, f2⟩
      · simp only [f1, f2]; exact .cons hs ht
      · simp only [f1, f2]; exact rfl
    · simp only [e1, e2]; exact rfl

section
variable [LinearOrder L]

/-! ## align -/

omit [LinearOrder L] in
theorem newIn1_congr {j : Join} {a a' b b' : List L} (ha : a.Perm a') (hb : b.Perm b') :
    NewIn1 j a b ↔ NewIn1 j a' b' := by simp only [NewIn1, ha.mem_iff, hb.mem_iff]

omit [LinearOrder L] in
theorem newIn2_congr {j : Join} {a a' b b' : List L} (ha : a.Perm a') (hb : b.Perm b') :
    NewIn2 j a b ↔ NewIn2 j a' b' := by simp only [NewIn2, ha.mem_iff, hb.mem_iff]

omit [LinearOrder L] in
theorem axisFails_perm {cast : Bool} {d1 d2 : DType} {j : Join} {a a' b b' : List L} {e : PyErr} (ha : a.Perm a')
    (hb : b.Perm b') (h : AxisFails cast d1 d2 j a b e) : AxisFails cast d1 d2 j a' b' e := by
  cases h with
  | unknown h => exact .unknown h
  | empty1 h h' => exact .empty1 ((newIn1_congr ha hb).mp h) ((perm_nil_iff ha).mp h')
  | empty2 h h' => exact .empty2 ((newIn2_congr ha hb).mp h) ((perm_nil_iff hb).mp h')
  | cast1 h h' h'' => exact .cast1 h h' ((newIn1_congr ha hb).mp h'')
  | cast2 h h' h'' => exact .cast2 h h' ((newIn2_congr ha hb).mp h'')

omit [LinearOrder L] in
theorem firstRaises_perm {cast : Bool} {d1 d2 : DType} {js : List Join} {a a' b b' : List (List L)} {e : PyErr}
    (ha : List.Forall₂ List.Perm a a') (hb : List.Forall₂ List.Perm b b')
    (h : FirstRaises cast d1 d2 (js.zip (a.zip b)) e) : FirstRaises cast d1 d2 (js.zip (a'.zip b')) e := by
  induction js generalizing a a' b b' with
  | nil => exact h
  | cons j js ih =>
    cases ha with
    | nil => exact h
    | cons p1 p2 => cases hb with
      | nil => exact h
      | cons q1 q2 =>
        simp only [List.zip_cons_cons] at h ⊢
        cases h with
        | here h => exact .here ⟨axisFails_perm p1 q1 h.1, fun h' => h.2 (axisFails_perm p1.symm q1.symm h')⟩
        | later h h' => exact .later (fun e' he => h e' (axisFails_perm p1.symm q1.symm he)) (ih p2 q2 h')

theorem axisJoined_perm {j : Join} {a b r1 r2 a' b' r1' r2' : List L} (h : AxisJoined j a b r1 r2)
    (h' : AxisJoined j a' b' r1' r2') (ha : a.Perm a') (hb : b.Perm b') (hn : a.Nodup) (hn' : a'.Nodup) :
    r1.Perm r1' ∧ r2.Perm r2' := by
  cases j <;> simp only [AxisJoined] at h h'
  · obtain ⟨h, rfl⟩ := h
    obtain ⟨h', rfl⟩ := h'
    have : r2.Perm r2' := by
      rw [List.perm_ext_iff_of_nodup (h.nodup hn) (h'.nodup hn')]
      intro x; rw [h.mem, h'.mem, ha.mem_iff, hb.mem_iff]
    exact ⟨this, this⟩
  · obtain ⟨h, rfl⟩ := h
    obtain ⟨h', rfl⟩ := h'
    have : r2.Perm r2' := by
      rw [List.perm_ext_iff_of_nodup (h.nodup hn) (h'.nodup hn')]
      intro x; rw [h.mem, h'.mem, ha.mem_iff, hb.mem_iff]
    exact ⟨this, this⟩
  · rw [h.1, h.2, h'.1, h'.2]; exact ⟨ha, ha⟩
  · rw [h.1, h.2, h'.1, h'.2]; exact ⟨hb, hb⟩
  · rw [h.1, h.2, h'.1, h'.2]; exact ⟨ha, hb⟩

theorem allJoined_perm {js : List Join} {a b r1 r2 a' b' r1' r2' : List (List L)} (h : AllJoined js a b r1 r2)
    (h' : AllJoined js a' b' r1' r2') (ha : List.Forall₂ List.Perm a a') (hb : List.Forall₂ List.Perm b b')
    (hn : ∀ l ∈ a, l.Nodup) (hn' : ∀ l ∈ a', l.Nodup) :
    List.Forall₂ List.Perm r1 r1' ∧ List.Forall₂ List.Perm r2 r2' := by
  induction h generalizing a' b' r1' r2' with
  | nil => cases ha; cases hb; cases h'; exact ⟨.nil, .nil⟩
  | cons h1 _ ih =>
    cases ha with
    | cons p1 p2 => cases hb with
      | cons q1 q2 => cases h' with
        | cons k1 k2 =>
          simp only [List.mem_cons, forall_eq_or_imp] at hn hn'
          obtain ⟨e1, e2⟩ := axisJoined_perm h1 k1 p1 q1 hn.1 hn'.1
          obtain ⟨f1, f2⟩ := ih k2 p2 q2 hn.2 hn'.2
          exact ⟨.cons e1 f1, .cons e2 f2⟩

omit [LinearOrder L] in
theorem zip3_exists {P : Join → List L → List L → Prop} (hP : ∀ {j a a' b b'}, List.Perm a a' → List.Perm b b' →
    (P j a b ↔ P j a' b')) {js : List Join} {a a' b b' : List (List L)} (ha : List.Forall₂ List.Perm a a')
    (hb : List.Forall₂ List.Perm b b') :
    (∃ p ∈ js.zip (a.zip b), P p.1 p.2.1 p.2.2) ↔ ∃ p ∈ js.zip (a'.zip b'), P p.1 p.2.1 p.2.2 := by
  induction js generalizing a a' b b' with
  | nil => simp
  | cons j js ih =>
    cases ha with
    | nil => simp
    | cons p1 p2 => cases hb with
      | nil => simp
      | cons q1 q2 => simp only [List.zip_cons_cons, List.mem_cons, exists_eq_or_imp, hP p1 q1, ih p2 q2]

/-- Both outputs. -/
def BothReordered (p q : Larry L × Larry L) : Prop := p.1.Reordered q.1 ∧ p.2.Reordered q.2

theorem align_agree {y y' z z' : Larry L} (hy : y.Valid) (hy' : y'.Valid) (h : y.Reordered y') (hz : z.Valid)
    (hz' : z'.Valid) (hr : z.Reordered z') (join : JoinArg) (cast : Bool) :
    Res.Agree BothReordered (align y z join cast) (align y' z' join cast) := by
  have n1 := h.ndim_eq hy hy'
  have n2 := hr.ndim_eq hz hz'
  by_cases hbad : y.ndim ≠ z.ndim ∨ ∃ js, join = .many js ∧ js.length ≠ z.ndim
  · refine .error (C16_align_shape hbad) (C16_align_shape ?_)
    rw [n1, n2] at hbad; exact hbad
  · push Not at hbad
    obtain ⟨hn, hm⟩ := hbad
    obtain ⟨js, hj⟩ : ∃ js, JoinsFor z.ndim join js := by
      cases join with
      | one j => exact ⟨_, rfl⟩
      | many js => exact ⟨js, rfl, hm js rfl⟩
    have hj' : JoinsFor z'.ndim join js := n2 ▸ hj
    have hn' : y'.ndim = z'.ndim := by omega
    cases ha : align y z join cast with
    | error e =>
      have := (C16_align_first hy hz hn hj e).mp ha
      rw [h.dtype_eq, hr.dtype_eq] at this
      exact .error rfl ((C16_align_first hy' hz' hn' hj' e).mpr (firstRaises_perm h.label hr.label this))
    | ok p =>
      have hok : ∀ e, ¬ FailsAt y z js cast e := by
        intro e hf
        obtain ⟨e', h', _⟩ := C16_align_fails hy hz hn hj ⟨e, hf⟩
        rw [h'] at ha; simp at ha
      have hok' : ∀ e, ¬ FailsAt y' z' js cast e := by
        intro e hf
        obtain ⟨e', h', _⟩ := C16_align_fails hy' hz' hn' hj' ⟨e, hf⟩
        have := (C16_align_first hy' hz' hn' hj' e').mp h'
        rw [← h.dtype_eq, ← hr.dtype_eq] at this
        have := (C16_align_first hy hz hn hj e').mpr
          (firstRaises_perm h.symm.label hr.symm.label this)
        rw [this] at ha; simp at ha
      obtain ⟨s, labs, r1, r2, a1, a2, a3, a4, -, -, -, a8, a9, a10, a11⟩ := alignRaw_ok hy hz hn hj hok
      obtain ⟨s', labs', r1', r2', a1', a2', a3', a4', -, -, -, a8', a9', a10', a11'⟩ :=
        alignRaw_ok hy' hz' hn' hj' hok'
      rw [← ha]
      obtain ⟨l1, l2⟩ := allJoined_perm a2 a2' h.label hr.label hy.nodup hy'.nodup
      have d1 : s.d1 = s'.d1 := by
        rw [a8, a8', h.dtype_eq]
        exact floatIf_congr (zip3_exists (P := NewIn1) newIn1_congr h.label hr.label)
      have d2 : s.d2 = s'.d2 := by
        rw [a9, a9', hr.dtype_eq]
        exact floatIf_congr (zip3_exists (P := NewIn2) newIn2_congr h.label hr.label)
      rw [← d1, ← h.dtype_eq] at a10'
      rw [← d2, ← hr.dtype_eq] at a11'
      unfold La.align
      rw [a1, a1']
      simp only [← a3, ← a4, ← a3', ← a4']
      exact ⟨⟨d1, l1, has_of_reindexed h l1 a10 a10'⟩, ⟨d2, l2, has_of_reindexed hr l2 a11 a11'⟩⟩

/-! ## binaryop -/

/-- The larry made of the parts `binaryop` returns. -/
def rawLarry (p : NDArray Val × DType × List (Option (List L))) : Larry L :=
  ⟨p.1, p.2.1, p.2.2.map (fun l => l.getD [])⟩

theorem binaryop_dtype_error {cv : DType → Val → Val} {uf : UFunc2} {y z z1 z2 : Larry L} (hy : y.Valid)
    (hz : z.Valid) {join : JoinArg} (hs : join.NoSkip) {cast : Bool} {m1 m2 : Option Val} {e : PyErr}
    (ha : La.align y z join cast = .ok (z1, z2)) (hd : uf.dt z1.dtype z2.dtype = .error e) :
    La.binaryop cv uf y z join cast m1 m2 = .error e := by
  obtain ⟨hn, js, hj⟩ := joinsFor_of ha
  have hok : ∀ e, ¬ FailsAt y z js cast e := by
    intro e hf
    obtain ⟨e', h', _⟩ := C16_align_fails hy hz hn hj ⟨e, hf⟩
    rw [h'] at ha; simp at ha
  obtain ⟨s, labs, r1, r2, a1, a2, a3, a4, -, a6, a7, -⟩ := alignRaw_ok hy hz hn hj hok
  have hr := a2.same (noSkip_of hj hs)
  have hsh : s.x1.shape = s.x2.shape := by rw [a6.shape_eq, a7.shape_eq, hr]
  simp only [La.align, a1, Except.ok.injEq, Prod.mk.injEq] at ha
  obtain ⟨rfl, rfl⟩ := ha
  simp only [La.binaryop, a1, hsh, bne_self_eq_false, Bool.and_false, Bool.false_eq_true, if_false]
  have e1 : (fillMiss cv m1 m2 s).d1 = s.d1 := by unfold fillMiss; cases m1 <;> cases m2 <;> rfl
  have e2 : (fillMiss cv m1 m2 s).d2 = s.d2 := by unfold fillMiss; cases m1 <;> cases m2 <;> rfl
  rw [npBinop_dtError (by rw [e1, e2]; exact hd)]

theorem binaryop_agree (cv : DType → Val → Val) (uf : UFunc2) {y y' z z' : Larry L} (hy : y.Valid) (hy' : y'.Valid)
    (h : y.Reordered y') (hz : z.Valid) (hz' : z'.Valid) (hr : z.Reordered z') {join : JoinArg} (hs : join.NoSkip)
    (cast : Bool) (m1 m2 : Option Val) :
    Res.Agree (fun p q => (rawLarry p).Reordered (rawLarry q)) (binaryop cv uf y z join cast m1 m2)
      (binaryop cv uf y' z' join cast m1 m2) := by
  rcases (align_agree hy hy' h hz hz' hr join cast).cases with ⟨⟨z1, z2⟩, ⟨z1', z2'⟩, e1, e2, k1, k2⟩ | ⟨e, e1, e2⟩
  · cases hd : uf.dt z1.dtype z2.dtype with
    | error e =>
      exact .error (binaryop_dtype_error hy hz hs e1 hd)
        (binaryop_dtype_error hy' hz' hs e2 (by rw [← k1.dtype_eq, ← k2.dtype_eq]; exact hd))
    | ok d =>
      have hd' : uf.dt z1'.dtype z2'.dtype = .ok d := by rw [← k1.dtype_eq, ← k2.dtype_eq]; exact hd
      obtain ⟨hn, js, hj⟩ := joinsFor_of e1
      obtain ⟨hn', js', hj'⟩ := joinsFor_of e2
      obtain ⟨x, f1, f2, f3, f4⟩ := C22_binaryop hy hz hn hj (noSkip_of hj hs) cv uf m1 m2 e1 hd
      obtain ⟨x', f1', f2', f3', f4'⟩ := C22_binaryop hy' hz' hn' hj' (noSkip_of hj' hs) cv uf m1 m2 e2 hd'
      have hl : ∀ (l : List (List L)), (l.map some).map (fun l => l.getD []) = l := fun l => by simp
      refine .ok f1 f1' ⟨rfl, ?_, fun names v => ?_⟩
      · show List.Forall₂ List.Perm ((z1.label.map some).map _) ((z1'.label.map some).map _)
        rw [hl, hl]; exact k1.label
      · show Holds ((z1.label.map some).map _) x names v ↔ Holds ((z1'.label.map some).map _) x' names v
        rw [hl, hl, f4, f4', k1.dtype_eq, k2.dtype_eq]
        simp only [k1.has, k2.has]
  · exact .error (C22_binaryop_align_error cv uf m1 m2 e1) (C22_binaryop_align_error cv uf m1 m2 e2)

/-! ## union, intersection, align_axis -/

omit [LinearOrder L] in
theorem pyGet_label {y y' : Larry L} (h : y.Reordered y') (a : Int) :
    Res.Agree List.Perm (pyGet y.label a) (pyGet y'.label a) := by
  have hlen := h.label.length_eq
  cases hk : pyIdx y.label.length a with
  | none => exact .error (pyGet_error hk) (pyGet_error (hlen ▸ hk))
  | some k =>
    have hk1 := pyIdx_lt hk
    obtain ⟨l', h1, h2⟩ := h.get? (List.getElem?_eq_getElem hk1)
    exact .ok (pyGet_ok.mpr ⟨k, hk, List.getElem?_eq_getElem hk1⟩) (pyGet_ok.mpr ⟨k, hlen ▸ hk, h1⟩) h2

theorem setUnion_perm {a a' b b' : List L} (h : a.Perm a') (h' : b.Perm b') : (setUnion a b).Perm (setUnion a' b') := by
  rw [List.perm_ext_iff_of_nodup nodup_setUnion nodup_setUnion]
  intro x; rw [mem_setUnion, mem_setUnion, h.mem_iff, h'.mem_iff]

theorem setInter_perm {a a' b b' : List L} (h : a.Perm a') (h' : b.Perm b') : (setInter a b).Perm (setInter a' b') := by
  rw [List.perm_ext_iff_of_nodup nodup_setInter nodup_setInter]
  intro x; rw [mem_setInter, mem_setInter, h.mem_iff, h'.mem_iff]

omit [LinearOrder L] in
theorem labelFold_agree {op : List L → List L → List L} (hop : ∀ {a a' b b' : List L}, a.Perm a' → b.Perm b' →
    (op a b).Perm (op a' b')) (axis : Int) {lars lars' : List (Larry L)} (h : List.Forall₂ Reordered lars lars')
    {acc acc' : List L} (ha : acc.Perm acc') :
    Res.Agree List.Perm (labelFold op axis lars acc) (labelFold op axis lars' acc') := by
  induction h generalizing acc acc' with
  | nil => exact ha
  | cons h1 _ ih =>
    unfold labelFold
    rcases (pyGet_label h1 axis).cases with ⟨l, l', e1, e2, hp⟩ | ⟨e, e1, e2⟩
    · simp only [e1, e2]; exact ih (hop ha hp)
    · simp only [e1, e2]; exact rfl

theorem union_agree (axis : Int) {lars lars' : List (Larry L)} (h : List.Forall₂ Reordered lars lars') :
    union axis lars = union axis lars' := by
  unfold union
  rcases (labelFold_agree setUnion_perm axis h (.refl [])).cases with ⟨l, l', e1, e2, hp⟩ | ⟨e, e1, e2⟩
  · simp only [e1, e2, pySorted_perm hp]
  · simp only [e1, e2]

theorem intersection_agree (axis : Int) {lars lars' : List (Larry L)} (h : List.Forall₂ Reordered lars lars') :
    intersection axis lars = intersection axis lars' := by
  cases h with
  | nil => rfl
  | cons h1 h2 =>
    unfold intersection
    rcases (pyGet_label h1 axis).cases with ⟨l, l', e1, e2, hp⟩ | ⟨e, e1, e2⟩
    · simp only [e1, e2]
      rcases (labelFold_agree setInter_perm axis h2 hp.dedup).cases with ⟨l, l', f1, f2, hq⟩ | ⟨e, f1, f2⟩
      · simp only [f1, f2, pySorted_perm hq]
      · simp only [f1, f2]
    · simp only [e1, e2]

/-- Larry and axis. -/
def SameAxis (p q : Larry L × Int) : Prop := p.1.Valid ∧ q.1.Valid ∧ p.1.Reordered q.1 ∧ p.2 = q.2

omit [LinearOrder L] in
theorem zip_sameAxis {lars lars' : List (Larry L)} (h : List.Forall₂ Reordered lars lars')
    (hv : ∀ y ∈ lars, y.Valid) (hv' : ∀ y ∈ lars', y.Valid) (axis : List Int) :
    List.Forall₂ SameAxis (lars.zip axis) (lars'.zip axis) := by
  induction h generalizing axis with
  | nil => exact .nil
  | cons h1 _ ih =>
    simp only [List.mem_cons, forall_eq_or_imp] at hv hv'
    cases axis with
    | nil => exact .nil
    | cons a axis => exact .cons ⟨hv.1, hv'.1, h1, rfl⟩ (ih hv.2 hv'.2 axis)

omit [LinearOrder L] in
theorem alignAxisFold_agree {op : List L → List L → List L} (hop : ∀ {a a' b b' : List L}, a.Perm a' → b.Perm b' →
    (op a b).Perm (op a' b')) {ps ps' : List (Larry L × Int)} (h : List.Forall₂ SameAxis ps ps')
    {acc acc' : List L} (ha : acc.Perm acc') :
    Res.Agree List.Perm (alignAxisFold op ps acc) (alignAxisFold op ps' acc') := by
  induction h generalizing acc acc' with
  | nil => exact ha
  | @cons p q _ _ h1 _ ih =>
    obtain ⟨y, a⟩ := p
    obtain ⟨y', a'⟩ := q
    obtain ⟨-, -, h2, h3⟩ := h1
    simp only at h3
    subst h3
    unfold alignAxisFold
    rcases (pyGet_label h2 a).cases with ⟨l, l', e1, e2, hp⟩ | ⟨e, e1, e2⟩
    · simp only [e1, e2]; exact ih (hop ha hp)
    · simp only [e1, e2]; exact rfl

omit [LinearOrder L] in
theorem getLast?_forall₂ {α : Type _} {R : α → α → Prop} {a b : List α} (h : List.Forall₂ R a b) :
    (a.getLast? = none ∧ b.getLast? = none) ∨ ∃ x y, a.getLast? = some x ∧ b.getLast? = some y ∧ R x y := by
  have h' := List.rel_reverse h
  rw [← List.head?_reverse, ← List.head?_reverse]
  generalize a.reverse = c at h' ⊢
  generalize b.reverse = d at h' ⊢
  cases h' with
  | nil => exact .inl ⟨rfl, rfl⟩
  | cons h1 _ => exact .inr ⟨_, _, rfl, rfl, h1⟩

theorem alignAxisLabel_agree {lars lars' : List (Larry L)} (h : List.Forall₂ Reordered lars lars')
    (hv : ∀ y ∈ lars, y.Valid) (hv' : ∀ y ∈ lars', y.Valid) (axis : List Int) (join : Join) :
    Res.Agree List.Perm (alignAxisLabel lars axis join) (alignAxisLabel lars' axis join) := by
  have hl := getLast?_forall₂ h
  have hz : List.Forall₂ SameAxis ((lars.drop 1).zip axis) ((lars'.drop 1).zip axis) := by
    refine zip_sameAxis (List.forall₂_drop 1 h) (fun y hy => hv y (List.mem_of_mem_drop hy))
      (fun y hy => hv' y (List.mem_of_mem_drop hy)) axis
  unfold alignAxisLabel
  cases h with
  | nil => exact rfl
  | @cons y y' lars lars' h1 h2 =>
    cases ha : axis.head? with
    | none => exact rfl
    | some a0 =>
      simp only [List.head?_cons]
      have hg := (pyGet_label h1 a0).cases
      cases join with
      | left => exact pyGet_label h1 a0
      | right =>
        simp only
        cases hb : axis.getLast? with
        | none =>
          rcases hl with ⟨l1, l2⟩ | ⟨x, x', l1, l2, hr⟩ <;> rw [l1, l2] <;> exact rfl
        | some b =>
          rcases hl with ⟨l1, l2⟩ | ⟨x, x', l1, l2, hr⟩
          · rw [l1, l2]; exact rfl
          · rw [l1, l2]; exact pyGet_label hr b
      | inner =>
        simp only
        rcases hg with ⟨l, l', e1, e2, hp⟩ | ⟨e, e1, e2⟩
        · simp only [e1, e2]
          rcases (alignAxisFold_agree setInter_perm hz hp.dedup).cases with ⟨r, r', f1, f2, hq⟩ | ⟨e, f1, f2⟩
          · simp only [f1, f2, pySorted_perm hq]; exact List.Perm.refl _
          · simp only [f1, f2]; exact rfl
        · simp only [e1, e2]; exact rfl
      | outer | skip | other =>
        simp only
        rcases hg with ⟨l, l', e1, e2, hp⟩ | ⟨e, e1, e2⟩
        · simp only [e1, e2]
          rcases (alignAxisFold_agree setUnion_perm hz hp.dedup).cases with ⟨r, r', f1, f2, hq⟩ | ⟨e, f1, f2⟩
          · simp only [f1, f2, pySorted_perm hq]; exact List.Perm.refl _
          · simp only [f1, f2]; exact rfl
        · simp only [e1, e2]; exact rfl

theorem alignAxisN_agree {lars lars' : List (Larry L)} (h : List.Forall₂ Reordered lars lars')
    (hv : ∀ y ∈ lars, y.Valid) (hv' : ∀ y ∈ lars', y.Valid) (axis : List Int) (join : Join) :
    Res.Agree (List.Forall₂ Reordered) (alignAxisN lars axis join) (alignAxisN lars' axis join) := by
  have hz := zip_sameAxis h hv hv' axis
  have hany : (lars.zip axis).any (fun p => p.2 ≥ p.1.ndim || p.2 < -(p.1.ndim : Int)) =
      (lars'.zip axis).any (fun p => p.2 ≥ p.1.ndim || p.2 < -(p.1.ndim : Int)) := by
    clear h hv hv'
    generalize lars.zip axis = ps at hz ⊢
    generalize lars'.zip axis = ps' at hz ⊢
    induction hz with
    | nil => rfl
    | cons h1 _ ih =>
      simp only [List.any_cons, ih]
      rw [h1.2.2.1.ndim_eq h1.1 h1.2.1, h1.2.2.2]
  unfold alignAxisN
  rw [h.length_eq, hany]
  split
  · exact rfl
  · split
    · exact rfl
    · split
      · exact rfl
      · rcases (alignAxisLabel_agree h hv hv' axis join).cases with ⟨l, l', e1, e2, hp⟩ | ⟨e, e1, e2⟩
        · simp only [e1, e2]
          refine mapRes_agree ?_ hz
          rintro ⟨y, a⟩ ⟨y', a'⟩ ⟨v, v', hr, ha⟩
          simp only at ha
          subst ha
          exact morph_agree v v' hr hp a
        · simp only [e1, e2]; exact rfl

/-! ## stack -/

omit [LinearOrder L] in
theorem set_two {a : List (List L)} (h : a.length = 2) (r c : List L) : (a.set 0 r).set 1 c = [r, c] := by
  match a, h with
  | [_, _], _ => rfl

/-- Keyword and 2d larry. -/
def SameKey (p q : L × Larry L) : Prop :=
  p.1 = q.1 ∧ p.2.Valid ∧ q.2.Valid ∧ p.2.Reordered q.2 ∧ p.2.ndim = 2

theorem kwGet_agree {kw kw' : List (L × Larry L)} (h : List.Forall₂ SameKey kw kw') (key : L) :
    Res.Agree (fun y y' => y.Valid ∧ y'.Valid ∧ y.Reordered y' ∧ y.ndim = 2) (kwGet kw key) (kwGet kw' key) := by
  unfold kwGet
  induction h with
  | nil => exact rfl
  | @cons p q kw kw' h1 _ ih =>
    simp only [List.find?_cons, ← h1.1]
    by_cases hk : p.1 = key
    · simp only [hk, decide_true]; exact h1.2
    · simp only [hk, decide_false]; exact ih

theorem stackKey_agree {kw kw' : List (L × Larry L)} (h : List.Forall₂ SameKey kw kw') {row col : List L}
    (hr : row.Nodup) (hc : col.Nodup) (key : L) :
    Res.Agree (fun p q => p.Same q ∧ p.shape = [row.length, col.length]) (stackKey kw row col key)
      (stackKey kw' row col key) := by
  unfold stackKey
  rcases (kwGet_agree h key).cases with ⟨y, y', e1, e2, v, v', hy, hn⟩ | ⟨e, e1, e2⟩
  · have hn' : y'.ndim = 2 := by rw [← hy.ndim_eq v v', hn]
    have i0 : pyIdx y.ndim 0 = some 0 := by rw [hn]; rfl
    have i0' : pyIdx y'.ndim 0 = some 0 := by rw [hn']; rfl
    obtain ⟨l, hl⟩ := axis_label v i0
    obtain ⟨l', hl'⟩ := axis_label v' i0'
    obtain ⟨z, f1, f2, vz, -⟩ := morph_spec v hr i0 hl
    obtain ⟨z', f1', f2', vz', -⟩ := morph_spec v' hr i0' hl'
    have hz : z.Reordered z' := by
      have := morph_agree v v' hy (.refl row) 0
      rw [f1, f1'] at this; exact this
    have nz : z.ndim = 2 := by rw [← vz.label_length, f2, List.length_set, v.label_length, hn]
    have nz' : z'.ndim = 2 := by rw [← hz.ndim_eq vz vz', nz]
    have i1 : pyIdx z.ndim 1 = some 1 := by rw [nz]; rfl
    have i1' : pyIdx z'.ndim 1 = some 1 := by rw [nz']; rfl
    obtain ⟨m, hm⟩ := axis_label vz i1
    obtain ⟨m', hm'⟩ := axis_label vz' i1'
    obtain ⟨w, g1, g2, vw, -⟩ := morph_spec vz hc i1 hm
    obtain ⟨w', g1', g2', vw', -⟩ := morph_spec vz' hc i1' hm'
    have hw : w.Reordered w' := by
      have := morph_agree vz vz' hz (.refl col) 1
      rw [g1, g1'] at this; exact this
    have lw : w.label = [row, col] := by rw [g2, f2, set_two (by rw [v.label_length, hn])]
    have lw' : w'.label = [row, col] := by rw [g2', f2', set_two (by rw [v'.label_length, hn'])]
    have hs := vw.same_of_has vw' (lw.trans lw'.symm) hw.dtype_eq fun n v => (hw.has n v).mp
    simp only [e1, e2, f1, f1', g1, g1', stackPage, hw.dtype_eq, hs.2.2.1]
    split
    · exact rfl
    · split
      · exact rfl
      · rename_i hsh
        refine ⟨⟨hs.2.2.1, fun idx hidx => ?_⟩, ?_⟩
        · show Val.toFloat (w.x.get idx) = Val.toFloat (w'.x.get idx)
          rw [hs.2.2.2 idx hidx]
        · show w.x.shape = _
          rw [vw.shape_eq, lw]; rfl
  · simp only [e1, e2]; exact rfl

theorem ofPages_same {n m : Nat} {ps qs : List (NDArray Val)}
    (h : List.Forall₂ (fun p q => p.Same q ∧ p.shape = [n, m]) ps qs) :
    (ofPages n m ps).Same (ofPages n m qs) := by
  refine ⟨by simp [ofPages, h.length_eq], fun idx hidx => ?_⟩
  match idx, hidx with
  | i :: is, hidx =>
    obtain ⟨h1, h2⟩ : i < ps.length ∧ InB [n, m] is := hidx
    have h3 : i < qs.length := h.length_eq ▸ h1
    have h4 := List.forall₂_iff_get.mp h
    have h5 := h4.2 i h1 h3
    simp only [ofPages, List.headD_cons, List.tail_cons, List.getElem?_eq_getElem h1, List.getElem?_eq_getElem h3]
    exact h5.1.2 is (h5.2 ▸ h2)

omit [LinearOrder L] in
theorem labelFold_nodup {op : List L → List L → List L} (hop : ∀ a b, a.Nodup → (op a b).Nodup) {axis : Int}
    {lars : List (Larry L)} {acc r : List L} (ha : acc.Nodup) (h : labelFold op axis lars acc = .ok r) : r.Nodup := by
  induction lars generalizing acc with
  | nil => cases h; exact ha
  | cons y ys ih =>
    unfold labelFold at h
    split at h
    · simp at h
    · exact ih (hop _ _ ha) h

theorem union_nodup {axis : Int} {lars : List (Larry L)} {r : List L} (h : union axis lars = .ok r) : r.Nodup := by
  unfold union at h
  split at h
  · simp at h
  · rename_i hf
    cases h
    exact pySorted_nodup (labelFold_nodup (fun _ _ _ => nodup_setUnion) List.nodup_nil hf)

theorem intersection_nodup {axis : Int} {lars : List (Larry L)} {r : List L} (h : intersection axis lars = .ok r) :
    r.Nodup := by
  unfold intersection at h
  split at h
  · simp at h
  · split at h
    · simp at h
    · split at h
      · simp at h
      · rename_i hf
        cases h
        exact pySorted_nodup (labelFold_nodup (fun _ _ _ => nodup_setInter) (List.nodup_dedup _) hf)

theorem mk'_agree {x x' : NDArray Val} (h : x.Same x') (d : DType) (label : List (List L)) :
    Res.Agree Reordered (mk' x d label) (mk' x' d label) := by
  cases hm : mk' x d label with
  | error e =>
    refine .error rfl ?_
    rw [← hm]
    unfold mk' NDArray.ndim
    rw [h.1]
    unfold mk' NDArray.ndim at hm
    rw [h.1] at hm
    split_ifs at hm ⊢ <;> rfl
  | ok z =>
    obtain ⟨rfl, hv⟩ := mk'_ok.mp hm
    refine .ok rfl (mk'_ok.mpr ⟨rfl, h.1 ▸ hv⟩) ?_
    exact Same.reordered (y := ⟨x, d, label⟩) (z := ⟨x', d, label⟩) hv ⟨rfl, rfl, h⟩

theorem stack_agree (mode : Option Bool) {kw kw' : List (L × Larry L)}
    (h : List.Forall₂ (fun p q => p.1 = q.1 ∧ p.2.Valid ∧ q.2.Valid ∧ p.2.Reordered q.2) kw kw') :
    Res.Agree Reordered (stack mode kw) (stack mode kw') := by
  have hndim : (∀ p ∈ kw, p.2.ndim = 2) ↔ ∀ p ∈ kw', p.2.ndim = 2 := by
    induction h with
    | nil => simp
    | cons h1 _ ih => simp only [List.mem_cons, forall_eq_or_imp, ih, h1.2.2.2.ndim_eq h1.2.1 h1.2.2.1]
  have hkeys : kw.map Prod.fst = kw'.map Prod.fst := by
    clear hndim
    induction h with
    | nil => rfl
    | cons h1 _ ih => simp only [List.map_cons, ih, h1.1]
  have hlars : List.Forall₂ Reordered (kw.map Prod.snd) (kw'.map Prod.snd) := by
    rw [List.forall₂_map_left_iff, List.forall₂_map_right_iff]
    exact h.imp fun _ _ hp => hp.2.2.2
  unfold stack
  rw [← hkeys, ← union_agree 0 hlars, ← union_agree 1 hlars, ← intersection_agree 0 hlars,
    ← intersection_agree 1 hlars]
  simp only [← hndim]
  split
  · exact rfl
  · rename_i hall
    simp only [not_not] at hall
    split
    · exact rfl
    · rename_i m
      have hk : List.Forall₂ SameKey kw kw' := by
        clear hndim hkeys hlars
        induction h with
        | nil => exact .nil
        | cons h1 _ ih =>
          simp only [List.mem_cons, forall_eq_or_imp] at hall
          exact .cons ⟨h1.1, h1.2.1, h1.2.2.1, h1.2.2.2, hall.1⟩ (ih hall.2)
      split
      · exact rfl
      · rename_i row hrow
        split
        · exact rfl
        · rename_i col hcol
          have hr : row.Nodup := by
            split at hrow
            · exact union_nodup hrow
            · exact intersection_nodup hrow
          have hc : col.Nodup := by
            split at hcol
            · exact union_nodup hcol
            · exact intersection_nodup hcol
          rcases (mapRes_agree (R := Eq) (f := stackKey kw row col) (g := stackKey kw' row col)
            (fun a b hab => by subst hab; exact stackKey_agree hk hr hc a)
            (List.forall₂_eq_eq_eq ▸ rfl : List.Forall₂ Eq (pySorted (kw.map Prod.fst)) _)).cases with
            ⟨ps, qs, e1, e2, hp⟩ | ⟨e, e1, e2⟩
          · simp only [e1, e2]
            have hs := ofPages_same hp
            exact mk'_agree hs _ _
          · simp only [e1, e2]; exact rfl

/-! ## Operations with a scalar -/

theorem binopScalar_agree (uf : UFunc2) {y y' : Larry L} (hy : y.Valid) (hy' : y'.Valid) (h : y.Reordered y')
    {x : NDArray Val} (hx : x.shape = []) (d : DType) :
    Res.Agree Reordered (binopArray uf y x d) (binopArray uf y' x d) := by
  have hs : ∀ s : List Nat, BFits s x.shape := fun s => by rw [hx]; exact ⟨s, [], by simp, .nil⟩
  cases hd : uf.dt y.dtype d with
  | error e =>
    exact .error (by unfold binopArray; rw [npBinop_dtError hd])
      (by unfold binopArray; rw [npBinop_dtError (h.dtype_eq ▸ hd)])
  | ok d' =>
    obtain ⟨z, e1, e2, e3, e4, e5⟩ := C12_broadcast hy x d uf hd (hs _)
    obtain ⟨z', e1', e2', e3', e4', e5'⟩ := C12_broadcast hy' x d uf (h.dtype_eq ▸ hd) (hs _)
    refine .ok e1 e1' ⟨e3.trans e3'.symm, by rw [e4, e4']; exact h.label, fun names v => ?_⟩
    have key : ∀ (w : Larry L), (∃ idx idx', At w.label idx names ∧ BReads x.shape idx idx' ∧
        v = uf.f (w.x.get idx) (x.get idx')) ↔ ∃ u, w.Has names u ∧ v = uf.f u (x.get []) := by
      intro w
      rw [hx]
      constructor
      · rintro ⟨idx, idx', hat, ⟨p, q, r, hr, hl, hq⟩, rfl⟩
        have : idx' = [] := List.eq_nil_of_length_eq_zero hl
        subst this
        exact ⟨_, ⟨idx, hat, rfl⟩, rfl⟩
      · rintro ⟨_, ⟨idx, hat, rfl⟩, rfl⟩
        exact ⟨idx, [], hat, ⟨idx, [], by simp, rfl, rfl, by simp⟩, rfl⟩
    rw [e5, e5', key y, key y']
    simp only [h.has]

/-! ## maplabel -/

omit [LinearOrder L] in
theorem at_map {f : L → L} {labs : List (List L)} {idx : List Nat} {names : List L} :
    At (labs.map (List.map f)) idx names ↔ ∃ ns, names = ns.map f ∧ At labs idx ns := by
  induction labs generalizing idx names with
  | nil =>
    cases idx <;> cases names <;> simp [At]
    · intro x; cases x <;> simp [At]
  | cons l ls ih =>
    cases idx with
    | nil => 
      simp only [List.map_cons, At, false_iff, not_exists, not_and]
      intro ns _; cases ns <;> simp
    | cons i is => cases names with
      | nil => 
        simp only [List.map_cons, At, false_iff, not_exists, not_and]
        intro ns h; cases ns <;> simp [At] at h ⊢
      | cons n ns =>
        simp only [List.map_cons, At, ih, List.getElem?_map, Option.map_eq_some_iff]
        constructor
        · rintro ⟨⟨a, h1, rfl⟩, ms, rfl, h2⟩; exact ⟨a :: ms, rfl, h1, h2⟩
        · rintro ⟨_ | ⟨a, ms⟩, h1, h2⟩
          · simp at h1
          · simp only [List.map_cons, List.cons.injEq] at h1
            exact ⟨⟨a, h2.1, h1.1.symm⟩, ms, h1.2, h2.2⟩

omit [LinearOrder L] in
theorem at_mapAt {f : L → L} {k : Nat} {labs : List (List L)} (hk : k < labs.length) {idx : List Nat}
    {names : List L} :
    At (labs.set k ((labs.getD k []).map f)) idx names ↔ ∃ ns, names = ns.modify k f ∧ At labs idx ns := by
  induction labs generalizing k idx names with
  | nil => simp at hk
  | cons l ls ih =>
    cases idx with
    | nil =>
      constructor
      · intro h; cases k <;> simp [At] at h
      · rintro ⟨ns, -, h⟩; cases ns <;> simp [At] at h
    | cons i is => cases names with
      | nil =>
        constructor
        · intro h; cases k <;> simp [At] at h
        · rintro ⟨ns, h1, h⟩
          cases ns with
          | nil => simp [At] at h
          | cons a b => cases k <;> simp at h1
      | cons n ns => cases k with
        | zero =>
          simp only [List.set_cons_zero, List.getD_cons_zero, At, List.getElem?_map, Option.map_eq_some_iff]
          constructor
          · rintro ⟨⟨a, h1, rfl⟩, h2⟩; exact ⟨a :: ns, rfl, h1, h2⟩
          · rintro ⟨_ | ⟨a, ms⟩, h1, h2⟩
            · simp at h1
            · simp only [List.modify_zero_cons, List.cons.injEq] at h1
              obtain ⟨rfl, rfl⟩ := h1
              exact ⟨⟨a, h2.1, rfl⟩, h2.2⟩
        | succ k =>
          simp only [List.length_cons, Nat.add_lt_add_iff_right] at hk
          simp only [List.set_cons_succ, List.getD_cons_succ, At, ih hk]
          constructor
          · rintro ⟨h1, ms, rfl, h2⟩; exact ⟨n :: ms, rfl, h1, h2⟩
          · rintro ⟨_ | ⟨a, ms⟩, h1, h2⟩
            · simp at h1
            · simp only [List.modify_succ_cons, List.cons.injEq] at h1
              obtain ⟨rfl, rfl⟩ := h1
              exact ⟨h2.1, ms, rfl, h2.2⟩

omit [LinearOrder L] in
theorem holds_through {labs labs' : List (List L)} {x : NDArray Val} {g : List L → List L}
    (h : ∀ idx names, At labs' idx names ↔ ∃ ns, names = g ns ∧ At labs idx ns) (names : List L) (v : Val) :
    Holds labs' x names v ↔ ∃ ns, names = g ns ∧ Holds labs x ns v := by
  constructor
  · rintro ⟨idx, h1, rfl⟩
    obtain ⟨ns, rfl, h2⟩ := (h _ _).mp h1
    exact ⟨ns, rfl, idx, h2, rfl⟩
  · rintro ⟨ns, rfl, idx, h2, rfl⟩
    exact ⟨idx, (h _ _).mpr ⟨ns, rfl, h2⟩, rfl⟩

omit [LinearOrder L] in
theorem maplabel_agree {y y' : Larry L} (h : y.Reordered y') (f : L → L) (axis : Option Int) :
    Res.Agree Reordered (y.maplabel f axis) (y'.maplabel f axis) := by
  cases axis with
  | none =>
    refine ⟨h.dtype_eq, ?_, fun names v => ?_⟩
    · show List.Forall₂ _ (y.label.map _) (y'.label.map _)
      rw [List.forall₂_map_left_iff, List.forall₂_map_right_iff]
      exact h.label.imp fun _ _ hp => hp.map f
    · show Holds (y.label.map _) y.x names v ↔ Holds (y'.label.map _) y'.x names v
      rw [holds_through (fun _ _ => at_map), holds_through (fun _ _ => at_map)]
      exact exists_congr fun ns => and_congr_right fun _ => h.has ns v
  | some axis =>
    unfold maplabel
    have hlen := h.label.length_eq
    simp only [← hlen]
    cases hk : pyIdx y.label.length axis with
    | none => exact rfl
    | some k =>
      have hk1 := pyIdx_lt hk
      obtain ⟨l', h1, h2⟩ := h.get? (List.getElem?_eq_getElem hk1)
      refine ⟨h.dtype_eq, ?_, fun names v => ?_⟩
      · show List.Forall₂ _ (y.label.set k _) (y'.label.set k _)
        refine forall₂_set h.label k (List.Perm.map f ?_)
        rw [List.getD_eq_getElem?_getD, List.getD_eq_getElem?_getD, h1, List.getElem?_eq_getElem hk1]
        exact h2
      · show Holds (y.label.set k _) y.x names v ↔ Holds (y'.label.set k _) y'.x names v
        rw [holds_through (fun _ _ => at_mapAt hk1), holds_through (fun _ _ => at_mapAt (hlen ▸ hk1))]
        exact exists_congr fun ns => and_congr_right fun _ => h.has ns v

end
end La
