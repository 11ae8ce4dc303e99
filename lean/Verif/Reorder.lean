import Verif.Props.History

/-!
# Larrys that differ in the order of their labels only

Lemmas for property C66: the methods that go by label do not depend on the order of the labels.
-/

namespace La
variable {L : Type _}

/-! ## Specification -/

/-- The same labelled values, with the labels of each axis in any order. -/
structure Larry.Reordered (y z : Larry L) : Prop where
  dtype_eq : y.dtype = z.dtype
  label : List.Forall₂ List.Perm y.label z.label
  has : ∀ names v, y.Has names v ↔ z.Has names v

/-- Two calls go the same way: the same exception, or results related by `R`. -/
def Res.Agree {α β : Type _} (R : α → β → Prop) : Res α → Res β → Prop
  | .ok a, .ok b => R a b
  | .error e, .error e' => e = e'
  | _, _ => False

/-- For methods that return a scalar or a larry. -/
def Out.Reordered : Out L → Out L → Prop
  | .scalar v, .scalar v' => v = v'
  | .larry y, .larry z => y.Reordered z
  | _, _ => False

/-! ## Basics -/

theorem Res.Agree.ok {α β : Type _} {R : α → β → Prop} {a : α} {b : β} {r : Res α} {r' : Res β} (h : r = .ok a)
    (h' : r' = .ok b) (hR : R a b) : Res.Agree R r r' := by subst h h'; exact hR

theorem Res.Agree.error {α β : Type _} {R : α → β → Prop} {e : PyErr} {r : Res α} {r' : Res β} (h : r = .error e)
    (h' : r' = .error e) : Res.Agree R r r' := by subst h h'; exact rfl

theorem Res.Agree.cases {α β : Type _} {R : α → β → Prop} {r : Res α} {r' : Res β} (h : Res.Agree R r r') :
    (∃ a b, r = .ok a ∧ r' = .ok b ∧ R a b) ∨ ∃ e, r = .error e ∧ r' = .error e := by
  cases r <;> cases r' <;> simp_all [Res.Agree]

namespace Larry

theorem Reordered.refl (y : Larry L) : y.Reordered y :=
  ⟨rfl, List.forall₂_same.mpr fun _ _ => List.Perm.refl _, fun _ _ => Iff.rfl⟩

theorem Reordered.symm {y z : Larry L} (h : y.Reordered z) : z.Reordered y :=
  ⟨h.dtype_eq.symm, List.Forall₂.flip (h.label.imp fun _ _ hp => hp.symm), fun n v => (h.has n v).symm⟩

theorem forall₂_perm_trans {a b c : List (List L)} (h : List.Forall₂ List.Perm a b)
    (h' : List.Forall₂ List.Perm b c) : List.Forall₂ List.Perm a c := by
  induction h generalizing c with
  | nil => exact h'
  | cons h1 _ ih => cases h' with
    | cons h2 h3 => exact .cons (h1.trans h2) (ih h3)

theorem Reordered.trans {y z w : Larry L} (h : y.Reordered z) (h' : z.Reordered w) : y.Reordered w :=
  ⟨h.dtype_eq.trans h'.dtype_eq, forall₂_perm_trans h.label h'.label, fun n v => (h.has n v).trans (h'.has n v)⟩

theorem Same.reordered {y z : Larry L} (hy : y.Valid) (h : y.Same z) : y.Reordered z :=
  ⟨h.2.1, by rw [h.1]; exact List.forall₂_same.mpr fun _ _ => List.Perm.refl _, fun _ _ => h.has hy⟩

theorem Reordered.lengths {a b : List (List L)} (h : List.Forall₂ List.Perm a b) :
    a.map List.length = b.map List.length := by
  induction h with
  | nil => rfl
  | cons h1 _ ih => simp [h1.length_eq, ih]

theorem Reordered.shape_eq {y z : Larry L} (hy : y.Valid) (hz : z.Valid) (h : y.Reordered z) :
    y.x.shape = z.x.shape := by
  rw [hy.shape_eq, hz.shape_eq, Reordered.lengths h.label]

theorem Reordered.ndim_eq {y z : Larry L} (hy : y.Valid) (hz : z.Valid) (h : y.Reordered z) : y.ndim = z.ndim := by
  simp [Larry.ndim, NDArray.ndim, h.shape_eq hy hz]

theorem named_congr {a b : List (List L)} (h : List.Forall₂ List.Perm a b) (names : List L) :
    Named a names ↔ Named b names := by
  induction h generalizing names with
  | nil => exact Iff.rfl
  | cons h1 _ ih => cases names with
    | nil => exact Iff.rfl
    | cons n ns => exact and_congr h1.mem_iff (ih ns)

theorem Reordered.get? {y z : Larry L} (h : y.Reordered z) {k : Nat} {l : List L} (hl : y.label[k]? = some l) :
    ∃ l', z.label[k]? = some l' ∧ l.Perm l' := by
  have hlen := h.label.length_eq
  obtain ⟨hk, rfl⟩ := List.getElem?_eq_some_iff.mp hl
  have hk' : k < z.label.length := by omega
  exact ⟨z.label[k], List.getElem?_eq_getElem hk', (List.forall₂_iff_get.mp h.label).2 k hk hk'⟩

theorem forall₂_set {a b : List (List L)} (h : List.Forall₂ List.Perm a b) (k : Nat) {l l' : List L} (hl : l.Perm l') :
    List.Forall₂ List.Perm (a.set k l) (b.set k l') := by
  induction h generalizing k with
  | nil => exact .nil
  | cons h1 h2 ih => cases k with
    | zero => exact .cons hl h2
    | succ k => exact .cons h1 (ih k)

theorem forall₂_eraseIdx {a b : List (List L)} (h : List.Forall₂ List.Perm a b) (k : Nat) :
    List.Forall₂ List.Perm (a.eraseIdx k) (b.eraseIdx k) := by
  induction h generalizing k with
  | nil => exact .nil
  | cons h1 h2 ih => cases k with
    | zero => exact h2
    | succ k => exact .cons h1 (ih k)

/-- `Reindexed` determines the result up to the order of labels. -/
theorem has_of_reindexed {y y' : Larry L} (h : y.Reordered y') {r r' : List (List L)}
    (hr : List.Forall₂ List.Perm r r') {x x' : NDArray Val} {f : Val → Val} {m : Option Val}
    (h1 : Reindexed y.label y.x r x f m) (h2 : Reindexed y'.label y'.x r' x' f m) (names : List L) (v : Val) :
    Holds r x names v ↔ Holds r' x' names v := by
  rw [h1 names v, h2 names v, named_congr hr, named_congr h.label]
  simp only [show ∀ w, Holds y.label y.x names w ↔ Holds y'.label y'.x names w from fun w => h.has names w]

theorem perm_nil_iff {l l' : List L} (h : l.Perm l') : l = [] ↔ l' = [] := by
  rw [← List.length_eq_zero_iff, ← List.length_eq_zero_iff, h.length_eq]

/-! ## morph and the methods built on it -/

section
variable [LinearOrder L]

theorem morphDType_eq (d : DType) (l lab : List L) : morphDType d l lab =
    if (d = .int ∨ d = .bool) ∧ ((lab = [] ∧ l ≠ []) ∨ ∃ b ∈ lab, b ∉ l) then .float else d := by
  unfold morphDType
  refine if_congr (and_congr_right fun _ => ?_) rfl rfl
  constructor
  · rintro ⟨h1, rfl | h2⟩
    · exact .inl ⟨rfl, h1⟩
    · exact .inr h2
  · rintro (⟨rfl, h⟩ | ⟨b, hb, hb'⟩)
    · exact ⟨h, .inl rfl⟩
    · exact ⟨fun h => hb' (h ▸ hb), .inr ⟨b, hb, hb'⟩⟩

theorem morphDType_congr (d : DType) {l l' lab lab' : List L} (h : l.Perm l') (h' : lab.Perm lab') :
    morphDType d l lab = morphDType d l' lab' := by
  rw [morphDType_eq, morphDType_eq]
  simp only [perm_nil_iff h, perm_nil_iff h', h.mem_iff, h'.mem_iff, ne_eq]

theorem morph_agree {y y' : Larry L} (hy : y.Valid) (hy' : y'.Valid) (h : y.Reordered y') {lab lab' : List L}
    (hl : lab.Perm lab') (axis : Int) : Res.Agree Reordered (y.morph lab axis) (y'.morph lab' axis) := by
  have hn := h.ndim_eq hy hy'
  by_cases hnd : lab.Nodup
  · cases hax : pyIdx y.ndim axis with
    | none => exact .error (C13_morph_error hy (.inr hax)) (C13_morph_error hy' (.inr (hn ▸ hax)))
    | some ax =>
      obtain ⟨l, hl1⟩ := axis_label hy hax
      obtain ⟨l', hl1', hp⟩ := h.get? hl1
      obtain ⟨z, e1, e2, e3, e4, e5⟩ := morph_spec hy hnd hax hl1
      obtain ⟨z', e1', e2', e3', e4', e5'⟩ := morph_spec hy' (hl.nodup_iff.mp hnd) (hn ▸ hax) hl1'
      refine .ok e1 e1' ?_
      have hd : z.dtype = z'.dtype := by rw [e4, e4', h.dtype_eq, morphDType_congr _ hp hl]
      have hlab : List.Forall₂ List.Perm z.label z'.label := by
        rw [e2, e2']; exact forall₂_set h.label ax hl
      refine ⟨hd, hlab, ?_⟩
      rw [← hd, ← h.dtype_eq] at e5'
      exact has_of_reindexed h hlab e5 e5'
  · exact .error (C13_morph_error hy (.inl hnd)) (C13_morph_error hy' (.inl fun h' => hnd (hl.nodup_iff.mpr h')))

omit [LinearOrder L] in
theorem getlabel_agree {y y' : Larry L} (hy : y.Valid) (hy' : y'.Valid) (h : y.Reordered y') (axis : Int) :
    Res.Agree List.Perm (y.getlabel axis) (y'.getlabel axis) := by
  unfold getlabel
  rw [← h.ndim_eq hy hy']
  split
  · exact rfl
  · have hlen := h.label.length_eq
    cases hk : pyIdx y.label.length axis with
    | none => exact .error (pyGet_error hk) (pyGet_error (hlen ▸ hk))
    | some k =>
      have hk1 := pyIdx_lt hk
      obtain ⟨l', h1, h2⟩ := h.get? (List.getElem?_eq_getElem hk1)
      have e1 := pyGet_ok.mpr ⟨k, hk, List.getElem?_eq_getElem hk1⟩
      have e2 := pyGet_ok.mpr ⟨k, hlen ▸ hk, h1⟩
      exact .ok e1 e2 h2

theorem morphLikeLoop_agree {lar lar' : Larry L} (hl : lar.Valid) (hl' : lar'.Valid) (hr : lar.Reordered lar') :
    ∀ (is : List Nat) {y y' : Larry L}, y.Valid → y'.Valid → y.Reordered y' →
    Res.Agree Reordered (morphLikeLoop lar is y) (morphLikeLoop lar' is y')
  | [], y, y', _, _, h => .ok rfl rfl h
  | i :: is, y, y', hy, hy', h => by
    unfold morphLikeLoop
    rcases (getlabel_agree hl hl' hr i).cases with ⟨a, b, e1, e2, hp⟩ | ⟨e, e1, e2⟩
    · rw [e1, e2]
      rcases (morph_agree hy hy' h hp i).cases with ⟨z, z', f1, f2, hz⟩ | ⟨e, f1, f2⟩
      · simp only [f1, f2]
        exact morphLikeLoop_agree hl hl' hr is (morph_valid hy f1) (morph_valid hy' f2) hz
      · simp only [f1, f2]; exact rfl
    · rw [e1, e2]; exact rfl

theorem morphLike_agree {y y' lar lar' : Larry L} (hy : y.Valid) (hy' : y'.Valid) (h : y.Reordered y')
    (hl : lar.Valid) (hl' : lar'.Valid) (hr : lar.Reordered lar') :
    Res.Agree Reordered (y.morphLike lar) (y'.morphLike lar') := by
  unfold morphLike
  rw [← h.ndim_eq hy hy', ← hr.ndim_eq hl hl']
  split
  · exact rfl
  · exact morphLikeLoop_agree hl hl' hr _ hy hy' h

omit [LinearOrder L] in
theorem any_pair {lab : List (List L)} {shape : List Nat} (hv : ValidLabels lab shape) {x1 x2 : NDArray Val}
    {p : Val → Val → Bool} : anyAt shape (fun i => p (x1.get i) (x2.get i)) = true ↔
      ∃ names u w, Holds lab x1 names u ∧ Holds lab x2 names w ∧ p u w = true := by
  rw [anyAt_iff, hv.shape_eq]
  constructor
  · rintro ⟨idx, hb, h⟩
    obtain ⟨names, hat⟩ := At_of_inB hb
    exact ⟨names, _, _, ⟨idx, hat, rfl⟩, ⟨idx, hat, rfl⟩, h⟩
  · rintro ⟨names, u, w, ⟨i, h1, rfl⟩, ⟨j, h2, rfl⟩, h⟩
    rw [At_unique hv.nodup h2 h1] at h
    exact ⟨i, At_inB h1, h⟩

omit [LinearOrder L] in
theorem holds_pair {lab : List (List L)} {shape : List Nat} (hv : ValidLabels lab shape) {x1 x2 : NDArray Val}
    {g : Val → Val → Val} {names : List L} {v : Val} :
    Holds lab (⟨shape, fun i => g (x1.get i) (x2.get i)⟩ : NDArray Val) names v ↔
      ∃ u w, Holds lab x1 names u ∧ Holds lab x2 names w ∧ v = g u w := by
  constructor
  · rintro ⟨i, h, rfl⟩
    exact ⟨_, _, ⟨i, h, rfl⟩, ⟨i, h, rfl⟩, rfl⟩
  · rintro ⟨u, w, ⟨i, h1, rfl⟩, ⟨j, h2, rfl⟩, rfl⟩
    rw [At_unique hv.nodup h2 h1]
    exact ⟨i, h1, rfl⟩

theorem joinedOuter_perm {a b c a' b' c' : List (List L)} (h : Joined OuterJoined a b c)
    (h' : Joined OuterJoined a' b' c') (ha : List.Forall₂ List.Perm a a') (hb : List.Forall₂ List.Perm b b')
    (hn : ∀ l ∈ a, l.Nodup) (hn' : ∀ l ∈ a', l.Nodup) : List.Forall₂ List.Perm c c' := by
  induction h generalizing a' b' c' with
  | nil => cases ha; cases hb; cases h'; exact .nil
  | cons h1 _ ih =>
    cases ha with
    | cons p1 p2 => cases hb with
      | cons q1 q2 => cases h' with
        | cons k1 k2 =>
          simp only [List.mem_cons, forall_eq_or_imp] at hn hn'
          refine .cons ?_ (ih k2 p2 q2 hn.2 hn'.2)
          rw [List.perm_ext_iff_of_nodup (h1.nodup hn.1) (k1.nodup hn'.1)]
          intro x
          rw [h1.mem, k1.mem, p1.mem_iff, q1.mem_iff]

theorem joinedInner_perm {a b c a' b' c' : List (List L)} (h : Joined InnerJoined a b c)
    (h' : Joined InnerJoined a' b' c') (ha : List.Forall₂ List.Perm a a') (hb : List.Forall₂ List.Perm b b')
    (hn : ∀ l ∈ a, l.Nodup) (hn' : ∀ l ∈ a', l.Nodup) : List.Forall₂ List.Perm c c' := by
  induction h generalizing a' b' c' with
  | nil => cases ha; cases hb; cases h'; exact .nil
  | cons h1 _ ih =>
    cases ha with
    | cons p1 p2 => cases hb with
      | cons q1 q2 => cases h' with
        | cons k1 k2 =>
          simp only [List.mem_cons, forall_eq_or_imp] at hn hn'
          refine .cons ?_ (ih k2 p2 q2 hn.2 hn'.2)
          rw [List.perm_ext_iff_of_nodup (h1.nodup hn.1) (k1.nodup hn'.1)]
          intro x
          rw [h1.mem, k1.mem, p1.mem_iff, q1.mem_iff]

omit [LinearOrder L] in
/-- A condition on the pairs of label lists of the axes that does not depend on their order. -/
theorem zip_exists {P : List L → List L → Prop} (hP : ∀ {a a' b b'}, List.Perm a a' → List.Perm b b' →
    (P a b ↔ P a' b')) {a a' b b' : List (List L)} (ha : List.Forall₂ List.Perm a a')
    (hb : List.Forall₂ List.Perm b b') : (∃ p ∈ a.zip b, P p.1 p.2) ↔ ∃ p ∈ a'.zip b', P p.1 p.2 := by
  induction ha generalizing b b' with
  | nil => simp
  | cons h1 _ ih => cases hb with
    | nil => simp
    | cons k1 k2 => simp only [List.zip_cons_cons, List.mem_cons, exists_eq_or_imp, hP h1 k1, ih k2]

omit [LinearOrder L] in
theorem Reordered.extDType {a a' b b' : Larry L} (h : a.Reordered a') (h' : b.Reordered b') :
    extDType a b = extDType a' b' := by
  unfold La.extDType
  rw [h.dtype_eq]
  refine floatIf_congr (zip_exists (P := fun x y => ∃ l ∈ y, l ∉ x) ?_ h.label h'.label)
  intro x x' y y' h1 h2
  simp only [h1.mem_iff, h2.mem_iff]

theorem merge_agree {y y' z z' : Larry L} (hy : y.Valid) (hy' : y'.Valid) (h : y.Reordered y') (hz : z.Valid)
    (hz' : z'.Valid) (hr : z.Reordered z') (update : Bool) :
    Res.Agree Reordered (merge y z update) (merge y' z' update) := by
  have n1 := h.ndim_eq hy hy'
  have n2 := hr.ndim_eq hz hz'
  by_cases hn : y.ndim = z.ndim
  · obtain ⟨t, a, b, j1, e1, s1, s2⟩ := merge_sides hy hz hn
    obtain ⟨t', a', b', j1', e1', s1', s2'⟩ := merge_sides hy' hz' (by omega)
    have hl : List.Forall₂ List.Perm t t' := joinedOuter_perm j1 j1' h.label hr.label hy.nodup hy'.nodup
    have d1 : a.dtype = a'.dtype := by rw [s1.dtype_eq, s1'.dtype_eq, h.extDType hr]
    have d2 : b.dtype = b'.dtype := by rw [s2.dtype_eq, s2'.dtype_eq, hr.extDType h]
    have v1 : ValidLabels t a.x.shape := s1.label_eq ▸ s1.valid
    have v1' : ValidLabels t' a'.x.shape := s1'.label_eq ▸ s1'.valid
    have h1 : ∀ names v, Holds t a.x names v ↔ Holds t' a'.x names v := fun names v => by
      have := s1'.re
      rw [← h.dtype_eq, ← h.extDType hr] at this
      exact has_of_reindexed h hl s1.re this names v
    have h2 : ∀ names v, Holds t b.x names v ↔ Holds t' b'.x names v := fun names v => by
      have := s2'.re
      rw [← hr.dtype_eq, ← hr.extDType h] at this
      exact has_of_reindexed hr hl s2.re this names v
    unfold merge
    rw [if_neg (by simp [hn]), if_neg (by omega), e1, e1', ← h.dtype_eq, ← hr.dtype_eq]
    dsimp only
    have c1 := any_pair v1 (x1 := a.x) (x2 := b.x) (p := fun u w => presentVal y.dtype u && presentVal z.dtype w)
    have c1' := any_pair v1' (x1 := a'.x) (x2 := b'.x) (p := fun u w => presentVal y.dtype u && presentVal z.dtype w)
    have c2 := any_pair v1 (x1 := a.x) (x2 := b.x) (p := fun u w => presentVal z.dtype w)
    have c2' := any_pair v1' (x1 := a'.x) (x2 := b'.x) (p := fun u w => presentVal z.dtype w)
    simp only [h1, h2] at c1 c2
    rw [Bool.eq_iff_iff.mpr (c1.trans c1'.symm), Bool.eq_iff_iff.mpr (c2.trans c2'.symm), ← d1, ← d2]
    split
    · exact rfl
    · split
      · exact rfl
      · split
        · split
          · refine ⟨rfl, ?_, ?_⟩
            · show List.Forall₂ List.Perm a.label a'.label
              rw [s1.label_eq, s1'.label_eq]; exact hl
            · intro names v
              have k := holds_pair v1 (x1 := a.x) (x2 := b.x) (names := names) (v := v) (g := fun u w =>
                if presentVal z.dtype w then castSafe b.dtype a.dtype w else u)
              have k' := holds_pair v1' (x1 := a'.x) (x2 := b'.x) (names := names) (v := v) (g := fun u w =>
                if presentVal z.dtype w then castSafe b.dtype a.dtype w else u)
              simp only [h1, h2] at k
              show Holds a.label _ _ _ ↔ Holds a'.label _ _ _
              rw [s1.label_eq, s1'.label_eq]
              exact k.trans k'.symm
          · exact rfl
        · refine ⟨d1, ?_, ?_⟩
          · rw [s1.label_eq, s1'.label_eq]; exact hl
          · intro names v
            show Holds a.label _ _ _ ↔ Holds a'.label _ _ _
            rw [s1.label_eq, s1'.label_eq]; exact h1 names v
  · exact .error (e := .indexError) (by simp [merge, hn]) (by rw [merge, if_pos (by omega)])

/-- Larrys built elementwise from pairs of larrys. -/
theorem binop_agree (uf : UFunc2) {a a' b b' : Larry L} (ha : a.Valid) (ha' : a'.Valid) (h : a.Reordered a')
    (hb : b.Valid) (hb' : b'.Valid) (hr : b.Reordered b') :
    Res.Agree Reordered (binop uf a b) (binop uf a' b') := by
  have n1 := h.ndim_eq ha ha'
  have n2 := hr.ndim_eq hb hb'
  by_cases hn : a.ndim = b.ndim
  · cases hd : uf.dt a.dtype b.dtype with
    | error e =>
      exact .error (C09_binop_dtype_error ha hb hn uf hd)
        (C09_binop_dtype_error ha' hb' (by omega) uf (by rw [← h.dtype_eq, ← hr.dtype_eq]; exact hd))
    | ok d =>
      obtain ⟨z, e1, e2, e3, e4, e5⟩ := C09_binop ha hb hn uf hd
      obtain ⟨z', e1', e2', e3', e4', e5'⟩ := C09_binop ha' hb' (by omega) uf
        (by rw [← h.dtype_eq, ← hr.dtype_eq]; exact hd)
      refine .ok e1 e1' ⟨e3.trans e3'.symm, joinedInner_perm e4 e4' h.label hr.label ha.nodup ha'.nodup, ?_⟩
      intro names v
      rw [← get_ok_iff e2, ← get_ok_iff e2', e5, e5']
      simp only [get_ok_iff ha, get_ok_iff hb, get_ok_iff ha', get_ok_iff hb', h.has, hr.has]
  · exact .error (C09_binop_ndim ha hb hn uf) (C09_binop_ndim ha' hb' (by omega) uf)

theorem compare_agree (uf : UFunc2) {a a' b b' : Larry L} (ha : a.Valid) (ha' : a'.Valid) (h : a.Reordered a')
    (hb : b.Valid) (hb' : b'.Valid) (hr : b.Reordered b') :
    Res.Agree Reordered (compare uf a b) (compare uf a' b') := by
  have n1 := h.ndim_eq ha ha'
  have n2 := hr.ndim_eq hb hb'
  by_cases hn : a.ndim = b.ndim
  · cases hd : uf.dt a.dtype b.dtype with
    | error e =>
      have key : ∀ {a b : Larry L}, a.Valid → b.Valid → a.ndim = b.ndim → uf.dt a.dtype b.dtype = .error e →
          compare uf a b = .error e := by
        intro a b ha hb hn hd
        obtain ⟨x, y, r, h1, _⟩ := align_spec ha hb hn
        simp [compare, h1, npBinop_dtError hd]
      exact .error (key ha hb hn hd) (key ha' hb' (by omega) (by rw [← h.dtype_eq, ← hr.dtype_eq]; exact hd))
    | ok d =>
      obtain ⟨z, e1, e2, e3, e4, e5⟩ := C11_compare ha hb hn uf hd
      obtain ⟨z', e1', e2', e3', e4', e5'⟩ := C11_compare ha' hb' (by omega) uf
        (by rw [← h.dtype_eq, ← hr.dtype_eq]; exact hd)
      refine .ok e1 e1' ⟨e3.trans e3'.symm, joinedInner_perm e4 e4' h.label hr.label ha.nodup ha'.nodup, ?_⟩
      intro names v
      rw [← get_ok_iff e2, ← get_ok_iff e2', e5, e5']
      simp only [get_ok_iff ha, get_ok_iff hb, get_ok_iff ha', get_ok_iff hb', h.has, hr.has]
  · exact .error (C11_compare_ndim hn uf) (C11_compare_ndim (by omega) uf)

end

end Larry
end La
