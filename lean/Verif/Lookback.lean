import Verif.ParamJoin
import Verif.ReorderLines
import Verif.Props.Lix
import Verif.Props.Stack

/-!
# Larrys that agree up to a moment

Lemmas for property C106: what stands under later labels has no influence on what is computed under earlier ones.
-/

namespace La
variable {L : Type _}

/-! ## Specification -/

/-- None of the labels is a later one. -/
def Early (later : L → Prop) (names : List L) : Prop := ∀ n ∈ names, ¬ later n

/-- Two larrys with the same labels and the same dtype that have the same values in the cells without later labels. -/
structure Larry.Until (later : L → Prop) (y y' : Larry L) : Prop where
  label : y.label = y'.label
  dtype : y.dtype = y'.dtype
  cells : ∀ names v v', Early later names → y.Has names v → y'.Has names v' → v = v'

/-- For methods that return a scalar or a larry. -/
def Out.Until (later : L → Prop) : Out L → Out L → Prop
  | .scalar _, .scalar _ => True
  | .larry y, .larry z => y.Until later z
  | _, _ => False

/-- For indexing. -/
def GetOut.Until (later : L → Prop) : GetOut L → GetOut L → Prop
  | .scalar _, .scalar _ => True
  | .array _, .array _ => True
  | .larry y, .larry z => y.Until later z
  | _, _ => False

/-! ## Basics -/

/-- No condition on values. -/
abbrev NoVal : Val → Val → Prop := fun _ _ => True
/-- No condition on dtypes. -/
abbrev NoDType : DType → Prop := fun _ => True

theorem fills_no : FillsRelated NoVal NoDType := fun _ _ => ⟨fun _ _ => trivial, fun _ => ⟨trivial, trivial, fun _ _ _ => trivial⟩⟩

theorem ufunc_no (uf : UFunc2) : uf.Rel NoVal NoDType uf :=
  ⟨fun _ _ _ _ _ _ => trivial, fun _ _ _ _ => rfl, fun _ _ _ _ _ _ => trivial⟩

theorem red_no (r : Red) : r.Rel NoVal NoDType r :=
  ⟨fun _ _ _ => trivial, fun _ _ => rfl, fun _ _ _ _ => trivial, rfl, rfl, trivial, fun _ _ _ _ => ⟨trivial, trivial⟩⟩

theorem array_no {x x' : NDArray Val} (h : x.shape = x'.shape) : NDArray.Rel NoVal x x' := ⟨h, fun _ _ => trivial⟩

variable {later : L → Prop}

namespace Larry

theorem Until.refl (y : Larry L) (hy : y.Valid) : y.Until later y :=
  ⟨rfl, rfl, fun _ _ _ _ h h' => Holds_unique hy.nodup h h'⟩

theorem Until.symm {y z : Larry L} (h : y.Until later z) : z.Until later y :=
  ⟨h.label.symm, h.dtype.symm, fun n v v' he h1 h2 => (h.cells n v' v he h2 h1).symm⟩

theorem Until.shape {y z : Larry L} (hy : y.Valid) (hz : z.Valid) (h : y.Until later z) : y.x.shape = z.x.shape := by
  rw [hy.shape_eq, hz.shape_eq, h.label]

theorem Until.ndim {y z : Larry L} (hy : y.Valid) (hz : z.Valid) (h : y.Until later z) : y.ndim = z.ndim := by
  simp [Larry.ndim, NDArray.ndim, h.shape hy hz]

theorem Until.rel {y z : Larry L} (hy : y.Valid) (hz : z.Valid) (h : y.Until later z) : y.Rel NoVal NoDType z :=
  ⟨h.label, h.dtype, trivial, array_no (h.shape hy hz)⟩

/-- The same by position. -/
theorem Until.get {y z : Larry L} (h : y.Until later z) {idx : List Nat} {names : List L} (hat : At y.label idx names)
    (he : Early later names) : y.x.get idx = z.x.get idx :=
  h.cells names _ _ he ⟨idx, hat, rfl⟩ ⟨idx, h.label ▸ hat, rfl⟩

theorem until_of_get {y z : Larry L} (hnd : ∀ l ∈ y.label, l.Nodup) (hl : y.label = z.label) (hd : y.dtype = z.dtype)
    (h : ∀ idx names, At y.label idx names → Early later names → y.x.get idx = z.x.get idx) : y.Until later z := by
  refine ⟨hl, hd, ?_⟩
  rintro names v v' he ⟨idx, hat, rfl⟩ ⟨idx', hat', rfl⟩
  rw [← hl] at hat'
  rw [At_unique hnd hat' hat]
  exact h idx names hat he

theorem until_of {r r' : Res (Larry L)} (hr : Res.Agree (Larry.Rel NoVal NoDType) r r')
    (hc : ∀ z z', r = .ok z → r' = .ok z' → ∀ names v v', Early later names → z.Has names v → z'.Has names v' → v = v') :
    Res.Agree (Until later) r r' := by
  rcases hr.cases with ⟨z, z', h1, h2, h3⟩ | ⟨e, h1, h2⟩
  · exact .ok h1 h2 ⟨h3.label, h3.dtype, hc z z' h1 h2⟩
  · exact .error h1 h2

theorem Until.rel_of {y z : Larry L} (h : y.Rel NoVal NoDType z)
    (hc : ∀ names v v', Early later names → y.Has names v → z.Has names v' → v = v') : y.Until later z :=
  ⟨h.label, h.dtype, hc⟩

/-- The results are the arguments with the labels moved about. -/
theorem until_same {y y' : Larry L} (h : y.Until later y') {r r' : Res (Larry L)}
    (hr : Res.Agree (Larry.Rel NoVal NoDType) r r') (hz : ∀ z, r = .ok z → ∀ names v, z.Has names v → y.Has names v)
    (hz' : ∀ z, r' = .ok z → ∀ names v, z.Has names v → y'.Has names v) : Res.Agree (Until later) r r' :=
  until_of hr fun z z' h1 h2 names v v' he hv hv' => h.cells names v v' he (hz z h1 names v hv) (hz' z' h2 names v' hv')

theorem reindexed_cells {y y' : Larry L} (h : y.Until later y') {r : List (List L)} {x x' : NDArray Val} {f : Val → Val}
    {m : Option Val} (h1 : Reindexed y.label y.x r x f m) (h2 : Reindexed y'.label y'.x r x' f m) {names : List L}
    (he : Early later names) {v v' : Val} (hv : Holds r x names v) (hv' : Holds r x' names v') : v = v' := by
  rw [h1] at hv
  rw [h2] at hv'
  rcases hv.2 with ⟨w, e1, rfl⟩ | ⟨e1, e2⟩
  · rcases hv'.2 with ⟨w', e1', rfl⟩ | ⟨e1', e2'⟩
    · rw [h.cells names w w' he e1 e1']
    · exact absurd (h.label ▸ Named_of_Holds e1) e1'
  · rcases hv'.2 with ⟨w', e1', rfl⟩ | ⟨e1', e2'⟩
    · exact absurd (h.label ▸ Named_of_Holds e1') e1
    · rw [e2] at e2'; simpa using e2'

theorem breads_unique {shape idx k k' : List Nat} (h : BReads shape idx k) (h' : BReads shape idx k') : k = k' := by
  obtain ⟨p, q, a1, a2, a3, a4⟩ := h
  obtain ⟨p', q', b1, b2, b3, b4⟩ := h'
  obtain rfl : q = q' := by
    have : p.length = p'.length := by
      have e1 := congrArg List.length a1
      have e2 := congrArg List.length b1
      simp only [List.length_append] at e1 e2
      omega
    rw [a1] at b1
    exact (List.append_inj b1 this).2
  refine List.ext_getElem (by omega) fun i h1 h2 => ?_
  have i1 : i < shape.length := by omega
  have i2 : i < q.length := by omega
  rw [a4 i _ _ _ (List.getElem?_eq_getElem i1) (List.getElem?_eq_getElem i2) (List.getElem?_eq_getElem h1),
    b4 i _ _ _ (List.getElem?_eq_getElem i1) (List.getElem?_eq_getElem i2) (List.getElem?_eq_getElem h2)]

theorem refilled_unique {cv : DType → Val → Val} {m1 m2 : Option Val} {d d' : DType} {u w r r' : Val}
    (h : Refilled cv m1 m2 d u d' w r) (h' : Refilled cv m1 m2 d u d' w r') : r = r' := by
  by_cases h1 : missingMarker d = some u
  · by_cases h2 : missingMarker d' = some w
    · rw [h.2.1 h1 h2, h'.2.1 h1 h2]
    · rw [h.1 h1 h2, h'.1 h1 h2]
  · rw [h.2.2 h1, h'.2.2 h1]

section
variable [LinearOrder L]

/-! ## morph and the methods built on it -/

theorem morph_until {y y' : Larry L} (hy : y.Valid) (hy' : y'.Valid) (h : y.Until later y') (lab : List L) (axis : Int) :
    Res.Agree (Until later) (y.morph lab axis) (y'.morph lab axis) := by
  have hn := h.ndim hy hy'
  by_cases hnd : lab.Nodup
  · cases hax : pyIdx y.ndim axis with
    | none => exact .error (C13_morph_error hy (.inr hax)) (C13_morph_error hy' (.inr (hn ▸ hax)))
    | some ax =>
      obtain ⟨l, hl⟩ := axis_label hy hax
      have hl' : y'.label[ax]? = some l := h.label ▸ hl
      obtain ⟨z, e1, e2, e3, e4, e5⟩ := morph_spec hy hnd hax hl
      obtain ⟨z', e1', e2', e3', e4', e5'⟩ := morph_spec hy' hnd (hn ▸ hax) hl'
      have hd : z.dtype = z'.dtype := by rw [e4, e4', h.dtype]
      have hlab : z.label = z'.label := by rw [e2, e2', h.label]
      refine .ok e1 e1' ⟨hlab, hd, fun names v v' he hv hv' => ?_⟩
      rw [← hd, ← h.dtype, ← hlab] at e5'
      rw [Larry.Has, ← hlab] at hv'
      exact reindexed_cells h e5 e5' he hv hv'
  · exact .error (C13_morph_error hy (.inl hnd)) (C13_morph_error hy' (.inl hnd))

theorem morphLikeLoop_until {lar lar' : Larry L} (hr : lar.Rel NoVal NoDType lar') :
    ∀ (is : List Nat) {y y' : Larry L}, y.Valid → y'.Valid → y.Until later y' →
    Res.Agree (Until later) (morphLikeLoop lar is y) (morphLikeLoop lar' is y')
  | [], y, y', _, _, h => .ok rfl rfl h
  | i :: is, y, y', hy, hy', h => by
    unfold morphLikeLoop
    rw [← getlabel_rel hr i]
    split
    · exact rfl
    · rename_i a _
      rcases (morph_until hy hy' h a i).cases with ⟨z, z', f1, f2, hz⟩ | ⟨e, f1, f2⟩
      · simp only [f1, f2]
        exact morphLikeLoop_until hr is (morph_valid hy f1) (morph_valid hy' f2) hz
      · simp only [f1, f2]; exact rfl

theorem morphLike_until {y y' lar lar' : Larry L} (hy : y.Valid) (hy' : y'.Valid) (h : y.Until later y')
    (hr : lar.Rel NoVal NoDType lar') : Res.Agree (Until later) (y.morphLike lar) (y'.morphLike lar') := by
  unfold morphLike
  rw [← h.ndim hy hy', ← hr.ndim]
  split
  · exact rfl
  · exact morphLikeLoop_until hr _ hy hy' h

/-! ## Elementwise operations of two larrys -/

theorem binop_cells {uf : UFunc2} {a b z : Larry L} (ha : a.Valid) (hb : b.Valid) (h : binop uf a b = .ok z) {names : List L}
    {v : Val} (hv : z.Has names v) : ∃ u w, a.Has names u ∧ b.Has names w ∧ v = uf.f u w := by
  by_cases hn : a.ndim = b.ndim
  · cases hd : uf.dt a.dtype b.dtype with
    | error e => rw [C09_binop_dtype_error ha hb hn uf hd] at h; simp at h
    | ok d =>
      obtain ⟨z', h1, h2, -, -, h5⟩ := C09_binop ha hb hn uf hd
      rw [h1] at h
      obtain rfl : z' = z := by simpa using h
      obtain ⟨u, w, e1, e2, e3⟩ := (h5 names v).mp ((get_ok_iff h2).mpr hv)
      exact ⟨u, w, (get_ok_iff ha).mp e1, (get_ok_iff hb).mp e2, e3⟩
  · rw [C09_binop_ndim ha hb hn uf] at h; simp at h

theorem compare_cells {uf : UFunc2} {a b z : Larry L} (ha : a.Valid) (hb : b.Valid) (h : compare uf a b = .ok z)
    {names : List L} {v : Val} (hv : z.Has names v) : ∃ u w, a.Has names u ∧ b.Has names w ∧ v = uf.f u w := by
  by_cases hn : a.ndim = b.ndim
  · cases hd : uf.dt a.dtype b.dtype with
    | error e =>
      obtain ⟨x, y, r, h1, _⟩ := align_spec ha hb hn
      simp [compare, h1, npBinop_dtError hd] at h
    | ok d =>
      obtain ⟨z', h1, h2, -, -, h5⟩ := C11_compare ha hb hn uf hd
      rw [h1] at h
      obtain rfl : z' = z := by simpa using h
      obtain ⟨u, w, e1, e2, e3⟩ := (h5 names v).mp ((get_ok_iff h2).mpr hv)
      exact ⟨u, w, (get_ok_iff ha).mp e1, (get_ok_iff hb).mp e2, e3⟩
  · rw [C11_compare_ndim hn uf] at h; simp at h

theorem binop_until (uf : UFunc2) {a a' b b' : Larry L} (ha : a.Valid) (ha' : a'.Valid) (h : a.Until later a') (hb : b.Valid)
    (hb' : b'.Valid) (hr : b.Until later b') : Res.Agree (Until later) (binop uf a b) (binop uf a' b') := by
  refine until_of (binop_rel (ufunc_no uf) (h.rel ha ha') (hr.rel hb hb')) fun z z' h1 h2 names v v' he hv hv' => ?_
  obtain ⟨u, w, e1, e2, rfl⟩ := binop_cells ha hb h1 hv
  obtain ⟨u', w', e1', e2', rfl⟩ := binop_cells ha' hb' h2 hv'
  rw [h.cells names u u' he e1 e1', hr.cells names w w' he e2 e2']

theorem compare_until (uf : UFunc2) {a a' b b' : Larry L} (ha : a.Valid) (ha' : a'.Valid) (h : a.Until later a') (hb : b.Valid)
    (hb' : b'.Valid) (hr : b.Until later b') : Res.Agree (Until later) (compare uf a b) (compare uf a' b') := by
  refine until_of (compare_rel (ufunc_no uf) (h.rel ha ha') (hr.rel hb hb')) fun z z' h1 h2 names v v' he hv hv' => ?_
  obtain ⟨u, w, e1, e2, rfl⟩ := compare_cells ha hb h1 hv
  obtain ⟨u', w', e1', e2', rfl⟩ := compare_cells ha' hb' h2 hv'
  rw [h.cells names u u' he e1 e1', hr.cells names w w' he e2 e2']

theorem binopArray_until (uf : UFunc2) {y y' : Larry L} (hy : y.Valid) (hy' : y'.Valid) (h : y.Until later y')
    {x : NDArray Val} (hf : BFits y.shape x.shape) (d : DType) :
    Res.Agree (Until later) (binopArray uf y x d) (binopArray uf y' x d) := by
  refine until_of (binopArray_rel (ufunc_no uf) (h.rel hy hy') (array_no rfl) trivial) fun z z' h1 h2 names v v' he hv hv' => ?_
  cases hd : uf.dt y.dtype d with
  | error e => unfold binopArray at h1; rw [npBinop_dtError hd] at h1; simp at h1
  | ok d' =>
    obtain ⟨w, e1, -, -, -, e5⟩ := C12_broadcast hy x d uf hd hf
    obtain ⟨w', e1', -, -, -, e5'⟩ := C12_broadcast hy' x d uf (h.dtype ▸ hd) (by rw [← h.shape hy hy']; exact hf)
    rw [e1] at h1; rw [e1'] at h2
    cases h1; cases h2
    obtain ⟨idx, k, hat, hb, rfl⟩ := (e5 names v).mp hv
    obtain ⟨idx', k', hat', hb', rfl⟩ := (e5' names v').mp hv'
    rw [← h.label] at hat'
    obtain rfl := At_unique hy.nodup hat hat'
    rw [h.get hat he, breads_unique hb hb']

/-! ## Joins -/

/-- `merge` with `update=True` of larrys whose dtype needs no cast. -/
theorem merge_until {y y' z z' : Larry L} (hy : y.Valid) (hy' : y'.Valid) (h : y.Until later y') (hz : z.Valid)
    (hz' : z'.Valid) (hr : z.Until later z') (hd : y.dtype = z.dtype) (hi : y.dtype ≠ .int) (hb : y.dtype ≠ .bool) :
    Res.Agree (Until later) (merge y z true) (merge y' z' true) := by
  have n1 := h.ndim hy hy'
  have n2 := hr.ndim hz hz'
  by_cases hn : y.ndim = z.ndim
  · obtain ⟨t, a, b, j1, e1, s1, s2⟩ := merge_sides hy hz hn
    obtain ⟨t', a', b', j1', e1', s1', s2'⟩ := merge_sides hy' hz' (by omega)
    have hrel := mergeLoop_rel fills_no (List.range y.ndim) (h.rel hy hy') (hr.rel hz hz')
    rw [e1, n1, e1'] at hrel
    obtain ⟨k1, k2⟩ := hrel
    have ht : t = t' := by rw [← s1.label_eq, ← s1'.label_eq]; exact k1.label
    subst ht
    have x1 : ∀ (u w : Larry L), u.dtype ≠ .int → u.dtype ≠ .bool → extDType u w = u.dtype := by
      intro u w h1 h2
      have : ¬ NoMarker u.dtype := fun h => h.elim h1 h2
      unfold extDType floatIf
      rw [if_neg fun h => this h.1]
    have d1 : a.dtype = y.dtype := by rw [s1.dtype_eq, x1 y z hi hb]
    have d2 : b.dtype = y.dtype := by rw [s2.dtype_eq, x1 z y (hd ▸ hi) (hd ▸ hb), hd]
    have ua : a.Until later a' := by
      refine ⟨k1.label, k1.dtype, fun names v v' he hv hv' => ?_⟩
      have r1 := s1.re
      have r2 := s1'.re
      rw [← s1'.dtype_eq, ← k1.dtype, ← h.dtype] at r2
      rw [← s1.dtype_eq] at r1
      rw [Larry.Has, s1.label_eq] at hv
      rw [Larry.Has, s1'.label_eq] at hv'
      exact reindexed_cells h r1 r2 he hv hv'
    have ub : b.Until later b' := by
      refine ⟨k2.label, k2.dtype, fun names v v' he hv hv' => ?_⟩
      have r1 := s2.re
      have r2 := s2'.re
      rw [← s2'.dtype_eq, ← k2.dtype, ← hr.dtype] at r2
      rw [← s2.dtype_eq] at r1
      rw [Larry.Has, s2.label_eq] at hv
      rw [Larry.Has, s2'.label_eq] at hv'
      exact reindexed_cells hr r1 r2 he hv hv'
    have key : ∀ {y z a b : Larry L}, y.ndim = z.ndim → mergeLoop (List.range y.ndim) y z = .ok (a, b) → y.dtype = z.dtype →
        a.dtype = b.dtype → ∃ w, merge y z true = .ok w ∧ w.label = a.label ∧ w.dtype = a.dtype ∧
          ∀ idx, InB a.x.shape idx → w.x.get idx =
            if presentVal z.dtype (b.x.get idx) then castSafe b.dtype a.dtype (b.x.get idx) else a.x.get idx := by
      intro y z a b hn e1 hd hab
      unfold merge
      rw [if_neg (by simpa using hn), e1]
      simp only [hd, ne_eq, not_true_eq_false, and_false, if_false, Bool.not_true, Bool.false_and, Bool.false_eq_true]
      split
      · rw [if_pos (by rw [hab]; unfold canCast; split <;> simp_all)]
        exact ⟨_, rfl, rfl, rfl, fun _ _ => rfl⟩
      · rename_i hany
        refine ⟨_, rfl, rfl, rfl, fun idx hidx => ?_⟩
        rw [if_neg]
        intro hp
        exact hany (anyAt_iff.mpr ⟨idx, hidx, hp⟩)
    obtain ⟨w, f1, f2, f3, f4⟩ := key hn e1 hd (d1.trans d2.symm)
    obtain ⟨w', f1', f2', f3', f4'⟩ := key (by omega) e1' (by rw [← h.dtype, ← hr.dtype, hd])
      (by rw [← k1.dtype, ← k2.dtype, d1, d2])
    refine .ok f1 f1' (until_of_get (by rw [f2]; exact s1.valid.nodup) (by rw [f2, f2', k1.label])
      (by rw [f3, f3', k1.dtype]) fun idx names hat he => ?_)
    rw [f2] at hat
    have hin : InB a.x.shape idx := by rw [s1.valid.shape_eq]; exact At_inB hat
    have hatb : At b.label idx names := by rw [s2.label_eq, ← s1.label_eq]; exact hat
    rw [f4 idx hin, f4' idx (by rw [← k1.x.1]; exact hin), ua.get hat he, ub.get hatb he, hr.dtype, k1.dtype, k2.dtype]
  · exact .error (e := .indexError) (by simp [merge, hn]) (by rw [merge, if_pos (by omega)])

/-- Both outputs. -/
def BothUntil (later : L → Prop) (p q : Larry L × Larry L) : Prop := p.1.Until later q.1 ∧ p.2.Until later q.2

theorem align_until {y y' z z' : Larry L} (hy : y.Valid) (hy' : y'.Valid) (h : y.Until later y') (hz : z.Valid)
    (hz' : z'.Valid) (hr : z.Until later z') (join : JoinArg) (cast : Bool) :
    Res.Agree (BothUntil later) (La.align y z join cast) (La.align y' z' join cast) := by
  have n1 := h.ndim hy hy'
  have n2 := hr.ndim hz hz'
  rcases (La.align_rel fills_no (h.rel hy hy') (hr.rel hz hz') join cast).cases with ⟨⟨p, q⟩, ⟨p', q'⟩, e1, e2, k1, k2⟩ | ⟨e, e1, e2⟩
  · refine .ok e1 e2 ?_
    obtain ⟨hn, js, hj⟩ := joinsFor_of e1
    have hj' : JoinsFor z'.ndim join js := n2 ▸ hj
    have hn' : y'.ndim = z'.ndim := by omega
    have hok : ∀ e, ¬ FailsAt y z js cast e := by
      intro e hf
      obtain ⟨e', h', _⟩ := C16_align_fails hy hz hn hj ⟨e, hf⟩
      rw [h'] at e1; simp at e1
    have hok' : ∀ e, ¬ FailsAt y' z' js cast e := by
      intro e hf
      obtain ⟨e', h', _⟩ := C16_align_fails hy' hz' hn' hj' ⟨e, hf⟩
      rw [h'] at e2; simp at e2
    obtain ⟨s, labs, r1, r2, a1, a2, a3, a4, -, -, -, a8, a9, a10, a11⟩ := alignRaw_ok hy hz hn hj hok
    obtain ⟨s', labs', r1', r2', a1', a2', a3', a4', -, -, -, a8', a9', a10', a11'⟩ := alignRaw_ok hy' hz' hn' hj' hok'
    unfold La.align at e1 e2
    rw [a1] at e1
    rw [a1'] at e2
    simp only [Except.ok.injEq, Prod.mk.injEq] at e1 e2
    rw [← a3, ← a4] at e1
    rw [← a3', ← a4'] at e2
    obtain ⟨rfl, rfl⟩ := e1
    obtain ⟨rfl, rfl⟩ := e2
    have l1 : r1 = r1' := k1.label
    have l2 : r2 = r2' := k2.label
    have d1 : s.d1 = s'.d1 := k1.dtype
    have d2 : s.d2 = s'.d2 := k2.dtype
    subst l1 l2
    rw [← d1, ← h.dtype] at a10'
    rw [← d2, ← hr.dtype] at a11'
    exact ⟨⟨rfl, d1, fun names v v' he hv hv' => reindexed_cells h a10 a10' he hv hv'⟩,
      ⟨rfl, d2, fun names v v' he hv hv' => reindexed_cells hr a11 a11' he hv hv'⟩⟩
  · exact .error e1 e2

theorem binaryop_until (cv : DType → Val → Val) (uf : UFunc2) {y y' z z' : Larry L} (hy : y.Valid) (hy' : y'.Valid)
    (h : y.Until later y') (hz : z.Valid) (hz' : z'.Valid) (hr : z.Until later z') {join : JoinArg} (hs : join.NoSkip)
    (cast : Bool) (m1 m2 : Option Val) :
    Res.Agree (fun p q => (rawLarry p).Until later (rawLarry q)) (binaryop cv uf y z join cast m1 m2)
      (binaryop cv uf y' z' join cast m1 m2) := by
  rcases (align_until hy hy' h hz hz' hr join cast).cases with ⟨⟨z1, z2⟩, ⟨z1', z2'⟩, e1, e2, k1, k2⟩ | ⟨e, e1, e2⟩
  · cases hd : uf.dt z1.dtype z2.dtype with
    | error e =>
      exact .error (binaryop_dtype_error hy hz hs e1 hd)
        (binaryop_dtype_error hy' hz' hs e2 (by rw [← k1.dtype, ← k2.dtype]; exact hd))
    | ok d =>
      have hd' : uf.dt z1'.dtype z2'.dtype = .ok d := by rw [← k1.dtype, ← k2.dtype]; exact hd
      obtain ⟨hn, js, hj⟩ := joinsFor_of e1
      obtain ⟨hn', js', hj'⟩ := joinsFor_of e2
      obtain ⟨x, f1, f2, f3, f4⟩ := C22_binaryop hy hz hn hj (noSkip_of hj hs) cv uf m1 m2 e1 hd
      obtain ⟨x', f1', f2', f3', f4'⟩ := C22_binaryop hy' hz' hn' hj' (noSkip_of hj' hs) cv uf m1 m2 e2 hd'
      have hl : ∀ (l : List (List L)), (l.map some).map (fun l => l.getD []) = l := fun l => by simp
      refine .ok f1 f1' ⟨?_, rfl, fun names v v' he hv hv' => ?_⟩
      · show (z1.label.map some).map _ = (z1'.label.map some).map _
        rw [hl, hl]; exact k1.label
      · have g : Holds ((z1.label.map some).map (fun l => l.getD [])) x names v := hv
        have g' : Holds ((z1'.label.map some).map (fun l => l.getD [])) x' names v' := hv'
        rw [hl, f4] at g
        rw [hl, f4'] at g'
        obtain ⟨u, w, p, q, a1, a2, a3, a4, rfl⟩ := g
        obtain ⟨u', w', p', q', b1, b2, b3, b4, rfl⟩ := g'
        rw [← k1.cells names u u' he a1 b1, ← k2.cells names w w' he a2 b2, ← k1.dtype, ← k2.dtype] at b3 b4
        rw [refilled_unique a3 b3, refilled_unique a4 b4]
  · exact .error (C22_binaryop_align_error cv uf m1 m2 e1) (C22_binaryop_align_error cv uf m1 m2 e2)

/-! ## align_axis and stack -/

theorem alignAxisN_until {lars lars' : List (Larry L)} (h : List.Forall₂ (Until later) lars lars')
    (hv : ∀ y ∈ lars, y.Valid) (hv' : ∀ y ∈ lars', y.Valid) (axis : List Int) (join : Join) :
    Res.Agree (List.Forall₂ (Until later)) (alignAxisN lars axis join) (alignAxisN lars' axis join) := by
  have hrel : List.Forall₂ (Larry.Rel NoVal NoDType) lars lars' := by
    clear axis join
    induction h with
    | nil => exact .nil
    | cons h1 _ ih =>
      simp only [List.mem_cons, forall_eq_or_imp] at hv hv'
      exact .cons (h1.rel hv.1 hv'.1) (ih hv.2 hv'.2)
  have hz : List.Forall₂ (fun p q => p.1.Valid ∧ q.1.Valid ∧ p.1.Until later q.1 ∧ p.2 = q.2) (lars.zip axis) (lars'.zip axis) := by
    clear hrel join
    induction h generalizing axis with
    | nil => exact .nil
    | cons h1 _ ih =>
      simp only [List.mem_cons, forall_eq_or_imp] at hv hv'
      cases axis with
      | nil => exact .nil
      | cons a axis => exact .cons ⟨hv.1, hv'.1, h1, rfl⟩ (ih hv.2 hv'.2 axis)
  unfold alignAxisN
  rw [h.length_eq, any_rel (zip_rel hrel axis), alignAxisLabel_rel hrel axis join]
  split
  · exact rfl
  · split
    · exact rfl
    · split
      · exact rfl
      · cases alignAxisLabel lars' axis join with
        | error e => exact rfl
        | ok l =>
          refine mapRes_agree ?_ hz
          rintro ⟨y, a⟩ ⟨y', a'⟩ ⟨v, v', hr, ha⟩
          simp only at ha
          subst ha
          exact morph_until v v' hr l a

/-- Two ascending lists with the same members are the same list. -/
theorem ascending_ext {l l' : List L} (h : l.Pairwise (· < ·)) (h' : l'.Pairwise (· < ·)) (he : ∀ a, a ∈ l ↔ a ∈ l') :
    l = l' := by
  have hp : l.Perm l' := (List.perm_ext_iff_of_nodup (h.imp fun h => ne_of_lt h) (h'.imp fun h => ne_of_lt h)).mpr he
  exact hp.eq_of_pairwise (fun a b _ _ h1 h2 => absurd h1 (lt_asymm h2)) h h'

theorem stack_until (mode : Option Bool) {kw kw' : List (L × Larry L)} (hk : (kw.map Prod.fst).Nodup)
    (h : List.Forall₂ (fun p q => p.1 = q.1 ∧ p.2.Valid ∧ q.2.Valid ∧ p.2.Until later q.2) kw kw')
    (hnum : ∀ p ∈ kw, p.2.dtype.IsNum) : Res.Agree (Until later) (stack mode kw) (stack mode kw') := by
  have hkeys : kw.map Prod.fst = kw'.map Prod.fst := by
    clear hk hnum
    induction h with
    | nil => rfl
    | cons h1 _ ih => simp only [List.map_cons, ih, h1.1]
  have hv : ∀ p ∈ kw, p.2.Valid ∧ p.2.dtype.IsNum := by
    clear hk hkeys
    induction h with
    | nil => simp
    | cons h1 _ ih =>
      simp only [List.mem_cons, forall_eq_or_imp] at hnum ⊢
      exact ⟨⟨h1.2.1, hnum.1⟩, ih hnum.2⟩
  have hv' : ∀ p ∈ kw', p.2.Valid ∧ p.2.dtype.IsNum := by
    clear hk hkeys hv
    induction h with
    | nil => simp
    | cons h1 _ ih =>
      simp only [List.mem_cons, forall_eq_or_imp] at hnum ⊢
      exact ⟨⟨h1.2.2.1, h1.2.2.2.dtype ▸ hnum.1⟩, ih hnum.2⟩
  have hndim : (∀ p ∈ kw, p.2.ndim = 2) ↔ ∀ p ∈ kw', p.2.ndim = 2 := by
    clear hk hkeys hv hv' hnum
    induction h with
    | nil => simp
    | cons h1 _ ih => simp only [List.mem_cons, forall_eq_or_imp, ih, h1.2.2.2.ndim h1.2.1 h1.2.2.1]
  have hmem : ∀ p ∈ kw, ∃ q ∈ kw', p.1 = q.1 ∧ p.2.Until later q.2 := by
    clear hk hkeys hv hv' hnum hndim
    induction h with
    | nil => simp
    | cons h1 _ ih =>
      simp only [List.mem_cons, forall_eq_or_imp]
      refine ⟨⟨_, .inl rfl, h1.1, h1.2.2.2⟩, fun p hp => ?_⟩
      obtain ⟨q, hq, e⟩ := ih p hp
      exact ⟨q, .inr hq, e⟩
  have hon : ∀ m k a, Merged m (kw.map Prod.snd) k a ↔ Merged m (kw'.map Prod.snd) k a := by
    intro m k a
    have : List.Forall₂ (fun p q : L × Larry L => OnAxis p.2 k a ↔ OnAxis q.2 k a) kw kw' :=
      h.imp fun p q hp => by unfold OnAxis; rw [hp.2.2.2.label]
    clear hk hkeys hv hv' hnum hndim hmem h
    unfold Merged
    induction this with
    | nil => rfl
    | cons h1 _ ih =>
      cases m <;> simp_all
  by_cases hall : ∀ p ∈ kw, p.2.ndim = 2
  · cases mode with
    | none => exact .error (C62_errors kw).2.1 (C62_errors kw').2.1
    | some m =>
      by_cases hne : m = false → kw ≠ []
      · obtain ⟨z, keys, row, col, e1, e2, e3, e4, e5, e6, e7, e8, e9, e10, e11, e12⟩ :=
          C62_stack m hk (fun p hp => ⟨(hv p hp).1, hall p hp, (hv p hp).2⟩) hne
        obtain ⟨z', keys', row', col', f1, f2, f3, f4, f5, f6, f7, f8, f9, f10, f11, f12⟩ :=
          C62_stack m (hkeys ▸ hk) (fun p hp => ⟨(hv' p hp).1, hndim.mp hall p hp, (hv' p hp).2⟩)
            (fun hm => by rintro rfl; cases h; exact hne hm rfl)
        have k1 : keys = keys' := ascending_ext e6 f6 fun a => by rw [e5.mem_iff, f5.mem_iff, hkeys]
        have k2 : row = row' := ascending_ext e7 f7 fun a => by rw [e9, f9, hon]
        have k3 : col = col' := ascending_ext e8 f8 fun a => by rw [e10, f10, hon]
        subst k1 k2 k3
        refine .ok e1 f1 ⟨e4.trans f4.symm, e3.trans f3.symm, fun names v v' he hh hh' => ?_⟩
        have hn := Named_of_Holds hh
        rw [e4] at hn
        match names, hn with
        | [k, r, c], hn =>
          obtain ⟨n1, n2, n3, -⟩ := hn
          rw [e5.mem_iff, List.mem_map] at n1
          obtain ⟨⟨k, lar⟩, n1, rfl⟩ := n1
          obtain ⟨⟨k', lar'⟩, n1', hk', hu⟩ := hmem _ n1
          simp only at hk' hu
          subst hk'
          have he2 : Early later [r, c] := fun n hn => he n (List.mem_cons_of_mem _ hn)
          by_cases hnm : Named lar.label [r, c]
          · obtain ⟨u, hu1⟩ := Holds_of_Named (x := lar.x) hnm
            obtain ⟨u', hu2⟩ := Holds_of_Named (x := lar'.x) (hu.label ▸ hnm)
            rw [Holds_unique e2.nodup hh (e11 k lar n1 r c u hu1 n2 n3), Holds_unique f2.nodup hh' (f11 k lar' n1' r c u' hu2 n2 n3),
              hu.cells _ u u' he2 hu1 hu2]
          · rw [Holds_unique e2.nodup hh (e12 k lar n1 r c n2 n3 hnm), Holds_unique f2.nodup hh' (f12 k lar' n1' r c n2 n3 (hu.label ▸ hnm))]
      · simp only [Classical.not_imp, not_not] at hne
        obtain ⟨rfl, rfl⟩ := hne
        cases h
        exact .error (C62_errors []).2.2 (C62_errors []).2.2
  · have hall' : ¬ ∀ p ∈ kw', p.2.ndim = 2 := fun hh => hall (hndim.mpr hh)
    simp only [not_forall] at hall hall'
    obtain ⟨p, hp, hp2⟩ := hall
    obtain ⟨q, hq, hq2⟩ := hall'
    exact .error ((C62_errors kw).1 mode ⟨p, hp, hp2⟩) ((C62_errors kw').1 mode ⟨q, hq, hq2⟩)

end
end Larry
end La
