import Verif.LookbackLines
import Verif.Props.Parts
import Verif.Props.MoveBn

/-!
# A larry before the later data came in

Lemmas for property C108: what a call returns for the data so far is what it returns for all data, without the later labels.
-/

namespace La
variable {L : Type _}

/-! ## Specification -/

/-- The labels that are not later ones, in the order they had. -/
def sofar (later : L → Prop) [DecidablePred later] (l : List L) : List L := l.filter (fun b => ¬ later b)

/-- `z` is what was there of `y` before the later labels came in. -/
structure Larry.Before (later : L → Prop) [DecidablePred later] (z y : Larry L) : Prop where
  label : z.label = y.label.map (sofar later)
  dtype : z.dtype = y.dtype
  cells : ∀ names v, z.Has names v → y.Has names v

/-- If both calls return, what they return is related. -/
def Res.Both {α β : Type _} (S : α → β → Prop) (r : Res α) (r' : Res β) : Prop := ∀ a b, r = .ok a → r' = .ok b → S a b

/-- For methods that return a scalar or a larry. -/
def Out.Before (later : L → Prop) [DecidablePred later] : Out L → Out L → Prop
  | .scalar _, .scalar _ => True
  | .larry z, .larry y => z.Before later y
  | _, _ => False

/-! ## Basics -/

variable {later : L → Prop} [DecidablePred later]

theorem mem_sofar {b : L} {l : List L} : b ∈ sofar later l ↔ b ∈ l ∧ ¬ later b := by simp [sofar]

theorem sofar_nodup {l : List L} (h : l.Nodup) : (sofar later l).Nodup := h.filter _

theorem sofar_early {l : List L} (h : Early later l) : sofar later l = l := by
  unfold sofar
  rw [List.filter_eq_self]
  intro b hb
  simpa using h b hb

theorem sofar_idem (l : List L) : sofar later (sofar later l) = sofar later l :=
  sofar_early fun _ hb => (mem_sofar.mp hb).2

theorem named_sofar {label : List (List L)} {names : List L} :
    Named (label.map (sofar later)) names ↔ Named label names ∧ Early later names := by
  induction label generalizing names with
  | nil => cases names with
    | nil => simp [Named, Early]
    | cons => simp [Named]
  | cons l label ih => cases names with
    | nil => simp [Named]
    | cons n names =>
      simp only [List.map_cons, Named, ih, mem_sofar, Early, List.mem_cons, forall_eq_or_imp]
      tauto

theorem Res.Both.ok {α β : Type _} {S : α → β → Prop} {a : α} {b : β} (h : S a b) : Res.Both S (.ok a) (.ok b) := by
  intro _ _ h1 h2
  cases h1; cases h2
  exact h

theorem Res.Both.left {α β : Type _} {S : α → β → Prop} {e : PyErr} {r : Res β} : Res.Both S (.error e : Res α) r := by
  intro _ _ h1; cases h1

theorem Res.Both.right {α β : Type _} {S : α → β → Prop} {e : PyErr} {r : Res α} : Res.Both S r (.error e : Res β) := by
  intro _ _ _ h1; cases h1

namespace Larry

theorem Before.has {z y : Larry L} (hy : y.Valid) (h : z.Before later y) {names : List L} {v : Val} :
    z.Has names v ↔ y.Has names v ∧ Early later names := by
  constructor
  · intro hv
    have := Named_of_Holds hv
    rw [h.label, named_sofar] at this
    exact ⟨h.cells _ _ hv, this.2⟩
  · rintro ⟨hv, he⟩
    obtain ⟨u, hu⟩ := Holds_of_Named (x := z.x) (label := z.label) (by rw [h.label, named_sofar]; exact ⟨Named_of_Holds hv, he⟩)
    rw [Holds_unique hy.nodup hv (h.cells _ _ hu)]
    exact hu

theorem Before.naxes {z y : Larry L} (h : z.Before later y) : z.label.length = y.label.length := by rw [h.label, List.length_map]

theorem Before.ndim {z y : Larry L} (hz : z.Valid) (hy : y.Valid) (h : z.Before later y) : z.ndim = y.ndim := by
  rw [← hz.label_length, ← hy.label_length, h.naxes]

theorem Before.label_at {z y : Larry L} (h : z.Before later y) {k : Nat} {l : List L} (hl : y.label[k]? = some l) :
    z.label[k]? = some (sofar later l) := by rw [h.label, List.getElem?_map, hl]; rfl

theorem Before.named {z y : Larry L} (h : z.Before later y) {names : List L} :
    Named z.label names ↔ Named y.label names ∧ Early later names := by rw [h.label, named_sofar]

theorem Before.refl {y : Larry L} (h : ∀ l ∈ y.label, Early later l) : y.Before later y :=
  ⟨(List.map_id _).symm.trans (List.map_congr_left fun l hl => (sofar_early (h l hl)).symm), rfl, fun _ _ h => h⟩

/-- Both runs arrange the labels anew and fill in the same marker. -/
theorem reindexed_before {y' y : Larry L} (h : y'.Before later y) {r : List (List L)} {x x' : NDArray Val} {f : Val → Val}
    {m : Option Val} (h1 : Reindexed y'.label y'.x (r.map (sofar later)) x' f m) (h2 : Reindexed y.label y.x r x f m) {names : List L}
    {v : Val} (hv : Holds (r.map (sofar later)) x' names v) : Holds r x names v := by
  rw [h1, named_sofar] at hv
  rw [h2]
  obtain ⟨⟨hN, he⟩, hv⟩ := hv
  refine ⟨hN, ?_⟩
  rcases hv with ⟨w, e1, rfl⟩ | ⟨e1, e2⟩
  · exact .inl ⟨w, h.cells _ _ e1, rfl⟩
  · exact .inr ⟨fun hn => e1 (h.named.mpr ⟨hn, he⟩), e2⟩

/-! ## morph and the methods built on it -/

/-- The dtype has a marker for missing values, so that new labels do not change it. -/
def _root_.La.HasMarker (d : DType) : Prop := d ≠ .int ∧ d ≠ .bool

section
variable [LinearOrder L]

omit [DecidablePred later] in
theorem morphDType_marker {d : DType} (h : HasMarker d) (l lab : List L) : morphDType d l lab = d := by
  obtain ⟨h1, h2⟩ := h
  unfold morphDType
  cases d <;> simp_all

theorem morph_before {y' y : Larry L} (hy' : y'.Valid) (hy : y.Valid) (h : y'.Before later y) (hd : HasMarker y.dtype) (lab : List L)
    (axis : Int) :
    Res.Both (fun z' z => z'.Before later z ∧ HasMarker z.dtype) (y'.morph (sofar later lab) axis) (y.morph lab axis) := by
  have hn := h.ndim hy' hy
  by_cases hnd : lab.Nodup
  · cases hax : pyIdx y.ndim axis with
    | none => rw [C13_morph_error hy (.inr hax)]; exact .right
    | some ax =>
      obtain ⟨l, hl⟩ := axis_label hy hax
      obtain ⟨z, e1, e2, e3, e4, e5⟩ := morph_spec hy hnd hax hl
      obtain ⟨z', e1', e2', e3', e4', e5'⟩ := morph_spec hy' (sofar_nodup (later := later) hnd) (hn ▸ hax) (h.label_at hl)
      rw [e1, e1']
      rw [morphDType_marker hd] at e4
      rw [h.dtype, morphDType_marker hd] at e4'
      have hlab : z'.label = z.label.map (sofar later) := by rw [e2, e2', h.label, List.map_set]
      rw [hlab, h.dtype, e4', ← e4] at e5'
      refine .ok ⟨⟨hlab, e4'.trans e4.symm, fun names v hv => ?_⟩, e4 ▸ hd⟩
      rw [Larry.Has, hlab] at hv
      rw [e4] at e5 e5'
      exact reindexed_before h e5' e5 hv
  · rw [C13_morph_error hy (.inl hnd)]; exact .right

omit [LinearOrder L] in
theorem getlabel_before {y' y : Larry L} (h : y'.Before later y) (i : Nat) :
    Res.Both (fun l' l => l' = sofar later l) (y'.getlabel i) (y.getlabel i) := by
  intro l' l h1 h2
  unfold getlabel at h1 h2
  split at h1
  · cases h1
  split at h2
  · cases h2
  obtain ⟨k, e1, e2⟩ := pyGet_ok.mp h1
  obtain ⟨k', e1', e2'⟩ := pyGet_ok.mp h2
  rw [h.naxes] at e1
  rw [e1] at e1'
  cases e1'
  rw [h.label_at e2'] at e2
  simpa using e2.symm

theorem morphLikeLoop_before {lar' lar : Larry L} (hr : lar'.Before later lar) :
    ∀ (is : List Nat) {y' y : Larry L}, y'.Valid → y.Valid → y'.Before later y → HasMarker y.dtype →
    Res.Both (Before later) (morphLikeLoop lar' is y') (morphLikeLoop lar is y)
  | [], y', y, _, _, h, _ => .ok h
  | i :: is, y', y, hy', hy, h, hd => by
    unfold morphLikeLoop
    cases g' : lar'.getlabel i with
    | error e => exact .left
    | ok l' => cases g : lar.getlabel i with
      | error e => exact .right
      | ok l =>
        obtain rfl := getlabel_before hr i l' l g' g
        dsimp only
        cases f' : y'.morph (sofar later l) i with
        | error e => exact .left
        | ok z' => cases f : y.morph l i with
          | error e => exact .right
          | ok z =>
            obtain ⟨h1, h2⟩ := morph_before hy' hy h hd l i z' z f' f
            exact morphLikeLoop_before hr is (morph_valid hy' f') (morph_valid hy f) h1 h2

theorem morphLike_before {y' y lar' lar : Larry L} (hy' : y'.Valid) (hy : y.Valid) (h : y'.Before later y) (hl' : lar'.Valid)
    (hl : lar.Valid) (hr : lar'.Before later lar) (hd : HasMarker y.dtype) :
    Res.Both (Before later) (y'.morphLike lar') (y.morphLike lar) := by
  unfold morphLike
  rw [h.ndim hy' hy, hr.ndim hl' hl]
  split
  · exact .left
  · exact morphLikeLoop_before hr _ hy' hy h hd

/-! ## Joins -/

/-- Where the labels of an axis differ those of one side are in ascending order, so that a join does not rearrange them. -/
def _root_.La.SameOrAscending (l1 l2 : List L) : Prop := l1 = l2 ∨ l1.Pairwise (· < ·) ∨ l2.Pairwise (· < ·)

theorem ascending_sofar {l : List L} (h : l.Pairwise (· < ·)) : (sofar later l).Pairwise (· < ·) := List.Pairwise.filter _ h

theorem inner_before {l1 l2 r r' : List L} (hs : SameOrAscending l1 l2) (h' : InnerJoined (sofar later l1) (sofar later l2) r')
    (h : InnerJoined l1 l2 r) : r' = sofar later r := by
  by_cases e : l1 = l2
  · subst e
    rw [h'.1 rfl, h.1 rfl]
  · obtain ⟨h1, h2⟩ := h.2 e
    by_cases e' : sofar later l1 = sofar later l2
    · have ha : (sofar later l1).Pairwise (· < ·) :=
        (hs.resolve_left e).elim ascending_sofar fun h => by rw [e']; exact ascending_sofar h
      rw [h'.1 e']
      refine ascending_ext ha (ascending_sofar h1) fun a => ?_
      have : a ∈ sofar later l1 ↔ a ∈ sofar later l2 := by rw [e']
      simp only [mem_sofar, h2] at this ⊢
      tauto
    · obtain ⟨k1, k2⟩ := h'.2 e'
      refine ascending_ext k1 (ascending_sofar h1) fun a => ?_
      simp only [k2, mem_sofar, h2]
      tauto

theorem outer_before {l1 l2 r r' : List L} (hs : SameOrAscending l1 l2) (h' : OuterJoined (sofar later l1) (sofar later l2) r')
    (h : OuterJoined l1 l2 r) : r' = sofar later r := by
  by_cases e : l1 = l2
  · subst e
    rw [h'.1 rfl, h.1 rfl]
  · obtain ⟨h1, h2⟩ := h.2 e
    by_cases e' : sofar later l1 = sofar later l2
    · have ha : (sofar later l1).Pairwise (· < ·) :=
        (hs.resolve_left e).elim ascending_sofar fun h => by rw [e']; exact ascending_sofar h
      rw [h'.1 e']
      refine ascending_ext ha (ascending_sofar h1) fun a => ?_
      have : a ∈ sofar later l1 ↔ a ∈ sofar later l2 := by rw [e']
      simp only [mem_sofar, h2] at this ⊢
      tauto
    · obtain ⟨k1, k2⟩ := h'.2 e'
      refine ascending_ext k1 (ascending_sofar h1) fun a => ?_
      simp only [k2, mem_sofar, h2]
      tauto

theorem joined_before {R : List L → List L → List L → Prop}
    (hR : ∀ l1 l2 r r', SameOrAscending l1 l2 → R (sofar later l1) (sofar later l2) r' → R l1 l2 r → r' = sofar later r) :
    ∀ {a b c c' : List (List L)}, List.Forall₂ SameOrAscending a b → Joined R (a.map (sofar later)) (b.map (sofar later)) c' →
      Joined R a b c → c' = c.map (sofar later)
  | [], [], c, c', _, h', h => by cases h'; cases h; rfl
  | l1 :: a, l2 :: b, c, c', .cons hs hss, h', h => by
    cases h' with
    | cons k' ks' => cases h with
      | cons k ks => rw [hR _ _ _ _ hs k' k, joined_before hR hss ks' ks]; rfl

theorem allJoined_before : ∀ {js : List Join} {a b c d c' d' : List (List L)}, List.Forall₂ SameOrAscending a b →
    AllJoined js (a.map (sofar later)) (b.map (sofar later)) c' d' → AllJoined js a b c d →
    c' = c.map (sofar later) ∧ d' = d.map (sofar later)
  | [], [], [], c, d, c', d', _, h', h => by cases h'; cases h; exact ⟨rfl, rfl⟩
  | j :: js, l1 :: a, l2 :: b, c, d, c', d', .cons hs hss, h', h => by
    cases h' with
    | cons k' ks' => cases h with
      | cons k ks =>
        obtain ⟨e1, e2⟩ := allJoined_before hss ks' ks
        rw [e1, e2]
        cases j <;> simp only [AxisJoined] at k k'
        · rw [inner_before hs k'.1 k.1, k'.2, k.2, inner_before hs k'.1 k.1]; exact ⟨rfl, rfl⟩
        · rw [outer_before hs k'.1 k.1, k'.2, k.2, outer_before hs k'.1 k.1]; exact ⟨rfl, rfl⟩
        · rw [k'.1, k'.2, k.1, k.2]; exact ⟨rfl, rfl⟩
        · rw [k'.1, k'.2, k.1, k.2]; exact ⟨rfl, rfl⟩
        · rw [k'.1, k'.2, k.1, k.2]; exact ⟨rfl, rfl⟩

theorem binop_before (uf : UFunc2) {a' a b' b : Larry L} (ha' : a'.Valid) (ha : a.Valid) (h : a'.Before later a) (hb' : b'.Valid)
    (hb : b.Valid) (hr : b'.Before later b) (hs : List.Forall₂ SameOrAscending a.label b.label) :
    Res.Both (Before later) (binop uf a' b') (binop uf a b) := by
  have n1 := h.ndim ha' ha
  have n2 := hr.ndim hb' hb
  by_cases hn : a.ndim = b.ndim
  · cases hd : uf.dt a.dtype b.dtype with
    | error e => rw [C09_binop_dtype_error ha hb hn uf hd]; exact .right
    | ok d =>
      obtain ⟨z, e1, e2, e3, e4, e5⟩ := C09_binop ha hb hn uf hd
      obtain ⟨z', f1, f2, f3, f4, f5⟩ := C09_binop ha' hb' (by omega) uf (by rw [h.dtype, hr.dtype]; exact hd)
      rw [e1, f1]
      rw [h.label, hr.label] at f4
      refine .ok ⟨joined_before (fun _ _ _ _ => inner_before) hs f4 e4, f3.trans e3.symm, fun names v hv => ?_⟩
      obtain ⟨u, w, g1, g2, rfl⟩ := (f5 names v).mp ((get_ok_iff f2).mpr hv)
      exact (get_ok_iff e2).mp ((e5 _ _).mpr ⟨u, w, (get_ok_iff ha).mpr (h.cells _ _ ((get_ok_iff ha').mp g1)),
        (get_ok_iff hb).mpr (hr.cells _ _ ((get_ok_iff hb').mp g2)), rfl⟩)
  · rw [C09_binop_ndim ha hb hn uf]; exact .right

theorem compare_before (uf : UFunc2) {a' a b' b : Larry L} (ha' : a'.Valid) (ha : a.Valid) (h : a'.Before later a) (hb' : b'.Valid)
    (hb : b.Valid) (hr : b'.Before later b) (hs : List.Forall₂ SameOrAscending a.label b.label) :
    Res.Both (Before later) (compare uf a' b') (compare uf a b) := by
  have n1 := h.ndim ha' ha
  have n2 := hr.ndim hb' hb
  by_cases hn : a.ndim = b.ndim
  · cases hd : uf.dt a.dtype b.dtype with
    | error e =>
      obtain ⟨x, y, r, h1, _⟩ := align_spec ha hb hn
      simp only [compare, h1, npBinop_dtError hd]; exact .right
    | ok d =>
      obtain ⟨z, e1, e2, e3, e4, e5⟩ := C11_compare ha hb hn uf hd
      obtain ⟨z', f1, f2, f3, f4, f5⟩ := C11_compare ha' hb' (by omega) uf (by rw [h.dtype, hr.dtype]; exact hd)
      rw [e1, f1]
      rw [h.label, hr.label] at f4
      refine .ok ⟨joined_before (fun _ _ _ _ => inner_before) hs f4 e4, f3.trans e3.symm, fun names v hv => ?_⟩
      obtain ⟨u, w, g1, g2, rfl⟩ := (f5 names v).mp ((get_ok_iff f2).mpr hv)
      exact (get_ok_iff e2).mp ((e5 _ _).mpr ⟨u, w, (get_ok_iff ha).mpr (h.cells _ _ ((get_ok_iff ha').mp g1)),
        (get_ok_iff hb).mpr (hr.cells _ _ ((get_ok_iff hb').mp g2)), rfl⟩)
  · rw [C11_compare_ndim hn uf]; exact .right

theorem merge_before {y' y z' z : Larry L} (hy' : y'.Valid) (hy : y.Valid) (h : y'.Before later y) (hz' : z'.Valid) (hz : z.Valid)
    (hr : z'.Before later z) (hd : y.dtype = z.dtype) (hm : HasMarker y.dtype) (hs : List.Forall₂ SameOrAscending y.label z.label) :
    Res.Both (Before later) (merge y' z' true) (merge y z true) := by
  have n1 := h.ndim hy' hy
  have n2 := hr.ndim hz' hz
  by_cases hn : y.ndim = z.ndim
  · obtain ⟨t, a, b, j1, e1, s1, s2⟩ := merge_sides hy hz hn
    obtain ⟨t', a', b', j1', e1', s1', s2'⟩ := merge_sides hy' hz' (by omega)
    rw [h.label, hr.label] at j1'
    obtain rfl := joined_before (fun _ _ _ _ => outer_before) hs j1' j1
    have x1 : ∀ (u w : Larry L), HasMarker u.dtype → extDType u w = u.dtype := by
      intro u w hu
      have : ¬ NoMarker u.dtype := fun h => h.elim hu.1 hu.2
      unfold extDType floatIf
      rw [if_neg fun h => this h.1]
    have hm' : HasMarker y'.dtype := h.dtype ▸ hm
    have hz1 : HasMarker z.dtype := hd ▸ hm
    have hz1' : HasMarker z'.dtype := hr.dtype ▸ hz1
    have q1 := s1.re
    have q1' := s1'.re
    have q2 := s2.re
    have q2' := s2'.re
    have d1 := s1.dtype_eq
    have d1' := s1'.dtype_eq
    have d2 := s2.dtype_eq
    have d2' := s2'.dtype_eq
    rw [x1 _ _ hm] at q1 d1
    rw [x1 _ _ hm', h.dtype] at q1' d1'
    rw [x1 _ _ hz1] at q2 d2
    rw [x1 _ _ hz1', hr.dtype] at q2' d2'
    have ua : a'.Before later a := ⟨by rw [s1'.label_eq, s1.label_eq], d1'.trans d1.symm, fun names v hv => by
      rw [Larry.Has, s1'.label_eq] at hv
      rw [Larry.Has, s1.label_eq]
      exact reindexed_before h q1' q1 hv⟩
    have ub : b'.Before later b := ⟨by rw [s2'.label_eq, s2.label_eq], d2'.trans d2.symm, fun names v hv => by
      rw [Larry.Has, s2'.label_eq] at hv
      rw [Larry.Has, s2.label_eq]
      exact reindexed_before hr q2' q2 hv⟩
    have key : ∀ {y z a b : Larry L}, y.ndim = z.ndim → mergeLoop (List.range y.ndim) y z = .ok (a, b) → y.dtype = z.dtype →
        a.dtype = b.dtype → ∃ w, merge y z true = .ok w ∧ w.label = a.label ∧ w.dtype = a.dtype ∧
          ∀ idx, InB a.x.shape idx → w.x.get idx =
            if presentVal z.dtype (b.x.get idx) then castSafe b.dtype a.dtype (b.x.get idx) else a.x.get idx := by
      intro y z a b hn e1 hd hab
      unfold merge
      rw [if_neg (by simpa using hn), e1]
      simp only [hd, ne_eq, not_true_eq_false, and_false, if_false, Bool.not_true, Bool.false_and, Bool.false_eq_true]
      split
      · rw [if_pos (by rw [hab]; unfold canCast; split <;> simp_all)]
        exact ⟨_, rfl, rfl, rfl, fun _ _ => rfl⟩
      · rename_i hany
        refine ⟨_, rfl, rfl, rfl, fun idx hidx => ?_⟩
        rw [if_neg]
        intro hp
        exact hany (anyAt_iff.mpr ⟨idx, hidx, hp⟩)
    obtain ⟨w, f1, f2, f3, f4⟩ := key hn e1 hd (by rw [d1, d2, hd])
    obtain ⟨w', f1', f2', f3', f4'⟩ := key (by omega) e1' (by rw [h.dtype, hr.dtype, hd]) (by rw [d1', d2', hd])
    rw [f1, f1']
    refine .ok ⟨by rw [f2', f2, ua.label], by rw [f3', f3, ua.dtype], ?_⟩
    rintro names v ⟨idx', hat', rfl⟩
    rw [f2'] at hat'
    have hin' : InB a'.x.shape idx' := by rw [s1'.valid.shape_eq]; exact At_inB hat'
    have hatb' : At b'.label idx' names := by rw [s2'.label_eq, ← s1'.label_eq]; exact hat'
    obtain ⟨idx, hat, hu⟩ := ua.cells names _ ⟨idx', hat', rfl⟩
    obtain ⟨idx2, hat2, hw⟩ := ub.cells names _ ⟨idx', hatb', rfl⟩
    have hin : InB a.x.shape idx := by rw [s1.valid.shape_eq]; exact At_inB hat
    have : idx2 = idx := At_unique s1.valid.nodup (by rw [s1.label_eq, ← s2.label_eq]; exact hat2) hat
    subst this
    refine ⟨idx2, by rw [f2]; exact hat, ?_⟩
    rw [f4 _ hin, f4' _ hin', hu, hw, hr.dtype, ua.dtype, ub.dtype]
  · rw [show merge y z true = .error .indexError by simp [merge, hn]]; exact .right

/-- Both outputs. -/
def BothBefore (later : L → Prop) [DecidablePred later] (p q : Larry L × Larry L) : Prop :=
  p.1.Before later q.1 ∧ p.2.Before later q.2

theorem align_before {y' y z' z : Larry L} (hy' : y'.Valid) (hy : y.Valid) (h : y'.Before later y) (hz' : z'.Valid) (hz : z.Valid)
    (hr : z'.Before later z) (hm : HasMarker y.dtype) (hm2 : HasMarker z.dtype)
    (hs : List.Forall₂ SameOrAscending y.label z.label) (join : JoinArg) (cast : Bool) :
    Res.Both (BothBefore later) (La.align y' z' join cast) (La.align y z join cast) := by
  have n1 := h.ndim hy' hy
  have n2 := hr.ndim hz' hz
  rintro ⟨p', q'⟩ ⟨p, q⟩ e2 e1
  obtain ⟨hn, js, hj⟩ := joinsFor_of e1
  have hj' : JoinsFor z'.ndim join js := n2 ▸ hj
  have hn' : y'.ndim = z'.ndim := by omega
  have hok : ∀ e, ¬ FailsAt y z js cast e := by
    intro e hf
    obtain ⟨e', h', _⟩ := C16_align_fails hy hz hn hj ⟨e, hf⟩
    rw [h'] at e1; simp at e1
  have hok' : ∀ e, ¬ FailsAt y' z' js cast e := by
    intro e hf
    obtain ⟨e', h', _⟩ := C16_align_fails hy' hz' hn' hj' ⟨e, hf⟩
    rw [h'] at e2; simp at e2
  obtain ⟨s, labs, r1, r2, a1, a2, a3, a4, -, -, -, a8, a9, a10, a11⟩ := alignRaw_ok hy hz hn hj hok
  obtain ⟨s', labs', r1', r2', a1', a2', a3', a4', -, -, -, a8', a9', a10', a11'⟩ := alignRaw_ok hy' hz' hn' hj' hok'
  unfold La.align at e1 e2
  rw [a1] at e1
  rw [a1'] at e2
  simp only [Except.ok.injEq, Prod.mk.injEq] at e1 e2
  rw [← a3, ← a4] at e1
  rw [← a3', ← a4'] at e2
  obtain ⟨rfl, rfl⟩ := e1
  obtain ⟨rfl, rfl⟩ := e2
  have x1 : ∀ {d : DType} {P : Prop}, HasMarker d → floatIf d P = d := by
    intro d P hu
    have : ¬ NoMarker d := fun h => h.elim hu.1 hu.2
    unfold floatIf
    rw [if_neg fun h => this h.1]
  rw [h.label, hr.label] at a2'
  obtain ⟨l1, l2⟩ := allJoined_before hs a2' a2
  subst l1 l2
  rw [x1 hm] at a8
  rw [x1 hm2] at a9
  rw [h.dtype, x1 hm] at a8'
  rw [hr.dtype, x1 hm2] at a9'
  rw [a8] at a10
  rw [a9] at a11
  rw [a8', h.dtype] at a10'
  rw [a9', hr.dtype] at a11'
  exact ⟨⟨rfl, a8'.trans a8.symm, fun names v hv => reindexed_before h a10' a10 hv⟩,
    ⟨rfl, a9'.trans a9.symm, fun names v hv => reindexed_before hr a11' a11 hv⟩⟩

theorem binaryop_before (cv : DType → Val → Val) (uf : UFunc2) {y' y z' z : Larry L} (hy' : y'.Valid) (hy : y.Valid)
    (h : y'.Before later y) (hz' : z'.Valid) (hz : z.Valid) (hr : z'.Before later z) (hm : HasMarker y.dtype)
    (hm2 : HasMarker z.dtype) (hs : List.Forall₂ SameOrAscending y.label z.label) {join : JoinArg} (hns : join.NoSkip) (cast : Bool)
    (m1 m2 : Option Val) :
    Res.Both (fun p q => (rawLarry p).Before later (rawLarry q)) (binaryop cv uf y' z' join cast m1 m2)
      (binaryop cv uf y z join cast m1 m2) := by
  cases e1 : La.align y z join cast with
  | error e => rw [C22_binaryop_align_error cv uf m1 m2 e1]; exact .right
  | ok p => cases e2 : La.align y' z' join cast with
    | error e => rw [C22_binaryop_align_error cv uf m1 m2 e2]; exact .left
    | ok p' =>
      obtain ⟨z1, z2⟩ := p
      obtain ⟨z1', z2'⟩ := p'
      obtain ⟨k1, k2⟩ := align_before hy' hy h hz' hz hr hm hm2 hs join cast _ _ e2 e1
      simp only at k1 k2
      cases hd : uf.dt z1.dtype z2.dtype with
      | error e => rw [binaryop_dtype_error hy hz hns e1 hd]; exact .right
      | ok d =>
        have hd' : uf.dt z1'.dtype z2'.dtype = .ok d := by rw [k1.dtype, k2.dtype]; exact hd
        obtain ⟨hn, js, hj⟩ := joinsFor_of e1
        obtain ⟨hn', js', hj'⟩ := joinsFor_of e2
        obtain ⟨x, f1, f2, f3, f4⟩ := C22_binaryop hy hz hn hj (noSkip_of hj hns) cv uf m1 m2 e1 hd
        obtain ⟨x', f1', f2', f3', f4'⟩ := C22_binaryop hy' hz' hn' hj' (noSkip_of hj' hns) cv uf m1 m2 e2 hd'
        have hl : ∀ (l : List (List L)), (l.map some).map (fun l => l.getD []) = l := fun l => by simp
        rw [f1, f1']
        refine .ok ⟨?_, rfl, fun names v hv => ?_⟩
        · show (z1'.label.map some).map _ = ((z1.label.map some).map _).map _
          rw [hl, hl]; exact k1.label
        · have g : Holds ((z1'.label.map some).map (fun l => l.getD [])) x' names v := hv
          show Holds ((z1.label.map some).map (fun l => l.getD [])) x names v
          rw [hl] at g ⊢
          rw [f4'] at g
          rw [f4]
          obtain ⟨u, w, p, q, b1, b2, b3, b4, rfl⟩ := g
          rw [k1.dtype, k2.dtype] at b3 b4
          exact ⟨u, w, p, q, k1.cells _ _ b1, k2.cells _ _ b2, b3, b4, rfl⟩

end
end Larry
end La
