import Verif.ParamMethods
import Verif.Props.Merge

/-!
# Joins and merges of corresponding larrys
-/

namespace La
variable {L : Type _} {R : Val → Val → Prop} {D : DType → Prop}

theorem fillMissing_rel (hR : FillsRelated R D) (cast : Bool) {x x' : NDArray Val} (hx : NDArray.Rel R x x') {d : DType} (hd : D d)
    (miss : List Nat) (ax : Nat) :
    Res.Agree (Larry.DataRel R D) (fillMissing cast x d miss ax) (fillMissing cast x' d miss ax) := by
  unfold fillMissing
  refine Res.Agree.ite Iff.rfl (fun _ => ?_) fun _ => ⟨hx, rfl, hd⟩
  cases hm : missingMarker d with
  | none =>
    obtain ⟨k1, k2, k3⟩ := (hR d hd).2 hm
    exact Res.Agree.ite Iff.rfl (fun _ => ⟨(hx.map k3).assignAx k2 _ _, rfl, k1⟩) fun _ => rfl
  | some mm => exact ⟨hx.assignAx ((hR d hd).1 _ hm) _ _, rfl, hd⟩

/-- The two arrays of `align_raw`, side by side. -/
structure AlignSt.Rel (R : Val → Val → Prop) (D : DType → Prop) (s t : AlignSt) : Prop where
  x1 : NDArray.Rel R s.x1 t.x1
  d1 : s.d1 = t.d1
  k1 : D s.d1
  x2 : NDArray.Rel R s.x2 t.x2
  d2 : s.d2 = t.d2
  k2 : D s.d2

section order
variable [LinearOrder L]

/-- The arrays are related and the labels the same. -/
def StepRel (R : Val → Val → Prop) (D : DType → Prop) {β : Type _} (p q : AlignSt × β) : Prop := p.1.Rel R D q.1 ∧ p.2 = q.2

theorem alignRawAxis_rel (hR : FillsRelated R D) (cast : Bool) (j : Join) (l1 l2 : List L) (ax : Nat) {s t : AlignSt}
    (h : s.Rel R D t) : Res.Agree (StepRel R D) (alignRawAxis cast j l1 l2 ax s) (alignRawAxis cast j l1 l2 ax t) := by
  unfold alignRawAxis
  cases j with
  | inner =>
    refine Res.Agree.ite Iff.rfl (fun _ => ⟨h, rfl⟩) fun _ => ?_
    simp only
    cases listmap l1 (pySorted (setInter l1 l2)) with
    | error e => exact rfl
    | ok i1 =>
      simp only
      cases listmap l2 (pySorted (setInter l1 l2)) with
      | error e => exact rfl
      | ok i2 =>
        simp only
        rcases (h.x1.take (i1.map Int.ofNat) ax).cases with ⟨x1, x2, h1, h2, h3⟩ | ⟨e, h1, h2⟩
        · rw [h1, h2]
          simp only
          rcases (h.x2.take (i2.map Int.ofNat) ax).cases with ⟨w1, w2, k1, k2, k3⟩ | ⟨e, k1, k2⟩
          · rw [k1, k2]; exact ⟨⟨h3, h.d1, h.k1, k3, h.d2, h.k2⟩, rfl⟩
          · rw [k1, k2]; exact rfl
        · rw [h1, h2]; exact rfl
  | outer =>
    refine Res.Agree.ite Iff.rfl (fun _ => ⟨h, rfl⟩) fun _ => ?_
    simp only
    generalize listmapFill l1 (pySorted (setUnion l1 l2)) 0 = m1
    generalize listmapFill l2 (pySorted (setUnion l1 l2)) 0 = m2
    rcases (h.x1.take m1.1 ax).cases with ⟨x1, x2, h1, h2, h3⟩ | ⟨e, h1, h2⟩
    · rw [h1, h2]
      simp only
      rcases (h.x2.take m2.1 ax).cases with ⟨w1, w2, k1, k2, k3⟩ | ⟨e, k1, k2⟩
      · rw [k1, k2]
        simp only
        rw [← h.d1, ← h.d2]
        rcases (fillMissing_rel hR cast h3 h.k1 m1.2 ax).cases with ⟨p, q, h1, h2, p1, p2, p3⟩ | ⟨e, h1, h2⟩
        · rw [h1, h2]
          simp only
          rcases (fillMissing_rel hR cast k3 h.k2 m2.2 ax).cases with ⟨u, v, h1, h2, u1, u2, u3⟩ | ⟨e, h1, h2⟩
          · rw [h1, h2]; exact ⟨⟨p1, p2, p3, u1, u2, u3⟩, rfl⟩
          · rw [h1, h2]; exact rfl
        · rw [h1, h2]; exact rfl
      · rw [k1, k2]; exact rfl
    · rw [h1, h2]; exact rfl
  | left =>
    refine Res.Agree.ite Iff.rfl (fun _ => ⟨h, rfl⟩) fun _ => ?_
    simp only
    generalize listmapFill l2 l1 0 = m2
    rcases (h.x2.take m2.1 ax).cases with ⟨w1, w2, k1, k2, k3⟩ | ⟨e, k1, k2⟩
    · rw [k1, k2]
      simp only
      rw [← h.d2]
      rcases (fillMissing_rel hR cast k3 h.k2 m2.2 ax).cases with ⟨u, v, h1, h2, u1, u2, u3⟩ | ⟨e, h1, h2⟩
      · rw [h1, h2]; exact ⟨⟨h.x1, h.d1, h.k1, u1, u2, u3⟩, rfl⟩
      · rw [h1, h2]; exact rfl
    · rw [k1, k2]; exact rfl
  | right =>
    refine Res.Agree.ite Iff.rfl (fun _ => ⟨h, rfl⟩) fun _ => ?_
    simp only
    generalize listmapFill l1 l2 0 = m1
    rcases (h.x1.take m1.1 ax).cases with ⟨w1, w2, k1, k2, k3⟩ | ⟨e, k1, k2⟩
    · rw [k1, k2]
      simp only
      rw [← h.d1]
      rcases (fillMissing_rel hR cast k3 h.k1 m1.2 ax).cases with ⟨u, v, h1, h2, u1, u2, u3⟩ | ⟨e, h1, h2⟩
      · rw [h1, h2]; exact ⟨⟨u1, u2, u3, h.x2, h.d2, h.k2⟩, rfl⟩
      · rw [h1, h2]; exact rfl
    · rw [k1, k2]; exact rfl
  | skip => exact ⟨h, rfl⟩
  | other => exact rfl

theorem alignRawLoop_rel (hR : FillsRelated R D) (cast : Bool) (ls : List (Join × List L × List L)) (ax : Nat) {s t : AlignSt}
    (h : s.Rel R D t) : Res.Agree (StepRel R D) (alignRawLoop cast ls ax s) (alignRawLoop cast ls ax t) := by
  induction ls generalizing ax s t with
  | nil => exact ⟨h, rfl⟩
  | cons p ls ih =>
    obtain ⟨j, l1, l2⟩ := p
    unfold alignRawLoop
    rcases (alignRawAxis_rel hR cast j l1 l2 ax h).cases with ⟨⟨s1, lab1⟩, ⟨t1, lab2⟩, h1, h2, h3, h4⟩ | ⟨e, h1, h2⟩
    · rw [h1, h2]
      simp only
      rcases (ih (ax + 1) h3).cases with ⟨⟨s2, labs1⟩, ⟨t2, labs2⟩, k1, k2, k3, k4⟩ | ⟨e, k1, k2⟩
      · rw [k1, k2]; exact ⟨k3, by simp only at h4 k4 ⊢; rw [h4, k4]⟩
      · rw [k1, k2]; exact rfl
    · rw [h1, h2]; exact rfl

theorem alignRaw_rel (hR : FillsRelated R D) {y z y' z' : Larry L} (h : y.Rel R D z) (h' : y'.Rel R D z') (join : JoinArg)
    (cast : Bool) : Res.Agree (StepRel R D) (alignRaw y y' join cast) (alignRaw z z' join cast) := by
  unfold alignRaw
  rw [← h.ndim, ← h'.ndim, ← h.label, ← h'.label]
  refine Res.Agree.ite Iff.rfl (fun _ => rfl) fun _ => ?_
  have hs : AlignSt.Rel R D ⟨y.x, y.dtype, true, y'.x, y'.dtype, true⟩ ⟨z.x, z.dtype, true, z'.x, z'.dtype, true⟩ :=
    ⟨h.x, h.dtype, h.known, h'.x, h'.dtype, h'.known⟩
  cases join with
  | one j => exact alignRawLoop_rel hR cast _ _ hs
  | many js => exact Res.Agree.ite Iff.rfl (fun _ => rfl) fun _ => alignRawLoop_rel hR cast _ _ hs

/-- Two results, side by side. -/
def BothRel (R : Val → Val → Prop) (D : DType → Prop) (p q : Larry L × Larry L) : Prop := p.1.Rel R D q.1 ∧ p.2.Rel R D q.2

theorem align_rel (hR : FillsRelated R D) {y z y' z' : Larry L} (h : y.Rel R D z) (h' : y'.Rel R D z') (join : JoinArg)
    (cast : Bool) : Res.Agree (BothRel R D) (align y y' join cast) (align z z' join cast) := by
  unfold align
  rcases (alignRaw_rel hR h h' join cast).cases with ⟨⟨s, l1⟩, ⟨t, l2⟩, h1, h2, h3, h4⟩ | ⟨e, h1, h2⟩
  · rw [h1, h2, ← h.label, ← h'.label]
    simp only at h4
    subst h4
    exact ⟨⟨rfl, h3.d1, h3.k1, h3.x1⟩, ⟨rfl, h3.d2, h3.k2, h3.x2⟩⟩
  · rw [h1, h2]; exact rfl

/-! ### `align_axis` -/

omit [LinearOrder L] in
theorem zip_rel {ys zs : List (Larry L)} (h : List.Forall₂ (Larry.Rel R D) ys zs) (axis : List Int) :
    List.Forall₂ (fun p q : Larry L × Int => p.1.Rel R D q.1 ∧ p.2 = q.2) (ys.zip axis) (zs.zip axis) := by
  induction h generalizing axis with
  | nil => simp
  | cons h1 _ ih =>
    cases axis with
    | nil => simp
    | cons a axis => exact .cons ⟨h1, rfl⟩ (ih axis)

omit [LinearOrder L] in
theorem alignAxisFold_rel (op : List L → List L → List L) {ps qs : List (Larry L × Int)}
    (h : List.Forall₂ (fun p q : Larry L × Int => p.1.Rel R D q.1 ∧ p.2 = q.2) ps qs) (acc : List L) :
    alignAxisFold op ps acc = alignAxisFold op qs acc := by
  induction h generalizing acc with
  | nil => rfl
  | @cons p q ps qs h1 _ ih =>
    obtain ⟨y, a⟩ := p
    obtain ⟨z, b⟩ := q
    obtain ⟨h1, h2⟩ := h1
    simp only at h1 h2
    subst h2
    unfold alignAxisFold
    rw [h1.label]
    split
    · rfl
    · exact ih _

omit [LinearOrder L] in
theorem drop_rel {ys zs : List (Larry L)} (h : List.Forall₂ (Larry.Rel R D) ys zs) (n : Nat) :
    List.Forall₂ (Larry.Rel R D) (ys.drop n) (zs.drop n) := by
  induction h generalizing n with
  | nil => simp
  | cons h1 h2 ih =>
    cases n with
    | zero => exact .cons h1 h2
    | succ n => exact ih n

omit [LinearOrder L] in
theorem getLast?_rel {ys zs : List (Larry L)} (h : List.Forall₂ (Larry.Rel R D) ys zs) :
    ys.getLast?.map Larry.label = zs.getLast?.map Larry.label := by
  have : ys.map Larry.label = zs.map Larry.label := by
    induction h with
    | nil => rfl
    | cons h1 _ ih => simp [h1.label, ih]
  rw [← List.getLast?_map, ← List.getLast?_map, this]

theorem alignAxisLabel_rel {ys zs : List (Larry L)} (h : List.Forall₂ (Larry.Rel R D) ys zs) (axis : List Int) (join : Join) :
    alignAxisLabel ys axis join = alignAxisLabel zs axis join := by
  have hg := getLast?_rel h
  have hf := fun op acc => alignAxisFold_rel (R := R) (D := D) op (zip_rel (drop_rel h 1) axis) acc
  unfold alignAxisLabel
  cases h with
  | nil => rfl
  | @cons y z ys zs h1 h2 =>
    simp only [List.head?_cons, hf]
    have hl := h1.label
    cases axis.head? with
    | none => rfl
    | some a0 =>
      simp only [hl]
      cases join with
      | right =>
        cases hy : (y :: ys).getLast? with
        | none => simp at hy
        | some u =>
          cases hz : (z :: zs).getLast? with
          | none => simp at hz
          | some w =>
            rw [hy, hz] at hg
            simp only [Option.map_some, Option.some.injEq] at hg
            cases axis.getLast? with
            | none => rfl
            | some a => simp only [hg]
      | _ => rfl

omit [LinearOrder L] in
theorem any_rel {ps qs : List (Larry L × Int)}
    (h : List.Forall₂ (fun p q : Larry L × Int => p.1.Rel R D q.1 ∧ p.2 = q.2) ps qs) :
    ps.any (fun p => p.2 ≥ p.1.ndim || p.2 < -(p.1.ndim : Int)) = qs.any (fun p => p.2 ≥ p.1.ndim || p.2 < -(p.1.ndim : Int)) := by
  induction h with
  | nil => rfl
  | cons h1 _ ih => rw [List.any_cons, List.any_cons, ih, h1.1.ndim, h1.2]

theorem alignAxisN_rel (hR : FillsRelated R D) {ys zs : List (Larry L)} (h : List.Forall₂ (Larry.Rel R D) ys zs) (axis : List Int)
    (join : Join) : Res.Agree (List.Forall₂ (Larry.Rel R D)) (alignAxisN ys axis join) (alignAxisN zs axis join) := by
  have hz := zip_rel h axis
  unfold alignAxisN
  refine Res.Agree.ite (by rw [h.length_eq]) (fun _ => rfl) fun _ => ?_
  refine Res.Agree.ite (by rw [any_rel hz]) (fun _ => rfl) fun _ => ?_
  refine Res.Agree.ite Iff.rfl (fun _ => rfl) fun _ => ?_
  rw [alignAxisLabel_rel h]
  cases alignAxisLabel zs axis join with
  | error e => exact rfl
  | ok label =>
    refine mapRes_agree ?_ hz
    intro p q hpq
    rw [hpq.2]
    exact Larry.morph_rel hR hpq.1 _ _

/-! ### `merge` -/

/-- What `R` and `D` must satisfy for `merge`: related elements are both present or both missing, and stay related when numpy
casts them. -/
def MergesRelated (R : Val → Val → Prop) (D : DType → Prop) : Prop :=
  ∀ d, D d → ∀ v w, R v w → presentVal d v = presentVal d w ∧
    ∀ e, D e → canCast d e = true → R (castSafe d e v) (castSafe d e w)

theorem mergeLoop_rel (hR : FillsRelated R D) (axs : List Nat) {y z y' z' : Larry L} (h : y.Rel R D z) (h' : y'.Rel R D z') :
    Res.Agree (BothRel R D) (mergeLoop axs y y') (mergeLoop axs z z') := by
  induction axs generalizing y z y' z' with
  | nil => exact ⟨h, h'⟩
  | cons ax axs ih =>
    unfold mergeLoop
    simp only [← h.label, ← h'.label]
    refine Res.Agree.ite Iff.rfl (fun _ => ih h h') fun _ => ?_
    generalize pySorted (setUnion (y.label.getD ax []) (y'.label.getD ax [])) = lab
    rcases (Larry.morph_rel hR h lab ax).cases with ⟨y1, z1, h1, h2, h3⟩ | ⟨e, h1, h2⟩
    · rw [h1, h2]
      simp only
      rcases (Larry.morph_rel hR h' lab ax).cases with ⟨y2, z2, k1, k2, k3⟩ | ⟨e, k1, k2⟩
      · rw [k1, k2]; exact ih h3 k3
      · rw [k1, k2]; exact rfl
    · rw [h1, h2]; exact rfl

theorem anyAt_congr {s : List Nat} {p q : List Nat → Bool} (h : ∀ idx, InB s idx → p idx = q idx) : anyAt s p = anyAt s q := by
  induction s generalizing p q with
  | nil => exact h [] trivial
  | cons n s ih =>
    unfold anyAt
    rw [Bool.eq_iff_iff]
    simp only [List.any_eq_true, List.mem_range]
    constructor
    · rintro ⟨i, hi, h1⟩
      exact ⟨i, hi, by rwa [← ih (p := fun is => p (i :: is)) (fun idx hidx => h (i :: idx) ⟨hi, hidx⟩)]⟩
    · rintro ⟨i, hi, h1⟩
      exact ⟨i, hi, by rwa [ih (p := fun is => p (i :: is)) (fun idx hidx => h (i :: idx) ⟨hi, hidx⟩)]⟩

theorem merge_rel (hR : FillsRelated R D) (hM : MergesRelated R D) {y z y' z' : Larry L} (hy : y.Valid) (hy' : y'.Valid)
    (h : y.Rel R D z) (h' : y'.Rel R D z') (update : Bool) :
    Res.Agree (Larry.Rel R D) (merge y y' update) (merge z z' update) := by
  unfold merge
  refine Res.Agree.ite (by rw [h.ndim, h'.ndim]) (fun _ => rfl) fun hn => ?_
  rw [← h.ndim]
  obtain ⟨tgt, y1, y2, -, h1, s1, s2⟩ := merge_sides hy hy' (not_not.mp hn)
  rcases (mergeLoop_rel hR (List.range y.ndim) h h').cases with ⟨⟨p1, p2⟩, ⟨q1, q2⟩, h2, h3, h4, h5⟩ | ⟨e, h2, h3⟩
  · rw [h1] at h2
    simp only [Except.ok.injEq, Prod.mk.injEq] at h2
    obtain ⟨rfl, rfl⟩ := h2
    rw [h1, h3]
    simp only at h4 h5 ⊢
    have hs : y1.x.shape = y2.x.shape := by rw [s1.valid.shape_eq, s2.valid.shape_eq, s1.label_eq, s2.label_eq]
    have hm1 : ∀ idx, InB y1.x.shape idx → presentVal y.dtype (y1.x.get idx) = presentVal y.dtype (q1.x.get idx) :=
      fun idx hi => (hM _ h.known _ _ (h4.x.2 idx hi)).1
    have hm2 : ∀ idx, InB y1.x.shape idx → presentVal y'.dtype (y2.x.get idx) = presentVal y'.dtype (q2.x.get idx) :=
      fun idx hi => (hM _ h'.known _ _ (h5.x.2 idx (hs ▸ hi))).1
    rw [← h.dtype, ← h'.dtype, ← h4.dtype, ← h5.dtype, ← h4.x.1]
    refine Res.Agree.ite Iff.rfl (fun _ => rfl) fun _ => ?_
    refine Res.Agree.ite ?_ (fun _ => rfl) fun _ => ?_
    · rw [anyAt_congr (s := y1.x.shape)
        (p := fun i => presentVal y.dtype (y1.x.get i) && presentVal y'.dtype (y2.x.get i))
        (q := fun i => presentVal y.dtype (q1.x.get i) && presentVal y'.dtype (q2.x.get i))
        (fun idx hi => by rw [hm1 idx hi, hm2 idx hi])]
    refine Res.Agree.ite (by rw [anyAt_congr hm2]) (fun _ => ?_) fun _ => h4
    refine Res.Agree.ite Iff.rfl (fun hc => ?_) fun _ => rfl
    refine ⟨h4.label, rfl, h4.known, rfl, fun idx hi => ?_⟩
    simp only at hi ⊢
    have hm := hm2 idx hi
    by_cases hp : presentVal y'.dtype (y2.x.get idx) = true
    · rw [if_pos hp, if_pos (hm ▸ hp)]
      exact (hM _ h5.known _ _ (h5.x.2 idx (hs ▸ hi))).2 _ h4.known hc
    · rw [if_neg hp, if_neg (hm ▸ hp)]
      exact h4.x.2 idx hi
  · rw [h1] at h2; simp at h2

end order
end La
