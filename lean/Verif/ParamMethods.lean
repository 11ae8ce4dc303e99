import Verif.Param
import Verif.ReorderJoin
import Verif.Flarry
import Verif.Reduce

/-!
# Methods on corresponding larrys give corresponding results and the same exceptions
-/

namespace La
variable {L : Type _} {R : Val → Val → Prop} {D : DType → Prop}

/-- What `R` and `D` must satisfy for a method that fills in missing markers. -/
def FillsRelated (R : Val → Val → Prop) (D : DType → Prop) : Prop :=
  ∀ d, D d → (∀ m, missingMarker d = some m → R m m) ∧
    (missingMarker d = none → D .float ∧ R (.flt .nan) (.flt .nan) ∧ ∀ v w, R v w → R v.toFloat w.toFloat)

/-- Two elementwise operations that take related elements to related elements. -/
structure UFunc2.Rel (R : Val → Val → Prop) (D : DType → Prop) (uf uf' : UFunc2) : Prop where
  f : ∀ a a' b b', R a a' → R b b' → R (uf.f a b) (uf'.f a' b')
  dt : ∀ d e, D d → D e → uf.dt d e = uf'.dt d e
  known : ∀ d e r, D d → D e → uf.dt d e = .ok r → D r

/-- Two reductions that take related lines to related elements. -/
structure Red.Rel (R : Val → Val → Prop) (D : DType → Prop) (r r' : Red) : Prop where
  f : ∀ l l', List.Forall₂ R l l' → R (r.f l) (r'.f l')
  dt : ∀ d, D d → r.dt d = r'.dt d
  known : ∀ d e, D d → r.dt d = .ok e → D e
  logical : r.logical = r'.logical
  default : r.default = r'.default
  default_rel : R r.default r.default
  fill : ∀ d v, D d → fillVal? (if r.logical then .bool else d) r.default = .ok v →
    R v v ∧ D (if r.logical then .bool else d)

theorem Res.Agree.ite {α β : Type _} {S : α → β → Prop} {p q : Prop} [Decidable p] [Decidable q] {a a' : Res α} {b b' : Res β}
    (h : p ↔ q) (h1 : p → Res.Agree S a b) (h2 : ¬p → Res.Agree S a' b') :
    Res.Agree S (if p then a else a') (if q then b else b') := by
  by_cases hp : p
  · rw [if_pos hp, if_pos (h.mp hp)]; exact h1 hp
  · rw [if_neg hp, if_neg (fun hq => hp (h.mpr hq))]; exact h2 hp

namespace Larry

@[elab_as_elim]
theorem Rel.elim {motive : Larry L → Larry L → Prop} {y z : Larry L} (h : y.Rel R D z)
    (H : ∀ s g g' d l, D d → NDArray.Rel R ⟨s, g⟩ ⟨s, g'⟩ → motive ⟨⟨s, g⟩, d, l⟩ ⟨⟨s, g'⟩, d, l⟩) : motive y z := by
  obtain ⟨⟨s, g⟩, d, l⟩ := y
  obtain ⟨⟨s', g'⟩, d', l'⟩ := z
  obtain ⟨h1, h2, h3, h4, h5⟩ := h
  simp only at h1 h2 h3 h4 h5
  subst h1 h2 h4
  exact H _ _ _ _ _ h3 ⟨rfl, h5⟩

theorem Rel.ndim {y z : Larry L} (h : y.Rel R D z) : y.ndim = z.ndim := by
  simp [Larry.ndim, NDArray.ndim, h.x.1]

theorem Rel.valid {y z : Larry L} (h : y.Rel R D z) (hy : y.Valid) : z.Valid := by
  have := hy
  unfold Larry.Valid at this ⊢
  rwa [← h.label, ← h.x.1]

theorem mk'_rel [DecidableEq L] {x x' : NDArray Val} (h : NDArray.Rel R x x') {d : DType} (hd : D d) (l : List (List L)) :
    Res.Agree (Larry.Rel R D) (mk' x d l) (mk' x' d l) := by
  unfold mk' NDArray.ndim
  rw [← h.1]
  split_ifs
  · exact rfl
  · exact rfl
  · exact rfl
  · exact ⟨rfl, rfl, hd, h⟩

theorem T_rel {y z : Larry L} (h : y.Rel R D z) : y.T.Rel R D z.T :=
  ⟨by simp [T, h.label], h.dtype, h.known, h.x.transpose⟩

theorem squeeze_rel {y z : Larry L} (h : y.Rel R D z) : y.squeeze.Rel R D z.squeeze :=
  ⟨by simp [squeeze, h.label, shape, h.x.1], h.dtype, h.known, h.x.squeeze⟩

theorem swapaxes_rel {y z : Larry L} (hy : y.Valid) (h : y.Rel R D z) (a b : Int) :
    Res.Agree (Larry.Rel R D) (y.swapaxes a b) (z.swapaxes a b) := by
  revert hy
  refine h.elim ?_
  intro s g g' d l hd hx hy
  have hl : l.length = s.length := hy.label_length
  unfold swapaxes
  simp only
  cases h1 : pyIdx l.length a with
  | none => exact rfl
  | some i =>
    cases h2 : pyIdx l.length b with
    | none => exact rfl
    | some j =>
      have hi := pyIdx_lt h1
      have hj := pyIdx_lt h2
      exact ⟨rfl, rfl, hd, hx.swapaxes (by simpa using hl ▸ hi) (by simpa using hl ▸ hj)⟩

theorem lag_rel {y z : Larry L} (h : y.Rel R D z) (nlag : Int) (axis : Option Int) :
    Res.Agree (Larry.Rel R D) (y.lag nlag axis) (z.lag nlag axis) := by
  refine h.elim ?_
  intro s g g' d l hd hx
  unfold lag
  cases axis with
  | none => exact rfl
  | some axis =>
    simp only
    split_ifs
    · exact ⟨rfl, rfl, hd, hx⟩
    · cases pyIdx l.length axis with
      | none => exact rfl
      | some ax =>
        simp only
        cases pySliceList (l.getD ax []) (lagSlices nlag).1 with
        | error e => exact rfl
        | ok lab =>
          simp only
          rcases (hx.sliceAx (lagSlices nlag).2 ax).cases with ⟨x1, x2, h1, h2, h3⟩ | ⟨e, h1, h2⟩
          · rw [h1, h2]; exact ⟨rfl, rfl, hd, h3⟩
          · rw [h1, h2]; exact rfl

theorem flipaxisLoop_rel (axs : List Int) {y z : Larry L} (h : y.Rel R D z) :
    Res.Agree (Larry.Rel R D) (flipaxisLoop axs y) (flipaxisLoop axs z) := by
  induction axs generalizing y z with
  | nil => exact h
  | cons axis axs ih =>
    refine h.elim ?_
    intro s g g' d l hd hx
    unfold flipaxisLoop
    simp only
    cases pyIdx l.length axis with
    | none => exact rfl
    | some ax =>
      simp only
      cases pySliceList (l.getD ax []) ⟨none, none, some (-1)⟩ with
      | error e => exact rfl
      | ok lab =>
        simp only
        rcases (hx.sliceAx ⟨none, none, some (-1)⟩ ax).cases with ⟨x1, x2, h1, h2, h3⟩ | ⟨e, h1, h2⟩
        · rw [h1, h2]; exact ih ⟨rfl, rfl, hd, h3⟩
        · rw [h1, h2]; exact rfl

theorem flipaxis_rel {y z : Larry L} (h : y.Rel R D z) (axis : Option Int) :
    Res.Agree (Larry.Rel R D) (y.flipaxis axis) (z.flipaxis axis) := by
  unfold flipaxis
  rw [h.ndim]
  exact flipaxisLoop_rel _ h

theorem maplabel_rel {y z : Larry L} (h : y.Rel R D z) (f : L → L) (axis : Option Int) :
    Res.Agree (Larry.Rel R D) (y.maplabel f axis) (z.maplabel f axis) := by
  refine h.elim ?_
  intro s g g' d l hd hx
  unfold maplabel
  cases axis with
  | none => exact ⟨rfl, rfl, hd, hx⟩
  | some axis =>
    simp only
    cases pyIdx l.length axis with
    | none => exact rfl
    | some ax => exact ⟨rfl, rfl, hd, hx⟩

theorem insertaxis_rel [DecidableEq L] {y z : Larry L} (h : y.Rel R D z) (axis : Option Int) (name : L) :
    Res.Agree (Larry.Rel R D) (y.insertaxis axis name) (z.insertaxis axis name) := by
  refine h.elim ?_
  intro s g g' d l hd hx
  unfold insertaxis
  cases axis with
  | none => exact rfl
  | some axis => exact mk'_rel (hx.expandDims axis) hd _

section order
variable [LinearOrder L]

theorem take_rel {y z : Larry L} (h : y.Rel R D z) (is : List Int) (axis : Int) :
    Res.Agree (Larry.Rel R D) (y.take is axis) (z.take is axis) := by
  refine h.elim ?_
  intro s g g' d l hd hx
  unfold take
  simp only
  cases pyIdx l.length axis with
  | none => exact rfl
  | some ax =>
    simp only
    cases pyItems (l.getD ax []) is with
    | error e => exact rfl
    | ok lab =>
      simp only
      split_ifs
      · exact rfl
      · rcases (hx.take is axis).cases with ⟨x1, x2, h1, h2, h3⟩ | ⟨e, h1, h2⟩
        · rw [h1, h2]; exact ⟨rfl, rfl, hd, h3⟩
        · rw [h1, h2]; exact rfl

private theorem keepLabel_eq (y : Larry L) {op : LabelOp L} (ho : op ≠ .unknown) (axis : Int) :
    y.keepLabel op (some axis) = if axis ≥ (y.x.shape.length : Int) then .error .indexError
      else match pyIdx y.label.length axis with
        | none => .error .indexError
        | some ax =>
          let idxlabel := (y.label.getD ax []).zipIdx.filter (fun p => op.test p.1)
          if idxlabel.length = 0 then .ok emptyLarry
          else .ok ⟨y.x.gather (idxlabel.map Prod.snd) ax, y.dtype, y.label.set ax (idxlabel.map Prod.fst)⟩ := by
  cases op <;> first
    | rfl
    | exact absurd rfl ho

theorem keepLabel_rel (hf : D .float) {y z : Larry L} (hy : y.Valid) (h : y.Rel R D z) (op : LabelOp L) (axis : Option Int) :
    Res.Agree (Larry.Rel R D) (y.keepLabel op axis) (z.keepLabel op axis) := by
  revert hy
  refine h.elim ?_
  intro s g g' d l hd hx hy
  have key : ∀ (op : LabelOp L) (ax : Nat), Res.Agree (Larry.Rel R D)
      (let idxlabel := (l.getD ax []).zipIdx.filter (fun p => op.test p.1)
       if idxlabel.length = 0 then .ok emptyLarry
       else .ok ⟨NDArray.gather ⟨s, g⟩ (idxlabel.map Prod.snd) ax, d, l.set ax (idxlabel.map Prod.fst)⟩)
      (let idxlabel := (l.getD ax []).zipIdx.filter (fun p => op.test p.1)
       if idxlabel.length = 0 then .ok emptyLarry
       else .ok ⟨NDArray.gather ⟨s, g'⟩ (idxlabel.map Prod.snd) ax, d, l.set ax (idxlabel.map Prod.fst)⟩) := by
    intro op ax
    simp only
    split_ifs
    · exact ⟨rfl, rfl, hf, rfl, fun idx hi => by
        exfalso
        cases idx with
        | nil => exact hi
        | cons i idx => exact absurd hi.1 (by simp)⟩
    · refine ⟨rfl, rfl, hd, hx.gather ?_⟩
      intro k hk
      obtain ⟨⟨a, k'⟩, hp, rfl⟩ := List.mem_map.mp hk
      have h1 := (List.mem_filter.mp hp).1
      have h2 := List.mem_zipIdx' h1
      have hs : s = l.map List.length := hy.shape_eq
      simp only [hs, List.getD_eq_getElem?_getD, List.getElem?_map]
      have h3 := h2.1
      simp only [List.getD_eq_getElem?_getD] at h3
      cases hl : l[ax]? <;> simp_all
  by_cases ho : op = .unknown
  · subst ho; exact rfl
  · cases axis with
    | none => cases op <;> exact rfl
    | some axis =>
      rw [keepLabel_eq _ ho, keepLabel_eq _ ho]
      by_cases hc : axis ≥ (s.length : Int)
      · rw [if_pos hc, if_pos hc]; exact rfl
      · rw [if_neg hc, if_neg hc]
        simp only
        cases pyIdx l.length axis with
        | none => exact rfl
        | some ax => exact key _ ax

theorem labelindex_rel {y z : Larry L} (h : y.Rel R D z) (name : L) (axis : Option Int) (exact : Bool) :
    y.labelindex name axis exact = z.labelindex name axis exact := by
  unfold labelindex
  rw [h.ndim, h.label]

theorem labelIdx_rel {y z : Larry L} (h : y.Rel R D z) (names : List L) : y.labelIdx names = z.labelIdx names := by
  unfold labelIdx
  rw [h.ndim]
  simp only [labelindex_rel h]

theorem get_rel {y z : Larry L} (h : y.Rel R D z) (names : List L) : Res.Agree R (y.get names) (z.get names) := by
  unfold get
  rw [labelIdx_rel h]
  cases z.labelIdx names with
  | error e => exact rfl
  | ok idx =>
    simp only [NDArray.item]
    rw [← h.x.1]
    split_ifs with hi
    · exact h.x.2 _ hi
    · exact rfl

theorem set_rel {y z : Larry L} (h : y.Rel R D z) (names : List L) {v w : Val} (hv : R v w) :
    Res.Agree (Larry.Rel R D) (y.set names v) (z.set names w) := by
  unfold set
  rw [labelIdx_rel h]
  cases z.labelIdx names with
  | error e => exact rfl
  | ok idx =>
    simp only
    rw [← h.x.1]
    split_ifs with hi
    · exact ⟨h.label, h.dtype, h.known, h.x.setItem hv idx⟩
    · exact rfl

theorem pull_rel {y z : Larry L} (h : y.Rel R D z) (name : L) (axis : Option Int) :
    Res.Agree (Out.Rel R D) (y.pull name axis) (z.pull name axis) := by
  have hli := fun a => labelindex_rel h name a true
  revert hli
  refine h.elim ?_
  intro s g g' d l hd hx hli
  unfold pull
  cases axis with
  | none => exact rfl
  | some axis =>
    simp only
    cases pyPop l axis with
    | error e => exact rfl
    | ok label =>
      simp only [hli]
      cases labelindex (⟨⟨s, g'⟩, d, l⟩ : Larry L) name (some axis) with
      | error e => exact rfl
      | ok idx =>
        simp only [ndim, NDArray.ndim]
        cases hax : pyIdx s.length axis with
        | none => exact rfl
        | some ax =>
          simp only
          split_ifs with h1 h2 h3 h3
          · exact rfl
          · have hp := hx.pick (pyIdx_lt hax) (by simpa using h1)
            refine hp.2 _ ?_
            rw [h2]; exact ⟨by omega, trivial⟩
          · exact absurd h2 h3
          · exact absurd h3 h2
          · have hp := hx.pick (pyIdx_lt hax) (by simpa using h1)
            rcases (mk'_rel (D := D) hp hd label).cases with ⟨x1, x2, h1, h2, h3⟩ | ⟨e, h1, h2⟩
            · rw [h1, h2]; exact h3
            · rw [h1, h2]; exact rfl

theorem nans_rel {d : DType} (hd : D d) (hR : FillsRelated R D) (s : List Nat) :
    Res.Agree (NDArray.Rel R) (nans s d) (nans s d) := by
  have := (hR d hd).1
  cases d <;> first
    | exact rfl
    | exact NDArray.Rel.full (this _ rfl) s

/-- The data part of `morph`. -/
private def morphData (x : NDArray Val) (d : DType) (m : List Int × List Nat) (ax : Nat) (axis : Int) : Res (NDArray Val × DType) :=
  if m.1.length = m.2.length then
    let shape := x.shape.set ax m.1.length
    let d := match missingMarker d with
      | none => DType.float
      | some _ => d
    match nans shape d with
    | .error e => .error e
    | .ok x => .ok (x, d)
  else
    match x.take m.1 axis with
    | .error e => .error e
    | .ok x =>
      if m.2.length > 0 then
        match missingMarker d with
        | none => .ok ((x.map Val.toFloat).assignAx m.2 ax (.flt .nan), .float)
        | some mm => .ok (x.assignAx m.2 ax mm, d)
      else .ok (x, d)

/-- Related data of the same dtype. -/
def DataRel (R : Val → Val → Prop) (D : DType → Prop) (p q : NDArray Val × DType) : Prop :=
  NDArray.Rel R p.1 q.1 ∧ p.2 = q.2 ∧ D p.2

private theorem morphData_rel (hR : FillsRelated R D) {x x' : NDArray Val} (hx : NDArray.Rel R x x') {d : DType} (hd : D d)
    (m : List Int × List Nat) (ax : Nat) (axis : Int) :
    Res.Agree (DataRel R D) (morphData x d m ax axis) (morphData x' d m ax axis) := by
  unfold morphData
  simp only [← hx.1]
  split_ifs with h1 h2
  · have hd' : D (match missingMarker d with | none => DType.float | some _ => d) := by
      cases hm : missingMarker d with
      | none => exact ((hR d hd).2 hm).1
      | some m => exact hd
    rcases (nans_rel hd' hR (x.shape.set ax m.1.length)).cases with ⟨x1, x2, h1, h2, h3⟩ | ⟨e, h1, h2⟩
    · obtain rfl : x1 = x2 := by simpa [h1] using h2
      rw [h1]; exact ⟨h3, rfl, hd'⟩
    · rw [h1]; exact rfl
  · rcases (hx.take m.1 axis).cases with ⟨x1, x2, h1, h2, h3⟩ | ⟨e, h1, h2⟩
    · rw [h1, h2]
      simp only
      cases hm : missingMarker d with
      | none =>
        obtain ⟨k1, k2, k3⟩ := (hR d hd).2 hm
        exact ⟨(h3.map k3).assignAx k2 _ _, rfl, k1⟩
      | some mm => exact ⟨h3.assignAx ((hR d hd).1 _ hm) _ _, rfl, hd⟩
    · rw [h1, h2]; exact rfl
  · rcases (hx.take m.1 axis).cases with ⟨x1, x2, h1, h2, h3⟩ | ⟨e, h1, h2⟩
    · rw [h1, h2]; exact ⟨h3, rfl, hd⟩
    · rw [h1, h2]; exact rfl

private theorem morph_eq (y : Larry L) (lab : List L) (axis : Int) :
    y.morph lab axis = if axis ≥ y.ndim then .error .indexError
      else match pyIdx y.label.length axis with
        | none => .error .indexError
        | some ax =>
          if y.label.getD ax [] = lab then .ok y
          else match morphData y.x y.dtype (listmapFill (y.label.getD ax []) lab) ax axis with
            | .error e => .error e
            | .ok (x, d) => if hasDup lab then .error .indexError else .ok ⟨x, d, y.label.set ax lab⟩ := rfl

theorem morph_rel (hR : FillsRelated R D) {y z : Larry L} (h : y.Rel R D z) (lab : List L) (axis : Int) :
    Res.Agree (Larry.Rel R D) (y.morph lab axis) (z.morph lab axis) := by
  refine h.elim ?_
  intro s g g' d l hd hx
  rw [morph_eq, morph_eq]
  simp only [ndim, NDArray.ndim]
  by_cases hc : axis ≥ (s.length : Int)
  · rw [if_pos hc, if_pos hc]; exact rfl
  · rw [if_neg hc, if_neg hc]
    cases pyIdx l.length axis with
    | none => exact rfl
    | some ax =>
      simp only
      by_cases h0 : l.getD ax [] = lab
      · rw [if_pos h0, if_pos h0]; exact ⟨rfl, rfl, hd, hx⟩
      · rw [if_neg h0, if_neg h0]
        rcases (morphData_rel hR hx hd (listmapFill (l.getD ax []) lab) ax axis).cases with
          ⟨⟨x1, d1⟩, ⟨x2, d2⟩, h1, h2, h3, h4, h5⟩ | ⟨e, h1, h2⟩
        · rw [h1, h2]
          simp only
          by_cases hdup : hasDup lab = true
          · rw [if_pos hdup, if_pos hdup]; exact rfl
          · rw [if_neg hdup, if_neg hdup]; exact ⟨rfl, h4, h5, h3⟩
        · rw [h1, h2]; exact rfl

omit [LinearOrder L] in
theorem getlabel_rel {y z : Larry L} (h : y.Rel R D z) (axis : Int) : y.getlabel axis = z.getlabel axis := by
  unfold getlabel
  rw [h.ndim, h.label]

theorem morphLikeLoop_rel (hR : FillsRelated R D) {lar lar' : Larry L} (hl : lar.Rel R D lar') (is : List Nat) {y z : Larry L}
    (h : y.Rel R D z) : Res.Agree (Larry.Rel R D) (morphLikeLoop lar is y) (morphLikeLoop lar' is z) := by
  induction is generalizing y z with
  | nil => exact h
  | cons i is ih =>
    unfold morphLikeLoop
    rw [getlabel_rel hl]
    cases lar'.getlabel i with
    | error e => exact rfl
    | ok l =>
      simp only
      rcases (morph_rel hR h l i).cases with ⟨x1, x2, h1, h2, h3⟩ | ⟨e, h1, h2⟩
      · rw [h1, h2]; exact ih h3
      · rw [h1, h2]; exact rfl

theorem morphLike_rel (hR : FillsRelated R D) {lar lar' : Larry L} (hl : lar.Rel R D lar') {y z : Larry L}
    (h : y.Rel R D z) : Res.Agree (Larry.Rel R D) (y.morphLike lar) (z.morphLike lar') := by
  unfold morphLike
  rw [h.ndim, hl.ndim]
  split_ifs
  · exact rfl
  · exact morphLikeLoop_rel hR hl _ h

theorem sortaxisLoop_rel (hR : FillsRelated R D) {self self' : Larry L} (hs : self.Rel R D self') (reverse : Bool) (axs : List Int)
    {y z : Larry L} (h : y.Rel R D z) :
    Res.Agree (Larry.Rel R D) (sortaxisLoop self reverse axs y) (sortaxisLoop self' reverse axs z) := by
  induction axs generalizing y z with
  | nil => exact h
  | cons ax axs ih =>
    unfold sortaxisLoop
    simp only [shape, hs.x.1, hs.label]
    cases pyGet self'.x.shape ax with
    | error e => exact rfl
    | ok n =>
      simp only
      split_ifs
      · cases pyGet self'.label ax with
        | error e => exact rfl
        | ok l =>
          simp only
          rcases (morph_rel hR h (sortedLab reverse l) ax).cases with ⟨x1, x2, h1, h2, h3⟩ | ⟨e, h1, h2⟩
          · rw [h1, h2]; exact ih h3
          · rw [h1, h2]; exact rfl
      · exact ih h

theorem sortaxis_rel (hR : FillsRelated R D) {y z : Larry L} (h : y.Rel R D z) (axis : Option Int) (reverse : Bool) :
    Res.Agree (Larry.Rel R D) (y.sortaxis axis reverse) (z.sortaxis axis reverse) := by
  unfold sortaxis
  rw [h.ndim]
  exact sortaxisLoop_rel hR h _ _ h

/-! ### Indexing -/

omit [LinearOrder L] in
theorem ofArray_rel {x x' : NDArray Val} (h : NDArray.Rel R x x') :
    GetOut.Rel R D (GetOut.ofArray x : GetOut L) (GetOut.ofArray x') := by
  unfold GetOut.ofArray
  rw [← h.1]
  split_ifs with h1
  · exact h.2 _ (by rw [h1]; trivial)
  · exact h

omit [LinearOrder L] in
theorem index_bind {x x' : NDArray Val} (h : NDArray.Rel R x x') (its : List NpItem) {f f' : NDArray Val → Res (GetOut L)}
    (hf : ∀ a b, NDArray.Rel R a b → Res.Agree (GetOut.Rel R D) (f a) (f' b)) :
    Res.Agree (GetOut.Rel R D) (match x.index its with | .error e => .error e | .ok a => f a)
      (match x'.index its with | .error e => .error e | .ok a => f' a) := by
  rcases (h.index its).cases with ⟨x1, x2, h1, h2, h3⟩ | ⟨e, h1, h2⟩
  · rw [h1, h2]; exact hf _ _ h3
  · rw [h1, h2]; exact rfl

theorem mk'_getOut {x x' : NDArray Val} (h : NDArray.Rel R x x') {d : DType} (hd : D d) (l : List (List L)) :
    Res.Agree (GetOut.Rel R D) (match mk' x d l with | .error e => .error e | .ok z => .ok (.larry z))
      (match mk' x' d l with | .error e => .error e | .ok z => .ok (.larry z)) := by
  rcases (mk'_rel (D := D) h hd l).cases with ⟨x1, x2, h1, h2, h3⟩ | ⟨e, h1, h2⟩
  · rw [h1, h2]; exact h3
  · rw [h1, h2]; exact rfl

theorem getitem_rel {y z : Larry L} (h : y.Rel R D z) (idx : Index L) :
    Res.Agree (GetOut.Rel R D) (y.getitem idx) (z.getitem idx) := by
  refine h.elim ?_
  intro s g g' d l hd hx
  cases idx with
  | tuple its =>
    simp only [getitem, getTuple, keepAll, shape, ndim, NDArray.ndim]
    split
    · exact rfl
    · refine index_bind hx _ ?_
      intro a b hab
      by_cases hi : its.all Item.isInt = true
      · rw [if_pos hi, if_pos hi]; exact ofArray_rel hab
      · rw [if_neg hi, if_neg hi]
        unfold make
        by_cases hv : its.any Item.isSeq = true
        · rw [if_pos hv, if_pos hv]; exact mk'_getOut hab hd _
        · rw [if_neg hv, if_neg hv]; exact ⟨rfl, rfl, hd, hab⟩
  | one it =>
    cases it with
    | int i =>
      simp only [getitem]
      refine Res.Agree.ite Iff.rfl (fun _ => rfl) fun _ => index_bind hx _ fun a b hab => ?_
      exact Res.Agree.ite Iff.rfl (fun _ => ofArray_rel hab) fun _ => ⟨rfl, rfl, hd, hab⟩
    | slice sl =>
      simp only [getitem]
      split
      · exact rfl
      · exact index_bind hx _ (fun a b hab => ⟨rfl, rfl, hd, hab⟩)
    | seq is =>
      simp only [getitem, getSeq]
      split
      · exact rfl
      · rename_i lab _
        by_cases hdup : hasDup lab = true
        · rw [if_pos hdup, if_pos hdup]; exact rfl
        · rw [if_neg hdup, if_neg hdup]
          rcases (hx.take is 0).cases with ⟨x1, x2, h1, h2, h3⟩ | ⟨e, h1, h2⟩
          · rw [h1, h2]; exact ⟨rfl, rfl, hd, h3⟩
          · rw [h1, h2]; exact rfl
    | mask bs =>
      simp only [getitem]
      split
      · exact rfl
      · exact index_bind hx _ (fun a b hab => ⟨rfl, rfl, hd, hab⟩)
    | lar m =>
      simp only [getitem]
      split
      · exact rfl
      · split
        · exact rfl
        · exact index_bind hx _ (fun a b hab => mk'_getOut hab hd _)
    | nd => exact rfl
    | other => exact rfl

theorem boundresolve_rel {y z : Larry L} (h : y.Rel R D z) (ax : Nat) (b : LBound L) : b.resolve y ax = b.resolve z ax := by
  unfold LBound.resolve
  simp only [labelindex_rel h]

theorem slicemaker_rel {y z : Larry L} (h : y.Rel R D z) (ax : Nat) (s : LSlice L) : slicemaker y ax s = slicemaker z ax s := by
  unfold slicemaker
  simp only [boundresolve_rel h]

theorem sel_rel {y z : Larry L} (h : y.Rel R D z) (ax : Nat) (it : LItem L) : it.sel y ax = it.sel z ax := by
  unfold LItem.sel
  simp only [slicemaker_rel h, h.label, shape, h.x.1]

theorem lixSel_rel {y z : Larry L} (h : y.Rel R D z) (its : List (LItem L)) : lixSel y its = lixSel z its := by
  unfold lixSel
  simp only [sel_rel h, h.ndim]

theorem lixOne_rel {y z : Larry L} (h : y.Rel R D z) (it : LItem L) : y.lixOne it = z.lixOne it := by
  unfold lixOne lixList
  simp only [slicemaker_rel h, h.label]

theorem ixIds_in {shape : List Nat} {index2 : List (List Int)} {ids : List (List Nat)} (hl : index2.length = shape.length)
    (h : ixIds shape index2 = .ok ids) : List.Forall₂ (fun l n => ∀ k ∈ l, k < n) ids shape := by
  unfold ixIds at h
  split_ifs at h
  rw [mapRes_ok] at h
  induction shape generalizing index2 ids with
  | nil => simp at h; subst h; exact .nil
  | cons n shape ih =>
    cases index2 with
    | nil => simp at hl
    | cons is index2 =>
      rw [List.zip_cons_cons] at h
      cases h with
      | cons h1 h2 => exact .cons (NDArray.mapRes_pyIdxE_lt h1) (ih (by simpa using hl) (by simp_all) h2)

theorem lixSel_length {y : Larry L} {its : List (LItem L)} {sels : List (List Int × Option (List L))} (h : lixSel y its = .ok sels) :
    sels.length = y.ndim := by
  unfold lixSel at h
  split_ifs at h with hl
  rw [mapRes_ok] at h
  have := h.length_eq
  simp at this
  omega

theorem lixGet_rel {y z : Larry L} (h : y.Rel R D z) (idx : LIndex L) :
    Res.Agree (GetOut.Rel R D) (y.lixGet idx) (z.lixGet idx) := by
  unfold lixGet
  have hs := h.x.1
  refine Res.Agree.ite (by simp [shape, hs]) (fun _ => h) fun _ => ?_
  refine Res.Agree.ite (by simp [shape, hs]) (fun _ => rfl) fun _ => ?_
  cases idx with
  | one it =>
    simp only [lixOne_rel h]
    cases z.lixOne it with
    | error e => exact rfl
    | ok it' => exact getitem_rel h _
  | tuple its =>
    simp only [← lixSel_rel h, shape, ← hs]
    cases hs : lixSel y its with
    | error e => exact rfl
    | ok sels =>
      simp only
      cases hi : ixIds y.x.shape (sels.map Prod.fst) with
      | error e => exact rfl
      | ok ids =>
        simp only
        have hg := (h.x.grid (ixIds_in (by rw [List.length_map]; exact lixSel_length hs) hi)).squeeze
        rw [← h.dtype]
        refine Res.Agree.ite (by rw [hg.1]) (fun h2 => hg.2 _ (by rw [h2]; trivial)) fun _ => mk'_getOut hg h.known _

/-! ### Two larrys -/

theorem npBinop_rel {uf uf' : UFunc2} (hu : uf.Rel R D uf') {x x' w w' : NDArray Val} (hx : NDArray.Rel R x x')
    (hw : NDArray.Rel R w w') {d e : DType} (hd : D d) (he : D e) :
    Res.Agree (DataRel R D) (npBinop uf x d w e) (npBinop uf' x' d w' e) := by
  unfold npBinop
  rw [← hu.dt d e hd he, ← hx.1, ← hw.1]
  cases hr : uf.dt d e with
  | error e => exact rfl
  | ok r =>
    simp only
    cases hs : broadcastShape x.shape w.shape with
    | error e => exact rfl
    | ok s =>
      refine ⟨⟨rfl, fun idx hi => ?_⟩, rfl, hu.known d e r hd he hr⟩
      obtain ⟨h1, h2⟩ := NDArray.InB_bget hs hi
      have k1 := hx.2 _ h1
      have k2 := hw.2 _ h2
      simp only [NDArray.bget]
      rw [← hx.1, ← hw.1]
      exact hu.f _ _ _ _ k1 k2

/-- Two pairs of aligned arrays and the labels. -/
def PairRel (R : Val → Val → Prop) (p q : NDArray Val × NDArray Val × List (List L)) : Prop :=
  NDArray.Rel R p.1 q.1 ∧ NDArray.Rel R p.2.1 q.2.1 ∧ p.2.2 = q.2.2

theorem alignLoop_rel (ls : List (List L × List L)) (ax : Nat) {x x' w w' : NDArray Val} (hx : NDArray.Rel R x x')
    (hw : NDArray.Rel R w w') : Res.Agree (PairRel R) (alignLoop ls ax x w) (alignLoop ls ax x' w') := by
  induction ls generalizing ax x x' w w' with
  | nil => exact ⟨hx, hw, rfl⟩
  | cons p ls ih =>
    obtain ⟨a, b⟩ := p
    unfold alignLoop
    by_cases hab : a = b
    · rw [if_pos hab, if_pos hab]
      rcases (ih (ax + 1) hx hw).cases with ⟨⟨p1, p2, p3⟩, ⟨q1, q2, q3⟩, h1, h2, h3, h4, h5⟩ | ⟨e, h1, h2⟩
      · rw [h1, h2]; exact ⟨h3, h4, by simpa using h5⟩
      · rw [h1, h2]; exact rfl
    · rw [if_neg hab, if_neg hab]
      simp only
      cases listmap a (pySorted (setInter a b)) with
      | error e => exact rfl
      | ok ids =>
        simp only
        cases listmap b (pySorted (setInter a b)) with
        | error e => exact rfl
        | ok ido =>
          simp only
          rcases (hx.take (ids.map Int.ofNat) ax).cases with ⟨x1, x2, h1, h2, h3⟩ | ⟨e, h1, h2⟩
          · rw [h1, h2]
            simp only
            rcases (hw.take (ido.map Int.ofNat) ax).cases with ⟨w1, w2, k1, k2, k3⟩ | ⟨e, k1, k2⟩
            · rw [k1, k2]
              simp only
              rcases (ih (ax + 1) h3 k3).cases with ⟨⟨p1, p2, p3⟩, ⟨q1, q2, q3⟩, h1, h2, h3, h4, h5⟩ | ⟨e, h1, h2⟩
              · rw [h1, h2]; exact ⟨h3, h4, by simpa using h5⟩
              · rw [h1, h2]; exact rfl
            · rw [k1, k2]; exact rfl
          · rw [h1, h2]; exact rfl

theorem align_rel {y z y' z' : Larry L} (h : y.Rel R D z) (h' : y'.Rel R D z') :
    Res.Agree (PairRel R) (align y y') (align z z') := by
  unfold align
  rw [← h.ndim, ← h'.ndim, ← h.label, ← h'.label]
  split_ifs
  · exact rfl
  · exact alignLoop_rel _ _ h.x h'.x

theorem compare_rel {uf uf' : UFunc2} (hu : uf.Rel R D uf') {y z y' z' : Larry L} (h : y.Rel R D z) (h' : y'.Rel R D z') :
    Res.Agree (Larry.Rel R D) (compare uf y y') (compare uf' z z') := by
  unfold compare
  rcases (align_rel h h').cases with ⟨⟨p1, p2, p3⟩, ⟨q1, q2, q3⟩, h1, h2, h3, h4, h5⟩ | ⟨e, h1, h2⟩
  · rw [h1, h2]
    simp only
    simp only at h3 h4 h5
    rw [← h.dtype, ← h'.dtype]
    rcases (npBinop_rel hu h3 h4 h.known h'.known).cases with ⟨⟨x1, d1⟩, ⟨x2, d2⟩, h1, h2, h3, h4, h6⟩ | ⟨e, h1, h2⟩
    · rw [h1, h2]; exact ⟨h5, h4, h6, h3⟩
    · rw [h1, h2]; exact rfl
  · rw [h1, h2]; exact rfl

omit [LinearOrder L] in
theorem binopArray_rel {uf uf' : UFunc2} (hu : uf.Rel R D uf') {y z : Larry L} (h : y.Rel R D z) {x x' : NDArray Val}
    (hx : NDArray.Rel R x x') {d : DType} (hd : D d) :
    Res.Agree (Larry.Rel R D) (binopArray uf y x d) (binopArray uf' z x' d) := by
  unfold binopArray
  rw [← h.dtype, ← h.label]
  rcases (npBinop_rel hu h.x hx h.known hd).cases with ⟨⟨x1, d1⟩, ⟨x2, d2⟩, h1, h2, h3, h4, h6⟩ | ⟨e, h1, h2⟩
  · rw [h1, h2]; exact ⟨rfl, h4, h6, h3⟩
  · rw [h1, h2]; exact rfl

theorem binop_rel {uf uf' : UFunc2} (hu : uf.Rel R D uf') {y z y' z' : Larry L} (h : y.Rel R D z) (h' : y'.Rel R D z') :
    Res.Agree (Larry.Rel R D) (binop uf y y') (binop uf' z z') := by
  unfold binop
  rw [← h.label, ← h'.label]
  by_cases hl : y.label = y'.label
  · rw [if_pos hl, if_pos hl]
    have := binopArray_rel hu h h'.x h'.known
    unfold binopArray at this
    rw [← h.label] at this
    rw [← h'.dtype]
    exact this
  · rw [if_neg hl, if_neg hl]
    exact compare_rel hu h h'

end order

/-! ### Reductions -/

theorem reduce_rel {r r' : Red} (hr : r.Rel R D r') {y z : Larry L} (h : y.Rel R D z) (axis : Option Int) :
    Res.Agree (Out.Rel R D) (y.reduce r axis) (z.reduce r' axis) := by
  have hv := h.x.vals
  revert hv
  refine h.elim ?_
  intro s g g' d l hd hx hv
  unfold reduce
  simp only [size, NDArray.size, shape, ndim, NDArray.ndim, ← hr.default, ← hr.logical, ← hr.dt d hd]
  refine Res.Agree.ite Iff.rfl (fun _ => ?_) fun _ => ?_
  · cases axis with
    | none => exact hr.default_rel
    | some axis =>
      simp only
      cases pyPop s axis with
      | error e => exact rfl
      | ok shape =>
        refine Res.Agree.ite Iff.rfl (fun _ => hr.default_rel) fun _ => ?_
        cases hfv : fillVal? (if r.logical then .bool else d) r.default with
        | error e => exact rfl
        | ok v =>
          simp only
          cases pyPop l axis with
          | error e => exact rfl
          | ok label =>
            obtain ⟨k1, k2⟩ := hr.fill d v hd hfv
            exact ⟨rfl, rfl, k2, NDArray.Rel.full k1 _⟩
  · cases hdt : r.dt d with
    | error e => exact rfl
    | ok e =>
      simp only
      cases axis with
      | none => exact hr.f _ _ hv
      | some axis =>
        simp only
        cases hax : pyIdx s.length axis with
        | none => exact rfl
        | some ax =>
          simp only
          have hq := hx.reduceAx (S := R) hr.f (ax := ax) (pyIdx_lt hax)
          refine Res.Agree.ite (by rw [hq.1]) (fun h1 => hq.2 _ (by rw [List.length_eq_zero_iff.mp h1]; trivial)) fun _ => ?_
          cases pyPop l axis with
          | error e => exact rfl
          | ok label => exact ⟨rfl, rfl, hr.known d e hd hdt, hq⟩

end Larry
end La
