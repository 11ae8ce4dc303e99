import Verif.ObjectArith
import Verif.Props.Core
import Verif.Props.Arith

/-!
# C126: arithmetic with larrys of Python objects
-/

namespace La
variable {L : Type _}
open Larry

/-! ## Specification -/

/-- `P names c`: at the labels `names` the computation comes to `c`, a value or an exception.  Either no cell raises and the result
is a well-formed object larry with these values and nothing else, or the exception of one of the cells escapes. -/
def CellByCell (r : Res (Larry L)) (Lab : List (List L) → Prop) (P : List L → Res Val → Prop) : Prop :=
  (∃ z, r = .ok z ∧ z.Valid ∧ z.dtype = .object ∧ Lab z.label ∧ (∀ names c, P names c → ∃ v, c = .ok v) ∧
    ∀ names v, z.Has names v ↔ P names (.ok v)) ∨
  ∃ e names, r = .error e ∧ P names (.error e)

/-- What `w op y` computes from an element `w` on the left and a cell `v` of the larry. -/
def PyOps.reflected (o : PyOps) (op : ArithOp) (w v : Val) : Res Val :=
  match op with
  | .add => o.bin .add v w
  | .mul => o.bin .mul v w
  | .sub => match o.bin .sub v w with
    | .ok d => o.neg d
    | .error e => .error e
  | op => o.bin op w v

/-! ## Arrays of results -/

theorem okOr_ok {c : Res Val} (h : ∃ v, c = .ok v) : c = .ok (okOr c) := by obtain ⟨v, rfl⟩ := h; rfl

theorem collect_spec (x : NDArray (Res Val)) :
    (collectRes x = .ok ⟨x.shape, fun i => okOr (x.get i)⟩ ∧ ∀ i, InB x.shape i → ∃ v, x.get i = .ok v) ∨
    ∃ e i, collectRes x = .error e ∧ InB x.shape i ∧ x.get i = .error e := by
  unfold collectRes
  cases h : mapRes (fun i => x.get i) (allIdx x.shape) with
  | error e =>
    obtain ⟨i, h1, h2⟩ := mapRes_error h
    exact .inr ⟨e, i, rfl, mem_allIdx.mp h1, h2⟩
  | ok vs =>
    refine .inl ⟨rfl, fun i hi => ?_⟩
    cases hx : x.get i with
    | ok v => exact ⟨v, rfl⟩
    | error e =>
      obtain ⟨e', h'⟩ := mapRes_error_of (f := fun i => x.get i) (mem_allIdx.mpr hi) hx
      rw [h] at h'
      cases h'

/-- A collected array with labels. -/
theorem collect_cells {label : List (List L)} {x : NDArray (Res Val)} (hv : ValidLabels label x.shape) {Lab : List (List L) → Prop}
    (hl : Lab label) {P : List L → Res Val → Prop} (hP : ∀ names c, P names c ↔ ∃ idx, At label idx names ∧ c = x.get idx)
    {r : Res (Larry L)} (hr : r = objLarry label (collectRes x)) : CellByCell r Lab P := by
  rcases collect_spec x with ⟨h1, h2⟩ | ⟨e, i, h1, h2, h3⟩
  · rw [h1] at hr
    refine .inl ⟨_, hr, hv, rfl, hl, fun names c h => ?_, fun names v => ?_⟩
    · obtain ⟨idx, hi, rfl⟩ := (hP names c).mp h
      exact h2 idx (hv.shape_eq ▸ At_inB hi)
    · rw [hP]
      constructor
      · rintro ⟨idx, hi, rfl⟩
        exact ⟨idx, hi, (okOr_ok (h2 idx (hv.shape_eq ▸ At_inB hi))).symm⟩
      · rintro ⟨idx, hi, h⟩
        exact ⟨idx, hi, by simp [← h, okOr]⟩
  · rw [h1] at hr
    rw [hv.shape_eq] at h2
    obtain ⟨names, hN⟩ := At_of_inB h2
    exact .inr ⟨e, names, hr, (hP _ _).mpr ⟨i, hN, h3.symm⟩⟩

section
variable [LinearOrder L]

/-! ## C126 -/

/-- C126. `a op b` for two larrys with as many axes: the labels are joined (inner join), and each cell is Python's `u op w` of the
cells of `a` and `b` at its labels, in this order; or the exception of such a pair escapes. -/
theorem C126_larrys {a b : Larry L} (ha : a.Valid) (hb : b.Valid) (hn : a.ndim = b.ndim) (f : Val → Val → Res Val) :
    CellByCell (a.objBinop f b) (Joined InnerJoined a.label b.label)
      (fun names c => ∃ u w, a.Has names u ∧ b.Has names w ∧ c = f u w) := by
  have key : ∀ (x y : NDArray Val) (r : List (List L)), Joined InnerJoined a.label b.label r → x.shape = r.map List.length →
      y.shape = r.map List.length → Reindexed a.label a.x r x id none → Reindexed b.label b.x r y id none →
      ∀ res, res = objLarry r (npObject f x y) → CellByCell res (Joined InnerJoined a.label b.label)
      (fun names c => ∃ u w, a.Has names u ∧ b.Has names w ∧ c = f u w) := by
    intro x y r hj hx hy hrx hry res hres
    obtain ⟨z, -, hz, hH⟩ := aligned_apply (a := a) (b := b) (uf := ⟨fun u _ => u, fun _ _ => .ok .object⟩) (d := .object) ha rfl hj hx
      hy hrx hry
    have hv : ValidLabels r x.shape := ⟨hx, hz.nodup, hz.ndim_pos⟩
    have hs : npObject f x y = collectRes ⟨x.shape, fun i => f (x.bget i) (y.bget i)⟩ := by
      simp only [npObject, hx.trans hy.symm, broadcastShape_self]
    have hcell : ∀ {idx names}, At r idx names → a.Has names (x.get idx) ∧ b.Has names (y.get idx) := by
      intro idx names hat
      constructor
      · obtain ⟨-, ⟨w, hw, he⟩ | ⟨-, hm⟩⟩ := (hrx names (x.get idx)).mp ⟨idx, hat, rfl⟩
        · rw [he]; exact hw
        · cases hm
      · obtain ⟨-, ⟨w, hw, he⟩ | ⟨-, hm⟩⟩ := (hry names (y.get idx)).mp ⟨idx, hat, rfl⟩
        · rw [he]; exact hw
        · cases hm
    rw [hs] at hres
    refine collect_cells (x := ⟨x.shape, fun i => f (x.bget i) (y.bget i)⟩) hv hj (fun names c => ?_) hres
    constructor
    · rintro ⟨u, w, hu, hw, rfl⟩
      obtain ⟨idx, hat, -⟩ := (hH names u).mpr ⟨u, w, hu, hw, rfl⟩
      have hB := At_inB hat
      obtain ⟨h1, h2⟩ := hcell hat
      refine ⟨idx, hat, ?_⟩
      simp only [bget_inB x (hx ▸ hB), bget_inB y (hy ▸ hB)]
      rw [Holds_unique ha.nodup hu h1, Holds_unique hb.nodup hw h2]
    · rintro ⟨idx, hat, rfl⟩
      have hB := At_inB hat
      obtain ⟨h1, h2⟩ := hcell hat
      exact ⟨_, _, h1, h2, by simp only [bget_inB x (hx ▸ hB), bget_inB y (hy ▸ hB)]⟩
  by_cases hl : a.label = b.label
  · refine key a.x b.x a.label (hl ▸ Joined.refl_inner a.label) ha.shape_eq (hl ▸ hb.shape_eq) ?_ ?_ _ (by
      simp only [objBinop]; rw [if_pos hl])
    · intro names v
      constructor
      · intro h; exact ⟨Named_of_Holds h, .inl ⟨v, h, rfl⟩⟩
      · rintro ⟨-, ⟨w, hw, rfl⟩ | ⟨-, h⟩⟩
        · exact hw
        · cases h
    · rw [hl]
      intro names v
      constructor
      · intro h; exact ⟨Named_of_Holds h, .inl ⟨v, h, rfl⟩⟩
      · rintro ⟨-, ⟨w, hw, rfl⟩ | ⟨-, h⟩⟩
        · exact hw
        · cases h
  · obtain ⟨x, y, r, h1, h2, h3, h4, h5, h6⟩ := align_spec ha hb hn
    exact key x y r h2 h3 h4 h5 h6 _ (by simp only [objBinop]; rw [if_neg hl, h1])

/-- C126. Larrys with different numbers of axes are refused. -/
theorem C126_ndim {a b : Larry L} (ha : a.Valid) (hb : b.Valid) (hn : a.ndim ≠ b.ndim) (f : Val → Val → Res Val) :
    a.objBinop f b = .error .indexError := by
  have hl : a.label ≠ b.label := fun h => hn (by rw [← ha.label_length, ← hb.label_length, h])
  simp [objBinop, hl, Larry.align, hn]

omit [LinearOrder L] in
theorem right_cells {y : Larry L} (hy : y.Valid) {other : NDArray Val} (hf : BFits y.shape other.shape) {x : NDArray (Res Val)}
    (F : Val → Val → Res Val) (hx : x = ⟨y.x.shape, fun i => F (y.x.bget i) (other.bget i)⟩) {r : Res (Larry L)}
    (hr : r = objLarry y.label (collectRes x)) :
    CellByCell r (· = y.label) (fun names c => ∃ idx idx', At y.label idx names ∧ BReads other.shape idx idx' ∧
      c = F (y.x.get idx) (other.get idx')) := by
  have hlen : other.shape.length ≤ y.x.shape.length := by
    obtain ⟨pre, post, h1, h2⟩ := hf
    have := h2.length_eq
    have h1 : y.x.shape = pre ++ post := h1
    rw [h1, List.length_append]; omega
  subst hx
  refine collect_cells (x := ⟨y.x.shape, fun i => F (y.x.bget i) (other.bget i)⟩) (Lab := (· = y.label)) hy rfl (fun names c => ?_) hr
  constructor
  · rintro ⟨idx, idx', hat, h1, rfl⟩
    have hb : InB y.x.shape idx := hy.shape_eq ▸ At_inB hat
    obtain ⟨idx'', h1', h2⟩ := bget_reads other (idx := idx) (by rw [InB_length hb]; exact hlen)
    exact ⟨idx, hat, by simp only [bget_inB y.x hb, h2, BReads_unique h1 h1']⟩
  · rintro ⟨idx, hat, rfl⟩
    have hb : InB y.x.shape idx := hy.shape_eq ▸ At_inB hat
    obtain ⟨idx', h1, h2⟩ := bget_reads other (idx := idx) (by rw [InB_length hb]; exact hlen)
    exact ⟨idx, idx', hat, h1, by simp only [bget_inB y.x hb, h2]⟩

omit [LinearOrder L] in
/-- C126. `y op other` for a scalar or an array that broadcasts to the shape of `y`: Python's `v op w` of the cell and the element
that broadcasting pairs with it. -/
theorem C126_right {y : Larry L} (hy : y.Valid) {other : NDArray Val} (hf : BFits y.shape other.shape) (f : Val → Val → Res Val) :
    CellByCell (y.objRight f other) (· = y.label) (fun names c => ∃ idx idx', At y.label idx names ∧ BReads other.shape idx idx' ∧
      c = f (y.x.get idx) (other.get idx')) := by
  refine right_cells hy hf f rfl ?_
  have hs := broadcastShape_fits hf
  simp only [shape] at hs
  simp only [objRight, npObject, hs]

omit [LinearOrder L] in
/-- C126. `-y`. -/
theorem C126_neg {y : Larry L} (hy : y.Valid) (f : Val → Res Val) :
    CellByCell (y.objNeg f) (· = y.label) (fun names c => ∃ v, y.Has names v ∧ c = f v) := by
  refine collect_cells (x := ⟨y.x.shape, fun i => f (y.x.get i)⟩) (Lab := (· = y.label)) hy rfl (fun names c => ?_) (by simp only [objNeg])
  constructor
  · rintro ⟨_, ⟨idx, hat, rfl⟩, rfl⟩; exact ⟨idx, hat, rfl⟩
  · rintro ⟨idx, hat, rfl⟩; exact ⟨_, ⟨idx, hat, rfl⟩, rfl⟩

omit [LinearOrder L] in
/-- C126. `other op y`: the cell `v` is added or multiplied from the left, `v + w` and `v * w`; it is subtracted as `-(v - w)`; it
divides as it should, `w / v` and `w // v`. -/
theorem C126_left {y : Larry L} (hy : y.Valid) {other : NDArray Val} (hf : BFits y.shape other.shape) (o : PyOps) (op : ArithOp) :
    CellByCell (y.objLeft o op other) (· = y.label) (fun names c => ∃ idx idx', At y.label idx names ∧
      BReads other.shape idx idx' ∧ c = o.reflected op (other.get idx') (y.x.get idx)) := by
  have hs := broadcastShape_fits hf
  simp only [shape] at hs
  have div : ∀ op', y.objLeft o op' other = objLarry y.label (npObject (o.bin op') other y.x) → (∀ w v, o.reflected op' w v = o.bin op' w v) →
      CellByCell (y.objLeft o op' other) (· = y.label) (fun names c => ∃ idx idx', At y.label idx names ∧
      BReads other.shape idx idx' ∧ c = o.reflected op' (other.get idx') (y.x.get idx)) := by
    intro op' h h'
    simp only [h']
    refine right_cells hy hf (fun v w => o.bin op' w v) rfl ?_
    rw [h]
    simp only [npObject, broadcastShape_comm other.shape, hs]
  cases op with
  | add => exact C126_right hy hf _
  | mul => exact C126_right hy hf _
  | sub =>
    rcases C126_right hy hf (o.bin .sub) with ⟨z, h1, h2, h3, h4, h5, h6⟩ | ⟨e, names, h1, idx, idx', h2, h3, h4⟩
    · have hd : ∀ {idx idx' names}, At y.label idx names → BReads other.shape idx idx' →
          ∃ v, o.bin .sub (y.x.get idx) (other.get idx') = .ok v ∧ z.Has names v := by
        intro idx idx' names k1 k2
        obtain ⟨v, hv⟩ := h5 names _ ⟨idx, idx', k1, k2, rfl⟩
        exact ⟨v, hv, (h6 names v).mpr ⟨idx, idx', k1, k2, hv.symm⟩⟩
      have hP : ∀ names c, (∃ v, z.Has names v ∧ c = o.neg v) ↔ ∃ idx idx', At y.label idx names ∧ BReads other.shape idx idx' ∧
          c = o.reflected .sub (other.get idx') (y.x.get idx) := by
        intro names c
        constructor
        · rintro ⟨v, hv, rfl⟩
          obtain ⟨idx, idx', k1, k2, k3⟩ := (h6 names v).mp hv
          exact ⟨idx, idx', k1, k2, by simp only [PyOps.reflected, ← k3]⟩
        · rintro ⟨idx, idx', k1, k2, rfl⟩
          obtain ⟨v, k3, k4⟩ := hd k1 k2
          exact ⟨v, k4, by simp only [PyOps.reflected, k3]⟩
      have hr : y.objLeft o .sub other = z.objNeg o.neg := by simp only [objLeft, h1]
      rw [hr]
      rcases C126_neg h2 o.neg with ⟨u, g1, g2, g3, g4, g5, g6⟩ | ⟨e, names, g1, g2⟩
      · exact .inl ⟨u, g1, g2, g3, g4.trans h4, fun names c h => g5 names c ((hP names c).mpr h), fun names v => (g6 names v).trans (hP _ _)⟩
      · exact .inr ⟨e, names, g1, (hP _ _).mp g2⟩
    · refine .inr ⟨e, names, ?_, idx, idx', h2, h3, ?_⟩
      · simp only [objLeft, h1]
      · simp only [PyOps.reflected, ← h4]
  | div => exact div .div rfl (fun _ _ => rfl)
  | truediv => exact div .truediv rfl (fun _ _ => rfl)
  | floordiv => exact div .floordiv rfl (fun _ _ => rfl)

omit [LinearOrder L] in
/-- C126. So `other op y` is Python's `w op v` in each cell as long as the elements that meet commute (`+`, `*`), or turning the
difference round changes its sign (`-`); for the divisions always. -/
theorem C126_left_sound {y : Larry L} (hy : y.Valid) {other : NDArray Val} (hf : BFits y.shape other.shape) (o : PyOps) (op : ArithOp)
    (hadd : op = .add ∨ op = .mul → ∀ w v, o.bin op v w = o.bin op w v)
    (hsub : op = .sub → ∀ w v, (o.bin .sub v w >>= o.neg) = o.bin .sub w v) :
    CellByCell (y.objLeft o op other) (· = y.label) (fun names c => ∃ idx idx', At y.label idx names ∧
      BReads other.shape idx idx' ∧ c = o.bin op (other.get idx') (y.x.get idx)) := by
  have h := C126_left hy hf o op
  have e : ∀ w v, o.reflected op w v = o.bin op w v := by
    intro w v
    cases op with
    | add => exact hadd (.inl rfl) w v
    | mul => exact hadd (.inr rfl) w v
    | sub =>
      rw [← hsub rfl w v]
      simp only [PyOps.reflected]
      cases o.bin .sub v w <;> rfl
    | div | truediv | floordiv => rfl
  simpa only [e] using h

end

/-! ## Cases -/

/-- Strings: `+` puts them together. -/
def textOps : PyOps where
  bin := fun op v w => match op, v, w with
    | .add, .str a, .str b => .ok (.str (a ++ b))
    | _, _, _ => .error .typeError
  neg := fun _ => .error .typeError

/-- Dates (`.obj` and the number of the day) and time spans in days (`.int`), as in Python's module datetime. -/
def dateOps : PyOps where
  bin := fun op v w => match op, v, w with
    | .sub, .obj a, .int k => .ok (.obj (Int.toNat (a - k)))
    | .sub, .obj a, .obj b => .ok (.int (a - b))
    | .sub, .int j, .int k => .ok (.int (j - k))
    | _, _, _ => .error .typeError
  neg := fun v => match v with
    | .int k => .ok (.int (-k))
    | _ => .error .typeError

/-- Two names. -/
def exNames : Larry Nat := ⟨.ofList [2] [.str "b", .str "c"], .object, [[4, 3]]⟩
/-- Two time spans. -/
def exSpans : Larry Nat := ⟨.ofList [2] [.int 1, .int 7], .object, [[4, 3]]⟩
/-- Two days. -/
def exDates : Larry Nat := ⟨.ofList [2] [.obj 30, .obj 40], .object, [[3, 4]]⟩

theorem exNames_valid : exNames.Valid := ⟨rfl, by decide, by decide⟩
theorem exSpans_valid : exSpans.Valid := ⟨rfl, by decide, by decide⟩
theorem exDates_valid : exDates.Valid := ⟨rfl, by decide, by decide⟩

theorem two_places {i : List Nat} (h : InB [2] i) : i = [0] ∨ i = [1] := by
  have h := mem_allIdx.mpr h
  have e : allIdx [2] = [[0], [1]] := by decide
  rw [e] at h
  simpa using h

/-- C126. `'a' + y` puts the `'a'` at the end of each string. -/
theorem C126_strings : ∃ z, exNames.objLeft textOps .add ⟨[], fun _ => .str "a"⟩ = .ok z ∧ z.Has [4] (.str "ba") ∧
    textOps.bin .add (.str "a") (.str "b") = .ok (.str "ab") := by
  have h := C126_left exNames_valid (other := ⟨[], fun _ => .str "a"⟩) (scalar_fits _) textOps .add
  rcases h with ⟨z, h1, -, -, -, -, h6⟩ | ⟨e, names, -, idx, idx', h2, -, h4⟩
  · exact ⟨z, h1, (h6 _ _).mpr ⟨[0], [], by simp [At, exNames], scalar_reads.mpr rfl, rfl⟩, rfl⟩
  · have key : ∀ i, InB [2] i → ∃ s, exNames.x.get i = .str s := by
      intro i hi
      rcases two_places hi with rfl | rfl
      · exact ⟨"b", rfl⟩
      · exact ⟨"c", rfl⟩
    obtain ⟨s, hs⟩ := key idx (At_inB h2)
    rw [hs] at h4
    cases h4

/-- C126. An array of dates minus a larry of time spans raises TypeError, although each date minus each time span is a date; with the
dates in a larry it works. -/
theorem C126_dates : exSpans.objLeft dateOps .sub ⟨[2], fun _ => .obj 30⟩ = .error .typeError ∧
    (∀ d k, ∃ v, dateOps.bin .sub (.obj d) (.int k) = .ok v) ∧
    ∃ z, exDates.objBinop (dateOps.bin .sub) exSpans = .ok z ∧ z.Has [3] (.obj 23) := by
  refine ⟨rfl, fun d k => ⟨_, rfl⟩, ?_⟩
  rcases C126_larrys exDates_valid exSpans_valid rfl (dateOps.bin .sub) with ⟨z, h1, -, -, -, -, h6⟩ | ⟨e, names, -, u, w, h2, h3, h4⟩
  · exact ⟨z, h1, (h6 _ _).mpr ⟨.obj 30, .int 7, ⟨[0], by simp [At, exDates], rfl⟩, ⟨[1], by simp [At, exSpans], rfl⟩, rfl⟩⟩
  · obtain ⟨i, hi, rfl⟩ := h2
    obtain ⟨j, hj, rfl⟩ := h3
    rcases two_places (At_inB hi) with rfl | rfl <;> rcases two_places (At_inB hj) with rfl | rfl <;> cases h4

end La
