import Verif.NegSkip
import Verif.Props.Normalize

/-!
C122: a negative skip of `movingsum_forward` counts from the end, or raises.
-/

namespace La
open Larry
variable {L : Type _}

theorem length_cumGo {α : Type _} (f : α → α → α) (a : α) (l : List α) : (cumGo f a l).length = l.length := by
  induction l generalizing a with
  | nil => rfl
  | cons v l ih => simp [cumGo, ih]

theorem sliceList_length {α : Type _} (start : Int) (stop : Option Int) (cs : List α) : (sliceList start stop cs).length =
    min (sliceStop cs.length stop) cs.length - sliceBound cs.length start := by
  simp [sliceList]

theorem bcastSub_same {α : Type _} (sub : α → α → α) {a b : List α} (h : a.length = b.length) :
    bcastSub sub a b = .ok (List.zipWith sub a b) := if_pos h

theorem bcastTo_same {α : Type _} {n : Nat} {vs : List α} (h : vs.length = n) : bcastTo n vs = .ok vs := if_pos h

theorem bcastSub_error {α : Type _} (sub : α → α → α) {a b : List α} (h : a.length ≠ b.length) (ha : a.length ≠ 1) (hb : b.length ≠ 1) :
    bcastSub sub a b = .error .valueError := by
  unfold bcastSub
  rw [if_neg h]
  rcases a with _ | ⟨x, _ | ⟨x', a⟩⟩ <;> rcases b with _ | ⟨y, _ | ⟨y', b⟩⟩ <;> simp_all

theorem bcastTo_error {α : Type _} {n : Nat} {vs : List α} (h : vs.length ≠ n) (h1 : vs.length ≠ 1) : bcastTo n vs = .error .valueError := by
  unfold bcastTo
  rw [if_neg h]
  rcases vs with _ | ⟨v, _ | ⟨v', vs⟩⟩ <;> simp_all

/-- The slices are those of a skip that is not negative. -/
theorem windowDiffAny_eq {α : Type _} (sub : α → α → α) {window : Nat} (hw : 1 ≤ window) {skip : Int} {s : Nat} (cs : List α)
    (hs : skip = s ∨ (skip = (s : Int) - cs.length ∧ s + window ≤ cs.length ∧ skip < 0)) :
    windowDiffAny sub window skip cs = .ok (windowDiff sub window s cs) := by
  have e1 : sliceList ((window : Int) - 1) (if skip = 0 then none else some (-skip)) cs = (cs.take (cs.length - s)).drop (window - 1) := by
    unfold sliceList
    have a1 : sliceBound cs.length ((window : Int) - 1) = min (window - 1) cs.length := by
      unfold sliceBound; rw [if_neg (by omega)]; congr 1; omega
    have a2 : sliceStop cs.length (if skip = 0 then none else some (-skip)) = cs.length - s := by
      by_cases h0 : skip = 0
      · rw [if_pos h0]; dsimp only [sliceStop]; omega
      · rw [if_neg h0]
        dsimp only [sliceStop]
        unfold sliceBound
        rcases hs with h | ⟨h, h', h''⟩
        · rw [if_pos (by omega)]; omega
        · rw [if_neg (by omega)]; omega
    rw [a1, a2]
    by_cases h : window - 1 ≤ cs.length
    · rw [min_eq_left h]
    · rw [min_eq_right (by omega), List.drop_eq_nil_of_le (by simp), List.drop_eq_nil_of_le (by simp; omega)]
  have e2 : sliceList 0 (some (-(window : Int) - skip)) cs = cs.take (cs.length - (window + s)) := by
    unfold sliceList
    have a1 : sliceBound cs.length 0 = 0 := by simp [sliceBound]
    rw [a1, List.drop_zero]
    dsimp only [sliceStop]
    congr 1
    unfold sliceBound
    rcases hs with h | ⟨h, h', h''⟩
    · rw [if_pos (by omega)]; omega
    · rw [if_neg (by omega)]; omega
  unfold windowDiffAny
  simp only [e1, e2]
  have hl : ((List.drop 1 (List.drop (window - 1) (List.take (cs.length - s) cs)))).length = (cs.take (cs.length - (window + s))).length := by
    simp only [List.length_drop, List.length_take]
    omega
  rw [bcastSub_same sub hl]
  dsimp only
  rw [bcastTo_same (by rw [List.length_zipWith, hl, min_self])]
  rfl

theorem keep_eq {n window : Nat} (hw : 1 ≤ window) {skip : Int} {s : Nat} (hs : skip = s ∨ (skip = (s : Int) - n ∧ s + window ≤ n ∧ skip < 0)) :
    sliceBound n (skip + window - 1) = min n (s + window - 1) := by
  unfold sliceBound
  rcases hs with h | ⟨h, h', h''⟩
  · rw [if_neg (by omega)]; omega
  · rw [if_pos (by omega)]; omega

theorem movingsumAnyLine_eq (d : DType) {window : Nat} (hw : 1 ≤ window) {skip : Int} {s : Nat} (norm : Bool) (vs : List Val)
    (hs : skip = s ∨ (skip = (s : Int) - vs.length ∧ s + window ≤ vs.length ∧ skip < 0)) :
    movingsumAnyLine d window skip norm vs = .ok (movingsumLine d window s norm vs) := by
  unfold movingsumAnyLine movingsumLine
  dsimp only
  generalize hc : cumGo Flt.add (.fin 0) _ = csx
  generalize hm : cumGo (· + ·) (0 : ℚ) _ = csm
  have l1 : csx.length = vs.length := by rw [← hc, length_cumGo]; simp
  have l2 : csm.length = vs.length := by rw [← hm, length_cumGo]; simp
  rw [windowDiffAny_eq Flt.sub hw csx (by rw [l1]; exact hs), windowDiffAny_eq (· - ·) hw csm (by rw [l2]; exact hs)]
  dsimp only
  rw [keep_eq hw hs, bcastTo_same (by
    rw [List.length_zipWith, windowDiff_length _ _ _ _ hw, windowDiff_length _ _ _ _ hw, l1, l2]; omega)]
  dsimp only
  congr 3
  

theorem forwardAnyLine_eq (d : DType) {window : Nat} (hw : 1 ≤ window) {skip : Int} {s : Nat} (norm : Bool) (vs : List Val)
    (hs : skip = s ∨ (skip = (s : Int) - vs.length ∧ s + window ≤ vs.length ∧ skip < 0)) :
    movingsumForwardAnyLine d window skip norm vs = .ok (movingsumForwardLine d window s norm vs) := by
  unfold movingsumForwardAnyLine
  rw [movingsumAnyLine_eq d hw norm vs.reverse (by rw [List.length_reverse]; exact hs)]
  rfl

/-- The skips below `-len` that are not refused: the window is the whole axis, and the skip is one below, or the axis has length one. -/
def Corner (n : Nat) (window skip : Int) : Prop := window = n ∧ skip < -(n : Int) ∧ (skip = -(n : Int) - 1 ∨ n = 1)

theorem windowDiffAny_corner {α : Type _} (sub : α → α → α) {skip : Int} (cs : List α) (hn : 1 ≤ cs.length)
    (hs : skip < -(cs.length : Int)) (hs' : skip = -(cs.length : Int) - 1 ∨ cs.length = 1) :
    windowDiffAny sub cs.length skip cs = .ok (windowDiff sub cs.length 0 cs) := by
  have e1 : sliceList ((cs.length : Int) - 1) (if skip = 0 then none else some (-skip)) cs = cs.drop (cs.length - 1) := by
    unfold sliceList
    rw [if_neg (by omega)]
    have a1 : sliceBound cs.length ((cs.length : Int) - 1) = cs.length - 1 := by
      unfold sliceBound; rw [if_neg (by omega)]; omega
    have a2 : sliceStop cs.length (some (-skip)) = cs.length := by
      dsimp only [sliceStop]; unfold sliceBound; rw [if_neg (by omega)]; omega
    rw [a1, a2, List.take_length]
  have l2 : (sliceList 0 (some (-(cs.length : Int) - skip)) cs).length = 1 := by
    rw [sliceList_length]
    dsimp only [sliceStop]
    unfold sliceBound
    rw [if_neg (by omega), if_neg (by omega)]
    omega
  have e3 : (List.drop 1 (cs.drop (cs.length - 1))) = [] := by
    rw [List.drop_drop, List.drop_eq_nil_of_le (by omega)]
  obtain ⟨v, hv⟩ := List.length_eq_one_iff.mp l2
  unfold windowDiffAny windowDiff
  simp only [e1, hv, e3, Nat.sub_zero, List.take_length]
  simp [bcastSub, bcastTo]

theorem windowDiffAny_error {α : Type _} (sub : α → α → α) {window : Nat} (hw : 1 ≤ window) {skip : Int} (cs : List α) (hn : window ≤ cs.length)
    (hs : skip < -(cs.length : Int)) (hc : ¬ Corner cs.length window skip) :
    windowDiffAny sub window skip cs = .error .valueError := by
  have l1 : (List.drop 1 (sliceList ((window : Int) - 1) (if skip = 0 then none else some (-skip)) cs)).length = cs.length - window := by
    rw [if_neg (by omega), List.length_drop, sliceList_length]
    dsimp only [sliceStop]
    unfold sliceBound
    rw [if_neg (by omega), if_neg (by omega)]
    omega
  have l2 : (sliceList 0 (some (-(window : Int) - skip)) cs).length = min (-(window : Int) - skip).toNat cs.length := by
    rw [sliceList_length]
    dsimp only [sliceStop]
    unfold sliceBound
    rw [if_neg (by omega), if_neg (by omega)]
    omega
  have l3 : (sliceList 0 (some (-(window : Int) - skip)) cs).length ≠ 1 := by
    rw [l2]
    unfold Corner at hc
    omega
  unfold windowDiffAny
  dsimp only
  generalize hA : List.drop 1 (sliceList ((window : Int) - 1) (if skip = 0 then none else some (-skip)) cs) = A at l1 ⊢
  generalize hB : sliceList 0 (some (-(window : Int) - skip)) cs = B at l2 l3 ⊢
  have hne : A.length ≠ B.length := by rw [l1, l2]; omega
  by_cases h1 : A.length = 1
  · obtain ⟨x, rfl⟩ := List.length_eq_one_iff.mp h1
    have : bcastSub sub [x] B = .ok (B.map fun y => sub x y) := by
      unfold bcastSub
      rw [if_neg hne]
      rcases B with _ | ⟨y, _ | ⟨y', b⟩⟩ <;> simp_all
    rw [this]
    dsimp only
    rw [bcastTo_error (by rw [List.length_map]; exact fun h => hne h.symm) (by rw [List.length_map]; exact l3)]
  · rw [bcastSub_error sub hne h1 l3]

/-- With a skip between `-window` and zero either the subtraction is refused or nothing is left. -/
theorem windowDiffAny_small {α : Type _} (sub : α → α → α) {window : Nat} {skip : Int} (cs : List α) (hn : window ≤ cs.length)
    (hs : skip < 0) (hw : -(window : Int) < skip) :
    windowDiffAny sub window skip cs = .error .valueError ∨ windowDiffAny sub window skip cs = .ok [] := by
  have l1 : sliceList ((window : Int) - 1) (if skip = 0 then none else some (-skip)) cs = [] := by
    apply List.eq_nil_of_length_eq_zero
    rw [if_neg (by omega), sliceList_length]
    dsimp only [sliceStop]
    unfold sliceBound
    rw [if_neg (by omega), if_neg (by omega)]
    omega
  have l2 : (sliceList 0 (some (-(window : Int) - skip)) cs).length = (-(window : Int) - skip + cs.length).toNat := by
    rw [sliceList_length]
    dsimp only [sliceStop]
    unfold sliceBound
    rw [if_pos (by omega), if_neg (by omega)]
    omega
  unfold windowDiffAny
  simp only [l1, List.drop_nil, List.take_nil, List.length_nil, List.nil_append]
  generalize hB : sliceList 0 (some (-(window : Int) - skip)) cs = B at l2 ⊢
  rcases B with _ | ⟨y, _ | ⟨y', b⟩⟩
  · simp [bcastSub, bcastTo]
  · simp [bcastSub, bcastTo]
  · simp [bcastSub]

theorem movingsumAnyLine_error (d : DType) {window : Nat} (hw : 1 ≤ window) {skip : Int} (norm : Bool) (vs : List Val) (hn : window ≤ vs.length)
    (hs : (skip < 0 ∧ -(window : Int) < skip) ∨ (skip < -(vs.length : Int) ∧ ¬ Corner vs.length window skip)) :
    movingsumAnyLine d window skip norm vs = .error .valueError := by
  unfold movingsumAnyLine
  dsimp only
  generalize hc : cumGo Flt.add (.fin 0) _ = csx
  generalize hm : cumGo (· + ·) (0 : ℚ) _ = csm
  have l1 : csx.length = vs.length := by rw [← hc, length_cumGo]; simp
  have l2 : csm.length = vs.length := by rw [← hm, length_cumGo]; simp
  rcases hs with ⟨h0, h1⟩ | ⟨h0, h1⟩
  · rcases windowDiffAny_small Flt.sub csx (by omega) h0 h1 with e | e
    · rw [e]
    rw [e]
    dsimp only
    rcases windowDiffAny_small (· - ·) csm (by omega) h0 h1 with e | e
    · rw [e]
    rw [e]
    dsimp only
    rw [bcastTo_error]
    · simp only [List.zipWith_nil_left, List.length_nil]
      unfold sliceBound
      rw [if_neg (by omega)]
      omega
    · simp
  · rw [windowDiffAny_error Flt.sub hw csx (by omega) (by omega) (by rw [l1]; exact h1)]

theorem forwardAnyLine_error (d : DType) {window : Nat} (hw : 1 ≤ window) {skip : Int} (norm : Bool) (vs : List Val) (hn : window ≤ vs.length)
    (hs : (skip < 0 ∧ -(window : Int) < skip) ∨ (skip < -(vs.length : Int) ∧ ¬ Corner vs.length window skip)) :
    movingsumForwardAnyLine d window skip norm vs = .error .valueError := by
  unfold movingsumForwardAnyLine
  rw [movingsumAnyLine_error d hw norm vs.reverse (by simpa using hn) (by simpa using hs)]

/-- In the corner the moving sum of the whole line is written to two places. -/
theorem movingsumAnyLine_corner (d : DType) {skip : Int} (norm : Bool) (vs : List Val) (hn : 1 ≤ vs.length) (h : Corner vs.length vs.length skip) :
    ∃ v, movingsumLine d vs.length 0 norm vs = List.replicate (vs.length - 1) (.flt .nan) ++ [v] ∧
      movingsumAnyLine d vs.length skip norm vs = .ok (List.replicate (vs.length - 2) (.flt .nan) ++ List.replicate (min vs.length 2) v) := by
  obtain ⟨_, h1, h2⟩ := h
  unfold movingsumAnyLine movingsumLine
  dsimp only
  generalize hc : cumGo Flt.add (.fin 0) _ = csx
  generalize hm : cumGo (· + ·) (0 : ℚ) _ = csm
  have l1 : csx.length = vs.length := by rw [← hc, length_cumGo]; simp
  have l2 : csm.length = vs.length := by rw [← hm, length_cumGo]; simp
  have e1 := windowDiffAny_corner (skip := skip) Flt.sub csx (by omega) (by rw [l1]; exact h1) (by rw [l1]; exact h2)
  have e2 := windowDiffAny_corner (skip := skip) (· - ·) csm (by omega) (by rw [l2]; exact h1) (by rw [l2]; exact h2)
  rw [l1] at e1
  rw [l2] at e2
  rw [e1, e2]
  dsimp only
  have g1 : (windowDiff Flt.sub vs.length 0 csx).length = 1 := by rw [windowDiff_length _ _ _ _ hn, l1]; omega
  have g2 : (windowDiff (fun a b : ℚ => a - b) vs.length 0 csm).length = 1 := by rw [windowDiff_length _ _ _ _ hn, l2]; omega
  obtain ⟨a, ha⟩ := List.length_eq_one_iff.mp g1
  obtain ⟨b, hb⟩ := List.length_eq_one_iff.mp g2
  have ek : sliceBound vs.length (skip + vs.length - 1) = vs.length - 2 := by
    unfold sliceBound
    rw [if_pos (by omega)]
    omega
  have e3 : min vs.length (0 + vs.length - 1) = vs.length - 1 := by omega
  rw [ha, hb, ek, e3]
  simp only [List.zipWith_cons_cons, List.zipWith_nil_left]
  refine ⟨_, rfl, ?_⟩
  have : vs.length - (vs.length - 2) = min vs.length 2 := by omega
  rw [this]
  by_cases h1 : vs.length = 1
  · rw [bcastTo_same (by simp [h1])]
    simp [h1]
  · have : ∀ v : Flt, bcastTo (min vs.length 2) [v] = .ok (List.replicate (min vs.length 2) v) := fun v => by
      unfold bcastTo
      rw [if_neg (by simp; omega)]
    rw [this]
    simp

theorem forwardAnyLine_corner (d : DType) {skip : Int} (norm : Bool) (vs : List Val) (hn : 1 ≤ vs.length) (h : Corner vs.length vs.length skip) :
    ∃ v, movingsumForwardLine d vs.length 0 norm vs = v :: List.replicate (vs.length - 1) (.flt .nan) ∧
      movingsumForwardAnyLine d vs.length skip norm vs = .ok (List.replicate (min vs.length 2) v ++ List.replicate (vs.length - 2) (.flt .nan)) := by
  have hr : vs.reverse.length = vs.length := List.length_reverse
  obtain ⟨v, e1, e2⟩ := movingsumAnyLine_corner d norm vs.reverse (by rw [hr]; exact hn) (by rw [hr]; exact h)
  rw [hr] at e1 e2
  refine ⟨v, ?_, ?_⟩
  · unfold movingsumForwardLine
    rw [e1]
    simp
  · unfold movingsumForwardAnyLine
    rw [e2]
    simp

theorem along_same_len {y : Larry L} {f g : List Val → List Val} {d : DType} {ax : Nat}
    (h : ∀ vs, vs.length = y.shape.getD ax 0 → f vs = g vs) : y.along f d ax = y.along g d ax := by
  unfold Larry.along NDArray.mapLines
  congr 2
  funext idx
  rw [h _ (line_length _ _ _)]

/-- C122. A skip that is not negative: what C51 is about. -/
theorem C122_refines (y : Larry L) (window : Int) (skip : Nat) (axis : Int) (norm : Bool) :
    y.movingsumForwardAny window skip axis norm = y.movingsumForward window skip axis norm := by
  unfold movingsumForwardAny movingsumForward
  cases hax : pyIdx y.ndim axis with
  | none => rfl
  | some ax =>
    dsimp only
    by_cases h1 : window < 1
    · rw [if_pos h1, if_pos h1]
    rw [if_neg h1, if_neg h1]
    by_cases h2 : window > y.shape.getD ax 0
    · rw [if_pos h2, if_pos h2]
    rw [if_neg h2, if_neg h2]
    by_cases h3 : skip > y.shape.getD ax 0
    · rw [if_pos h3, if_pos (by omega)]
    rw [if_neg h3, if_neg (by omega)]
    split
    · rfl
    · obtain ⟨w, rfl⟩ := Int.eq_ofNat_of_zero_le (show 0 ≤ window by omega)
      rw [forwardAnyLine_eq (s := skip) .float (by omega) norm _ (.inl rfl)]
      dsimp only
      congr 1
      refine along_same_len fun vs _ => ?_
      rw [lineOr, forwardAnyLine_eq (s := skip) y.dtype (by omega) norm _ (.inl rfl)]
      rfl

/-- C122. A skip from `-len` to `-window` counts from the end of the axis, as an index does: `len` is added to it. -/
theorem C122_from_the_end {y : Larry L} (hv : y.Valid) {axis : Int} {ax : Nat} (hax : pyIdx y.ndim axis = some ax)
    {l : List L} (hl : y.label[ax]? = some l) {window skip : Int} (norm : Bool) (h1 : -(l.length : Int) ≤ skip) (h2 : skip ≤ -window) :
    y.movingsumForwardAny window skip axis norm = y.movingsumForward window (skip + l.length).toNat axis norm := by
  have hsh : y.shape.getD ax 0 = l.length := by simp [Larry.shape, hv.shape_eq, hl]
  unfold movingsumForwardAny movingsumForward
  rw [hax]
  dsimp only
  rw [hsh]
  by_cases hw : window < 1
  · rw [if_pos hw, if_pos hw]
  rw [if_neg hw, if_neg hw, if_neg (show ¬ window > (l.length : Int) by omega), if_neg (show ¬ window > (l.length : Int) by omega),
    if_neg (show ¬ skip > (l.length : Int) by omega), if_neg (show ¬ (skip + l.length).toNat > l.length by omega)]
  split
  · rfl
  · obtain ⟨w, rfl⟩ := Int.eq_ofNat_of_zero_le (show 0 ≤ window by omega)
    rw [forwardAnyLine_eq (s := (skip + l.length).toNat) .float (by omega) norm _ (.inr (by rw [List.length_replicate]; omega))]
    dsimp only
    congr 1
    refine along_same_len fun vs hvs => ?_
    rw [hsh] at hvs
    rw [lineOr, forwardAnyLine_eq (s := (skip + l.length).toNat) y.dtype (by omega) norm _ (.inr (by rw [hvs]; omega))]
    rfl

/-- C122. So the result at `t` is about the `window` elements that start at `t + len + skip`: there are such windows, and they are
not the ones the caller may have had in mind. -/
theorem C122_windows {y : Larry L} (hv : y.Valid) (hd : y.dtype ≠ .str ∧ y.dtype ≠ .object) {axis : Int} {ax : Nat}
    (hax : pyIdx y.ndim axis = some ax) {l : List L} (hl : y.label[ax]? = some l) {window : Nat} {skip : Int} (norm : Bool)
    (hw : 1 ≤ window) (h1 : -(l.length : Int) ≤ skip) (h2 : skip ≤ -window) :
    ∃ z, y.movingsumForwardAny window skip axis norm = .ok z ∧ z.dtype = .float ∧
      y.AlongLine z ax (fun vs ws => NoInf (vs.map Val.num) → (y.dtype = .float ∨ ∀ v ∈ vs, v.num ≠ .nan) →
        MovingSum window (skip + l.length).toNat norm vs ws) := by
  rw [C122_from_the_end hv hax hl norm h1 h2]
  refine C51_movingsum_forward hv hd hax norm hw fun l' hl' => ?_
  obtain rfl : l = l' := by rw [hl] at hl'; exact Option.some.inj hl'
  omega

/-- C122. A skip between `-window` and zero is refused, and so is one below `-len`, but for a corner. -/
theorem C122_errors {y : Larry L} (hv : y.Valid) (hd : y.dtype ≠ .str ∧ y.dtype ≠ .object) {axis : Int} {ax : Nat}
    (hax : pyIdx y.ndim axis = some ax) {l : List L} (hl : y.label[ax]? = some l) {window skip : Int} (norm : Bool)
    (hw : 1 ≤ window) (hn : window ≤ l.length)
    (h : (skip < 0 ∧ -window < skip) ∨ (skip < -(l.length : Int) ∧ ¬ Corner l.length window skip)) :
    y.movingsumForwardAny window skip axis norm = .error .valueError := by
  have hd' : y.dtype.isNumeric = true := by cases h : y.dtype <;> simp_all [DType.isNumeric]
  have hsh : y.shape.getD ax 0 = l.length := by simp [Larry.shape, hv.shape_eq, hl]
  unfold movingsumForwardAny
  rw [hax]
  dsimp only
  rw [hsh, if_neg (by omega), if_neg (by omega), if_neg (by omega), if_neg (by simp [hd'])]
  obtain ⟨w, rfl⟩ := Int.eq_ofNat_of_zero_le (show 0 ≤ window by omega)
  rw [forwardAnyLine_error .float (by omega) norm _ (by rw [List.length_replicate]; omega) (by rw [List.length_replicate]; exact h)]

/-- A line whose first two elements are about the whole line. -/
def TwiceTotal (norm : Bool) (vs ws : List Val) : Prop :=
  ws.length = vs.length ∧ ∀ (t : Nat) w, ws[t]? = some w →
    (2 ≤ t → w = .flt .nan) ∧
    (finites (vs.map Val.num) = [] → w = .flt .nan) ∧
    (t < 2 → finites (vs.map Val.num) ≠ [] → w = .flt (.fin (if norm then (vs.length : ℚ) * (finites (vs.map Val.num)).sum /
        (finites (vs.map Val.num)).length else (finites (vs.map Val.num)).sum)))

theorem corner_spec {d : DType} {skip : Int} (norm : Bool) {vs : List Val} (hn : 1 ≤ vs.length) (h : Corner vs.length vs.length skip)
    (hinf : NoInf (vs.map Val.num)) (hnan : d = .float ∨ ∀ v ∈ vs, v.num ≠ .nan) :
    TwiceTotal norm vs (lineOr (movingsumForwardAnyLine d vs.length skip norm) vs) := by
  obtain ⟨v, e1, e2⟩ := forwardAnyLine_corner d norm vs hn h
  obtain ⟨_, hs⟩ := movingsumForwardLine_spec (d := d) (window := vs.length) (skip := 0) norm (vs := vs) hn hinf hnan
  obtain ⟨_, s2, s3⟩ := hs 0 v (by rw [e1]; rfl)
  have ew : windowAt vs 0 0 vs.length = vs.map Val.num := by
    unfold windowAt
    rw [Nat.zero_add, List.drop_zero, List.take_of_length_le (by simp)]
  rw [ew] at s2 s3
  rw [lineOr, e2]
  dsimp only
  refine ⟨by simp; omega, fun t w hw => ?_⟩
  by_cases ht : t < min vs.length 2
  · rw [List.getElem?_append_left (by simpa using ht), List.getElem?_replicate, if_pos ht] at hw
    obtain rfl := Option.some.inj hw
    exact ⟨fun h => by omega, fun h => s2 (by omega) h, fun _ h => s3 (by omega) h⟩
  · rw [List.getElem?_append_right (by simp only [List.length_replicate]; omega), List.getElem?_replicate] at hw
    split at hw
    · rename_i h2
      obtain rfl := Option.some.inj hw
      simp only [List.length_replicate] at h2
      exact ⟨fun _ => rfl, fun _ => rfl, fun h => by omega⟩
    · cases hw

/-- C122. In the corner nothing is refused: the moving sum of the whole line is there twice. -/
theorem C122_corner {y : Larry L} (hv : y.Valid) (hd : y.dtype ≠ .str ∧ y.dtype ≠ .object) {axis : Int} {ax : Nat}
    (hax : pyIdx y.ndim axis = some ax) {l : List L} (hl : y.label[ax]? = some l) {window skip : Int} (norm : Bool)
    (hw : 1 ≤ window) (h : Corner l.length window skip) :
    ∃ z, y.movingsumForwardAny window skip axis norm = .ok z ∧ z.dtype = .float ∧
      y.AlongLine z ax (fun vs ws => NoInf (vs.map Val.num) → (y.dtype = .float ∨ ∀ v ∈ vs, v.num ≠ .nan) → TwiceTotal norm vs ws) := by
  have hd' : y.dtype.isNumeric = true := by cases h : y.dtype <;> simp_all [DType.isNumeric]
  have hsh : y.shape.getD ax 0 = l.length := by simp [Larry.shape, hv.shape_eq, hl]
  have h' := h
  obtain ⟨rfl, hs, hs'⟩ := h
  have hr : (List.replicate l.length (Val.flt .nan)).length = l.length := List.length_replicate
  obtain ⟨v, _, e⟩ := forwardAnyLine_corner .float norm (List.replicate l.length (.flt .nan)) (by rw [hr]; omega) (by rw [hr]; exact h')
  rw [hr] at e
  let g : List Val → List Val := fun vs =>
    if vs.length = l.length then lineOr (movingsumForwardAnyLine y.dtype l.length skip norm) vs else vs
  have hg : y.along (lineOr (movingsumForwardAnyLine y.dtype l.length skip norm)) .float ax = y.along g .float ax :=
    along_same_len fun vs hvs => (if_pos (hvs.trans hsh)).symm
  refine ⟨y.along g .float ax, ?_, rfl, ?_⟩
  · unfold movingsumForwardAny
    rw [hax]
    dsimp only
    rw [hsh, if_neg (by omega), if_neg (by omega), if_neg (by omega), if_neg (by simp [hd']), e]
    dsimp only
    rw [hg]
  · have hS := alongLine_mapLines (S := fun vs ws => vs.length = l.length → NoInf (vs.map Val.num) →
      (y.dtype = .float ∨ ∀ v ∈ vs, v.num ≠ .nan) → TwiceTotal norm vs ws) hv hl g .float (fun vs => ?_) fun vs hvs hinf hnan => ?_
    · refine ⟨hS.valid, hS.label_eq, fun rest vs ws hN hy hz => hS.line rest vs ws hN hy hz ?_⟩
      obtain ⟨l', hl', e, _⟩ := hy
      rw [hl] at hl'
      rw [e, Option.some.inj hl']
    · by_cases hvs : vs.length = l.length
      · have hc : Corner vs.length vs.length skip := by rw [hvs]; exact h'
        obtain ⟨v, _, e⟩ := forwardAnyLine_corner y.dtype norm vs (by omega) hc
        rw [hvs] at e
        simp only [g, if_pos hvs, lineOr, e, List.length_append, List.length_replicate]
        omega
      · simp only [g, if_neg hvs]
    · have hc : Corner vs.length vs.length skip := by rw [hvs]; exact h'
      have := corner_spec (d := y.dtype) norm (by omega) hc hinf hnan
      rw [hvs] at this
      simp only [g, if_pos hvs]
      exact this

/-- A line of length three, window two: a skip of -2 is one of 1, a skip of -3 is none; -1 and -4 are refused. -/
example : movingsumForwardAnyLine .float 2 (-2) false [fl 4, .flt .nan, fl 6] = .ok [fl 6, .flt .nan, .flt .nan] ∧
    movingsumForwardAnyLine .float 2 (-3) false [fl 4, .flt .nan, fl 6] = .ok [fl 4, fl 6, .flt .nan] ∧
    movingsumForwardAnyLine .float 2 (-1) false [fl 4, .flt .nan, fl 6] = .error .valueError ∧
    movingsumForwardAnyLine .float 2 (-4) false [fl 4, .flt .nan, fl 6] = .error .valueError := by decide +kernel

/-- Window three: a skip of -4 is not refused, and has the total twice. -/
example : movingsumForwardAnyLine .float 3 (-4) false [fl 4, .flt .nan, fl 6] = .ok [fl 10, fl 10, .flt .nan] ∧
    movingsumForwardAnyLine .float 3 (-5) false [fl 4, .flt .nan, fl 6] = .error .valueError := by decide +kernel

example : exA.Valid ∧ exA.dtype ≠ .str ∧ exA.dtype ≠ .object ∧ pyIdx exA.ndim 1 = some 1 ∧
    (∃ l, exA.label[1]? = some l ∧ -(l.length : Int) ≤ -2 ∧ Corner l.length 3 (-4) ∧ ¬ Corner l.length 2 (-4)) ∧
    (∃ z, exA.movingsumForwardAny 2 (-2) 1 false = .ok z ∧ exA.movingsumForward 2 1 1 false = .ok z) ∧
    exA.movingsumForwardAny 2 (-1) 1 false = .error .valueError := by
  refine ⟨exA_valid, by decide, by decide, rfl, ⟨_, rfl, by decide, by unfold Corner; decide, by unfold Corner; decide⟩, ?_, ?_⟩
  · have h := C122_from_the_end exA_valid (axis := 1) (ax := 1) rfl (l := exA.label[1]) rfl (window := 2) (skip := -2) false (by decide) (by decide)
    obtain ⟨z, hz, _⟩ := C51_movingsum_forward exA_valid (by decide) (axis := 1) (ax := 1) rfl (window := 2) (skip := 1) false (by decide)
      (by simp [exA])
    exact ⟨z, h.trans hz, hz⟩
  · exact C122_errors exA_valid (by decide) (axis := 1) (ax := 1) rfl (l := exA.label[1]) rfl false (by decide) (by decide) (.inl (by decide))

end La
