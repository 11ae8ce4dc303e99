import Verif.Props.Order
import Verif.Cov

/-!
# Property C83: a change of units
-/

namespace La
open Larry
variable {L : Type _}

/-! ## Specification -/

/-- `a * x + b`, as floats. -/
def Flt.units (a b : ℚ) (x : Flt) : Flt := ((Flt.fin a).mul x).add (.fin b)

/-- A centre (a mean, a median) that moves with the values. -/
def MovesAlong (center : List Flt → Flt) : Prop :=
  ∀ a b : ℚ, a ≠ 0 → ∀ xs, center (xs.map (Flt.units a b)) = (center xs).units a b

/-- A spread (a standard deviation) that is measured in the units of the values. -/
def ScalesAlong (std : List Flt → Flt) : Prop :=
  ∀ a : ℚ, a ≠ 0 → ∀ xs, std (xs.map (Flt.units a 0)) = (Flt.fin |a|).mul (std xs)

/-! ## Numbers -/

theorem units_fin (a b q : ℚ) : (Flt.fin q).units a b = .fin (a * q + b) := rfl
theorem units_nan (a b : ℚ) : Flt.nan.units a b = .nan := rfl

theorem units_pinf {a : ℚ} (ha : a ≠ 0) (b : ℚ) : Flt.pinf.units a b = if 0 < a then .pinf else .ninf := by
  unfold Flt.units
  simp only [Flt.mul, Flt.infOf, if_neg ha]
  split <;> rfl

theorem units_ninf {a : ℚ} (ha : a ≠ 0) (b : ℚ) : Flt.ninf.units a b = if 0 < a then .ninf else .pinf := by
  unfold Flt.units
  simp only [Flt.mul, Flt.infOf, if_neg (neg_ne_zero.mpr ha), neg_pos]
  rcases lt_or_gt_of_ne ha with h | h
  · rw [if_pos h, if_neg (not_lt.mpr h.le)]; rfl
  · rw [if_neg (not_lt.mpr h.le), if_pos h]; rfl

theorem units_add {a : ℚ} (ha : a ≠ 0) (c d : ℚ) (x y : Flt) :
    (x.units a c).add (y.units a d) = (x.add y).units a (c + d) := by
  rcases lt_or_gt_of_ne ha with h | h <;> cases x <;> cases y <;>
    simp only [units_fin, units_nan, units_pinf ha, units_ninf ha, Flt.add, h, not_lt.mpr h.le, if_true, if_false] <;>
    (congr 1; ring)

theorem units_neg {a : ℚ} (ha : a ≠ 0) (c : ℚ) (x : Flt) : (x.units a c).neg = x.neg.units a (-c) := by
  rcases lt_or_gt_of_ne ha with h | h <;> cases x <;>
    simp only [units_fin, units_nan, units_pinf ha, units_ninf ha, Flt.neg, h, not_lt.mpr h.le, if_true, if_false] <;>
    (congr 1; ring)

theorem units_sub {a : ℚ} (ha : a ≠ 0) (c d : ℚ) (x y : Flt) :
    (x.units a c).sub (y.units a d) = (x.sub y).units a (c - d) := by
  rw [Flt.sub, units_neg ha, units_add ha, ← sub_eq_add_neg, Flt.sub]

theorem isNan_units {a : ℚ} (ha : a ≠ 0) (c : ℚ) (x : Flt) : (x.units a c).isNan = x.isNan := by
  rcases lt_or_gt_of_ne ha with h | h <;> cases x <;>
    simp [units_fin, units_nan, units_pinf ha, units_ninf ha, Flt.isNan, h, not_lt.mpr h.le]

theorem units_infOf {a : ℚ} (ha : a ≠ 0) (c q : ℚ) : (Flt.infOf q).units a c = Flt.infOf (a * q) := by
  unfold Flt.infOf
  rcases lt_trichotomy q 0 with hq | hq | hq
  · rw [if_neg hq.ne, if_neg (not_lt.mpr hq.le), units_ninf ha, if_neg (mul_ne_zero ha hq.ne)]
    rcases lt_or_gt_of_ne ha with h | h
    · rw [if_neg (not_lt.mpr h.le), if_pos (mul_pos_of_neg_of_neg h hq)]
    · rw [if_pos h, if_neg (not_lt.mpr (mul_neg_of_pos_of_neg h hq).le)]
  · rw [hq, mul_zero]; rfl
  · rw [if_neg hq.ne', if_pos hq, units_pinf ha, if_neg (mul_ne_zero ha hq.ne')]
    rcases lt_or_gt_of_ne ha with h | h
    · rw [if_neg (not_lt.mpr h.le), if_neg (not_lt.mpr (mul_neg_of_neg_of_pos h hq).le)]
    · rw [if_pos h, if_pos (mul_pos h hq)]

theorem units_div {a : ℚ} (ha : a ≠ 0) {c d n : ℚ} (hn : c = d * n) (x : Flt) :
    (x.units a c).div (.fin n) = (x.div (.fin n)).units a d := by
  cases x with
  | nan => rfl
  | fin q =>
    simp only [units_fin, Flt.div]
    by_cases h0 : n = 0
    · rw [if_pos h0, if_pos h0, units_infOf ha, hn, h0, mul_zero, add_zero]
    · rw [if_neg h0, if_neg h0, units_fin, hn]
      congr 1
      field_simp
  | pinf =>
    rw [units_pinf ha]
    rcases lt_or_gt_of_ne ha with h | h <;>
      (simp only [Flt.div, h, not_lt.mpr h.le, if_true, if_false]
       split <;> simp [units_pinf ha, units_ninf ha, h, not_lt.mpr h.le])
  | ninf =>
    rw [units_ninf ha]
    rcases lt_or_gt_of_ne ha with h | h <;>
      (simp only [Flt.div, h, not_lt.mpr h.le, if_true, if_false]
       split <;> simp [units_pinf ha, units_ninf ha, h, not_lt.mpr h.le])

theorem units_mul {a : ℚ} (ha : a ≠ 0) (c : ℚ) {w : ℚ} (hw : 0 < w) (x : Flt) :
    (Flt.fin w).mul (x.units a c) = ((Flt.fin w).mul x).units a (w * c) := by
  have e1 : Flt.infOf w = .pinf := by simp [Flt.infOf, hw.ne', hw]
  have e2 : Flt.infOf (-w) = .ninf := by simp [Flt.infOf, hw.ne', not_lt.mpr hw.le]
  rcases lt_or_gt_of_ne ha with h | h <;> cases x <;>
    simp only [units_fin, units_nan, units_pinf ha, units_ninf ha, Flt.mul, e1, e2, h, not_lt.mpr h.le, if_true,
      if_false] <;>
    (congr 1; ring)

theorem sum_units {a : ℚ} (ha : a ≠ 0) (b : ℚ) (xs : List Flt) :
    Flt.sum (xs.map (Flt.units a b)) = (Flt.sum xs).units a (b * xs.length) := by
  have go : ∀ (xs : List Flt) (acc : Flt) (c : ℚ), (xs.map (Flt.units a b)).foldl Flt.add (acc.units a c) =
      (xs.foldl Flt.add acc).units a (c + b * xs.length) := by
    intro xs
    induction xs with
    | nil => intro acc c; simp
    | cons x xs ih =>
      intro acc c
      rw [List.map_cons, List.foldl_cons, List.foldl_cons, units_add ha, ih, List.length_cons]
      congr 1
      push_cast
      ring
  have := go xs (.fin 0) 0
  rw [units_fin, mul_zero, add_zero, zero_add] at this
  exact this

theorem filter_units {a : ℚ} (ha : a ≠ 0) (b : ℚ) (xs : List Flt) :
    (xs.map (Flt.units a b)).filter (fun x => !x.isNan) = (xs.filter (fun x => !x.isNan)).map (Flt.units a b) := by
  rw [List.filter_map]
  congr 2
  funext x
  simp only [Function.comp, isNan_units ha]

/-- The mean moves with the values. -/
theorem nanmean_moves : MovesAlong nanmean := by
  intro a b ha xs
  unfold nanmean
  simp only [filter_units ha, sum_units ha, List.length_map]
  exact units_div ha rfl _

/-! ## Lines -/

theorem demeanLine_units {center : List Flt → Flt} (hc : MovesAlong center) {a b : ℚ} (ha : a ≠ 0) {vs vs' : List Val}
    (h : vs'.map Val.num = (vs.map Val.num).map (Flt.units a b)) :
    (demeanLine center vs').map Val.num = ((demeanLine center vs).map Val.num).map (Flt.units a 0) := by
  have e : ∀ us : List Val, (demeanLine center us).map Val.num =
      (us.map Val.num).map (fun x => x.sub (center (us.map Val.num))) := fun us => by
    simp only [demeanLine, List.map_map]; rfl
  rw [e, e, h, hc a b ha]
  generalize vs.map Val.num = xs
  simp only [List.map_map]
  apply List.map_congr_left
  intro x _
  simp only [Function.comp, units_sub ha, sub_self]

theorem div_scaled {a : ℚ} (ha : a ≠ 0) (x s : Flt) :
    (x.units a 0).div ((Flt.fin |a|).mul s) = if 0 < a then x.div s else (x.div s).neg := by
  have hpos : 0 < |a| := abs_pos.mpr ha
  have e1 : Flt.infOf |a| = .pinf := by simp [Flt.infOf, ha]
  have e2 : Flt.infOf (-|a|) = .ninf := by simp [Flt.infOf, ha]
  cases s with
  | nan => rcases lt_or_gt_of_ne ha with h | h <;> cases x <;> simp [Flt.mul, Flt.div, Flt.neg, units_fin, units_nan, units_pinf ha, units_ninf ha, h, not_lt.mpr h.le]
  | pinf => rcases lt_or_gt_of_ne ha with h | h <;> cases x <;> simp [Flt.mul, Flt.div, Flt.neg, units_fin, units_nan, units_pinf ha, units_ninf ha, h, not_lt.mpr h.le, e1]
  | ninf => rcases lt_or_gt_of_ne ha with h | h <;> cases x <;> simp [Flt.mul, Flt.div, Flt.neg, units_fin, units_nan, units_pinf ha, units_ninf ha, h, not_lt.mpr h.le, e2]
  | fin s =>
    simp only [Flt.mul]
    have hneg : (|a| * s < 0) = (s < 0) := by
      rw [mul_neg_iff]; simp [hpos, not_lt.mpr hpos.le]
    rcases lt_or_gt_of_ne ha with h | h
    · rw [if_neg (not_lt.mpr h.le)]
      cases x with
      | nan => rfl
      | fin q =>
        simp only [units_fin, Flt.div, mul_eq_zero, abs_eq_zero, ha, false_or, add_zero]
        by_cases hs : s = 0
        · rw [if_pos hs, if_pos hs]
          unfold Flt.infOf
          rcases lt_trichotomy q 0 with hq | hq | hq
          · simp [ha, hq.ne, not_lt.mpr hq.le, mul_pos_of_neg_of_neg h hq, Flt.neg]
          · simp [hq, Flt.neg]
          · simp [ha, hq.ne', hq, not_lt.mpr (mul_neg_of_neg_of_pos h hq).le, Flt.neg]
        · rw [if_neg hs, if_neg hs, abs_of_neg h]
          simp only [Flt.neg, Flt.fin.injEq]
          field_simp
      | pinf => simp only [units_pinf ha, if_neg (not_lt.mpr h.le), Flt.div, hneg]; split <;> rfl
      | ninf => simp only [units_ninf ha, if_neg (not_lt.mpr h.le), Flt.div, hneg]; split <;> rfl
    · rw [if_pos h]
      cases x with
      | nan => rfl
      | fin q =>
        simp only [units_fin, Flt.div, mul_eq_zero, abs_eq_zero, ha, false_or, add_zero]
        by_cases hs : s = 0
        · rw [if_pos hs, if_pos hs]
          unfold Flt.infOf
          simp only [mul_eq_zero, ha, false_or, mul_pos_iff_of_pos_left h]
        · rw [if_neg hs, if_neg hs, abs_of_pos h]
          simp only [Flt.fin.injEq]
          field_simp
      | pinf => simp only [units_pinf ha, if_pos h, Flt.div, hneg]
      | ninf => simp only [units_ninf ha, if_pos h, Flt.div, hneg]

theorem zscoreLine_units {std : List Flt → Flt} (hs : ScalesAlong std) {a b : ℚ} (ha : a ≠ 0) {vs vs' : List Val}
    (h : vs'.map Val.num = (vs.map Val.num).map (Flt.units a b)) :
    (zscoreLine std vs').map Val.num =
      ((zscoreLine std vs).map Val.num).map (fun x => if 0 < a then x else x.neg) := by
  have e : ∀ us : List Val, (zscoreLine std us).map Val.num =
      ((demeanLine nanmean us).map Val.num).map (fun x => x.div (std ((demeanLine nanmean us).map Val.num))) :=
    fun us => by simp only [zscoreLine, List.map_map]; rfl
  rw [e, e, demeanLine_units nanmean_moves ha h, hs a ha]
  simp only [List.map_map]
  apply List.map_congr_left
  intro x _
  simp only [Function.comp, div_scaled ha]

theorem cumGo_hom {α β : Type _} {g : α → β} {op : α → α → α} {op' : β → β → β} (hg : ∀ x y, g (op x y) = op' (g x) (g y))
    (acc : α) (l : List α) : (cumGo op acc l).map g = cumGo op' (g acc) (l.map g) := by
  induction l generalizing acc with
  | nil => rfl
  | cons v l ih => simp only [cumGo, List.map_cons, ih, hg]

theorem windowDiff_hom {α β : Type _} {g : α → β} {op : α → α → α} {op' : β → β → β}
    (hg : ∀ x y, g (op x y) = op' (g x) (g y)) (w k : Nat) (l : List α) :
    (windowDiff op w k l).map g = windowDiff op' w k (l.map g) := by
  unfold windowDiff
  simp only [List.map_append, List.map_take, List.map_drop, List.length_map, List.map_zipWith, hg]
  simp only [← List.map_drop, ← List.map_take, List.zipWith_map]

/-- Addition and subtraction of a sum together with the number of its terms. -/
def addPair (p q : Flt × ℚ) : Flt × ℚ := (p.1.add q.1, p.2 + q.2)
def subPair (p q : Flt × ℚ) : Flt × ℚ := (p.1.sub q.1, p.2 - q.2)

/-- The sums and counts of `movingsum` together. -/
def sumsAndCounts (window skip : Nat) (xs : List Flt) : List (Flt × ℚ) :=
  windowDiff subPair window skip
    (cumGo addPair (.fin 0, 0) (xs.map fun x => if x.isNan then (.fin 0, 0) else (x, 1)))

/-- What `movingsum` makes of a sum and a count. -/
def ofPair (window : Nat) (norm : Bool) (p : Flt × ℚ) : Flt :=
  if norm then ((Flt.fin window).mul p.1).div (.fin p.2) else if p.2 = 0 then .nan else p.1

theorem movingsumLine_pairs (window skip : Nat) (norm : Bool) (vs : List Val) :
    (movingsumLine .float window skip norm vs).map Val.num =
      List.replicate (min vs.length (skip + window - 1)) .nan ++
        (sumsAndCounts window skip (vs.map Val.num)).map (ofPair window norm) := by
  have h1 : List.zipWith (fun v (t : Bool) => if t then Flt.fin 0 else v.num) vs
      (vs.map fun v => decide (DType.float = .float) && v.isNan) =
      ((vs.map Val.num).map fun x => if x.isNan then ((Flt.fin 0, 0) : Flt × ℚ) else (x, 1)).map Prod.fst := by
    induction vs with
    | nil => rfl
    | cons v vs ih =>
      rw [List.map_cons, List.zipWith_cons_cons, ih]
      congr 1
      show (if v.num.isNan = true then Flt.fin 0 else v.num) =
        (if v.num.isNan = true then ((Flt.fin 0, 0) : Flt × ℚ) else (v.num, 1)).1
      split <;> rfl
  have h2 : (vs.map fun v => decide (DType.float = .float) && v.isNan).map (fun t : Bool => if t then (0 : ℚ) else 1) =
      ((vs.map Val.num).map fun x => if x.isNan then ((Flt.fin 0, 0) : Flt × ℚ) else (x, 1)).map Prod.snd := by
    clear h1
    induction vs with
    | nil => rfl
    | cons v vs ih =>
      simp only [List.map_cons] at ih ⊢
      rw [ih]
      congr 1
      show (if v.num.isNan = true then _ else _) = _
      split <;> rfl
  have h3 : ∀ l : List (Flt × ℚ), cumGo Flt.add (.fin 0) (l.map Prod.fst) = (cumGo addPair (.fin 0, 0) l).map Prod.fst :=
    fun l => (cumGo_hom (g := Prod.fst) (op := addPair) (op' := Flt.add) (fun _ _ => rfl) (.fin 0, 0) l).symm
  have h4 : ∀ l : List (Flt × ℚ), cumGo (· + ·) (0 : ℚ) (l.map Prod.snd) = (cumGo addPair (.fin 0, 0) l).map Prod.snd :=
    fun l => (cumGo_hom (g := Prod.snd) (op := addPair) (op' := (· + ·)) (fun _ _ => rfl) (.fin 0, 0) l).symm
  have h5 : ∀ l : List (Flt × ℚ), windowDiff Flt.sub window skip (l.map Prod.fst) =
      (windowDiff subPair window skip l).map Prod.fst :=
    fun l => (windowDiff_hom (g := Prod.fst) (op := subPair) (op' := Flt.sub) (fun _ _ => rfl) _ _ l).symm
  have h6 : ∀ l : List (Flt × ℚ), windowDiff (· - ·) window skip (l.map Prod.snd) =
      (windowDiff subPair window skip l).map Prod.snd :=
    fun l => (windowDiff_hom (g := Prod.snd) (op := subPair) (op' := (· - ·)) (fun _ _ => rfl) _ _ l).symm
  simp only [decide_true] at h1 h2
  unfold movingsumLine sumsAndCounts
  simp only [decide_true]
  rw [h1, h2, h3, h4, h5, h6]
  generalize windowDiff subPair window skip _ = ps
  rw [List.map_append, List.map_replicate, List.map_map]
  congr 1
  induction ps with
  | nil => rfl
  | cons p ps ih =>
    simp only [List.map_cons, List.zipWith_cons_cons, ih]
    rfl

theorem sumsAndCounts_units {a : ℚ} (ha : a ≠ 0) (b : ℚ) (window skip : Nat) (xs : List Flt) :
    sumsAndCounts window skip (xs.map (Flt.units a b)) =
      (sumsAndCounts window skip xs).map (fun p => (p.1.units a (b * p.2), p.2)) := by
  unfold sumsAndCounts
  rw [windowDiff_hom (op' := subPair) (g := fun p : Flt × ℚ => (p.1.units a (b * p.2), p.2)) (fun x y => by
      simp only [subPair, units_sub ha, mul_sub]),
    cumGo_hom (op' := addPair) (g := fun p : Flt × ℚ => (p.1.units a (b * p.2), p.2)) (fun x y => by
      simp only [addPair, units_add ha, mul_add])]
  simp only [units_fin, mul_zero, add_zero, List.map_map]
  congr 2
  apply List.map_congr_left
  intro x _
  simp only [Function.comp, isNan_units ha]
  split
  · simp [units_fin]
  · simp

theorem movingsumLine_units {a : ℚ} (ha : a ≠ 0) {b : ℚ} {window : Nat} (hw : 0 < window) (skip : Nat) {norm : Bool}
    (hb : norm = true ∨ b = 0) {vs vs' : List Val} (h : vs'.map Val.num = (vs.map Val.num).map (Flt.units a b)) :
    (movingsumLine .float window skip norm vs').map Val.num =
      ((movingsumLine .float window skip norm vs).map Val.num).map (Flt.units a (window * b)) := by
  have hlen : vs'.length = vs.length := by simpa using congrArg List.length h
  rw [movingsumLine_pairs, movingsumLine_pairs, h, sumsAndCounts_units ha, hlen, List.map_append, List.map_replicate,
    units_nan]
  congr 1
  simp only [List.map_map]
  apply List.map_congr_left
  intro p _
  simp only [Function.comp, ofPair]
  have hw' : (0 : ℚ) < window := by exact_mod_cast hw
  cases norm with
  | true =>
    simp only [if_true]
    rw [units_mul ha _ hw', units_div ha (d := window * b) (by ring)]
  | false =>
    have hb : b = 0 := by simpa using hb
    subst hb
    simp only [Bool.false_eq_true, if_false, zero_mul, mul_zero]
    split
    · rfl
    · rfl

/-! ## The methods -/

/-- C83. `demean`, or `demedian` with a median that moves with the values: shifting the values changes
nothing and scaling them scales the result. -/
theorem C83_demean {center : List Flt → Flt} (hc : MovesAlong center) {a b : ℚ} (ha : a ≠ 0) {y y' : Larry L}
    (hv : y.Valid) (hv' : y'.Valid) (h : y.Rescaled (Flt.units a b) y') (axis : Option Int) :
    Res.Agree (Larry.Rescaled (Flt.units a 0)) (y.demean center axis) (y'.demean center axis) := by
  have hn := h.nums hv hv'
  have hnd : y'.ndim = y.ndim := by simp only [Larry.ndim, NDArray.ndim, hn.1]
  have hnum : ∀ z : Larry L, z.dtype = .float → z.dtype.isNumeric ≠ false := fun z hz => by rw [hz]; decide
  unfold Larry.demean npAxis
  rw [if_neg (hnum y h.float), if_neg (hnum y' h.float'), hnd]
  cases axis with
  | none => exact alongAll_rescaled rfl hv h.label hn (demeanLine_units hc ha hn.vals)
  | some i =>
    dsimp only
    cases hp : pyIdx y.ndim i with
    | none => exact rfl
    | some ax =>
      exact along_rescaled rfl hv h.label hn (pyIdx_lt' hp)
        fun rest hr => demeanLine_units hc ha (hn.line (pyIdx_lt' hp) hr)

/-- C83. The mean that `demean` takes off moves with the values, infinities and all. -/
theorem C83_mean : MovesAlong nanmean := nanmean_moves

/-- C83. `zscore` does not depend on the units; a change of sign changes its sign. -/
theorem C83_zscore {std : List Flt → Flt} (hs : ScalesAlong std) {a b : ℚ} (ha : a ≠ 0) {y y' : Larry L}
    (hv : y.Valid) (hv' : y'.Valid) (h : y.Rescaled (Flt.units a b) y') (axis : Option Int) :
    Res.Agree (Larry.Rescaled (fun x => if 0 < a then x else x.neg)) (y.zscore std axis) (y'.zscore std axis) := by
  have hn := h.nums hv hv'
  have hnd : y'.ndim = y.ndim := by simp only [Larry.ndim, NDArray.ndim, hn.1]
  have hnum : ∀ z : Larry L, z.dtype = .float → z.dtype.isNumeric ≠ false := fun z hz => by rw [hz]; decide
  have hk : (fun x : Flt => if 0 < a then x else x.neg) .nan = .nan := by dsimp only; split <;> rfl
  unfold Larry.zscore npAxis
  rw [if_neg (hnum y h.float), if_neg (hnum y' h.float'), hnd]
  cases axis with
  | none => exact alongAll_rescaled (k := fun x => if 0 < a then x else x.neg) hk hv h.label hn (zscoreLine_units hs ha hn.vals)
  | some i =>
    dsimp only
    cases hp : pyIdx y.ndim i with
    | none => exact rfl
    | some ax =>
      exact along_rescaled (k := fun x => if 0 < a then x else x.neg) hk hv h.label hn (pyIdx_lt' hp)
        fun rest hr => zscoreLine_units hs ha (hn.line (pyIdx_lt' hp) hr)

/-- C83. `movingsum_forward` scales with the values; with `norm` a shift by `b` adds `window * b`. -/
theorem C83_movingsum_forward {a b : ℚ} (ha : a ≠ 0) {norm : Bool} (hb : norm = true ∨ b = 0) {y y' : Larry L}
    (hv : y.Valid) (hv' : y'.Valid) (h : y.Rescaled (Flt.units a b) y') (window : Int) (skip : Nat) (axis : Int) :
    Res.Agree (Larry.Rescaled (Flt.units a (window * b))) (y.movingsumForward window skip axis norm)
      (y'.movingsumForward window skip axis norm) := by
  have hn := h.nums hv hv'
  have hs : y'.shape = y.shape := hn.1
  have hnd : y'.ndim = y.ndim := by simp only [Larry.ndim, NDArray.ndim, hn.1]
  unfold movingsumForward
  rw [hnd, hs, h.float, h.float']
  cases hp : pyIdx y.ndim axis with
  | none => exact rfl
  | some ax =>
    dsimp only
    by_cases h1 : window < 1
    · rw [if_pos h1, if_pos h1]; exact rfl
    by_cases h2 : window > y.shape.getD ax 0
    · rw [if_neg h1, if_pos h2, if_neg h1, if_pos h2]; exact rfl
    by_cases h3 : skip > y.shape.getD ax 0
    · rw [if_neg h1, if_neg h2, if_pos h3, if_neg h1, if_neg h2, if_pos h3]; exact rfl
    have hrest : Larry.Rescaled (Flt.units a (window * b))
        (y.along (movingsumForwardLine .float window.toNat skip norm) .float ax)
        (y'.along (movingsumForwardLine .float window.toNat skip norm) .float ax) := by
      refine along_rescaled rfl hv h.label hn (pyIdx_lt' hp) fun rest hr => ?_
      have hl := hn.line (pyIdx_lt' hp) hr
      have e : ((window.toNat : ℕ) : ℚ) = window := by
        have : ((window.toNat : ℕ) : ℤ) = window := Int.toNat_of_nonneg (by omega)
        exact_mod_cast this
      unfold movingsumForwardLine
      rw [List.map_reverse, List.map_reverse, List.map_reverse, ← e]
      congr 1
      refine movingsumLine_units ha (by omega) skip hb ?_
      rw [List.map_reverse, List.map_reverse, List.map_reverse, hl]
    rw [if_neg h1, if_neg h2, if_neg h3, if_neg h1, if_neg h2, if_neg h3]
    exact hrest

/-- C83. `cumsum` scales with the values. -/
theorem C83_cumsum {a : ℚ} (ha : a ≠ 0) {y y' : Larry L} (hv : y.Valid) (hv' : y'.Valid)
    (h : y.Rescaled (Flt.units a 0) y') (axis : Option Int) :
    Res.Agree (Larry.Rescaled (Flt.units a 0)) (y.cumsum axis) (y'.cumsum axis) := by
  have hn := h.nums hv hv'
  have hnd : y'.ndim = y.ndim := by simp only [Larry.ndim, NDArray.ndim, hn.1]
  unfold Larry.cumsum cumulate npAxis
  cases axis with
  | none => exact rfl
  | some i =>
    simp only [hnd, h.float, h.float']
    cases hp : pyIdx y.ndim i with
    | none => exact rfl
    | some ax =>
      have hz : NumsBy (Flt.units a 0) (y.x.map (replaceNan (ofInt .float 0))) (y'.x.map (replaceNan (ofInt .float 0))) := by
        refine ⟨hn.1, fun idx hidx => ?_⟩
        show Val.num (if (y'.x.get idx).num.isNan = true then ofInt .float 0 else y'.x.get idx) =
          Flt.units a 0 (Val.num (if (y.x.get idx).num.isNan = true then ofInt .float 0 else y.x.get idx))
        have e := hn.2 idx hidx
        rw [show (y'.x.get idx).num.isNan = (y.x.get idx).num.isNan by rw [e, isNan_units ha]]
        split
        · simp [ofInt, Val.num, units_fin]
        · exact e
      have hcum : ∀ vs vs' : List Val, vs'.map Val.num = (vs.map Val.num).map (Flt.units a 0) →
          (cumGo (addVal .float) (ofInt .float 0) vs').map Val.num =
            ((cumGo (addVal .float) (ofInt .float 0) vs).map Val.num).map (Flt.units a 0) := by
        intro vs vs' e
        rw [cumGo_hom (g := Val.num) (op' := Flt.add) (fun _ _ => rfl), cumGo_hom (g := Val.num) (op' := Flt.add)
          (fun _ _ => rfl), e, cumGo_hom (g := Flt.units a 0) (op' := Flt.add)
          (fun x y => by rw [units_add ha, add_zero])]
        simp [ofInt, Val.num, units_fin]
      have hl := along_rescaled (y := ⟨y.x.map (replaceNan (ofInt .float 0)), .float, y.label⟩)
        (y' := ⟨y'.x.map (replaceNan (ofInt .float 0)), .float, y'.label⟩) (k := Flt.units a 0) rfl
        ⟨hv.shape_eq, hv.nodup, hv.ndim_pos⟩ h.label hz (ax := ax) (pyIdx_lt' hp)
        fun rest hr => hcum _ _ (hz.line (pyIdx_lt' hp) hr)
      have hl' := hl.nums ⟨hv.shape_eq, hv.nodup, hv.ndim_pos⟩ ⟨hv'.shape_eq, hv'.nodup, hv'.ndim_pos⟩
      refine Larry.Rescaled.of_nums ⟨hv.shape_eq, hv.nodup, hv.ndim_pos⟩ h.label rfl rfl ⟨hn.1, fun idx hidx => ?_⟩
      have e := hn.2 idx hidx
      have hnan : (y'.x.get idx).isNan = (y.x.get idx).isNan := by
        show (y'.x.get idx).num.isNan = (y.x.get idx).num.isNan
        rw [e, isNan_units ha]
      show Val.num (if (y'.x.get idx).isNan = true then .flt .nan else _) =
        Flt.units a 0 (Val.num (if (y.x.get idx).isNan = true then .flt .nan else _))
      rw [hnan]
      split
      · rfl
      · exact hl'.2 idx hidx

/-! ## Means within groups -/

theorem maskAssign_nums {k : Flt → Flt} : ∀ (m : List Bool) (out out' vals vals' : List Val),
    out'.map Val.num = (out.map Val.num).map k → vals'.map Val.num = (vals.map Val.num).map k →
    (maskAssign m out' vals').map Val.num = ((maskAssign m out vals).map Val.num).map k
  | [], out, out', vals, vals', h, _ => by simpa [maskAssign] using h
  | _ :: _, [], [], _, _, _, _ => rfl
  | _ :: _, [], _ :: _, _, _, h, _ => by simp at h
  | _ :: _, _ :: _, [], _, _, h, _ => by simp at h
  | true :: m, o :: out, o' :: out', [], [], h, _ => by
    simp only [List.map_cons, List.cons.injEq] at h
    simp only [maskAssign, if_true, List.headD_nil, List.tail_nil, List.map_cons, h.1,
      maskAssign_nums m out out' [] [] h.2 rfl]
  | true :: _, _ :: _, _ :: _, [], _ :: _, _, h => by simp at h
  | true :: _, _ :: _, _ :: _, _ :: _, [], _, h => by simp at h
  | true :: m, o :: out, o' :: out', v :: vals, v' :: vals', h, h' => by
    simp only [List.map_cons, List.cons.injEq] at h h'
    simp only [maskAssign, if_true, List.headD_cons, List.tail_cons, List.map_cons, h'.1,
      maskAssign_nums m out out' vals vals' h.2 h'.2]
  | false :: m, o :: out, o' :: out', vals, vals', h, h' => by
    simp only [List.map_cons, List.cons.injEq] at h
    simp only [maskAssign, Bool.false_eq_true, if_false, List.map_cons, h.1,
      maskAssign_nums m out out' vals vals' h.2 h']

theorem groupLine_rescaled {f k : Flt → Flt} (hk : k .nan = .nan) {g : List Val → List Val} (sort : List Val → List Val)
    (hg : ∀ vs vs' : List Val, vs'.map Val.num = (vs.map Val.num).map f →
      (g vs').map Val.num = ((g vs).map Val.num).map k)
    (groups : List Val) {vs vs' : List Val} (h : vs'.map Val.num = (vs.map Val.num).map f) :
    (groupLine sort g groups vs').map Val.num = ((groupLine sort g groups vs).map Val.num).map k := by
  have hlen : vs'.length = vs.length := by simpa using congrArg List.length h
  unfold groupLine
  rw [hlen]
  have go : ∀ (us out out' : List Val), out'.map Val.num = (out.map Val.num).map k →
      (us.foldl (groupStep g groups vs') out').map Val.num = ((us.foldl (groupStep g groups vs) out).map Val.num).map k := by
    intro us
    induction us with
    | nil => intro out out' e; exact e
    | cons u us ih =>
      intro out out' e
      exact ih _ _ (maskAssign_nums _ _ _ _ _ e (hg _ _ (maskSelect_nums _ _ _ h)))
  refine go _ _ _ ?_
  simp [List.map_replicate, Val.num, hk]

theorem groupBy_rescaled [LinearOrder L] {f k : Flt → Flt} (hk : k .nan = .nan) {g : List Val → List Val}
    (hg : ∀ vs vs' : List Val, vs'.map Val.num = (vs.map Val.num).map f →
      (g vs').map Val.num = ((g vs).map Val.num).map k)
    {y y' : Larry L} (hv : y.Valid) (hv' : y'.Valid) (h : y.Rescaled f y') (sort : List Val → List Val)
    (group : Larry L) (axis : Int) :
    Res.Agree (Larry.Rescaled k) (y.groupBy sort g group axis) (y'.groupBy sort g group axis) := by
  have hn := h.nums hv hv'
  have hnd : y'.ndim = y.ndim := by simp only [Larry.ndim, NDArray.ndim, hn.1]
  have hnum : ∀ z : Larry L, z.dtype = .float → z.dtype.isNumeric ≠ false := fun z hz => by rw [hz]; decide
  unfold groupBy
  rw [show y'.groupAlign group axis = y.groupAlign group axis by unfold groupAlign; rw [h.label]]
  cases y.groupAlign group axis with
  | error e => exact rfl
  | ok groups =>
    dsimp only
    rw [if_neg (hnum y h.float), if_neg (hnum y' h.float'), hnd]
    cases hp : pyIdx y.ndim axis with
    | none => exact rfl
    | some ax =>
      exact along_rescaled (y := y) (y' := y') hk hv h.label hn (pyIdx_lt' hp)
        fun rest hr => groupLine_rescaled hk sort hg groups (hn.line (pyIdx_lt' hp) hr)

theorem centerLine_units {center : List Flt → Flt} (hc : MovesAlong center) {a b : ℚ} (ha : a ≠ 0) {vs vs' : List Val}
    (h : vs'.map Val.num = (vs.map Val.num).map (Flt.units a b)) :
    (vs'.map (fun _ => Val.flt (center (vs'.map Val.num)))).map Val.num =
      ((vs.map (fun _ => Val.flt (center (vs.map Val.num)))).map Val.num).map (Flt.units a b) := by
  have hlen : vs'.length = vs.length := by simpa using congrArg List.length h
  rw [h, hc a b ha]
  simp only [List.map_const', List.map_replicate, hlen, Val.num]

/-- C83. `group_mean` and `group_median` are in the units of the values. -/
theorem C83_group [LinearOrder L] {center : List Flt → Flt} (hc : MovesAlong center) {a b : ℚ} (ha : a ≠ 0)
    {y y' : Larry L} (hv : y.Valid) (hv' : y'.Valid) (h : y.Rescaled (Flt.units a b) y')
    (sort : List Val → List Val) (group : Larry L) (axis : Int) :
    Res.Agree (Larry.Rescaled (Flt.units a b)) (y.groupMean sort group axis) (y'.groupMean sort group axis) ∧
    Res.Agree (Larry.Rescaled (Flt.units a b)) (y.groupMedian sort center group axis)
      (y'.groupMedian sort center group axis) :=
  ⟨groupBy_rescaled rfl (fun _ _ => centerLine_units nanmean_moves ha) hv hv' h sort group axis,
    groupBy_rescaled rfl (fun _ _ => centerLine_units hc ha) hv hv' h sort group axis⟩

/-! ## Covariance -/

theorem units_square {a : ℚ} (ha : a ≠ 0) (x y : Flt) :
    (x.units a 0).mul (y.units a 0) = (x.mul y).units (a * a) 0 := by
  have haa : a * a ≠ 0 := mul_ne_zero ha ha
  have hpos : 0 < a * a := mul_self_pos.mpr ha
  have hinf : ∀ q, (Flt.infOf q).units (a * a) 0 = Flt.infOf q := by
    intro q
    rw [units_infOf haa]
    unfold Flt.infOf
    simp only [mul_eq_zero, ha, false_or, or_self, mul_pos_iff_of_pos_left hpos]
  have hs : ∀ q, 0 < a → Flt.infOf (a * q) = Flt.infOf q := by
    intro q h
    unfold Flt.infOf
    simp only [mul_eq_zero, ha, false_or, mul_pos_iff_of_pos_left h]
  have hs' : ∀ q, a < 0 → Flt.infOf (a * q) = Flt.infOf (-q) := by
    intro q h
    unfold Flt.infOf
    have : (0 < a * q) = (0 < -q) := by
      rw [← neg_mul_neg, mul_pos_iff_of_pos_left (neg_pos.mpr h)]
    simp only [mul_eq_zero, ha, false_or, this, neg_eq_zero]
  rcases lt_or_gt_of_ne ha with h | h <;> cases x <;> cases y <;>
    simp only [units_fin, units_nan, units_pinf ha, units_ninf ha, units_pinf haa, units_ninf haa, hpos, Flt.mul, h,
      not_lt.mpr h.le, if_true, if_false, hinf, add_zero, hs _, hs' _, ← mul_neg, neg_neg] <;>
    (congr 1; ring)

theorem presentOf_units {a : ℚ} (ha : a ≠ 0) {v v' : Val} (h : v'.num = v.num.units a 0) : presentOf v' = presentOf v := by
  unfold presentOf
  rw [show v'.isNan = v.isNan by show v'.num.isNan = v.num.isNan; rw [h, isNan_units ha]]

theorem zeroNan_units {a : ℚ} (ha : a ≠ 0) {v v' : Val} (h : v'.num = v.num.units a 0) :
    zeroNan v' = (zeroNan v).units a 0 := by
  unfold zeroNan
  rw [show v'.isNan = v.isNan by show v'.num.isNan = v.num.isNan; rw [h, isNan_units ha]]
  split
  · simp [units_fin]
  · exact h

/-- C83. `cov` scales with the square of the unit. -/
theorem C83_cov {a : ℚ} (ha : a ≠ 0) {y y' : Larry L} (hv : y.Valid) (hv' : y'.Valid)
    (h : y.Rescaled (Flt.units a 0) y') : Res.Agree (Larry.Rescaled (Flt.units (a * a) 0)) (cov y) (cov y') := by
  have hn := h.nums hv hv'
  have hnd : y'.ndim = y.ndim := by simp only [Larry.ndim, NDArray.ndim, hn.1]
  have haa : a * a ≠ 0 := mul_ne_zero ha ha
  unfold cov
  rw [hnd]
  by_cases h2 : y.ndim ≠ 2
  · rw [if_pos h2, if_pos h2]; exact rfl
  rw [if_neg h2, if_neg h2]
  obtain ⟨n, T, hs⟩ : ∃ n T, y.x.shape = [n, T] := by
    have : y.x.shape.length = 2 := not_not.mp h2
    match hsh : y.x.shape, this with
    | [n, T], _ => exact ⟨n, T, rfl⟩
  have hcell : ∀ i < n, ∀ t < T, (y'.x.get [i, t]).num = (y.x.get [i, t]).num.units a 0 := fun i hi t ht =>
    hn.2 [i, t] (by rw [hs]; exact ⟨hi, ht, trivial⟩)
  have hnorm : ∀ i < n, ∀ j < n, normalization y'.x T i j = normalization y.x T i j := by
    intro i hi j hj
    unfold normalization
    congr 1
    apply List.map_congr_left
    intro t ht
    have ht := List.mem_range.mp ht
    rw [presentOf_units ha (hcell i hi t ht), presentOf_units ha (hcell j hj t ht)]
  have hdot : ∀ i < n, ∀ j < n, dotRows y'.x .float T i j = (dotRows y.x .float T i j).units (a * a) 0 := by
    intro i hi j hj
    unfold dotRows
    rw [if_neg (by decide), if_neg (by decide)]
    have e := sum_units haa 0 ((List.range T).map fun t => (zeroNan (y.x.get [i, t])).mul (zeroNan (y.x.get [j, t])))
    rw [zero_mul, List.map_map] at e
    rw [← e]
    congr 1
    apply List.map_congr_left
    intro t ht
    have ht := List.mem_range.mp ht
    simp only [Function.comp, zeroNan_units ha (hcell i hi t ht), zeroNan_units ha (hcell j hj t ht), units_square ha]
  have hany : (List.range n).any (fun i => (List.range n).any fun j => decide (normalization y'.x T i j < 2)) =
      (List.range n).any (fun i => (List.range n).any fun j => decide (normalization y.x T i j < 2)) := by
    rw [Bool.eq_iff_iff]
    simp only [List.any_eq_true, List.mem_range, decide_eq_true_eq]
    constructor
    · rintro ⟨i, hi, j, hj, hlt⟩; exact ⟨i, hi, j, hj, hnorm i hi j hj ▸ hlt⟩
    · rintro ⟨i, hi, j, hj, hlt⟩; exact ⟨i, hi, j, hj, (hnorm i hi j hj).symm ▸ hlt⟩
  unfold covMissing
  rw [h.float, h.float', hn.1, hs, h.label]
  simp only [List.getD_cons_zero, List.getD_cons_succ, hany]
  have hd : ¬ (DType.float = .str ∨ DType.float = .object) := by decide
  rw [if_neg hd, if_neg hd]
  by_cases h3 : ((List.range n).any fun i => (List.range n).any fun j => decide (normalization y.x T i j < 2)) = true
  · rw [if_pos h3, if_pos h3]; exact rfl
  · rw [if_neg h3, if_neg h3]
    obtain ⟨l0, l1, hl⟩ : ∃ l0 l1, y.label = [l0, l1] := by
      have : y.label.length = 2 := by rw [hv.label_length]; exact not_not.mp h2
      match hlab : y.label, this with
      | [l0, l1], _ => exact ⟨l0, l1, rfl⟩
    have hlen : l0.length = n := by
      have := hv.shape_eq
      rw [hs, hl] at this
      simp at this
      exact this.1.symm
    rw [hl]
    have hvz : Larry.Valid (⟨⟨[n, n], covAt y.x .float T⟩, .float, [l0, l0]⟩ : Larry L) := by
      refine ⟨by simp [hlen], ?_, by simp⟩
      intro l hm
      simp at hm
      exact hv.nodup l (by rw [hl, hm]; simp)
    refine Larry.Rescaled.of_nums (f := Flt.units (a * a) 0) (y' := ⟨⟨[n, n], covAt y'.x .float T⟩, .float, [l0, l0]⟩) hvz
      rfl rfl rfl ⟨rfl, fun idx hidx => ?_⟩
    · match idx, hidx with
      | [i, j], ⟨hi, hj, _⟩ =>
        show (Flt.div _ _) = Flt.units (a * a) 0 (Flt.div _ _)
        simp only [List.getD_cons_zero, List.getD_cons_succ]
        rw [hdot i hi j hj, hnorm i hi j hj, units_div haa (d := 0) (by ring)]

/-! ## Examples -/

/-- The mean of the absolute values, a spread with a rational result. -/
def exSpread (xs : List Flt) : Flt := nanmean (xs.map fun x => if x.lt (.fin 0) then x.neg else x)

theorem exSpread_scales : ScalesAlong exSpread := by
  intro a ha xs
  unfold exSpread
  have habs : |a| ≠ 0 := abs_ne_zero.mpr ha
  have hp : 0 < |a| := abs_pos.mpr ha
  have e : (xs.map (Flt.units a 0)).map (fun x => if x.lt (.fin 0) then x.neg else x) =
      (xs.map fun x => if x.lt (.fin 0) then x.neg else x).map (Flt.units |a| 0) := by
    rw [List.map_map, List.map_map]
    apply List.map_congr_left
    intro x _
    simp only [Function.comp]
    rcases lt_or_gt_of_ne ha with h | h
    · cases x with
      | nan => rfl
      | pinf => simp [units_pinf, ha, not_lt.mpr h.le, Flt.lt, Flt.neg]
      | ninf => simp [units_pinf, units_ninf, ha, not_lt.mpr h.le, Flt.lt, Flt.neg]
      | fin q =>
        rcases lt_trichotomy q 0 with hq | hq | hq
        · have := mul_pos_of_neg_of_neg h hq
          simp [units_fin, Flt.lt, Flt.neg, hq, not_lt.mpr this.le, abs_of_neg h]
        · simp [units_fin, Flt.lt, hq]
        · have := mul_neg_of_neg_of_pos h hq
          simp [units_fin, Flt.lt, Flt.neg, not_lt.mpr hq.le, this, abs_of_neg h]
    · rw [abs_of_pos h]
      cases x with
      | nan => rfl
      | pinf => simp [units_pinf, ha, h, Flt.lt]
      | ninf => simp [units_pinf, units_ninf, ha, h, Flt.lt, Flt.neg]
      | fin q =>
        rcases lt_trichotomy q 0 with hq | hq | hq
        · have := mul_neg_of_pos_of_neg h hq
          simp [units_fin, Flt.lt, Flt.neg, hq, this]
        · simp [units_fin, Flt.lt, hq]
        · have := mul_pos h hq
          simp [units_fin, Flt.lt, not_lt.mpr hq.le, not_lt.mpr this.le]
  rw [e, nanmean_moves _ 0 habs]
  generalize nanmean _ = m
  unfold Flt.units
  cases m with
  | nan => rfl
  | fin q => simp [Flt.mul, Flt.add]
  | pinf => simp [Flt.mul, Flt.infOf, ha, Flt.add]
  | ninf => simp [Flt.mul, Flt.infOf, ha, Flt.add, not_lt.mpr hp.le]

/-- The hypotheses are met by a 2x3 larry with a NaN and its values doubled and shifted by 3; the mean
moves, the spread scales, and neither is constant. -/
example : exA.Valid ∧ exScaled.Valid ∧ exA.Rescaled (Flt.units 2 3) exScaled ∧ exA.Rescaled (Flt.units (-1) 0) exNegated ∧
    MovesAlong nanmean ∧ ScalesAlong exSpread ∧
    zscoreLine exSpread [fl 1, fl 2, .flt .nan, fl 3] = [fl (-3 / 2), fl 0, .flt .nan, fl (3 / 2)] := by
  refine ⟨exA_valid, ⟨rfl, by decide, by decide⟩, ?_, ?_, nanmean_moves, exSpread_scales, by decide +kernel⟩
  · refine Larry.Rescaled.of_nums exA_valid rfl rfl rfl ⟨rfl, fun idx hidx => ?_⟩
    have hm : idx ∈ allIdx [2, 3] := mem_allIdx.mpr hidx
    clear hidx
    revert idx
    decide +kernel
  · refine Larry.Rescaled.of_nums exA_valid rfl rfl rfl ⟨rfl, fun idx hidx => ?_⟩
    have hm : idx ∈ allIdx [2, 3] := mem_allIdx.mpr hidx
    clear hidx
    revert idx
    decide +kernel

end La
