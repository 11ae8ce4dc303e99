import Verif.ReduceFacts
import Verif.Examples

/-!
# Properties C42, C44: reductions
-/

namespace La
open Larry
variable {L : Type _}

/-- `vs` are all values of `y`, each at the row-major position of its cell. -/
def AllValues (y : Larry L) (vs : List Val) : Prop :=
  vs.length = y.shape.prod ∧
    ∀ idx names v, At y.label idx names → y.Has names v → vs[rowMajor y.shape idx]? = some v

theorem vals_all {y : Larry L} (hv : y.Valid) : AllValues y y.x.vals := by
  refine ⟨by simp [NDArray.vals, length_allIdx, Larry.shape], ?_⟩
  rintro idx names v hat ⟨idx', hat', rfl⟩
  have := At_unique hv.nodup hat hat'
  subst this
  have hin : InB y.x.shape idx := by rw [hv.shape_eq]; exact At_inB hat
  simp only [NDArray.vals, List.getElem?_map, Larry.shape, allIdx_getElem? hin, Option.map_some]

theorem label_at {y : Larry L} (hv : y.Valid) {axis : Int} {ax : Nat} (h : pyIdx y.ndim axis = some ax) :
    ∃ l, y.label[ax]? = some l ∧ ax < y.label.length := by
  have hlt : ax < y.label.length := by rw [hv.label_length]; exact pyIdx_lt h
  exact ⟨_, List.getElem?_eq_getElem hlt, hlt⟩

theorem reduce_axis_eq (r : Red) {y : Larry L} (hv : y.Valid) {d : DType} (hd : r.dt y.dtype = .ok d)
    (hsz : y.shape.prod ≠ 0) {axis : Int} {ax : Nat} (hax : pyIdx y.ndim axis = some ax)
    (h2 : 2 ≤ y.ndim) :
    y.reduce r (some axis) = .ok (.larry ⟨y.x.reduceAx r.f ax, d, y.label.eraseIdx ax⟩) := by
  have hpop : pyPop y.label axis = .ok (y.label.eraseIdx ax) := by
    simp only [pyPop, hv.label_length, hax]
  have hlen : (y.x.shape.eraseIdx ax).length ≠ 0 := by
    have : y.x.shape.length = y.ndim := rfl
    rw [List.length_eraseIdx_of_lt (by rw [this]; exact pyIdx_lt hax)]; omega
  have hs : y.size ≠ 0 := hsz
  simp only [reduce, if_neg hs, hd, hax, hpop]
  rw [if_neg]
  exact hlen

theorem reduce_1d_eq (r : Red) {y : Larry L} {d : DType} (hd : r.dt y.dtype = .ok d)
    (hsz : y.shape.prod ≠ 0) {axis : Int} (h1 : y.ndim = 1) (hax : axis = 0 ∨ axis = -1) :
    y.reduce r (some axis) = .ok (.scalar (r.f (y.x.line 0 []))) := by
  have hax' : pyIdx y.ndim axis = some 0 := by
    rcases hax with rfl | rfl <;> simp [pyIdx, h1]
  have hs : y.size ≠ 0 := hsz
  simp only [reduce, if_neg hs, hd, hax']
  rw [if_pos]
  · rfl
  · have : y.x.shape.length = 1 := h1
    simp [NDArray.reduceAx, List.length_eraseIdx, this]

theorem reduce_none_eq (r : Red) {y : Larry L} {d : DType} (hd : r.dt y.dtype = .ok d)
    (hsz : y.shape.prod ≠ 0) : y.reduce r none = .ok (.scalar (r.f y.x.vals)) := by
  have hs : y.size ≠ 0 := hsz
  simp only [reduce, if_neg hs, hd]

/-- C42. Along an axis of a larry of two or more dimensions: that axis' labels are removed and every
remaining cell holds the reduction of the values along the removed axis, in label order. -/
theorem C42_reduce_axis (r : Red) {y : Larry L} (hv : y.Valid) {d : DType} (hd : r.dt y.dtype = .ok d)
    (hsz : y.shape.prod ≠ 0) {axis : Int} {ax : Nat} (hax : pyIdx y.ndim axis = some ax)
    (h2 : 2 ≤ y.ndim) :
    ∃ z, y.reduce r (some axis) = .ok (.larry z) ∧ z.Valid ∧ z.dtype = d ∧
      z.label = y.label.eraseIdx ax ∧
      ∀ rest v, z.Has rest v ↔ Named z.label rest ∧ ∃ vs, y.LineAt ax rest vs ∧ v = r.f vs := by
  obtain ⟨l, hl, hlt⟩ := label_at hv hax
  exact ⟨_, reduce_axis_eq r hv hd hsz hax h2,
    validLabels_erase hv hlt (by rw [hv.label_length]; exact h2), rfl, rfl, holds_reduceAx hv hl r.f⟩

/-- C42. A 1d larry reduces to a scalar, the reduction of its values in label order. -/
theorem C42_reduce_1d (r : Red) {y : Larry L} (hv : y.Valid) {d : DType} (hd : r.dt y.dtype = .ok d)
    (hsz : y.shape.prod ≠ 0) {axis : Int} (h1 : y.ndim = 1) (hax : axis = 0 ∨ axis = -1) :
    ∃ vs, y.LineAt 0 [] vs ∧ y.reduce r (some axis) = .ok (.scalar (r.f vs)) := by
  have hax' : pyIdx y.ndim axis = some 0 := by
    rcases hax with rfl | rfl <;> simp [pyIdx, h1]
  obtain ⟨l, hl, hlt⟩ := label_at hv hax'
  have hlab : y.label.eraseIdx 0 = [] := by
    have : y.label.length = 1 := by rw [hv.label_length]; exact h1
    match hy : y.label, this with
    | [a], _ => rfl
  exact ⟨y.x.line 0 [], line_at hv hl (by rw [hlab]; trivial), reduce_1d_eq r hd hsz h1 hax⟩

/-- C42. `axis=None` gives the reduction of all values. -/
theorem C42_reduce_all (r : Red) {y : Larry L} (hv : y.Valid) {d : DType} (hd : r.dt y.dtype = .ok d)
    (hsz : y.shape.prod ≠ 0) :
    ∃ vs, AllValues y vs ∧ y.reduce r none = .ok (.scalar (r.f vs)) := by
  exact ⟨_, vals_all hv, reduce_none_eq r hd hsz⟩

/-- C42. A larry without elements: `axis=None` and 1d give the default; otherwise the axis is removed
and every remaining cell holds the default, stored in the larry's dtype (bool for any/all): a NaN
default makes an int larry raise ValueError and a bool larry hold True. -/
theorem C42_reduce_empty (r : Red) {y : Larry L} (hv : y.Valid) (hsz : y.shape.prod = 0) :
    y.reduce r none = .ok (.scalar r.default) ∧
    (∀ axis, y.ndim = 1 → (axis = 0 ∨ axis = -1) → y.reduce r (some axis) = .ok (.scalar r.default)) ∧
    (∀ axis ax w, 2 ≤ y.ndim → pyIdx y.ndim axis = some ax →
      fillVal? (if r.logical then .bool else y.dtype) r.default = .ok w →
      ∃ z, y.reduce r (some axis) = .ok (.larry z) ∧ z.Valid ∧ z.label = y.label.eraseIdx ax ∧
        z.dtype = (if r.logical then .bool else y.dtype) ∧
        ∀ rest v, z.Has rest v ↔ Named z.label rest ∧ v = w) ∧
    (∀ axis ax, 2 ≤ y.ndim → pyIdx y.ndim axis = some ax → r.logical = false → y.dtype = .int →
      r.default = .flt .nan → y.reduce r (some axis) = .error .valueError) := by
  have hs : y.size = 0 := hsz
  have hpop : ∀ axis ax, pyIdx y.ndim axis = some ax → pyPop y.shape axis = .ok (y.shape.eraseIdx ax) := by
    intro axis ax h
    have : y.shape.length = y.ndim := rfl
    simp only [pyPop, this, h]
  have hlen : ∀ axis ax, pyIdx y.ndim axis = some ax → 2 ≤ y.ndim → ¬ (y.shape.eraseIdx ax).length = 0 := by
    intro axis ax h h2
    have : y.shape.length = y.ndim := rfl
    rw [List.length_eraseIdx_of_lt (by rw [this]; exact pyIdx_lt h)]; omega
  refine ⟨by simp only [reduce, if_pos hs], ?_, ?_, ?_⟩
  · intro axis h1 hax
    have hax' : pyIdx y.ndim axis = some 0 := by
      rcases hax with rfl | rfl <;> simp [pyIdx, h1]
    simp only [reduce, if_pos hs, hpop axis 0 hax']
    rw [if_pos]
    have : y.shape.length = 1 := h1
    simp [List.length_eraseIdx, this]
  · intro axis ax w h2 hax hw
    obtain ⟨l, hl, hlt⟩ := label_at hv hax
    have hpl : pyPop y.label axis = .ok (y.label.eraseIdx ax) := by
      simp only [pyPop, hv.label_length, hax]
    refine ⟨⟨NDArray.full (y.shape.eraseIdx ax) w, if r.logical then .bool else y.dtype,
      y.label.eraseIdx ax⟩, ?_, validLabels_erase hv hlt (by rw [hv.label_length]; exact h2), rfl, rfl, ?_⟩
    · simp only [reduce, if_pos hs, hpop axis ax hax, if_neg (hlen axis ax hax h2), hw, hpl]
    · intro rest v
      constructor
      · rintro ⟨idx, hat, rfl⟩; exact ⟨Named_of_At hat, rfl⟩
      · rintro ⟨hN, rfl⟩
        obtain ⟨idx, hat⟩ := At_of_Named hN
        exact ⟨idx, hat, rfl⟩
  · intro axis ax h2 hax hlog hd hdef
    simp only [reduce, if_pos hs, hpop axis ax hax, if_neg (hlen axis ax hax h2), hlog, hd, hdef]
    rfl

/-- C42: an axis that does not exist raises IndexError on a larry without elements, ValueError
otherwise; a dtype the reduction refuses raises that exception. -/
theorem C42_reduce_errors (r : Red) {y : Larry L} (axis : Option Int) :
    (∀ a, axis = some a → pyIdx y.ndim a = none →
      (y.shape.prod = 0 → y.reduce r axis = .error .indexError) ∧
      (∀ d, y.shape.prod ≠ 0 → r.dt y.dtype = .ok d → y.reduce r axis = .error .valueError)) ∧
    (∀ e, y.shape.prod ≠ 0 → r.dt y.dtype = .error e → y.reduce r axis = .error e) := by
  refine ⟨fun a ha hn => ⟨fun hs => ?_, fun d hs hd => ?_⟩, fun e hs he => ?_⟩
  · have hs : y.size = 0 := hs
    have : y.shape.length = y.ndim := rfl
    subst ha
    simp only [reduce, if_pos hs, pyPop, this, hn]
  · have hs : y.size ≠ 0 := hs
    subst ha
    simp only [reduce, if_neg hs, hd, hn]
  · have hs : y.size ≠ 0 := hs
    simp only [reduce, if_neg hs, he]

/-- `bn.nansum` on exact values (all-NaN gives NaN), to show that the theorems apply. -/
def exSum : Red := ⟨fun vs => .flt (if (vs.map Val.num).all Flt.isNan then .nan
  else Flt.sum ((vs.map Val.num).filter (fun f => !f.isNan))), fun d => match d with
    | .str => .error .typeError
    | .object => .error .typeError
    | d => .ok d, .flt .nan, false⟩

example : exA.Valid ∧ exSum.dt exA.dtype = .ok .float ∧ exA.shape.prod ≠ 0 ∧ pyIdx exA.ndim (-1) = some 1 ∧
    2 ≤ exA.ndim ∧ exV.Valid ∧ exV.ndim = 1 ∧ exV.shape.prod ≠ 0 :=
  ⟨exA_valid, rfl, by decide, rfl, by decide, exV_valid, rfl, by decide⟩

example : exA.LineAt 1 [20] [exA.x.get [1, 0], exA.x.get [1, 1], exA.x.get [1, 2]] := by
  have := line_at exA_valid (ax := 1) (l := [3, 1, 2]) rfl (ridx := [1]) (rest := [20])
    ⟨rfl, trivial⟩
  exact this

/-! ## C44: prod -/

/-- The product of the numbers among `l`, skipping NaN: 1 if there is none. -/
def nanProd (l : List Flt) : Flt := Flt.prod (l.filter (fun f => !f.isNan))

theorem Flt.mul_one (a : Flt) : a.mul (.fin 1) = a := by
  cases a <;> simp [Flt.mul, Flt.infOf]

theorem prod_skip (l : List Flt) :
    Flt.prod (l.map (fun f => if f.isNan then .fin 1 else f)) = nanProd l := by
  have : ∀ acc, (l.map (fun f => if f.isNan then .fin 1 else f)).foldl Flt.mul acc =
      (l.filter (fun f => !f.isNan)).foldl Flt.mul acc := by
    induction l with
    | nil => intro acc; rfl
    | cons f l ih =>
      intro acc
      cases h : f.isNan <;> simp [h, ih, Flt.mul_one]
  exact this _

/-- What `prod` makes of the float values of a line. -/
def prodSpec (vs : List Val) : Val :=
  .flt (if ∀ v ∈ vs, v.num = .nan then .nan else nanProd (vs.map Val.num))

theorem isNan_iff {v : Val} : v.isNan = true ↔ v.num = .nan := by
  unfold Val.isNan; cases v.num <;> simp [Flt.isNan]

theorem prodSpec_eq (vs : List Val) :
    (if (vs.map Val.isNan).all id then Val.flt .nan
      else npProd .float (vs.map (fun v => if v.isNan then .flt (.fin 1) else v))) = prodSpec vs := by
  unfold prodSpec npProd
  have h1 : ((vs.map Val.isNan).all id = true) ↔ ∀ v ∈ vs, v.num = .nan := by
    simp [isNan_iff]
  have h2 : (vs.map (fun v => if v.isNan then Val.flt (.fin 1) else v)).map Val.num =
      (vs.map Val.num).map (fun f => if f.isNan then .fin 1 else f) := by
    simp only [List.map_map]
    refine List.map_congr_left fun v _ => ?_
    change Val.num (if v.isNan = true then _ else _) = if v.isNan = true then _ else _
    by_cases h : v.isNan = true
    · rw [if_pos h, if_pos h]; rfl
    · rw [if_neg h, if_neg h]
  by_cases h : ∀ v ∈ vs, v.num = .nan
  · rw [if_pos (h1.mpr h), if_pos h]
  · rw [if_neg (fun hh => h (h1.mp hh)), if_neg h]
    simp only
    rw [h2, prod_skip]

theorem line_map {α β : Type _} (g : α → β) (a : NDArray α) (ax : Nat) (r : List Nat) :
    (a.map g).line ax r = (a.line ax r).map g := by
  simp [NDArray.line, NDArray.map, Function.comp_def]

/-- C44. Along an axis of a float larry: every remaining cell holds the product of the values along the
axis that are not NaN, and NaN if all are. -/
theorem C44_prod_axis {y : Larry L} (hv : y.Valid) (hd : y.dtype = .float) (hsz : y.shape.prod ≠ 0)
    {axis : Int} {ax : Nat} (hax : pyIdx y.ndim axis = some ax) (h2 : 2 ≤ y.ndim) :
    ∃ z, y.prod (some axis) = .ok (.larry z) ∧ z.Valid ∧ z.dtype = .float ∧
      z.label = y.label.eraseIdx ax ∧
      ∀ rest v, z.Has rest v ↔ Named z.label rest ∧ ∃ vs, y.LineAt ax rest vs ∧ v = prodSpec vs := by
  obtain ⟨l, hl, hlt⟩ := label_at hv hax
  set one : NDArray Val := y.x.map (fun v => if v.isNan then .flt (.fin 1) else v) with hone
  have hr : reduce (prodRed y.dtype) { y with x := one } (some axis) =
      .ok (.larry ⟨one.reduceAx (npProd .float) ax, .float, y.label.eraseIdx ax⟩) := by
    rw [reduce_axis_eq (prodRed y.dtype) (y := { y with x := one }) (d := .float) hv
      (by simp [prodRed, prodDType, hd]) hsz hax h2]
    simp [prodRed, hd]
  have hx : maskNan .float (one.reduceAx (npProd .float) ax)
      ((y.x.map Val.isNan).reduceAx (fun l => l.all id) ax) = y.x.reduceAx prodSpec ax := by
    simp only [maskNan, NDArray.reduceAx, hone]
    congr 1
    funext i
    simp only [line_map, decide_true, Bool.and_true]
    exact prodSpec_eq _
  refine ⟨⟨y.x.reduceAx prodSpec ax, .float, y.label.eraseIdx ax⟩, ?_,
    validLabels_erase hv hlt (by rw [hv.label_length]; exact h2), rfl, rfl, holds_reduceAx hv hl prodSpec⟩
  unfold Larry.prod
  rw [if_neg (by simp [hd])]
  simp only [← hone, hr, hax, hx]

theorem prod_scalar {y : Larry L} (hd : y.dtype = .float) {axis : Option Int} {vs : List Val}
    (h : reduce (prodRed y.dtype) { y with x := y.x.map (fun v => if v.isNan then .flt (.fin 1) else v) }
      axis = .ok (.scalar ((prodRed y.dtype).f (vs.map (fun v => if v.isNan then .flt (.fin 1) else v)))))
    (hvs : y.x.vals = vs) : y.prod axis = .ok (.scalar (prodSpec vs)) := by
  unfold Larry.prod
  rw [if_neg (by simp [hd])]
  have hm : (y.x.map Val.isNan).vals = vs.map Val.isNan := by
    rw [← hvs]; simp [NDArray.vals, NDArray.map, Function.comp_def]
  simp only [h, hm]
  rw [← prodSpec_eq]
  simp [prodRed, hd]

/-- C44. A 1d float larry: the product of the values that are not NaN, NaN if there is none. -/
theorem C44_prod_1d {y : Larry L} (hv : y.Valid) (hd : y.dtype = .float) (hsz : y.shape.prod ≠ 0)
    (h1 : y.ndim = 1) {axis : Int} (hax : axis = 0 ∨ axis = -1) :
    ∃ vs, y.LineAt 0 [] vs ∧ y.prod (some axis) = .ok (.scalar (prodSpec vs)) := by
  have hax' : pyIdx y.ndim axis = some 0 := by
    rcases hax with rfl | rfl <;> simp [pyIdx, h1]
  obtain ⟨l, hl, hlt⟩ := label_at hv hax'
  have hlab : y.label.eraseIdx 0 = [] := by
    have : y.label.length = 1 := by rw [hv.label_length]; exact h1
    match hy : y.label, this with
    | [a], _ => rfl
  obtain ⟨n, hsh⟩ : ∃ n, y.x.shape = [n] := by
    have : y.x.shape.length = 1 := h1
    match hy : y.x.shape, this with
    | [a], _ => exact ⟨a, rfl⟩
  have hline : ∀ x : NDArray Val, x.shape = y.x.shape → x.vals = x.line 0 [] := by
    intro x hx
    simp only [NDArray.vals, NDArray.line, hx, hsh, allIdx]
    simp [Function.comp_def, List.map_flatMap, ← List.map_eq_flatMap]
  refine ⟨y.x.line 0 [], line_at hv hl (by rw [hlab]; trivial), ?_⟩
  refine prod_scalar hd ?_ (hline _ rfl)
  rw [reduce_1d_eq (prodRed y.dtype) (y := { y with x := y.x.map (fun v =>
    if v.isNan then .flt (.fin 1) else v) }) (d := .float) (by simp [prodRed, prodDType, hd]) hsz h1 hax, line_map]

/-- C44. `axis=None`: the product of all values that are not NaN, NaN if there is none. -/
theorem C44_prod_all {y : Larry L} (hv : y.Valid) (hd : y.dtype = .float) (hsz : y.shape.prod ≠ 0) :
    ∃ vs, AllValues y vs ∧ y.prod none = .ok (.scalar (prodSpec vs)) := by
  refine ⟨_, vals_all hv, prod_scalar hd ?_ rfl⟩
  rw [reduce_none_eq (prodRed y.dtype) (y := { y with x := y.x.map (fun v =>
    if v.isNan then .flt (.fin 1) else v) }) (d := .float) (by simp [prodRed, prodDType, hd]) hsz]
  simp [NDArray.vals, NDArray.map, Function.comp_def]

/-- C44. NaN is skipped wherever it stands: when the values that are not NaN are the finite numbers
`qs`, and there is at least one, the product is exactly that of `qs`. -/
theorem C44_finite (qs : List ℚ) (vs : List Val)
    (h : (vs.map Val.num).filter (fun f => !f.isNan) = qs.map Flt.fin) (hne : qs ≠ []) :
    prodSpec vs = .flt (.fin qs.prod) := by
  have hnot : ¬ ∀ v ∈ vs, v.num = .nan := by
    intro hall
    have : (vs.map Val.num).filter (fun f => !f.isNan) = [] := by
      rw [List.filter_eq_nil_iff]
      intro f hf
      obtain ⟨v, hv, rfl⟩ := List.mem_map.mp hf
      simp [hall v hv, Flt.isNan]
    rw [h] at this
    simp at this
    exact hne this
  unfold prodSpec
  rw [if_neg hnot]
  unfold nanProd Flt.prod
  rw [h]
  have : ∀ acc : ℚ, (qs.map Flt.fin).foldl Flt.mul (.fin acc) = .fin (acc * qs.prod) := by
    clear h hne hnot
    induction qs with
    | nil => intro acc; simp
    | cons q qs ih => intro acc; simp [Flt.mul, ih, mul_assoc]
  rw [this, one_mul]

example : exA.Valid ∧ exA.dtype = .float ∧ exA.shape.prod ≠ 0 ∧ pyIdx exA.ndim 1 = some 1 ∧ 2 ≤ exA.ndim ∧
    prodSpec [fl 4, .flt .nan, fl 6] = fl 24 :=
  ⟨exA_valid, rfl, by decide, rfl, by decide,
    (C44_finite [4, 6] _ rfl (by decide)).trans (by norm_num)⟩

/-- The whole number an int or boolean element stands for: True is 1 and False 0. -/
def Whole : Val → Int → Prop
  | .int n, m => m = n
  | .bool true, m => m = 1
  | .bool false, m => m = 0
  | _, _ => False

/-- `v` is the exact product of the whole numbers that the values stand for. -/
def WholeProd (vs : List Val) (v : Val) : Prop :=
  ∀ ns : List Int, List.Forall₂ Whole vs ns → v = .int ns.prod

theorem npProd_whole {d : DType} (hd : d = .int ∨ d = .bool) (vs : List Val) : WholeProd vs (npProd d vs) := by
  intro ns h
  have e : npProd d vs = .int (vs.map intOf).prod := by rcases hd with rfl | rfl <;> rfl
  rw [e]
  clear e
  congr 2
  induction h with
  | nil => rfl
  | @cons v n vs ns hvn _ ih =>
    rw [List.map_cons, ih]
    congr 1
    match v, hvn with
    | .int m, h => exact h.symm
    | .bool true, h => exact h.symm
    | .bool false, h => exact h.symm

theorem Typed.not_nan {y : Larry L} (ht : y.Typed) (hd : y.dtype = .int ∨ y.dtype = .bool) {idx : List Nat}
    (h : InB y.x.shape idx) : (y.x.get idx).isNan = false := by
  have := ht idx h
  rcases hd with hd | hd <;> rw [hd] at this <;> cases hx : y.x.get idx <;> rw [hx] at this <;>
    first | rfl | simp [Val.hasDType] at this

/-- C44. Along an axis of an int or boolean larry: the exact product of the whole numbers along the axis,
as an int (no overflow here). -/
theorem C44_whole_axis {y : Larry L} (hv : y.Valid) (ht : y.Typed) (hd : y.dtype = .int ∨ y.dtype = .bool)
    (hsz : y.shape.prod ≠ 0) {axis : Int} {ax : Nat} (hax : pyIdx y.ndim axis = some ax) (h2 : 2 ≤ y.ndim) :
    ∃ z, y.prod (some axis) = .ok (.larry z) ∧ z.Valid ∧ z.dtype = .int ∧ z.label = y.label.eraseIdx ax ∧
      ∀ rest, Named z.label rest → ∃ vs v, y.LineAt ax rest vs ∧ z.Has rest v ∧ WholeProd vs v := by
  obtain ⟨l, hl, hlt⟩ := label_at hv hax
  set one : NDArray Val := y.x.map (fun v => if v.isNan then .flt (.fin 1) else v) with hone
  have hsh : one.shape = y.x.shape := rfl
  have hr : reduce (prodRed y.dtype) { y with x := one } (some axis) =
      .ok (.larry ⟨one.reduceAx (npProd y.dtype) ax, .int, y.label.eraseIdx ax⟩) := by
    rw [reduce_axis_eq (prodRed y.dtype) (y := { y with x := one }) (d := .int) hv
      (by rcases hd with h | h <;> simp [prodRed, prodDType, h]) hsz hax h2]
    rfl
  have hm : ∀ a m, maskNan .int a m = a := by intro a m; simp [maskNan]
  refine ⟨⟨one.reduceAx (npProd y.dtype) ax, .int, y.label.eraseIdx ax⟩, ?_,
    validLabels_erase hv hlt (by rw [hv.label_length]; exact h2), rfl, rfl, ?_⟩
  · unfold Larry.prod
    rw [if_neg (by rcases hd with h | h <;> simp [h])]
    simp only [← hone, hr, hax, hm]
  · intro rest hrest
    obtain ⟨ridx, hat⟩ := At_of_Named hrest
    have hline := line_at hv hl hat
    refine ⟨_, _, hline, ⟨ridx, hat, rfl⟩, ?_⟩
    change WholeProd _ (npProd y.dtype (one.line ax ridx))
    have e : one.line ax ridx = y.x.line ax ridx := by
      rw [hone, line_map]
      conv_rhs => rw [← List.map_id (y.x.line ax ridx)]
      refine List.map_congr_left fun v hvm => ?_
      obtain ⟨l', _, hlen, hcell⟩ := hline
      obtain ⟨i, hi⟩ := List.mem_iff_getElem?.mp hvm
      have hil := (List.getElem?_eq_some_iff.mp hi).1
      obtain ⟨idx, hat', rfl⟩ := hcell i _ v (List.getElem?_eq_getElem (by omega : i < l'.length)) hi
      rw [Typed.not_nan ht hd (by rw [hv.shape_eq]; exact At_inB hat')]
      rfl
    rw [e]
    exact npProd_whole hd _

/-- C44. All values of an int or boolean larry, and the values of a 1d one. -/
theorem C44_whole_all {y : Larry L} (hv : y.Valid) (ht : y.Typed) (hd : y.dtype = .int ∨ y.dtype = .bool)
    (hsz : y.shape.prod ≠ 0) :
    ∃ vs v, AllValues y vs ∧ y.prod none = .ok (.scalar v) ∧ WholeProd vs v := by
  have hnan : ∀ v ∈ y.x.vals, v.isNan = false := by
    intro v hvm
    obtain ⟨idx, hidx, rfl⟩ := List.mem_map.mp hvm
    exact Typed.not_nan ht hd (mem_allIdx.mp hidx)
  have e : (y.x.map (fun v => if v.isNan then .flt (.fin 1) else v)).vals = y.x.vals := by
    have : (y.x.map (fun v => if v.isNan then .flt (.fin 1) else v)).vals =
        y.x.vals.map (fun v => if v.isNan then .flt (.fin 1) else v) := by
      simp [NDArray.vals, NDArray.map, Function.comp_def]
    rw [this]
    conv_rhs => rw [← List.map_id y.x.vals]
    refine List.map_congr_left fun v hvm => ?_
    rw [hnan v hvm]; rfl
  refine ⟨_, npProd y.dtype y.x.vals, vals_all hv, ?_, npProd_whole hd _⟩
  unfold Larry.prod
  rw [if_neg (by rcases hd with h | h <;> simp [h])]
  have hr := reduce_none_eq (prodRed y.dtype) (y := { y with x := y.x.map (fun v =>
    if v.isNan then .flt (.fin 1) else v) }) (d := .int)
    (by rcases hd with h | h <;> simp [prodRed, prodDType, h]) hsz
  simp only [hr, e]
  have hne : y.x.vals ≠ [] := by
    intro h0
    have : y.x.vals.length = y.x.shape.prod := by simp [NDArray.vals, length_allIdx]
    rw [h0] at this
    exact hsz this.symm
  have hall : (y.x.map Val.isNan).vals.all id = false := by
    have : (y.x.map Val.isNan).vals = y.x.vals.map Val.isNan := by
      simp [NDArray.vals, NDArray.map, Function.comp_def]
    rw [this]
    match hx : y.x.vals, hne with
    | v :: vs, _ =>
      have := hnan v (by rw [hx]; simp)
      simp [this]
  rw [hall]
  rfl

example : WholeProd [.int 4, .bool true, .int (-2)] (.int (-8)) ∧ WholeProd [.bool true, .bool false] (.int 0) := by
  constructor <;> intro ns h
  · match ns, h with
    | [a, b, c], h =>
      simp only [List.forall₂_cons, List.Forall₂.nil, Whole] at h
      obtain ⟨rfl, rfl, rfl, _⟩ := h
      rfl
  · match ns, h with
    | [a, b], h =>
      simp only [List.forall₂_cons, List.Forall₂.nil, Whole] at h
      obtain ⟨rfl, rfl, _⟩ := h
      rfl

/-- A 2d larry of booleans with one False. -/
def exBits : Larry Nat := ⟨⟨[2, 2], fun i => .bool (i ≠ [0, 1])⟩, .bool, [[1, 2], [3, 4]]⟩

example : exBits.Valid ∧ exBits.Typed ∧ exBits.dtype = .bool ∧ exBits.shape.prod ≠ 0 ∧
    pyIdx exBits.ndim 1 = some 1 ∧ 2 ≤ exBits.ndim :=
  ⟨⟨rfl, by decide, by decide⟩, fun _ _ => rfl, rfl, by decide, rfl, by decide⟩

end La
