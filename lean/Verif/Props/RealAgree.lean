import Verif.Props.RealLog
import Verif.Stats
import Verif.Props.Gaps

/-!
# C133: the methods of larry compute what the functions of arrays compute

C131 and C132 are about the array of a larry, with real numbers; other properties are about the methods of larry, with rational
numbers.  Here the two are compared.
-/

namespace La

/-! ## Specification -/

/-- A float with a rational value as one with a real value. -/
noncomputable def Flt.real : Flt → RFlt
  | .nan => .nan
  | .pinf => .pinf
  | .ninf => .ninf
  | .fin q => .fin (q : ℝ)

/-- The array of a larry of numbers, in real numbers. -/
noncomputable def Larry.reals {L : Type _} (y : Larry L) : NDArray RFlt := y.x.map fun v => v.num.real

/-- What a reduction of a larry returns has the elements of the array `z`. -/
def Out.Shows {L : Type _} (o : Out L) (z : NDArray RFlt) : Prop :=
  match o with
  | .scalar v => z.shape = [] ∧ v.num.real = z.get []
  | .larry w => w.x.shape = z.shape ∧ ∀ idx, InB z.shape idx → (w.x.get idx).num.real = z.get idx

/-- The elements of `z` are those of the array `w`, and it has the labels of `y`. -/
def Larry.Follows {L : Type _} (z y : Larry L) (w : NDArray RFlt) : Prop :=
  z.label = y.label ∧ z.dtype = .float ∧ z.x.shape = y.x.shape ∧ w.shape = y.x.shape ∧
    ∀ idx, InB y.x.shape idx → (z.x.get idx).num.real = w.get idx

/-- The standard deviation that `std` gives for the line `l` is the real one.  A rational number can be that only if the
root is rational. -/
def ExactFor (std : List Flt → Flt) (ddof : Int) (l : List Flt) : Prop := (std l).real = RFlt.nanstd ddof (l.map Flt.real)

/-- A line less its mean. -/
def centred (l : List Flt) : List Flt := l.map fun v => v.sub (nanmean l)

/-! ## Elements -/

namespace Flt

theorem real_isNan (a : Flt) : a.real.isNan = a.isNan := by cases a <;> rfl

theorem real_infOf (q : ℚ) : (infOf q).real = RFlt.infOf (q : ℝ) := by
  unfold infOf RFlt.infOf
  rcases lt_trichotomy q 0 with h | h | h
  · have : (q : ℝ) < 0 := by exact_mod_cast h
    simp [h.ne, not_lt.mpr h.le, real, this, not_lt.mpr this.le]
  · simp [h, real]
  · have : (0 : ℝ) < (q : ℝ) := by exact_mod_cast h
    simp [h.ne', h, real, this]

theorem real_neg (a : Flt) : a.neg.real = a.real.neg := by cases a <;> simp [neg, real, RFlt.neg]

theorem real_add (a b : Flt) : (a.add b).real = a.real.add b.real := by
  cases a <;> cases b <;> simp [add, real, RFlt.add]

theorem real_sub (a b : Flt) : (a.sub b).real = a.real.sub b.real := by
  rw [sub, RFlt.sub, real_add, real_neg]

theorem real_mul (a b : Flt) : (a.mul b).real = a.real.mul b.real := by
  have hneg : ∀ q : ℚ, (infOf (-q)).real = RFlt.infOf (-(q : ℝ)) := fun q => by rw [real_infOf, Rat.cast_neg]
  cases a <;> cases b <;>
    first | rfl | exact real_infOf _ | exact hneg _ | simp [mul, real, RFlt.mul]

theorem real_div (a b : Flt) : (a.div b).real = a.real.div b.real := by
  cases a <;> cases b <;> simp only [div, real, RFlt.div]
  · split_ifs with h1 h2 h2 <;> first | rfl | exact absurd (by exact_mod_cast h1) h2 | exact absurd (by exact_mod_cast h2) h1
  · split_ifs with h1 h2 h2 <;> first | rfl | exact absurd (by exact_mod_cast h1) h2 | exact absurd (by exact_mod_cast h2) h1
  · norm_num
  · norm_num
  · split_ifs with h1 h2 h2
    · exact real_infOf _
    · exact absurd (by exact_mod_cast h1) h2
    · exact absurd (by exact_mod_cast h2) h1
    · simp

theorem real_sum (l : List Flt) : (Flt.sum l).real = RFlt.sum (l.map real) := by
  have : ∀ (l : List Flt) (a : Flt), (l.foldl add a).real = (l.map real).foldl RFlt.add a.real := by
    intro l
    induction l with
    | nil => intro a; rfl
    | cons v l ih => intro a; rw [List.foldl_cons, ih, real_add]; rfl
  rw [Flt.sum, this, RFlt.sum]
  simp [real]

theorem real_filter (l : List Flt) :
    (l.filter fun v => !v.isNan).map real = (l.map real).filter fun v => !v.isNan := by
  rw [List.filter_map]
  congr 1
  apply List.filter_congr
  intro v _
  simp [real_isNan]

theorem real_nanmean (l : List Flt) : (nanmean l).real = RFlt.nanmean (l.map real) := by
  simp only [nanmean, RFlt.nanmean, real_div, real_sum, real_filter, RFlt.mean]
  rw [← real_filter, List.length_map]
  split_ifs with h
  · rw [List.length_eq_zero_iff.mp h]
    simp [RFlt.sum, RFlt.div, RFlt.infOf, real]
  · simp [real]

theorem real_varOf (ddof : Int) (l : List Flt) : (varOf ddof l).real = RFlt.nanvar ddof (l.map real) := by
  simp only [varOf, RFlt.nanvar, RFlt.mean]
  rw [← real_filter, List.length_map]
  split_ifs with h
  · rfl
  · rw [real_div, real_sum, List.map_map, List.map_map]
    have hm : ((Flt.sum (l.filter fun v => !v.isNan)).div (.fin ((l.filter fun v => !v.isNan).length : ℚ))).real =
        (RFlt.sum ((l.filter fun v => !v.isNan).map real)).div (.fin ((l.filter fun v => !v.isNan).length : ℝ)) := by
      rw [real_div, real_sum]; simp [real]
    congr 2
    · apply List.map_congr_left
      intro v _
      simp only [Function.comp]
      rw [real_mul, real_sub, hm]
    · simp [real]

end Flt

theorem plus_real (a b : Val) : (plusVal a b).num.real = a.num.real.add b.num.real := by
  rw [← Flt.real_add]
  congr 1
  cases a <;> cases b <;> simp [plusVal, Val.num, Flt.add]

theorem count_num (v : Val) : (countVal v).num = v.num := by
  cases v <;> simp [countVal, Val.num]

theorem nansum_real (vs : List Val) : (bnNansum.f vs).num.real = RFlt.nansum (vs.map fun v => v.num.real) := by
  have hf : ((vs.map countVal).filter fun v => !v.isNan).map (fun v => v.num.real) =
      (vs.map fun v => v.num.real).filter fun v => !v.isNan := by
    rw [List.filter_map, List.filter_map, List.map_map]
    have : vs.filter ((fun v => !v.isNan) ∘ countVal) = vs.filter ((fun v => !v.isNan) ∘ fun v : Val => v.num.real) := by
      apply List.filter_congr
      intro v _
      simp [Val.isNan, count_num, Flt.real_isNan]
    rw [this]
    apply List.map_congr_left
    intro v _
    simp [count_num]
  have hfold : ∀ (ws : List Val) (a : Val),
      (ws.foldl plusVal a).num.real = (ws.map fun v => v.num.real).foldl RFlt.add a.num.real := by
    intro ws
    induction ws with
    | nil => intro a; rfl
    | cons v ws ih => intro a; rw [List.foldl_cons, ih, plus_real]; rfl
  have h0 : ∀ v : RFlt, (RFlt.fin 0).add v = v := fun v => by cases v <;> simp [RFlt.add]
  simp only [RFlt.nansum, ← hf, List.length_map]
  show (nanFold plusVal countVal vs).num.real = _
  unfold nanFold
  split
  next h => rw [h]; rfl
  next v ws h => rw [h, hfold, if_neg (by simp), List.map_cons, RFlt.sum, List.foldl_cons, h0]

/-! ## Reductions -/

variable {L : Type _}

theorem reals_vals (y : Larry L) : y.reals.vals = y.x.vals.map fun v => v.num.real := by
  simp [Larry.reals, NDArray.vals, NDArray.map]

theorem reals_line (y : Larry L) (ax : Nat) (rest : List Nat) :
    y.reals.line ax rest = (y.x.line ax rest).map fun v => v.num.real := by
  simp [Larry.reals, NDArray.line, NDArray.map]

theorem reduce_agrees {y : Larry L} (hv : y.Valid) (hs : y.size ≠ 0) {r : Red} {d : DType} (hd : r.dt y.dtype = .ok d)
    {f : List RFlt → RFlt} {axis : Option Int} {ax : Option Nat} (hax : Names y.ndim axis ax)
    (hf : ∀ rest, InB (shapeWithout y.x.shape ax) rest →
      (r.f (walk y.x ax rest)).num.real = f ((walk y.x ax rest).map fun v => v.num.real)) :
    ∃ o z, y.reduce r axis = .ok o ∧ reduceArr f y.reals axis = .ok z ∧ o.Shows z := by
  match axis, ax, hax, hf with
  | none, none, _, hf =>
    refine ⟨.scalar (r.f y.x.vals), _, by simp only [Larry.reduce, if_neg hs, hd], rfl, rfl, ?_⟩
    have := hf [] trivial
    show (r.f y.x.vals).num.real = f y.reals.vals
    rw [reals_vals]
    exact this
  | some a, some k, h, hf =>
    have hp : pyIdx y.ndim a = some k := h.pyIdx
    have hp2 : pyIdx y.reals.ndim a = some k := h.pyIdx
    have hpop : pyPop y.label a = .ok (y.label.eraseIdx k) := by
      have : y.label.length = y.ndim := by
        have := congrArg List.length hv.shape_eq
        rw [List.length_map] at this
        exact this.symm
      simp only [pyPop, this, hp]
    have hshape : (y.x.reduceAx r.f k).shape = (y.reals.reduceAx f k).shape := rfl
    have hget : ∀ rest, InB (y.reals.reduceAx f k).shape rest →
        ((y.x.reduceAx r.f k).get rest).num.real = (y.reals.reduceAx f k).get rest := fun rest hr => by
      have := hf rest hr
      show (r.f (y.x.line k rest)).num.real = f (y.reals.line k rest)
      rw [reals_line]
      exact this
    by_cases h0 : (y.x.reduceAx r.f k).shape.length = 0
    · have h1 : (y.reals.reduceAx f k).shape = [] := by rw [← hshape]; exact List.length_eq_zero_iff.mp h0
      exact ⟨.scalar ((y.x.reduceAx r.f k).get []), y.reals.reduceAx f k,
        by simp only [Larry.reduce, if_neg hs, hd, hp, if_pos h0], by simp only [reduceArr, hp2], h1,
        hget [] (by rw [h1]; trivial)⟩
    · exact ⟨.larry ⟨y.x.reduceAx r.f k, d, y.label.eraseIdx k⟩, y.reals.reduceAx f k,
        by simp only [Larry.reduce, if_neg hs, hd, hp, if_neg h0, hpop], by simp only [reduceArr, hp2], hshape, hget⟩

theorem statDType_numeric {d : DType} (h : d.isNumeric = true) : statDType d = .ok .float := by
  cases d <;> first | rfl | cases h

/-- C133. mean, var and sum of a larry of numbers are those of its array. -/
theorem C133_reductions {y : Larry L} (hv : y.Valid) (hs : y.size ≠ 0) (hd : y.dtype.isNumeric = true)
    {axis : Option Int} {ax : Option Nat} (hax : Names y.ndim axis ax) (ddof : Int) :
    (∃ o z, y.mean axis = .ok o ∧ meanArr y.reals axis = .ok z ∧ o.Shows z) ∧
    (∃ o z, y.sum axis = .ok o ∧ sumArr y.reals axis = .ok z ∧ o.Shows z) ∧
    (∃ o z, y.var axis ddof = .ok o ∧ reduceArr (RFlt.nanvar ddof) y.reals axis = .ok z ∧ o.Shows z) := by
  refine ⟨reduce_agrees hv hs (statDType_numeric hd) hax (fun rest _ => ?_), ?_,
    reduce_agrees hv hs (statDType_numeric hd) hax (fun rest _ => ?_)⟩
  · show (nanmean ((walk y.x ax rest).map Val.num)).real = _
    rw [Flt.real_nanmean, List.map_map]
    rfl
  · have : ∃ d, bnNansum.dt y.dtype = .ok d := by
      cases h : y.dtype <;> first | exact ⟨_, rfl⟩ | (rw [h] at hd; cases hd)
    obtain ⟨d, h⟩ := this
    exact reduce_agrees hv hs h hax (fun rest _ => nansum_real _)
  · show (varOf ddof ((walk y.x ax rest).map Val.num)).real = _
    rw [Flt.real_varOf, List.map_map]
    rfl

/-- C133. std of a larry of numbers is that of its array, where the roots of the variances are rational and `root` finds
them. -/
theorem C133_std {root : Flt → Flt} {y : Larry L} (hv : y.Valid) (hs : y.size ≠ 0) (hd : y.dtype.isNumeric = true)
    {axis : Option Int} {ax : Option Nat} (hax : Names y.ndim axis ax) (ddof : Int)
    (hroot : ∀ rest, InB (shapeWithout y.x.shape ax) rest →
      (root (varOf ddof ((walk y.x ax rest).map Val.num))).real = (varOf ddof ((walk y.x ax rest).map Val.num)).real.sqrt) :
    ∃ o z, y.std root axis ddof = .ok o ∧ stdArr y.reals axis ddof = .ok z ∧ o.Shows z := by
  have h : stdArr y.reals axis ddof = reduceArr (RFlt.nanstd ddof) y.reals axis := rfl
  rw [h]
  refine reduce_agrees hv hs (statDType_numeric hd) hax (fun rest hr => ?_)
  show (root (varOf ddof ((walk y.x ax rest).map Val.num))).real = _
  rw [hroot rest hr, Flt.real_varOf, List.map_map]
  rfl

theorem prod_real (vs : List Val) :
    (if (vs.map Val.isNan).all id then Flt.nan
      else Flt.prod ((vs.map fun v => if v.isNan then .flt (.fin 1) else v).map Val.num)).real =
    prodReal (vs.map fun v => v.num.real) := by
  have hall : (vs.map Val.isNan).all id = (vs.map fun v => v.num.real).all RFlt.isNan := by
    rw [List.all_map, List.all_map]
    congr 1
    funext v
    exact (Flt.real_isNan _).symm
  have hmap : ((vs.map fun v => if v.isNan then .flt (.fin 1) else v).map Val.num).map Flt.real =
      (vs.map fun v => v.num.real).map fun v => RFlt.put v.isNan (.fin 1) v := by
    simp only [List.map_map]
    apply List.map_congr_left
    intro v _
    have e : v.num.real.isNan = v.isNan := Flt.real_isNan _
    simp only [Function.comp, RFlt.put, e]
    cases v.isNan
    · rfl
    · show (Flt.fin 1).real = RFlt.fin 1
      simp [Flt.real]
  have hfold : ∀ (l : List Flt) (a : Flt), (l.foldl Flt.mul a).real = (l.map Flt.real).foldl RFlt.mul a.real := by
    intro l
    induction l with
    | nil => intro a; rfl
    | cons v l ih => intro a; rw [List.foldl_cons, ih, Flt.real_mul]; rfl
  simp only [prodReal]
  rw [← hall, ← hmap]
  cases (vs.map Val.isNan).all id
  · show (Flt.prod _).real = _
    rw [Flt.prod, hfold, show (Flt.fin 1).real = RFlt.fin 1 by simp [Flt.real]]
    rfl
  · rfl

theorem line_vals {α : Type _} {x : NDArray α} {n : Nat} (h : x.shape = [n]) : x.line 0 [] = x.vals := by
  have e : allIdx [n] = (List.range n).map fun i => [i] := by
    simp only [allIdx, List.map_cons, List.map_nil]
    exact List.flatMap_pure_eq_map _ _
  simp [NDArray.line, NDArray.vals, h, e]

/-- C133. prod of a larry of floats is that of its array. -/
theorem C133_prod {y : Larry L} (hv : y.Valid) (hs : y.size ≠ 0) (hd : y.dtype = .float)
    {axis : Option Int} {ax : Option Nat} (hax : Names y.ndim axis ax) :
    ∃ o z, y.prod axis = .ok o ∧ prodArr y.reals axis = .ok z ∧ o.Shows z := by
  let one := y.x.map (fun v => if v.isNan then .flt (.fin 1) else v)
  have hs1 : ¬ (⟨one, .float, y.label⟩ : Larry L).size = 0 := hs
  have hline : ∀ k rest, one.line k rest = (y.x.line k rest).map fun v => if v.isNan then .flt (.fin 1) else v := fun k rest => by
    simp [one, NDArray.line, NDArray.map]
  have hvals : one.vals = y.x.vals.map fun v => if v.isNan then .flt (.fin 1) else v := by
    simp [one, NDArray.vals, NDArray.map]
  have hmask : ∀ k rest, (y.x.map Val.isNan).line k rest = (y.x.line k rest).map Val.isNan := fun k rest => by
    simp [NDArray.line, NDArray.map]
  have hmaskv : (y.x.map Val.isNan).vals = y.x.vals.map Val.isNan := by
    simp [NDArray.vals, NDArray.map]
  have hstr : ¬ (y.dtype = .str ∨ y.dtype = .object) := by rw [hd]; decide
  match axis, ax, hax with
  | none, none, _ =>
    refine ⟨.scalar (if (y.x.map Val.isNan).vals.all id then .flt .nan else Larry.npProd .float one.vals),
      ⟨[], fun _ => prodReal y.reals.vals⟩, ?_, rfl, rfl, ?_⟩
    · simp only [Larry.prod, if_neg hstr]
      have : Larry.reduce (Larry.prodRed y.dtype) { y with x := one } none = .ok (.scalar (Larry.npProd .float one.vals)) := by
        simp only [Larry.reduce, hd, if_neg hs1]
        rfl
      rw [this]
    · show Flt.real (Val.num (if (y.x.map Val.isNan).vals.all id then .flt .nan else Larry.npProd .float one.vals)) = prodReal y.reals.vals
      rw [reals_vals, ← prod_real, hvals, hmaskv]
      cases (y.x.vals.map Val.isNan).all id <;> rfl
  | some a, some k, h =>
    have hp : pyIdx y.ndim a = some k := h.pyIdx
    have hp2 : pyIdx y.reals.ndim a = some k := h.pyIdx
    have hpop : pyPop y.label a = .ok (y.label.eraseIdx k) := by
      have : y.label.length = y.ndim := by
        have := congrArg List.length hv.shape_eq
        rw [List.length_map] at this
        exact this.symm
      simp only [pyPop, this, hp]
    have hz : prodArr y.reals (some a) = .ok (y.reals.reduceAx prodReal k) := by simp only [prodArr, reduceArr, hp2]
    by_cases h0 : (y.x.shape.eraseIdx k).length = 0
    · have hr : Larry.reduce (Larry.prodRed y.dtype) { y with x := one } (some a) =
          .ok (.scalar (Larry.npProd .float (one.line k []))) := by
        have hp3 : pyIdx (⟨one, .float, y.label⟩ : Larry L).ndim a = some k := hp
        have h3 : (one.reduceAx (Larry.npProd .float) k).shape.length = 0 := h0
        simp only [Larry.reduce, hd, if_neg hs1, Larry.prodRed, Larry.prodDType, hp3, if_pos h3]
        rfl
      have hlen : y.x.shape.length = 1 := by
        have h4 : k < y.x.shape.length := h.1
        rw [List.length_eraseIdx, if_pos h4] at h0
        omega
      obtain ⟨n, hn⟩ := List.length_eq_one_iff.mp hlen
      have hk : k = 0 := by have h4 : k < y.x.shape.length := h.1; omega
      subst hk
      refine ⟨.scalar (if (y.x.map Val.isNan).vals.all id then .flt .nan else Larry.npProd .float (one.line 0 [])), _, ?_, hz,
        List.length_eq_zero_iff.mp h0, ?_⟩
      · simp only [Larry.prod, if_neg hstr]
        rw [hr]
      · show Flt.real (Val.num (if (y.x.map Val.isNan).vals.all id then .flt .nan else Larry.npProd .float (one.line 0 []))) =
          prodReal (y.reals.line 0 [])
        rw [reals_line, ← prod_real, hline, hmaskv, line_vals hn]
        cases (y.x.vals.map Val.isNan).all id <;> rfl
    · have hr : Larry.reduce (Larry.prodRed y.dtype) { y with x := one } (some a) =
          .ok (.larry ⟨one.reduceAx (Larry.npProd .float) k, .float, y.label.eraseIdx k⟩) := by
        have hp3 : pyIdx (⟨one, .float, y.label⟩ : Larry L).ndim a = some k := hp
        have h3 : ¬ (one.reduceAx (Larry.npProd .float) k).shape.length = 0 := h0
        simp only [Larry.reduce, hd, if_neg hs1, Larry.prodRed, Larry.prodDType, hp3, if_neg h3, hpop]
      refine ⟨.larry ⟨Larry.maskNan .float (one.reduceAx (Larry.npProd .float) k)
        ((y.x.map Val.isNan).reduceAx (fun l => l.all id) k), .float, y.label.eraseIdx k⟩, _, ?_, hz, rfl, fun idx _ => ?_⟩
      · simp only [Larry.prod, if_neg hstr]
        rw [hr]
        simp only [hp]
      · show Flt.real (Val.num (if ((y.x.map Val.isNan).line k idx).all id && decide (DType.float = .float) then .flt .nan
          else Larry.npProd .float (one.line k idx))) = prodReal (y.reals.line k idx)
        rw [reals_line, ← prod_real, hline, hmask]
        cases ((y.x.line k idx).map Val.isNan).all id <;> rfl

/-! ## Methods that keep the shape -/

theorem insert_self {idx : List Nat} {k : Nat} (hk : k < idx.length) : (idx.eraseIdx k).insertIdx k (idx.getD k 0) = idx := by
  have := List.insertIdx_eraseIdx_getElem hk
  simpa [List.getD, List.getElem?_eq_getElem hk] using this

theorem line_getElem {α : Type _} (x : NDArray α) {k : Nat} {idx : List Nat} (hi : InB x.shape idx) (hk : k < x.shape.length) :
    (x.line k (idx.eraseIdx k))[idx.getD k 0]? = some (x.get idx) := by
  have hlen := InB_length hi
  rw [NDArray.line, List.getElem?_map, List.getElem?_range (inB_at hi hk), Option.map_some, insert_self (by omega)]

/-- Methods that work along an axis, or on all elements as one line, by a function that treats each element by what is
computed from the line. -/
theorem along_agrees {y : Larry L} {f : List Val → List Val} {g : List RFlt → RFlt → RFlt} {ax : Option Nat}
    (hax : ∀ k, ax = some k → k < y.x.shape.length)
    (hf : ∀ rest, InB (shapeWithout y.x.shape ax) rest → ∃ h : Val → Val, f (walk y.x ax rest) = (walk y.x ax rest).map h ∧
      ∀ v, (h v).num.real = g ((walk y.x ax rest).map fun v => v.num.real) v.num.real) {idx : List Nat} (hi : InB y.x.shape idx) :
    match ax with
    | none => ((y.alongAll f .float).x.get idx).num.real = g (walk y.reals none []) (y.reals.get idx)
    | some k => ((y.along f .float k).x.get idx).num.real = g (walk y.reals (some k) (idx.eraseIdx k)) (y.reals.get idx) := by
  match ax, hax, hf with
  | none, _, hf =>
    obtain ⟨h, h1, h2⟩ := hf [] trivial
    have hv : y.x.vals[ravelC y.x.shape idx]? = some (y.x.get idx) := by
      rw [ravelC_eq, NDArray.vals, List.getElem?_map, allIdx_getElem? hi, Option.map_some]
    show ((f y.x.vals).getD (ravelC y.x.shape idx) .none).num.real = g y.reals.vals (y.reals.get idx)
    rw [show f y.x.vals = y.x.vals.map h from h1, List.getD, List.getElem?_map, hv, Option.map_some, Option.getD_some, h2,
      reals_vals]
    rfl
  | some k, hax, hf =>
    have hk := hax k rfl
    obtain ⟨h, h1, h2⟩ := hf (idx.eraseIdx k) (InB_erase hi hk)
    show ((f (y.x.line k (idx.eraseIdx k))).getD (idx.getD k 0) .none).num.real =
      g (y.reals.line k (idx.eraseIdx k)) (y.reals.get idx)
    rw [show f (y.x.line k (idx.eraseIdx k)) = (y.x.line k (idx.eraseIdx k)).map h from h1, List.getD, List.getElem?_map,
      line_getElem y.x hi hk, Option.map_some, Option.getD_some, h2, reals_line]
    rfl

/-- C133. demean of a larry of numbers has its labels, and the elements that the function demean gives for its array. -/
theorem C133_demean {y : Larry L} (hd : y.dtype.isNumeric = true) {axis : Option Int} {ax : Option Nat}
    (hax : Names y.ndim axis ax) : ∃ z, y.demean nanmean axis = .ok z ∧ z.Follows y (demeanArr y.reals ax) := by
  have hf : ∀ vs : List Val, ∃ h : Val → Val, demeanLine nanmean vs = vs.map h ∧
      ∀ v, (h v).num.real = v.num.real.sub (RFlt.nanmean (vs.map fun v => v.num.real)) := fun vs =>
    ⟨_, rfl, fun v => by
      show (v.num.sub (nanmean (vs.map Val.num))).real = _
      rw [Flt.real_sub, Flt.real_nanmean, List.map_map]
      rfl⟩
  match axis, ax, hax with
  | none, none, _ =>
    exact ⟨y.alongAll (demeanLine nanmean) .float, by simp [Larry.demean, hd], rfl, rfl, rfl, rfl, fun idx hi =>
      along_agrees (g := fun l v => v.sub (RFlt.nanmean l)) (ax := none) (fun _ h => nomatch h) (fun _ _ => hf _) hi⟩
  | some a, some k, h =>
    have hp : npAxis y.ndim a = .ok k := by simp only [npAxis, h.pyIdx]
    exact ⟨y.along (demeanLine nanmean) .float k, by simp [Larry.demean, hd, hp], rfl, rfl, rfl, rfl, fun idx hi =>
      along_agrees (g := fun l v => v.sub (RFlt.nanmean l)) (ax := some k) (fun _ e => by cases e; exact h.1)
        (fun _ _ => hf _) hi⟩

/-- C133. zscore of a larry of numbers has its labels, and the elements that the function zscore gives for its array,
where the standard deviations are exact. -/
theorem C133_zscore {std : List Flt → Flt} {y : Larry L} (hd : y.dtype.isNumeric = true) {axis : Option Int} {ax : Option Nat}
    (hax : Names y.ndim axis ax)
    (hstd : ∀ rest, InB (shapeWithout y.x.shape ax) rest → ExactFor std 0 (centred ((walk y.x ax rest).map Val.num))) :
    ∃ z w, y.zscore std axis = .ok z ∧ zscoreArr y.reals axis = .ok w ∧ z.Follows y w := by
  let sub := fun (l : List RFlt) (v : RFlt) => v.sub (RFlt.nanmean l)
  let g := fun (l : List RFlt) (v : RFlt) => (sub l v).div (RFlt.nanstd 0 (l.map (sub l)))
  have hlt : ∀ k, ax = some k → k < y.x.shape.length := fun k e => hax.lt k e
  have hf : ∀ rest, InB (shapeWithout y.x.shape ax) rest → ∃ h : Val → Val,
      zscoreLine std (walk y.x ax rest) = (walk y.x ax rest).map h ∧
      ∀ v, (h v).num.real = g ((walk y.x ax rest).map fun v => v.num.real) v.num.real := by
    intro rest hr
    have he := hstd rest hr
    generalize walk y.x ax rest = vs at he ⊢
    have hm : (nanmean (vs.map Val.num)).real = RFlt.nanmean (vs.map fun v => v.num.real) := by
      rw [Flt.real_nanmean, List.map_map]; rfl
    refine ⟨fun v => .flt ((v.num.sub (nanmean (vs.map Val.num))).div (std (centred (vs.map Val.num)))), ?_, fun v => ?_⟩
    · simp only [zscoreLine, demeanLine, centred, List.map_map, Function.comp_def, Val.num]
    · show ((v.num.sub (nanmean (vs.map Val.num))).div (std (centred (vs.map Val.num)))).real = _
      rw [Flt.real_div, Flt.real_sub, hm, he]
      simp only [g, sub, centred, List.map_map, Function.comp_def, Flt.real_sub, hm]
  match axis, ax, hax, hlt, hf with
  | none, none, _, hlt, hf =>
    refine ⟨y.alongAll (zscoreLine std) .float, zscoreAx y.reals none, by simp [Larry.zscore, hd], rfl, rfl, rfl, rfl, rfl,
      fun idx hi => ?_⟩
    rw [along_agrees (ax := none) hlt hf hi]
    have e := walk_withReduced RFlt.nanmean RFlt.sub (x := y.reals) (ax := none) (rest := []) (fun _ h => nomatch h) trivial
    show _ = ((y.reals.get idx).sub _).div (RFlt.nanstd 0 (walk (withReduced RFlt.nanmean RFlt.sub y.reals none) none []))
    rw [e]
    rfl
  | some a, some k, h, hlt, hf =>
    have hp : npAxis y.ndim a = .ok k := by simp only [npAxis, h.pyIdx]
    refine ⟨y.along (zscoreLine std) .float k, zscoreAx y.reals (some k), by simp [Larry.zscore, hd, hp],
      zscoreArr_ok (x := y.reals) h, rfl, rfl, rfl, rfl, fun idx hi => ?_⟩
    rw [along_agrees (ax := some k) hlt hf hi]
    have e := walk_withReduced RFlt.nanmean RFlt.sub (x := y.reals) (ax := some k) (rest := idx.eraseIdx k) hlt
      (InB_erase hi h.1)
    show _ = ((y.reals.get idx).sub _).div
      (RFlt.nanstd 0 (walk (withReduced RFlt.nanmean RFlt.sub y.reals (some k)) (some k) (idx.eraseIdx k)))
    rw [e]
    rfl

theorem cumGo_real {op : Val → Val → Val} {rop : RFlt → RFlt → RFlt}
    (hop : ∀ a b, (op a b).num.real = rop a.num.real b.num.real) (vs : List Val) (acc : Val) :
    (cumGo op acc vs).map (fun v => v.num.real) = running rop acc.num.real (vs.map fun v => v.num.real) := by
  induction vs generalizing acc with
  | nil => rfl
  | cons v vs ih => simp only [cumGo, running, List.map_cons, ih, hop]

theorem cumGo_len {α : Type _} (op : α → α → α) (l : List α) (a : α) : (cumGo op a l).length = l.length := by
  induction l generalizing a with
  | nil => rfl
  | cons v l ih => simp [cumGo, ih]

theorem cumulate_agrees {op : DType → Val → Val → Val} {rop : RFlt → RFlt → RFlt} {unit : Int}
    (hop : ∀ a b, (op .float a b).num.real = rop a.num.real b.num.real) {y : Larry L} (hd : y.dtype = .float) {a : Int} {k : Nat}
    (hax : Names y.ndim (some a) (some k)) :
    ∃ z w, y.cumulate op unit (some a) = .ok z ∧ cumArr rop (.fin unit) y.reals (some a) = .ok w ∧ z.Follows y w := by
  have hp : npAxis y.ndim a = .ok k := by simp only [npAxis, hax.pyIdx]
  have hp2 : pyIdx y.reals.ndim a = some k := hax.pyIdx
  have hnum : DType.float.isNumeric ≠ false := by decide
  have hu : (ofInt .float unit).num.real = .fin (unit : ℝ) := by simp [ofInt, Val.num, Flt.real]
  refine ⟨⟨⟨y.x.shape, fun i => if (y.x.get i).isNan then .flt .nan else ((y.x.map (replaceNan (ofInt .float unit))).mapLines
    (cumGo (op .float) (ofInt .float unit)) .none k).get i⟩, .float, y.label⟩, y.reals.mapLines (cumReal rop (.fin unit)) .nan k,
    by simp only [Larry.cumulate, hd, hp, if_neg hnum]; rfl, by simp only [cumArr, hp2], rfl, rfl, rfl, rfl, fun idx hi => ?_⟩
  have hl := line_getElem y.x hi hax.1
  have hm : (y.x.map (replaceNan (ofInt .float unit))).line k (idx.eraseIdx k) =
      (y.x.line k (idx.eraseIdx k)).map (replaceNan (ofInt .float unit)) := by
    simp [NDArray.line, NDArray.map]
  show Flt.real (Val.num (if (y.x.get idx).isNan then .flt .nan else (cumGo (op .float) (ofInt .float unit)
      ((y.x.map (replaceNan (ofInt .float unit))).line k (idx.eraseIdx k))).getD (idx.getD k 0) .none)) =
    (cumReal rop (.fin unit) (y.reals.line k (idx.eraseIdx k))).getD (idx.getD k 0) .nan
  rw [hm, reals_line]
  generalize y.x.line k (idx.eraseIdx k) = vs at hl ⊢
  generalize y.x.get idx = v at hl ⊢
  generalize idx.getD k 0 = i at hl ⊢
  have hc := cumGo_real hop (vs.map (replaceNan (ofInt .float unit))) (ofInt .float unit)
  have hput : (vs.map (replaceNan (ofInt .float unit))).map (fun v => v.num.real) =
      (vs.map fun v => v.num.real).map fun v => RFlt.put v.isNan (.fin unit) v := by
    rw [List.map_map, List.map_map]
    apply List.map_congr_left
    intro w _
    have e : w.num.real.isNan = w.isNan := Flt.real_isNan _
    simp only [Function.comp, replaceNan, RFlt.put, e]
    cases w.isNan
    · rfl
    · exact hu
  rw [hput, hu] at hc
  have hlen : i < (cumGo (op .float) (ofInt .float unit) (vs.map (replaceNan (ofInt .float unit)))).length := by
    rw [cumGo_len, List.length_map]
    exact (List.getElem?_eq_some_iff.mp hl).1
  have e : v.num.real.isNan = v.isNan := Flt.real_isNan _
  simp only [cumReal]
  rw [← hc]
  simp only [List.getD, List.getElem?_zipWith, List.getElem?_map, hl, List.getElem?_eq_getElem hlen,
    Option.map_some, Option.getD_some, RFlt.put, e]
  cases v.isNan <;> rfl

/-- C133. cumsum and cumprod of a larry of floats are those of its array. -/
theorem C133_running {y : Larry L} (hd : y.dtype = .float) {a : Int} {k : Nat} (hax : Names y.ndim (some a) (some k)) :
    (∃ z w, y.cumsum (some a) = .ok z ∧ cumsumArr y.reals (some a) = .ok w ∧ z.Follows y w) ∧
    (∃ z w, y.cumprod (some a) = .ok z ∧ cumprodArr y.reals (some a) = .ok w ∧ z.Follows y w) := by
  have h0 := cumulate_agrees (op := addVal) (rop := RFlt.add) (unit := 0) (fun a b => Flt.real_add _ _) hd hax
  have h1 := cumulate_agrees (op := mulVal) (rop := RFlt.mul) (unit := 1) (fun a b => Flt.real_mul _ _) hd hax
  rw [Int.cast_zero] at h0
  rw [Int.cast_one] at h1
  exact ⟨h0, h1⟩

/-! ## An example -/

/-- A larry with the elements 1 and 3. -/
def exOneAndThree : Larry Nat := ⟨⟨[2], fun idx => if idx = [0] then fl 1 else fl 3⟩, .float, [[0, 1]]⟩

theorem exOneAndThree_valid : exOneAndThree.Valid := ⟨rfl, by decide, by decide⟩

theorem exOneAndThree_walk (rest : List Nat) : (walk exOneAndThree.x none rest).map Val.num = [.fin 1, .fin 3] := by
  show (walk exOneAndThree.x none []).map Val.num = _
  decide +kernel

example : (∃ o z, exOneAndThree.mean (some (-1)) = .ok o ∧ meanArr exOneAndThree.reals (some (-1)) = .ok z ∧ o.Shows z) :=
  (C133_reductions exOneAndThree_valid (by decide) rfl (axis := some (-1)) (ax := some 0) ⟨by decide, .inr rfl⟩ 0).1

example : exOneAndThree.mean none = .ok (.scalar (fl 2)) ∧ exOneAndThree.var none 0 = .ok (.scalar (fl 1)) := by
  constructor
  · show Except.ok (Out.scalar (meanVals exOneAndThree.x.vals)) = _
    rw [show meanVals exOneAndThree.x.vals = fl 2 by decide +kernel]
  · show Except.ok (Out.scalar (varVals 0 exOneAndThree.x.vals)) = _
    rw [show varVals 0 exOneAndThree.x.vals = fl 1 by decide +kernel]

example : ∃ o z, exOneAndThree.std id none 0 = .ok o ∧ stdArr exOneAndThree.reals none 0 = .ok z ∧ o.Shows z := by
  refine C133_std exOneAndThree_valid (by decide) rfl (axis := none) (ax := none) trivial 0 fun rest _ => ?_
  rw [exOneAndThree_walk, show varOf 0 [Flt.fin 1, .fin 3] = .fin 1 by decide +kernel]
  simp [Flt.real, RFlt.sqrt]

example : ∃ z w, exOneAndThree.zscore (fun _ => .fin 1) none = .ok z ∧ zscoreArr exOneAndThree.reals none = .ok w ∧ z.Follows exOneAndThree w := by
  refine C133_zscore rfl (axis := none) (ax := none) trivial fun rest _ => ?_
  rw [exOneAndThree_walk, show centred [Flt.fin 1, .fin 3] = [.fin (-1), .fin 1] by decide +kernel]
  show (Flt.fin 1).real = (RFlt.nanvar 0 ([Flt.fin (-1), .fin 1].map Flt.real)).sqrt
  rw [← Flt.real_varOf, show varOf 0 [Flt.fin (-1), .fin 1] = .fin 1 by decide +kernel]
  simp [Flt.real, RFlt.sqrt]

example : ∃ z, exOneAndThree.demean nanmean (some 0) = .ok z ∧ z.Follows exOneAndThree (demeanArr exOneAndThree.reals (some 0)) :=
  C133_demean rfl ⟨by decide, .inl rfl⟩

example : ∃ z w, exOneAndThree.cumsum (some 0) = .ok z ∧ cumsumArr exOneAndThree.reals (some 0) = .ok w ∧ z.Follows exOneAndThree w :=
  (C133_running rfl ⟨by decide, .inl rfl⟩).1

example : ∃ o z, exOneAndThree.prod (some 0) = .ok o ∧ prodArr exOneAndThree.reals (some 0) = .ok z ∧ o.Shows z :=
  C133_prod exOneAndThree_valid (by decide) rfl (ax := some 0) ⟨by decide, .inl rfl⟩

end La
