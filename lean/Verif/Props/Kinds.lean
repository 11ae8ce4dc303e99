import Verif.Props.StatUnits
import Verif.Props.Arith
import Verif.Props.Formula
import Verif.Props.Empties

/-!
C118: whether a number is stored as a bool, an int or a float makes no difference to what la computes with it, except for `//`, the `/`
of Python 2, the arithmetic of bools and reductions of empty larrys.
-/

namespace La
variable {L : Type _}
open Larry

/-! ## Specification -/

/-- Same names and the same number under each, whatever the kinds of number. -/
structure Larry.SameNums (y w : Larry L) : Prop where
  label : w.label = y.label
  kinds : y.dtype.Number ∧ w.dtype.Number
  has : ∀ names v v', y.Has names v → w.Has names v' → v'.num = v.num

/-- The same of results that may be single numbers. -/
def Out.SameNums : Out L → Out L → Prop
  | .scalar v, .scalar v' => v'.num = v.num
  | .larry y, .larry w => y.SameNums w
  | _, _ => False

theorem number_isNumeric {d : DType} : d.Number ↔ d.isNumeric = true := by
  cases d <;> simp [DType.Number, DType.isNumeric]

theorem Larry.SameNums.nums {y w : Larry L} (h : y.SameNums w) (hv : y.Valid) (hw : w.Valid) : NumsBy id y.x w.x := by
  refine ⟨by rw [hv.shape_eq, hw.shape_eq, h.label], fun idx hidx => ?_⟩
  rw [hv.shape_eq] at hidx
  obtain ⟨names, hat⟩ := At_of_inB hidx
  exact h.has names _ _ ⟨idx, hat, rfl⟩ ⟨idx, by rw [h.label]; exact hat, rfl⟩

theorem Larry.SameNums.of_nums {y w : Larry L} (hv : y.Valid) (hl : w.label = y.label)
    (hd : y.dtype.Number) (hd' : w.dtype.Number) (h : NumsBy id y.x w.x) : y.SameNums w := by
  refine ⟨hl, ⟨hd, hd'⟩, ?_⟩
  rintro names v v' ⟨idx, hat, rfl⟩ ⟨idx', hat', rfl⟩
  rw [hl] at hat'
  have : idx' = idx := At_unique hv.nodup hat' hat
  subst this
  exact h.2 _ (by rw [hv.shape_eq]; exact At_inB hat)

/-! ## Values -/

/-- An element of a bool, int or float array. -/
def AnyNumber (v : Val) : Prop := (∃ b, v = .bool b) ∨ (∃ n, v = .int n) ∨ ∃ f, v = .flt f

theorem anyNumber_of {v : Val} {d : DType} (hd : d.Number) (h : v.hasDType d = true) : AnyNumber v := by
  rcases hd with rfl | rfl | rfl <;> cases v <;> simp_all [Val.hasDType, AnyNumber]

theorem anyNumber_toFloat {v : Val} (h : AnyNumber v) : v.toFloat = .flt v.num := by
  rcases h with ⟨b, rfl⟩ | ⟨n, rfl⟩ | ⟨f, rfl⟩ <;> rfl

/-! ## Reductions of a line -/

theorem num_plusVal {a b : Val} : (plusVal a b).num = a.num.add b.num := by
  unfold plusVal
  split
  · simp [Val.num, Flt.add]
  · rfl

theorem num_countVal (v : Val) : (countVal v).num = v.num := by
  cases v with
  | bool b => cases b <;> simp [countVal, Val.num]
  | _ => rfl

theorem num_maxVal (a b : Val) : (maxVal a b).num = if a.num.lt b.num then b.num else a.num := by
  unfold maxVal; split <;> rfl

theorem num_minVal (a b : Val) : (minVal a b).num = if b.num.lt a.num then b.num else a.num := by
  unfold minVal; split <;> rfl

theorem nanFold_num {op : Val → Val → Val} {opF : Flt → Flt → Flt} {p : Val → Val} (ho : ∀ a b, (op a b).num = opF a.num b.num)
    (hp : ∀ v, (p v).num = v.num) {vs vs' : List Val} (h : vs'.map Val.num = vs.map Val.num) :
    (nanFold op p vs').num = (nanFold op p vs).num := by
  have key : ∀ us : List Val, ((us.map p).filter (fun v => !v.isNan)).map Val.num =
      (us.map Val.num).filter (fun x => !x.isNan) := by
    intro us
    induction us with
    | nil => rfl
    | cons u us ih =>
      simp only [List.map_cons, List.filter_cons, Val.isNan, hp]
      split
      · simp only [List.map_cons, hp]
        exact congrArg _ ih
      · exact ih
  have fold : ∀ (us us' : List Val) (a a' : Val), a'.num = a.num → us'.map Val.num = us.map Val.num →
      (us'.foldl op a').num = (us.foldl op a).num := by
    intro us
    induction us with
    | nil =>
      intro us' a a' ha hu
      cases us' with
      | nil => exact ha
      | cons => cases hu
    | cons u us ih =>
      intro us' a a' ha hu
      cases us' with
      | nil => cases hu
      | cons u' us' =>
        simp only [List.map_cons, List.cons.injEq] at hu
        exact ih us' _ _ (by rw [ho, ho, ha, hu.1]) hu.2
  have h1 := key vs
  have h2 := key vs'
  rw [h] at h2
  have h3 := h2.trans h1.symm
  unfold nanFold
  generalize (vs.map p).filter (fun v => !v.isNan) = us at h3
  generalize (vs'.map p).filter (fun v => !v.isNan) = us' at h3
  cases us <;> cases us' <;> simp only [List.map_cons, List.map_nil, List.cons.injEq, reduceCtorEq] at h3
  · rfl
  · exact fold _ _ _ _ h3.1 h3.2

theorem any_truth (vs : List Val) : vs.any truthVal = (vs.map Val.num).any (fun x => decide (x ≠ .fin 0)) := by
  rw [List.any_map]; rfl

theorem all_truth (vs : List Val) : vs.all truthVal = (vs.map Val.num).all (fun x => decide (x ≠ .fin 0)) := by
  rw [List.all_map]; rfl

/-- The reductions handed to `__reduce`. -/
inductive Reduction
  | measure (s : Measure)
  | any | all
  | lastrank
  | lastrankDecay (w : Nat → List ℚ)

/-- The function itself. -/
def Reduction.red : Reduction → Red
  | .measure s => s.func
  | .any => npAny
  | .all => npAll
  | .lastrank => lastrankRed
  | .lastrankDecay w => lastrankDecayRed w

theorem Reduction.num (s : Reduction) {vs vs' : List Val} (h : vs'.map Val.num = vs.map Val.num) :
    (s.red.f vs').num = (s.red.f vs).num := by
  have hlen : vs'.length = vs.length := by simpa using congrArg List.length h
  cases s with
  | measure s =>
    cases s with
    | sum => exact nanFold_num (opF := Flt.add) (fun _ _ => num_plusVal) num_countVal h
    | mean => show nanmean _ = nanmean _; rw [h]
    | median => show medianOf _ = medianOf _; rw [h]
    | max => exact nanFold_num (opF := fun a b => if a.lt b then b else a) num_maxVal (fun _ => rfl) h
    | min => exact nanFold_num (opF := fun a b => if b.lt a then b else a) num_minVal (fun _ => rfl) h
    | var d => show varOf _ _ = varOf _ _; rw [h]
    | std root d => show root (varOf _ _) = root (varOf _ _); rw [h]
  | any => show (Val.bool (vs'.any truthVal)).num = (Val.bool (vs.any truthVal)).num; rw [any_truth, any_truth, h]
  | all => show (Val.bool (vs'.all truthVal)).num = (Val.bool (vs.all truthVal)).num; rw [all_truth, all_truth, h]
  | lastrank => show (lastrankLine vs').num = (lastrankLine vs).num; unfold lastrankLine; rw [h]
  | lastrankDecay w =>
    show (lastrankDecayLine (w vs'.length) vs').num = (lastrankDecayLine (w vs.length) vs).num
    unfold lastrankDecayLine; rw [h, hlen]

theorem Reduction.dt_ok (s : Reduction) {d : DType} (hd : d.Number) : ∃ e, s.red.dt d = .ok e ∧ e.Number := by
  cases s with
  | measure s => cases s <;> rcases hd with rfl | rfl | rfl <;> exact ⟨_, rfl, by simp [DType.Number]⟩
  | _ => rcases hd with rfl | rfl | rfl <;> exact ⟨_, rfl, by simp [DType.Number]⟩

/-- Two reductions of larrys with the same numbers. -/
theorem reduce_sameNums {r r' : Red} {y w : Larry L} (hv : y.Valid) (h0 : y.size ≠ 0)
    (hl : w.label = y.label) (hn : NumsBy id y.x w.x) {d d' : DType} (hd : r.dt y.dtype = .ok d) (hd' : r'.dt w.dtype = .ok d')
    (nd : d.Number) (nd' : d'.Number)
    (hline : ∀ ax rest, ax < y.x.shape.length → InB (y.x.shape.eraseIdx ax) rest →
      (r'.f (w.x.line ax rest)).num = (r.f (y.x.line ax rest)).num)
    (hvals : (r'.f w.x.vals).num = (r.f y.x.vals).num) (axis : Option Int) :
    Res.Agree Out.SameNums (y.reduce r axis) (w.reduce r' axis) := by
  have hnd : w.ndim = y.ndim := by simp only [Larry.ndim, NDArray.ndim, hn.1]
  have hsz : w.size = y.size := by simp only [Larry.size, NDArray.size, hn.1]
  unfold reduce
  rw [hsz, if_neg h0, if_neg h0, hd, hd', hl, hnd]
  cases axis with
  | none => exact hvals
  | some i =>
    simp only
    cases hp : pyIdx y.ndim i with
    | none => exact rfl
    | some ax =>
      have hax : ax < y.x.shape.length := pyIdx_lt' hp
      have hsh : (w.x.reduceAx r'.f ax).shape = (y.x.reduceAx r.f ax).shape := by simp only [NDArray.reduceAx, hn.1]
      have hget : ∀ rest, InB (y.x.shape.eraseIdx ax) rest →
          ((w.x.reduceAx r'.f ax).get rest).num = ((y.x.reduceAx r.f ax).get rest).num := fun rest hr => hline ax rest hax hr
      simp only [hsh]
      by_cases hl0 : (y.x.reduceAx r.f ax).shape.length = 0
      · rw [if_pos hl0, if_pos hl0]
        refine hget [] ?_
        rw [show y.x.shape.eraseIdx ax = [] from List.length_eq_zero_iff.mp hl0]
        trivial
      · rw [if_neg hl0, if_neg hl0]
        have hpop : pyPop y.label i = .ok (y.label.eraseIdx ax) := by
          simp only [pyPop, hv.label_length, hp]
        rw [hpop]
        refine Larry.SameNums.of_nums ⟨?_, ?_, ?_⟩ rfl nd nd' ⟨hsh, fun idx hi => hget idx hi⟩
        · show y.x.shape.eraseIdx ax = (y.label.eraseIdx ax).map List.length
          rw [hv.shape_eq, List.eraseIdx_map]
        · exact fun l hl => hv.nodup l (List.mem_of_mem_eraseIdx hl)
        · show y.label.eraseIdx ax ≠ []
          intro h
          apply hl0
          show (y.x.shape.eraseIdx ax).length = 0
          rw [hv.shape_eq, List.eraseIdx_map, h]
          rfl

/-- The method. -/
def Reduction.of (y : Larry L) (axis : Option Int) : Reduction → Res (Out L)
  | .measure s => s.of y axis
  | .any => y.any axis
  | .all => y.all axis
  | .lastrank => y.reduce lastrankRed axis
  | .lastrankDecay w => y.reduce (lastrankDecayRed w) axis

theorem Reduction.of_eq (s : Reduction) (y : Larry L) (axis : Option Int) : s.of y axis = y.reduce s.red axis := by
  cases s with
  | measure s => cases s <;> rfl
  | _ => rfl

/-- C118: the reductions give the same number for two larrys with the same numbers in them, be they bools, ints or floats, and raise
the same. -/
theorem C118_reductions {y w : Larry L} (hv : y.Valid) (hw : w.Valid) (h : y.SameNums w) (s : Reduction) (axis : Option Int)
    (h0 : y.size ≠ 0 ∨ axis = none) : Res.Agree Out.SameNums (s.of y axis) (s.of w axis) := by
  have hn := h.nums hv hw
  obtain ⟨d, hd, nd⟩ := s.dt_ok h.kinds.1
  obtain ⟨d', hd', nd'⟩ := s.dt_ok h.kinds.2
  rw [s.of_eq, s.of_eq]
  by_cases hs : y.size = 0
  · obtain rfl := h0.resolve_left (fun k => k hs)
    have hs' : w.size = 0 := by rw [← hs]; simp only [Larry.size, NDArray.size, hn.1]
    unfold reduce
    rw [if_pos hs, if_pos hs']
    exact rfl
  · exact reduce_sameNums hv hs h.label hn hd hd' nd nd' (fun ax rest hax hr => s.num (by simpa using hn.line hax hr))
      (s.num (by simpa using hn.vals)) axis

/-! ## prod -/

/-- The numbers of a bool or int array. -/
def WholeVal (v : Val) : Prop := (∃ b, v = .bool b) ∨ ∃ n, v = .int n

theorem whole_of {v : Val} {d : DType} (hd : d.Number) (hf : d ≠ .float) (h : v.hasDType d = true) : WholeVal v := by
  rcases hd with rfl | rfl | rfl <;> cases v <;> simp_all [Val.hasDType, WholeVal]

theorem whole_num {v : Val} (h : WholeVal v) : v.num = .fin (intOf v) := by
  rcases h with ⟨b, rfl⟩ | ⟨n, rfl⟩
  · cases b <;> simp [Val.num, intOf]
  · rfl

theorem whole_notNan {v : Val} (h : WholeVal v) : v.isNan = false := by
  rw [Val.isNan, whole_num h]; rfl

theorem npProd_num {d : DType} {vs : List Val} (h : d = .float ∨ ∀ v ∈ vs, WholeVal v) :
    (npProd d vs).num = Flt.prod (vs.map Val.num) := by
  by_cases hd : d = .float
  · subst hd; rfl
  · have hw := h.resolve_left hd
    have e : npProd d vs = .int (vs.map intOf).prod := by cases d <;> first | rfl | exact absurd rfl hd
    rw [e]
    have key : ∀ (us : List Val) (n : Int), (∀ v ∈ us, WholeVal v) →
        (us.map Val.num).foldl Flt.mul (.fin n) = .fin ((n * (us.map intOf).prod : Int) : ℚ) := by
      intro us
      induction us with
      | nil => intro n _; simp
      | cons u us ih =>
        intro n hu
        have h1 : (Flt.fin (n : ℚ)).mul u.num = .fin ((n * intOf u : Int) : ℚ) := by
          rw [whole_num (hu u (List.mem_cons_self ..))]; simp [Flt.mul]
        rw [List.map_cons, List.foldl_cons, h1, ih _ fun v hv => hu v (List.mem_cons_of_mem _ hv), List.map_cons, List.prod_cons,
          mul_assoc]
    have := key vs 1 hw
    rw [one_mul] at this
    exact this.symm.trans (by simp [Flt.prod])

theorem typed_line_whole {y : Larry L} (ht : y.Typed) (hd : y.dtype.Number) :
    y.dtype = .float ∨ ∀ idx, InB y.x.shape idx → WholeVal (y.x.get idx) := by
  by_cases hf : y.dtype = .float
  · exact .inl hf
  · exact .inr fun idx hi => whole_of hd hf (ht idx hi)

theorem mem_line {x : NDArray Val} {P : Val → Prop} (h : ∀ idx, InB x.shape idx → P (x.get idx)) {ax : Nat}
    (hax : ax < x.shape.length) {rest : List Nat} (hr : InB (x.shape.eraseIdx ax) rest) : ∀ v ∈ x.line ax rest, P v := by
  intro v hv
  obtain ⟨j, hj, rfl⟩ := List.mem_map.mp hv
  exact h _ (InB_insert hax (List.mem_range.mp hj) hr)

theorem mem_vals {x : NDArray Val} {P : Val → Prop} (h : ∀ idx, InB x.shape idx → P (x.get idx)) : ∀ v ∈ x.vals, P v := by
  intro v hv
  obtain ⟨i, hi, rfl⟩ := List.mem_map.mp hv
  exact h i (mem_allIdx.mp hi)

/-- The array `prod` multiplies. -/
theorem one_nums {x x' : NDArray Val} (h : NumsBy id x x') :
    NumsBy id (x.map (fun v => if v.isNan then .flt (.fin 1) else v)) (x'.map (fun v => if v.isNan then .flt (.fin 1) else v)) := by
  refine ⟨h.1, fun idx hi => ?_⟩
  have e : (x'.get idx).num = (x.get idx).num := h.2 idx hi
  show (if (x'.get idx).isNan then Val.flt (.fin 1) else x'.get idx).num = (if (x.get idx).isNan then Val.flt (.fin 1) else x.get idx).num
  rw [show (x'.get idx).isNan = (x.get idx).isNan from congrArg Flt.isNan e]
  by_cases k : (x.get idx).isNan = true
  · rw [if_pos k, if_pos k]
  · rw [if_neg k, if_neg k]
    exact e

theorem one_whole {y : Larry L} (ht : y.Typed) (hd : y.dtype.Number) :
    y.dtype = .float ∨ ∀ idx, InB (y.x.map (fun v => if v.isNan then Val.flt (.fin 1) else v)).shape idx →
      WholeVal ((y.x.map (fun v => if v.isNan then .flt (.fin 1) else v)).get idx) := by
  refine (typed_line_whole ht hd).imp_right fun h idx hi => ?_
  show WholeVal (if (y.x.get idx).isNan then Val.flt (.fin 1) else y.x.get idx)
  rw [whole_notNan (h idx hi)]
  exact h idx hi

theorem nan_line {x x' : NDArray Val} (h : NumsBy id x x') {ax : Nat} (hax : ax < x.shape.length) {rest : List Nat}
    (hr : InB (x.shape.eraseIdx ax) rest) : (x'.map Val.isNan).line ax rest = (x.map Val.isNan).line ax rest := by
  have e : ∀ u : NDArray Val, (u.map Val.isNan).line ax rest = ((u.line ax rest).map Val.num).map Flt.isNan := by
    intro u
    simp only [NDArray.line, NDArray.map, List.map_map]
    rfl
  rw [e, e, h.line hax hr, List.map_id]

theorem nan_vals {x x' : NDArray Val} (h : NumsBy id x x') : (x'.map Val.isNan).vals = (x.map Val.isNan).vals := by
  have e : ∀ u : NDArray Val, (u.map Val.isNan).vals = (u.vals.map Val.num).map Flt.isNan := by
    intro u
    simp only [NDArray.vals, NDArray.map, List.map_map]
    rfl
  rw [e, e, h.vals, List.map_id]

theorem prodDType_number {d : DType} (hd : d.Number) : ∃ e, prodDType d = .ok e ∧ e.Number ∧ (e = .float ↔ d = .float) := by
  rcases hd with rfl | rfl | rfl <;> exact ⟨_, rfl, by simp [DType.Number], by simp⟩

/-- C118: so does the product. -/
theorem C118_prod {y w : Larry L} (hv : y.Valid) (hw : w.Valid) (ht : y.Typed) (hu : w.Typed) (h : y.SameNums w)
    (h0 : y.size ≠ 0) (axis : Option Int) : Res.Agree Out.SameNums (y.prod axis) (w.prod axis) := by
  have hn := h.nums hv hw
  have h1 := one_nums hn
  obtain ⟨d, hd, nd, fd⟩ := prodDType_number h.kinds.1
  obtain ⟨d', hd', nd', fd'⟩ := prodDType_number h.kinds.2
  have hsz : w.size = y.size := by simp only [Larry.size, NDArray.size, hn.1]
  have hnd : w.ndim = y.ndim := by simp only [Larry.ndim, NDArray.ndim, hn.1]
  have lines : ∀ ax rest, ax < y.x.shape.length → InB (y.x.shape.eraseIdx ax) rest →
      (npProd w.dtype ((w.x.map (fun v => if v.isNan then .flt (.fin 1) else v)).line ax rest)).num =
      (npProd y.dtype ((y.x.map (fun v => if v.isNan then .flt (.fin 1) else v)).line ax rest)).num := by
    intro ax rest hax hr
    rw [npProd_num (d := y.dtype) ((one_whole ht h.kinds.1).imp_right fun k => mem_line (x := y.x.map _) k hax hr),
      npProd_num (d := w.dtype) ((one_whole hu h.kinds.2).imp_right fun k => mem_line k (by show ax < w.x.shape.length; rw [hn.1]; exact hax)
        (by show InB (w.x.shape.eraseIdx ax) rest; rw [hn.1]; exact hr)), h1.line hax hr, List.map_id]
  have vals : (npProd w.dtype (w.x.map (fun v => if v.isNan then .flt (.fin 1) else v)).vals).num =
      (npProd y.dtype (y.x.map (fun v => if v.isNan then .flt (.fin 1) else v)).vals).num := by
    rw [npProd_num (d := y.dtype) ((one_whole ht h.kinds.1).imp_right fun k => mem_vals k),
      npProd_num (d := w.dtype) ((one_whole hu h.kinds.2).imp_right fun k => mem_vals k), h1.vals, List.map_id]
  have nk : ∀ d : DType, d.Number → ¬ (d = .str ∨ d = .object) := by
    rintro d (rfl | rfl | rfl) <;> simp
  have hs1 : Larry.size { y with x := y.x.map (fun v => if v.isNan then .flt (.fin 1) else v) } ≠ 0 := h0
  have hs2 : Larry.size { w with x := w.x.map (fun v => if v.isNan then .flt (.fin 1) else v) } ≠ 0 := fun k => h0 (hsz ▸ k)
  unfold prod
  rw [if_neg (nk _ h.kinds.1), if_neg (nk _ h.kinds.2)]
  simp only [reduce]
  rw [if_neg hs1, if_neg hs2]
  have hd1 : (prodRed y.dtype).dt y.dtype = .ok d := hd
  have hd2 : (prodRed w.dtype).dt w.dtype = .ok d' := hd'
  simp only [hd1, hd2]
  cases axis with
  | none =>
    show (if _ then Val.flt .nan else _).num = (if _ then Val.flt .nan else _).num
    rw [nan_vals hn]
    split
    · rfl
    · exact vals
  | some i =>
    have hp2 : pyIdx (Larry.ndim { w with x := w.x.map (fun v => if v.isNan then .flt (.fin 1) else v) }) i = pyIdx y.ndim i := by
      rw [← hnd]; rfl
    have hp1 : pyIdx (Larry.ndim { y with x := y.x.map (fun v => if v.isNan then .flt (.fin 1) else v) }) i = pyIdx y.ndim i := rfl
    simp only [hp1, hp2]
    cases hp : pyIdx y.ndim i with
    | none => exact rfl
    | some ax =>
      have hax : ax < y.x.shape.length := pyIdx_lt' hp
      simp only
      by_cases hl0 : (y.x.shape.eraseIdx ax).length = 0
      · have k1 : (NDArray.reduceAx (prodRed y.dtype).f (y.x.map (fun v => if v.isNan then .flt (.fin 1) else v)) ax).shape.length = 0 := hl0
        have k2 : (NDArray.reduceAx (prodRed w.dtype).f (w.x.map (fun v => if v.isNan then .flt (.fin 1) else v)) ax).shape.length = 0 := by
          show (w.x.shape.eraseIdx ax).length = 0
          rw [hn.1]; exact hl0
        rw [if_pos k1, if_pos k2]
        show (if _ then Val.flt .nan else _).num = (if _ then Val.flt .nan else _).num
        rw [nan_vals hn]
        split
        · rfl
        · exact lines ax [] hax (by rw [List.length_eq_zero_iff.mp hl0]; trivial)
      · have k1 : ¬ (NDArray.reduceAx (prodRed y.dtype).f (y.x.map (fun v => if v.isNan then .flt (.fin 1) else v)) ax).shape.length = 0 := hl0
        have k2 : ¬ (NDArray.reduceAx (prodRed w.dtype).f (w.x.map (fun v => if v.isNan then .flt (.fin 1) else v)) ax).shape.length = 0 := by
          show ¬ (w.x.shape.eraseIdx ax).length = 0
          rw [hn.1]; exact hl0
        rw [if_neg k1, if_neg k2, h.label, hnd, hp]
        have hpop : pyPop y.label i = .ok (y.label.eraseIdx ax) := by
          simp only [pyPop, hv.label_length, hp]
        rw [hpop]
        refine Larry.SameNums.of_nums ⟨?_, ?_, ?_⟩ rfl nd nd' ⟨?_, fun idx hi => ?_⟩
        · show y.x.shape.eraseIdx ax = (y.label.eraseIdx ax).map List.length
          rw [hv.shape_eq, List.eraseIdx_map]
        · exact fun l hl => hv.nodup l (List.mem_of_mem_eraseIdx hl)
        · show y.label.eraseIdx ax ≠ []
          intro k
          apply hl0
          rw [hv.shape_eq, List.eraseIdx_map, k]
          rfl
        · show w.x.shape.eraseIdx ax = y.x.shape.eraseIdx ax
          rw [hn.1]
        · have hi' : InB (y.x.shape.eraseIdx ax) idx := hi
          show (if ((w.x.map Val.isNan).line ax idx).all id && decide (d' = .float) then Val.flt .nan else _).num =
            (if ((y.x.map Val.isNan).line ax idx).all id && decide (d = .float) then Val.flt .nan else _).num
          rw [nan_line hn hax hi']
          have whole : ∀ u : Larry L, u.Typed → u.dtype.Number → u.dtype ≠ .float → u.x.shape = y.x.shape →
              ((u.x.map Val.isNan).line ax idx).all id = false := by
            intro u tu nu fu hsh
            have hw := (typed_line_whole tu nu).resolve_left fu
            obtain ⟨v, hv'⟩ := List.exists_mem_of_ne_nil _ (lineOf_ne_nil (y := u) (by
              simp only [Larry.size, NDArray.size, hsh]; exact h0) (by rw [hsh]; exact hax) idx)
            have hvw := mem_line hw (by rw [hsh]; exact hax) (by rw [hsh]; exact hi') v hv'
            rw [Bool.eq_false_iff]
            intro k
            have := List.all_eq_true.mp k v.isNan (by
              obtain ⟨j, hj, rfl⟩ := List.mem_map.mp hv'
              exact List.mem_map.mpr ⟨j, hj, rfl⟩)
            simp [whole_notNan hvw] at this
          cases hall : ((y.x.map Val.isNan).line ax idx).all id with
          | false => exact lines ax idx hax hi'
          | true =>
            have a1 : y.dtype = .float := by
              by_contra k
              simp [whole y ht h.kinds.1 k rfl] at hall
            have a2 : w.dtype = .float := by
              by_contra k
              rw [← nan_line hn hax hi'] at hall
              simp [whole w hu h.kinds.2 k hn.1] at hall
            simp [fd.mpr a1, fd'.mpr a2]

/-! ## Normalizing methods -/

theorem demeanLine_num (center : List Flt → Flt) (vs vs' : List Val) (h : vs'.map Val.num = (vs.map Val.num).map id) :
    demeanLine center vs' = demeanLine center vs := by
  rw [List.map_id] at h
  have e : ∀ us : List Val, demeanLine center us = (us.map Val.num).map (fun x => .flt (x.sub (center (us.map Val.num)))) := by
    intro us
    rw [List.map_map]
    rfl
  rw [e, e, h]

theorem zscoreLine_num (std : List Flt → Flt) (vs vs' : List Val) (h : vs'.map Val.num = (vs.map Val.num).map id) :
    zscoreLine std vs' = zscoreLine std vs := by
  unfold zscoreLine
  rw [demeanLine_num _ _ _ h]

theorem rankingLine_num (norm : RankNorm) (vs vs' : List Val) (h : vs'.map Val.num = (vs.map Val.num).map id) :
    rankingLine norm vs' = rankingLine norm vs := by
  rw [List.map_id] at h
  unfold rankingLine
  rw [h]

theorem quantileLine_num (argsort : List ℚ → List Nat) (q : Nat) (vs vs' : List Val)
    (h : vs'.map Val.num = (vs.map Val.num).map id) : quantileLine argsort q vs' = quantileLine argsort q vs := by
  rw [List.map_id] at h
  unfold quantileLine
  rw [h]

theorem groupMethod_num (m : GroupMethod) (vs vs' : List Val) (h : vs'.map Val.num = (vs.map Val.num).map id) :
    m.line vs' = m.line vs := by
  have hlen : vs'.length = vs.length := by simpa using congrArg List.length h
  have hc : ∀ v : Val, vs'.map (fun _ => v) = vs.map (fun _ => v) := by
    intro v
    rw [List.map_const', List.map_const', hlen]
  cases m with
  | ranking => exact rankingLine_num .pm1 vs vs' h
  | mean =>
    rw [List.map_id] at h
    show groupMeanLine vs' = groupMeanLine vs
    unfold groupMeanLine
    rw [h, hc]
  | median =>
    rw [List.map_id] at h
    show groupMedianLine medianOf vs' = groupMedianLine medianOf vs
    unfold groupMedianLine
    rw [h, hc]

/-- The methods that return a larry of floats with the same labels. -/
inductive Normalizing
  | ranking (norm : RankNorm) (axis : Option Int)
  | quantile (argsort : List ℚ → List Nat) (q : Int) (axis : Option Int)
  | demean (center : List Flt → Flt) (axis : Option Int)
  | zscore (std : List Flt → Flt) (axis : Option Int)
  | movingsumForward (window : Int) (skip : Nat) (axis : Int) (norm : Bool)
  | move (k : MoveKind) (window axis : Int)

/-- The call. -/
def Normalizing.run (y : Larry L) : Normalizing → Res (Larry L)
  | .ranking norm axis => y.ranking axis norm
  | .quantile argsort q axis => y.quantile argsort q axis
  | .demean center axis => y.demean center axis
  | .zscore std axis => y.zscore std axis
  | .movingsumForward window skip axis norm => y.movingsumForward window skip axis norm
  | .move k window axis => k.run y window axis

/-- Functions of lines that agree on the lines of the two larrys give equal larrys. -/
theorem along_lines {g g' : List Val → List Val} {d : DType} {y w : Larry L} (hl : w.label = y.label) (hs : w.x.shape = y.x.shape)
    {ax : Nat} (hax : ax < y.x.shape.length)
    (hg : ∀ rest, InB (y.x.shape.eraseIdx ax) rest → g' (w.x.line ax rest) = g (y.x.line ax rest)) :
    (y.along g d ax).Same (w.along g' d ax) := by
  refine ⟨hl.symm, rfl, hs.symm, fun idx hidx => ?_⟩
  show (g _).getD _ _ = (g' _).getD _ _
  rw [hg _ (InB_erase hidx hax)]

theorem movingsumLine_float {d : DType} {vs : List Val} (h : d = .float ∨ ∀ v ∈ vs, WholeVal v) (window skip : Nat) (norm : Bool) :
    movingsumLine d window skip norm vs = movingsumLine .float window skip norm ((vs.map Val.num).map Val.flt) := by
  have hm : vs.map (fun v => decide (d = .float) && v.isNan) =
      ((vs.map Val.num).map Val.flt).map (fun v => decide (DType.float = .float) && v.isNan) := by
    rw [List.map_map, List.map_map]
    apply List.map_congr_left
    intro v hv
    show (decide (d = .float) && v.isNan) = (decide (DType.float = .float) && (Val.flt v.num).isNan)
    rcases h with rfl | h
    · rfl
    · rw [show (Val.flt v.num).isNan = v.isNan from rfl, whole_notNan (h v hv), Bool.and_false, Bool.and_false]
  have hz : ∀ m : List Bool, List.zipWith (fun v (t : Bool) => if t then Flt.fin 0 else v.num) vs m =
      List.zipWith (fun v (t : Bool) => if t then Flt.fin 0 else v.num) ((vs.map Val.num).map Val.flt) m := by
    intro m
    rw [List.map_map, List.zipWith_map_left]
    rfl
  unfold movingsumLine
  dsimp only
  rw [hm, hz, List.length_map, List.length_map]

theorem windowsLine_num {f : List Val → Val} (hf : ∀ us us' : List Val, us'.map Val.num = us.map Val.num → (f us').num = (f us).num)
    (hn : ∀ us : List Val, (∀ v ∈ us, AnyNumber v) → AnyNumber (f us)) (window : Nat) {vs vs' : List Val}
    (hv : ∀ v ∈ vs, AnyNumber v) (hv' : ∀ v ∈ vs', AnyNumber v) (h : vs'.map Val.num = vs.map Val.num) :
    windowsLine f window vs' = windowsLine f window vs := by
  have hlen : vs'.length = vs.length := by simpa using congrArg List.length h
  unfold windowsLine
  rw [hlen]
  apply List.map_congr_left
  intro i _
  unfold windowStat
  split
  · rfl
  · rw [anyNumber_toFloat (hn _ fun v k => hv v (List.mem_of_mem_drop (List.mem_of_mem_take k))),
      anyNumber_toFloat (hn _ fun v k => hv' v (List.mem_of_mem_drop (List.mem_of_mem_take k)))]
    congr 1
    apply hf
    rw [List.map_take, List.map_drop, h, List.map_take, List.map_drop]

theorem nanFold_number {op : Val → Val → Val} (ho : ∀ a b, AnyNumber a → AnyNumber b → AnyNumber (op a b)) {vs : List Val}
    (hv : ∀ v ∈ vs, AnyNumber v) : AnyNumber (nanFold op id vs) := by
  have fold : ∀ (us : List Val) (a : Val), AnyNumber a → (∀ v ∈ us, AnyNumber v) → AnyNumber (us.foldl op a) := by
    intro us
    induction us with
    | nil => exact fun a ha _ => ha
    | cons u us ih =>
      intro a ha hu
      exact ih _ (ho _ _ ha (hu u (List.mem_cons_self ..))) fun v k => hu v (List.mem_cons_of_mem _ k)
  unfold nanFold
  have hf : ∀ v ∈ (vs.map id).filter (fun v => !v.isNan), AnyNumber v := fun v k => hv v (by
    have := (List.mem_filter.mp k).1
    rwa [List.map_id] at this)
  generalize (vs.map id).filter (fun v => !v.isNan) = us at hf
  cases us with
  | nil => exact .inr (.inr ⟨_, rfl⟩)
  | cons u us => exact fold us u (hf u (List.mem_cons_self ..)) fun v k => hf v (List.mem_cons_of_mem _ k)

theorem moveLine_num (k : MoveKind) (window : Nat) {vs vs' : List Val} (hv : ∀ v ∈ vs, AnyNumber v)
    (hv' : ∀ v ∈ vs', AnyNumber v) (h : vs'.map Val.num = vs.map Val.num) : k.line window vs' = k.line window vs := by
  cases k with
  | sum => show bnMoveLine sumOut window vs' = bnMoveLine sumOut window vs; unfold bnMoveLine; rw [h]
  | mean => show bnMoveLine meanOut window vs' = bnMoveLine meanOut window vs; unfold bnMoveLine; rw [h]
  | min =>
    refine windowsLine_num (fun us us' hu => (Reduction.measure .min).num hu) (fun us hu => ?_) window hv hv' h
    exact nanFold_number (fun a b ha hb => by unfold minVal; split <;> assumption) hu
  | max =>
    refine windowsLine_num (fun us us' hu => (Reduction.measure .max).num hu) (fun us hu => ?_) window hv hv' h
    exact nanFold_number (fun a b ha hb => by unfold maxVal; split <;> assumption) hu
  | std root =>
    exact windowsLine_num (fun us us' hu => (Reduction.measure (.std root 0)).num hu) (fun us hu => .inr (.inr ⟨_, rfl⟩)) window
      hv hv' h

/-- C118: ranking, quantile, demean, zscore and the moving sums and ranks return the very same larry. -/
theorem C118_normalizing {y w : Larry L} (hv : y.Valid) (hw : w.Valid) (ht : y.Typed) (hu : w.Typed) (h : y.SameNums w)
    (m : Normalizing) : Res.Agree Larry.Same (m.run y) (m.run w) := by
  have hn := h.nums hv hw
  have hnd : w.ndim = y.ndim := by simp only [Larry.ndim, NDArray.ndim, hn.1]
  have hsz : w.size = y.size := by simp only [Larry.size, NDArray.size, hn.1]
  have hsh : w.shape = y.shape := hn.1
  have n1 : ¬ y.dtype.isNumeric = false := by rw [number_isNumeric.mp h.kinds.1]; simp
  have n2 : ¬ w.dtype.isNumeric = false := by rw [number_isNumeric.mp h.kinds.2]; simp
  cases m with
  | ranking norm axis =>
    simp only [Normalizing.run, ranking]
    rw [if_neg n1, if_neg n2, hnd]
    cases norm with
    | unknown => exact rfl
    | _ =>
      cases axis with
      | none => exact alongAll_same h.label hn (rankingLine_num _)
      | some a =>
        simp only
        cases hp : pyIdx y.ndim a with
        | none => exact rfl
        | some ax => exact along_same h.label hn (rankingLine_num _) (pyIdx_lt' hp)
  | quantile argsort q axis =>
    simp only [Normalizing.run, quantile]
    rw [if_neg n1, if_neg n2, hnd, hsz, hsh]
    split
    · exact rfl
    split
    · refine ⟨h.label.symm, rfl, hn.1.symm, fun idx hidx => ?_⟩
      have e : (w.x.get idx).isNan = (y.x.get idx).isNan := congrArg Flt.isNan (hn.2 idx hidx)
      show (if (y.x.get idx).isNan then _ else _) = (if (w.x.get idx).isNan then _ else _)
      rw [e]
    cases axis with
    | none =>
      simp only
      split
      · exact rfl
      · exact alongAll_same h.label hn (quantileLine_num _ _)
    | some a =>
      simp only
      cases hp : pyIdx y.ndim a with
      | none => exact rfl
      | some ax =>
        simp only
        split
        · exact rfl
        · exact along_same h.label hn (quantileLine_num _ _) (pyIdx_lt' hp)
  | demean center axis =>
    simp only [Normalizing.run, demean]
    rw [if_neg n1, if_neg n2, hnd]
    cases axis with
    | none => exact alongAll_same h.label hn (demeanLine_num _)
    | some a =>
      simp only [npAxis]
      cases hp : pyIdx y.ndim a with
      | none => exact rfl
      | some ax => exact along_same h.label hn (demeanLine_num _) (pyIdx_lt' hp)
  | zscore std axis =>
    simp only [Normalizing.run, zscore]
    rw [if_neg n1, if_neg n2, hnd]
    cases axis with
    | none => exact alongAll_same h.label hn (zscoreLine_num _)
    | some a =>
      simp only [npAxis]
      cases hp : pyIdx y.ndim a with
      | none => exact rfl
      | some ax => exact along_same h.label hn (zscoreLine_num _) (pyIdx_lt' hp)
  | movingsumForward window skip axis norm =>
    simp only [Normalizing.run, movingsumForward, n1, n2, hnd, hsh]
    cases hp : pyIdx y.ndim axis with
    | none => exact rfl
    | some ax =>
      simp only
      split
      · exact rfl
      split
      · exact rfl
      split
      · exact rfl
      have hax : ax < y.x.shape.length := pyIdx_lt' hp
      refine along_lines h.label hn.1 hax fun rest hr => ?_
      unfold movingsumForwardLine
      have k1 := (typed_line_whole ht h.kinds.1).imp_right fun k => mem_line k hax hr
      have k2 := (typed_line_whole hu h.kinds.2).imp_right fun k =>
        mem_line (ax := ax) (rest := rest) k (by rw [hn.1]; exact hax) (by rw [hn.1]; exact hr)
      rw [movingsumLine_float (vs := (y.x.line ax rest).reverse) (k1.imp_right fun k v hv => k v (List.mem_reverse.mp hv)),
        movingsumLine_float (vs := (w.x.line ax rest).reverse) (k2.imp_right fun k v hv => k v (List.mem_reverse.mp hv)),
        List.map_reverse, hn.line hax hr, List.map_id, ← List.map_reverse]
  | move k window axis =>
    simp only [Normalizing.run]
    rw [k.run_eq, k.run_eq]
    simp only [moveBn, n1, n2, hnd, hsh]
    cases hp : pyIdx y.ndim axis with
    | none => exact rfl
    | some ax =>
      simp only [Bool.true_eq_false, if_false]
      by_cases hwin : window < 1 ∨ ((y.shape.getD ax 0 : Nat) : Int) < window
      · rw [if_pos hwin, if_pos hwin]
        exact rfl
      rw [if_neg hwin, if_neg hwin]
      have hax : ax < y.x.shape.length := pyIdx_lt' hp
      refine along_lines h.label hn.1 hax fun rest hr => ?_
      refine moveLine_num k _ (mem_line (fun idx hi => anyNumber_of h.kinds.1 (ht idx hi)) hax hr)
        (mem_line (fun idx hi => anyNumber_of h.kinds.2 (hu idx hi)) (by rw [hn.1]; exact hax) (by rw [hn.1]; exact hr)) ?_
      rw [hn.line hax hr, List.map_id]

/-- C118: the group methods return the very same larry. -/
theorem C118_groups [LinearOrder L] {y w : Larry L} (hv : y.Valid) (hw : w.Valid) (h : y.SameNums w)
    (sort : List Val → List Val) (group : Larry L) (axis : Int) (m : GroupMethod) :
    Res.Agree Larry.Same (m.run sort y group axis) (m.run sort w group axis) := by
  have hn := h.nums hv hw
  have hnd : w.ndim = y.ndim := by simp only [Larry.ndim, NDArray.ndim, hn.1]
  have n1 : ¬ y.dtype.isNumeric = false := by rw [number_isNumeric.mp h.kinds.1]; simp
  have n2 : ¬ w.dtype.isNumeric = false := by rw [number_isNumeric.mp h.kinds.2]; simp
  rw [m.run_eq, m.run_eq]
  unfold groupBy
  rw [show w.groupAlign group axis = y.groupAlign group axis by unfold groupAlign; rw [h.label]]
  cases y.groupAlign group axis with
  | error e => exact rfl
  | ok groups =>
    dsimp only
    rw [if_neg n1, if_neg n2, hnd]
    cases hp : pyIdx y.ndim axis with
    | none => exact rfl
    | some ax =>
      exact along_same (y := y) (y' := w) h.label hn
        (fun _ _ => groupLine_same sort (fun _ _ => groupMethod_num m _ _) groups) (pyIdx_lt' hp)

/-! ## push, cumsum and cumprod -/

theorem through_id (x : Flt) : x.through id = x := by cases x <;> rfl

theorem along_sameNums {g g' : List Val → List Val} {d d' : DType} {y w : Larry L} (hv : y.Valid) (hl : w.label = y.label)
    (hs : w.x.shape = y.x.shape) (nd : d.Number) (nd' : d'.Number) {ax : Nat} (hax : ax < y.x.shape.length)
    (hg : ∀ rest, InB (y.x.shape.eraseIdx ax) rest →
      (g' (w.x.line ax rest)).map Val.num = (g (y.x.line ax rest)).map Val.num) :
    (y.along g d ax).SameNums (w.along g' d' ax) := by
  refine Larry.SameNums.of_nums (y := y.along g d ax) ⟨hv.shape_eq, hv.nodup, hv.ndim_pos⟩ hl nd nd' ⟨hs, fun idx hidx => ?_⟩
  exact getD_nums (f := id) rfl (by rw [List.map_id]; exact hg _ (InB_erase hidx hax)) _

/-- C118: `push` fills the same cells with the same numbers. -/
theorem C118_push {y w : Larry L} (hv : y.Valid) (hw : w.Valid) (h : y.SameNums w) (window axis : Int) :
    Res.Agree Larry.SameNums (y.push window axis) (w.push window axis) := by
  have hn := h.nums hv hw
  have hnd : w.ndim = y.ndim := by simp only [Larry.ndim, NDArray.ndim, hn.1]
  have n1 : ¬ y.dtype.isNumeric = false := by rw [number_isNumeric.mp h.kinds.1]; simp
  have n2 : ¬ w.dtype.isNumeric = false := by rw [number_isNumeric.mp h.kinds.2]; simp
  simp only [push, npAxis, hnd]
  cases hp : pyIdx y.ndim axis with
  | none => exact rfl
  | some ax =>
    dsimp only
    rw [if_neg n1, if_neg n2]
    have hax : ax < y.x.shape.length := pyIdx_lt' hp
    refine along_sameNums hv h.label hn.1 h.kinds.1 h.kinds.2 hax fun rest hr => ?_
    have hid : Flt.through id = id := by funext x; exact through_id x
    have := pushGo_nums id window (y.x.line ax rest) (w.x.line ax rest) 0 (.flt .nan) (.flt .nan) none rfl
      (by rw [hid]; exact hn.line hax hr)
    rw [hid, List.map_id] at this
    exact this

/-- `cumsum` and `cumprod`. -/
inductive Running
  | sum | prod

/-- The call. -/
def Running.run (y : Larry L) (axis : Option Int) : Running → Res (Larry L)
  | .sum => y.cumsum axis
  | .prod => y.cumprod axis

/-- Its operation on elements, on floats, and its unit. -/
def Running.op : Running → DType → Val → Val → Val
  | .sum => addVal
  | .prod => mulVal
def Running.opF : Running → Flt → Flt → Flt
  | .sum => Flt.add
  | .prod => Flt.mul
def Running.unit : Running → Int
  | .sum => 0
  | .prod => 1

theorem cumGo_whole {op : Val → Val → Val} {opF : Flt → Flt → Flt}
    (ho : ∀ n v, WholeVal v → ∃ m, op (.int n) v = .int m ∧ opF (.fin n) v.num = .fin m) :
    ∀ (vs : List Val) (n : Int), (∀ v ∈ vs, WholeVal v) →
      (cumGo op (.int n) vs).map Val.num = cumGo opF (.fin n) (vs.map Val.num) := by
  intro vs
  induction vs with
  | nil => intro n _; rfl
  | cons v vs ih =>
    intro n hw
    obtain ⟨m, h1, h2⟩ := ho n v (hw v (List.mem_cons_self ..))
    simp only [cumGo, List.map_cons, h1, h2]
    rw [ih m fun u hu => hw u (List.mem_cons_of_mem _ hu)]
    rfl

theorem Running.line_num (k : Running) {d : DType} {vs : List Val} (h : d = .float ∨ d.Number ∧ ∀ v ∈ vs, WholeVal v) :
    (cumGo (k.op d) (ofInt d k.unit) vs).map Val.num = cumGo k.opF (.fin (k.unit : Int)) (vs.map Val.num) := by
  by_cases hd : d = .float
  · subst hd
    cases k with
    | sum => exact cumGo_hom (g := Val.num) (op' := Flt.add) (fun x y => rfl) _ _
    | prod => exact cumGo_hom (g := Val.num) (op' := Flt.mul) (fun x y => rfl) _ _
  · obtain ⟨nd, hw⟩ := h.resolve_left hd
    have e0 : ofInt d k.unit = .int k.unit := by cases d <;> first | rfl | exact absurd rfl hd
    rw [e0]
    refine cumGo_whole (fun n v hv => ?_) vs _ hw
    cases k with
    | sum =>
      refine ⟨n + intOf v, ?_, ?_⟩
      · cases d <;> first | rfl | exact absurd rfl hd
      · rw [whole_num hv]; simp [Running.opF, Flt.add]
    | prod =>
      refine ⟨n * intOf v, ?_, ?_⟩
      · cases d <;> first | rfl | exact absurd rfl hd
      · rw [whole_num hv]; simp [Running.opF, Flt.mul]

theorem replaceNan_num {d d' : DType} (u : Int) {v v' : Val} (h : v'.num = v.num) :
    (replaceNan (ofInt d' u) v').num = (replaceNan (ofInt d u) v).num := by
  have e : ∀ d, (ofInt d u).num = .fin u := fun d => by cases d <;> rfl
  have k : v'.isNan = v.isNan := congrArg Flt.isNan h
  unfold replaceNan
  rw [k]
  split
  · rw [e, e]
  · exact h

/-- C118: the running sums and products are the same. -/
theorem C118_running {y w : Larry L} (hv : y.Valid) (hw : w.Valid) (ht : y.Typed) (hu : w.Typed) (h : y.SameNums w)
    (k : Running) (axis : Option Int) : Res.Agree Larry.SameNums (k.run y axis) (k.run w axis) := by
  have hn := h.nums hv hw
  have hnd : w.ndim = y.ndim := by simp only [Larry.ndim, NDArray.ndim, hn.1]
  have n1 : ¬ y.dtype.isNumeric = false := by rw [number_isNumeric.mp h.kinds.1]; simp
  have n2 : ¬ w.dtype.isNumeric = false := by rw [number_isNumeric.mp h.kinds.2]; simp
  have e : ∀ z : Larry L, k.run z axis = z.cumulate k.op k.unit axis := fun z => by cases k <;> rfl
  rw [e, e]
  unfold cumulate
  cases axis with
  | none => exact rfl
  | some a =>
    dsimp only
    rw [if_neg n1, if_neg n2, hnd]
    simp only [npAxis]
    cases hp : pyIdx y.ndim a with
    | none => exact rfl
    | some ax =>
      have hax : ax < y.x.shape.length := pyIdx_lt' hp
      have nk : ∀ d : DType, d.Number → (if d = .bool then DType.int else d).Number := by
        rintro d (rfl | rfl | rfl) <;> simp [DType.Number]
      refine Larry.SameNums.of_nums ⟨hv.shape_eq, hv.nodup, hv.ndim_pos⟩ h.label (nk _ h.kinds.1) (nk _ h.kinds.2)
        ⟨hn.1, fun idx hidx => ?_⟩
      have hidx' : InB y.x.shape idx := hidx
      have hr := InB_erase hidx' hax
      have hi : (w.x.get idx).isNan = (y.x.get idx).isNan := congrArg Flt.isNan (hn.2 idx hidx')
      show (if (w.x.get idx).isNan then Val.flt .nan else _).num = (if (y.x.get idx).isNan then Val.flt .nan else _).num
      rw [hi]
      split
      · rfl
      · have hrep : NumsBy id (y.x.map (replaceNan (ofInt y.dtype k.unit))) (w.x.map (replaceNan (ofInt w.dtype k.unit))) :=
          ⟨hn.1, fun i hi => replaceNan_num _ (hn.2 i hi)⟩
        have whole : ∀ z : Larry L, z.Typed → z.dtype.Number → z.x.shape = y.x.shape → z.dtype = .float ∨ z.dtype.Number ∧
            ∀ v ∈ (z.x.map (replaceNan (ofInt z.dtype k.unit))).line ax (idx.eraseIdx ax), WholeVal v := by
          intro z tz nz hs
          refine (typed_line_whole tz nz).imp_right fun q => ⟨nz, ?_⟩
          refine mem_line (x := z.x.map _) (fun i hi => ?_) (by show ax < z.x.shape.length; rw [hs]; exact hax)
            (by show InB (z.x.shape.eraseIdx ax) _; rw [hs]; exact hr)
          have q1 := q i hi
          show WholeVal (replaceNan (ofInt z.dtype k.unit) (z.x.get i))
          unfold replaceNan
          rw [whole_notNan q1]
          exact q1
        refine getD_nums (f := id) rfl ?_ _
        rw [List.map_id, k.line_num (whole y ht h.kinds.1 rfl), k.line_num (whole w hu h.kinds.2 hn.1), hrep.line hax hr, List.map_id]

/-! ## Methods that look at each window -/

/-- C118: a statistic in a moving window is the same, by whatever method it is computed for either larry. -/
theorem C118_windows {y w : Larry L} {buf buf' : Int → Val} {arr arr' : Strided} {window : Nat} {axis : Int} {ax : Nat}
    {m m' : MoveMethod} (h : y.SameNums w) (hc : CanMove y buf arr window axis ax m) (hc' : CanMove w buf' arr' window axis ax m')
    (s : Reduction) : ∃ z z', y.moveStat s.red buf arr window (some axis) m = .ok z ∧
      w.moveStat s.red buf' arr' window (some axis) m' = .ok z' ∧ z.SameNums z' := by
  have hv := hc.valid
  have hw := hc'.valid
  obtain ⟨l, hl, -⟩ := label_at hv hc.axis
  have hl' : w.label[ax]? = some l := by rw [h.label]; exact hl
  obtain ⟨d, hd, nd⟩ := s.dt_ok h.kinds.1
  obtain ⟨d', hd', nd'⟩ := s.dt_ok h.kinds.2
  obtain ⟨z, e, z1, z2⟩ := moveStat_ok s.red hc hd hl
  obtain ⟨z', e', z1', z2'⟩ := moveStat_ok s.red hc' hd' hl'
  refine ⟨z, z', e, e', by rw [z2.label_eq, z2'.label_eq, h.label], ⟨by rw [z1]; simp [DType.Number], by rw [z1']; simp [DType.Number]⟩, ?_⟩
  intro names v v' hh hu
  have hN : Named y.label names := by rw [← z2.label_eq]; exact Named_of_Holds hh
  obtain ⟨i, a, rest, ha, hr, rfl⟩ := named_split hl hN
  have hr' : Named (w.label.eraseIdx ax) rest := by rw [h.label]; exact hr
  obtain ⟨vs, hline⟩ := lineAt_exists hv hl hr
  obtain ⟨us, hline'⟩ := lineAt_exists hw hl' hr'
  have c := moved_has z2 hl ha hline hr
  have c' := moved_has z2' hl' ha hline' hr'
  rw [Holds_unique z2.valid.nodup hh c, Holds_unique z2'.valid.nodup hu c']
  split
  · rfl
  · have tf : ∀ v : Val, v.toFloat.num = v.num := fun v => by cases v <;> rfl
    rw [tf, tf]
    apply s.num
    rw [List.map_take, List.map_drop, List.map_take, List.map_drop]
    congr 2
    have h2 := under_line (R := fun v u => u.num = v.num) h.label.symm h.has hline hline'
    clear hline hline' c c'
    induction h2 with
    | nil => rfl
    | cons h1 _ ih => rw [List.map_cons, List.map_cons, h1, ih]

/-! ## Elementwise methods and operators -/

/-- The method does not tell the dtypes apart: only the minus sign treats bools differently. -/
def ElemMethod.Even (d d' : DType) : ElemMethod → Prop
  | .neg => d = .bool ↔ d' = .bool
  | _ => True

theorem fn_even {m : ElemMethod} {d d' : DType} (hm : m.Modelled d) (hm' : m.Modelled d') (hi : m = .invert → d = .bool)
    (hi' : m = .invert → d' = .bool) (he : m.Even d d') {v v' : Val} (hv : v.hasDType d = true) (hv' : v'.hasDType d' = true)
    (h : v'.num = v.num) : (m.fn v').num = (m.fn v).num := by
  obtain ⟨-, g, s, n1, n2, n3⟩ := fn_makes m hm hi hv
  obtain ⟨-, g', s', n1', n2', n3'⟩ := fn_makes m hm' hi' hv'
  have eg : g' = g := by rw [← n1.num, ← n1'.num, h]
  subst eg
  rw [n2.num, n2'.num]
  refine C72_makes_unique m d ?_ n3 
  cases m with
  | neg =>
    simp only [ElemMethod.Makes, ElemMethod.Even] at n3' he ⊢
    simpa only [he] using n3'
  | nanReplace r =>
    simp only [ElemMethod.Makes] at n3' ⊢
    have key : ∀ {d : DType} {v : Val}, d.Number → v.hasDType d = true → IsNumber v g' → g' = .nan → d = .float := by
      rintro d v (rfl | rfl | rfl) q1 q2 q3
      · subst q3; cases v <;> simp [Val.hasDType] at q1; cases q2
      · subst q3; cases v <;> simp [Val.hasDType] at q1; cases q2
      · rfl
    by_cases hg : g' = .nan
    · rw [key hm'.1 hv' n1' hg] at n3'
      rw [key hm.1 hv n1 hg]
      exact n3'
    · rcases n3' with ⟨_, k, _⟩ | ⟨_, k⟩
      · exact absurd k hg
      · exact .inr ⟨fun q => hg q.2, k⟩
  | _ => exact n3'

/-- C118: the elementwise methods make the same numbers; the minus sign only if both larrys or neither are bools. -/
theorem C118_elementwise {y w : Larry L} (hv : y.Valid) (hw : w.Valid) (ht : y.Typed) (hu : w.Typed) (h : y.SameNums w)
    {m : ElemMethod} (hm : m.Modelled y.dtype) (hm' : m.Modelled w.dtype) (hi : m = .invert → y.dtype = .bool)
    (hi' : m = .invert → w.dtype = .bool) (he : m.Even y.dtype w.dtype) :
    ∃ z z', y.elem m = .ok z ∧ w.elem m = .ok z' ∧ z.Valid ∧ z'.Valid ∧ z.Typed ∧ z'.Typed ∧ z.SameNums z' := by
  have hn := h.nums hv hw
  refine ⟨_, _, elem_ok hm hi, elem_ok hm' hi', hv, hw,
    fun idx hidx => (fn_makes m hm hi (ht idx hidx)).1,
    fun idx hidx => (fn_makes m hm' hi' (hu idx hidx)).1, ?_⟩
  refine Larry.SameNums.of_nums (y := y.mapped m.fn (m.dt y.dtype)) hv h.label (number_isNumeric.mpr (dt_numeric hm))
    (number_isNumeric.mpr (dt_numeric hm')) ⟨hn.1, fun idx hidx => ?_⟩
  exact fn_even hm hm' hi hi' he (ht idx hidx) (hu idx (by rw [hn.1]; exact hidx)) (hn.2 idx hidx)

/-- The operator does not tell the dtypes of its operands apart. Two bools are added, subtracted and multiplied as truth values;
`//`, and in Python 2 `/`, of numbers that are not floats differs from that of floats. -/
def BinOp.Even (whole : Bool) (d e d' e' : DType) : BinOp → Prop
  | .arith .add | .arith .sub | .arith .mul => d = .bool ∧ e = .bool ↔ d' = .bool ∧ e' = .bool
  | .arith .div | .arith .truediv => whole = true → ((d ≠ .float ∧ e ≠ .float) ↔ (d' ≠ .float ∧ e' ≠ .float))
  | .arith .floordiv => (d ≠ .float ∧ e ≠ .float) ↔ (d' ≠ .float ∧ e' ≠ .float)
  | _ => True

theorem BinOp.means_even {b : BinOp} {whole : Bool} {d e d' e' : DType} {g h s : Flt}
    (he : b.Even whole d e d' e' ∨ b = .arith .floordiv ∧ h ≠ .fin 0) (k : b.Means whole d' e' g h s) : b.Means whole d e g h s := by
  cases b with
  | rel c => exact k
  | logic o => exact k
  | arith op =>
    cases op <;> simp only [BinOp.Means, ArithOp.Means, BinOp.Even, reduceCtorEq, BinOp.arith.injEq, false_and, or_false, true_and] at he k ⊢
    · simpa only [he] using k
    · simpa only [he] using k
    · simpa only [he] using k
    · cases whole with
      | false => simpa using k
      | true => simpa only [true_and, he rfl] using k
    · cases whole with
      | false => simpa using k
      | true => simpa only [true_and, he rfl] using k
    · rcases he with he | he
      · simpa only [he] using k
      · have e0 : IsIntOver g h s ↔ ∃ t, IsOver g h t ∧ IsFloor t s := by simp [IsIntOver, he]
        simpa only [e0, ite_self] using k

/-- C118: a binary operator between two larrys and between two others with the same numbers; the operator must not tell the dtypes
apart, or be `//` by numbers other than 0. -/
theorem C118_operators [LinearOrder L] (py3 : Bool) (b : BinOp) {x y x' y' : Larry L} (hx : x.Valid) (hy : y.Valid) (tx : x.Typed)
    (ty : y.Typed) (hx' : x'.Valid) (hy' : y'.Valid) (tx' : x'.Typed) (ty' : y'.Typed) (hn : x.ndim = y.ndim)
    (h : x.SameNums x') (g : y.SameNums y')
    (he : b.Even (!py3) x.dtype y.dtype x'.dtype y'.dtype ∨ b = .arith .floordiv ∧ ∀ names v, y.Has names v → v.num ≠ .fin 0) :
    ∃ z z', b.larrys py3 x y = .ok z ∧ b.larrys py3 x' y' = .ok z' ∧ z.Valid ∧ z'.Valid ∧ z.Typed ∧ z'.Typed ∧ z.SameNums z' := by
  have e1 : x'.ndim = x.ndim := by rw [← hx'.label_length, ← hx.label_length, h.label]
  have e2 : y'.ndim = y.ndim := by rw [← hy'.label_length, ← hy.label_length, g.label]
  obtain ⟨z, z1, z2, z3, z4, z5, z6, z7⟩ := b.larrys_spec py3 hx hy tx ty h.kinds.1 g.kinds.1 hn
  obtain ⟨w, w1, w2, w3, w4, w5, w6, w7⟩ := b.larrys_spec py3 hx' hy' tx' ty' h.kinds.2 g.kinds.2 (by rw [e1, e2, hn])
  refine ⟨z, w, z1, w1, z2, w2, z3, w3, ?_, ⟨z4, w4⟩, ?_⟩
  · rw [h.label, g.label] at w6
    exact Joined.unique (R := InnerJoined) (fun a b c c' k k' => InnerJoined.unique k k') w6 z6
  · intro names v v' hv hv'
    obtain ⟨u1, u2, q1, q2, -, a, c, s, n1, n2, n3, n4⟩ := (z7 names v).mp ((get_ok_iff z2).mpr hv)
    obtain ⟨u1', u2', q1', q2', -, a', c', s', n1', n2', n3', n4'⟩ := (w7 names v').mp ((get_ok_iff w2).mpr hv')
    have ea : a' = a := by
      rw [← n1.num, ← n1'.num]; exact h.has names _ _ ((get_ok_iff hx).mp q1) ((get_ok_iff hx').mp q1')
    have ec : c' = c := by
      rw [← n2.num, ← n2'.num]; exact g.has names _ _ ((get_ok_iff hy).mp q2) ((get_ok_iff hy').mp q2')
    subst ea ec
    rw [n3.num, n3'.num]
    exact b.unique (BinOp.means_even (he.imp_right fun k => ⟨k.1, by rw [← n2.num]; exact k.2 names _ ((get_ok_iff hy).mp q2)⟩) n4') n4

/-- C118: a larry and a number to its right. -/
theorem C118_right [LinearOrder L] (py3 : Bool) (b : BinOp) {x x' : Larry L} (hx : x.Valid) (tx : x.Typed) (hx' : x'.Valid)
    (tx' : x'.Typed) (h : x.SameNums x') {o o' : Val} {od od' : DType} (ho : o.hasDType od = true) (hod : od.Number)
    (ho' : o'.hasDType od' = true) (hod' : od'.Number) (hoo : o'.num = o.num)
    (he : b.Even (!py3) x.dtype od x'.dtype od' ∨ b = .arith .floordiv ∧ o.num ≠ .fin 0) :
    ∃ z z', b.right py3 x o od = .ok z ∧ b.right py3 x' o' od' = .ok z' ∧ z.Valid ∧ z'.Valid ∧ z.Typed ∧ z'.Typed ∧ z.SameNums z' := by
  obtain ⟨z, z1, z2, z3, z4, z5, z6, z7⟩ := b.right_spec py3 hx tx h.kinds.1 ho hod
  obtain ⟨w, w1, w2, w3, w4, w5, w6, w7⟩ := b.right_spec py3 hx' tx' h.kinds.2 ho' hod'
  refine ⟨z, w, z1, w1, z2, w2, z3, w3, by rw [z5, w5, h.label], ⟨z4, w4⟩, ?_⟩
  intro names v v' hv hv'
  obtain ⟨u, q1, -, a, c, s, n1, n2, n3, n4⟩ := (z7 names v).mp ((get_ok_iff z2).mpr hv)
  obtain ⟨u', q1', -, a', c', s', n1', n2', n3', n4'⟩ := (w7 names v').mp ((get_ok_iff w2).mpr hv')
  have ec : c' = c := by
    rw [← n1.num, ← n1'.num]; exact h.has names _ _ ((get_ok_iff hx).mp q1) ((get_ok_iff hx').mp q1')
  have ea : a' = a := by rw [← n2.num, ← n2'.num, hoo]
  subst ea ec
  rw [n3.num, n3'.num]
  exact b.unique (BinOp.means_even (he.imp_right fun k => ⟨k.1, by rw [← n2.num]; exact k.2⟩) n4') n4

/-- C118: a number and a larry to its right. -/
theorem C118_left [LinearOrder L] (py3 : Bool) (b : BinOp) {x x' : Larry L} (hx : x.Valid) (tx : x.Typed) (hx' : x'.Valid)
    (tx' : x'.Typed) (h : x.SameNums x') {o o' : Val} {od od' : DType} (ho : o.hasDType od = true) (hod : od.Number)
    (ho' : o'.hasDType od' = true) (hod' : od'.Number) (hoo : o'.num = o.num)
    (hb : b = .arith .sub → ¬ (x.dtype = .bool ∧ od = .bool) ∧ ¬ (x'.dtype = .bool ∧ od' = .bool))
    (he : b.Even (!py3) od x.dtype od' x'.dtype ∨ b = .arith .floordiv ∧ ∀ names v, x.Has names v → v.num ≠ .fin 0) :
    ∃ z z', b.left py3 o od x = .ok z ∧ b.left py3 o' od' x' = .ok z' ∧ z.Valid ∧ z'.Valid ∧ z.Typed ∧ z'.Typed ∧ z.SameNums z' := by
  obtain ⟨z, z1, z2, z3, z4, z5, z6, z7⟩ := b.left_spec py3 hx tx h.kinds.1 ho hod (fun k => (hb k).1)
  obtain ⟨w, w1, w2, w3, w4, w5, w6, w7⟩ := b.left_spec py3 hx' tx' h.kinds.2 ho' hod' (fun k => (hb k).2)
  refine ⟨z, w, z1, w1, z2, w2, z3, w3, by rw [z5, w5, h.label], ⟨z4, w4⟩, ?_⟩
  intro names v v' hv hv'
  obtain ⟨u, q1, -, a, c, s, n1, n2, n3, n4⟩ := (z7 names v).mp ((get_ok_iff z2).mpr hv)
  obtain ⟨u', q1', -, a', c', s', n1', n2', n3', n4'⟩ := (w7 names v').mp ((get_ok_iff w2).mpr hv')
  have ec : c' = c := by
    rw [← n2.num, ← n2'.num]; exact h.has names _ _ ((get_ok_iff hx).mp q1) ((get_ok_iff hx').mp q1')
  have ea : a' = a := by rw [← n1.num, ← n1'.num, hoo]
  subst ea ec
  rw [n3.num, n3'.num]
  exact b.unique (BinOp.means_even (he.imp_right fun k => ⟨k.1, by rw [← n2.num]; exact k.2 names _ ((get_ok_iff hx).mp q1)⟩) n4') n4

/-! ## Formulas -/

/-- `op` between two formulas of whole numbers is what it is between floats. -/
def BinOp.Fair (whole : Bool) : BinOp → Prop
  | .arith .floordiv => False
  | .arith .div | .arith .truediv => whole = false
  | _ => True

/-- No operator in the formula is one of those that treat whole numbers differently: no `//` and, in Python 2, no `/`, except with a
float scalar at its side or, for `//`, with a scalar other than 0 to its right. -/
def Formula.Fair (whole : Bool) : Formula → Prop
  | .var _ => True
  | .fn _ t => t.Fair whole
  | .bin b s t => b.Fair whole ∧ s.Fair whole ∧ t.Fair whole
  | .right b s o od => (b.Fair whole ∨ od = .float ∨ b = .arith .floordiv ∧ o.num ≠ .fin 0) ∧ s.Fair whole
  | .left b _ od t => (b.Fair whole ∨ od = .float) ∧ t.Fair whole

theorem BinOp.Fair.even {b : BinOp} {whole : Bool} (h : b.Fair whole) {d e d' e' : DType} (h1 : d = .bool ↔ d' = .bool)
    (h2 : e = .bool ↔ e' = .bool) : b.Even whole d e d' e' := by
  cases b with
  | rel c => trivial
  | logic o => trivial
  | arith op =>
    cases op <;> simp only [BinOp.Fair, BinOp.Even] at h ⊢
    · rw [h1, h2]
    · rw [h1, h2]
    · rw [h1, h2]
    · simp [h]
    · simp [h]

theorem BinOp.even_right {b : BinOp} {whole : Bool} {d d' : DType} :
    b.Even whole d .float d' .float := by
  cases b with
  | rel c => trivial
  | logic o => trivial
  | arith op => cases op <;> simp [BinOp.Even]

theorem BinOp.even_left {b : BinOp} {whole : Bool} {d d' : DType} :
    b.Even whole .float d .float d' := by
  cases b with
  | rel c => trivial
  | logic o => trivial
  | arith op => cases op <;> simp [BinOp.Even]

theorem even_of_bool {m : ElemMethod} {d d' : DType} (h : d = .bool ↔ d' = .bool) : m.Even d d' := by
  cases m <;> first | exact h | trivial

theorem dtype_bool {m : ElemMethod} {d d' r r' : DType} (h : d = .bool ↔ d' = .bool) (k : m.Dtype d r) (k' : m.Dtype d' r') :
    r = .bool ↔ r' = .bool := by
  cases m <;> simp only [ElemMethod.Dtype] at k k' <;> (try subst k) <;> (try subst k') <;> (try exact h) <;> (try exact Iff.rfl)
  all_goals
    rcases k with ⟨k, rfl⟩ | ⟨k, rfl⟩ <;> rcases k' with ⟨k', rfl⟩ | ⟨k', rfl⟩ <;> simp_all

theorem arith_bool {op : ArithOp} {whole : Bool} {d e r : DType} (k : op.Dtype whole d e r) :
    r = .bool ↔ d = .bool ∧ e = .bool ∧ (op = .add ∨ op = .sub ∨ op = .mul) := by
  unfold ArithOp.Dtype at k
  split at k
  · rename_i q
    subst k
    rcases q with rfl | rfl <;> simp
  · cases op <;> simp only at k <;> subst k <;> simp <;> cases whole <;> simp

theorem BinOp.dtype_bool {b : BinOp} {whole : Bool} {d e d' e' r r' : DType} (h1 : d = .bool ↔ d' = .bool) (h2 : e = .bool ↔ e' = .bool)
    (k : b.Dtype whole d e r) (k' : b.Dtype whole d' e' r') : r = .bool ↔ r' = .bool := by
  cases b with
  | rel c => simp only [BinOp.Dtype] at k k'; rw [k, k']
  | logic o => simp only [BinOp.Dtype] at k k'; rw [k, k']
  | arith op =>
    rw [arith_bool (op := op) k, arith_bool (op := op) k', h1, h2]

/-- C118: a formula whose operators treat whole numbers as floats gives the same numbers for larrys with the same numbers, provided
bool larrys stay bool larrys. -/
theorem C118_formula [LinearOrder L] (py3 : Bool) {n : Nat} {dt dt' : Nat → DType} {env env' : List (Larry L)}
    (henv : NumberEnv n dt env) (henv' : NumberEnv n dt' env') (hlen : env'.length = env.length)
    (hsame : ∀ (i : Nat) (y w : Larry L), env[i]? = some y → env'[i]? = some w → y.SameNums w) {f : Formula}
    (hfair : f.Fair (!py3)) (hbool : ∀ i ∈ f.vars, dt i = .bool ↔ dt' i = .bool) {d d' : DType} (hf : f.HasDtype (!py3) dt d)
    (hf' : f.HasDtype (!py3) dt' d') (hv : ∀ i ∈ f.vars, i < env.length) :
    ∃ z z', f.eval py3 env = .ok z ∧ f.eval py3 env' = .ok z' ∧ z.Valid ∧ z'.Valid ∧ z.Typed ∧ z'.Typed ∧
      (z.dtype = .bool ↔ z'.dtype = .bool) ∧ z.SameNums z' := by
  induction hf generalizing d' with
  | var i =>
    cases hf'
    have hi := hv i (by simp [Formula.vars])
    have hg : env[i]? = some env[i] := List.getElem?_eq_getElem hi
    have hg' : env'[i]? = some (env'[i]'(by omega)) := List.getElem?_eq_getElem _
    obtain ⟨h1, h2, h3, h4, h5⟩ := henv i _ hg
    obtain ⟨k1, k2, k3, k4, k5⟩ := henv' i _ hg'
    exact ⟨_, _, by simp [Formula.eval, hg], by simp [Formula.eval, hg'], h1, k1, h2, k2,
      by rw [h4, k4]; exact hbool i (by simp [Formula.vars]), hsame i _ _ hg hg'⟩
  | @fn m t e r h hm hi hr ih =>
    cases hf' with
    | @fn _ _ e' r' k km ki kr =>
      obtain ⟨y, w, e1, e2, v1, v2, t1, t2, q, hs⟩ := ih hfair hbool k hv
      obtain ⟨y0, g1, fy⟩ := eval_formula py3 henv h hv
      obtain ⟨w0, g2, fw⟩ := eval_formula py3 henv' k (by rw [hlen]; exact hv)
      obtain rfl := Except.ok.inj (e1.symm.trans g1)
      obtain rfl := Except.ok.inj (e2.symm.trans g2)
      obtain ⟨z, z', a1, a2, a3, a4, a5, a6, a7⟩ := C118_elementwise v1 v2 t1 t2 hs (fy.dtype ▸ hm) (fw.dtype ▸ km)
        (fun j => fy.dtype ▸ hi j) (fun j => fw.dtype ▸ ki j) (even_of_bool q)
      refine ⟨z, z', by simp only [Formula.eval, e1, a1], by simp only [Formula.eval, e2, a2], a3, a4, a5, a6, ?_, a7⟩
      obtain ⟨z0, b1, -, -, -, b5, -⟩ := C72_elementwise v1 t1 m (fy.dtype ▸ hm) (fun j => fy.dtype ▸ hi j)
      obtain ⟨w0, c1, -, -, -, c5, -⟩ := C72_elementwise v2 t2 m (fw.dtype ▸ km) (fun j => fw.dtype ▸ ki j)
      obtain rfl := Except.ok.inj (a1.symm.trans b1)
      obtain rfl := Except.ok.inj (a2.symm.trans c1)
      exact dtype_bool q b5 c5
  | @bin b s t d e r h h' hr ih ih' =>
    cases hf' with
    | @bin _ _ _ d2 e2 r2 k k' kr =>
      obtain ⟨f1, f2, f3⟩ := hfair
      have hv1 : ∀ i ∈ s.vars, i < env.length := fun i hi => hv i (by simp [Formula.vars, hi])
      have hv2 : ∀ i ∈ t.vars, i < env.length := fun i hi => hv i (by simp [Formula.vars, hi])
      obtain ⟨x, x', p1, p2, p3, p4, p5, p6, p7, p8⟩ := ih f2 (fun i hi => hbool i (by simp [Formula.vars, hi])) k hv1
      obtain ⟨y, y', q1, q2, q3, q4, q5, q6, q7, q8⟩ := ih' f3 (fun i hi => hbool i (by simp [Formula.vars, hi])) k' hv2
      obtain ⟨x0, g1, fx⟩ := eval_formula py3 henv h hv1
      obtain rfl := Except.ok.inj (p1.symm.trans g1)
      obtain ⟨y0, g2, fy⟩ := eval_formula py3 henv h' hv2
      obtain rfl := Except.ok.inj (q1.symm.trans g2)
      obtain ⟨z, z', a1, a2, a3, a4, a5, a6, a7⟩ := C118_operators py3 b p3 q3 p5 q5 p4 q4 p6 q6 (fx.ndim.trans fy.ndim.symm) p8 q8
        (.inl (f1.even p7 q7))
      refine ⟨z, z', by simp only [Formula.eval, p1, q1, a1], by simp only [Formula.eval, p2, q2, a2], a3, a4, a5, a6, ?_, a7⟩
      obtain ⟨x1, g3, fx'⟩ := eval_formula py3 henv' k (by rw [hlen]; exact hv1)
      obtain rfl := Except.ok.inj (p2.symm.trans g3)
      obtain ⟨y1, g4, fy'⟩ := eval_formula py3 henv' k' (by rw [hlen]; exact hv2)
      obtain rfl := Except.ok.inj (q2.symm.trans g4)
      obtain ⟨z0, b1, -, -, -, b5, -⟩ := b.larrys_spec py3 p3 q3 p5 q5 p8.kinds.1 q8.kinds.1 (fx.ndim.trans fy.ndim.symm)
      obtain ⟨w0, c1, -, -, -, c5, -⟩ := b.larrys_spec py3 p4 q4 p6 q6 p8.kinds.2 q8.kinds.2 (fx'.ndim.trans fy'.ndim.symm)
      obtain rfl := Except.ok.inj (a1.symm.trans b1)
      obtain rfl := Except.ok.inj (a2.symm.trans c1)
      exact BinOp.dtype_bool p7 q7 b5 c5
  | @right b s o d od r h ho hod hr ih =>
    cases hf' with
    | @right _ _ _ d2 _ r2 k ko kod kr =>
      obtain ⟨f1, f2⟩ := hfair
      obtain ⟨y, w, e1, e2, v1, v2, t1, t2, q, hs⟩ := ih f2 hbool k hv
      obtain ⟨z, z', a1, a2, a3, a4, a5, a6, a7⟩ := C118_right py3 b v1 t1 v2 t2 hs ho hod ko kod rfl (by
        rcases f1 with f1 | rfl | f1
        · exact .inl (f1.even q Iff.rfl)
        · exact .inl BinOp.even_right
        · exact .inr f1)
      refine ⟨z, z', by simp only [Formula.eval, e1, a1], by simp only [Formula.eval, e2, a2], a3, a4, a5, a6, ?_, a7⟩
      obtain ⟨z0, b1, -, -, -, -, b5, -⟩ := b.right_spec py3 v1 t1 hs.kinds.1 ho hod
      obtain ⟨w0, c1, -, -, -, -, c5, -⟩ := b.right_spec py3 v2 t2 hs.kinds.2 ko kod
      obtain rfl := Except.ok.inj (a1.symm.trans b1)
      obtain rfl := Except.ok.inj (a2.symm.trans c1)
      exact BinOp.dtype_bool q Iff.rfl b5 c5
  | @left b t o d od r h ho hod hb hr ih =>
    cases hf' with
    | @left _ _ _ d2 _ r2 k ko kod kb kr =>
      obtain ⟨f1, f2⟩ := hfair
      obtain ⟨y, w, e1, e2, v1, v2, t1, t2, q, hs⟩ := ih f2 hbool k hv
      obtain ⟨y0, g1, fy⟩ := eval_formula py3 henv h hv
      obtain ⟨w0, g2, fw⟩ := eval_formula py3 henv' k (by rw [hlen]; exact hv)
      obtain rfl := Except.ok.inj (e1.symm.trans g1)
      obtain rfl := Except.ok.inj (e2.symm.trans g2)
      have hb1 : b = .arith .sub → ¬ (y.dtype = .bool ∧ od = .bool) := fun j => fy.dtype ▸ hb j
      have hb2 : b = .arith .sub → ¬ (w.dtype = .bool ∧ od = .bool) := fun j => fw.dtype ▸ kb j
      obtain ⟨z, z', a1, a2, a3, a4, a5, a6, a7⟩ := C118_left py3 b v1 t1 v2 t2 hs ho hod ko kod rfl (fun j => ⟨hb1 j, hb2 j⟩) (by
        rcases f1 with f1 | rfl
        · exact .inl (f1.even Iff.rfl q)
        · exact .inl BinOp.even_left)
      refine ⟨z, z', by simp only [Formula.eval, e1, a1], by simp only [Formula.eval, e2, a2], a3, a4, a5, a6, ?_, a7⟩
      obtain ⟨z0, b1, -, -, -, -, b5, -⟩ := b.left_spec py3 v1 t1 hs.kinds.1 ho hod hb1
      obtain ⟨w0, c1, -, -, -, -, c5, -⟩ := b.left_spec py3 v2 t2 hs.kinds.2 ko kod hb2
      obtain rfl := Except.ok.inj (a1.symm.trans b1)
      obtain rfl := Except.ok.inj (a2.symm.trans c1)
      exact BinOp.dtype_bool Iff.rfl q b5 c5


/-! ## A concrete pair -/

/-- `1, 2, 5` as ints. -/
def exWhole : Larry Nat := ⟨NDArray.ofList [3] [.int 1, .int 2, .int 5], .int, [[0, 1, 2]]⟩

/-- `1.0, 2.0, 5.0`. -/
def exWholeFloat : Larry Nat := ⟨NDArray.ofList [3] [fl 1, fl 2, fl 5], .float, [[0, 1, 2]]⟩

/-- `1, 2, 5` lie in memory with 8-byte elements, either way. -/
def exWholeAt : Strided := ⟨[3], [8], 0⟩

def exWholeBuf (a : Int) : Val := exWhole.x.get [a.toNat / 8]
def exWholeFloatBuf (a : Int) : Val := exWholeFloat.x.get [a.toNat / 8]

theorem exWhole_valid : exWhole.Valid := ⟨rfl, by decide, by decide⟩
theorem exWholeFloat_valid : exWholeFloat.Valid := ⟨rfl, by decide, by decide⟩
theorem exWhole_typed : exWhole.Typed := typed_cells (by decide +kernel)
theorem exWholeFloat_typed : exWholeFloat.Typed := typed_cells (by decide +kernel)

theorem exWhole_same : exWhole.SameNums exWholeFloat := by
  refine .of_nums exWhole_valid rfl (.inr (.inl rfl)) (.inr (.inr rfl)) ⟨rfl, fun idx hidx => ?_⟩
  have := mem_allIdx.mpr hidx
  clear hidx
  revert idx
  decide +kernel

theorem exWhole_can : CanMove exWhole exWholeBuf exWholeAt 2 (-1) 0 .strides ∧
    CanMove exWholeFloat exWholeFloatBuf exWholeAt 2 (-1) 0 .loop := by
  refine ⟨⟨exWhole_valid, ⟨rfl, rfl, ?_⟩, .inr ⟨rfl, by decide⟩, by decide, rfl, ?_⟩,
    ⟨exWholeFloat_valid, ⟨rfl, rfl, ?_⟩, .inl rfl, by decide, rfl, ?_⟩⟩
  all_goals first
    | (intro l hl; cases hl; decide)
    | (intro idx h
       match idx, h with
       | [i], h =>
         have h' : i < 3 := by simpa [exWholeAt, InB] using h
         interval_cases i <;> rfl)

example : ∃ z z', exWhole.moveStat (Reduction.measure .sum).red exWholeBuf exWholeAt 2 (some (-1)) .strides = .ok z ∧
    exWholeFloat.moveStat (Reduction.measure .sum).red exWholeFloatBuf exWholeAt 2 (some (-1)) .loop = .ok z' ∧ z.SameNums z' :=
  C118_windows exWhole_same exWhole_can.1 exWhole_can.2 _

/-- `y.sum()` of both. -/
example : Res.Agree Out.SameNums ((Reduction.measure .sum).of exWhole none) ((Reduction.measure .sum).of exWholeFloat none) :=
  C118_reductions exWhole_valid exWholeFloat_valid exWhole_same _ none (.inr rfl)

example : Res.Agree Out.SameNums (exWhole.prod (some 0)) (exWholeFloat.prod (some 0)) :=
  C118_prod exWhole_valid exWholeFloat_valid exWhole_typed exWholeFloat_typed exWhole_same (by decide) (some 0)

example : Res.Agree Larry.Same ((Normalizing.ranking .pm1 (some 0)).run exWhole) ((Normalizing.ranking .pm1 (some 0)).run exWholeFloat) :=
  C118_normalizing exWhole_valid exWholeFloat_valid exWhole_typed exWholeFloat_typed exWhole_same _

example : Res.Agree Larry.SameNums (exWhole.push 1 0) (exWholeFloat.push 1 0) :=
  C118_push exWhole_valid exWholeFloat_valid exWhole_same 1 0

example : Res.Agree Larry.SameNums (Running.sum.run exWhole (some 0)) (Running.sum.run exWholeFloat (some 0)) :=
  C118_running exWhole_valid exWholeFloat_valid exWhole_typed exWholeFloat_typed exWhole_same .sum (some 0)

example : ∃ z z', exWhole.elem .neg = .ok z ∧ exWholeFloat.elem .neg = .ok z' ∧ z.Valid ∧ z'.Valid ∧ z.Typed ∧ z'.Typed ∧ z.SameNums z' :=
  C118_elementwise exWhole_valid exWholeFloat_valid exWhole_typed exWholeFloat_typed exWhole_same ⟨.inr (.inl rfl), trivial⟩
    ⟨.inr (.inr rfl), trivial⟩ (by simp) (by simp) (by simp [ElemMethod.Even, exWhole, exWholeFloat])

/-- `group_mean` with the larry itself for groups. -/
example : Res.Agree Larry.Same (GroupMethod.mean.run id exWhole exWhole 0) (GroupMethod.mean.run id exWholeFloat exWhole 0) :=
  C118_groups exWhole_valid exWholeFloat_valid exWhole_same id exWhole 0 .mean

/-- `y // y`, `y // 2` and `2 / y`. -/
example : ∀ names v, exWhole.Has names v → v.num ≠ .fin 0 := by
  rintro names v ⟨idx, hat, rfl⟩
  have := mem_allIdx.mpr (At_inB hat)
  clear hat
  revert idx
  decide +kernel

example : ∃ z z', BinOp.right false (.arith .floordiv) exWhole (.int 2) .int = .ok z ∧
    BinOp.right false (.arith .floordiv) exWholeFloat (.int 2) .int = .ok z' ∧ z.Valid ∧ z'.Valid ∧ z.Typed ∧ z'.Typed ∧ z.SameNums z' :=
  C118_right false _ exWhole_valid exWhole_typed exWholeFloat_valid exWholeFloat_typed exWhole_same rfl (.inr (.inl rfl)) rfl
    (.inr (.inl rfl)) rfl (.inr ⟨rfl, by simp [Val.num]⟩)

example : ∃ z z', BinOp.left true (.arith .div) (.int 2) .int exWhole = .ok z ∧
    BinOp.left true (.arith .div) (fl 2) .float exWholeFloat = .ok z' ∧ z.Valid ∧ z'.Valid ∧ z.Typed ∧ z'.Typed ∧ z.SameNums z' :=
  C118_left true _ exWhole_valid exWhole_typed exWholeFloat_valid exWholeFloat_typed exWhole_same rfl (.inr (.inl rfl)) rfl
    (.inr (.inr rfl)) (by simp [Val.num]) (by simp) (.inl (by simp [BinOp.Even]))

example : ∃ z z', BinOp.larrys true (.arith .mul) exWhole exWhole = .ok z ∧
    BinOp.larrys true (.arith .mul) exWhole exWholeFloat = .ok z' ∧ z.Valid ∧ z'.Valid ∧ z.Typed ∧ z'.Typed ∧ z.SameNums z' :=
  C118_operators true _ exWhole_valid exWhole_valid exWhole_typed exWhole_typed exWhole_valid exWholeFloat_valid exWhole_typed
    exWholeFloat_typed rfl ⟨rfl, ⟨exWhole_same.kinds.1, exWhole_same.kinds.1⟩, fun names v v' h h' => by
      rw [Holds_unique exWhole_valid.nodup h h']⟩ exWhole_same (.inl (by simp [BinOp.Even, exWhole]))

/-- `(y - 1) * y < y // 2` of both, in Python 3. -/
def exFair : Formula := .bin (.rel .lt) (.bin (.arith .mul) (.right (.arith .sub) (.var 0) (.int 1) .int) (.var 0))
  (.right (.arith .floordiv) (.var 0) (.int 2) .int)

theorem exFair_dtype (d : DType) (hd : d = .int ∨ d = .float) : exFair.HasDtype false (fun _ => d) .bool := by
  have n : DType.int.Number := .inr (.inl rfl)
  rcases hd with rfl | rfl
  · exact .bin (d := .int) (e := .int) (.bin (d := .int) (e := .int) (.right (d := .int) (.var 0) rfl n (by simp [BinOp.Dtype, ArithOp.Dtype])) (.var 0) (by simp [BinOp.Dtype, ArithOp.Dtype]))
      (.right (d := .int) (.var 0) rfl n (by simp [BinOp.Dtype, ArithOp.Dtype])) rfl
  · exact .bin (d := .float) (e := .float) (.bin (d := .float) (e := .float) (.right (d := .float) (.var 0) rfl n (by simp [BinOp.Dtype, ArithOp.Dtype])) (.var 0) (by simp [BinOp.Dtype, ArithOp.Dtype]))
      (.right (d := .float) (.var 0) rfl n (by simp [BinOp.Dtype, ArithOp.Dtype])) rfl

example : ∃ z z', exFair.eval true [exWhole] = .ok z ∧ exFair.eval true [exWholeFloat] = .ok z' ∧ z.Valid ∧ z'.Valid ∧ z.Typed ∧ z'.Typed ∧
    (z.dtype = .bool ↔ z'.dtype = .bool) ∧ z.SameNums z' := by
  refine C118_formula true (env := [exWhole]) (env' := [exWholeFloat]) (n := 1) (dt := fun _ => .int) (dt' := fun _ => .float) ?_ ?_ rfl ?_ ?_ ?_ (exFair_dtype _ (.inl rfl))
    (exFair_dtype _ (.inr rfl)) ?_
  · rintro (_ | i) y hy <;> simp at hy
    subst hy
    exact ⟨exWhole_valid, exWhole_typed, rfl, rfl, .inr (.inl rfl)⟩
  · rintro (_ | i) y hy <;> simp at hy
    subst hy
    exact ⟨exWholeFloat_valid, exWholeFloat_typed, rfl, rfl, .inr (.inr rfl)⟩
  · rintro (_ | i) y w hy hw <;> simp at hy hw
    subst hy hw
    exact exWhole_same
  · simp [exFair, Formula.Fair, BinOp.Fair, Val.num]
  · simp
  · simp [exFair, Formula.vars]

/-! ## Where the kind of number shows -/

/-- `//` by zero: 0 for ints, infinity for floats. -/
theorem C118_floordiv_zero : ∃ z z', BinOp.right true (.arith .floordiv) exWhole (.int 0) .int = .ok z ∧
    BinOp.right true (.arith .floordiv) exWholeFloat (.int 0) .int = .ok z' ∧ z.get [0] = .ok (.int 0) ∧ z'.get [0] = .ok (.flt .pinf) :=
  ⟨_, _, rfl, rfl, by decide +kernel, by decide +kernel⟩

/-- `/` in Python 2 rounds ints down. -/
theorem C118_python2 : ∃ z z', BinOp.right false (.arith .div) exWhole (.int 2) .int = .ok z ∧
    BinOp.right false (.arith .div) exWholeFloat (.int 2) .int = .ok z' ∧ z.get [0] = .ok (.int 0) ∧ z'.get [0] = .ok (fl (1 / 2)) :=
  ⟨_, _, rfl, rfl, by decide +kernel, by decide +kernel⟩

/-- Adding a bool larry to itself keeps it, adding the ints 1 and 0 to themselves does not. -/
theorem C118_bools : ∃ y w : Larry Nat, y.Valid ∧ w.Valid ∧ y.Typed ∧ w.Typed ∧ y.SameNums w ∧ ∃ z z', BinOp.larrys true (.arith .add) y y = .ok z ∧
    BinOp.larrys true (.arith .add) w w = .ok z' ∧ z.get [0] = .ok (.bool true) ∧ z'.get [0] = .ok (.int 2) := by
  refine ⟨⟨NDArray.ofList [1] [.bool true], .bool, [[0]]⟩, ⟨NDArray.ofList [1] [.int 1], .int, [[0]]⟩, ⟨rfl, by decide, by decide⟩,
    ⟨rfl, by decide, by decide⟩, typed_cells (by decide +kernel), typed_cells (by decide +kernel), ?_, _, _, rfl, rfl,
    by decide +kernel, by decide +kernel⟩
  refine .of_nums ⟨rfl, by decide, by decide⟩ rfl (.inl rfl) (.inr (.inl rfl)) ⟨rfl, fun idx hidx => ?_⟩
  have := mem_allIdx.mpr hidx
  clear hidx
  revert idx
  decide +kernel

/-- The sums along an axis with no elements: NaN for floats, an exception for ints. -/
theorem C118_empty : (⟨⟨[0, 2], fun _ => .int 0⟩, .int, [[], [0, 1]]⟩ : Larry Nat).sum (some 0) = .error .valueError ∧
    ∃ z, (⟨⟨[0, 2], fun _ => fl 0⟩, .float, [[], [0, 1]]⟩ : Larry Nat).sum (some 0) = .ok (.larry z) ∧ z.get [0] = .ok (.flt .nan) :=
  ⟨rfl, _, rfl, by decide +kernel⟩

end La
