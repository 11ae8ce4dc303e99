import Verif.Formula
import Verif.Props.Chain
import Verif.Props.Setitem

/-!
C95: a formula of larrys is the formula of their cells: the labels are the inner join of the labels of all larrys in it, and each
cell has the value the formula has for the numbers in this cell.
-/

namespace La
open Arith Larry
variable {L : Type _}

/-! ## Specification -/

/-- `g` and `h` are numbers, and `g` is below `h`. -/
inductive Flt.Below : Flt → Flt → Prop
  | fin {a b : ℚ} (h : a < b) : Flt.Below (.fin a) (.fin b)
  | ninf {h : Flt} (h1 : h ≠ .nan) (h2 : h ≠ .ninf) : Flt.Below .ninf h
  | pinf {g : Flt} (h1 : g ≠ .nan) (h2 : g ≠ .pinf) : Flt.Below g .pinf

/-- What a comparison asks; NaN differs from everything, is not below and not above anything. -/
def RelOp.Asks (g h : Flt) : RelOp → Prop
  | .eq => g = h ∧ g ≠ .nan
  | .ne => ¬ (g = h ∧ g ≠ .nan)
  | .lt => g.Below h
  | .gt => h.Below g
  | .le => g.Below h ∨ (g = h ∧ g ≠ .nan)
  | .ge => h.Below g ∨ (g = h ∧ g ≠ .nan)

/-- What `&` and `|` ask. -/
def LogicOp.Asks (g h : Flt) : LogicOp → Prop
  | .and => g ≠ .fin 0 ∧ h ≠ .fin 0
  | .or => g ≠ .fin 0 ∨ h ≠ .fin 0

/-- `s` is `g op h`, for operands of dtypes `d` and `e`; `whole`: the `/` of Python 2. -/
def BinOp.Means (whole : Bool) (d e : DType) (g h s : Flt) : BinOp → Prop
  | .arith op => op.Means whole d e g h s
  | .rel c => IsTruth (c.Asks g h) s
  | .logic o => IsTruth (o.Asks g h) s

/-- The dtype of the result. -/
def BinOp.Dtype (whole : Bool) (d e r : DType) : BinOp → Prop
  | .arith op => op.Dtype whole d e r
  | .rel _ => r = .bool
  | .logic _ => r = .bool

namespace Formula

/-- The larrys in the formula. -/
def vars : Formula → List Nat
  | .var i => [i]
  | .fn _ t => t.vars
  | .bin _ s t => s.vars ++ t.vars
  | .right _ s _ _ => s.vars
  | .left _ _ _ t => t.vars

/-- The formula has dtype `d` when larry `i` has dtype `dt i`. Only bools are inverted, and no bool scalar stands to the left of `-`
and a bool formula (C74). -/
inductive HasDtype (whole : Bool) (dt : Nat → DType) : Formula → DType → Prop
  | var (i : Nat) : HasDtype whole dt (.var i) (dt i)
  | fn {m : ElemMethod} {t : Formula} {d r : DType} (h : HasDtype whole dt t d) (hm : m.Modelled d) (hi : m = .invert → d = .bool)
      (hr : m.Dtype d r) : HasDtype whole dt (.fn m t) r
  | bin {b : BinOp} {s t : Formula} {d e r : DType} (h : HasDtype whole dt s d) (h' : HasDtype whole dt t e)
      (hr : b.Dtype whole d e r) : HasDtype whole dt (.bin b s t) r
  | right {b : BinOp} {s : Formula} {o : Val} {d od r : DType} (h : HasDtype whole dt s d) (ho : o.hasDType od = true)
      (hod : od.Number) (hr : b.Dtype whole d od r) : HasDtype whole dt (.right b s o od) r
  | left {b : BinOp} {t : Formula} {o : Val} {d od r : DType} (h : HasDtype whole dt t d) (ho : o.hasDType od = true)
      (hod : od.Number) (hb : b = .arith .sub → ¬ (d = .bool ∧ od = .bool)) (hr : b.Dtype whole od d r) :
      HasDtype whole dt (.left b o od t) r

/-- The formula has dtype `d` and value `g` when larry `i` has dtype `dt i` and the number `a i` in the cell. -/
inductive Gives (whole : Bool) (dt : Nat → DType) (a : Nat → Flt) : Formula → DType → Flt → Prop
  | var (i : Nat) : Gives whole dt a (.var i) (dt i) (a i)
  | fn {m : ElemMethod} {t : Formula} {d r : DType} {g k : Flt} (h : Gives whole dt a t d g) (hr : m.Dtype d r)
      (hk : m.Makes d g k) : Gives whole dt a (.fn m t) r k
  | bin {b : BinOp} {s t : Formula} {d e r : DType} {g h k : Flt} (hs : Gives whole dt a s d g) (ht : Gives whole dt a t e h)
      (hr : b.Dtype whole d e r) (hk : b.Means whole d e g h k) : Gives whole dt a (.bin b s t) r k
  | right {b : BinOp} {s : Formula} {o : Val} {d od r : DType} {g h k : Flt} (hs : Gives whole dt a s d g) (ho : IsNumber o h)
      (hr : b.Dtype whole d od r) (hk : b.Means whole d od g h k) : Gives whole dt a (.right b s o od) r k
  | left {b : BinOp} {t : Formula} {o : Val} {d od r : DType} {g h k : Flt} (ho : IsNumber o g) (ht : Gives whole dt a t d h)
      (hr : b.Dtype whole od d r) (hk : b.Means whole od d g h k) : Gives whole dt a (.left b o od t) r k

end Formula

/-- `a` lists the numbers that the larrys have in the cell with these names. -/
def CellOf [LinearOrder L] (env : List (Larry L)) (vars : List Nat) (names : List L) (a : Nat → Flt) : Prop :=
  ∀ i ∈ vars, ∃ y v, env[i]? = some y ∧ y.get names = .ok v ∧ IsNumber v (a i)

/-- The larrys of an environment: valid, of bool, int or float data, with the same number of axes. -/
def NumberEnv [LinearOrder L] (n : Nat) (dt : Nat → DType) (env : List (Larry L)) : Prop :=
  ∀ i y, env[i]? = some y → y.Valid ∧ y.Typed ∧ y.ndim = n ∧ y.dtype = dt i ∧ (dt i).Number

/-! ## The operators -/

theorem lt_below {g h : Flt} : g.lt h = true ↔ g.Below h := by
  constructor
  · intro k
    cases g <;> cases h <;> simp [Flt.lt] at k <;> first
      | exact .fin k
      | exact .ninf (by simp) (by simp)
      | exact .pinf (by simp) (by simp)
  · intro k
    cases k with
    | fin k => simp [Flt.lt, k]
    | ninf h1 h2 => cases h <;> simp_all [Flt.lt]
    | pinf h1 h2 => cases g <;> simp_all [Flt.lt]

theorem eq_same {g h : Flt} : g.eq h = true ↔ g = h ∧ g ≠ .nan := by
  cases g <;> cases h <;> simp [Flt.eq]

theorem test_asks (c : RelOp) (g h : Flt) : c.test g h = true ↔ c.Asks g h := by
  have e : h = g ∧ h ≠ .nan ↔ g = h ∧ g ≠ .nan := by constructor <;> (rintro ⟨rfl, k⟩; exact ⟨rfl, k⟩)
  cases c with
  | eq => exact eq_same
  | ne =>
    simp only [RelOp.test, RelOp.Asks, Bool.not_eq_true', ← eq_same]
    simp
  | lt => exact lt_below
  | gt => exact lt_below
  | le => simp only [RelOp.test, RelOp.Asks, Flt.le, Bool.or_eq_true, lt_below, eq_same]
  | ge => simp only [RelOp.test, RelOp.Asks, Flt.le, Bool.or_eq_true, lt_below, eq_same, e]

theorem reflected_test (c : RelOp) (g h : Flt) : c.reflected.test h g = c.test g h := by
  have e : h.eq g = g.eq h := by
    rw [Bool.eq_iff_iff, eq_same, eq_same]
    constructor <;> (rintro ⟨rfl, k⟩; exact ⟨rfl, k⟩)
  cases c <;> simp [RelOp.test, RelOp.reflected, e]

theorem truth_iff (v : Val) : v.truth = true ↔ v.num ≠ .fin 0 := by
  have : ∀ g : Flt, g.eq (.fin 0) = true ↔ g = .fin 0 := by intro g; cases g <;> simp [Flt.eq]
  simp only [Val.truth, Bool.not_eq_true', ne_eq, ← this]
  simp

/-- A truth value computed by the model. -/
theorem bool_truth {p : Prop} {b : Bool} (h : b = true ↔ p) : IsTruth p (Val.bool b).num := by
  cases b
  · exact .no (fun k => by simpa using h.mpr k)
  · exact .yes (h.mp rfl)

theorem truthDt_ok {d e : DType} (hd : d.Number) (he : e.Number) : truthDt d e = .ok .bool := by
  simp [truthDt, numeric_of hd, numeric_of he]

namespace BinOp

/-- The numpy function behind an operator. -/
def uf (py3 : Bool) : BinOp → UFunc2
  | .arith op => op.uf py3
  | .rel c => c.uf
  | .logic o => o.uf

theorem dt (py3 : Bool) (b : BinOp) {d e : DType} (hd : d.Number) (he : e.Number) :
    ∃ r, (b.uf py3).dt d e = .ok r ∧ r.Number ∧ b.Dtype (!py3) d e r := by
  cases b with
  | arith op => exact uf_dt py3 op hd he
  | rel c => exact ⟨.bool, truthDt_ok hd he, .inl rfl, rfl⟩
  | logic o => exact ⟨.bool, by cases o <;> exact truthDt_ok hd he, .inl rfl, rfl⟩

theorem means (py3 : Bool) (b : BinOp) {d e r : DType} (hd : d.Number) (he : e.Number) (hr : (b.uf py3).dt d e = .ok r)
    {v w : Val} (hv : v.hasDType d = true) (hw : w.hasDType e = true) :
    ((b.uf py3).f v w).hasDType r = true ∧ b.Means (!py3) d e v.num w.num ((b.uf py3).f v w).num := by
  cases b with
  | arith op => exact uf_means py3 op hd he hr hv hw
  | rel c =>
    obtain rfl : DType.bool = r := Except.ok.inj ((truthDt_ok hd he).symm.trans hr)
    exact ⟨rfl, bool_truth (test_asks c _ _)⟩
  | logic o =>
    cases o with
    | and =>
      obtain rfl : DType.bool = r := Except.ok.inj ((truthDt_ok hd he).symm.trans hr)
      exact ⟨rfl, bool_truth (by rw [Bool.and_eq_true, truth_iff, truth_iff]; rfl)⟩
    | or =>
      obtain rfl : DType.bool = r := Except.ok.inj ((truthDt_ok hd he).symm.trans hr)
      exact ⟨rfl, bool_truth (by rw [Bool.or_eq_true, truth_iff, truth_iff]; rfl)⟩

theorem unique {b : BinOp} {whole : Bool} {d e : DType} {g h s s' : Flt} (k : b.Means whole d e g h s)
    (k' : b.Means whole d e g h s') : s = s' := by
  cases b with
  | arith op => exact means_unique k k'
  | rel c => exact IsTruth.unique k k'
  | logic o => exact IsTruth.unique k k'

theorem dtype_unique {b : BinOp} {whole : Bool} {d e r r' : DType} (k : b.Dtype whole d e r) (k' : b.Dtype whole d e r') : r = r' := by
  cases b with
  | arith op =>
    simp only [Dtype, ArithOp.Dtype] at k k'
    split at k
    · rw [if_pos (by assumption)] at k'; exact k.trans k'.symm
    · rw [if_neg (by assumption)] at k'
      cases op <;> exact k.trans k'.symm
  | rel c => exact Eq.trans k (Eq.symm k')
  | logic o => exact Eq.trans k (Eq.symm k')

theorem larrys_spec [LinearOrder L] (py3 : Bool) (b : BinOp) {x y : Larry L} (hx : x.Valid) (hy : y.Valid) (tx : x.Typed) (ty : y.Typed)
    (hd : x.dtype.Number) (he : y.dtype.Number) (hn : x.ndim = y.ndim) :
    ∃ z, b.larrys py3 x y = .ok z ∧ z.Valid ∧ z.Typed ∧ z.dtype.Number ∧ b.Dtype (!py3) x.dtype y.dtype z.dtype ∧
      Joined InnerJoined x.label y.label z.label ∧
      ∀ names w, z.get names = .ok w ↔ ∃ u v, x.get names = .ok u ∧ y.get names = .ok v ∧ w.hasDType z.dtype = true ∧
        ∃ g h s, IsNumber u g ∧ IsNumber v h ∧ IsNumber w s ∧ b.Means (!py3) x.dtype y.dtype g h s := by
  obtain ⟨r, r1, r2, r3⟩ := b.dt py3 hd he
  have hz : ∃ z, b.larrys py3 x y = .ok z ∧ z.Valid ∧ z.dtype = r ∧ Joined InnerJoined x.label y.label z.label ∧
      ∀ names v, z.get names = .ok v ↔ ∃ u w, x.get names = .ok u ∧ y.get names = .ok w ∧ v = (b.uf py3).f u w := by
    cases b with
    | arith op => exact C09_binop hx hy hn _ r1
    | logic o => exact C09_binop hx hy hn _ r1
    | rel c => exact C11_compare hx hy hn _ r1
  obtain ⟨z, h1, h2, h3, h4, h5⟩ := hz
  have key : ∀ names u v, x.get names = .ok u → y.get names = .ok v → u.hasDType x.dtype = true ∧ v.hasDType y.dtype = true :=
    fun names u v hu hv => ⟨(typed_iff hx).mp tx names u ((get_ok_iff hx).mp hu), (typed_iff hy).mp ty names v ((get_ok_iff hy).mp hv)⟩
  refine ⟨z, h1, h2, (typed_iff h2).mpr ?_, h3 ▸ r2, h3 ▸ r3, h4, ?_⟩
  · intro names v hv
    obtain ⟨u, w, hu, hw, rfl⟩ := (h5 names v).mp ((get_ok_iff h2).mpr hv)
    obtain ⟨k1, k2⟩ := key names u w hu hw
    rw [h3]; exact (b.means py3 hd he r1 k1 k2).1
  · intro names w
    rw [h5, h3]
    constructor
    · rintro ⟨u, v, hu, hv, rfl⟩
      obtain ⟨k1, k2⟩ := key names u v hu hv
      obtain ⟨m1, m2⟩ := b.means py3 hd he r1 k1 k2
      exact ⟨u, v, hu, hv, m1, _, _, _, num_isNumber hd k1, num_isNumber he k2, num_isNumber r2 m1, m2⟩
    · rintro ⟨u, v, hu, hv, hw, g, h, s, n1, n2, n3, hm⟩
      obtain ⟨k1, k2⟩ := key names u v hu hv
      obtain ⟨m1, m2⟩ := b.means py3 hd he r1 k1 k2
      rw [n1.num, n2.num] at m2
      obtain rfl := b.unique hm m2
      exact ⟨u, v, hu, hv, number_inj (numeric_of r2) hw m1 n3 (num_isNumber r2 m1)⟩

/-- A binary operation with a scalar in numpy. -/
theorem array_spec [LinearOrder L] (py3 : Bool) (b : BinOp) {x : Larry L} (hx : x.Valid) (tx : x.Typed) (hd : x.dtype.Number)
    {o : Val} {od : DType} (ho : o.hasDType od = true) (hod : od.Number) :
    ∃ z, x.binopArray (b.uf py3) ⟨[], fun _ => o⟩ od = .ok z ∧ z.Valid ∧ z.Typed ∧ z.dtype.Number ∧ z.label = x.label ∧
      b.Dtype (!py3) x.dtype od z.dtype ∧ ∀ names w, z.get names = .ok w ↔ ∃ v, x.get names = .ok v ∧ w.hasDType z.dtype = true ∧
        ∃ g h s, IsNumber v h ∧ IsNumber o g ∧ IsNumber w s ∧ b.Means (!py3) x.dtype od h g s := by
  obtain ⟨r, r1, r2, r3⟩ := b.dt py3 hd hod
  have hf : BFits x.x.shape (⟨[], fun _ => o⟩ : NDArray Val).shape := scalar_fits _
  obtain ⟨k1, k2, k3⟩ := paired_spec hx tx hd (other := ⟨[], fun _ => o⟩) (fun _ _ => ho) hod hf r2 (F := fun o v => (b.uf py3).f v o)
    (M := fun g h s => b.Means (!py3) x.dtype od h g s) (fun a c => b.unique a c)
    (fun o v h h' => b.means py3 hd hod r1 h' h)
  refine ⟨_, ?_, k1, k2, r2, rfl, r3, ?_⟩
  · simp [binopArray, npBinop, r1, broadcastShape_fits hf, paired]
  intro names w
  rw [k3]
  simp only [scalar_reads, get_ok_iff hx]
  constructor
  · rintro ⟨idx, _, hat, rfl, hw, g, h, s, n1, n2, n3, n4⟩
    exact ⟨_, ⟨idx, hat, rfl⟩, hw, g, h, s, n2, n1, n3, n4⟩
  · rintro ⟨_, ⟨idx, hat, rfl⟩, hw, g, h, s, n2, n1, n3, n4⟩
    exact ⟨idx, [], hat, rfl, hw, g, h, s, n1, n2, n3, n4⟩

theorem right_spec [LinearOrder L] (py3 : Bool) (b : BinOp) {x : Larry L} (hx : x.Valid) (tx : x.Typed) (hd : x.dtype.Number)
    {o : Val} {od : DType} (ho : o.hasDType od = true) (hod : od.Number) :
    ∃ z, b.right py3 x o od = .ok z ∧ z.Valid ∧ z.Typed ∧ z.dtype.Number ∧ z.label = x.label ∧
      b.Dtype (!py3) x.dtype od z.dtype ∧ ∀ names w, z.get names = .ok w ↔ ∃ v, x.get names = .ok v ∧ w.hasDType z.dtype = true ∧
        ∃ g h s, IsNumber v h ∧ IsNumber o g ∧ IsNumber w s ∧ b.Means (!py3) x.dtype od h g s := by
  have := array_spec py3 b hx tx hd ho hod
  cases b <;> exact this

theorem reflected_asks (c : RelOp) (g h : Flt) : c.reflected.Asks h g ↔ c.Asks g h := by
  rw [← test_asks, ← test_asks, reflected_test]

theorem logic_swap (o : LogicOp) (g h : Flt) : o.Asks h g ↔ o.Asks g h := by
  cases o
  · exact and_comm
  · exact or_comm

theorem arith_number {op : ArithOp} {whole : Bool} {d e r : DType} (h : op.Dtype whole d e r) : r.Number := by
  unfold ArithOp.Dtype at h
  unfold DType.Number
  split at h
  · exact .inr (.inr h)
  · cases op <;> simp only at h <;> first
      | exact .inr (.inl h)
      | (split at h <;> simp [h])

theorem left_spec [LinearOrder L] (py3 : Bool) (b : BinOp) {x : Larry L} (hx : x.Valid) (tx : x.Typed) (hd : x.dtype.Number)
    {o : Val} {od : DType} (ho : o.hasDType od = true) (hod : od.Number) (hb : b = .arith .sub → ¬ (x.dtype = .bool ∧ od = .bool)) :
    ∃ z, b.left py3 o od x = .ok z ∧ z.Valid ∧ z.Typed ∧ z.dtype.Number ∧ z.label = x.label ∧
      b.Dtype (!py3) od x.dtype z.dtype ∧ ∀ names w, z.get names = .ok w ↔ ∃ v, x.get names = .ok v ∧ w.hasDType z.dtype = true ∧
        ∃ g h s, IsNumber o g ∧ IsNumber v h ∧ IsNumber w s ∧ b.Means (!py3) od x.dtype g h s := by
  cases b with
  | arith op =>
    obtain ⟨z, h1, h2, h3, h4, h5, h6⟩ := C74_left_scalar py3 op hx tx hd ho hod (fun e => hb (by rw [e]))
    exact ⟨z, h1, h2, h3, arith_number h5, h4, h5, h6⟩
  | rel c =>
    obtain ⟨z, h1, h2, h3, h4, h5, h6, h7⟩ := array_spec py3 (.rel c.reflected) hx tx hd ho hod
    refine ⟨z, h1, h2, h3, h4, h5, h6, fun names w => ?_⟩
    rw [h7]
    simp only [Means, reflected_asks]
    constructor <;> (rintro ⟨v, hv, hw, g, h, s, n1, n2, n3⟩; exact ⟨v, hv, hw, g, h, s, n2, n1, n3⟩)
  | logic p =>
    obtain ⟨z, h1, h2, h3, h4, h5, h6, h7⟩ := array_spec py3 (.logic p) hx tx hd ho hod
    refine ⟨z, h1, h2, h3, h4, h5, h6, fun names w => ?_⟩
    rw [h7]
    simp only [Means]
    constructor
    · rintro ⟨v, hv, hw, g, h, s, n1, n2, n3, n4⟩
      exact ⟨v, hv, hw, g, h, s, n2, n1, n3, by simpa only [logic_swap p h g] using n4⟩
    · rintro ⟨v, hv, hw, g, h, s, n1, n2, n3, n4⟩
      exact ⟨v, hv, hw, g, h, s, n2, n1, n3, by simpa only [logic_swap p h g] using n4⟩

end BinOp

/-! ## Formulas -/

namespace Formula

theorem makes_dtype_unique {m : ElemMethod} {d r r' : DType} (k : m.Dtype d r) (k' : m.Dtype d r') : r = r' := by
  cases m <;> simp only [ElemMethod.Dtype] at k k' <;> first
    | exact k.trans k'.symm
    | (rcases k with ⟨k1, rfl⟩ | ⟨k1, rfl⟩ <;> rcases k' with ⟨k2, rfl⟩ | ⟨k2, rfl⟩ <;> first | rfl | exact absurd k1 k2 | exact absurd k2 k1)

/-- A formula has one dtype and one value. -/
theorem Gives.unique {whole : Bool} {dt : Nat → DType} {a : Nat → Flt} {f : Formula} {d d' : DType} {g g' : Flt}
    (k : f.Gives whole dt a d g) (k' : f.Gives whole dt a d' g') : d = d' ∧ g = g' := by
  induction k generalizing d' g' with
  | var i => cases k'; exact ⟨rfl, rfl⟩
  | fn h hr hk ih =>
    cases k' with
    | fn h' hr' hk' =>
      obtain ⟨rfl, rfl⟩ := ih h'
      exact ⟨makes_dtype_unique hr hr', C72_makes_unique _ _ hk hk'⟩
  | bin hs ht hr hk ih1 ih2 =>
    cases k' with
    | bin hs' ht' hr' hk' =>
      obtain ⟨rfl, rfl⟩ := ih1 hs'
      obtain ⟨rfl, rfl⟩ := ih2 ht'
      exact ⟨BinOp.dtype_unique hr hr', BinOp.unique hk hk'⟩
  | right hs ho hr hk ih =>
    cases k' with
    | right hs' ho' hr' hk' =>
      obtain ⟨rfl, rfl⟩ := ih hs'
      obtain rfl := ho.unique ho'
      exact ⟨BinOp.dtype_unique hr hr', BinOp.unique hk hk'⟩
  | left ho ht hr hk ih =>
    cases k' with
    | left ho' ht' hr' hk' =>
      obtain ⟨rfl, rfl⟩ := ih ht'
      obtain rfl := ho.unique ho'
      exact ⟨BinOp.dtype_unique hr hr', BinOp.unique hk hk'⟩

theorem HasDtype.gives {whole : Bool} {dt : Nat → DType} {a : Nat → Flt} {f : Formula} {d d' : DType} {g : Flt}
    (k : f.HasDtype whole dt d) (k' : f.Gives whole dt a d' g) : d' = d := by
  induction k generalizing d' g with
  | var i => cases k'; rfl
  | fn h hm hi hr ih =>
    cases k' with
    | fn h' hr' hk' => obtain rfl := ih h'; exact makes_dtype_unique hr' hr
  | bin hs ht hr ih1 ih2 =>
    cases k' with
    | bin hs' ht' hr' hk' =>
      obtain rfl := ih1 hs'
      obtain rfl := ih2 ht'
      exact BinOp.dtype_unique hr' hr
  | right hs ho hod hr ih =>
    cases k' with
    | right hs' ho' hr' hk' => obtain rfl := ih hs'; exact BinOp.dtype_unique hr' hr
  | left ht ho hod hb hr ih =>
    cases k' with
    | left ho' ht' hr' hk' => obtain rfl := ih ht'; exact BinOp.dtype_unique hr' hr

theorem Gives.congr {whole : Bool} {dt : Nat → DType} {a a' : Nat → Flt} {f : Formula} {d : DType} {g : Flt}
    (k : f.Gives whole dt a d g) (h : ∀ i ∈ f.vars, a i = a' i) : f.Gives whole dt a' d g := by
  induction k with
  | var i => rw [h i (by simp [vars])]; exact .var i
  | fn _ hr hk ih => exact .fn (ih h) hr hk
  | bin _ _ hr hk ih1 ih2 =>
    exact .bin (ih1 fun i hi => h i (by simp [vars, hi])) (ih2 fun i hi => h i (by simp [vars, hi])) hr hk
  | right _ ho hr hk ih => exact .right (ih h) ho hr hk
  | left ho _ hr hk ih => exact .left ho (ih h) hr hk

theorem vars_ne (f : Formula) : f.vars ≠ [] := by
  induction f with
  | var i => simp [vars]
  | fn m t ih => exact ih
  | bin b s t ih _ => simp [vars, ih]
  | right b s o od ih => exact ih
  | left b o od t ih => exact ih

end Formula

/-- The numbers in a cell. -/
def cellNum [LinearOrder L] (env : List (Larry L)) (names : List L) (i : Nat) : Flt :=
  match env[i]? with
  | none => .nan
  | some y => match y.get names with
    | .ok v => v.num
    | .error _ => .nan

theorem CellOf.eq_num [LinearOrder L] {env : List (Larry L)} {vars : List Nat} {names : List L} {a : Nat → Flt}
    (h : CellOf env vars names a) : ∀ i ∈ vars, a i = cellNum env names i := by
  intro i hi
  obtain ⟨y, v, h1, h2, h3⟩ := h i hi
  simp only [cellNum, h1, h2]
  exact h3.num.symm

theorem CellOf.num [LinearOrder L] {env : List (Larry L)} {vars : List Nat} {names : List L} {a : Nat → Flt}
    (h : CellOf env vars names a) : CellOf env vars names (cellNum env names) := by
  intro i hi
  obtain ⟨y, v, h1, h2, h3⟩ := h i hi
  exact ⟨y, v, h1, h2, h.eq_num i hi ▸ h3⟩

/-- What is known about the larry `z` that a formula returned. -/
structure FormulaOf [LinearOrder L] (whole : Bool) (n : Nat) (dt : Nat → DType) (env : List (Larry L)) (f : Formula) (d : DType)
    (z : Larry L) : Prop where
  valid : z.Valid
  typed : z.Typed
  ndim : z.ndim = n
  dtype : z.dtype = d
  number : d.Number
  label : ∀ k r, z.label[k]? = some r → AllInner ((f.vars.filterMap fun i => env[i]?).map fun y => y.label.getD k []) r
  has : ∀ names w, z.get names = .ok w → CellOf env f.vars names (cellNum env names) ∧
    ∃ s, IsNumber w s ∧ f.Gives whole dt (cellNum env names) d s
  hasAll : ∀ names, CellOf env f.vars names (cellNum env names) → ∃ w, z.get names = .ok w

theorem FormulaOf.elem [LinearOrder L] {whole : Bool} {n : Nat} {dt : Nat → DType} {env : List (Larry L)} {f : Formula} {d : DType}
    {z : Larry L} (h : FormulaOf whole n dt env f d z) {names : List L} {w : Val} (hw : z.get names = .ok w) : w.hasDType d = true :=
  h.dtype ▸ (typed_iff h.valid).mp h.typed names w ((get_ok_iff h.valid).mp hw)

theorem dtype_number {m : ElemMethod} {d r : DType} (hm : m.Modelled d) (hr : m.Dtype d r) : r.Number := by
  obtain ⟨a, b⟩ := hm
  cases m <;> simp only [ElemMethod.Dtype] at hr <;> first
    | (rcases hr with ⟨k1, rfl⟩ | ⟨k1, rfl⟩
       · exact .inr (.inl rfl)
       · exact a)
    | (rw [hr]; exact a)
    | (rw [hr]; exact b)
    | (rw [hr]; exact .inl rfl)
    | (rw [hr]; exact .inr (.inr rfl))

theorem eval_formula [LinearOrder L] (py3 : Bool) {n : Nat} {dt : Nat → DType} {env : List (Larry L)} (henv : NumberEnv n dt env)
    {f : Formula} {d : DType} (hf : f.HasDtype (!py3) dt d) (hv : ∀ i ∈ f.vars, i < env.length) :
    ∃ z, f.eval py3 env = .ok z ∧ FormulaOf (!py3) n dt env f d z := by
  induction hf with
  | var i =>
    have hi := hv i (by simp [Formula.vars])
    have hg : env[i]? = some env[i] := List.getElem?_eq_getElem hi
    obtain ⟨h1, h2, h3, h4, h5⟩ := henv i env[i] hg
    refine ⟨env[i], by simp [Formula.eval, hg], h1, h2, h3, h4, h5, ?_, ?_, ?_⟩
    · intro k r hr
      simp only [Formula.vars, List.filterMap_cons, hg, List.filterMap_nil]
      have : env[i].label.getD k [] = r := by simp [List.getD, hr]
      simp only [List.map_cons, List.map_nil, this]
      refine ⟨fun l hl => hl r (by simp), ?_, by simp⟩
      rintro ⟨x, hx, y, hy, hne⟩
      simp only [List.mem_singleton] at hx hy
      exact (hne (hx.trans hy.symm)).elim
    · intro names w hw
      have ht := (typed_iff h1).mp h2 names w ((get_ok_iff h1).mp hw)
      rw [h4] at ht
      have hc : cellNum env names i = w.num := by simp only [cellNum, hg, hw]
      refine ⟨?_, w.num, num_isNumber h5 ht, hc ▸ .var i⟩
      intro j hj
      obtain rfl : j = i := by simpa [Formula.vars] using hj
      exact ⟨_, w, hg, hw, hc ▸ num_isNumber h5 ht⟩
    · intro names hc
      obtain ⟨y, v, k1, k2, k3⟩ := hc i (by simp [Formula.vars])
      obtain rfl := Option.some.inj (hg.symm.trans k1)
      exact ⟨v, k2⟩
  | @fn m t e r h hm hi hr ih =>
    obtain ⟨y, ey, fy⟩ := ih hv
    have hm' : m.Modelled y.dtype := fy.dtype ▸ hm
    obtain ⟨z, h1, h2, h3, h4, h5, h6⟩ := C72_elementwise fy.valid fy.typed m hm' (fun k => fy.dtype ▸ hi k)
    rw [fy.dtype] at h5 h6
    have hzr : z.dtype = r := Formula.makes_dtype_unique h5 hr
    refine ⟨z, by simp only [Formula.eval, ey, h1], h2, h3, ?_, hzr, dtype_number hm hr, ?_, ?_, ?_⟩
    · rw [← h2.label_length, h4, fy.valid.label_length, fy.ndim]
    · intro k l hl
      rw [h4] at hl
      exact fy.label k l hl
    · intro names w hw
      obtain ⟨v, hv', hw, g, s, n1, n2, n3⟩ := (h6 names w).mp hw
      obtain ⟨k2, s', k3, k4⟩ := fy.has names v hv'
      obtain rfl := n1.unique k3
      exact ⟨k2, s, n2, .fn k4 hr n3⟩
    · intro names hc
      obtain ⟨v, hv'⟩ := fy.hasAll names hc
      have : ∃ w, z.Has names w := by
        obtain ⟨idx, hat, -⟩ := (get_ok_iff fy.valid).mp hv'
        exact ⟨_, idx, by rw [h4]; exact hat, rfl⟩
      obtain ⟨w, hw⟩ := this
      exact ⟨w, (get_ok_iff h2).mpr hw⟩
  | @bin b s t d e r h h' hr ih ih' =>
    obtain ⟨x, ex, fx⟩ := ih (fun i hi => hv i (by simp [Formula.vars, hi]))
    obtain ⟨y, ey, fy⟩ := ih' (fun i hi => hv i (by simp [Formula.vars, hi]))
    obtain ⟨z, h1, h2, h3, h4, h5, h6, h7⟩ := b.larrys_spec py3 fx.valid fy.valid fx.typed fy.typed
      (fx.dtype.symm ▸ fx.number) (fy.dtype.symm ▸ fy.number) (fx.ndim.trans fy.ndim.symm)
    rw [fx.dtype, fy.dtype] at h5 h7
    have hzr : z.dtype = r := BinOp.dtype_unique h5 hr
    refine ⟨z, by simp only [Formula.eval, ex, ey, h1], h2, h3, ?_, hzr, hzr ▸ h4, ?_, ?_, ?_⟩
    · rw [← h2.label_length, h6.lengths.1, fx.valid.label_length, fx.ndim]
    · intro k l hl
      rcases joined_get h6 k with ⟨_, _, h0⟩ | ⟨p, q, c, e1, e2, e3, hj⟩
      · rw [h0] at hl; simp at hl
      · rw [e3] at hl
        obtain rfl := Option.some.inj hl
        simp only [Formula.vars, List.filterMap_append, List.map_append]
        exact (fx.label k p e1).join (fy.label k q e2) hj
    · intro names w hw
      obtain ⟨u, v, hu, hv', hw, g, h, s, n1, n2, n3, n4⟩ := (h7 names w).mp hw
      obtain ⟨c1, s1, k1, g1⟩ := fx.has names u hu
      obtain ⟨c2, s2, k2, g2⟩ := fy.has names v hv'
      obtain rfl := n1.unique k1
      obtain rfl := n2.unique k2
      refine ⟨?_, s, n3, .bin g1 g2 hr n4⟩
      intro i hi
      exact (List.mem_append.mp hi).elim (c1 i) (c2 i)
    · intro names hc
      obtain ⟨u, hu⟩ := fx.hasAll names (fun i hi => hc i (by simp [Formula.vars, hi]))
      obtain ⟨v, hv'⟩ := fy.hasAll names (fun i hi => hc i (by simp [Formula.vars, hi]))
      obtain ⟨r', r1, r2, -⟩ := b.dt py3 (fx.dtype.symm ▸ fx.number : x.dtype.Number) (fy.dtype.symm ▸ fy.number : y.dtype.Number)
      obtain ⟨m1, m2⟩ := b.means py3 (fx.dtype.symm ▸ fx.number : x.dtype.Number) (fy.dtype.symm ▸ fy.number : y.dtype.Number) r1
        (fx.dtype.symm ▸ fx.elem hu) (fy.dtype.symm ▸ fy.elem hv')
      have : r' = z.dtype := by
        obtain ⟨r'', q1, -, q3⟩ := b.dt py3 (fx.dtype.symm ▸ fx.number : x.dtype.Number) (fy.dtype.symm ▸ fy.number : y.dtype.Number)
        obtain rfl := Except.ok.inj (q1.symm.trans r1)
        rw [fx.dtype, fy.dtype] at q3
        exact BinOp.dtype_unique q3 h5
      rw [fx.dtype, fy.dtype] at m2
      exact ⟨_, (h7 names _).mpr ⟨u, v, hu, hv', this ▸ m1, _, _, _, num_isNumber fx.number (fx.elem hu),
        num_isNumber fy.number (fy.elem hv'), num_isNumber r2 m1, m2⟩⟩
  | @right b s o d od r h ho hod hr ih =>
    obtain ⟨x, ex, fx⟩ := ih hv
    obtain ⟨z, h1, h2, h3, h4, h5, h6, h7⟩ := b.right_spec py3 fx.valid fx.typed (fx.dtype.symm ▸ fx.number) ho hod
    rw [fx.dtype] at h6 h7
    have hzr : z.dtype = r := BinOp.dtype_unique h6 hr
    refine ⟨z, by simp only [Formula.eval, ex, h1], h2, h3, ?_, hzr, hzr ▸ h4, ?_, ?_, ?_⟩
    · rw [← h2.label_length, h5, fx.valid.label_length, fx.ndim]
    · intro k l hl
      rw [h5] at hl
      exact fx.label k l hl
    · intro names w hw
      obtain ⟨u, hu, hw, g, h, s, n1, n2, n3, n4⟩ := (h7 names w).mp hw
      obtain ⟨c1, s1, k1, g1⟩ := fx.has names u hu
      obtain rfl := n1.unique k1
      exact ⟨c1, s, n3, .right g1 n2 hr n4⟩
    · intro names hc
      obtain ⟨v, hv'⟩ := fx.hasAll names hc
      obtain ⟨idx, hat, -⟩ := (get_ok_iff fx.valid).mp hv'
      exact ⟨_, (get_ok_iff h2).mpr ⟨idx, by rw [h5]; exact hat, rfl⟩⟩
  | @left b t o d od r h ho hod hb hr ih =>
    obtain ⟨x, ex, fx⟩ := ih hv
    obtain ⟨z, h1, h2, h3, h4, h5, h6, h7⟩ := b.left_spec py3 fx.valid fx.typed (fx.dtype.symm ▸ fx.number) ho hod
      (fun e => fx.dtype.symm ▸ hb e)
    rw [fx.dtype] at h6 h7
    have hzr : z.dtype = r := BinOp.dtype_unique h6 hr
    refine ⟨z, by simp only [Formula.eval, ex, h1], h2, h3, ?_, hzr, hzr ▸ h4, ?_, ?_, ?_⟩
    · rw [← h2.label_length, h5, fx.valid.label_length, fx.ndim]
    · intro k l hl
      rw [h5] at hl
      exact fx.label k l hl
    · intro names w hw
      obtain ⟨u, hu, hw, g, h, s, n1, n2, n3, n4⟩ := (h7 names w).mp hw
      obtain ⟨c1, s1, k1, g1⟩ := fx.has names u hu
      obtain rfl := n2.unique k1
      exact ⟨c1, s, n3, .left n1 g1 hr n4⟩
    · intro names hc
      obtain ⟨v, hv'⟩ := fx.hasAll names hc
      obtain ⟨idx, hat, -⟩ := (get_ok_iff fx.valid).mp hv'
      exact ⟨_, (get_ok_iff h2).mpr ⟨idx, by rw [h5]; exact hat, rfl⟩⟩

/-! ## C95 -/

/-- C95. A formula of bool, int and float larrys with the same number of axes: it gives a larry; on each axis the labels are the
labels that all larrys in the formula have there, sorted unless all have the same list; and what is read with any labels is the
value of the formula for what is read from the larrys with these labels. -/
theorem C95_formula [LinearOrder L] (py3 : Bool) {n : Nat} {dt : Nat → DType} {env : List (Larry L)} (henv : NumberEnv n dt env)
    {f : Formula} {d : DType} (hf : f.HasDtype (!py3) dt d) (hv : ∀ i ∈ f.vars, i < env.length) :
    ∃ z, f.eval py3 env = .ok z ∧ z.Valid ∧ z.Typed ∧ z.ndim = n ∧ z.dtype = d ∧
      (∀ k r, z.label[k]? = some r → AllInner ((f.vars.filterMap fun i => env[i]?).map fun y => y.label.getD k []) r) ∧
      ∀ names w, z.get names = .ok w ↔ w.hasDType d = true ∧
        ∃ a s, CellOf env f.vars names a ∧ f.Gives (!py3) dt a d s ∧ IsNumber w s := by
  obtain ⟨z, e, fz⟩ := eval_formula py3 henv hf hv
  refine ⟨z, e, fz.valid, fz.typed, fz.ndim, fz.dtype, fz.label, fun names w => ?_⟩
  constructor
  · intro hw
    obtain ⟨h1, s, h2, h3⟩ := fz.has names w hw
    exact ⟨fz.elem hw, _, s, h1, h3, h2⟩
  · rintro ⟨ht, a, s, hc, hg, hs⟩
    obtain ⟨w', hw'⟩ := fz.hasAll names hc.num
    obtain ⟨h1, s', h2, h3⟩ := fz.has names w' hw'
    obtain ⟨-, rfl⟩ := (hg.congr hc.eq_num).unique h3
    rw [hw', number_inj (numeric_of fz.number) ht (fz.elem hw') hs h2]

/-- C95. Two formulas with the same larrys in them, the same dtype, and the same value for the numbers of every cell: the same larry. -/
theorem C95_same [LinearOrder L] (py3 : Bool) {n : Nat} {dt : Nat → DType} {env : List (Larry L)} (henv : NumberEnv n dt env)
    {f f' : Formula} {d : DType} (hf : f.HasDtype (!py3) dt d) (hf' : f'.HasDtype (!py3) dt d)
    (hv : ∀ i ∈ f.vars, i < env.length) (hvs : ∀ i, i ∈ f.vars ↔ i ∈ f'.vars)
    (hsame : ∀ names a g, CellOf env f.vars names a → f.Gives (!py3) dt a d g → f'.Gives (!py3) dt a d g) :
    ∃ z z', f.eval py3 env = .ok z ∧ f'.eval py3 env = .ok z' ∧ z.Valid ∧ z.Same z' := by
  obtain ⟨z, e1, c1⟩ := eval_formula py3 henv hf hv
  obtain ⟨z', e2, c2⟩ := eval_formula py3 henv hf' (fun i hi => hv i ((hvs i).mpr hi))
  refine ⟨z, z', e1, e2, c1.valid, c1.valid.same_of_has c2.valid ?_ (c1.dtype.trans c2.dtype.symm) ?_⟩
  · have hl : z.label.length = z'.label.length := by
      rw [c1.valid.label_length, c2.valid.label_length, c1.ndim, c2.ndim]
    apply List.ext_getElem hl
    intro k k1 k2
    refine (c1.label k _ (List.getElem?_eq_getElem k1)).unique ?_ (c2.label k _ (List.getElem?_eq_getElem k2)) ?_
    · obtain ⟨i, hi⟩ := List.exists_mem_of_ne_nil _ f.vars_ne
      refine List.ne_nil_of_mem (List.mem_map_of_mem (List.mem_filterMap.mpr ⟨i, hi, List.getElem?_eq_getElem (hv i hi)⟩))
    · intro x
      simp only [List.mem_map, List.mem_filterMap, hvs]
  · intro names v hv
    rw [← get_ok_iff c1.valid] at hv
    rw [← get_ok_iff c2.valid]
    obtain ⟨hc, s, hs, hg⟩ := c1.has names v hv
    obtain ⟨w, hw⟩ := c2.hasAll names (fun i hi => hc i ((hvs i).mpr hi))
    obtain ⟨-, s', hs', hg'⟩ := c2.has names w hw
    obtain ⟨-, rfl⟩ := (hsame names _ s hc hg).unique hg'
    rw [hw, number_inj (numeric_of c1.number) (c1.elem hv) (c2.elem hw) hs hs']

/-! ### Laws -/

theorem truth_ex (p : Prop) : ∃ k, IsTruth p k := by
  by_cases h : p
  · exact ⟨_, .yes h⟩
  · exact ⟨_, .no h⟩

theorem truth_zero {p : Prop} {k : Flt} (h : IsTruth p k) : k = .fin 0 ↔ ¬ p := by
  cases h <;> simp_all

theorem truth_congr {p q : Prop} {k : Flt} (h : IsTruth p k) (hpq : p ↔ q) : IsTruth q k := by
  cases h with
  | yes h => exact .yes (hpq.mp h)
  | no h => exact .no (fun k => h (hpq.mpr k))

namespace Formula

/-- `s op t` for a comparison, `s & t`, `s | t`, `~s`, `s.isnan()`. -/
abbrev cmp (c : RelOp) (s t : Formula) : Formula := .bin (.rel c) s t
abbrev and (s t : Formula) : Formula := .bin (.logic .and) s t
abbrev or (s t : Formula) : Formula := .bin (.logic .or) s t
abbrev not (s : Formula) : Formula := .fn .invert s
abbrev isnan (s : Formula) : Formula := .fn .isnan s

variable {whole : Bool} {dt : Nat → DType} {a : Nat → Flt} {s t : Formula} {d e : DType} {k : Flt}

theorem HasDtype.cmp (c : RelOp) (hs : s.HasDtype whole dt d) (ht : t.HasDtype whole dt e) : (Formula.cmp c s t).HasDtype whole dt .bool :=
  .bin hs ht rfl
theorem HasDtype.and (hs : s.HasDtype whole dt d) (ht : t.HasDtype whole dt e) : (Formula.and s t).HasDtype whole dt .bool :=
  .bin hs ht rfl
theorem HasDtype.or (hs : s.HasDtype whole dt d) (ht : t.HasDtype whole dt e) : (Formula.or s t).HasDtype whole dt .bool :=
  .bin hs ht rfl
theorem HasDtype.not (hs : s.HasDtype whole dt .bool) : (Formula.not s).HasDtype whole dt .bool :=
  .fn hs ⟨.inl rfl, trivial⟩ (fun _ => rfl) rfl
theorem HasDtype.isnan (hs : s.HasDtype whole dt d) (hd : d.Number) : (Formula.isnan s).HasDtype whole dt .bool :=
  .fn hs ⟨hd, trivial⟩ (by simp) rfl

theorem gives_cmp (c : RelOp) : (Formula.cmp c s t).Gives whole dt a d k ↔
    d = .bool ∧ ∃ d1 d2 g h, s.Gives whole dt a d1 g ∧ t.Gives whole dt a d2 h ∧ IsTruth (c.Asks g h) k := by
  constructor
  · intro h
    cases h with
    | bin h1 h2 h3 h4 => exact ⟨h3, _, _, _, _, h1, h2, h4⟩
  · rintro ⟨rfl, _, _, _, _, h1, h2, h4⟩
    exact .bin h1 h2 rfl h4

theorem gives_and : (Formula.and s t).Gives whole dt a d k ↔
    d = .bool ∧ ∃ d1 d2 g h, s.Gives whole dt a d1 g ∧ t.Gives whole dt a d2 h ∧ IsTruth (g ≠ .fin 0 ∧ h ≠ .fin 0) k := by
  constructor
  · intro h
    cases h with
    | bin h1 h2 h3 h4 => exact ⟨h3, _, _, _, _, h1, h2, h4⟩
  · rintro ⟨rfl, _, _, _, _, h1, h2, h4⟩
    exact .bin h1 h2 rfl h4

theorem gives_or : (Formula.or s t).Gives whole dt a d k ↔
    d = .bool ∧ ∃ d1 d2 g h, s.Gives whole dt a d1 g ∧ t.Gives whole dt a d2 h ∧ IsTruth (g ≠ .fin 0 ∨ h ≠ .fin 0) k := by
  constructor
  · intro h
    cases h with
    | bin h1 h2 h3 h4 => exact ⟨h3, _, _, _, _, h1, h2, h4⟩
  · rintro ⟨rfl, _, _, _, _, h1, h2, h4⟩
    exact .bin h1 h2 rfl h4

theorem gives_not : (Formula.not s).Gives whole dt a d k ↔ ∃ g, s.Gives whole dt a d g ∧ IsTruth (g = .fin 0) k := by
  constructor
  · intro h
    cases h with
    | fn h1 h2 h3 =>
      obtain rfl : d = _ := h2
      exact ⟨_, h1, h3⟩
  · rintro ⟨_, h1, h3⟩
    exact .fn h1 rfl h3

theorem gives_isnan : (Formula.isnan s).Gives whole dt a d k ↔
    d = .bool ∧ ∃ d1 g, s.Gives whole dt a d1 g ∧ IsTruth (g = .nan) k := by
  constructor
  · intro h
    cases h with
    | fn h1 h2 h3 =>
      obtain rfl : d = _ := h2
      exact ⟨rfl, _, _, h1, h3⟩
  · rintro ⟨rfl, _, _, h1, h3⟩
    exact .fn h1 rfl h3

end Formula
open Formula

theorem Flt.Below.not_nan {g h : Flt} (k : g.Below h) : g ≠ .nan ∧ h ≠ .nan := by
  cases k with
  | fin k => simp
  | ninf h1 h2 => exact ⟨by simp, h1⟩
  | pinf h1 h2 => exact ⟨h1, by simp⟩

theorem Flt.Below.irrefl {g : Flt} : ¬ g.Below g := by
  intro k
  rw [← lt_below] at k
  cases g <;> simp [Flt.lt] at k

theorem Flt.Below.asymm {g h : Flt} (k : g.Below h) : ¬ h.Below g := by
  rw [← lt_below] at *
  cases g <;> cases h <;> simp_all [Flt.lt]
  exact k.le

/-- Two numbers: one is below the other, or they are equal. -/
theorem Flt.below_total {g h : Flt} (hg : g ≠ .nan) (hh : h ≠ .nan) : g.Below h ∨ g = h ∨ h.Below g := by
  simp only [← lt_below]
  cases g <;> cases h <;> simp_all [Flt.lt]
  exact lt_trichotomy _ _

variable [LinearOrder L] {n : Nat} {dt : Nat → DType} {env : List (Larry L)} {s t : Formula} {d e : DType}

/-- C95, De Morgan: `~(s & t)` is `~s | ~t`. -/
theorem C95_not_and (py3 : Bool) (henv : NumberEnv n dt env) (hs : s.HasDtype (!py3) dt .bool) (ht : t.HasDtype (!py3) dt .bool)
    (hv : ∀ i ∈ s.vars ++ t.vars, i < env.length) :
    ∃ z z', (not (and s t)).eval py3 env = .ok z ∧ (or (not s) (not t)).eval py3 env = .ok z' ∧ z.Valid ∧ z.Same z' := by
  refine C95_same py3 henv (hs.and ht).not (hs.not.or ht.not) hv (fun i => Iff.rfl) ?_
  intro names a k _ hk
  obtain ⟨m, hm, hk⟩ := gives_not.mp hk
  obtain ⟨-, d1, d2, g, h, hg, hh, hm⟩ := gives_and.mp hm
  obtain rfl := hs.gives hg
  obtain rfl := ht.gives hh
  obtain ⟨p, hp⟩ := truth_ex (g = .fin 0)
  obtain ⟨q, hq⟩ := truth_ex (h = .fin 0)
  refine gives_or.mpr ⟨rfl, _, _, p, q, gives_not.mpr ⟨g, hg, hp⟩, gives_not.mpr ⟨h, hh, hq⟩, truth_congr hk ?_⟩
  simp only [truth_zero hm, ne_eq, truth_zero hp, truth_zero hq]
  tauto

/-- C95: `~(s < t)` is `(s >= t) | s.isnan() | t.isnan()`. -/
theorem C95_not_less (py3 : Bool) (henv : NumberEnv n dt env) (hs : s.HasDtype (!py3) dt d) (ht : t.HasDtype (!py3) dt e)
    (hd : d.Number) (he : e.Number) (hv : ∀ i ∈ s.vars ++ t.vars, i < env.length) :
    ∃ z z', (not (cmp .lt s t)).eval py3 env = .ok z ∧
      (or (or (cmp .ge s t) (isnan s)) (isnan t)).eval py3 env = .ok z' ∧ z.Valid ∧ z.Same z' := by
  refine C95_same py3 henv (hs.cmp .lt ht).not (((hs.cmp .ge ht).or (hs.isnan hd)).or (ht.isnan he)) hv
    (fun i => by simp only [Formula.vars, List.mem_append]; tauto) ?_
  intro names a k _ hk
  obtain ⟨m, hm, hk⟩ := gives_not.mp hk
  obtain ⟨-, d1, d2, g, h, hg, hh, hm⟩ := (gives_cmp _).mp hm
  obtain ⟨p, hp⟩ := truth_ex (RelOp.ge.Asks g h)
  obtain ⟨q, hq⟩ := truth_ex (g = .nan)
  obtain ⟨r, hr⟩ := truth_ex (h = .nan)
  obtain ⟨u, hu⟩ := truth_ex (p ≠ .fin 0 ∨ q ≠ .fin 0)
  refine gives_or.mpr ⟨rfl, _, _, u, r, gives_or.mpr ⟨rfl, _, _, p, q, (gives_cmp _).mpr ⟨rfl, _, _, g, h, hg, hh, hp⟩,
    gives_isnan.mpr ⟨rfl, _, g, hg, hq⟩, hu⟩, gives_isnan.mpr ⟨rfl, _, h, hh, hr⟩, truth_congr hk ?_⟩
  simp only [truth_zero hm, ne_eq, truth_zero hu, truth_zero hp, truth_zero hq, truth_zero hr, not_not, RelOp.Asks]
  by_cases h1 : g = .nan
  · exact ⟨fun _ => .inl (.inr h1), fun _ hb => hb.not_nan.1 h1⟩
  by_cases h2 : h = .nan
  · exact ⟨fun _ => .inr h2, fun _ hb => hb.not_nan.2 h2⟩
  constructor
  · intro hb
    rcases Flt.below_total h1 h2 with k | k | k
    · exact (hb k).elim
    · exact .inl (.inl (.inr ⟨k, h1⟩))
    · exact .inl (.inl (.inl k))
  · rintro (((k | ⟨rfl, -⟩) | k) | k)
    · exact k.asymm
    · exact Flt.Below.irrefl
    · exact (h1 k).elim
    · exact (h2 k).elim

/-- C95: `s == t` is `(s <= t) & (s >= t)`. -/
theorem C95_equal (py3 : Bool) (henv : NumberEnv n dt env) (hs : s.HasDtype (!py3) dt d) (ht : t.HasDtype (!py3) dt e)
    (hv : ∀ i ∈ s.vars ++ t.vars, i < env.length) :
    ∃ z z', (cmp .eq s t).eval py3 env = .ok z ∧ (and (cmp .le s t) (cmp .ge s t)).eval py3 env = .ok z' ∧ z.Valid ∧ z.Same z' := by
  refine C95_same py3 henv (hs.cmp .eq ht) ((hs.cmp .le ht).and (hs.cmp .ge ht)) hv
    (fun i => by simp only [Formula.vars, List.mem_append]; tauto) ?_
  intro names a k _ hk
  obtain ⟨-, d1, d2, g, h, hg, hh, hk⟩ := (gives_cmp _).mp hk
  obtain ⟨p, hp⟩ := truth_ex (RelOp.le.Asks g h)
  obtain ⟨q, hq⟩ := truth_ex (RelOp.ge.Asks g h)
  refine gives_and.mpr ⟨rfl, _, _, p, q, (gives_cmp _).mpr ⟨rfl, _, _, g, h, hg, hh, hp⟩,
    (gives_cmp _).mpr ⟨rfl, _, _, g, h, hg, hh, hq⟩, truth_congr hk ?_⟩
  simp only [ne_eq, truth_zero hp, truth_zero hq, not_not, RelOp.Asks]
  constructor
  · exact fun k => ⟨.inr k, .inr k⟩
  · rintro ⟨k | k, k' | k'⟩
    · exact (k.asymm k').elim
    · exact k'
    · exact k
    · exact k

/-- C95: `s < t` is `t > s`, `s <= t` is `t >= s`, and so on, with the labels joined the other way round. -/
theorem C95_reflected (py3 : Bool) (c : RelOp) (henv : NumberEnv n dt env) (hs : s.HasDtype (!py3) dt d) (ht : t.HasDtype (!py3) dt e)
    (hv : ∀ i ∈ s.vars ++ t.vars, i < env.length) :
    ∃ z z', (cmp c s t).eval py3 env = .ok z ∧ (cmp c.reflected t s).eval py3 env = .ok z' ∧ z.Valid ∧ z.Same z' := by
  refine C95_same py3 henv (hs.cmp c ht) (ht.cmp _ hs) hv
    (fun i => by simp only [Formula.vars, List.mem_append]; tauto) ?_
  intro names a k _ hk
  obtain ⟨-, d1, d2, g, h, hg, hh, hk⟩ := (gives_cmp _).mp hk
  exact (gives_cmp _).mpr ⟨rfl, _, _, h, g, hh, hg, truth_congr hk (BinOp.reflected_asks c g h).symm⟩

/-- C95: `s.isnan()` is `s != s`. -/
theorem C95_isnan (py3 : Bool) (henv : NumberEnv n dt env) (hs : s.HasDtype (!py3) dt d) (hd : d.Number)
    (hv : ∀ i ∈ s.vars, i < env.length) :
    ∃ z z', (isnan s).eval py3 env = .ok z ∧ (cmp .ne s s).eval py3 env = .ok z' ∧ z.Valid ∧ z.Same z' := by
  refine C95_same py3 henv (hs.isnan hd) (hs.cmp .ne hs) hv
    (fun i => by simp only [Formula.vars, List.mem_append]; tauto) ?_
  intro names a k _ hk
  obtain ⟨-, d1, g, hg, hk⟩ := gives_isnan.mp hk
  exact (gives_cmp _).mpr ⟨rfl, _, _, g, g, hg, hg, truth_congr hk (by simp [RelOp.Asks])⟩

/-- C95. `y[f] = v`, where all larrys in the condition `f` have the labels of `y`: the cells for which the condition is true become
`v`, and all others keep their value. -/
theorem C95_assign (py3 : Bool) {y : Larry L} (hy : y.Valid) (henv : NumberEnv n dt env) {f : Formula}
    (hf : f.HasDtype (!py3) dt .bool) (hv : ∀ i ∈ f.vars, i < env.length)
    (hl : ∀ i ∈ f.vars, ∀ x, env[i]? = some x → x.label = y.label) (v : Val) :
    ∃ m z, f.eval py3 env = .ok m ∧ y.setMask m v = .ok z ∧ z.Valid ∧ z.label = y.label ∧ z.dtype = y.dtype ∧
      ∀ names u, y.get names = .ok u → ∃ (a : Nat → Flt) (b : Bool), CellOf env f.vars names a ∧
        f.Gives (!py3) dt a .bool (if b then .fin 1 else .fin 0) ∧ z.get names = .ok (if b then v else u) := by
  obtain ⟨m, em, fm⟩ := eval_formula py3 henv hf hv
  obtain ⟨i, hi⟩ := List.exists_mem_of_ne_nil _ f.vars_ne
  have hgi := List.getElem?_eq_getElem (hv i hi)
  have hli := hl i hi _ hgi
  obtain ⟨v1, -, v3, -⟩ := henv i _ hgi
  have hlm : y.label = m.label := by
    have hlen : y.label.length = m.label.length := by
      rw [← hli, v1.label_length, fm.valid.label_length, v3, fm.ndim]
    apply List.ext_getElem hlen
    intro k k1 k2
    refine ((fm.label k _ (List.getElem?_eq_getElem k2)).1 _ ?_).symm
    intro x hx
    obtain ⟨w, hw, rfl⟩ := List.mem_map.mp hx
    obtain ⟨j, hj, hw⟩ := List.mem_filterMap.mp hw
    simp [hl j hj w hw, List.getD, k1]
  obtain ⟨z, h1, h2, h3, h4, h5, h6⟩ := C37_mask hy hlm fm.dtype v
  refine ⟨m, z, em, h1, h2, h3, h4, fun names u hu => ?_⟩
  rw [get_ok_iff hy] at hu
  obtain ⟨w, hw⟩ : ∃ w, m.get names = .ok w := by
    obtain ⟨idx, hat, -⟩ := hu
    exact ⟨_, (get_ok_iff fm.valid).mpr ⟨idx, by rw [← hlm]; exact hat, rfl⟩⟩
  obtain ⟨c, s, hs, hg⟩ := fm.has names w hw
  have ht := fm.elem hw
  cases w with
  | bool b =>
    refine ⟨_, b, c, ?_, ?_⟩
    · cases b <;> cases hs <;> exact hg
    · rw [get_ok_iff h2]
      rw [get_ok_iff fm.valid] at hw
      cases b
      · exact h6 names u hu (fun hc => by
          have := (get_ok_iff fm.valid).mpr hc
          rw [(get_ok_iff fm.valid).mpr hw] at this
          simp at this)
      · exact h5 names hw
  | _ => simp [Val.hasDType] at ht

omit [LinearOrder L] in
/-- C95. Without the two `isnan` the law for `~(s < t)` fails: where `y` is NaN, `~(y < 0)` is True and `y >= 0` False. -/
theorem C95_nan_not_less : ∃ z z', (not (.right (.rel .lt) (.var 0) (.int 0) .int)).eval false [exOne (.flt .nan) .float] = .ok z ∧
    (Formula.right (.rel .ge) (.var 0) (.int 0) .int).eval false [exOne (.flt .nan) .float] = .ok z' ∧
    z.get [5] = .ok (.bool true) ∧ z'.get [5] = .ok (.bool false) := by
  refine ⟨_, _, rfl, rfl, ?_, ?_⟩ <;> decide +kernel

/-! ### The hypotheses hold for -/

/-- Two larrys with different labels, of ints and of floats with a NaN. -/
def exLeft : Larry Nat := ⟨⟨[3], fun i => .int (([7, -7, 3] : List Int).getD (i.headD 0) 0)⟩, .int, [[5, 7, 6]]⟩
def exRight : Larry Nat := ⟨⟨[3], fun i => .flt (([.fin (1/2), .nan, .fin 3] : List Flt).getD (i.headD 0) .nan)⟩, .float, [[6, 8, 7]]⟩
def exDts (i : Nat) : DType := if i = 0 then .int else .float

theorem exEnv : NumberEnv 1 exDts [exLeft, exRight] := by
  intro i y h
  match i, h with
  | 0, h =>
    obtain rfl := Option.some.inj h
    refine ⟨⟨rfl, ?_, by simp [exLeft]⟩, fun _ _ => rfl, rfl, rfl, .inr (.inl rfl)⟩
    intro l hl
    obtain rfl : l = [5, 7, 6] := by simpa [exLeft] using hl
    decide
  | 1, h =>
    obtain rfl := Option.some.inj h
    refine ⟨⟨rfl, ?_, by simp [exRight]⟩, fun _ _ => rfl, rfl, rfl, .inr (.inr rfl)⟩
    intro l hl
    obtain rfl : l = [6, 8, 7] := by simpa [exRight] using hl
    decide
  | _ + 2, h => simp at h

/-- `(y + z > 2) & ~z.isnan()`. -/
def exFormula : Formula :=
  and (.right (.rel .gt) (.bin (.arith .add) (.var 0) (.var 1)) (.int 2) .int) (not (isnan (.var 1)))

example : exFormula.HasDtype true exDts .bool :=
  HasDtype.and (.right (.bin (.var 0) (.var 1) (r := .float) rfl) rfl (.inr (.inl rfl)) rfl)
    (HasDtype.not (HasDtype.isnan (.var 1) (.inr (.inr rfl))))

example : ∃ z, exFormula.eval false [exLeft, exRight] = .ok z ∧ z.label = [[6, 7]] ∧ z.get [6] = .ok (.bool true) ∧
    z.get [7] = .ok (.bool false) := by
  refine ⟨_, rfl, ?_, ?_, ?_⟩ <;> decide +kernel

end La
