import Verif.Props.Kinds

/-!
C119: the laws of algebra hold for larrys: two expressions with the same larrys in them that are equal for numbers give larrys with
the same labels and the same numbers.
-/

namespace La
open Arith Larry
variable {L : Type _}

/-! ## Specification -/

namespace Formula

/-- An algebraic expression: larrys and finite numbers combined with `+`, `-`, `*`, powers and, if `over`, `/`. (In Python 3 `/` is
`truediv`.) -/
inductive Algebraic (over : Bool) : Formula → Prop
  | var (i : Nat) : Algebraic over (.var i)
  | neg {t : Formula} (h : Algebraic over t) : Algebraic over (.fn .neg t)
  | pos {t : Formula} (h : Algebraic over t) : Algebraic over (.fn .pos t)
  | power {t : Formula} {q : Nat} (h : Algebraic over t) (hq : 0 < q) : Algebraic over (.fn (.power q) t)
  | bin {op : ArithOp} {s t : Formula} (ho : op = .add ∨ op = .sub ∨ op = .mul ∨ ((op = .div ∨ op = .truediv) ∧ over = true)) (hs : Algebraic over s)
      (ht : Algebraic over t) : Algebraic over (.bin (.arith op) s t)
  | right {op : ArithOp} {s : Formula} {o : Val} {od : DType} {c : ℚ} (ho : op = .add ∨ op = .sub ∨ op = .mul ∨ ((op = .div ∨ op = .truediv) ∧ over = true))
      (hs : Algebraic over s) (hod : od.Number) (hoo : o.hasDType od = true) (hc : IsNumber o (.fin c)) :
      Algebraic over (.right (.arith op) s o od)
  | left {op : ArithOp} {t : Formula} {o : Val} {od : DType} {c : ℚ} (ho : op = .add ∨ op = .sub ∨ op = .mul ∨ ((op = .div ∨ op = .truediv) ∧ over = true))
      (hod : od.Number) (hoo : o.hasDType od = true) (hc : IsNumber o (.fin c)) (ht : Algebraic over t) :
      Algebraic over (.left (.arith op) o od t)

/-- `c` is `a op b`. -/
def OfOp (a b c : ℚ) : ArithOp → Prop
  | .add => c = a + b
  | .sub => c = a - b
  | .mul => c = a * b
  | .div | .truediv => b ≠ 0 ∧ c = a / b
  | _ => False

/-- The value of the expression for the numbers `a`; none if a divisor is zero. -/
inductive Value (a : Nat → ℚ) : Formula → ℚ → Prop
  | var (i : Nat) : Value a (.var i) (a i)
  | neg {t : Formula} {q : ℚ} (h : Value a t q) : Value a (.fn .neg t) (-q)
  | pos {t : Formula} {q : ℚ} (h : Value a t q) : Value a (.fn .pos t) q
  | power {t : Formula} {q : ℚ} (n : Nat) (h : Value a t q) : Value a (.fn (.power n) t) (q ^ n)
  | bin {op : ArithOp} {s t : Formula} {p q r : ℚ} (hs : Value a s p) (ht : Value a t q) (hr : OfOp p q r op) :
      Value a (.bin (.arith op) s t) r
  | right {op : ArithOp} {s : Formula} {o : Val} {od : DType} {p q r : ℚ} (hs : Value a s p) (ho : IsNumber o (.fin q))
      (hr : OfOp p q r op) : Value a (.right (.arith op) s o od) r
  | left {op : ArithOp} {t : Formula} {o : Val} {od : DType} {p q r : ℚ} (ho : IsNumber o (.fin p)) (ht : Value a t q)
      (hr : OfOp p q r op) : Value a (.left (.arith op) o od t) r

end Formula

/-- The larrys in the formula hold no infinities. -/
def Bounded (env : List (Larry L)) (vars : List Nat) : Prop :=
  ∀ (i : Nat) (y : Larry L), i ∈ vars → env[i]? = some y → ∀ names v, y.Has names v → v.num ≠ .pinf ∧ v.num ≠ .ninf

/-! ## Facts -/

namespace Formula

theorem dtype_exists {op : ArithOp} {whole : Bool} {d e : DType} (hd : d.Number) (he : e.Number) :
    ∃ r, BinOp.Dtype whole d e r (.arith op) := by
  obtain ⟨r, -, -, h⟩ := (BinOp.arith op).dt (!whole) hd he
  exact ⟨r, by simpa using h⟩

/-- An algebraic expression of ints and floats is an int or a float. -/
theorem Algebraic.hasDtype {over whole : Bool} {dt : Nat → DType} {f : Formula} (hf : f.Algebraic over)
    (hdt : ∀ i ∈ f.vars, dt i = .int ∨ dt i = .float) : ∃ d, f.HasDtype whole dt d ∧ (d = .int ∨ d = .float) := by
  have num : ∀ {d : DType}, d = .int ∨ d = .float → d.Number := fun h => .inr h
  have nb : ∀ {d : DType}, d = .int ∨ d = .float → d ≠ .bool := by rintro d (rfl | rfl) <;> simp
  have key : ∀ {op : ArithOp} {d e r : DType}, BinOp.Dtype whole d e r (.arith op) → (d ≠ .bool ∨ e ≠ .bool) → r = .int ∨ r = .float := by
    intro op d e r hr hde
    have := arith_bool (op := op) hr
    rcases BinOp.arith_number (op := op) hr with h | h | h
    · obtain ⟨h1, h2, -⟩ := this.mp h
      exact absurd hde (by simp [h1, h2])
    · exact .inl h
    · exact .inr h
  induction hf with
  | var i => exact ⟨_, .var i, hdt i (by simp [vars])⟩
  | neg _ ih =>
    obtain ⟨d, h1, h2⟩ := ih hdt
    exact ⟨d, .fn h1 ⟨num h2, trivial⟩ (by simp) rfl, h2⟩
  | pos _ ih =>
    obtain ⟨d, h1, h2⟩ := ih hdt
    exact ⟨d, .fn h1 ⟨num h2, trivial⟩ (by simp) rfl, h2⟩
  | power _ _ ih =>
    obtain ⟨d, h1, h2⟩ := ih hdt
    exact ⟨d, .fn h1 ⟨num h2, trivial⟩ (by simp) (.inr ⟨nb h2, rfl⟩), h2⟩
  | bin _ _ _ ih1 ih2 =>
    obtain ⟨d, h1, h2⟩ := ih1 (fun i hi => hdt i (by simp [vars, hi]))
    obtain ⟨e, k1, k2⟩ := ih2 (fun i hi => hdt i (by simp [vars, hi]))
    obtain ⟨r, hr⟩ := dtype_exists (num h2) (num k2)
    exact ⟨r, .bin h1 k1 hr, key hr (.inl (nb h2))⟩
  | right _ _ hod hoo _ ih =>
    obtain ⟨d, h1, h2⟩ := ih hdt
    obtain ⟨r, hr⟩ := dtype_exists (num h2) hod
    exact ⟨r, .right h1 hoo hod hr, key hr (.inl (nb h2))⟩
  | left _ hod hoo _ _ ih =>
    obtain ⟨d, h1, h2⟩ := ih hdt
    obtain ⟨r, hr⟩ := dtype_exists hod (num h2)
    exact ⟨r, .left h1 hoo hod (fun _ k => nb h2 k.1) hr, key hr (.inr (nb h2))⟩

theorem op_means {op : ArithOp} {over whole : Bool} {d e : DType} {g h s : Flt}
    (ho : op = .add ∨ op = .sub ∨ op = .mul ∨ ((op = .div ∨ op = .truediv) ∧ over = true)) (hw : over = true → whole = false)
    (hde : ¬ (d = .bool ∧ e = .bool)) (k : BinOp.Means whole d e g h s (.arith op)) :
    (∀ a b c, g = .fin a → h = .fin b → OfOp a b c op → s = .fin c) ∧ (g = .nan ∨ h = .nan → s = .nan) := by
  rcases ho with rfl | rfl | rfl | ⟨hd, ho⟩
  · simp only [BinOp.Means, ArithOp.Means, if_neg hde, plus_iff] at k
    subst k
    refine ⟨?_, ?_⟩
    · rintro a b c rfl rfl rfl; rfl
    · rintro (rfl | rfl)
      · rfl
      · cases g <;> rfl
  · simp only [BinOp.Means, ArithOp.Means, if_neg hde, plus_iff, opposite_iff] at k
    obtain ⟨m, rfl, rfl⟩ := k
    refine ⟨?_, ?_⟩
    · rintro a b c rfl rfl rfl; simp [Flt.neg, Flt.add, sub_eq_add_neg]
    · rintro (rfl | rfl)
      · rfl
      · cases g <;> rfl
  · simp only [BinOp.Means, ArithOp.Means, if_neg hde, times_iff] at k
    subst k
    refine ⟨?_, ?_⟩
    · rintro a b c rfl rfl rfl; rfl
    · rintro (rfl | rfl)
      · rfl
      · cases g <;> rfl
  · have k : s = g.div h := by
      rcases hd with rfl | rfl <;> simpa [BinOp.Means, ArithOp.Means, hw ho, over_iff] using k
    subst k
    refine ⟨?_, ?_⟩
    · rintro a b c rfl rfl hc
      obtain ⟨h1, rfl⟩ : b ≠ 0 ∧ c = a / b := by rcases hd with rfl | rfl <;> exact hc
      simp [Flt.div, h1]
    · rintro (rfl | rfl)
      · rfl
      · cases g <;> rfl

theorem Algebraic.gives_dtype {over whole : Bool} {dt : Nat → DType} {f : Formula} (hf : f.Algebraic over)
    (hdt : ∀ i ∈ f.vars, dt i = .int ∨ dt i = .float) {a : Nat → Flt} {d : DType} {s : Flt} (h : f.Gives whole dt a d s) :
    d ≠ .bool := by
  obtain ⟨e, h1, h2⟩ := hf.hasDtype (whole := whole) hdt
  rw [h1.gives h]
  rcases h2 with rfl | rfl <;> simp

/-- What an algebraic expression gives: its value for numbers, NaN if one of them is NaN. -/
theorem Algebraic.gives {over whole : Bool} (hw : over = true → whole = false) {dt : Nat → DType} {f : Formula} (hf : f.Algebraic over)
    (hdt : ∀ i ∈ f.vars, dt i = .int ∨ dt i = .float) {a : Nat → Flt} {d : DType} {s : Flt} (h : f.Gives whole dt a d s) :
    (∀ b q, (∀ i ∈ f.vars, a i = .fin (b i)) → f.Value b q → s = .fin q) ∧ ((∃ i ∈ f.vars, a i = .nan) → s = .nan) := by
  induction hf generalizing d s with
  | var i =>
    cases h
    refine ⟨?_, ?_⟩
    · intro b q hb hq
      cases hq
      exact hb i (by simp [vars])
    · rintro ⟨j, hj, hn⟩
      obtain rfl : j = i := by simpa [vars] using hj
      exact hn
  | @neg t ht ih =>
    cases h with
    | fn k hr hk =>
      obtain ⟨i1, i2⟩ := ih hdt k
      simp only [ElemMethod.Makes, if_neg (ht.gives_dtype hdt k), opposite_iff] at hk
      subst hk
      refine ⟨?_, ?_⟩
      · intro b q hb hq
        cases hq with
        | neg hq => rw [i1 b _ hb hq]; rfl
      · intro hn
        rw [i2 hn]; rfl
  | @pos t ht ih =>
    cases h with
    | fn k hr hk =>
      obtain ⟨i1, i2⟩ := ih hdt k
      simp only [ElemMethod.Makes] at hk
      subst hk
      refine ⟨?_, i2⟩
      intro b q hb hq
      cases hq with
      | pos hq => exact i1 b _ hb hq
  | @power t n ht hn ih =>
    cases h with
    | fn k hr hk =>
      obtain ⟨i1, i2⟩ := ih hdt k
      simp only [ElemMethod.Makes] at hk
      refine ⟨?_, ?_⟩
      · intro b q hb hq
        cases hq with
        | power _ hq =>
          rw [i1 b _ hb hq] at hk
          cases hk with
          | zero h => omega
          | fin a => rfl
      · intro hh
        rw [i2 hh] at hk
        cases hk with
        | zero h => omega
        | nan _ => rfl
  | @bin op l t ho hs ht ih1 ih2 =>
    cases h with
    | bin k1 k2 hr hk =>
      have d1 : ∀ i ∈ l.vars, dt i = .int ∨ dt i = .float := fun i hi => hdt i (by simp [vars, hi])
      have d2 : ∀ i ∈ t.vars, dt i = .int ∨ dt i = .float := fun i hi => hdt i (by simp [vars, hi])
      obtain ⟨i1, i2⟩ := ih1 d1 k1
      obtain ⟨j1, j2⟩ := ih2 d2 k2
      obtain ⟨m1, m2⟩ := op_means ho hw (fun k => hs.gives_dtype d1 k1 k.1) hk
      refine ⟨?_, ?_⟩
      · intro b q hb hq
        cases hq with
        | bin q1 q2 hr =>
          exact m1 _ _ _ (i1 b _ (fun i hi => hb i (by simp [vars, hi])) q1) (j1 b _ (fun i hi => hb i (by simp [vars, hi])) q2) hr
      · rintro ⟨i, hi, hn⟩
        rcases List.mem_append.mp hi with hi | hi
        · exact m2 (.inl (i2 ⟨i, hi, hn⟩))
        · exact m2 (.inr (j2 ⟨i, hi, hn⟩))
  | @right op s o od c ho hs hod hoo hc ih =>
    cases h with
    | right k1 k2 hr hk =>
      obtain ⟨i1, i2⟩ := ih hdt k1
      obtain rfl := k2.unique hc
      obtain ⟨m1, m2⟩ := op_means ho hw (fun k => hs.gives_dtype hdt k1 k.1) hk
      refine ⟨?_, ?_⟩
      · intro b q hb hq
        cases hq with
        | right q1 q2 hr => exact m1 _ _ _ (i1 b _ hb q1) (k2.unique q2) hr
      · intro hn
        exact m2 (.inl (i2 hn))
  | @left op t o od c ho hod hoo hc ht ih =>
    cases h with
    | left k2 k1 hr hk =>
      obtain ⟨i1, i2⟩ := ih hdt k1
      obtain rfl := k2.unique hc
      obtain ⟨m1, m2⟩ := op_means ho hw (fun k => ht.gives_dtype hdt k1 k.2) hk
      refine ⟨?_, ?_⟩
      · intro b q hb hq
        cases hq with
        | left q1 q2 hr => exact m1 _ _ _ (k2.unique q1) (i1 b _ hb q2) hr
      · intro hn
        exact m2 (.inr (i2 hn))

/-- Without division every expression has a value. -/
theorem Algebraic.value {f : Formula} (hf : f.Algebraic false) (a : Nat → ℚ) : ∃ q, f.Value a q := by
  have key : ∀ {op : ArithOp} (_ : op = .add ∨ op = .sub ∨ op = .mul ∨ ((op = .div ∨ op = .truediv) ∧ false = true)) (p q : ℚ), ∃ r, OfOp p q r op := by
    rintro op (rfl | rfl | rfl | ⟨-, h⟩) p q
    · exact ⟨_, rfl⟩
    · exact ⟨_, rfl⟩
    · exact ⟨_, rfl⟩
    · cases h
  induction hf with
  | var i => exact ⟨_, .var i⟩
  | neg _ ih => obtain ⟨q, h⟩ := ih; exact ⟨_, .neg h⟩
  | pos _ ih => obtain ⟨q, h⟩ := ih; exact ⟨_, .pos h⟩
  | power _ _ ih => obtain ⟨q, h⟩ := ih; exact ⟨_, .power _ h⟩
  | bin ho _ _ ih1 ih2 =>
    obtain ⟨p, h⟩ := ih1
    obtain ⟨q, k⟩ := ih2
    obtain ⟨r, hr⟩ := key ho p q
    exact ⟨r, .bin h k hr⟩
  | right ho _ _ _ hc ih =>
    obtain ⟨p, h⟩ := ih
    obtain ⟨r, hr⟩ := key ho p _
    exact ⟨r, .right h hc hr⟩
  | left ho _ _ hc _ ih =>
    obtain ⟨p, h⟩ := ih
    obtain ⟨r, hr⟩ := key ho _ p
    exact ⟨r, .left hc h hr⟩

theorem Algebraic.mono {over : Bool} {f : Formula} (hf : f.Algebraic false) : f.Algebraic over := by
  have key : ∀ {op : ArithOp}, op = .add ∨ op = .sub ∨ op = .mul ∨ ((op = .div ∨ op = .truediv) ∧ false = true) →
      op = .add ∨ op = .sub ∨ op = .mul ∨ ((op = .div ∨ op = .truediv) ∧ over = true) := by
    rintro op (h | h | h | ⟨-, h⟩)
    · exact .inl h
    · exact .inr (.inl h)
    · exact .inr (.inr (.inl h))
    · cases h
  induction hf with
  | var i => exact .var i
  | neg _ ih => exact .neg ih
  | pos _ ih => exact .pos ih
  | power _ hq ih => exact .power ih hq
  | bin ho _ _ ih1 ih2 => exact .bin (key ho) ih1 ih2
  | right ho _ h1 h2 h3 ih => exact .right (key ho) ih h1 h2 h3
  | left ho h1 h2 h3 _ ih => exact .left (key ho) h1 h2 h3 ih

theorem Value.unique {a : Nat → ℚ} {f : Formula} {p q : ℚ} (h : f.Value a p) (k : f.Value a q) : p = q := by
  have key : ∀ {op : ArithOp} {p q r r' : ℚ}, OfOp p q r op → OfOp p q r' op → r = r' := by
    intro op p q r r' h k
    cases op <;> simp only [OfOp] at h k
    · rw [h, k]
    · rw [h, k]
    · rw [h, k]
    · rw [h.2, k.2]
    · rw [h.2, k.2]
  have fin : ∀ {o : Val} {p q : ℚ}, IsNumber o (.fin p) → IsNumber o (.fin q) → p = q := fun h k => Flt.fin.inj (h.unique k)
  induction h generalizing q with
  | var i => cases k; rfl
  | neg _ ih => cases k with | neg k => rw [ih k]
  | pos _ ih => cases k with | pos k => rw [ih k]
  | power n _ ih => cases k with | power _ k => rw [ih k]
  | bin _ _ hr ih1 ih2 => cases k with | bin k1 k2 kr => rw [ih1 k1, ih2 k2] at hr; exact key hr kr
  | right _ ho hr ih => cases k with | right k1 k2 kr => rw [ih k1, fin ho k2] at hr; exact key hr kr
  | left ho _ hr ih => cases k with | left k2 k1 kr => rw [ih k1, fin ho k2] at hr; exact key hr kr

end Formula

/-- The number itself. -/
def Flt.finite : Flt → ℚ
  | .fin q => q
  | _ => 0

/-- The numbers of a cell, without infinities: all finite, or one NaN. -/
theorem cell_cases [LinearOrder L] {n : Nat} {dt : Nat → DType} {env : List (Larry L)} (henv : NumberEnv n dt env) {vars : List Nat}
    (hb : Bounded env vars) {names : List L} (hc : CellOf env vars names (cellNum env names)) :
    (∃ b : Nat → ℚ, ∀ i ∈ vars, cellNum env names i = .fin (b i)) ∨ ∃ i ∈ vars, cellNum env names i = .nan := by
  by_cases h : ∃ i ∈ vars, cellNum env names i = .nan
  · exact .inr h
  · refine .inl ⟨fun i => (cellNum env names i).finite, fun i hi => ?_⟩
    obtain ⟨y, v, h1, h2, h3⟩ := hc i hi
    obtain ⟨k1, k2⟩ := hb i y hi h1 names v ((get_ok_iff (henv i y h1).1).mp h2)
    rw [h3.num] at k1 k2
    cases hh : cellNum env names i with
    | fin q => simp only [hh, Flt.finite]
    | nan => exact absurd ⟨i, hi, hh⟩ h
    | pinf => exact absurd hh k1
    | ninf => exact absurd hh k2

/-- C119: an algebraic expression and another with fewer larrys in it that has the same value for numbers: under the labels of the
first both give the same number, except that the first is NaN where one of its larrys is NaN. -/
theorem C119_fewer [LinearOrder L] (py3 : Bool) {n : Nat} {dt : Nat → DType} {env : List (Larry L)} (henv : NumberEnv n dt env)
    {f f' : Formula} (hf : f.Algebraic py3) (hf' : f'.Algebraic py3) (hv : ∀ i ∈ f.vars, i < env.length)
    (hdt : ∀ i ∈ f.vars, dt i = .int ∨ dt i = .float) (hvs : ∀ i ∈ f'.vars, i ∈ f.vars) (hb : Bounded env f.vars)
    (hdef : ∀ names (a : Nat → ℚ), CellOf env f.vars names (fun i => .fin (a i)) → ∃ q, f.Value a q)
    (hlaw : ∀ (a : Nat → ℚ) q, f.Value a q → f'.Value a q) :
    ∃ z z', f.eval py3 env = .ok z ∧ f'.eval py3 env = .ok z' ∧ z.Valid ∧ z'.Valid ∧ z.Typed ∧ z'.Typed ∧
      (∀ names w, z.Has names w → ∃ w', z'.Has names w' ∧ (w.num = w'.num ∨
        w.num = .nan ∧ ∃ i y v, i ∈ f.vars ∧ env[i]? = some y ∧ y.Has names v ∧ v.num = .nan)) := by
  have hw : py3 = true → (!py3) = false := by rintro rfl; rfl
  obtain ⟨d, hd, hd1⟩ := hf.hasDtype (whole := !py3) hdt
  obtain ⟨d', hd', hd1'⟩ := hf'.hasDtype (whole := !py3) (fun i hi => hdt i (hvs i hi))
  obtain ⟨z, e, c⟩ := eval_formula py3 henv hd hv
  obtain ⟨z', e', c'⟩ := eval_formula py3 henv hd' (fun i hi => hv i (hvs i hi))
  refine ⟨z, z', e, e', c.valid, c'.valid, c.typed, c'.typed, fun names w hw0 => ?_⟩
  obtain ⟨h1, s, h2, h3⟩ := c.has names w ((get_ok_iff c.valid).mpr hw0)
  have hc' : CellOf env f'.vars names (cellNum env names) := fun i hi => h1 i (hvs i hi)
  obtain ⟨w', hw'⟩ := c'.hasAll names hc'
  obtain ⟨-, s', h2', h3'⟩ := c'.has names w' hw'
  obtain ⟨g1, g2⟩ := hf.gives hw hdt h3
  obtain ⟨g1', g2'⟩ := hf'.gives hw (fun i hi => hdt i (hvs i hi)) h3'
  refine ⟨w', (get_ok_iff c'.valid).mp hw', ?_⟩
  rw [h2.num, h2'.num]
  rcases cell_cases henv hb h1 with ⟨b, hfin⟩ | ⟨i, hi, hn⟩
  · left
    have hc : CellOf env f.vars names (fun i => .fin (b i)) := by
      intro i hi
      obtain ⟨y, v, k1, k2, k3⟩ := h1 i hi
      exact ⟨y, v, k1, k2, by rw [hfin i hi] at k3; exact k3⟩
    obtain ⟨q, hq⟩ := hdef names b hc
    rw [g1 b q hfin hq, g1' b q (fun i hi => hfin i (hvs i hi)) (hlaw b q hq)]
  · right
    obtain ⟨y, v, k1, k2, k3⟩ := h1 i hi
    exact ⟨g2 ⟨i, hi, hn⟩, i, y, v, hi, k1, (get_ok_iff (henv i y k1).1).mp k2, by rw [k3.num, hn]⟩

/-- C119: two algebraic expressions of the same larrys (int or float, without infinities) that have the same value for numbers give
larrys with the same labels and numbers, whatever the labels of the larrys; no divisor is zero. -/
theorem C119_law [LinearOrder L] (py3 : Bool) {n : Nat} {dt : Nat → DType} {env : List (Larry L)} (henv : NumberEnv n dt env)
    {f f' : Formula} (hf : f.Algebraic py3) (hf' : f'.Algebraic py3) (hv : ∀ i ∈ f.vars, i < env.length)
    (hdt : ∀ i ∈ f.vars, dt i = .int ∨ dt i = .float) (hvs : ∀ i, i ∈ f.vars ↔ i ∈ f'.vars) (hb : Bounded env f.vars)
    (hdef : ∀ names (a : Nat → ℚ), CellOf env f.vars names (fun i => .fin (a i)) → ∃ q, f.Value a q)
    (hlaw : ∀ (a : Nat → ℚ) q, f.Value a q → f'.Value a q) :
    ∃ z z', f.eval py3 env = .ok z ∧ f'.eval py3 env = .ok z' ∧ z.Valid ∧ z'.Valid ∧ z.Typed ∧ z'.Typed ∧ z.SameNums z' := by
  have hw : py3 = true → (!py3) = false := by rintro rfl; rfl
  have hdt' : ∀ i ∈ f'.vars, dt i = .int ∨ dt i = .float := fun i hi => hdt i ((hvs i).mpr hi)
  obtain ⟨d, hd, hd1⟩ := hf.hasDtype (whole := !py3) hdt
  obtain ⟨d', hd', hd1'⟩ := hf'.hasDtype (whole := !py3) hdt'
  obtain ⟨z, e, c⟩ := eval_formula py3 henv hd hv
  obtain ⟨z', e', c'⟩ := eval_formula py3 henv hd' (fun i hi => hv i ((hvs i).mpr hi))
  refine ⟨z, z', e, e', c.valid, c'.valid, c.typed, c'.typed, ?_, ⟨c.dtype.symm ▸ c.number, c'.dtype.symm ▸ c'.number⟩, ?_⟩
  · have hl : z'.label.length = z.label.length := by
      rw [c.valid.label_length, c'.valid.label_length, c.ndim, c'.ndim]
    apply List.ext_getElem hl
    intro k k1 k2
    refine ((c.label k _ (List.getElem?_eq_getElem k2)).unique ?_ (c'.label k _ (List.getElem?_eq_getElem k1)) ?_).symm
    · obtain ⟨i, hi⟩ := List.exists_mem_of_ne_nil _ f.vars_ne
      exact List.ne_nil_of_mem (List.mem_map_of_mem (List.mem_filterMap.mpr ⟨i, hi, List.getElem?_eq_getElem (hv i hi)⟩))
    · intro l
      simp only [List.mem_map, List.mem_filterMap, hvs]
  · intro names v v' h h'
    obtain ⟨h1, s, h2, h3⟩ := c.has names v ((get_ok_iff c.valid).mpr h)
    obtain ⟨h1', s', h2', h3'⟩ := c'.has names v' ((get_ok_iff c'.valid).mpr h')
    obtain ⟨g1, g2⟩ := hf.gives hw hdt h3
    obtain ⟨g1', g2'⟩ := hf'.gives hw hdt' h3'
    rw [h2.num, h2'.num]
    rcases cell_cases henv hb h1 with ⟨b, hfin⟩ | ⟨i, hi, hn⟩
    · have hc : CellOf env f.vars names (fun i => .fin (b i)) := by
        intro i hi
        obtain ⟨y, v, k1, k2, k3⟩ := h1 i hi
        exact ⟨y, v, k1, k2, by rw [hfin i hi] at k3; exact k3⟩
      obtain ⟨q, hq⟩ := hdef names b hc
      rw [g1 b q hfin hq, g1' b q (fun i hi => hfin i ((hvs i).mpr hi)) (hlaw b q hq)]
    · rw [g2 ⟨i, hi, hn⟩, g2' ⟨i, (hvs i).mp hi, hn⟩]

/-- C119: without division, all that is asked of the two expressions is that they are equal for all numbers. -/
theorem C119_polynomial [LinearOrder L] (py3 : Bool) {n : Nat} {dt : Nat → DType} {env : List (Larry L)} (henv : NumberEnv n dt env)
    {f f' : Formula} (hf : f.Algebraic false) (hf' : f'.Algebraic false) (hv : ∀ i ∈ f.vars, i < env.length)
    (hdt : ∀ i ∈ f.vars, dt i = .int ∨ dt i = .float) (hvs : ∀ i, i ∈ f.vars ↔ i ∈ f'.vars) (hb : Bounded env f.vars)
    (hlaw : ∀ (a : Nat → ℚ) q q', f.Value a q → f'.Value a q' → q = q') :
    ∃ z z', f.eval py3 env = .ok z ∧ f'.eval py3 env = .ok z' ∧ z.Valid ∧ z'.Valid ∧ z.Typed ∧ z'.Typed ∧ z.SameNums z' := by
  refine C119_law py3 henv hf.mono hf'.mono hv hdt hvs hb (fun _ a _ => hf.value a) (fun a q h => ?_)
  obtain ⟨q', h'⟩ := hf'.value a
  rw [hlaw a q q' h h']
  exact h'


/-! ## Some laws -/

section
variable [LinearOrder L] {n : Nat} {dt : Nat → DType} {env : List (Larry L)} {s t u : Formula}

/-- C119: `s * (t + u)` is `s * t + s * u`. -/
theorem C119_distributive (py3 : Bool) (henv : NumberEnv n dt env) (hs : s.Algebraic false) (ht : t.Algebraic false)
    (hu : u.Algebraic false) (hv : ∀ i ∈ s.vars ++ (t.vars ++ u.vars), i < env.length)
    (hdt : ∀ i ∈ s.vars ++ (t.vars ++ u.vars), dt i = .int ∨ dt i = .float) (hb : Bounded env (s.vars ++ (t.vars ++ u.vars))) :
    ∃ z z', (Formula.bin (.arith .mul) s (.bin (.arith .add) t u)).eval py3 env = .ok z ∧
      (Formula.bin (.arith .add) (.bin (.arith .mul) s t) (.bin (.arith .mul) s u)).eval py3 env = .ok z' ∧ z.Valid ∧ z'.Valid ∧
      z.Typed ∧ z'.Typed ∧ z.SameNums z' := by
  refine C119_polynomial py3 henv (.bin (.inr (.inr (.inl rfl))) hs (.bin (.inl rfl) ht hu))
    (.bin (.inl rfl) (.bin (.inr (.inr (.inl rfl))) hs ht) (.bin (.inr (.inr (.inl rfl))) hs hu)) hv hdt
    (fun i => by simp only [Formula.vars, List.mem_append]; tauto) hb ?_
  intro a q q' h h'
  cases h with
  | bin h1 h2 hr => cases h2 with
    | bin h2 h3 hr2 => cases h' with
      | bin k1 k2 kr => cases k1 with
        | bin k1 k3 kr1 => cases k2 with
          | bin k2 k4 kr2 =>
            simp only [Formula.OfOp] at hr hr2 kr kr1 kr2
            rw [hr, hr2, kr, kr1, kr2, h1.unique k1, h2.unique k3, h3.unique k4, k2.unique k1, mul_add]

/-- C119: `(s - t) * (s + t)` is `s ** 2 - t ** 2`. -/
theorem C119_squares (py3 : Bool) (henv : NumberEnv n dt env) (hs : s.Algebraic false) (ht : t.Algebraic false)
    (hv : ∀ i ∈ s.vars ++ t.vars, i < env.length) (hdt : ∀ i ∈ s.vars ++ t.vars, dt i = .int ∨ dt i = .float)
    (hb : Bounded env (s.vars ++ t.vars)) :
    ∃ z z', (Formula.bin (.arith .mul) (.bin (.arith .sub) s t) (.bin (.arith .add) s t)).eval py3 env = .ok z ∧
      (Formula.bin (.arith .sub) (.fn (.power 2) s) (.fn (.power 2) t)).eval py3 env = .ok z' ∧ z.Valid ∧ z'.Valid ∧
      z.Typed ∧ z'.Typed ∧ z.SameNums z' := by
  have e : ∀ i, i ∈ (Formula.bin (.arith .mul) (.bin (.arith .sub) s t) (.bin (.arith .add) s t)).vars ↔ i ∈ s.vars ++ t.vars :=
    fun i => by simp only [Formula.vars, List.mem_append]; tauto
  refine C119_polynomial py3 henv (.bin (.inr (.inr (.inl rfl))) (.bin (.inr (.inl rfl)) hs ht) (.bin (.inl rfl) hs ht))
    (.bin (.inr (.inl rfl)) (.power hs (by decide)) (.power ht (by decide))) (fun i hi => hv i ((e i).mp hi))
    (fun i hi => hdt i ((e i).mp hi)) e (fun i y hi => hb i y ((e i).mp hi)) ?_
  intro a q q' h h'
  cases h with
  | bin h1 h2 hr => cases h1 with
    | bin h1 h3 hr1 => cases h2 with
      | bin h2 h4 hr2 => cases h' with
        | bin k1 k2 kr => cases k1 with
          | power _ k1 => cases k2 with
            | power _ k2 =>
              simp only [Formula.OfOp] at hr hr1 hr2 kr
              rw [hr, hr1, hr2, kr, h2.unique h1, h4.unique h3, k1.unique h1, k2.unique h3]
              ring

/-- C119: `(s + t) - t` is `s` under the common labels, except where `t` is NaN. -/
theorem C119_add_sub (py3 : Bool) (henv : NumberEnv n dt env) (hs : s.Algebraic false) (ht : t.Algebraic false)
    (hv : ∀ i ∈ s.vars ++ t.vars, i < env.length) (hdt : ∀ i ∈ s.vars ++ t.vars, dt i = .int ∨ dt i = .float)
    (hb : Bounded env (s.vars ++ t.vars)) :
    ∃ z z', (Formula.bin (.arith .sub) (.bin (.arith .add) s t) t).eval py3 env = .ok z ∧ s.eval py3 env = .ok z' ∧ z.Valid ∧
      z'.Valid ∧ z.Typed ∧ z'.Typed ∧ (∀ names w, z.Has names w → ∃ w', z'.Has names w' ∧ (w.num = w'.num ∨
        w.num = .nan ∧ ∃ i y v, i ∈ s.vars ++ t.vars ∧ env[i]? = some y ∧ y.Has names v ∧ v.num = .nan)) := by
  have e : ∀ i, i ∈ (Formula.bin (.arith .sub) (.bin (.arith .add) s t) t).vars ↔ i ∈ s.vars ++ t.vars :=
    fun i => by simp only [Formula.vars, List.mem_append]; tauto
  have ha : (Formula.bin (.arith .sub) (.bin (.arith .add) s t) t).Algebraic false := .bin (.inr (.inl rfl)) (.bin (.inl rfl) hs ht) ht
  obtain ⟨z, z', h1, h2, h3, h4, h5, h6, h7⟩ := C119_fewer py3 henv ha.mono hs.mono (fun i hi => hv i ((e i).mp hi))
    (fun i hi => hdt i ((e i).mp hi)) (fun i hi => (e i).mpr (by simp [hi])) (fun i y hi => hb i y ((e i).mp hi))
    (fun _ a _ => ha.value a) (fun a q h => by
      cases h with
      | bin k1 k2 kr => cases k1 with
        | bin k1 k3 kr1 =>
          simp only [Formula.OfOp] at kr kr1
          rw [kr, kr1, k3.unique k2, add_sub_cancel_right]
          exact k1)
  refine ⟨z, z', h1, h2, h3, h4, h5, h6, fun names w hw => ?_⟩
  obtain ⟨w', k1, k2⟩ := h7 names w hw
  refine ⟨w', k1, k2.imp_right ?_⟩
  rintro ⟨k2, i, y, v, k3, k4⟩
  exact ⟨k2, i, y, v, (e i).mp k3, k4⟩

/-- C119: `x * y / y` is `x` under the common labels in Python 3, for two larrys the second of which holds no zero. -/
theorem C119_mul_div {i j : Nat} (henv : NumberEnv n dt env) (hi : i < env.length) (hj : j < env.length)
    (hdt : ∀ k ∈ [i, j], dt k = .int ∨ dt k = .float) (hb : Bounded env [i, j])
    (h0 : ∀ y, env[j]? = some y → ∀ names v, y.Has names v → v.num ≠ .fin 0) :
    ∃ z x, (Formula.bin (.arith .truediv) (.bin (.arith .mul) (.var i) (.var j)) (.var j)).eval true env = .ok z ∧ env[i]? = some x ∧
      z.Valid ∧ z.Typed ∧ (∀ names w, z.Has names w → ∃ w', x.Has names w' ∧ (w.num = w'.num ∨
        w.num = .nan ∧ ∃ k y v, k ∈ [i, j] ∧ env[k]? = some y ∧ y.Has names v ∧ v.num = .nan)) := by
  have e : ∀ k, k ∈ (Formula.bin (.arith .truediv) (.bin (.arith .mul) (.var i) (.var j)) (.var j)).vars ↔ k ∈ [i, j] :=
    fun k => by simp [Formula.vars]
  have ha : (Formula.bin (.arith .truediv) (.bin (.arith .mul) (.var i) (.var j)) (.var j)).Algebraic true :=
    .bin (.inr (.inr (.inr ⟨.inr rfl, rfl⟩))) (.bin (.inr (.inr (.inl rfl))) (.var i) (.var j)) (.var j)
  obtain ⟨z, z', h1, h2, h3, h4, h5, h6, h7⟩ := C119_fewer true henv ha (.var i) (fun k hk => by
      have := (e k).mp hk
      simp only [List.mem_cons, List.not_mem_nil, or_false] at this
      rcases this with rfl | rfl
      · exact hi
      · exact hj)
    (fun k hk => hdt k ((e k).mp hk)) (fun k hk => (e k).mpr (by simp [Formula.vars] at hk; simp [hk]))
    (fun k y hk => hb k y ((e k).mp hk))
    (fun names a hc => by
      obtain ⟨y, v, k1, k2, k3⟩ := hc j ((e j).mpr (by simp))
      have hne : a j ≠ 0 := by
        intro k
        refine h0 y k1 names v ((get_ok_iff (henv j y k1).1).mp k2) ?_
        rw [k3.num]; simp only [k]
      exact ⟨_, .bin (.bin (.var i) (.var j) rfl) (.var j) ⟨hne, rfl⟩⟩)
    (fun a q h => by
      cases h with
      | bin k1 k2 kr => cases k1 with
        | bin k1 k3 kr1 =>
          cases k1; cases k2; cases k3
          simp only [Formula.OfOp] at kr kr1
          rw [kr.2, kr1, mul_div_cancel_right₀ _ kr.1]
          exact .var i)
  have hx : env[i]? = some z' := by
    simp only [Formula.eval] at h2
    cases hh : env[i]? with
    | none => rw [hh] at h2; cases h2
    | some y => rw [hh] at h2; exact congrArg some (Except.ok.inj h2)
  refine ⟨z, z', h1, hx, h3, h5, fun names w hw => ?_⟩
  obtain ⟨w', k1, k2⟩ := h7 names w hw
  refine ⟨w', k1, k2.imp_right ?_⟩
  rintro ⟨k2, k, y, v, k3, k4⟩
  exact ⟨k2, k, y, v, (e k).mp k3, k4⟩

end

/-! ## Cases -/

/-- `1.0, inf`. -/
def exAlg : Larry Nat := ⟨NDArray.ofList [2] [fl 1, .flt .pinf], .float, [[0, 1]]⟩

/-- `4.0, NaN, 3.0` with other labels in another order. -/
def exAlgOther : Larry Nat := ⟨NDArray.ofList [3] [fl 4, .flt .nan, fl 3], .float, [[2, 1, 7]]⟩

theorem exAlg_env : NumberEnv 1 (fun i => if i = 0 then .int else .float) [exWhole, exAlgOther] := by
  intro i y hy
  match i, hy with
  | 0, hy => cases hy; exact ⟨exWhole_valid, exWhole_typed, rfl, rfl, .inr (.inl rfl)⟩
  | 1, hy => cases hy; exact ⟨⟨rfl, by decide, by decide⟩, typed_cells (by decide +kernel), rfl, rfl, .inr (.inr rfl)⟩
  | i + 2, hy => simp at hy

theorem exAlg_bounded : Bounded [exWhole, exAlgOther] [0, 1] := by
  have key : ∀ y ∈ [exWhole, exAlgOther], ∀ idx ∈ allIdx y.x.shape, (y.x.get idx).num ≠ .pinf ∧ (y.x.get idx).num ≠ .ninf := by
    decide +kernel
  rintro i y - hy names v ⟨idx, hat, rfl⟩
  have hm := List.mem_of_getElem? hy
  refine key y hm idx (mem_allIdx.mpr ?_)
  simp only [List.mem_cons, List.not_mem_nil, or_false] at hm
  rcases hm with rfl | rfl <;> exact At_inB hat

example : ∃ z z', (Formula.bin (.arith .mul) (.bin (.arith .sub) (.var 0) (.var 1)) (.bin (.arith .add) (.var 0) (.var 1))).eval true
      [exWhole, exAlgOther] = .ok z ∧
    (Formula.bin (.arith .sub) (.fn (.power 2) (.var 0)) (.fn (.power 2) (.var 1))).eval true [exWhole, exAlgOther] = .ok z' ∧ z.Valid ∧
    z'.Valid ∧ z.Typed ∧ z'.Typed ∧ z.SameNums z' :=
  C119_squares true exAlg_env (.var 0) (.var 1) (by simp [Formula.vars]) (by simp [Formula.vars]) exAlg_bounded

theorem exAlg_zero : ∀ y, [exWhole, exAlgOther][1]? = some y → ∀ names v, y.Has names v → v.num ≠ .fin 0 := by
  rintro y hy names v ⟨idx, hat, rfl⟩
  cases hy
  have := mem_allIdx.mpr (At_inB hat)
  clear hat
  revert idx
  decide +kernel

example : ∃ z x, (Formula.bin (.arith .truediv) (.bin (.arith .mul) (.var 0) (.var 1)) (.var 1)).eval true [exWhole, exAlgOther] = .ok z ∧
    [exWhole, exAlgOther][0]? = some x ∧ z.Valid ∧ z.Typed ∧ (∀ names w, z.Has names w → ∃ w', x.Has names w' ∧ (w.num = w'.num ∨
      w.num = .nan ∧ ∃ k y v, k ∈ [0, 1] ∧ [exWhole, exAlgOther][k]? = some y ∧ y.Has names v ∧ v.num = .nan)) :=
  C119_mul_div exAlg_env (by decide) (by decide) (by simp) exAlg_bounded exAlg_zero

/-- C119: infinities break the laws: `(y + y) - y` is NaN where `y` is infinite. -/
theorem C119_infinity : ∃ z, (Formula.bin (.arith .sub) (.bin (.arith .add) (.var 0) (.var 0)) (.var 0)).eval true [exAlg] = .ok z ∧
    exAlg.get [1] = .ok (.flt .pinf) ∧ z.get [1] = .ok (.flt .nan) ∧ z.get [0] = .ok (fl 1) :=
  ⟨_, rfl, by decide +kernel, by decide +kernel, by decide +kernel⟩

end La
