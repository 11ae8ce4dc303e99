import Verif.Props.Growth
import Verif.Props.Elementwise
import Verif.Props.Core
import Verif.Arith

/-!
# Property C127: the statistics agree with one another

Relations between what different methods return for the same larry, or for larrys made from it with operators.
-/

namespace La
open Larry
variable {L : Type _}

/-! ## Specification -/

/-- All three are scalars, or all three larrys with the same labels, and element by element `R` holds. -/
inductive Compare3 (R : Val → Val → Val → Prop) : Res (Out L) → Res (Out L) → Res (Out L) → Prop
  | scalar {v u t : Val} : R v u t → Compare3 R (.ok (.scalar v)) (.ok (.scalar u)) (.ok (.scalar t))
  | larry {z z' z'' : Larry L} : z.Valid → z'.Valid → z''.Valid → z.label = z'.label → z.label = z''.label →
      (∀ names v u t, z.Has names v → z'.Has names u → z''.Has names t → R v u t) →
      Compare3 R (.ok (.larry z)) (.ok (.larry z')) (.ok (.larry z''))

/-- A sum is the mean times the number of elements counted; if none was counted both are missing. -/
def MeanTimesCount (s m c : Val) : Prop :=
  (s.num = .nan ∧ m.num = .nan ∧ c = .int 0) ∨
  ∃ (q : ℚ) (k : Nat), 0 < k ∧ s.num = .fin (q * k) ∧ m.num = .fin q ∧ c = .int k

/-- A variance is the mean of the squares less the square of the mean; they are missing together. -/
def SquaresLessSquare (v a m : Val) : Prop :=
  (v.num = .nan ∧ a.num = .nan ∧ m.num = .nan) ∨ ∃ p q : ℚ, v.num = .fin (p - q * q) ∧ a.num = .fin p ∧ m.num = .fin q

/-- The third is the sum of the first two; they are missing together. -/
def AddUp (v w t : Val) : Prop :=
  (v.num = .nan ∧ w.num = .nan ∧ t.num = .nan) ∨ ∃ p q : ℚ, v.num = .fin p ∧ w.num = .fin q ∧ t.num = .fin (p + q)

/-- One is True and the other False. -/
def Contrary (v w : Val) : Prop := ∃ b : Bool, v = .bool b ∧ w = .bool (!b)

/-- True if the number is not zero. -/
def TrueIfSome (v n : Val) : Prop := ∃ (b : Bool) (k : Nat), v = .bool b ∧ n = .int k ∧ (b = true ↔ 0 < k)

/-- True if the number is zero. -/
def TrueIfNone (v n : Val) : Prop := ∃ (b : Bool) (k : Nat), v = .bool b ∧ n = .int k ∧ (b = true ↔ k = 0)

/-- True if the other is missing. -/
def TrueIfMissing (s v : Val) : Prop := ∃ b : Bool, v = .bool b ∧ (b = true ↔ s.num = .nan)

/-! ## Three reductions side by side -/

theorem three_line {y w t : Larry L} {R : Val → Val → Val → Prop} (hl : y.label = w.label) (hl' : y.label = t.label)
    (hc : ∀ names v u x, y.Has names v → w.Has names u → t.Has names x → R v u x) {ax : Nat} {rest : List L}
    {vs us xs : List Val} (h : y.LineAt ax rest vs) (h' : w.LineAt ax rest us) (h'' : t.LineAt ax rest xs) :
    ∃ ts : List (Val × Val × Val), vs = ts.map (·.1) ∧ us = ts.map (·.2.1) ∧ xs = ts.map (·.2.2) ∧
      ∀ p ∈ ts, R p.1 p.2.1 p.2.2 := by
  obtain ⟨l, hl1, hlen, hh⟩ := h
  obtain ⟨l', hl2, hlen', hh'⟩ := h'
  obtain ⟨l'', hl3, hlen'', hh''⟩ := h''
  have : l' = l := by rw [← hl, hl1] at hl2; exact (Option.some.inj hl2).symm
  subst this
  have : l'' = l' := by rw [← hl', hl1] at hl3; exact (Option.some.inj hl3).symm
  subst this
  refine ⟨vs.zip (us.zip xs), ?_, ?_, ?_, ?_⟩
  · exact (List.map_fst_zip (by simp; omega)).symm
  · have e : (fun p : Val × Val × Val => p.2.1) = Prod.fst ∘ Prod.snd := rfl
    rw [e, ← List.map_map, List.map_snd_zip (by simp; omega)]
    exact (List.map_fst_zip (by omega)).symm
  · have e : (fun p : Val × Val × Val => p.2.2) = Prod.snd ∘ Prod.snd := rfl
    rw [e, ← List.map_map, List.map_snd_zip (by simp; omega)]
    exact (List.map_snd_zip (by omega)).symm
  · intro p hp
    obtain ⟨i, hi⟩ := List.mem_iff_getElem?.mp hp
    rw [List.getElem?_zip_eq_some, List.getElem?_zip_eq_some] at hi
    obtain ⟨h1, h2, h3⟩ := hi
    have hil : i < l''.length := by
      have := (List.getElem?_eq_some_iff.mp h1).1
      omega
    exact hc _ _ _ _ (hh i _ _ (List.getElem?_eq_getElem hil) h1) (hh' i _ _ (List.getElem?_eq_getElem hil) h2)
      (hh'' i _ _ (List.getElem?_eq_getElem hil) h3)

theorem three_vals {y w t : Larry L} {R : Val → Val → Val → Prop} (hv : y.Valid) (hw : w.Valid) (ht : t.Valid)
    (hl : y.label = w.label) (hl' : y.label = t.label)
    (hc : ∀ names v u x, y.Has names v → w.Has names u → t.Has names x → R v u x) :
    ∃ ts : List (Val × Val × Val), y.x.vals = ts.map (·.1) ∧ w.x.vals = ts.map (·.2.1) ∧ t.x.vals = ts.map (·.2.2) ∧
      ∀ p ∈ ts, R p.1 p.2.1 p.2.2 := by
  have hs : w.x.shape = y.x.shape := by rw [hv.shape_eq, hw.shape_eq, hl]
  have hs' : t.x.shape = y.x.shape := by rw [hv.shape_eq, ht.shape_eq, hl']
  refine ⟨(allIdx y.x.shape).map fun i => (y.x.get i, w.x.get i, t.x.get i), ?_, ?_, ?_, ?_⟩
  · rw [List.map_map]; rfl
  · rw [List.map_map, ← hs]; rfl
  · rw [List.map_map, ← hs']; rfl
  · intro p hp
    obtain ⟨idx, hi, rfl⟩ := List.mem_map.mp hp
    rw [mem_allIdx, hv.shape_eq] at hi
    obtain ⟨names, hn⟩ := At_of_inB hi
    exact hc names _ _ _ ⟨idx, hn, rfl⟩ ⟨idx, hl ▸ hn, rfl⟩ ⟨idx, hl' ▸ hn, rfl⟩

theorem numeric_vals {y : Larry L} (hy : y.Numeric) : y.x.vals ≠ [] := by
  intro h
  have := (vals_all hy.valid).1
  rw [h] at this
  exact hy.elements this.symm

/-- Three reductions of larrys with the same labels, line by line. -/
theorem compare3_reduce {R Q : Val → Val → Val → Prop} (r r' r'' : Red) {y w t : Larry L} (hy : y.Numeric) (hw : w.Numeric)
    (ht : t.Numeric) {d d' d'' : DType} (hd : r.dt y.dtype = .ok d) (hd' : r'.dt w.dtype = .ok d')
    (hd'' : r''.dt t.dtype = .ok d'') (hl : y.label = w.label) (hl' : y.label = t.label)
    (hc : ∀ names v u x, y.Has names v → w.Has names u → t.Has names x → R v u x)
    (hR : ∀ ts : List (Val × Val × Val), ts ≠ [] → (∀ p ∈ ts, R p.1 p.2.1 p.2.2) →
      (∀ p ∈ ts, p.1.hasDType y.dtype = true ∧ p.2.1.hasDType w.dtype = true ∧ p.2.2.hasDType t.dtype = true) →
      Q (r.f (ts.map (·.1))) (r'.f (ts.map (·.2.1))) (r''.f (ts.map (·.2.2))))
    (axis : Option Int) (hax : ∀ a, axis = some a → ∃ ax, pyIdx y.ndim a = some ax) :
    Compare3 Q (y.reduce r axis) (w.reduce r' axis) (t.reduce r'' axis) := by
  have hnd : w.ndim = y.ndim := by rw [← hw.valid.label_length, ← hy.valid.label_length, hl]
  have hnd' : t.ndim = y.ndim := by rw [← ht.valid.label_length, ← hy.valid.label_length, hl']
  have hc' : ∀ names v u x, y.Has names v → w.Has names u → t.Has names x → R v u x ∧
      v.hasDType y.dtype = true ∧ u.hasDType w.dtype = true ∧ x.hasDType t.dtype = true := fun names v u x h1 h2 h3 =>
    ⟨hc names v u x h1 h2 h3, (typed_iff hy.valid).mp hy.typed names v h1, (typed_iff hw.valid).mp hw.typed names u h2,
      (typed_iff ht.valid).mp ht.typed names x h3⟩
  have hlines : ∀ ax rest vs us xs, y.LineAt ax rest vs → w.LineAt ax rest us → t.LineAt ax rest xs →
      Q (r.f vs) (r'.f us) (r''.f xs) := by
    intro ax rest vs us xs h h' h''
    obtain ⟨ts, rfl, rfl, rfl, hts⟩ := three_line hl hl' hc' h h' h''
    exact hR ts (fun e => line_ne_nil hy.valid hy.elements h (by rw [e]; rfl)) (fun p hp => (hts p hp).1)
      (fun p hp => (hts p hp).2)
  cases axis with
  | none =>
    rw [reduce_none_eq r hd hy.elements, reduce_none_eq r' hd' hw.elements, reduce_none_eq r'' hd'' ht.elements]
    obtain ⟨ts, e1, e2, e3, hts⟩ := three_vals hy.valid hw.valid ht.valid hl hl' hc'
    rw [e1, e2, e3]
    exact .scalar (hR ts (fun e => numeric_vals hy (by rw [e1, e]; rfl)) (fun p hp => (hts p hp).1) (fun p hp => (hts p hp).2))
  | some a =>
    obtain ⟨ax, hax⟩ := hax a rfl
    have hpos : 1 ≤ y.ndim := by
      have := hy.valid.ndim_pos
      rw [← hy.valid.label_length]
      exact List.length_pos_iff.mpr this
    rcases Nat.lt_or_ge y.ndim 2 with h1 | h2
    · have h1 : y.ndim = 1 := by omega
      have ha : a = 0 ∨ a = -1 := by
        rw [h1] at hax
        simp only [pyIdx] at hax
        split_ifs at hax <;> omega
      obtain ⟨vs, h, e⟩ := C42_reduce_1d r hy.valid hd hy.elements h1 ha
      obtain ⟨us, h', e'⟩ := C42_reduce_1d r' hw.valid hd' hw.elements (hnd.trans h1) ha
      obtain ⟨xs, h'', e''⟩ := C42_reduce_1d r'' ht.valid hd'' ht.elements (hnd'.trans h1) ha
      rw [e, e', e'']
      exact .scalar (hlines _ _ _ _ _ h h' h'')
    · obtain ⟨z, e, zv, -, zl, zc⟩ := C42_reduce_axis r hy.valid hd hy.elements hax h2
      obtain ⟨z', e', zv', -, zl', zc'⟩ := C42_reduce_axis r' hw.valid hd' hw.elements (hnd ▸ hax) (hnd ▸ h2)
      obtain ⟨z'', e'', zv'', -, zl'', zc''⟩ := C42_reduce_axis r'' ht.valid hd'' ht.elements (hnd' ▸ hax) (hnd' ▸ h2)
      rw [e, e', e'']
      refine .larry zv zv' zv'' (by rw [zl, zl', hl]) (by rw [zl, zl'', hl']) fun names v u x hv hu hx => ?_
      obtain ⟨-, vs, h, rfl⟩ := (zc names v).mp hv
      obtain ⟨-, us, h', rfl⟩ := (zc' names u).mp hu
      obtain ⟨-, xs, h'', rfl⟩ := (zc'' names x).mp hx
      exact hlines _ _ _ _ _ h h' h''

/-! ## Statistics of finite numbers -/

theorem finites_nil_of {fs : List Flt} (h : ∀ f ∈ fs, f = .nan) : finites fs = [] := by
  simp only [finites, List.filterMap_eq_nil_iff]
  intro f hf
  rw [h f hf]

theorem finites_of_ok {fs : List Flt} {qs : List ℚ} (h : fs.filter (· ≠ .nan) = qs.map .fin) (hi : NoInf fs) :
    qs = finites fs := by
  rw [noInf_ok hi] at h
  exact (List.map_injective_iff.mpr (fun a b e => by injection e) h).symm

theorem sum_finites {fs : List Flt} {s : Flt} (hi : NoInf fs) (h : SumIs fs s) :
    (finites fs = [] ∧ s = .nan) ∨ (finites fs ≠ [] ∧ s = .fin (finites fs).sum) := by
  cases h with
  | none h => exact .inl ⟨finites_nil_of h, rfl⟩
  | finite qs hq e => cases finites_of_ok e hi; exact .inr ⟨hq, rfl⟩
  | plus h _ => exact absurd rfl (hi _ h).1
  | minus h _ => exact absurd rfl (hi _ h).2
  | both h _ => exact absurd rfl (hi _ h).1

theorem mean_finites {fs : List Flt} {s : Flt} (hi : NoInf fs) (h : MeanIs fs s) :
    (finites fs = [] ∧ s = .nan) ∨ (finites fs ≠ [] ∧ s = .fin ((finites fs).sum / (finites fs).length)) := by
  cases h with
  | none h => exact .inl ⟨finites_nil_of h, rfl⟩
  | finite qs hq e => cases finites_of_ok e hi; exact .inr ⟨hq, rfl⟩
  | plus h _ => exact absurd rfl (hi _ h).1
  | minus h _ => exact absurd rfl (hi _ h).2
  | both h _ => exact absurd rfl (hi _ h).1

theorem squares_sum (qs : List ℚ) (m : ℚ) : (qs.map fun q => (q - m) * (q - m)).sum =
    (qs.map fun q => q * q).sum - 2 * m * qs.sum + qs.length * (m * m) := by
  induction qs with
  | nil => simp
  | cons q qs ih => simp only [List.map_cons, List.sum_cons, ih, List.length_cons]; push_cast; ring

theorem var_finites {fs : List Flt} {s : Flt} (hi : NoInf fs) (h : VarIs 0 fs s) :
    (finites fs = [] ∧ s = .nan) ∨ (finites fs ≠ [] ∧
      s = .fin (((finites fs).map fun q => q * q).sum / (finites fs).length -
        (finites fs).sum / (finites fs).length * ((finites fs).sum / (finites fs).length))) := by
  cases h with
  | none h => exact .inl ⟨finites_nil_of h, rfl⟩
  | infinite h => rcases h with h | h; exacts [absurd rfl (hi _ h).1, absurd rfl (hi _ h).2]
  | finite qs m hq e hm _ =>
    cases finites_of_ok e hi
    refine .inr ⟨hq, ?_⟩
    have hl : ((finites fs).length : ℚ) ≠ 0 := by simpa using hq
    congr 1
    rw [squares_sum, ← hm]
    push_cast
    field_simp
    ring
  | equal qs q hq e _ h0 =>
    exact absurd (List.length_eq_zero_iff.mp (by omega)) hq
  | unequal qs p q e hp _ _ h0 =>
    have : qs = [] := List.length_eq_zero_iff.mp (by omega)
    rw [this] at hp
    cases hp

theorem finites_squares {fs gs : List Flt} (h : List.Forall₂ (fun f g => (f = .nan ∧ g = .nan) ∨
    ∃ q : ℚ, f = .fin q ∧ g = .fin (q * q)) fs gs) : finites gs = (finites fs).map fun q => q * q := by
  induction h with
  | nil => rfl
  | cons h _ ih =>
    rcases h with ⟨rfl, rfl⟩ | ⟨q, rfl, rfl⟩
    · simpa [finites] using ih
    · simp only [finites, List.filterMap_cons, List.map_cons] at ih ⊢
      rw [ih]

theorem finites_sums {ts : List (Flt × Flt × Flt)} (h : ∀ t ∈ ts, (t.1 = .nan ∧ t.2.1 = .nan ∧ t.2.2 = .nan) ∨
    ∃ p q : ℚ, t.1 = .fin p ∧ t.2.1 = .fin q ∧ t.2.2 = .fin (p + q)) :
    (finites (ts.map (·.2.2))).sum = (finites (ts.map (·.1))).sum + (finites (ts.map (·.2.1))).sum ∧
    (finites (ts.map (·.2.2))).length = (finites (ts.map (·.1))).length ∧
    (finites (ts.map (·.2.1))).length = (finites (ts.map (·.1))).length := by
  induction ts with
  | nil => simp [finites]
  | cons t ts ih =>
    obtain ⟨a, b, c⟩ := t
    obtain ⟨i1, i2, i3⟩ := ih fun t ht => h t (List.mem_cons_of_mem _ ht)
    rcases h (a, b, c) List.mem_cons_self with ⟨h1, h2, h3⟩ | ⟨p, q, h1, h2, h3⟩ <;>
      simp only at h1 h2 h3 <;> subst h1 h2 h3
    · simp only [finites, List.map_cons, List.filterMap_cons] at i1 i2 i3 ⊢
      exact ⟨i1, i2, i3⟩
    · simp only [finites, List.map_cons, List.filterMap_cons, List.sum_cons, List.length_cons] at i1 i2 i3 ⊢
      refine ⟨by rw [i1]; ring, by omega, by omega⟩

theorem count_finites (vs : List Val) (d : DType) (hd : d = .float ∨ d = .int ∨ d = .bool)
    (ht : ∀ v ∈ vs, v.hasDType d = true) :
    ((vs.map Val.isFin).filter id).length = (finites (vs.map Val.num)).length := by
  induction vs with
  | nil => rfl
  | cons v vs ih =>
    have hv := ht v List.mem_cons_self
    have := ih fun w hw => ht w (List.mem_cons_of_mem _ hw)
    rcases hd with rfl | rfl | rfl <;> cases v <;> simp only [Val.hasDType, Bool.false_eq_true] at hv <;>
      simp only [finites, List.map_cons, List.filterMap_cons, Val.num, Val.isFin, List.filter_cons, id] at this ⊢
    · rename_i f
      cases f <;> simp [Flt.isFinite, this]
    · simpa using this
    · simpa using this

/-! ## Elementwise methods and operators -/

theorem has_of_mapped {y : Larry L} {g : Val → Val} {d : DType} {names : List L} {w : Val} (h : (y.mapped g d).Has names w) :
    ∃ v, y.Has names v ∧ w = g v := by
  obtain ⟨idx, hat, rfl⟩ := h
  exact ⟨_, ⟨idx, hat, rfl⟩, rfl⟩

theorem has_unique {y : Larry L} (hv : y.Valid) {names : List L} {v w : Val} (h : y.Has names v) (h' : y.Has names w) :
    v = w := Holds_unique hv.nodup h h'

/-- What an elementwise method makes of a larry of numbers. -/
theorem elem_numeric {y : Larry L} (hy : y.Numeric) (m : ElemMethod) (hm : m.Modelled y.dtype)
    (hi : m = .invert → y.dtype = .bool) (hn : m.dt y.dtype = .float ∨ m.dt y.dtype = .int ∨ m.dt y.dtype = .bool) :
    ∃ c, y.elem m = .ok c ∧ c.Numeric ∧ c.label = y.label ∧ c.dtype = m.dt y.dtype ∧
      ∀ names v w, y.Has names v → c.Has names w → w = m.fn v := by
  refine ⟨_, elem_ok hm hi, ⟨hy.valid, ?_, hn, hy.elements⟩, rfl, rfl, fun names v w h h' => ?_⟩
  · intro idx h
    exact (fn_makes m hm hi (hy.typed idx h)).1
  · obtain ⟨v', hv', rfl⟩ := has_of_mapped h'
    rw [has_unique hy.valid h hv']

/-- What an operator makes of two larrys of numbers with the same labels. -/
theorem binop_numeric [LinearOrder L] {y z : Larry L} (hy : y.Numeric) (hz : z.Numeric) (hl : y.label = z.label)
    (uf : UFunc2) {d : DType} (hd : uf.dt y.dtype z.dtype = .ok d) (hn : d = .float ∨ d = .int ∨ d = .bool)
    (hf : ∀ u w : Val, u.hasDType y.dtype = true → w.hasDType z.dtype = true → (uf.f u w).hasDType d = true) :
    ∃ c, Larry.binop uf y z = .ok c ∧ c.Numeric ∧ c.label = y.label ∧ c.dtype = d ∧
      ∀ names u w v, y.Has names u → z.Has names w → c.Has names v → v = uf.f u w := by
  have hnd : y.ndim = z.ndim := by rw [← hy.valid.label_length, ← hz.valid.label_length, hl]
  obtain ⟨c, e, cv, cd, cj, cc⟩ := C09_binop hy.valid hz.valid hnd uf hd
  have cl : c.label = y.label :=
    cj.unique (fun _ _ _ _ h h' => h.unique h') (by rw [← hl]; exact Joined.refl_inner y.label)
  have hc : ∀ names v, c.Has names v → ∃ u w, y.Has names u ∧ z.Has names w ∧ v = uf.f u w := by
    intro names v h
    obtain ⟨u, w, h1, h2, h3⟩ := (cc names v).mp ((get_ok_iff cv).mpr h)
    exact ⟨u, w, (get_ok_iff hy.valid).mp h1, (get_ok_iff hz.valid).mp h2, h3⟩
  refine ⟨c, e, ⟨cv, ?_, by rw [cd]; exact hn, ?_⟩, cl, cd, ?_⟩
  · rw [typed_iff cv]
    intro names v h
    obtain ⟨u, w, h1, h2, rfl⟩ := hc names v h
    rw [cd]
    exact hf u w ((typed_iff hy.valid).mp hy.typed _ _ h1) ((typed_iff hz.valid).mp hz.typed _ _ h2)
  · have : c.shape = y.shape := by
      show c.x.shape = y.x.shape
      rw [cv.shape_eq, hy.valid.shape_eq, cl]
    rw [this]
    exact hy.elements
  · intro names u w v h1 h2 h3
    obtain ⟨u', w', k1, k2, rfl⟩ := hc names v h3
    rw [has_unique hy.valid h1 k1, has_unique hz.valid h2 k2]

theorem loop_mul_num {d : DType} (hd : d = .float ∨ d = .int ∨ d = .bool) {v : Val} (h : v.hasDType d = true)
    (hi : v.num ≠ .pinf ∧ v.num ≠ .ninf) :
    (Arith.npMultiply.f v v).hasDType d = true ∧ ((v.num = .nan ∧ (Arith.npMultiply.f v v).num = .nan) ∨
      ∃ q : ℚ, v.num = .fin q ∧ (Arith.npMultiply.f v v).num = .fin (q * q)) := by
  rcases hd with rfl | rfl | rfl <;> cases v <;> simp only [Val.hasDType, Bool.false_eq_true] at h
  · rename_i f
    cases f <;> simp_all [Arith.npMultiply, Arith.loop, Val.num, Val.hasDType, Flt.mul]
  · simp [Arith.npMultiply, Arith.loop, Arith.toInt, Val.num, Val.hasDType]
  · rename_i b
    cases b <;> simp [Arith.npMultiply, Arith.loop, Val.num, Val.hasDType]

/-! ## C127 -/

/-- C127. The sum is the mean times the number of finite elements. -/
theorem C127_mean {y : Larry L} (hy : y.Numeric) (hi : y.NoInfinities) (axis : Option Int)
    (hax : ∀ a, axis = some a → ∃ ax, pyIdx y.ndim a = some ax) :
    ∃ c, y.elem .isfinite = .ok c ∧ Compare3 MeanTimesCount (y.sum axis) (y.mean axis) (c.sum axis) := by
  obtain ⟨c, e, cn, cl, cd, cc⟩ := elem_numeric hy .isfinite ⟨by have := hy.dtype; tauto, trivial⟩ (by simp) (by simp [ElemMethod.dt])
  refine ⟨c, e, compare3_reduce (R := fun v u w => u = v ∧ w = .bool v.isFin ∧ v.num ≠ .pinf ∧ v.num ≠ .ninf)
    bnNansum bnNanmean bnNansum hy hy cn (d := if y.dtype = .float then .float else .int) ?_ (statDType_ok hy.dtype)
    (d'' := .int) ?_ rfl cl.symm ?_ ?_ axis hax⟩
  · rcases hy.dtype with h | h | h <;> rw [h] <;> rfl
  · rw [cd]; rfl
  · intro names v u w h1 h2 h3
    exact ⟨has_unique hy.valid h2 h1, cc _ _ _ h1 h3, hi _ _ h1⟩
  · intro ts hne hR ht
    have e1 : ts.map (·.2.1) = ts.map (·.1) := List.map_congr_left fun p hp => (hR p hp).1
    have e2 : ts.map (·.2.2) = ((ts.map (·.1)).map Val.isFin).map .bool := by
      rw [List.map_map, List.map_map]
      exact List.map_congr_left fun p hp => (hR p hp).2.1
    rw [e1, e2]
    have hvt : ∀ v ∈ ts.map (·.1), v.hasDType y.dtype = true := by
      intro v hv
      obtain ⟨p, hp, rfl⟩ := List.mem_map.mp hv
      exact (ht p hp).1
    have hinf : NoInf ((ts.map (·.1)).map Val.num) := by
      intro f hf
      rw [List.map_map] at hf
      obtain ⟨p, hp, rfl⟩ := List.mem_map.mp hf
      exact (hR p hp).2.2
    have hvne : ts.map (·.1) ≠ [] := by simpa using hne
    generalize ts.map (·.1) = vs at *
    have hs := sum_finites hinf (stat_is .sum hy.dtype hvne hvt)
    have hm := mean_finites hinf (stat_is .mean hy.dtype hvne hvt)
    obtain ⟨bs, eb, hc⟩ := sumOf_nansum (d := .bool) (d' := .int) rfl (vs := (vs.map Val.isFin).map .bool)
      (by simpa using hvne) (by simp [Val.hasDType])
    have eb : bs = vs.map Val.isFin := (List.map_injective_iff.mpr (fun a b e => by injection e) eb).symm
    rw [eb, count_finites vs y.dtype hy.dtype hvt] at hc
    rcases hs with ⟨h0, hs⟩ | ⟨h0, hs⟩
    · rcases hm with ⟨-, hm⟩ | ⟨h1, -⟩
      · refine .inl ⟨hs, hm, ?_⟩
        rw [h0] at hc
        exact hc
      · exact absurd h0 h1
    · rcases hm with ⟨h1, -⟩ | ⟨-, hm⟩
      · exact absurd h1 h0
      · refine .inr ⟨_, _, List.length_pos_iff.mpr h0, ?_, hm, hc⟩
        have : ((finites (vs.map Val.num)).length : ℚ) ≠ 0 := by simpa using h0
        rw [div_mul_cancel₀ _ this]
        exact hs

/-- C127. The variance is the mean of the squares less the square of the mean. -/
theorem C127_var [LinearOrder L] {y : Larry L} (hy : y.Numeric) (hi : y.NoInfinities) (axis : Option Int)
    (hax : ∀ a, axis = some a → ∃ ax, pyIdx y.ndim a = some ax) :
    ∃ u, Larry.binop Arith.npMultiply y y = .ok u ∧
      Compare3 SquaresLessSquare (y.var axis 0) (u.mean axis) (y.mean axis) := by
  have hty := (typed_iff hy.valid).mp hy.typed
  have hsq : ∀ u w : Val, u.hasDType y.dtype = true → w.hasDType y.dtype = true →
      (Arith.npMultiply.f u w).hasDType y.dtype = true := by
    intro u w h h'
    rcases hy.dtype with e | e | e <;> rw [e] at h h' ⊢ <;> cases u <;> cases w <;>
      simp_all [Arith.npMultiply, Arith.loop, Val.hasDType]
  obtain ⟨u, e, un, ul, ud, uc⟩ := binop_numeric hy hy rfl Arith.npMultiply (d := y.dtype)
    (by rcases hy.dtype with h | h | h <;> rw [h] <;> rfl) hy.dtype hsq
  refine ⟨u, e, compare3_reduce (R := fun v w t => t = v ∧ v.num ≠ .pinf ∧ v.num ≠ .ninf ∧ ((v.num = .nan ∧ w.num = .nan) ∨
      ∃ q : ℚ, v.num = .fin q ∧ w.num = .fin (q * q)))
    (bnNanvar 0) bnNanmean bnNanmean hy un hy (statDType_ok hy.dtype) (statDType_ok un.dtype) (statDType_ok hy.dtype)
    ul.symm rfl ?_ ?_ axis hax⟩
  · intro names v w t h1 h2 h3
    rw [uc _ _ _ _ h1 h1 h2]
    exact ⟨has_unique hy.valid h3 h1, (hi _ _ h1).1, (hi _ _ h1).2, (loop_mul_num hy.dtype (hty _ _ h1) (hi _ _ h1)).2⟩
  · intro ts hne hR ht
    have e1 : ts.map (·.2.2) = ts.map (·.1) := List.map_congr_left fun p hp => (hR p hp).1
    rw [e1]
    have hinf : NoInf ((ts.map (·.1)).map Val.num) := by
      intro f hf
      rw [List.map_map] at hf
      obtain ⟨p, hp, rfl⟩ := List.mem_map.mp hf
      exact ⟨(hR p hp).2.1, (hR p hp).2.2.1⟩
    have hinf' : NoInf ((ts.map (·.2.1)).map Val.num) := by
      intro f hf
      rw [List.map_map] at hf
      obtain ⟨p, hp, rfl⟩ := List.mem_map.mp hf
      rcases (hR p hp).2.2.2 with ⟨-, h⟩ | ⟨q, -, h⟩ <;> simp [h]
    have hsqs := finites_squares (fs := (ts.map (·.1)).map Val.num) (gs := (ts.map (·.2.1)).map Val.num) (by
      rw [List.map_map, List.map_map, List.forall₂_map_left_iff, List.forall₂_map_right_iff, List.forall₂_same]
      exact fun p hp => (hR p hp).2.2.2)
    have hv := var_finites hinf (var_is 0 _)
    have hm := mean_finites hinf (mean_is _)
    have ha := mean_finites hinf' (mean_is _)
    rw [hsqs] at ha
    simp only [List.map_eq_nil_iff, ne_eq, List.length_map] at ha
    rcases hv with ⟨h0, hv⟩ | ⟨h0, hv⟩
    · rcases hm with ⟨-, hm⟩ | ⟨h1, -⟩
      · rcases ha with ⟨-, ha⟩ | ⟨h1, -⟩
        · exact .inl ⟨hv, ha, hm⟩
        · exact absurd h0 h1
      · exact absurd h0 h1
    · rcases hm with ⟨h1, -⟩ | ⟨-, hm⟩
      · exact absurd h1 h0
      · rcases ha with ⟨h1, -⟩ | ⟨-, ha⟩
        · exact absurd h1 h0
        · exact .inr ⟨_, _, hv, ha, hm⟩

theorem loop_add_num {d e : DType} (hd : d = .float ∨ d = .int ∨ d = .bool) (he : e = .float ∨ e = .int ∨ e = .bool)
    (hb : ¬ (d = .bool ∧ e = .bool)) {v w : Val} (h : v.hasDType d = true) (h' : w.hasDType e = true) :
    (Arith.npAdd.f v w).hasDType (if d = .float ∨ e = .float then .float else .int) = true ∧
      (Arith.npAdd.f v w).num = v.num.add w.num := by
  rcases hd with rfl | rfl | rfl <;> rcases he with rfl | rfl | rfl <;>
    first
    | exact absurd ⟨rfl, rfl⟩ hb
    | (cases v <;> simp only [Val.hasDType, Bool.false_eq_true] at h
       cases w <;> simp only [Val.hasDType, Bool.false_eq_true] at h'
       simp [Arith.npAdd, Arith.loop, Arith.toInt, Val.num, Val.hasDType, Flt.add])

/-- C127. Of two larrys with the same labels and gaps, the sum of the sums is the sum of the sum; likewise the means. -/
theorem C127_add [LinearOrder L] {y z : Larry L} (hy : y.Numeric) (hz : z.Numeric) (hl : y.label = z.label)
    (iy : y.NoInfinities) (iz : z.NoInfinities) (hb : ¬ (y.dtype = .bool ∧ z.dtype = .bool))
    (hg : ∀ names v w, y.Has names v → z.Has names w → (v.num = .nan ↔ w.num = .nan)) (axis : Option Int)
    (hax : ∀ a, axis = some a → ∃ ax, pyIdx y.ndim a = some ax) :
    ∃ u, Larry.binop Arith.npAdd y z = .ok u ∧ Compare3 AddUp (y.sum axis) (z.sum axis) (u.sum axis) ∧
      Compare3 AddUp (y.mean axis) (z.mean axis) (u.mean axis) := by
  have hty := (typed_iff hy.valid).mp hy.typed
  have htz := (typed_iff hz.valid).mp hz.typed
  obtain ⟨u, e, un, ul, ud, uc⟩ := binop_numeric hy hz hl Arith.npAdd
    (d := if y.dtype = .float ∨ z.dtype = .float then .float else .int)
    (by rcases hy.dtype with h | h | h <;> rcases hz.dtype with h' | h' | h' <;> rw [h, h'] <;>
          first | rfl | exact absurd ⟨h, h'⟩ hb)
    (by split_ifs <;> simp) (fun v w h h' => (loop_add_num hy.dtype hz.dtype hb h h').1)
  have hc : ∀ names v w t, y.Has names v → z.Has names w → u.Has names t → AddUp v w t := by
    intro names v w t h1 h2 h3
    have hn := (loop_add_num hy.dtype hz.dtype hb (hty _ _ h1) (htz _ _ h2)).2
    rw [← uc _ _ _ _ h1 h2 h3] at hn
    have i1 := iy _ _ h1
    have i2 := iz _ _ h2
    have g := hg _ _ _ h1 h2
    unfold AddUp
    rw [hn]
    cases hv : v.num <;> cases hw : w.num <;> simp_all [Flt.add]
  have key : ∀ ts : List (Val × Val × Val), (∀ p ∈ ts, AddUp p.1 p.2.1 p.2.2) →
      NoInf ((ts.map (·.1)).map Val.num) ∧ NoInf ((ts.map (·.2.1)).map Val.num) ∧ NoInf ((ts.map (·.2.2)).map Val.num) ∧
      (finites ((ts.map (·.2.2)).map Val.num)).sum =
        (finites ((ts.map (·.1)).map Val.num)).sum + (finites ((ts.map (·.2.1)).map Val.num)).sum ∧
      (finites ((ts.map (·.2.2)).map Val.num)).length = (finites ((ts.map (·.1)).map Val.num)).length ∧
      (finites ((ts.map (·.2.1)).map Val.num)).length = (finites ((ts.map (·.1)).map Val.num)).length := by
    intro ts hR
    refine ⟨?_, ?_, ?_, ?_⟩
    · intro f hf
      rw [List.map_map] at hf
      obtain ⟨p, hp, rfl⟩ := List.mem_map.mp hf
      rcases hR p hp with ⟨h, -, -⟩ | ⟨_, _, h, -, -⟩ <;> simp [h]
    · intro f hf
      rw [List.map_map] at hf
      obtain ⟨p, hp, rfl⟩ := List.mem_map.mp hf
      rcases hR p hp with ⟨-, h, -⟩ | ⟨_, _, -, h, -⟩ <;> simp [h]
    · intro f hf
      rw [List.map_map] at hf
      obtain ⟨p, hp, rfl⟩ := List.mem_map.mp hf
      rcases hR p hp with ⟨-, -, h⟩ | ⟨_, _, -, -, h⟩ <;> simp [h]
    · have := finites_sums (ts := ts.map fun p => (p.1.num, p.2.1.num, p.2.2.num)) (by
        intro t ht
        obtain ⟨p, hp, rfl⟩ := List.mem_map.mp ht
        exact hR p hp)
      simpa only [List.map_map, Function.comp_def] using this
  have sdt : ∀ d : DType, d = .float ∨ d = .int ∨ d = .bool →
      bnNansum.dt d = .ok (if d = .float then .float else .int) := by
    intro d h
    rcases h with rfl | rfl | rfl <;> rfl
  have typed3 : ∀ ts : List (Val × Val × Val), (∀ p ∈ ts, p.1.hasDType y.dtype = true ∧ p.2.1.hasDType z.dtype = true ∧
      p.2.2.hasDType u.dtype = true) → (∀ v ∈ ts.map (·.1), v.hasDType y.dtype = true) ∧
      (∀ v ∈ ts.map (·.2.1), v.hasDType z.dtype = true) ∧ ∀ v ∈ ts.map (·.2.2), v.hasDType u.dtype = true := by
    intro ts ht
    refine ⟨?_, ?_, ?_⟩ <;> intro v hv <;> obtain ⟨p, hp, rfl⟩ := List.mem_map.mp hv
    exacts [(ht p hp).1, (ht p hp).2.1, (ht p hp).2.2]
  refine ⟨u, e, ?_, ?_⟩
  · refine compare3_reduce bnNansum bnNansum bnNansum hy hz un (sdt _ hy.dtype) (sdt _ hz.dtype) (sdt _ un.dtype) hl ul.symm hc
      (fun ts hne hR ht => ?_) axis hax
    obtain ⟨i1, i2, i3, ks, k1, k2⟩ := key ts hR
    obtain ⟨t1, t2, t3⟩ := typed3 ts ht
    have h1 := sum_finites i1 (stat_is .sum hy.dtype (by simpa using hne) t1)
    have h2 := sum_finites i2 (stat_is .sum hz.dtype (by simpa using hne) t2)
    have h3 := sum_finites i3 (stat_is .sum un.dtype (by simpa using hne) t3)
    simp only [← List.length_eq_zero_iff, ne_eq, k1, k2] at h1 h2 h3
    rcases h1 with ⟨h0, h1⟩ | ⟨h0, h1⟩
    · simp only [h0, true_and, not_true, false_and, or_false] at h2 h3
      exact .inl ⟨h1, h2, h3⟩
    · simp only [h0, false_and, false_or, not_false_eq_true, true_and] at h2 h3
      rw [ks] at h3
      exact .inr ⟨_, _, h1, h2, h3⟩
  · refine compare3_reduce bnNanmean bnNanmean bnNanmean hy hz un (statDType_ok hy.dtype) (statDType_ok hz.dtype)
      (statDType_ok un.dtype) hl ul.symm hc (fun ts hne hR ht => ?_) axis hax
    obtain ⟨i1, i2, i3, ks, k1, k2⟩ := key ts hR
    have h1 := mean_finites i1 (mean_is _)
    have h2 := mean_finites i2 (mean_is _)
    have h3 := mean_finites i3 (mean_is _)
    simp only [← List.length_eq_zero_iff, ne_eq, k1, k2] at h1 h2 h3
    rcases h1 with ⟨h0, h1⟩ | ⟨h0, h1⟩
    · simp only [h0, true_and, not_true, false_and, or_false] at h2 h3
      exact .inl ⟨h1, h2, h3⟩
    · simp only [h0, false_and, false_or, not_false_eq_true, true_and] at h2 h3
      rw [ks, add_div] at h3
      exact .inr ⟨_, _, h1, h2, h3⟩

theorem opposite_le {a b a' b' : Flt} (h : Opposite a a') (h' : Opposite b b') (hle : LeF a b) : LeF b' a' := by
  cases h <;> cases h' <;> simp_all [LeF]
  rename_i h1 _ _ h2
  linarith

theorem opposite_min_max {fs gs : List Flt} (h : List.Forall₂ Opposite fs gs) {a b : Flt} (ha : MinIs fs a)
    (hb : MaxIs gs b) : Opposite a b := by
  have hnan : ∀ {f g : Flt}, Opposite f g → (f = .nan ↔ g = .nan) := by intro f g h; cases h <;> simp
  have hall : (∀ f ∈ fs, f = .nan) ↔ ∀ g ∈ gs, g = .nan := by
    clear ha hb
    induction h with
    | nil => simp
    | cons h _ ih => simp only [List.forall_mem_cons, ih, hnan h]
  have hr : ∀ f ∈ fs, ∃ g ∈ gs, Opposite f g := by
    clear ha hb hall
    induction h with
    | nil => simp
    | cons h _ ih =>
      intro f hf
      rcases List.mem_cons.mp hf with rfl | hf
      · exact ⟨_, List.mem_cons_self, h⟩
      · obtain ⟨g, hg, h⟩ := ih f hf
        exact ⟨g, List.mem_cons_of_mem _ hg, h⟩
  have hl : ∀ g ∈ gs, ∃ f ∈ fs, Opposite f g := by
    clear ha hb hall hr
    induction h with
    | nil => simp
    | cons h _ ih =>
      intro f hf
      rcases List.mem_cons.mp hf with rfl | hf
      · exact ⟨_, List.mem_cons_self, h⟩
      · obtain ⟨g, hg, h⟩ := ih f hf
        exact ⟨g, List.mem_cons_of_mem _ hg, h⟩
  rcases ha with ⟨h0, rfl⟩ | ⟨am, an, al⟩
  · rcases hb with ⟨-, rfl⟩ | ⟨bm, bn, -⟩
    · exact .nan
    · exact absurd (hall.mp h0 b bm) bn
  · rcases hb with ⟨h0, rfl⟩ | ⟨bm, bn, bl⟩
    · exact absurd (hall.mpr h0 a am) an
    · obtain ⟨b0, hb0, o⟩ := hr a am
      obtain ⟨a0, ha0, o'⟩ := hl b bm
      have l1 := bl b0 hb0 (fun e => an ((hnan o).mpr e))
      have l2 := al a0 ha0 (fun e => bn ((hnan o').mp e))
      have l3 := opposite_le o o' l2
      have : b0 = b := by
        cases b0 <;> cases b <;> simp_all [LeF]
        exact le_antisymm l1 l3
      exact this ▸ o

theorem opposite_symm {a b : Flt} (h : Opposite a b) : Opposite b a := by
  cases h
  · exact .nan
  · exact .ninf
  · exact .pinf
  · exact .fin (by linarith)

/-- C127. The least element is the negative of the greatest of the negatives, and the other way round. -/
theorem C127_neg {y : Larry L} (hy : y.Numeric) (hb : y.dtype ≠ .bool) (axis : Option Int)
    (hax : ∀ a, axis = some a → ∃ ax, pyIdx y.ndim a = some ax) :
    ∃ u, y.elem .neg = .ok u ∧ Compare (fun v w => Opposite v.num w.num) (y.min axis) (u.max axis) ∧
      Compare (fun v w => Opposite v.num w.num) (y.max axis) (u.min axis) := by
  have hty := (typed_iff hy.valid).mp hy.typed
  obtain ⟨u, e, un, ul, ud, uc⟩ := elem_numeric hy .neg ⟨by have := hy.dtype; tauto, trivial⟩ (by simp) hy.dtype
  have hc : ∀ names v w, y.Has names v → u.Has names w → Opposite v.num w.num := by
    intro names v w h1 h2
    rw [uc _ _ _ h1 h2]
    have := hty _ _ h1
    rcases hy.dtype with h | h | h
    · rw [h] at this
      cases v <;> simp only [Val.hasDType, Bool.false_eq_true] at this
      rename_i f
      cases f <;> simp only [ElemMethod.fn, Elem.neg, Val.num, Flt.neg]
      · exact .nan
      · exact .ninf
      · exact .pinf
      · exact .fin (by ring)
    · rw [h] at this
      cases v <;> simp only [Val.hasDType, Bool.false_eq_true] at this
      exact .fin (by push_cast; ring)
    · exact absurd h hb
  have mdt : ∀ d : DType, d = .float ∨ d = .int ∨ d = .bool → bnNanmax.dt d = .ok d ∧ bnNanmin.dt d = .ok d := by
    intro d h
    rcases h with rfl | rfl | rfl <;> exact ⟨rfl, rfl⟩
  refine ⟨u, e, compare_reduce bnNanmin bnNanmax hy un (mdt _ hy.dtype).2 (mdt _ un.dtype).1 ul.symm hc ?_ axis hax,
    compare_reduce bnNanmax bnNanmin hy un (mdt _ hy.dtype).1 (mdt _ un.dtype).2 ul.symm hc ?_ axis hax⟩
  · intro vs us h _ _ _ _
    refine opposite_min_max ?_ (minIs_of (minOf_nanmin vs)) (maxIs_of (maxOf_nanmax us))
    rw [List.forall₂_map_left_iff, List.forall₂_map_right_iff]
    exact h
  · intro vs us h _ _ _ _
    refine opposite_symm (opposite_min_max ?_ (minIs_of (minOf_nanmin us)) (maxIs_of (maxOf_nanmax vs)))
    rw [List.forall₂_map_left_iff, List.forall₂_map_right_iff]
    exact List.Forall₂.flip (h.imp fun _ _ => opposite_symm)

theorem any_vals (vs : List Val) : AnyOf vs (npAny.f vs) := ⟨_, rfl, by simp [truthVal]⟩
theorem all_vals (vs : List Val) : AllOf vs (npAll.f vs) := ⟨_, rfl, by simp [truthVal]⟩

theorem bool_zero {b : Bool} : (Val.bool b).num ≠ .fin 0 ↔ b = true := by cases b <;> simp [Val.num]

theorem any_bools (bs : List Bool) : npAny.f (bs.map .bool) = .bool (bs.any id) := by
  obtain ⟨b, e, h⟩ := any_vals (bs.map .bool)
  rw [e, Val.bool.injEq, Bool.eq_iff_iff, h, List.any_eq_true]
  constructor
  · rintro ⟨w, hw, hn⟩
    obtain ⟨c, hc, rfl⟩ := List.mem_map.mp hw
    exact ⟨c, hc, bool_zero.mp hn⟩
  · rintro ⟨c, hc, hn⟩
    exact ⟨_, List.mem_map_of_mem hc, bool_zero.mpr hn⟩

theorem all_bools (bs : List Bool) : npAll.f (bs.map .bool) = .bool (bs.all id) := by
  obtain ⟨b, e, h⟩ := all_vals (bs.map .bool)
  rw [e, Val.bool.injEq, Bool.eq_iff_iff, h, List.all_eq_true]
  constructor
  · intro h c hc
    exact bool_zero.mp (h _ (List.mem_map_of_mem hc))
  · intro h w hw
    obtain ⟨c, hc, rfl⟩ := List.mem_map.mp hw
    exact bool_zero.mpr (h c hc)

theorem all_not (bs : List Bool) : (bs.map not).all id = !bs.any id := by
  induction bs with
  | nil => rfl
  | cons b bs ih => simp only [List.map_cons, List.all_cons, List.any_cons, ih, id, Bool.not_or]

theorem any_not (bs : List Bool) : (bs.map not).any id = !bs.all id := by
  induction bs with
  | nil => rfl
  | cons b bs ih => simp only [List.map_cons, List.all_cons, List.any_cons, ih, id, Bool.not_and]

/-- C127. `any` and `all` of booleans: not all is any not, some is a positive number of them, all is none left over. -/
theorem C127_any_all {y : Larry L} (hy : y.Numeric) (hb : y.dtype = .bool) (axis : Option Int)
    (hax : ∀ a, axis = some a → ∃ ax, pyIdx y.ndim a = some ax) :
    ∃ u, y.elem .invert = .ok u ∧ Compare Contrary (y.any axis) (u.all axis) ∧ Compare Contrary (y.all axis) (u.any axis) ∧
      Compare TrueIfSome (y.any axis) (y.sum axis) ∧ Compare TrueIfNone (y.all axis) (u.sum axis) := by
  obtain ⟨u, e, un, ul, ud, uc⟩ := elem_numeric hy .invert ⟨by have := hy.dtype; tauto, trivial⟩ (fun _ => hb)
    (by simpa [ElemMethod.dt] using hy.dtype)
  have ud : u.dtype = .bool := by rw [ud]; simp [ElemMethod.dt, hb]
  have hc : ∀ names v w, y.Has names v → u.Has names w → ∃ b : Bool, v = .bool b ∧ w = .bool (!b) := by
    intro names v w h1 h2
    rw [uc _ _ _ h1 h2]
    have := (typed_iff hy.valid).mp hy.typed _ _ h1
    rw [hb] at this
    cases v <;> simp only [Val.hasDType, Bool.false_eq_true] at this
    exact ⟨_, rfl, rfl⟩
  have hc' : ∀ names v w, y.Has names v → y.Has names w → v = w := fun names v w h h' => has_unique hy.valid h h'
  have pair : ∀ vs us : List Val, List.Forall₂ (fun v w => ∃ b : Bool, v = .bool b ∧ w = .bool (!b)) vs us →
      ∃ bs : List Bool, vs = bs.map .bool ∧ us = (bs.map not).map .bool := by
    intro vs us h
    induction h with
    | nil => exact ⟨[], rfl, rfl⟩
    | cons h _ ih =>
      obtain ⟨b, rfl, rfl⟩ := h
      obtain ⟨bs, rfl, rfl⟩ := ih
      exact ⟨b :: bs, rfl, rfl⟩
  have hd1 : npAny.dt y.dtype = .ok .bool := by rw [hb]; rfl
  have hd2 : npAll.dt y.dtype = .ok .bool := by rw [hb]; rfl
  have hd3 : npAny.dt u.dtype = .ok .bool := by rw [ud]; rfl
  have hd4 : npAll.dt u.dtype = .ok .bool := by rw [ud]; rfl
  have hd5 : bnNansum.dt y.dtype = .ok .int := by rw [hb]; rfl
  have hd6 : bnNansum.dt u.dtype = .ok .int := by rw [ud]; rfl
  have count : ∀ bs : List Bool, bs ≠ [] → bnNansum.f (bs.map .bool) = .int ((bs.filter id).length : Nat) := by
    intro bs hne
    obtain ⟨bs', eb, hc⟩ := sumOf_nansum (d := .bool) (d' := .int) rfl (vs := bs.map .bool)
      (by simpa using hne) (fun v hv => by obtain ⟨b, -, rfl⟩ := List.mem_map.mp hv; rfl)
    have : bs = bs' := List.map_injective_iff.mpr (fun a b e => by injection e) eb
    subst this
    exact hc
  refine ⟨u, e, compare_reduce npAny npAll hy un hd1 hd4 ul.symm hc ?_ axis hax,
    compare_reduce npAll npAny hy un hd2 hd3 ul.symm hc ?_ axis hax,
    compare_reduce npAny bnNansum hy hy hd1 hd5 rfl hc' ?_ axis hax,
    compare_reduce npAll bnNansum hy un hd2 hd6 ul.symm hc ?_ axis hax⟩
  · intro vs us h _ _ _ _
    obtain ⟨bs, rfl, rfl⟩ := pair vs us h
    exact ⟨_, any_bools bs, by rw [all_bools, all_not]⟩
  · intro vs us h _ _ _ _
    obtain ⟨bs, rfl, rfl⟩ := pair vs us h
    exact ⟨_, all_bools bs, by rw [any_bools, any_not]⟩
  · intro vs us h hne hne' hm hm'
    have : us = vs := by
      clear hne hm hne' hm'
      induction h with
      | nil => rfl
      | cons h _ ih => rw [h, ih]
    subst this
    obtain ⟨bs, rfl⟩ := typed_bool (fun v hv => by have := line_typed' hy hm v hv; rwa [hb] at this)
    refine ⟨_, _, any_bools bs, count bs (by simpa using hne), ?_⟩
    rw [List.any_eq_true, List.length_pos_iff_exists_mem]
    simp
  · intro vs us h hne _ _ _
    obtain ⟨bs, rfl, rfl⟩ := pair vs us h
    refine ⟨_, _, all_bools bs, count (bs.map not) (by simpa using hne), ?_⟩
    rw [List.all_eq_true, List.length_eq_zero_iff, List.filter_eq_nil_iff]
    simp

/-- C127. A statistic is missing exactly where all elements are. -/
theorem C127_missing (s : Statistic) {y : Larry L} (hy : y.Numeric) (hi : y.NoInfinities) (axis : Option Int)
    (hax : ∀ a, axis = some a → ∃ ax, pyIdx y.ndim a = some ax) :
    ∃ u, y.elem .isnan = .ok u ∧ Compare TrueIfMissing (s.of y axis) (u.all axis) := by
  obtain ⟨u, e, un, ul, ud, uc⟩ := elem_numeric hy .isnan ⟨by have := hy.dtype; tauto, trivial⟩ (by simp)
    (by simp [ElemMethod.dt])
  obtain ⟨d, hd⟩ := red_dt s hy.dtype
  rw [of_eq]
  refine ⟨u, e, compare_reduce (R := fun v w => w = .bool v.isNan) s.red npAll hy un hd (d' := .bool)
    (by rw [ud]; rfl) ul.symm (fun names v w h1 h2 => uc _ _ _ h1 h2) ?_ axis hax⟩
  intro vs us h hne hne' hm hm'
  obtain ⟨b, e1, h1⟩ := all_vals us
  refine ⟨b, e1, ?_⟩
  have hs := stat_is s hy.dtype hne (line_typed' hy hm)
  have hinf := line_noInf hi hm
  have hnan : ∀ v : Val, v.isNan = true ↔ v.num = .nan := by
    intro v
    unfold Val.isNan
    cases v.num <;> simp [Flt.isNan]
  have : b = true ↔ ∀ f ∈ vs.map Val.num, f = .nan := by
    rw [h1]
    clear hs hinf hm h1 e1 hne hm' hne'
    induction h with
    | nil => simp
    | @cons v w vs us hvw _ ih =>
      rw [List.forall_mem_cons, List.map_cons, List.forall_mem_cons, ih, hvw, bool_zero, hnan v]
  rw [this]
  exact (stat_nan s hinf hs).symm

/-! ### Cases -/

/-- `larry([[1, nan], [5, nan]])` -/
def exColumns : Larry Nat :=
  ⟨NDArray.ofList [2, 2] [.flt (.fin 1), .flt .nan, .flt (.fin 5), .flt .nan], .float, [[0, 1], [10, 11]]⟩

/-- `larry([[7, nan], [-2, nan]])`: NaN at the same places. -/
def exColumns' : Larry Nat :=
  ⟨NDArray.ofList [2, 2] [.flt (.fin 7), .flt .nan, .flt (.fin (-2)), .flt .nan], .float, [[0, 1], [10, 11]]⟩

/-- `larry([[True, False], [True, True]])` -/
def exFlags : Larry Nat :=
  ⟨NDArray.ofList [2, 2] [.bool true, .bool false, .bool true, .bool true], .bool, [[0, 1], [10, 11]]⟩

theorem exColumns_numeric : exColumns.Numeric ∧ exColumns'.Numeric ∧ exFlags.Numeric :=
  ⟨⟨⟨rfl, by decide, by decide⟩, typed_cells (by decide +kernel), .inl rfl, by decide⟩,
    ⟨⟨rfl, by decide, by decide⟩, typed_cells (by decide +kernel), .inl rfl, by decide⟩,
    ⟨⟨rfl, by decide, by decide⟩, typed_cells (by decide +kernel), .inr (.inr rfl), by decide⟩⟩

theorem noInfinities_cells {y : Larry Nat} (h : ∀ idx ∈ allIdx y.x.shape, (y.x.get idx).num ≠ .pinf ∧ (y.x.get idx).num ≠ .ninf)
    (hv : y.Valid) : y.NoInfinities := by
  rintro names v ⟨idx, hat, rfl⟩
  exact h idx (mem_allIdx.mpr (by rw [hv.shape_eq]; exact At_inB hat))

example : exColumns.NoInfinities ∧ exColumns'.NoInfinities :=
  ⟨noInfinities_cells (by decide +kernel) exColumns_numeric.1.valid, noInfinities_cells (by decide +kernel) exColumns_numeric.2.1.valid⟩

example : ∀ names v w, exColumns.Has names v → exColumns'.Has names w → (v.num = .nan ↔ w.num = .nan) := by
  rintro names v w ⟨idx, hat, rfl⟩ ⟨idx', hat', rfl⟩
  cases At_unique exColumns_numeric.1.valid.nodup hat hat'
  exact (by decide +kernel : ∀ idx ∈ allIdx [2, 2], ((exColumns.x.get idx).num = .nan ↔ (exColumns'.x.get idx).num = .nan)) idx
    (mem_allIdx.mpr (At_inB hat))

example : exColumns.label = exColumns'.label ∧ pyIdx exColumns.ndim (-1) = some 1 ∧ exFlags.dtype = .bool := ⟨rfl, rfl, rfl⟩

example : ((exColumns.elem .isfinite).bind fun c => c.sum none).bind (fun o => .ok (numberOf (.ok o))) = .ok (some (.int 2)) ∧
    numberOf (exColumns.mean none) = some (.flt (.fin 3)) ∧ numberOf (exColumns.sum none) = some (.flt (.fin 6)) ∧
    numberOf (exColumns.var none 0) = some (.flt (.fin 4)) := by
  refine ⟨by decide +kernel, by decide +kernel, by decide +kernel, by decide +kernel⟩

/-- C127. Where larrys have NaN at different places the sums need not add up: `[1, nan] + [nan, 2]` has sum NaN. -/
theorem C127_add_gaps : ∃ (y z u : Larry Nat), y.Numeric ∧ z.Numeric ∧ y.label = z.label ∧ y.NoInfinities ∧ z.NoInfinities ∧
    Larry.binop Arith.npAdd y z = .ok u ∧ y.sum none = .ok (.scalar (.flt (.fin 1))) ∧
    z.sum none = .ok (.scalar (.flt (.fin 2))) ∧ u.sum none = .ok (.scalar (.flt .nan)) := by
  have hy : (⟨NDArray.ofList [2] [.flt (.fin 1), .flt .nan], .float, [[0, 1]]⟩ : Larry Nat).Numeric :=
    ⟨⟨rfl, by decide, by decide⟩, typed_cells (by decide +kernel), .inl rfl, by decide⟩
  have hz : (⟨NDArray.ofList [2] [.flt .nan, .flt (.fin 2)], .float, [[0, 1]]⟩ : Larry Nat).Numeric :=
    ⟨⟨rfl, by decide, by decide⟩, typed_cells (by decide +kernel), .inl rfl, by decide⟩
  refine ⟨_, _, _, hy, hz, rfl, noInfinities_cells (by decide +kernel) hy.valid, noInfinities_cells (by decide +kernel) hz.valid,
    rfl, ?_, ?_, ?_⟩
  · rfl
  · rfl
  · rfl

/-- C127. The sum of two larrys of booleans is their logical or, so its sum is not the sum of the sums. -/
theorem C127_add_bool : ∃ u, Larry.binop Arith.npAdd exFlags exFlags = .ok u ∧ exFlags.sum none = .ok (.scalar (.int 3)) ∧
    u.sum none = .ok (.scalar (.int 3)) := ⟨_, rfl, rfl, rfl⟩

end La
