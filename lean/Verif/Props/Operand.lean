import Verif.Operand
import Verif.Props.Formula

/-!
# C113: what an operator does with the object on its other side
-/

namespace La
variable {L : Type _}
open Larry

/-! ## Specification -/

/-- What the operator `b` takes as numbers: a scalar, an array, and in a comparison a list or tuple. -/
inductive Operand.Offers : BinOp → Operand L → NDArray Val → DType → Prop
  | scalar {b : BinOp} {c : PyClass} {v : Val} {d : DType} (h : c ≠ .other) : Offers b (.scalar c v d) ⟨[], fun _ => v⟩ d
  | array {b : BinOp} {x : NDArray Val} {d : DType} : Offers b (.array x d) x d
  | list {c : RelOp} {x : NDArray Val} {d : DType} : Offers (.rel c) (.list x d) x d
  | tuple {c : RelOp} {x : NDArray Val} {d : DType} : Offers (.rel c) (.tuple x d) x d

/-- The larrys among the operands. -/
inductive Operand.IsLarry : Operand L → Prop
  | mk (y : Larry L) : IsLarry (.larry y)

/-- An array or a numpy scalar. -/
inductive Operand.OfNumpy : Operand L → Prop
  | scalar {t : NpType} {v : Val} {d : DType} : OfNumpy (.scalar (.np t) v d)
  | array {x : NDArray Val} {d : DType} : OfNumpy (.array x d)

/-- Counted from the last axis, some axis has two lengths that differ and neither of which is 1. -/
def Unmatched (s t : List Nat) : Prop :=
  ∃ k m n : Nat, s.reverse[k]? = some m ∧ t.reverse[k]? = some n ∧ m ≠ n ∧ m ≠ 1 ∧ n ≠ 1

/-- The elements of an array have its dtype, one of bool, int and float. -/
def NDArray.Numbers (x : NDArray Val) (d : DType) : Prop :=
  d.Number ∧ ∀ idx, InB x.shape idx → (x.get idx).hasDType d = true

/-- What comes of an operator when the shapes do not match: False for `==`, True for `!=`, ValueError for the others. -/
def BinOp.unmatched : BinOp → Res (Outcome L)
  | .rel .eq => .ok (.truth false)
  | .rel .ne => .ok (.truth true)
  | _ => .error .valueError

/-! ## Broadcasting -/

theorem bdim_error {m n : Nat} {e : PyErr} : bdim m n = .error e ↔ e = .valueError ∧ m ≠ n ∧ m ≠ 1 ∧ n ≠ 1 := by
  unfold bdim
  by_cases h1 : m = n
  · simp [h1]
  by_cases h2 : m = 1
  · simp only [if_neg h1, if_pos h2]; simp [h2]
  by_cases h3 : n = 1
  · simp only [if_neg h1, if_neg h2, if_pos h3]; simp [h3]
  simp [h1, h2, h3, eq_comm]

theorem mem_padded {s t : List Nat} {p : Nat × Nat} :
    p ∈ (List.replicate (max s.length t.length - s.length) 1 ++ s).zip (List.replicate (max s.length t.length - t.length) 1 ++ t) ↔
      ∃ k < max s.length t.length, p.1 = (s.reverse[k]?).getD 1 ∧ p.2 = (t.reverse[k]?).getD 1 := by
  have key : ∀ (u : List Nat) (K : Nat), u.length ≤ K → ∀ k < K,
      (List.replicate (K - u.length) 1 ++ u)[K - 1 - k]? = some ((u.reverse[k]?).getD 1) := by
    intro u K hK k hk
    by_cases h : k < u.length
    · rw [List.getElem?_append_right (by simp; omega), List.getElem?_reverse h]
      have : K - 1 - k - (List.replicate (K - u.length) 1).length = u.length - 1 - k := by simp; omega
      rw [this, List.getElem?_eq_getElem (by omega)]
      rfl
    · rw [List.getElem?_append_left (by simp; omega), List.getElem?_replicate,
        if_pos (by omega), List.getElem?_eq_none (by simp; omega)]
      rfl
  generalize hK : max s.length t.length = K
  have hs := key s K (by omega)
  have ht := key t K (by omega)
  rw [List.mem_iff_getElem?]
  constructor
  · rintro ⟨i, hi⟩
    obtain ⟨h1, h2⟩ := List.getElem?_zip_eq_some.mp hi
    have hl : i < K := by
      have := (List.getElem?_eq_some_iff.mp h1).1
      simp at this; omega
    have e : K - 1 - (K - 1 - i) = i := by omega
    have a := hs (K - 1 - i) (by omega)
    have b := ht (K - 1 - i) (by omega)
    rw [e] at a b
    exact ⟨K - 1 - i, by omega, Option.some.inj (h1.symm.trans a), Option.some.inj (h2.symm.trans b)⟩
  · rintro ⟨k, hk, h1, h2⟩
    exact ⟨K - 1 - k, List.getElem?_zip_eq_some.mpr ⟨by rw [h1]; exact hs k hk, by rw [h2]; exact ht k hk⟩⟩

theorem broadcast_error {s t : List Nat} {e : PyErr} : broadcastShape s t = .error e ↔ e = .valueError ∧ Unmatched s t := by
  have fwd : ∀ {e}, broadcastShape s t = .error e → e = .valueError ∧ Unmatched s t := by
    intro e h
    obtain ⟨p, hp, he⟩ := mapRes_error h
    obtain ⟨rfl, h1, h2, h3⟩ := bdim_error.mp he
    obtain ⟨k, hk, e1, e2⟩ := mem_padded.mp hp
    refine ⟨rfl, k, p.1, p.2, ?_, ?_, h1, h2, h3⟩
    · cases h : s.reverse[k]? with
      | none => rw [h] at e1; exact absurd e1 h2
      | some m => rw [h] at e1; exact congrArg some e1.symm
    · cases h : t.reverse[k]? with
      | none => rw [h] at e2; exact absurd e2 h3
      | some m => rw [h] at e2; exact congrArg some e2.symm
  refine ⟨fwd, ?_⟩
  rintro ⟨rfl, k, m, n, h1, h2, h3⟩
  have hk : k < max s.length t.length := by
    have := (List.getElem?_eq_some_iff.mp h1).1
    simp at this; omega
  have hp : (m, n) ∈ _ := mem_padded.mpr ⟨k, hk, by rw [h1]; rfl, by rw [h2]; rfl⟩
  obtain ⟨e', he'⟩ := mapRes_error_of (f := fun p : Nat × Nat => bdim p.1 p.2) hp (bdim_error.mpr ⟨rfl, h3⟩)
  have he' : broadcastShape s t = .error e' := he'
  rw [he', (fwd he').1]

/-- The shape stays only if the array fits. -/
theorem fits_of_broadcast {s t : List Nat} (h : broadcastShape s t = .ok s) : BFits s t := by
  have hm := mapRes_ok.mp h
  have hl := hm.length_eq
  have hlen : t.length ≤ s.length := by
    simp at hl; omega
  rw [show max s.length t.length = s.length from by omega, Nat.sub_self, List.replicate_zero, List.nil_append] at hm
  refine ⟨s.take (s.length - t.length), s.drop (s.length - t.length), (List.take_append_drop _ _).symm, ?_⟩
  rw [List.forall₂_iff_get]
  refine ⟨by simp; omega, fun i h1 h2 => ?_⟩
  rw [List.forall₂_iff_get] at hm
  have hi : s.length - t.length + i < s.length := by simp at h1; omega
  have := hm.2 (s.length - t.length + i) (by simp; omega) hi
  simp only [List.get_eq_getElem, List.getElem_zip, List.getElem_drop] at this ⊢
  rw [List.getElem_append_right (by simp)] at this
  simp only [List.length_replicate, Nat.add_sub_cancel_left] at this
  revert this
  generalize s[s.length - t.length + i] = m
  generalize t[i]'h2 = n
  unfold bdim
  by_cases a : m = n
  · exact fun _ => .inl a.symm
  by_cases b : m = 1
  · intro k
    rw [if_neg a, if_pos b] at k
    exact .inl (Except.ok.inj k)
  by_cases c : n = 1
  · exact fun _ => .inr c
  intro k
  rw [if_neg a, if_neg b, if_neg c] at k
  exact absurd k (by simp)

/-! ## The tests on the operand -/

theorem arrayOrScalar_of {b : BinOp} {o : Operand L} {x : NDArray Val} {d : DType} (hb : ∀ c, b ≠ .rel c) (h : o.Offers b x d) :
    o.arrayOrScalar = some (x, d) ∧ ∀ y, o ≠ .larry y := by
  cases h with
  | scalar h => exact ⟨by cases ‹PyClass› <;> first | rfl | exact absurd rfl h, by simp⟩
  | array => exact ⟨rfl, by simp⟩
  | list => exact absurd rfl (hb _)
  | tuple => exact absurd rfl (hb _)

theorem comparable_of {b : BinOp} {o : Operand L} {x : NDArray Val} {d : DType} (h : o.Offers b x d) : o.comparable = some (x, d) := by
  cases h with
  | scalar h => cases ‹PyClass› <;> first | rfl | exact absurd rfl h
  | array => rfl
  | list => rfl
  | tuple => rfl

theorem offers_not_larry {b : BinOp} {o : Operand L} {x : NDArray Val} {d : DType} (h : o.Offers b x d) (y : Larry L) : o ≠ .larry y := by
  cases h <;> simp

theorem arrayOrScalar_none {b : BinOp} {o : Operand L} (h : ∀ x d, ¬ o.Offers b x d) : o.arrayOrScalar = none := by
  cases o with
  | scalar c v d =>
    by_cases hc : c = .other
    · rw [hc]; rfl
    · exact absurd (.scalar hc) (h _ _)
  | array x d => exact absurd .array (h x d)
  | _ => rfl

theorem comparable_none {c : RelOp} {o : Operand L} (h : ∀ x d, ¬ o.Offers (.rel c) x d) : o.comparable = none := by
  cases o with
  | list x d => exact absurd .list (h x d)
  | tuple x d => exact absurd .tuple (h x d)
  | _ => exact arrayOrScalar_none h

section methods
variable [LinearOrder L]

theorem arithMethod_of {py3 : Bool} {op : ArithOp} (y : Larry L) {o : Operand L} (hl : ∀ z, o ≠ .larry z) :
    y.arithMethod py3 op o = match o.arrayOrScalar with
      | some p => y.opRight py3 op p.1 p.2
      | none => .error .typeError := by
  cases o with
  | larry z => exact absurd rfl (hl z)
  | _ => rfl

omit [LinearOrder L] in
theorem rdivMethod_of {py3 : Bool} {op : ArithOp} (y : Larry L) {o : Operand L} (hl : ∀ z, o ≠ .larry z) :
    y.rdivMethod py3 op o = match o.arrayOrScalar with
      | some p => y.rdiv (op.uf py3) p.1 p.2
      | none => .error .typeError := by
  cases o with
  | larry z => exact absurd rfl (hl z)
  | _ => rfl

theorem logicMethod_of {p : LogicOp} (y : Larry L) {o : Operand L} (hl : ∀ z, o ≠ .larry z) :
    y.logicMethod p o = match o.arrayOrScalar with
      | some q => y.binopArray p.uf q.1 q.2
      | none => .error .typeError := by
  cases o with
  | larry z => exact absurd rfl (hl z)
  | _ => rfl

theorem rarithMethod_of {py3 : Bool} {op : ArithOp} (y : Larry L) {o : Operand L} (hl : ∀ z, o ≠ .larry z) :
    y.rarithMethod py3 op o = match o.arrayOrScalar with
      | some p => y.opLeft py3 op p.1 p.2
      | none => .error .typeError := by
  cases op <;> simp only [rarithMethod, rsubMethod, arithMethod_of y hl, rdivMethod_of y hl] <;>
    cases o.arrayOrScalar <;> rfl

theorem run_right (py3 : Bool) (b : BinOp) (y : Larry L) (o : Operand L) : b.run py3 (.larry y) o = b.method py3 y o := rfl

theorem run_left (py3 : Bool) (b : BinOp) (y : Larry L) {o : Operand L} (hl : ∀ z, o ≠ .larry z) :
    b.run py3 o (.larry y) = b.rmethod py3 y o := by
  cases o with
  | larry z => exact absurd rfl (hl z)
  | _ => rfl

/-- What the method of the left operand does with numbers. -/
theorem method_offers {py3 : Bool} {b : BinOp} (y : Larry L) {o : Operand L} {x : NDArray Val} {d : DType} (h : o.Offers b x d) :
    b.method py3 y o = match b with
      | .rel c => y.compareArray c x d
      | b => (y.binopArray (b.uf py3) x d).map .larry := by
  cases b with
  | arith op =>
    obtain ⟨h1, h2⟩ := arrayOrScalar_of (by simp) h
    simp only [BinOp.method, arithMethod_of y h2, h1]
    rfl
  | logic p =>
    obtain ⟨h1, h2⟩ := arrayOrScalar_of (by simp) h
    simp only [BinOp.method, logicMethod_of y h2, h1]
    rfl
  | rel c => simp only [BinOp.method, compareMethod, comparable_of h]

/-- What the reflected method does with numbers. -/
theorem rmethod_offers {py3 : Bool} {b : BinOp} (y : Larry L) {o : Operand L} {x : NDArray Val} {d : DType} (h : o.Offers b x d) :
    b.rmethod py3 y o = match b with
      | .rel c => y.compareArray c.reflected x d
      | .logic p => (y.binopArray p.uf x d).map .larry
      | .arith op => (y.opLeft py3 op x d).map .larry := by
  cases b with
  | arith op =>
    obtain ⟨h1, h2⟩ := arrayOrScalar_of (by simp) h
    simp only [BinOp.rmethod, rarithMethod_of y h2, h1]
  | logic p =>
    obtain ⟨h1, h2⟩ := arrayOrScalar_of (by simp) h
    simp only [BinOp.rmethod, logicMethod_of y h2, h1]
  | rel c => simp only [BinOp.rmethod, compareMethod, comparable_of h]

/-- Any operator with an array in numpy. -/
theorem array_spec' (py3 : Bool) (b : BinOp) {y : Larry L} (hy : y.Valid) (ht : y.Typed) (hd : y.dtype.Number)
    {x : NDArray Val} {d : DType} (hx : x.Numbers d) (hf : BFits y.shape x.shape) :
    ∃ z, y.binopArray (b.uf py3) x d = .ok z ∧ z.Valid ∧ z.Typed ∧ z.label = y.label ∧ b.Dtype (!py3) y.dtype d z.dtype ∧
      ∀ names w, z.get names = .ok w ↔ ∃ idx idx', At y.label idx names ∧ BReads x.shape idx idx' ∧
        w.hasDType z.dtype = true ∧ ∃ g h s, IsNumber (x.get idx') g ∧ IsNumber (y.x.get idx) h ∧ IsNumber w s ∧
          b.Means (!py3) y.dtype d h g s := by
  obtain ⟨r, r1, r2, r3⟩ := b.dt py3 hd hx.1
  obtain ⟨k1, k2, k3⟩ := paired_spec hy ht hd hx.2 hx.1 hf r2 (F := fun o v => (b.uf py3).f v o)
    (M := fun g h s => b.Means (!py3) y.dtype d h g s) (fun a c => b.unique a c)
    (fun o v h h' => b.means py3 hd hx.1 r1 h' h)
  refine ⟨_, ?_, k1, k2, rfl, r3, k3⟩
  have hf : BFits y.x.shape x.shape := hf
  simp [binopArray, npBinop, r1, broadcastShape_fits hf, paired]

/-! ## C113 -/

/-- C113. `lar op o` for numbers that fit: a larry with the same labels; what is read with any labels is the value read before, op
the element numpy pairs with it. -/
theorem C113_right (py3 : Bool) (b : BinOp) {y : Larry L} (hy : y.Valid) (ht : y.Typed) (hd : y.dtype.Number) {o : Operand L}
    {x : NDArray Val} {d : DType} (ho : o.Offers b x d) (hx : x.Numbers d) (hf : BFits y.shape x.shape) :
    ∃ z, b.run py3 (.larry y) o = .ok (.larry z) ∧ z.Valid ∧ z.Typed ∧ z.label = y.label ∧ b.Dtype (!py3) y.dtype d z.dtype ∧
      ∀ names w, z.get names = .ok w ↔ ∃ idx idx', At y.label idx names ∧ BReads x.shape idx idx' ∧
        w.hasDType z.dtype = true ∧ ∃ g h s, IsNumber (x.get idx') g ∧ IsNumber (y.x.get idx) h ∧ IsNumber w s ∧
          b.Means (!py3) y.dtype d h g s := by
  obtain ⟨z, h1, h2⟩ := array_spec' py3 b hy ht hd hx hf
  refine ⟨z, ?_, h2⟩
  rw [run_right, method_offers y ho]
  cases b with
  | rel c =>
    have h1 : y.binopArray c.uf x d = .ok z := h1
    simp only [compareArray, h1]
  | arith op => simp only [h1]; rfl
  | logic p => simp only [h1]; rfl

/-- C113. `o op lar`: the same with the operands in the order written.  Left out are a bool minus a bool larry (C74) and an array
or numpy scalar on the left of a comparison. -/
theorem C113_left (py3 : Bool) (b : BinOp) {y : Larry L} (hy : y.Valid) (ht : y.Typed) (hd : y.dtype.Number) {o : Operand L}
    {x : NDArray Val} {d : DType} (ho : o.Offers b x d) (hx : x.Numbers d) (hf : BFits y.shape x.shape)
    (_hn : ∀ c, b = .rel c → ¬ o.OfNumpy) (hb : b = .arith .sub → ¬ (y.dtype = .bool ∧ d = .bool)) :
    ∃ z, b.run py3 o (.larry y) = .ok (.larry z) ∧ z.Valid ∧ z.Typed ∧ z.label = y.label ∧ b.Dtype (!py3) d y.dtype z.dtype ∧
      ∀ names w, z.get names = .ok w ↔ ∃ idx idx', At y.label idx names ∧ BReads x.shape idx idx' ∧
        w.hasDType z.dtype = true ∧ ∃ g h s, IsNumber (x.get idx') g ∧ IsNumber (y.x.get idx) h ∧ IsNumber w s ∧
          b.Means (!py3) d y.dtype g h s := by
  rw [run_left py3 b y (offers_not_larry ho), rmethod_offers y ho]
  cases b with
  | arith op =>
    obtain ⟨z, h1, h2⟩ := C74_left py3 op hy ht hd hx.2 hx.1 hf (fun e => hb (by rw [e]))
    exact ⟨z, by simp only [h1]; rfl, h2⟩
  | logic p =>
    obtain ⟨z, h1, h2, h3, h4, h5, h6⟩ := array_spec' py3 (.logic p) hy ht hd hx hf
    have h1 : y.binopArray p.uf x d = .ok z := h1
    refine ⟨z, by simp only [h1]; rfl, h2, h3, h4, h5, fun names w => ?_⟩
    rw [h6]
    have : ∀ g h s, (BinOp.logic p).Means (!py3) y.dtype d h g s ↔ (BinOp.logic p).Means (!py3) d y.dtype g h s := by
      intro g h s
      simp only [BinOp.Means, BinOp.logic_swap p h g]
    simp only [this]
  | rel c =>
    obtain ⟨z, h1, h2, h3, h4, h5, h6⟩ := array_spec' py3 (.rel c.reflected) hy ht hd hx hf
    have h1 : y.binopArray c.reflected.uf x d = .ok z := h1
    refine ⟨z, by simp only [compareArray, h1], h2, h3, h4, h5, fun names w => ?_⟩
    rw [h6]
    simp only [BinOp.Means, BinOp.reflected_asks]

omit [LinearOrder L] in
theorem map_error {α β : Type _} {f : α → β} {r : Res α} {e : PyErr} (h : r = .error e) : r.map f = .error e := by rw [h]; rfl

/-- C113. Every other object raises TypeError, on either side: lists and tuples except in comparisons, None always, even in
`lar == None`. -/
theorem C113_refused (py3 : Bool) (b : BinOp) (y : Larry L) {o : Operand L} (hl : ¬ o.IsLarry) (ho : ∀ x d, ¬ o.Offers b x d) :
    b.run py3 (.larry y) o = .error .typeError ∧ b.run py3 o (.larry y) = .error .typeError := by
  have hl : ∀ z, o ≠ .larry z := fun z e => hl (e ▸ .mk z)
  rw [run_right, run_left py3 b y hl]
  have cmp : ∀ c c', (∀ x d, ¬ o.Offers (.rel c) x d) → y.compareMethod c' o = .error .typeError := by
    intro c c' h
    simp only [compareMethod, comparable_none h]
  cases b with
  | arith op =>
    have h := arrayOrScalar_none ho
    exact ⟨map_error (by rw [arithMethod_of y hl, h]), map_error (by rw [rarithMethod_of y hl, h])⟩
  | logic p =>
    have h := arrayOrScalar_none ho
    exact ⟨map_error (by rw [logicMethod_of y hl, h]), map_error (by rw [logicMethod_of y hl, h])⟩
  | rel c => exact ⟨cmp c _ ho, cmp c _ ho⟩

omit [LinearOrder L] in
theorem binopArray_error (py3 : Bool) (b : BinOp) {y : Larry L} (hd : y.dtype.Number) {x : NDArray Val} {d : DType} (hod : d.Number)
    {e : PyErr} : y.binopArray (b.uf py3) x d = .error e ↔ e = .valueError ∧ Unmatched y.shape x.shape := by
  obtain ⟨r, r1, -, -⟩ := b.dt py3 hd hod
  rw [← broadcast_error]
  simp only [binopArray, npBinop, r1, Larry.shape]
  cases broadcastShape y.x.shape x.shape <;> simp

omit [LinearOrder L] in
theorem unmatched_comm {s t : List Nat} (h : Unmatched s t) : Unmatched t s := by
  obtain ⟨k, m, n, h1, h2, h3, h4, h5⟩ := h
  exact ⟨k, n, m, h2, h1, Ne.symm h3, h5, h4⟩

omit [LinearOrder L] in
theorem opLeft_error (py3 : Bool) (op : ArithOp) {y : Larry L} (hd : y.dtype.Number) {x : NDArray Val} {d : DType} (hod : d.Number)
    (hu : Unmatched y.shape x.shape) : y.opLeft py3 op x d = .error .valueError := by
  have right : ∀ op', y.binopArray (ArithOp.uf py3 op') x d = .error .valueError := fun op' =>
    (binopArray_error py3 (.arith op') hd hod).mpr ⟨rfl, hu⟩
  have div : ∀ op', y.rdiv (ArithOp.uf py3 op') x d = .error .valueError := by
    intro op'
    obtain ⟨r, r1, -, -⟩ := uf_dt py3 op' hod hd
    have hu : Unmatched x.shape y.x.shape := unmatched_comm hu
    simp only [rdiv, npBinop, r1, broadcast_error.mpr ⟨rfl, hu⟩]
  cases op with
  | add => exact right .add
  | mul => exact right .mul
  | sub =>
    have : y.binopArray Arith.npSubtract x d = .error .valueError := right .sub
    simp only [opLeft, rsub, this]
  | div => exact div .div
  | truediv => exact div .truediv
  | floordiv => exact div .floordiv

/-- C113. Numbers whose shape does not match raise ValueError on either side, but not in `==` and `!=`: these return the plain
bools False and True. -/
theorem C113_unmatched (py3 : Bool) (b : BinOp) {y : Larry L} (hd : y.dtype.Number) {o : Operand L} {x : NDArray Val} {d : DType}
    (ho : o.Offers b x d) (hod : d.Number) (hu : Unmatched y.shape x.shape) :
    b.run py3 (.larry y) o = b.unmatched ∧ ((∀ c, b = .rel c → ¬ o.OfNumpy) → b.run py3 o (.larry y) = b.unmatched) := by
  have right := fun b => (binopArray_error py3 b hd hod).mpr ⟨rfl, hu⟩
  have cmp : ∀ c : RelOp, y.binopArray c.uf x d = .error .valueError := fun c => right (.rel c)
  constructor
  · rw [run_right, method_offers y ho]
    cases b with
    | rel c => simp only [compareArray, cmp]; cases c <;> rfl
    | arith op => simp only [right]; rfl
    | logic p => simp only [right]; rfl
  · intro _
    rw [run_left py3 b y (offers_not_larry ho), rmethod_offers y ho]
    cases b with
    | rel c => simp only [compareArray, cmp]; cases c <;> rfl
    | arith op => simp only [opLeft_error py3 op hd hod hu]; rfl
    | logic p =>
      have : y.binopArray p.uf x d = .error .valueError := right (.logic p)
      simp only [this]; rfl

/-- C113. In all other cases `lar op o` is a larry, and it is well formed exactly if the numbers fit into its shape. -/
theorem C113_well_formed (py3 : Bool) (b : BinOp) {y : Larry L} (hy : y.Valid) (ht : y.Typed) (hd : y.dtype.Number) {o : Operand L}
    {x : NDArray Val} {d : DType} (ho : o.Offers b x d) (hx : x.Numbers d) (hu : ¬ Unmatched y.shape x.shape) :
    ∃ z, b.run py3 (.larry y) o = .ok (.larry z) ∧ z.label = y.label ∧ (z.Valid ↔ BFits y.shape x.shape) := by
  obtain ⟨r, r1, -, -⟩ := b.dt py3 hd hx.1
  cases hs : broadcastShape y.x.shape x.shape with
  | error e => exact absurd (broadcast_error.mp hs).2 hu
  | ok s =>
    have h1 : y.binopArray (b.uf py3) x d = .ok ⟨⟨s, fun i => (b.uf py3).f (y.x.bget i) (x.bget i)⟩, r, y.label⟩ := by
      simp only [binopArray, npBinop, r1, hs]
    refine ⟨⟨⟨s, fun i => (b.uf py3).f (y.x.bget i) (x.bget i)⟩, r, y.label⟩, ?_, rfl, ?_, ?_⟩
    · rw [run_right, method_offers y ho]
      cases b with
      | rel c =>
        have h1 : y.binopArray c.uf x d = _ := h1
        simp only [compareArray, h1]
      | arith op => simp only [h1]; rfl
      | logic p => simp only [h1]; rfl
    · intro hz
      have e : s = y.x.shape := hz.shape_eq.trans hy.shape_eq.symm
      rw [e] at hs
      exact fits_of_broadcast hs
    · intro hf
      obtain ⟨z, k1, k2, -⟩ := array_spec' py3 b hy ht hd hx hf
      rw [h1] at k1
      exact Except.ok.inj k1 ▸ k2

omit [LinearOrder L] in
theorem elem_neg_error {y : Larry L} {e : PyErr} (h : y.elem .neg = .error e) : e = .typeError := by
  simp only [elem] at h
  by_cases k : y.dtype.isNumeric = false
  · rw [if_pos k] at h; exact (Except.error.inj h).symm
  · rw [if_neg k] at h; exact absurd h (by simp)

omit [LinearOrder L] in
theorem npBinop_error (py3 : Bool) (b : BinOp) {x x' : NDArray Val} {d d' : DType} {e : PyErr}
    (h : npBinop (b.uf py3) x d x' d' = .error e) : e = .typeError ∨ e = .valueError := by
  simp only [npBinop] at h
  have dt : ∀ {e}, (b.uf py3).dt d d' = .error e → e = .typeError := by
    intro e h
    have arith : ∀ db di, Arith.loopDt db di d d' = .error e → e = .typeError := by
      intro db di h
      unfold Arith.loopDt at h
      by_cases k : d.isNumeric = false ∨ d'.isNumeric = false
      · rw [if_pos k] at h; exact (Except.error.inj h).symm
      · rw [if_neg k] at h
        split at h
        · simp at h
        · split at h <;> simp at h
    have truth : truthDt d d' = .error e → e = .typeError := by
      intro h
      unfold truthDt at h
      by_cases k : d.isNumeric = false ∨ d'.isNumeric = false
      · rw [if_pos k] at h; exact (Except.error.inj h).symm
      · rw [if_neg k] at h; simp at h
    cases b with
    | arith op => cases op <;> cases py3 <;> exact arith _ _ h
    | logic p => cases p <;> exact truth h
    | rel c => exact truth h
  cases h1 : (b.uf py3).dt d d' with
  | error e' =>
    rw [h1] at h
    exact .inl (Except.error.inj h ▸ dt h1)
  | ok r =>
    rw [h1] at h
    cases h2 : broadcastShape x.shape x'.shape with
    | error e' =>
      rw [h2] at h
      exact .inr (Except.error.inj h ▸ (broadcast_error.mp h2).1)
    | ok s => rw [h2] at h; exact absurd h (by simp)

omit [LinearOrder L] in
theorem binopArray_error' (py3 : Bool) (b : BinOp) {y : Larry L} {x : NDArray Val} {d : DType} {e : PyErr}
    (h : y.binopArray (b.uf py3) x d = .error e) : e = .typeError ∨ e = .valueError := by
  simp only [binopArray] at h
  cases h1 : npBinop (b.uf py3) y.x y.dtype x d with
  | error e' => rw [h1] at h; exact Except.error.inj h ▸ npBinop_error py3 b h1
  | ok p => rw [h1] at h; exact absurd h (by simp)

omit [LinearOrder L] in
theorem opLeft_error' (py3 : Bool) (op : ArithOp) {y : Larry L} {x : NDArray Val} {d : DType} {e : PyErr}
    (h : y.opLeft py3 op x d = .error e) : e = .typeError ∨ e = .valueError := by
  have div : ∀ op', y.rdiv (ArithOp.uf py3 op') x d = .error e → e = .typeError ∨ e = .valueError := by
    intro op' h
    simp only [rdiv] at h
    cases h1 : npBinop (ArithOp.uf py3 op') x d y.x y.dtype with
    | error e' => rw [h1] at h; exact Except.error.inj h ▸ npBinop_error py3 (.arith op') h1
    | ok p => rw [h1] at h; exact absurd h (by simp)
  cases op with
  | add => exact binopArray_error' py3 (.arith .add) h
  | mul => exact binopArray_error' py3 (.arith .mul) h
  | sub =>
    simp only [opLeft, rsub] at h
    cases h1 : y.binopArray Arith.npSubtract x d with
    | error e' => rw [h1] at h; exact Except.error.inj h ▸ binopArray_error' py3 (.arith .sub) h1
    | ok z => rw [h1] at h; exact .inl (elem_neg_error h)
  | div => exact div .div h
  | truediv => exact div .truediv h
  | floordiv => exact div .floordiv h

omit [LinearOrder L] in
theorem compareArray_error {c : RelOp} {y : Larry L} {x : NDArray Val} {d : DType} {e : PyErr}
    (h : y.compareArray c x d = .error e) : e = .typeError ∨ e = .valueError := by
  simp only [compareArray] at h
  cases h1 : y.binopArray c.uf x d with
  | ok z => rw [h1] at h; exact absurd h (by simp)
  | error e' =>
    rw [h1] at h
    have := binopArray_error' false (.rel c) h1
    cases c <;> first | exact Except.error.inj h ▸ this | exact nomatch h

omit [LinearOrder L] in
theorem of_map_error {α β : Type _} {f : α → β} {r : Res α} {e : PyErr} (h : r.map f = .error e) : r = .error e := by
  cases r with
  | error e' => exact congrArg _ (Except.error.inj h)
  | ok a => exact absurd h (by simp [Except.map])

/-- The exceptions of an operator between a larry and an object that is no larry. -/
theorem run_error (py3 : Bool) (b : BinOp) {y : Larry L} {o : Operand L} (hl : ¬ o.IsLarry) {e : PyErr}
    (h : b.run py3 (.larry y) o = .error e ∨ b.run py3 o (.larry y) = .error e) : e = .typeError ∨ e = .valueError := by
  by_cases ho : ∃ x d, o.Offers b x d
  · obtain ⟨x, d, ho⟩ := ho
    rw [run_right, run_left py3 b y (offers_not_larry ho), method_offers y ho, rmethod_offers y ho] at h
    cases b with
    | rel c => exact h.elim compareArray_error compareArray_error
    | logic p =>
      exact h.elim (fun h => binopArray_error' py3 (.logic p) (of_map_error h))
        (fun h => binopArray_error' py3 (.logic p) (of_map_error h))
    | arith op =>
      exact h.elim (fun h => binopArray_error' py3 (.arith op) (of_map_error h)) (fun h => opLeft_error' py3 op (of_map_error h))
  · obtain ⟨h1, h2⟩ := C113_refused py3 b y hl (fun x d k => ho ⟨x, d, k⟩)
    rw [h1, h2] at h
    exact .inl (h.elim (fun h => (Except.error.inj h).symm) (fun h => (Except.error.inj h).symm))

/-- Two larrys. -/
theorem run_larrys (py3 : Bool) (b : BinOp) (x y : Larry L) : b.run py3 (.larry x) (.larry y) = (b.larrys py3 x y).map .larry := by
  cases b <;> rfl

/-- C113. The exceptions: IndexError for larrys of different numbers of axes, TypeError for objects that are not taken (or data
that are no numbers), ValueError for shapes that do not match.  The RuntimeError in `__rdiv__`, `__rtruediv__` and
`__rfloordiv__` is never met. -/
theorem C113_exceptions (py3 : Bool) (b : BinOp) {y : Larry L} (hy : y.Valid) (ht : y.Typed) (hd : y.dtype.Number) {o : Operand L}
    (hl : ∀ z, o = .larry z → z.Valid ∧ z.Typed ∧ z.dtype.Number) {e : PyErr}
    (h : b.run py3 (.larry y) o = .error e ∨ (∀ c, b = .rel c → ¬ o.OfNumpy) ∧ b.run py3 o (.larry y) = .error e) :
    (∃ z, o = .larry z ∧ z.ndim ≠ y.ndim ∧ e = .indexError) ∨ ¬ o.IsLarry ∧ (e = .typeError ∨ e = .valueError) := by
  replace h : b.run py3 (.larry y) o = .error e ∨ b.run py3 o (.larry y) = .error e := h.imp_right (·.2)
  by_cases ho : o.IsLarry
  · obtain ⟨z⟩ := ho
    obtain ⟨hz, tz, hdz⟩ := hl z rfl
    by_cases hn : y.ndim = z.ndim
    · obtain ⟨r, h1, -⟩ := b.larrys_spec py3 hy hz ht tz hd hdz hn
      obtain ⟨r', h2, -⟩ := b.larrys_spec py3 hz hy tz ht hdz hd hn.symm
      rw [run_larrys, run_larrys, h1, h2] at h
      rcases h with h | h <;> exact absurd h (by simp [Except.map])
    · have key : ∀ {u v : Larry L}, u.Valid → v.Valid → u.ndim ≠ v.ndim → b.run py3 (.larry u) (.larry v) = .error .indexError := by
        intro u v hu hv huv
        rw [run_larrys]
        apply map_error
        have hne : u.label ≠ v.label := by
          intro e
          have e1 : u.x.shape.length = u.label.length := by rw [hu.shape_eq]; simp
          have e2 : v.x.shape.length = v.label.length := by rw [hv.shape_eq]; simp
          exact huv (show u.x.shape.length = v.x.shape.length by rw [e1, e2, e])
        have ha : Larry.align u v = .error .indexError := if_pos huv
        cases b with
        | rel c => exact C11_compare_ndim huv _
        | arith op => simp only [BinOp.larrys, binop, if_neg hne, ha]
        | logic p => simp only [BinOp.larrys, binop, if_neg hne, ha]
      refine .inl ⟨z, rfl, Ne.symm hn, ?_⟩
      rcases h with h | h
      · rw [key hy hz hn] at h; exact (Except.error.inj h).symm
      · rw [key hz hy (Ne.symm hn)] at h; exact (Except.error.inj h).symm
  · exact .inr ⟨ho, run_error py3 b ho h⟩

end methods

/-! ## Cases that meet the hypotheses -/

/-- `larry([7, -7, 3]) < [9, 0, 1]` and `[9, 0, 1] > lar`. -/
def exList : Operand Nat := .list ⟨[3], fun i => .int (([9, 0, 1] : List Int).getD (i.headD 0) 0)⟩ .int

example : ∃ z, (BinOp.rel .lt).run true (.larry exI) exList = .ok (.larry z) ∧ z.Valid ∧ z.label = exI.label := by
  obtain ⟨z, h1, h2, -, h4, -⟩ := C113_right true (.rel .lt) exI_valid exI_typed (.inr (.inl rfl)) (o := exList) .list
    ⟨.inr (.inl rfl), fun _ _ => rfl⟩ ⟨[], [3], rfl, by simp⟩
  exact ⟨z, h1, h2, h4⟩

example : ∃ z, (BinOp.rel .gt).run true exList (.larry exI) = .ok (.larry z) ∧ z.Valid ∧ z.label = exI.label := by
  obtain ⟨z, h1, h2, -, h4, -⟩ := C113_left true (.rel .gt) exI_valid exI_typed (.inr (.inl rfl)) (o := exList) .list
    ⟨.inr (.inl rfl), fun _ _ => rfl⟩ ⟨[], [3], rfl, by simp⟩ (fun _ _ h => nomatch h) (fun h => nomatch h)
  exact ⟨z, h1, h2, h4⟩

example : (BinOp.arith .add).run true (.larry exI) exList = .error .typeError ∧
    (BinOp.rel .eq).run true (.larry exI) .other = .error .typeError :=
  ⟨(C113_refused true (.arith .add) exI (o := exList) (fun h => nomatch h) (fun _ _ h => nomatch h)).1,
    (C113_refused true (.rel .eq) exI (o := .other) (fun h => nomatch h) (fun _ _ h => nomatch h)).1⟩

example : (BinOp.rel .eq).run true (.larry exI) (.array ⟨[2], fun _ => .int 7⟩ .int) = .ok (.truth false) :=
  (C113_unmatched true (.rel .eq) (y := exI) (.inr (.inl rfl)) .array (.inr (.inl rfl)) ⟨0, 3, 2, rfl, rfl, by decide⟩).1

/-- An array of a larger shape: a larry that is not well formed. -/
example : ∃ z, (BinOp.arith .add).run true (.larry exI) (.array ⟨[2, 3], fun _ => .int 7⟩ .int) = .ok (.larry z) ∧ ¬ z.Valid := by
  have hu : ¬ Unmatched exI.shape [2, 3] := by
    rintro ⟨k, m, n, h1, h2, h3, h4, h5⟩
    match k, h1, h2 with
    | 0, h1, h2 =>
      have e1 : 3 = m := Option.some.inj h1
      have e2 : 3 = n := Option.some.inj h2
      exact h3 (e1.symm.trans e2)
    | k + 1, h1, _ => exact absurd h1 (by simp [exI, Larry.shape])
  obtain ⟨z, h1, -, h3⟩ := C113_well_formed true (.arith .add) exI_valid exI_typed (.inr (.inl rfl))
    (o := .array ⟨[2, 3], fun _ => .int 7⟩ .int) .array ⟨.inr (.inl rfl), fun _ _ => rfl⟩ hu
  refine ⟨z, h1, fun h => ?_⟩
  obtain ⟨pre, post, e, k⟩ := h3.mp h
  have := k.length_eq
  have e := congrArg List.length e
  simp [exI, Larry.shape] at e this
  omega

example (z : Larry Nat) (hz : z.Valid ∧ z.Typed ∧ z.dtype.Number) :
    (BinOp.arith .div).run false (.larry z) (.larry exI) ≠ .error .runtimeError := fun h => by
  rcases C113_exceptions false (.arith .div) exI_valid exI_typed (.inr (.inl rfl)) (o := .larry z)
    (fun _ e => Operand.larry.inj e ▸ hz) (.inr ⟨fun _ k => (nomatch k), h⟩) with ⟨_, _, _, k⟩ | ⟨_, k | k⟩ <;> cases k

end La
