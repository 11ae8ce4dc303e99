import Verif.Flt

/-!
# Specification vocabulary for numbers

Order and equality of floats, written out separately from the comparison functions of the model.
-/

namespace La

/-- Order of the extended numbers; nothing compares to NaN. -/
def LtX : Flt → Flt → Prop
  | .fin p, .fin q => p < q
  | .ninf, .fin _ => True
  | .ninf, .pinf => True
  | .fin _, .pinf => True
  | _, _ => False

/-- Equality of numbers; NaN equals nothing. -/
def EqX (a b : Flt) : Prop := a = b ∧ a ≠ .nan

/-- `a <= b`; nothing compares to NaN. -/
def LeF : Flt → Flt → Prop
  | .fin a, .fin b => a ≤ b
  | .ninf, .fin _ => True
  | .ninf, .pinf => True
  | .ninf, .ninf => True
  | .fin _, .pinf => True
  | .pinf, .pinf => True
  | _, _ => False

/-- `i` is `q` without what comes after the point. -/
def Truncates (q : ℚ) (i : Int) : Prop := (0 ≤ q → (i : ℚ) ≤ q ∧ q < i + 1) ∧ (q < 0 → (i : ℚ) - 1 < q ∧ q ≤ i)

/-- The finite numbers of a line. -/
def finites (xs : List Flt) : List ℚ := xs.filterMap (fun f => match f with | .fin q => some q | _ => none)

/-- A line without infinities. -/
def NoInf (xs : List Flt) : Prop := ∀ x ∈ xs, x ≠ .pinf ∧ x ≠ .ninf

theorem lt_iff (a b : Flt) : a.lt b = true ↔ LtX a b := by
  cases a <;> cases b <;> simp [Flt.lt, LtX]

theorem eq_iff (a b : Flt) : a.eq b = true ↔ EqX a b := by
  cases a <;> cases b <;> simp [Flt.eq, EqX]

instance (a b : Flt) : Decidable (LtX a b) := decidable_of_iff _ (lt_iff a b)
instance (a b : Flt) : Decidable (EqX a b) := decidable_of_iff _ (eq_iff a b)

theorem LtX.trans {a b c : Flt} (h : LtX a b) (h' : LtX b c) : LtX a c := by
  cases a <;> cases b <;> cases c <;> simp_all [LtX]
  exact lt_trans h h'

theorem LtX.irrefl (a : Flt) : ¬ LtX a a := by cases a <;> simp [LtX]

theorem LtX.total {a b : Flt} (ha : a ≠ .nan) (hb : b ≠ .nan) : LtX a b ∨ a = b ∨ LtX b a := by
  cases a <;> cases b <;> simp_all [LtX]
  exact lt_trichotomy _ _

theorem LtX.ne_nan {a b : Flt} (h : LtX a b) : a ≠ .nan ∧ b ≠ .nan := by
  cases a <;> cases b <;> simp_all [LtX]

theorem finites_cons_fin (q : ℚ) (xs : List Flt) : finites (.fin q :: xs) = q :: finites xs := by
  simp [finites]
theorem finites_cons_nan (xs : List Flt) : finites (.nan :: xs) = finites xs := by simp [finites]

end La
