import Verif.Arith
import Verif.Props.Elementwise
import Verif.Param

/-!
# C74: operators with a number on either side
-/

namespace La
open Arith
variable {L : Type _}

/-! ## Specification -/

/-- `s` is `g + h`. -/
inductive IsPlus : Flt → Flt → Flt → Prop
  | fin (a b : ℚ) : IsPlus (.fin a) (.fin b) (.fin (a + b))
  | nanl (h : Flt) : IsPlus .nan h .nan
  | nanr (g : Flt) : IsPlus g .nan .nan
  | clash : IsPlus .pinf .ninf .nan
  | clash' : IsPlus .ninf .pinf .nan
  | pinfl {h : Flt} (h1 : h ≠ .nan) (h2 : h ≠ .ninf) : IsPlus .pinf h .pinf
  | pinfr {g : Flt} (h1 : g ≠ .nan) (h2 : g ≠ .ninf) : IsPlus g .pinf .pinf
  | ninfl {h : Flt} (h1 : h ≠ .nan) (h2 : h ≠ .pinf) : IsPlus .ninf h .ninf
  | ninfr {g : Flt} (h1 : g ≠ .nan) (h2 : g ≠ .pinf) : IsPlus g .ninf .ninf

/-- The sign of a number: -1, 0 or 1; NaN has none. -/
inductive HasSign : Flt → Int → Prop
  | pos {g : Flt} (h : g.Pos) : HasSign g 1
  | neg {g : Flt} (h : g.Negative) : HasSign g (-1)
  | zero : HasSign (.fin 0) 0

/-- An infinity. -/
def Flt.Infinite (g : Flt) : Prop := g = .pinf ∨ g = .ninf

/-- `s` is `g * h`: signs multiply, an infinity times zero is NaN. -/
inductive IsTimes : Flt → Flt → Flt → Prop
  | fin (a b : ℚ) : IsTimes (.fin a) (.fin b) (.fin (a * b))
  | nanl (h : Flt) : IsTimes .nan h .nan
  | nanr (g : Flt) : IsTimes g .nan .nan
  | inf {g h s : Flt} {m n : Int} (hi : g.Infinite ∨ h.Infinite) (hg : HasSign g m) (hh : HasSign h n)
      (hs : s.Infinite) (hp : HasSign s (m * n)) : IsTimes g h s
  | zero {g h : Flt} {m n : Int} (hi : g.Infinite ∨ h.Infinite) (hg : HasSign g m) (hh : HasSign h n)
      (hz : m * n = 0) : IsTimes g h .nan

/-- `s` is `g / h`: dividing by zero gives an infinity with the sign of `g` (there is one zero), `0/0` and `inf/inf` NaN. -/
inductive IsOver : Flt → Flt → Flt → Prop
  | fin {a b c : ℚ} (hb : b ≠ 0) (hc : c * b = a) : IsOver (.fin a) (.fin b) (.fin c)
  | nanl (h : Flt) : IsOver .nan h .nan
  | nanr (g : Flt) : IsOver g .nan .nan
  | byInf {a : ℚ} {h : Flt} (hi : h.Infinite) : IsOver (.fin a) h (.fin 0)
  | infs {g h : Flt} (hg : g.Infinite) (hh : h.Infinite) : IsOver g h .nan
  | zeros : IsOver (.fin 0) (.fin 0) .nan
  | byZero {g s : Flt} {m : Int} (hm : m ≠ 0) (hg : HasSign g m) (hs : s.Infinite) (hp : HasSign s m) : IsOver g (.fin 0) s
  | inf {g s : Flt} {b : ℚ} {m n : Int} (hi : g.Infinite) (hg : HasSign g m) (hb : b ≠ 0) (hh : HasSign (.fin b) n)
      (hs : s.Infinite) (hp : HasSign s (m * n)) : IsOver g (.fin b) s

/-- `s` is the largest whole number not above `g`; NaN and infinities stay. -/
inductive IsFloor : Flt → Flt → Prop
  | fin {a : ℚ} {n : Int} (h1 : (n : ℚ) ≤ a) (h2 : a < n + 1) : IsFloor (.fin a) (.fin n)
  | nan : IsFloor .nan .nan
  | inf {g : Flt} (h : g.Infinite) : IsFloor g g

/-- Whole-number division: the quotient rounded down; zero when dividing by zero. -/
def IsIntOver (g h s : Flt) : Prop := (h = .fin 0 ∧ s = .fin 0) ∨ (h ≠ .fin 0 ∧ ∃ t, IsOver g h t ∧ IsFloor t s)

/-- `s` is what the expression `g op h` means in numpy for operands of dtypes `d` and `e`; `whole`: the `/` of Python 2. -/
def ArithOp.Means (whole : Bool) (d e : DType) (g h s : Flt) : ArithOp → Prop
  | .add => if d = .bool ∧ e = .bool then IsTruth (g = .fin 1 ∨ h = .fin 1) s else IsPlus g h s
  | .sub => if d = .bool ∧ e = .bool then IsTruth (g ≠ h) s else ∃ k, Opposite h k ∧ IsPlus g k s
  | .mul => if d = .bool ∧ e = .bool then IsTruth (g = .fin 1 ∧ h = .fin 1) s else IsTimes g h s
  | .div => if whole ∧ d ≠ .float ∧ e ≠ .float then IsIntOver g h s else IsOver g h s
  | .truediv => if whole ∧ d ≠ .float ∧ e ≠ .float then IsIntOver g h s else IsOver g h s
  | .floordiv => if d ≠ .float ∧ e ≠ .float then IsIntOver g h s else ∃ t, IsOver g h t ∧ IsFloor t s

/-- Bool, int or float. -/
def DType.Number (d : DType) : Prop := d = .bool ∨ d = .int ∨ d = .float

/-- The dtype of the result. -/
def ArithOp.Dtype (whole : Bool) (d e r : DType) (op : ArithOp) : Prop :=
  if d = .float ∨ e = .float then r = .float
  else match op with
    | .floordiv => r = .int
    | .div | .truediv => r = if whole then .int else .float
    | _ => r = if d = .bool ∧ e = .bool then .bool else .int

/-! ## The model's numbers -/

theorem plus_iff {g h s : Flt} : IsPlus g h s ↔ s = g.add h := by
  constructor
  · intro k
    cases k with
    | fin => rfl
    | nanl => cases h <;> rfl
    | nanr => cases g <;> rfl
    | clash => rfl
    | clash' => rfl
    | pinfl h1 h2 => cases h <;> first | rfl | contradiction
    | pinfr h1 h2 => cases g <;> first | rfl | contradiction
    | ninfl h1 h2 => cases h <;> first | rfl | contradiction
    | ninfr h1 h2 => cases g <;> first | rfl | contradiction
  · rintro rfl
    cases g <;> cases h <;> first
      | exact .fin _ _
      | exact .nanl _
      | exact .nanr _
      | exact .clash
      | exact .clash'
      | exact .pinfl (by simp) (by simp)
      | exact .pinfr (by simp) (by simp)
      | exact .ninfl (by simp) (by simp)
      | exact .ninfr (by simp) (by simp)

theorem opposite_iff {g s : Flt} : Opposite g s ↔ s = g.neg := by
  constructor
  · intro k
    cases k with
    | fin h => simp only [Flt.neg]; congr 1; linarith
    | _ => rfl
  · rintro rfl
    cases g <;> constructor
    simp

theorem sign_pinf {m : Int} : HasSign .pinf m ↔ m = 1 := by
  constructor
  · intro h
    cases h with
    | pos h => rfl
    | neg h => simp [Flt.Negative] at h
  · rintro rfl; exact .pos (.inl rfl)

theorem sign_ninf {m : Int} : HasSign .ninf m ↔ m = -1 := by
  constructor
  · intro h
    cases h with
    | pos h => simp [Flt.Pos] at h
    | neg h => rfl
  · rintro rfl; exact .neg (.inl rfl)

theorem sign_nan {m : Int} : ¬ HasSign .nan m := by
  intro h
  cases h with
  | pos h => simp [Flt.Pos] at h
  | neg h => simp [Flt.Negative] at h

theorem sign_fin {a : ℚ} {m : Int} : HasSign (.fin a) m ↔ (0 < a ∧ m = 1) ∨ (a < 0 ∧ m = -1) ∨ (a = 0 ∧ m = 0) := by
  constructor
  · intro h
    cases h with
    | pos h => simp [Flt.Pos] at h; simp [h]
    | neg h => simp [Flt.Negative] at h; simp [h]
    | zero => simp
  · rintro (⟨h, rfl⟩ | ⟨h, rfl⟩ | ⟨rfl, rfl⟩)
    · exact .pos (.inr ⟨a, h, rfl⟩)
    · exact .neg (.inr ⟨a, h, rfl⟩)
    · exact .zero

theorem infOf_neg {a : ℚ} (h : a < 0) : Flt.infOf a = .ninf := by
  simp [Flt.infOf, h.ne, not_lt.mpr h.le]

theorem infOf_pos' {a : ℚ} (h : 0 < a) : Flt.infOf a = .pinf := by simp [Flt.infOf, h, h.ne']

theorem infOf_zero : Flt.infOf 0 = .nan := by simp [Flt.infOf]

theorem inf_sign {s : Flt} {m : Int} (hs : s.Infinite) (h : HasSign s m) : (m = 1 ∧ s = .pinf) ∨ (m = -1 ∧ s = .ninf) := by
  rcases hs with rfl | rfl
  · exact .inl ⟨sign_pinf.mp h, rfl⟩
  · exact .inr ⟨sign_ninf.mp h, rfl⟩

theorem infSign {m : Int} (h : m = 1 ∨ m = -1) : ∃ s : Flt, s.Infinite ∧ HasSign s m ∧ s = if m = 1 then .pinf else .ninf := by
  rcases h with rfl | rfl
  · exact ⟨.pinf, .inl rfl, sign_pinf.mpr rfl, rfl⟩
  · exact ⟨.ninf, .inr rfl, sign_ninf.mpr rfl, rfl⟩

theorem sign_unique {g : Flt} {m n : Int} (h : HasSign g m) (h' : HasSign g n) : m = n := by
  cases g with
  | nan => exact (sign_nan h).elim
  | pinf => rw [sign_pinf.mp h, sign_pinf.mp h']
  | ninf => rw [sign_ninf.mp h, sign_ninf.mp h']
  | fin a =>
    rcases sign_fin.mp h with ⟨h1, rfl⟩ | ⟨h1, rfl⟩ | ⟨h1, rfl⟩ <;>
      rcases sign_fin.mp h' with ⟨h2, rfl⟩ | ⟨h2, rfl⟩ | ⟨h2, rfl⟩ <;> first | rfl | linarith

theorem IsTimes.unique {g h s s' : Flt} (k : IsTimes g h s) (k' : IsTimes g h s') : s = s' := by
  have fin_inf : ∀ a : ℚ, ¬ (Flt.fin a).Infinite := fun a h => by simp [Flt.Infinite] at h
  cases k with
  | fin =>
    cases k' with
    | fin => rfl
    | inf hi => exact (hi.elim (fin_inf _) (fin_inf _)).elim
    | zero hi => exact (hi.elim (fin_inf _) (fin_inf _)).elim
  | nanl => cases k' with
    | inf _ hg => exact (sign_nan hg).elim
    | _ => rfl
  | nanr => cases k' with
    | inf _ _ hh => exact (sign_nan hh).elim
    | _ => rfl
  | inf hi hg hh hs hp =>
    cases k' with
    | fin => exact (hi.elim (fin_inf _) (fin_inf _)).elim
    | nanl => exact (sign_nan hg).elim
    | nanr => exact (sign_nan hh).elim
    | inf _ hg' hh' hs' hp' =>
      rw [← sign_unique hg hg', ← sign_unique hh hh'] at hp'
      rcases inf_sign hs hp with ⟨h1, rfl⟩ | ⟨h1, rfl⟩ <;> rcases inf_sign hs' hp' with ⟨h2, rfl⟩ | ⟨h2, rfl⟩ <;>
        first | rfl | omega
    | zero _ hg' hh' hz =>
      rw [← sign_unique hg hg', ← sign_unique hh hh'] at hz
      rcases inf_sign hs hp with ⟨h1, rfl⟩ | ⟨h1, rfl⟩ <;> omega
  | zero hi hg hh hz =>
    cases k' with
    | fin => exact (hi.elim (fin_inf _) (fin_inf _)).elim
    | inf _ hg' hh' hs' hp' =>
      rw [← sign_unique hg hg', ← sign_unique hh hh'] at hp'
      rcases inf_sign hs' hp' with ⟨h1, rfl⟩ | ⟨h1, rfl⟩ <;> omega
    | _ => rfl

theorem mul_times (g h : Flt) : IsTimes g h (g.mul h) := by
  have hp : Flt.Infinite .pinf := .inl rfl
  have hn : Flt.Infinite .ninf := .inr rfl
  have sp : HasSign .pinf 1 := sign_pinf.mpr rfl
  have sn : HasSign .ninf (-1) := sign_ninf.mpr rfl
  cases g with
  | nan => cases h <;> exact .nanl _
  | pinf =>
    cases h with
    | nan => exact .nanr _
    | pinf => exact .inf (.inl hp) sp sp hp sp
    | ninf => exact .inf (.inl hp) sp sn hn sn
    | fin a =>
      simp only [Flt.mul]
      rcases lt_trichotomy a 0 with ha | rfl | ha
      · rw [infOf_neg ha]; exact .inf (.inl hp) sp (sign_fin.mpr (.inr (.inl ⟨ha, rfl⟩))) hn sn
      · rw [infOf_zero]; exact .zero (.inl hp) sp .zero rfl
      · rw [infOf_pos' ha]; exact .inf (.inl hp) sp (sign_fin.mpr (.inl ⟨ha, rfl⟩)) hp sp
  | ninf =>
    cases h with
    | nan => exact .nanr _
    | pinf => exact .inf (.inl hn) sn sp hn sn
    | ninf => exact .inf (.inl hn) sn sn hp sp
    | fin a =>
      simp only [Flt.mul]
      rcases lt_trichotomy a 0 with ha | rfl | ha
      · rw [infOf_pos' (by linarith)]; exact .inf (.inl hn) sn (sign_fin.mpr (.inr (.inl ⟨ha, rfl⟩))) hp sp
      · rw [neg_zero, infOf_zero]; exact .zero (.inl hn) sn .zero rfl
      · rw [infOf_neg (by linarith)]; exact .inf (.inl hn) sn (sign_fin.mpr (.inl ⟨ha, rfl⟩)) hn sn
  | fin a =>
    cases h with
    | nan => exact .nanr _
    | pinf =>
      simp only [Flt.mul]
      rcases lt_trichotomy a 0 with ha | rfl | ha
      · rw [infOf_neg ha]; exact .inf (.inr hp) (sign_fin.mpr (.inr (.inl ⟨ha, rfl⟩))) sp hn sn
      · rw [infOf_zero]; exact .zero (.inr hp) .zero sp rfl
      · rw [infOf_pos' ha]; exact .inf (.inr hp) (sign_fin.mpr (.inl ⟨ha, rfl⟩)) sp hp sp
    | ninf =>
      simp only [Flt.mul]
      rcases lt_trichotomy a 0 with ha | rfl | ha
      · rw [infOf_pos' (by linarith)]; exact .inf (.inr hn) (sign_fin.mpr (.inr (.inl ⟨ha, rfl⟩))) sn hp sp
      · rw [neg_zero, infOf_zero]; exact .zero (.inr hn) .zero sn rfl
      · rw [infOf_neg (by linarith)]; exact .inf (.inr hn) (sign_fin.mpr (.inl ⟨ha, rfl⟩)) sn hn sn
    | fin b => exact .fin a b

theorem times_iff {g h s : Flt} : IsTimes g h s ↔ s = g.mul h :=
  ⟨fun k => k.unique (mul_times g h), fun k => k ▸ mul_times g h⟩

theorem over_iff {g h s : Flt} : IsOver g h s ↔ s = g.div h := by
  have fin_inf : ∀ a : ℚ, ¬ (Flt.fin a).Infinite := fun a h => by simp [Flt.Infinite] at h
  have hp : Flt.Infinite .pinf := .inl rfl
  have hn : Flt.Infinite .ninf := .inr rfl
  have sp : HasSign .pinf 1 := sign_pinf.mpr rfl
  have sn : HasSign .ninf (-1) := sign_ninf.mpr rfl
  constructor
  · intro k
    cases k with
    | fin hb hc => simp only [Flt.div, if_neg hb]; rw [eq_div_of_mul_eq hb hc]
    | nanl => cases h <;> rfl
    | nanr => cases g <;> rfl
    | byInf hi => rcases hi with rfl | rfl <;> rfl
    | infs hg hh => rcases hg with rfl | rfl <;> rcases hh with rfl | rfl <;> rfl
    | zeros => simp [Flt.div, infOf_zero]
    | byZero hm hg hs hp =>
      cases g with
      | nan => exact (sign_nan hg).elim
      | pinf => rcases inf_sign hs hp with ⟨h1, rfl⟩ | ⟨h1, rfl⟩ <;> have := sign_pinf.mp hg <;> first | omega | simp [Flt.div]
      | ninf => rcases inf_sign hs hp with ⟨h1, rfl⟩ | ⟨h1, rfl⟩ <;> have := sign_ninf.mp hg <;> first | omega | simp [Flt.div]
      | fin a =>
        simp only [Flt.div, if_true]
        rcases sign_fin.mp hg with ⟨h1, rfl⟩ | ⟨h1, rfl⟩ | ⟨h1, rfl⟩
        · rw [infOf_pos' h1]; rcases inf_sign hs hp with ⟨h1, rfl⟩ | ⟨h1, rfl⟩ <;> first | omega | rfl
        · rw [infOf_neg h1]; rcases inf_sign hs hp with ⟨h1, rfl⟩ | ⟨h1, rfl⟩ <;> first | omega | rfl
        · exact (hm rfl).elim
    | inf hi hg hb hh hs hp =>
      rename_i b m n
      rcases hi with rfl | rfl
      · obtain rfl := sign_pinf.mp hg
        rcases sign_fin.mp hh with ⟨h1, rfl⟩ | ⟨h1, rfl⟩ | ⟨h1, rfl⟩
        · rw [show (Flt.pinf).div (.fin b) = .pinf by simp [Flt.div, not_lt.mpr h1.le]]
          rcases inf_sign hs hp with ⟨h1, rfl⟩ | ⟨h1, rfl⟩ <;> first | omega | rfl
        · rw [show (Flt.pinf).div (.fin b) = .ninf by simp [Flt.div, h1]]
          rcases inf_sign hs hp with ⟨h1, rfl⟩ | ⟨h1, rfl⟩ <;> first | omega | rfl
        · exact (hb h1).elim
      · obtain rfl := sign_ninf.mp hg
        rcases sign_fin.mp hh with ⟨h1, rfl⟩ | ⟨h1, rfl⟩ | ⟨h1, rfl⟩
        · rw [show (Flt.ninf).div (.fin b) = .ninf by simp [Flt.div, not_lt.mpr h1.le]]
          rcases inf_sign hs hp with ⟨h1, rfl⟩ | ⟨h1, rfl⟩ <;> first | omega | rfl
        · rw [show (Flt.ninf).div (.fin b) = .pinf by simp [Flt.div, h1]]
          rcases inf_sign hs hp with ⟨h1, rfl⟩ | ⟨h1, rfl⟩ <;> first | omega | rfl
        · exact (hb h1).elim
  · rintro rfl
    cases g with
    | nan => cases h <;> exact .nanl _
    | pinf =>
      cases h with
      | nan => exact .nanr _
      | pinf => exact .infs hp hp
      | ninf => exact .infs hp hn
      | fin b =>
        simp only [Flt.div]
        rcases lt_trichotomy b 0 with hb | rfl | hb
        · rw [if_pos hb]; exact .inf hp sp hb.ne (sign_fin.mpr (.inr (.inl ⟨hb, rfl⟩))) hn sn
        · exact .byZero (by decide) sp hp sp
        · rw [if_neg (by linarith)]; exact .inf hp sp hb.ne' (sign_fin.mpr (.inl ⟨hb, rfl⟩)) hp sp
    | ninf =>
      cases h with
      | nan => exact .nanr _
      | pinf => exact .infs hn hp
      | ninf => exact .infs hn hn
      | fin b =>
        simp only [Flt.div]
        rcases lt_trichotomy b 0 with hb | rfl | hb
        · rw [if_pos hb]; exact .inf hn sn hb.ne (sign_fin.mpr (.inr (.inl ⟨hb, rfl⟩))) hp sp
        · exact .byZero (by decide) sn hn sn
        · rw [if_neg (by linarith)]; exact .inf hn sn hb.ne' (sign_fin.mpr (.inl ⟨hb, rfl⟩)) hn sn
    | fin a =>
      cases h with
      | nan => exact .nanr _
      | pinf => exact .byInf hp
      | ninf => exact .byInf hn
      | fin b =>
        simp only [Flt.div]
        by_cases hb : b = 0
        · subst hb
          rw [if_pos rfl]
          rcases lt_trichotomy a 0 with ha | rfl | ha
          · rw [infOf_neg ha]; exact .byZero (by decide) (sign_fin.mpr (.inr (.inl ⟨ha, rfl⟩))) hn sn
          · rw [infOf_zero]; exact .zeros
          · rw [infOf_pos' ha]; exact .byZero (by decide) (sign_fin.mpr (.inl ⟨ha, rfl⟩)) hp sp
        · rw [if_neg hb]; exact .fin hb (div_mul_cancel₀ a hb)

theorem floor_iff {g s : Flt} : IsFloor g s ↔ s = floorFlt g := by
  constructor
  · intro k
    cases k with
    | fin h1 h2 => simp only [floorFlt]; rw [Int.floor_eq_iff.mpr ⟨h1, h2⟩]
    | nan => rfl
    | inf h => rcases h with rfl | rfl <;> rfl
  · rintro rfl
    cases g with
    | nan => exact .nan
    | pinf => exact .inf (.inl rfl)
    | ninf => exact .inf (.inr rfl)
    | fin a => exact .fin (Int.floor_le a) (Int.lt_floor_add_one a)

theorem fdiv_floor_pos {a b : Int} (hb : 0 < b) : a.fdiv b = ⌊(a : ℚ) / (b : ℚ)⌋ := by
  have hb' : (0 : ℚ) < b := by exact_mod_cast hb
  symm
  rw [Int.floor_eq_iff, le_div_iff₀ hb', div_lt_iff₀ hb']
  have h1 := Int.mul_fdiv_add_fmod a b
  have h2 := Int.fmod_nonneg_of_pos a hb
  have h3 := Int.fmod_lt_of_pos a hb
  constructor
  · have : a.fdiv b * b ≤ a := by rw [mul_comm]; omega
    exact_mod_cast this
  · have : a < (a.fdiv b + 1) * b := by rw [add_mul, mul_comm, one_mul]; omega
    exact_mod_cast this

theorem fdiv_floor {a b : Int} (hb : b ≠ 0) : a.fdiv b = ⌊(a : ℚ) / (b : ℚ)⌋ := by
  rcases lt_or_gt_of_ne hb with h | h
  · rw [← Int.neg_fdiv_neg, fdiv_floor_pos (by omega)]
    push_cast
    rw [neg_div_neg_eq]
  · exact fdiv_floor_pos h

theorem intOver_iff {a b : Int} {s : Flt} : IsIntOver (.fin a) (.fin b) s ↔ s = .fin (intDiv a b) := by
  unfold IsIntOver intDiv
  by_cases hb : b = 0
  · subst hb; simp
  · have hb' : (b : ℚ) ≠ 0 := by exact_mod_cast hb
    have : ((a.fdiv b : Int)) = ⌊(a : ℚ) / (b : ℚ)⌋ := by
      exact fdiv_floor hb
    simp [hb, hb', over_iff, floor_iff, Flt.div, floorFlt, this]

theorem means_unique {op : ArithOp} {whole : Bool} {d e : DType} {g h s s' : Flt} (k : op.Means whole d e g h s)
    (k' : op.Means whole d e g h s') : s = s' := by
  have ov : ∀ {s s'}, IsOver g h s → IsOver g h s' → s = s' := fun a b => (over_iff.mp a).trans (over_iff.mp b).symm
  have fl : ∀ {s s'}, (∃ t, IsOver g h t ∧ IsFloor t s) → (∃ t, IsOver g h t ∧ IsFloor t s') → s = s' := by
    rintro s s' ⟨t, h1, h2⟩ ⟨t', h1', h2'⟩
    rw [ov h1 h1'] at h2
    exact (floor_iff.mp h2).trans (floor_iff.mp h2').symm
  have io : ∀ {s s'}, IsIntOver g h s → IsIntOver g h s' → s = s' := by
    rintro s s' (⟨h1, rfl⟩ | ⟨h1, h2⟩) (⟨h1', rfl⟩ | ⟨h1', h2'⟩)
    · rfl
    · exact (h1' h1).elim
    · exact (h1 h1').elim
    · exact fl h2 h2'
  cases op <;> simp only [ArithOp.Means] at k k' <;> split_ifs at k k'
  · exact k.unique k'
  · exact (plus_iff.mp k).trans (plus_iff.mp k').symm
  · exact k.unique k'
  · obtain ⟨t, h1, h2⟩ := k
    obtain ⟨t', h1', h2'⟩ := k'
    rw [opposite_iff.mp h1, ← opposite_iff.mp h1'] at h2
    exact (plus_iff.mp h2).trans (plus_iff.mp h2').symm
  · exact k.unique k'
  · exact k.unique k'
  · exact io k k'
  · exact ov k k'
  · exact io k k'
  · exact ov k k'
  · exact io k k'
  · exact fl k k'

theorem num_isNumber {v : Val} {d : DType} (hd : d.Number) (h : v.hasDType d = true) : IsNumber v v.num := by
  rcases hd with rfl | rfl | rfl <;> cases v <;> simp [Val.hasDType] at h
  · rename_i b; cases b <;> constructor
  · constructor
  · constructor

/-- The dtype numpy gives. -/
theorem uf_dt (py3 : Bool) (op : ArithOp) {d e : DType} (hd : d.Number) (he : e.Number) :
    ∃ r, (op.uf py3).dt d e = .ok r ∧ r.Number ∧ op.Dtype (!py3) d e r := by
  rcases hd with rfl | rfl | rfl <;> rcases he with rfl | rfl | rfl <;> cases op <;> cases py3 <;>
    exact ⟨_, rfl, by simp [DType.Number], by simp [ArithOp.Dtype]⟩

theorem truth_or (a b : Bool) :
    IsTruth ((Val.bool a).num = .fin 1 ∨ (Val.bool b).num = .fin 1) ((Val.bool (a || b)).num) := by
  cases a <;> cases b <;> simp [Val.num] <;> first | exact .yes (by simp) | exact .no (by simp)

theorem truth_and (a b : Bool) :
    IsTruth ((Val.bool a).num = .fin 1 ∧ (Val.bool b).num = .fin 1) ((Val.bool (a && b)).num) := by
  cases a <;> cases b <;> simp [Val.num] <;> first | exact .yes (by simp) | exact .no (by simp)

theorem truth_xor (a b : Bool) :
    IsTruth ((Val.bool a).num ≠ (Val.bool b).num) ((Val.bool (xor a b)).num) := by
  cases a <;> cases b <;> simp [Val.num] <;> first | exact .yes (by simp) | exact .no (by simp)

/-- One element. -/
theorem uf_means (py3 : Bool) (op : ArithOp) {d e r : DType} (hd : d.Number) (he : e.Number)
    (hr : (op.uf py3).dt d e = .ok r) {v w : Val} (hv : v.hasDType d = true) (hw : w.hasDType e = true) :
    ((op.uf py3).f v w).hasDType r = true ∧ op.Means (!py3) d e v.num w.num ((op.uf py3).f v w).num := by
  have bi : ∀ b : Bool, (Val.bool b).num = .fin ((toInt (.bool b) : Int) : ℚ) := by intro b; cases b <;> simp [Val.num, toInt]
  have ii : ∀ n : Int, (Val.int n).num = .fin (n : ℚ) := fun _ => rfl
  have ti : ∀ n : Int, toInt (.int n) = n := fun _ => rfl
  rcases hd with rfl | rfl | rfl <;> rcases he with rfl | rfl | rfl <;> cases v <;> simp [Val.hasDType] at hv <;>
    cases w <;> simp [Val.hasDType] at hw <;> cases op <;> cases py3 <;>
    simp [ArithOp.uf, npAdd, npSubtract, npMultiply, npDivide, npTrueDivide, npFloorDivide, loopDt, DType.isNumeric] at hr <;>
    subst hr <;> refine ⟨rfl, ?_⟩ <;>
    simp only [ArithOp.Means, ArithOp.uf, npAdd, npSubtract, npMultiply, npDivide, npTrueDivide, npFloorDivide, loop,
      reduceCtorEq, and_self, if_true, if_false, ne_eq, not_false_eq_true, Bool.not_false, Bool.not_true, and_true, and_false,
      Bool.false_eq_true, not_true_eq_false] <;>
    first
    | exact truth_or _ _
    | exact truth_and _ _
    | exact truth_xor _ _
    | exact plus_iff.mpr rfl
    | exact times_iff.mpr rfl
    | exact over_iff.mpr rfl
    | exact ⟨_, opposite_iff.mpr rfl, plus_iff.mpr rfl⟩
    | exact ⟨_, over_iff.mpr rfl, floor_iff.mpr rfl⟩
    | (simp only [bi, ii, ti]; exact intOver_iff.mpr rfl)
    | (simp only [bi, ii, ti]; exact plus_iff.mpr (by simp [Flt.add]))
    | (simp only [bi, ii, ti]; exact times_iff.mpr (by simp [Flt.mul]))
    | (simp only [bi, ii, ti]; exact ⟨_, opposite_iff.mpr rfl, plus_iff.mpr (by simp [Flt.add, Flt.neg, sub_eq_add_neg])⟩)

/-- `-(v - w)` is `w - v`, unless both are bools. -/
theorem neg_sub_means {d e r : DType} (hd : d.Number) (he : e.Number) (hb : ¬ (d = .bool ∧ e = .bool))
    (hr : npSubtract.dt d e = .ok r) {v w : Val} (hv : v.hasDType d = true) (hw : w.hasDType e = true) :
    r ≠ .bool ∧ (Elem.neg (npSubtract.f v w)).hasDType r = true ∧
      Elem.neg (npSubtract.f v w) = npSubtract.f w v := by
  have fsub : ∀ a b : Flt, (a.sub b).neg = b.sub a := by
    intro a b
    cases a <;> cases b <;> simp [Flt.sub, Flt.add, Flt.neg]
  rcases hd with rfl | rfl | rfl <;> rcases he with rfl | rfl | rfl <;> cases v <;> simp [Val.hasDType] at hv <;>
    cases w <;> simp [Val.hasDType] at hw <;> simp at hb <;>
    simp [npSubtract, loopDt, DType.isNumeric] at hr <;> subst hr <;>
    simp [npSubtract, loop, Elem.neg, Val.hasDType, fsub, toInt, Val.num]

theorem bdim_comm (m n : Nat) : bdim m n = bdim n m := by
  unfold bdim
  by_cases h : m = n
  · subst h; rfl
  · have h' : n ≠ m := fun k => h k.symm
    simp only [if_neg h, if_neg h']
    split_ifs <;> simp_all

theorem broadcastShape_comm (s t : List Nat) : broadcastShape s t = broadcastShape t s := by
  have : ∀ a b : List Nat, mapRes (fun p : Nat × Nat => bdim p.1 p.2) (a.zip b) = mapRes (fun p : Nat × Nat => bdim p.1 p.2) (b.zip a) := by
    intro a
    induction a with
    | nil => intro b; cases b <;> rfl
    | cons x a ih =>
      intro b
      cases b with
      | nil => rfl
      | cons y b => simp only [List.zip_cons_cons, mapRes, bdim_comm x y, ih b]
  simp only [broadcastShape, Nat.max_comm s.length t.length]
  exact this _ _

namespace Larry

/-- `F o v` at every element `v`, where `o` is the element of the other array that numpy pairs with it. -/
def paired (y : Larry L) (other : NDArray Val) (F : Val → Val → Val) (r : DType) : Larry L :=
  ⟨⟨y.x.shape, fun i => F (other.bget i) (y.x.bget i)⟩, r, y.label⟩

theorem opRight_ok {py3 : Bool} {op : ArithOp} {y : Larry L} {other : NDArray Val} {d r : DType}
    (hr : (op.uf py3).dt y.dtype d = .ok r) (hf : BFits y.x.shape other.shape) :
    y.opRight py3 op other d = .ok (y.paired other (fun o v => (op.uf py3).f v o) r) := by
  simp [opRight, binopArray, npBinop, hr, broadcastShape_fits hf, paired]

/-- What the reflected method computes for one element. -/
def _root_.La.ArithOp.leftFn (py3 : Bool) (op : ArithOp) (o v : Val) : Val :=
  match op with
  | .add => npAdd.f v o
  | .mul => npMultiply.f v o
  | .sub => Elem.neg (npSubtract.f v o)
  | op => (op.uf py3).f o v

/-- The operands in the order in which numpy sees them. -/
theorem opLeft_ok {py3 : Bool} {op : ArithOp} {y : Larry L} {other : NDArray Val} {d r : DType}
    (hr : (op.uf py3).dt d y.dtype = .ok r) (hrn : r.Number) (hf : BFits y.x.shape other.shape) :
    y.opLeft py3 op other d = .ok (y.paired other (op.leftFn py3) r) := by
  have hs := broadcastShape_fits hf
  have hs' := hs
  rw [broadcastShape_comm] at hs'
  have hsym : ∀ db di, loopDt db di d y.dtype = loopDt db di y.dtype d := by
    intro db di
    unfold loopDt
    simp only [or_comm (a := d.isNumeric = false), or_comm (a := d = .float), and_comm (a := d = .bool)]
  cases op with
  | add =>
    have : npAdd.dt y.dtype d = .ok r := by rw [← hr]; exact (hsym _ _).symm
    simp [opLeft, rbinopSame, binopArray, npBinop, this, hs, paired, ArithOp.leftFn]
  | mul =>
    have : npMultiply.dt y.dtype d = .ok r := by rw [← hr]; exact (hsym _ _).symm
    simp [opLeft, rbinopSame, binopArray, npBinop, this, hs, paired, ArithOp.leftFn]
  | sub =>
    have : npSubtract.dt y.dtype d = .ok r := by rw [← hr]; exact (hsym _ _).symm
    simp only [opLeft, rsub, binopArray, npBinop, this, hs]
    exact elem_ok (m := .neg) (y := ⟨⟨y.x.shape, _⟩, r, y.label⟩) ⟨hrn, trivial⟩ (by simp)
  | div => simp [opLeft, rdiv, npBinop, hr, hs', paired, ArithOp.leftFn]
  | truediv => simp [opLeft, rdiv, npBinop, hr, hs', paired, ArithOp.leftFn]
  | floordiv => simp [opLeft, rdiv, npBinop, hr, hs', paired, ArithOp.leftFn]

/-- What is read from the paired larry. -/
theorem paired_spec [LinearOrder L] {y : Larry L} (hy : y.Valid) (ht : y.Typed) (hd : y.dtype.Number) {other : NDArray Val} {od r : DType}
    (ho : ∀ idx, InB other.shape idx → (other.get idx).hasDType od = true) (hod : od.Number)
    (hf : BFits y.x.shape other.shape) (hr : r.Number) {F : Val → Val → Val} {M : Flt → Flt → Flt → Prop}
    (hM : ∀ {g h s s'}, M g h s → M g h s' → s = s')
    (hF : ∀ o v, o.hasDType od = true → v.hasDType y.dtype = true → (F o v).hasDType r = true ∧ M o.num v.num (F o v).num) :
    (y.paired other F r).Valid ∧ (y.paired other F r).Typed ∧
      ∀ names w, (y.paired other F r).get names = .ok w ↔ ∃ idx idx', At y.label idx names ∧ BReads other.shape idx idx' ∧
        w.hasDType r = true ∧ ∃ g h s, IsNumber (other.get idx') g ∧ IsNumber (y.x.get idx) h ∧ IsNumber w s ∧ M g h s := by
  have hlen : other.shape.length ≤ y.x.shape.length := by
    obtain ⟨pre, post, h1, h2⟩ := hf
    have := h2.length_eq
    rw [h1, List.length_append]; omega
  have hin : ∀ {idx}, InB y.x.shape idx → (other.bget idx).hasDType od = true := fun h =>
    ho _ (NDArray.InB_bget (broadcastShape_fits hf) h).2
  have hv : (y.paired other F r).Valid := hy
  refine ⟨hv, ?_, ?_⟩
  · intro idx h
    have h : InB y.x.shape idx := h
    have := (hF _ _ (hin h) (ht idx h)).1
    simpa only [paired, bget_inB y.x h] using this
  · intro names w
    rw [get_ok_iff hv]
    constructor
    · rintro ⟨idx, hat, rfl⟩
      have hat : At y.label idx names := hat
      have hb : InB y.x.shape idx := hy.shape_eq ▸ At_inB hat
      obtain ⟨idx', h1, h2⟩ := bget_reads other (idx := idx) (by rw [InB_length hb]; exact hlen)
      have hi := hin hb
      obtain ⟨k1, k2⟩ := hF _ _ hi (ht idx hb)
      refine ⟨idx, idx', hat, h1, ?_, _, _, _, ?_, num_isNumber hd (ht idx hb), ?_, k2⟩
      · simpa only [paired, bget_inB y.x hb] using k1
      · rw [h2] at hi; rw [h2]; exact num_isNumber hod hi
      · have : (y.paired other F r).x.get idx = F (other.bget idx) (y.x.get idx) := by simp only [paired, bget_inB y.x hb]
        rw [this]; exact num_isNumber hr k1
    · rintro ⟨idx, idx', hat, h1, hw, g, h, s, n1, n2, n3, hm⟩
      have hb : InB y.x.shape idx := hy.shape_eq ▸ At_inB hat
      obtain ⟨idx'', h1', h2⟩ := bget_reads other (idx := idx) (by rw [InB_length hb]; exact hlen)
      obtain rfl := BReads_unique h1 h1'
      have hi := hin hb
      obtain ⟨k1, k2⟩ := hF _ _ hi (ht idx hb)
      refine ⟨idx, hat, ?_⟩
      have : (y.paired other F r).x.get idx = F (other.bget idx) (y.x.get idx) := by simp only [paired, bget_inB y.x hb]
      rw [this]
      rw [n2.num] at k2
      rw [h2] at k2 k1 ⊢
      rw [n1.num] at k2
      obtain rfl := hM hm k2
      exact (number_inj (numeric_of hr) hw k1 n3 (num_isNumber hr k1)).symm

end Larry
open Larry

/-! ## C74 -/

/-- C74. `lar op other`, with a scalar (shape `[]`) or an array that numpy broadcasts to the shape of the larry: the labels stay,
and what is read with any labels is the value read before `op` the element paired with it. -/
theorem C74_right [LinearOrder L] (py3 : Bool) (op : ArithOp) {y : Larry L} (hy : y.Valid) (ht : y.Typed) (hd : y.dtype.Number)
    {other : NDArray Val} {od : DType} (ho : ∀ idx, InB other.shape idx → (other.get idx).hasDType od = true) (hod : od.Number)
    (hf : BFits y.shape other.shape) :
    ∃ z, y.opRight py3 op other od = .ok z ∧ z.Valid ∧ z.Typed ∧ z.label = y.label ∧ op.Dtype (!py3) y.dtype od z.dtype ∧
      ∀ names w, z.get names = .ok w ↔ ∃ idx idx', At y.label idx names ∧ BReads other.shape idx idx' ∧
        w.hasDType z.dtype = true ∧ ∃ g h s, IsNumber (other.get idx') g ∧ IsNumber (y.x.get idx) h ∧ IsNumber w s ∧
          op.Means (!py3) y.dtype od h g s := by
  obtain ⟨r, h1, h2, h3⟩ := uf_dt py3 op hd hod
  obtain ⟨k1, k2, k3⟩ := paired_spec hy ht hd ho hod hf h2 (F := fun o v => (op.uf py3).f v o)
    (M := fun g h s => op.Means (!py3) y.dtype od h g s) (fun a b => means_unique a b)
    (fun o v h h' => uf_means py3 op hd hod h1 h' h)
  exact ⟨_, opRight_ok h1 hf, k1, k2, rfl, h3, k3⟩

/-- C74. `other op lar`: the same with the operands in the order written, except for a bool minus a bool larry. -/
theorem C74_left [LinearOrder L] (py3 : Bool) (op : ArithOp) {y : Larry L} (hy : y.Valid) (ht : y.Typed) (hd : y.dtype.Number)
    {other : NDArray Val} {od : DType} (ho : ∀ idx, InB other.shape idx → (other.get idx).hasDType od = true) (hod : od.Number)
    (hf : BFits y.shape other.shape) (hb : op = .sub → ¬ (y.dtype = .bool ∧ od = .bool)) :
    ∃ z, y.opLeft py3 op other od = .ok z ∧ z.Valid ∧ z.Typed ∧ z.label = y.label ∧ op.Dtype (!py3) od y.dtype z.dtype ∧
      ∀ names w, z.get names = .ok w ↔ ∃ idx idx', At y.label idx names ∧ BReads other.shape idx idx' ∧
        w.hasDType z.dtype = true ∧ ∃ g h s, IsNumber (other.get idx') g ∧ IsNumber (y.x.get idx) h ∧ IsNumber w s ∧
          op.Means (!py3) od y.dtype g h s := by
  obtain ⟨r, h1, h2, h3⟩ := uf_dt py3 op hod hd
  have hF : ∀ o v : Val, o.hasDType od = true → v.hasDType y.dtype = true → op.leftFn py3 o v = (op.uf py3).f o v := by
    intro o v h h'
    have comm : op = .add ∨ op = .mul → (op.uf py3).f v o = (op.uf py3).f o v := by
      have fadd : ∀ a b : Flt, a.add b = b.add a := by intro a b; cases a <;> cases b <;> simp [Flt.add, add_comm]
      have fmul : ∀ a b : Flt, a.mul b = b.mul a := by intro a b; cases a <;> cases b <;> simp [Flt.mul, mul_comm]
      rintro (rfl | rfl) <;> rcases hd with hd | hd | hd <;> rcases hod with rfl | rfl | rfl <;> rw [hd] at h' <;> cases v <;>
        simp [Val.hasDType] at h' <;> cases o <;> simp [Val.hasDType] at h <;>
        simp [ArithOp.uf, npAdd, npMultiply, loop, fadd, fmul, add_comm, mul_comm, Bool.or_comm, Bool.and_comm]
      all_goals first
        | exact fadd _ _
        | exact fmul _ _
    cases op with
    | add => exact comm (.inl rfl)
    | mul => exact comm (.inr rfl)
    | sub =>
      obtain ⟨r', h4, -, -⟩ := uf_dt py3 .sub hd hod
      exact (neg_sub_means hd hod (hb rfl) h4 h' h).2.2
    | div => rfl
    | truediv => rfl
    | floordiv => rfl
  obtain ⟨k1, k2, k3⟩ := paired_spec hy ht hd ho hod hf h2 (F := op.leftFn py3)
    (M := fun g h s => op.Means (!py3) od y.dtype g h s) (fun a b => means_unique a b)
    (fun o v h h' => by rw [hF o v h h']; exact uf_means py3 op hod hd h1 h h')
  exact ⟨_, opLeft_ok h1 h2 hf, k1, k2, rfl, h3, k3⟩

theorem scalar_fits (s : List Nat) : BFits s [] := ⟨s, [], by simp, .nil⟩

theorem scalar_reads {idx idx' : List Nat} : BReads [] idx idx' ↔ idx' = [] := by
  constructor
  · rintro ⟨_, _, _, _, h, _⟩; exact List.length_eq_zero_iff.mp h
  · rintro rfl; exact ⟨idx, [], by simp, rfl, rfl, by simp⟩

/-- C74, scalars: `lar op o`. -/
theorem C74_right_scalar [LinearOrder L] (py3 : Bool) (op : ArithOp) {y : Larry L} (hy : y.Valid) (ht : y.Typed) (hd : y.dtype.Number)
    {o : Val} {od : DType} (ho : o.hasDType od = true) (hod : od.Number) :
    ∃ z, y.opRight py3 op ⟨[], fun _ => o⟩ od = .ok z ∧ z.Valid ∧ z.Typed ∧ z.label = y.label ∧ op.Dtype (!py3) y.dtype od z.dtype ∧
      ∀ names w, z.get names = .ok w ↔ ∃ v, y.get names = .ok v ∧ w.hasDType z.dtype = true ∧
        ∃ g h s, IsNumber v h ∧ IsNumber o g ∧ IsNumber w s ∧ op.Means (!py3) y.dtype od h g s := by
  obtain ⟨z, h1, h2, h3, h4, h5, h6⟩ := C74_right py3 op hy ht hd (other := ⟨[], fun _ => o⟩) (fun _ _ => ho) hod (scalar_fits _)
  refine ⟨z, h1, h2, h3, h4, h5, fun names w => ?_⟩
  rw [h6]
  simp only [scalar_reads, get_ok_iff hy]
  constructor
  · rintro ⟨idx, _, hat, rfl, hw, g, h, s, n1, n2, n3, n4⟩
    exact ⟨_, ⟨idx, hat, rfl⟩, hw, g, h, s, n2, n1, n3, n4⟩
  · rintro ⟨_, ⟨idx, hat, rfl⟩, hw, g, h, s, n2, n1, n3, n4⟩
    exact ⟨idx, [], hat, rfl, hw, g, h, s, n1, n2, n3, n4⟩

/-- C74, scalars: `o op lar`. -/
theorem C74_left_scalar [LinearOrder L] (py3 : Bool) (op : ArithOp) {y : Larry L} (hy : y.Valid) (ht : y.Typed) (hd : y.dtype.Number)
    {o : Val} {od : DType} (ho : o.hasDType od = true) (hod : od.Number) (hb : op = .sub → ¬ (y.dtype = .bool ∧ od = .bool)) :
    ∃ z, y.opLeft py3 op ⟨[], fun _ => o⟩ od = .ok z ∧ z.Valid ∧ z.Typed ∧ z.label = y.label ∧ op.Dtype (!py3) od y.dtype z.dtype ∧
      ∀ names w, z.get names = .ok w ↔ ∃ v, y.get names = .ok v ∧ w.hasDType z.dtype = true ∧
        ∃ g h s, IsNumber o g ∧ IsNumber v h ∧ IsNumber w s ∧ op.Means (!py3) od y.dtype g h s := by
  obtain ⟨z, h1, h2, h3, h4, h5, h6⟩ := C74_left py3 op hy ht hd (other := ⟨[], fun _ => o⟩) (fun _ _ => ho) hod (scalar_fits _) hb
  refine ⟨z, h1, h2, h3, h4, h5, fun names w => ?_⟩
  rw [h6]
  simp only [scalar_reads, get_ok_iff hy]
  constructor
  · rintro ⟨idx, _, hat, rfl, hw, g, h, s, n1, n2, n3, n4⟩
    exact ⟨_, ⟨idx, hat, rfl⟩, hw, g, h, s, n1, n2, n3, n4⟩
  · rintro ⟨_, ⟨idx, hat, rfl⟩, hw, g, h, s, n2, n1, n3, n4⟩
    exact ⟨idx, [], hat, rfl, hw, g, h, s, n2, n1, n3, n4⟩

/-- C74. The exception: a bool minus a bool larry is True exactly where they are equal. -/
theorem C74_bool_minus_larry [LinearOrder L] (py3 : Bool) {y : Larry L} (hy : y.Valid) (ht : y.Typed) (hd : y.dtype = .bool)
    {other : NDArray Val} (ho : ∀ idx, InB other.shape idx → (other.get idx).hasDType .bool = true)
    (hf : BFits y.shape other.shape) :
    ∃ z, y.opLeft py3 .sub other .bool = .ok z ∧ z.Valid ∧ z.Typed ∧ z.label = y.label ∧ z.dtype = .bool ∧
      ∀ names w, z.get names = .ok w ↔ ∃ idx idx', At y.label idx names ∧ BReads other.shape idx idx' ∧
        w.hasDType .bool = true ∧ ∃ g h s, IsNumber (other.get idx') g ∧ IsNumber (y.x.get idx) h ∧ IsNumber w s ∧ IsTruth (g = h) s := by
  have hdn : y.dtype.Number := .inl hd
  have h1 : (ArithOp.uf py3 .sub).dt .bool y.dtype = .ok .bool := by rw [hd]; rfl
  obtain ⟨k1, k2, k3⟩ := paired_spec hy ht hdn ho (.inl rfl) hf (.inl rfl) (F := ArithOp.leftFn py3 .sub)
    (M := fun g h s => IsTruth (g = h) s) (fun a b => a.unique b) (by
      intro o v h h'
      rw [hd] at h'
      cases o <;> simp [Val.hasDType] at h
      cases v <;> simp [Val.hasDType] at h'
      rename_i a b
      cases a <;> cases b <;> refine ⟨rfl, ?_⟩ <;> simp [ArithOp.leftFn, npSubtract, loop, Elem.neg, Val.num] <;>
        first | exact .yes (by simp) | exact .no (by simp))
  exact ⟨_, opLeft_ok h1 (.inl rfl) hf, k1, k2, rfl, rfl, k3⟩

/-- C74. That is never what numpy gives for the difference. -/
theorem C74_bool_minus_larry_wrong {whole : Bool} {g h s : Flt} (k : IsTruth (g = h) s) :
    ¬ ArithOp.Means whole .bool .bool g h s .sub := by
  intro k'
  simp only [ArithOp.Means, and_self, if_true] at k'
  cases k with
  | yes h => cases k' with | yes h' => exact h' h
  | no h => cases k' with | no h' => exact h' h

/-- An int larry with labels 5, 7, 6. -/
def exI : Larry Nat := ⟨⟨[3], fun i => .int (([7, -7, 3] : List Int).getD (i.headD 0) 0)⟩, .int, [[5, 7, 6]]⟩

theorem exI_valid : exI.Valid := by
  refine ⟨rfl, ?_, by simp [exI]⟩
  intro l hl
  obtain rfl : l = [5, 7, 6] := by simpa [exI] using hl
  decide

theorem exI_typed : exI.Typed := fun _ _ => rfl

/-- C74. Under Python 2 the method for true division rounds down: `3 / 2` is read as 1, not `3/2`. -/
theorem C74_truediv_python2 :
    ∃ z, exI.opRight false .truediv ⟨[], fun _ => .int 2⟩ .int = .ok z ∧ z.get [6] = .ok (.int 1) ∧ z.get [7] = .ok (.int (-4)) ∧
      exI.get [6] = .ok (.int 3) ∧ ¬ IsOver (.fin 3) (.fin 2) (.fin 1) := by
  refine ⟨_, rfl, by decide +kernel, by decide +kernel, by decide +kernel, ?_⟩
  rw [over_iff]
  simp [Flt.div]
  norm_num

/-- A bool larry, and the hypotheses of the theorems. -/
def exBool : Larry Nat := ⟨⟨[2], fun i => .bool (i == [0])⟩, .bool, [[5, 7]]⟩

example : exBool.Valid ∧ exBool.Typed ∧ exBool.dtype = .bool ∧
    (∃ z, exBool.opLeft true .sub ⟨[], fun _ => .bool true⟩ .bool = .ok z ∧ z.get [5] = .ok (.bool true) ∧ z.get [7] = .ok (.bool false)) := by
  refine ⟨⟨rfl, ?_, by simp [exBool]⟩, fun _ _ => rfl, rfl, _, rfl, by decide +kernel, by decide +kernel⟩
  intro l hl
  obtain rfl : l = [5, 7] := by simpa [exBool] using hl
  decide

example : exI.Valid ∧ exI.Typed ∧ exI.dtype.Number ∧ BFits exI.shape [1] ∧
    (∃ z, exI.opLeft true .sub ⟨[1], fun _ => .int 10⟩ .int = .ok z ∧ z.get [7] = .ok (.int 17)) ∧
    (∃ z, exI.opLeft true .truediv ⟨[], fun _ => .int 14⟩ .int = .ok z ∧ z.get [5] = .ok (.flt (.fin 2))) :=
  ⟨exI_valid, exI_typed, .inr (.inl rfl), ⟨[], [3], rfl, by simp⟩, ⟨_, rfl, by decide +kernel⟩, ⟨_, rfl, by decide +kernel⟩⟩

end La
