import Verif.Elementwise
import Verif.Props.Core
import Mathlib.Algebra.Order.Floor.Ring
import Mathlib.Tactic.Linarith

/-!
# C72: elementwise methods
-/

namespace La
variable {L : Type _}

/-! ## Specification -/

/-- The number a bool, an int or a float stands for. -/
inductive IsNumber : Val → Flt → Prop
  | false : IsNumber (.bool false) (.fin 0)
  | true : IsNumber (.bool true) (.fin 1)
  | int (n : Int) : IsNumber (.int n) (.fin n)
  | flt (f : Flt) : IsNumber (.flt f) f

/-- A number above, or below, zero. -/
def Flt.Pos (g : Flt) : Prop := g = .pinf ∨ ∃ a : ℚ, 0 < a ∧ g = .fin a
def Flt.Negative (g : Flt) : Prop := g = .ninf ∨ ∃ a : ℚ, a < 0 ∧ g = .fin a

/-- `s` is minus `g`. -/
inductive Opposite : Flt → Flt → Prop
  | nan : Opposite .nan .nan
  | pinf : Opposite .pinf .ninf
  | ninf : Opposite .ninf .pinf
  | fin {a b : ℚ} (h : a + b = 0) : Opposite (.fin a) (.fin b)

/-- The truth value `b` as a number. -/
inductive IsTruth : Prop → Flt → Prop
  | yes {p : Prop} (h : p) : IsTruth p (.fin 1)
  | no {p : Prop} (h : ¬ p) : IsTruth p (.fin 0)

/-- `g` raised to the power `q`; whatever `g`, the power 0 is 1. -/
inductive IsPower (q : Nat) : Flt → Flt → Prop
  | zero {g : Flt} (h : q = 0) : IsPower q g (.fin 1)
  | fin (a : ℚ) : IsPower q (.fin a) (.fin (a ^ q))
  | nan (h : 0 < q) : IsPower q .nan .nan
  | pinf (h : 0 < q) : IsPower q .pinf .pinf
  | even (h : 0 < q) (he : Even q) : IsPower q .ninf .pinf
  | odd (he : Odd q) : IsPower q .ninf .ninf

/-- The whole number between zero and `a` that is closest to `a`. -/
def IsTruncated (a : ℚ) (n : Int) : Prop :=
  (0 ≤ a ∧ (0 ≤ n ∧ (n : ℚ) ≤ a ∧ a < n + 1)) ∨ (a < 0 ∧ (n ≤ 0 ∧ a ≤ n ∧ (n : ℚ) < a + 1))

/-- What method `m` of a larry of dtype `d` makes of the number `g`. -/
def ElemMethod.Makes (m : ElemMethod) (d : DType) (g s : Flt) : Prop :=
  match m with
  | .log f => s = f g
  | .sign => (g = .nan ∧ s = .nan) ∨ (g.Pos ∧ s = .fin 1) ∨ (g.Negative ∧ s = .fin (-1)) ∨ (g = .fin 0 ∧ s = .fin 0)
  | .power q => IsPower q g s
  | .neg => if d = .bool then IsTruth (g = .fin 0) s else Opposite g s
  | .pos => s = g
  | .abs => (g.Negative ∧ Opposite g s) ∨ (¬ g.Negative ∧ s = g)
  | .isnan => IsTruth (g = .nan) s
  | .isfinite => IsTruth (∃ a : ℚ, g = .fin a) s
  | .isinf => IsTruth (g = .pinf ∨ g = .ninf) s
  | .invert => IsTruth (g = .fin 0) s
  | .nanReplace r => (d = .float ∧ g = .nan ∧ s = r) ∨ (¬ (d = .float ∧ g = .nan) ∧ s = g)
  | .astype junk d' => match d' with
    | .bool => IsTruth (g ≠ .fin 0) s
    | .int => ∃ n : Int, s = .fin n ∧ ((∃ a : ℚ, g = .fin a ∧ IsTruncated a n) ∨
        ((∀ a : ℚ, g ≠ .fin a) ∧ n = junk g))
    | _ => s = g

/-- The dtype of the result. -/
def ElemMethod.Dtype (m : ElemMethod) (d d' : DType) : Prop :=
  match m with
  | .log _ => d' = .float
  | .sign | .power _ => (d = .bool ∧ d' = .int) ∨ (d ≠ .bool ∧ d' = d)
  | .neg | .pos | .abs | .invert | .nanReplace _ => d' = d
  | .isnan | .isfinite | .isinf => d' = .bool
  | .astype _ e => d' = e

/-- The calls that are modelled: on bool, int and float larrys; `astype` to bool, int or float. -/
def ElemMethod.Modelled (m : ElemMethod) (d : DType) : Prop :=
  (d = .bool ∨ d = .int ∨ d = .float) ∧
    match m with
    | .astype _ e => e = .bool ∨ e = .int ∨ e = .float
    | _ => True

/-! ## Facts -/

theorem IsNumber.num {v : Val} {g : Flt} (h : IsNumber v g) : v.num = g := by
  cases h <;> simp [Val.num]

theorem IsNumber.unique {v : Val} {g g' : Flt} (h : IsNumber v g) (h' : IsNumber v g') : g = g' :=
  h.num.symm.trans h'.num

theorem IsTruth.unique {p : Prop} {s s' : Flt} (h : IsTruth p s) (h' : IsTruth p s') : s = s' := by
  cases h <;> cases h' <;> first | rfl | contradiction

theorem Opposite.unique {g s s' : Flt} (h : Opposite g s) (h' : Opposite g s') : s = s' := by
  cases h <;> cases h'
  · rfl
  · rfl
  · rfl
  · rename_i a b h1 c h2
    congr 1; linarith

theorem IsPower.unique {q : Nat} {g s s' : Flt} (h : IsPower q g s) (h' : IsPower q g s') : s = s' := by
  cases h <;> cases h' <;> first
    | rfl
    | omega
    | (subst_vars; simp; done)
    | (exfalso; rename_i h1 h2 h3; exact (Nat.not_even_iff_odd.mpr h3) h2)
    | (exfalso; rename_i h1 h2 h3; exact (Nat.not_even_iff_odd.mpr h1) h3)
    | (exfalso; rename_i h1 h2; subst h1; exact absurd h2 (by decide))
    | (exfalso; rename_i h1 h2; subst h2; exact absurd h1 (by decide))

theorem IsTruncated.unique {a : ℚ} {n m : Int} (h : IsTruncated a n) (h' : IsTruncated a m) : n = m := by
  rcases h with ⟨h0, h1, h2, h3⟩ | ⟨h0, h1, h2, h3⟩ <;> rcases h' with ⟨k0, k1, k2, k3⟩ | ⟨k0, k1, k2, k3⟩
  · have a1 : (n : ℚ) < m + 1 := by linarith
    have a2 : (m : ℚ) < n + 1 := by linarith
    have b1 : n < m + 1 := by exact_mod_cast a1
    have b2 : m < n + 1 := by exact_mod_cast a2
    omega
  · linarith
  · linarith
  · have a1 : (n : ℚ) < m + 1 := by linarith
    have a2 : (m : ℚ) < n + 1 := by linarith
    have b1 : n < m + 1 := by exact_mod_cast a1
    have b2 : m < n + 1 := by exact_mod_cast a2
    omega

theorem not_pos_neg {g : Flt} (h : g.Pos) (h' : g.Negative) : False := by
  rcases h with rfl | ⟨a, ha, rfl⟩ <;> rcases h' with h' | ⟨b, hb, h'⟩
  · cases h'
  · cases h'
  · cases h'
  · cases h'; linarith

theorem not_pos_zero : ¬ (Flt.fin 0).Pos := by
  rintro (h | ⟨a, ha, h⟩)
  · cases h
  · cases h; linarith
theorem not_neg_zero : ¬ (Flt.fin 0).Negative := by
  rintro (h | ⟨a, ha, h⟩)
  · cases h
  · cases h; linarith
theorem not_pos_nan : ¬ Flt.nan.Pos := by rintro (h | ⟨a, ha, h⟩) <;> cases h
theorem not_neg_nan : ¬ Flt.nan.Negative := by rintro (h | ⟨a, ha, h⟩) <;> cases h

/-- C72: the specification leaves no freedom: what a method makes of a number is determined. -/
theorem C72_makes_unique (m : ElemMethod) (d : DType) {g s s' : Flt} (h : m.Makes d g s) (h' : m.Makes d g s') :
    s = s' := by
  cases m with
  | log f => exact h.trans h'.symm
  | sign =>
    rcases h with ⟨rfl, rfl⟩ | ⟨h, rfl⟩ | ⟨h, rfl⟩ | ⟨rfl, rfl⟩ <;>
      rcases h' with ⟨k, rfl⟩ | ⟨k, rfl⟩ | ⟨k, rfl⟩ | ⟨k, rfl⟩ <;> first
      | rfl
      | exact (not_pos_neg h k).elim
      | exact (not_pos_neg k h).elim
      | exact (not_pos_nan k).elim
      | exact (not_neg_nan k).elim
      | exact (not_pos_zero k).elim
      | exact (not_neg_zero k).elim
      | (subst k; first | exact (not_pos_nan h).elim | exact (not_neg_nan h).elim | exact (not_pos_zero h).elim | exact (not_neg_zero h).elim)
      | cases k
  | power q => exact IsPower.unique h h'
  | neg =>
    simp only [ElemMethod.Makes] at h h'
    split at h <;> rename_i hd
    · rw [if_pos hd] at h'; exact h.unique h'
    · rw [if_neg hd] at h'; exact h.unique h'
  | pos => exact h.trans h'.symm
  | abs =>
    rcases h with ⟨h1, h2⟩ | ⟨h1, h2⟩ <;> rcases h' with ⟨k1, k2⟩ | ⟨k1, k2⟩
    · exact h2.unique k2
    · exact absurd h1 k1
    · exact absurd k1 h1
    · exact h2.trans k2.symm
  | isnan => exact IsTruth.unique h h'
  | isfinite => exact IsTruth.unique h h'
  | isinf => exact IsTruth.unique h h'
  | invert => exact IsTruth.unique h h'
  | nanReplace r =>
    rcases h with ⟨h1, h2, h3⟩ | ⟨h1, h2⟩ <;> rcases h' with ⟨k1, k2, k3⟩ | ⟨k1, k2⟩
    · exact h3.trans k3.symm
    · exact absurd ⟨h1, h2⟩ k1
    · exact absurd ⟨k1, k2⟩ h1
    · exact h2.trans k2.symm
  | astype junk e =>
    cases e with
    | bool => exact IsTruth.unique h h'
    | int =>
      obtain ⟨n, rfl, h⟩ := h
      obtain ⟨n', rfl, h'⟩ := h'
      rcases h with ⟨a, rfl, h⟩ | ⟨h1, h2⟩ <;> rcases h' with ⟨b, hb, h'⟩ | ⟨k1, k2⟩
      · cases hb; rw [h.unique h']
      · exact absurd rfl (k1 a)
      · exact absurd hb (h1 b)
      · rw [h2, k2]
    | float => exact h.trans h'.symm
    | str => exact h.trans h'.symm
    | object => exact h.trans h'.symm

theorem negative_fin {a : ℚ} : (Flt.fin a).Negative ↔ a < 0 := by
  constructor
  · rintro (h | ⟨b, hb, h⟩)
    · cases h
    · cases h; exact hb
  · exact fun h => .inr ⟨a, h, rfl⟩

theorem sign_makes (d : DType) (g : Flt) : ElemMethod.sign.Makes d g g.sign := by
  cases g with
  | nan => exact .inl ⟨rfl, rfl⟩
  | pinf => exact .inr (.inl ⟨.inl rfl, rfl⟩)
  | ninf => exact .inr (.inr (.inl ⟨.inl rfl, rfl⟩))
  | fin a =>
    simp only [Flt.sign]
    rcases lt_trichotomy a 0 with h | h | h
    · rw [if_neg (by linarith), if_pos h]; exact .inr (.inr (.inl ⟨.inr ⟨a, h, rfl⟩, rfl⟩))
    · subst h; simp only [lt_irrefl, if_false]; exact .inr (.inr (.inr ⟨rfl, rfl⟩))
    · rw [if_pos h]; exact .inr (.inl ⟨.inr ⟨a, h, rfl⟩, rfl⟩)

theorem opposite_neg (g : Flt) : Opposite g g.neg := by
  cases g with
  | nan => exact .nan
  | pinf => exact .pinf
  | ninf => exact .ninf
  | fin a => exact .fin (by ring)

theorem abs_makes (d : DType) (g : Flt) : ElemMethod.abs.Makes d g g.abs := by
  cases g with
  | nan => exact .inr ⟨not_neg_nan, rfl⟩
  | pinf => exact .inr ⟨by (rintro (h | ⟨a, ha, h⟩) <;> cases h), rfl⟩
  | ninf => exact .inl ⟨.inl rfl, .ninf⟩
  | fin a =>
    simp only [Flt.abs]
    by_cases h : a < 0
    · rw [if_pos h]; exact .inl ⟨negative_fin.mpr h, .fin (by ring)⟩
    · rw [if_neg h]; exact .inr ⟨fun h' => h (negative_fin.mp h'), rfl⟩

theorem power_makes (q : Nat) (g : Flt) : IsPower q g (g.pow q) := by
  unfold Flt.pow
  by_cases hq : q = 0
  · rw [if_pos hq]; exact .zero hq
  · rw [if_neg hq]
    cases g with
    | nan => exact .nan (by omega)
    | pinf => exact .pinf (by omega)
    | ninf =>
      show IsPower q Flt.ninf (if q % 2 = 0 then .pinf else .ninf)
      by_cases he : q % 2 = 0
      · rw [if_pos he]; exact .even (by omega) (Nat.even_iff.mpr he)
      · rw [if_neg he]; exact .odd (Nat.odd_iff.mpr (by omega))
    | fin a => exact .fin a

theorem truth_bool {p : Prop} {b : Bool} (h : b = true ↔ p) : ∃ s, IsNumber (.bool b) s ∧ IsTruth p s := by
  cases b with
  | false => exact ⟨_, .false, .no (fun hp => by simpa using h.mpr hp)⟩
  | true => exact ⟨_, .true, .yes (h.mp rfl)⟩

theorem toInt_truncated (junk : Flt → Int) (a : ℚ) : IsTruncated a ((Flt.fin a).toInt junk) := by
  simp only [Flt.toInt]
  by_cases h : 0 ≤ a
  · rw [if_pos h]
    exact .inl ⟨h, Int.floor_nonneg.mpr h, Int.floor_le a, Int.lt_floor_add_one a⟩
  · rw [if_neg h]
    exact .inr ⟨not_le.mp h, by rw [Int.ceil_le]; simpa using (not_le.mp h).le, Int.le_ceil a, Int.ceil_lt_add_one a⟩

/-- The dtype and the number determine an element. -/
theorem number_inj {d : DType} (hd : d.isNumeric = true) {w w' : Val} {s : Flt} (h : w.hasDType d = true)
    (h' : w'.hasDType d = true) (hw : IsNumber w s) (hw' : IsNumber w' s) : w = w' := by
  cases d <;> simp [DType.isNumeric] at hd <;> cases w <;> simp [Val.hasDType] at h <;>
    cases w' <;> simp [Val.hasDType] at h' <;> cases hw <;> cases hw' <;> rfl

theorem dt_numeric {m : ElemMethod} {d : DType} (hm : m.Modelled d) : (m.dt d).isNumeric = true := by
  obtain ⟨h, h'⟩ := hm
  cases m <;> simp only [ElemMethod.dt] <;> first
    | rfl
    | (rcases h with rfl | rfl | rfl <;> rfl)
    | (rcases h' with rfl | rfl | rfl <;> rfl)

theorem numeric_of {d : DType} (h : d = .bool ∨ d = .int ∨ d = .float) : d.isNumeric = true := by
  rcases h with rfl | rfl | rfl <;> rfl

/-- One element: the model's function produces an element of the right dtype that stands for the right number. -/
theorem fn_makes (m : ElemMethod) {d : DType} (hm : m.Modelled d) (hi : m = .invert → d = .bool) {v : Val} (hv : v.hasDType d = true) :
    (m.fn v).hasDType (m.dt d) = true ∧ ∃ g s, IsNumber v g ∧ IsNumber (m.fn v) s ∧ m.Makes d g s := by
  have hb : ∀ b : Bool, IsNumber (.bool b) (.fin (if b then 1 else 0)) := by
    intro b; cases b
    · exact .false
    · exact .true
  have hnum : ∃ g, IsNumber v g := by
    obtain ⟨h, -⟩ := hm
    rcases h with rfl | rfl | rfl <;> cases v <;> simp [Val.hasDType] at hv
    · exact ⟨_, hb _⟩
    · exact ⟨_, .int _⟩
    · exact ⟨_, .flt _⟩
  obtain ⟨g, hg⟩ := hnum
  have hvg := hg.num
  have hcase : (d = .bool ∧ ∃ b, v = .bool b) ∨ (d = .int ∧ ∃ n, v = .int n) ∨ (d = .float ∧ ∃ f, v = .flt f) := by
    obtain ⟨h, -⟩ := hm
    rcases h with rfl | rfl | rfl <;> cases v <;> simp [Val.hasDType] at hv ⊢
  cases m with
  | log f => exact ⟨rfl, g, f g, hg, by rw [← hvg]; exact .flt _, rfl⟩
  | sign =>
    rcases hcase with ⟨rfl, b, rfl⟩ | ⟨rfl, n, rfl⟩ | ⟨rfl, f, rfl⟩
    · refine ⟨rfl, _, _, hb b, .int _, ?_⟩
      cases b
      · exact .inr (.inr (.inr ⟨rfl, rfl⟩))
      · exact .inr (.inl ⟨.inr ⟨1, by norm_num, rfl⟩, by simp⟩)
    · refine ⟨rfl, _, _, .int n, .int _, ?_⟩
      have := sign_makes .int (.fin n)
      convert this using 1
      simp only [Flt.sign]
      rcases lt_trichotomy n 0 with h | h | h
      · have h' : (n : ℚ) < 0 := by exact_mod_cast h
        rw [if_neg (by omega), if_pos h, if_neg (by linarith), if_pos h']; simp
      · subst h; simp
      · have h' : (0 : ℚ) < n := by exact_mod_cast h
        rw [if_pos h, if_pos h']; simp
    · exact ⟨rfl, _, _, .flt f, .flt _, sign_makes _ f⟩
  | power q =>
    rcases hcase with ⟨rfl, b, rfl⟩ | ⟨rfl, n, rfl⟩ | ⟨rfl, f, rfl⟩
    · refine ⟨rfl, _, _, hb b, .int _, ?_⟩
      have := IsPower.fin (q := q) (if b then 1 else 0)
      show IsPower q _ _
      convert this using 2
      cases b <;> simp
    · refine ⟨rfl, _, _, .int n, .int _, ?_⟩
      have := IsPower.fin (q := q) n
      show IsPower q _ _
      convert this using 2
      simp
    · exact ⟨rfl, _, _, .flt f, .flt _, power_makes q f⟩
  | neg =>
    rcases hcase with ⟨rfl, b, rfl⟩ | ⟨rfl, n, rfl⟩ | ⟨rfl, f, rfl⟩
    · refine ⟨rfl, _, _, hb b, hb _, ?_⟩
      simp only [ElemMethod.Makes, if_true]
      cases b
      · exact .yes (by simp)
      · exact .no (by simp)
    · refine ⟨rfl, _, _, .int n, .int _, ?_⟩
      exact .fin (by push_cast; ring)
    · exact ⟨rfl, _, _, .flt f, .flt _, opposite_neg f⟩
  | pos => exact ⟨hv, g, g, hg, hg, rfl⟩
  | abs =>
    rcases hcase with ⟨rfl, b, rfl⟩ | ⟨rfl, n, rfl⟩ | ⟨rfl, f, rfl⟩
    · refine ⟨rfl, _, _, hb b, hb b, .inr ⟨?_, rfl⟩⟩
      rw [negative_fin]; cases b <;> simp
    · refine ⟨rfl, _, _, .int n, .int _, ?_⟩
      have := abs_makes .int (.fin n)
      convert this using 1
      simp only [Flt.abs]
      by_cases h : n < 0
      · have h' : (n : ℚ) < 0 := by exact_mod_cast h
        rw [if_pos h']; congr 1
        have : ((n.natAbs : Int)) = -n := by omega
        rw [this]; push_cast; ring
      · have h' : ¬ (n : ℚ) < 0 := by exact_mod_cast h
        rw [if_neg h']; congr 1
        have : ((n.natAbs : Int)) = n := by omega
        rw [this]
    · exact ⟨rfl, _, _, .flt f, .flt _, abs_makes _ f⟩
  | isnan =>
    refine ⟨rfl, g, ?_⟩
    obtain ⟨s, h1, h2⟩ := truth_bool (p := g = .nan) (b := v.isNan) (by
      rw [Val.isNan, hvg]; cases g <;> simp [Flt.isNan])
    exact ⟨s, hg, h1, h2⟩
  | isfinite =>
    refine ⟨rfl, g, ?_⟩
    obtain ⟨s, h1, h2⟩ := truth_bool (p := ∃ a : ℚ, g = .fin a) (b := v.isFin) (by
      cases hg with
      | false => simp [Val.isFin]
      | true => simp [Val.isFin]
      | int n => simp [Val.isFin]
      | flt => cases g <;> simp [Val.isFin, Flt.isFinite])
    exact ⟨s, hg, h1, h2⟩
  | isinf =>
    refine ⟨rfl, g, ?_⟩
    obtain ⟨s, h1, h2⟩ := truth_bool (p := g = .pinf ∨ g = .ninf) (b := v.num.isInf) (by
      rw [hvg]; cases g <;> simp [Flt.isInf])
    exact ⟨s, hg, h1, h2⟩
  | invert =>
    obtain rfl := hi rfl
    obtain ⟨b, rfl⟩ : ∃ b, v = .bool b := by
      rcases hcase with ⟨-, h⟩ | ⟨h, -⟩ | ⟨h, -⟩
      · exact h
      · cases h
      · cases h
    refine ⟨rfl, _, _, hb b, hb _, ?_⟩
    cases b
    · exact .yes (by simp)
    · exact .no (by simp)
  | nanReplace r =>
    rcases hcase with ⟨rfl, b, rfl⟩ | ⟨rfl, n, rfl⟩ | ⟨rfl, f, rfl⟩
    · exact ⟨rfl, g, g, hg, hg, .inr ⟨by simp, rfl⟩⟩
    · exact ⟨rfl, g, g, hg, hg, .inr ⟨by simp, rfl⟩⟩
    · refine ⟨rfl, _, _, .flt f, .flt _, ?_⟩
      cases f with
      | nan => exact .inl ⟨rfl, rfl, rfl⟩
      | pinf => exact .inr ⟨by simp, rfl⟩
      | ninf => exact .inr ⟨by simp, rfl⟩
      | fin a => exact .inr ⟨by simp, rfl⟩
  | astype junk e =>
    obtain ⟨-, he⟩ := hm
    rcases he with rfl | rfl | rfl
    · rcases hcase with ⟨rfl, b, rfl⟩ | ⟨rfl, n, rfl⟩ | ⟨rfl, f, rfl⟩
      · refine ⟨rfl, _, _, hb b, hb b, ?_⟩
        cases b
        · exact .no (by simp)
        · exact .yes (by simp)
      · refine ⟨rfl, _, _, .int n, hb _, ?_⟩
        by_cases h : n = 0
        · subst h; exact .no (by simp)
        · simp only [ne_eq, h, not_false_eq_true, decide_true, if_true]; exact .yes (by simpa using h)
      · refine ⟨rfl, _, _, .flt f, hb _, ?_⟩
        by_cases h : f = .fin 0
        · subst h; exact .no (by simp)
        · simp only [Flt.toBool, ne_eq, h, not_false_eq_true, decide_true, if_true]; exact .yes h
    · rcases hcase with ⟨rfl, b, rfl⟩ | ⟨rfl, n, rfl⟩ | ⟨rfl, f, rfl⟩
      · refine ⟨rfl, _, _, hb b, .int _, _, rfl, .inl ⟨_, rfl, ?_⟩⟩
        cases b <;> exact .inl (by norm_num)
      · refine ⟨rfl, _, _, .int n, .int n, _, rfl, .inl ⟨_, rfl, ?_⟩⟩
        by_cases h : 0 ≤ n
        · exact .inl ⟨by exact_mod_cast h, h, le_refl _, by linarith⟩
        · exact .inr ⟨by exact_mod_cast not_le.mp h, by omega, le_refl _, by linarith⟩
      · refine ⟨rfl, _, _, .flt f, .int _, _, rfl, ?_⟩
        cases f with
        | fin a => exact .inl ⟨a, rfl, toInt_truncated junk a⟩
        | nan => exact .inr ⟨by simp, rfl⟩
        | pinf => exact .inr ⟨by simp, rfl⟩
        | ninf => exact .inr ⟨by simp, rfl⟩
    · rcases hcase with ⟨rfl, b, rfl⟩ | ⟨rfl, n, rfl⟩ | ⟨rfl, f, rfl⟩
      · exact ⟨rfl, _, _, hb b, .flt _, rfl⟩
      · exact ⟨rfl, _, _, .int n, .flt _, rfl⟩
      · exact ⟨rfl, _, _, .flt f, .flt f, rfl⟩

namespace Larry

theorem mapped_valid {y : Larry L} (hy : y.Valid) (g : Val → Val) (d : DType) : (y.mapped g d).Valid := hy

theorem mapped_has {y : Larry L} (g : Val → Val) (d : DType) {names : List L} {w : Val} :
    (y.mapped g d).Has names w ↔ ∃ v, y.Has names v ∧ w = g v := by
  constructor
  · rintro ⟨idx, hi, rfl⟩; exact ⟨_, ⟨idx, hi, rfl⟩, rfl⟩
  · rintro ⟨_, ⟨idx, hi, rfl⟩, rfl⟩; exact ⟨idx, hi, rfl⟩

theorem elem_ok {m : ElemMethod} {y : Larry L} (hm : m.Modelled y.dtype) (hi : m = .invert → y.dtype = .bool) :
    y.elem m = .ok (y.mapped m.fn (m.dt y.dtype)) := by
  have hn := numeric_of hm.1
  cases m <;> simp only [elem, hn, Bool.true_eq_false, if_false, ElemMethod.dt]
  · rw [if_neg (by simpa using hi rfl), hi rfl]
  · rename_i junk e
    rw [if_neg]
    simp [numeric_of hm.2]

end Larry
open Larry

/-- C72. An elementwise method keeps the labels, and the value read with any labels is what the method makes of the
value read with these labels before. -/
theorem C72_elementwise [LinearOrder L] {y : Larry L} (hy : y.Valid) (ht : y.Typed) (m : ElemMethod)
    (hm : m.Modelled y.dtype) (hi : m = .invert → y.dtype = .bool) :
    ∃ z, y.elem m = .ok z ∧ z.Valid ∧ z.Typed ∧ z.label = y.label ∧ m.Dtype y.dtype z.dtype ∧
      ∀ names w, z.get names = .ok w ↔
        ∃ v, y.get names = .ok v ∧ w.hasDType z.dtype = true ∧
          ∃ g s, IsNumber v g ∧ IsNumber w s ∧ m.Makes y.dtype g s := by
  refine ⟨_, elem_ok hm hi, hy, ?_, rfl, ?_, ?_⟩
  · intro idx h
    exact (fn_makes m hm hi (ht idx h)).1
  · cases m <;> simp [mapped, ElemMethod.dt, ElemMethod.Dtype] <;> tauto
  · intro names w
    have hz : (y.mapped m.fn (m.dt y.dtype)).Valid := hy
    rw [get_ok_iff hz, mapped_has]
    constructor
    · rintro ⟨v, hv, rfl⟩
      have htv := (typed_iff hy).mp ht names v hv
      obtain ⟨h1, g, s, h2⟩ := fn_makes m hm hi htv
      exact ⟨v, (get_ok_iff hy).mpr hv, h1, g, s, h2⟩
    · rintro ⟨v, hv, hw, g, s, h1, h2, h3⟩
      rw [get_ok_iff hy] at hv
      refine ⟨v, hv, ?_⟩
      obtain ⟨k0, g', s', k1, k2, k3⟩ := fn_makes m hm hi ((typed_iff hy).mp ht names v hv)
      obtain rfl := h1.unique k1
      obtain rfl := C72_makes_unique m _ h3 k3
      exact number_inj (dt_numeric hm) hw k0 h2 k2

/-- C72. Only a bool larry can be inverted. -/
theorem C72_invert_type_error (y : Larry L) (h : y.dtype ≠ .bool) : y.elem .invert = .error .typeError := by
  simp [elem, h]

/-! ### Consequences -/

theorem same_of_pointwise {y z : Larry L} (hl : y.label = z.label) (hd : y.dtype = z.dtype)
    (hs : y.x.shape = z.x.shape) (h : ∀ idx, InB y.x.shape idx → y.x.get idx = z.x.get idx) : y.Same z :=
  ⟨hl, hd, hs, h⟩

/-- Two elementwise methods in a row that undo each other. -/
theorem undo {y : Larry L} (ht : y.Typed) {m m' : ElemMethod} (hm : m.Modelled y.dtype)
    (hi : m = .invert → y.dtype = .bool) (hm' : m'.Modelled (m.dt y.dtype)) (hi' : m' = .invert → m.dt y.dtype = .bool)
    (hd : m'.dt (m.dt y.dtype) = y.dtype) (h : ∀ v, v.hasDType y.dtype = true → m'.fn (m.fn v) = v) :
    ∃ u z, y.elem m = .ok u ∧ u.elem m' = .ok z ∧ z.Same y := by
  refine ⟨_, _, elem_ok hm hi, elem_ok (y := y.mapped m.fn (m.dt y.dtype)) hm' hi', ?_⟩
  refine same_of_pointwise rfl hd rfl ?_
  intro idx hidx
  exact h _ (ht idx hidx)

theorem neg_neg_flt (f : Flt) : f.neg.neg = f := by cases f <;> simp [Flt.neg]

/-- C72. Negation twice gives the larry back. -/
theorem C72_neg_neg {y : Larry L} (ht : y.Typed) (hd : y.dtype = .bool ∨ y.dtype = .int ∨ y.dtype = .float) :
    ∃ u z, y.elem .neg = .ok u ∧ u.elem .neg = .ok z ∧ z.Same y := by
  refine undo ht ⟨hd, trivial⟩ (by simp) ⟨hd, trivial⟩ (by simp) rfl ?_
  intro v hv
  cases v <;> simp [ElemMethod.fn, Elem.neg, neg_neg_flt]

/-- C72. So does inverting a bool larry twice. -/
theorem C72_invert_invert {y : Larry L} (ht : y.Typed) (hd : y.dtype = .bool) :
    ∃ u z, y.elem .invert = .ok u ∧ u.elem .invert = .ok z ∧ z.Same y := by
  refine undo ht ⟨.inl hd, trivial⟩ (fun _ => hd) ⟨.inl hd, trivial⟩ (fun _ => hd) rfl ?_
  intro v hv
  cases v <;> simp [ElemMethod.fn, Elem.invert]

/-- `d` holds every value of `d'` exactly. -/
def Wider (d' d : DType) : Prop := (d' = .bool ∧ (d = .int ∨ d = .float)) ∨ (d' = .int ∧ d = .float) ∨
  (d' = d ∧ (d = .bool ∨ d = .int ∨ d = .float))

/-- C72. Converting to a wider dtype and back loses nothing. -/
theorem C72_astype_back {y : Larry L} (ht : y.Typed) (junk : Flt → Int) {d : DType} (hd : Wider y.dtype d) :
    ∃ u z, y.elem (.astype junk d) = .ok u ∧ u.elem (.astype junk y.dtype) = .ok z ∧ z.Same y := by
  have hm : y.dtype = .bool ∨ y.dtype = .int ∨ y.dtype = .float := by
    rcases hd with ⟨h, -⟩ | ⟨h, -⟩ | ⟨h, h' | h' | h'⟩ <;> simp [*]
  have hm' : d = .bool ∨ d = .int ∨ d = .float := by
    rcases hd with ⟨-, h | h⟩ | ⟨-, h⟩ | ⟨-, h⟩ <;> simp [h]
  refine undo ht ⟨hm, hm'⟩ (by simp) ⟨hm', hm⟩ (by simp) rfl ?_
  intro v hv
  rcases hd with ⟨h, rfl | rfl⟩ | ⟨h, rfl⟩ | ⟨h, rfl | rfl | rfl⟩ <;> rw [h] at hv <;> cases v <;>
    simp [Val.hasDType] at hv <;> simp [h, ElemMethod.fn, Elem.astype, Val.toFloat, Flt.toBool, Flt.toInt]

/-- C72. At every label exactly one of `isnan`, `isinf`, `isfinite` is True. -/
theorem C72_exactly_one [LinearOrder L] {y : Larry L} (hy : y.Valid) (ht : y.Typed)
    (hd : y.dtype = .bool ∨ y.dtype = .int ∨ y.dtype = .float) :
    ∃ n i f, y.elem .isnan = .ok n ∧ y.elem .isinf = .ok i ∧ y.elem .isfinite = .ok f ∧
      ∀ names v, y.get names = .ok v →
        (n.get names = .ok (.bool true) ∧ i.get names = .ok (.bool false) ∧ f.get names = .ok (.bool false)) ∨
        (n.get names = .ok (.bool false) ∧ i.get names = .ok (.bool true) ∧ f.get names = .ok (.bool false)) ∨
        (n.get names = .ok (.bool false) ∧ i.get names = .ok (.bool false) ∧ f.get names = .ok (.bool true)) := by
  refine ⟨_, _, _, elem_ok ⟨hd, trivial⟩ (by simp), elem_ok ⟨hd, trivial⟩ (by simp), elem_ok ⟨hd, trivial⟩ (by simp), ?_⟩
  intro names v hv
  rw [get_ok_iff hy] at hv
  have htv := (typed_iff hy).mp ht names v hv
  have key : ∀ (m : ElemMethod) (w : Val), m.fn v = w → (y.mapped m.fn (m.dt y.dtype)).get names = .ok w := by
    intro m w hw
    have hz : (y.mapped m.fn (m.dt y.dtype)).Valid := hy
    rw [get_ok_iff hz, mapped_has]
    exact ⟨v, hv, hw.symm⟩
  have hv3 : ((ElemMethod.isnan.fn v = .bool true ∧ ElemMethod.isinf.fn v = .bool false ∧ ElemMethod.isfinite.fn v = .bool false) ∨
      (ElemMethod.isnan.fn v = .bool false ∧ ElemMethod.isinf.fn v = .bool true ∧ ElemMethod.isfinite.fn v = .bool false) ∨
      (ElemMethod.isnan.fn v = .bool false ∧ ElemMethod.isinf.fn v = .bool false ∧ ElemMethod.isfinite.fn v = .bool true)) := by
    rcases hd with h | h | h <;> rw [h] at htv <;> cases v <;> simp [Val.hasDType] at htv <;>
      simp [ElemMethod.fn, Elem.isnan, Elem.isinf, Elem.isfinite, Val.isNan, Val.num, Flt.isNan, Flt.isInf, Val.isFin]
    rename_i g
    cases g <;> simp [Flt.isFinite]
  rcases hv3 with ⟨h1, h2, h3⟩ | ⟨h1, h2, h3⟩ | ⟨h1, h2, h3⟩
  · exact .inl ⟨key _ _ h1, key _ _ h2, key _ _ h3⟩
  · exact .inr (.inl ⟨key _ _ h1, key _ _ h2, key _ _ h3⟩)
  · exact .inr (.inr ⟨key _ _ h1, key _ _ h2, key _ _ h3⟩)

/-- C72. After `nan_replace(r)` with a number `r` nothing is NaN. -/
theorem C72_nan_replace_isnan {y : Larry L} (ht : y.Typed)
    (hd : y.dtype = .bool ∨ y.dtype = .int ∨ y.dtype = .float) {r : Flt} (hr : r ≠ .nan) :
    ∃ u z, y.elem (.nanReplace r) = .ok u ∧ u.elem .isnan = .ok z ∧
      ∀ idx, InB z.x.shape idx → z.x.get idx = .bool false := by
  refine ⟨_, _, elem_ok ⟨hd, trivial⟩ (by simp), elem_ok (y := y.mapped _ _) ⟨hd, trivial⟩ (by simp), ?_⟩
  intro idx hi
  have htv := ht idx hi
  show ElemMethod.isnan.fn (ElemMethod.fn (.nanReplace r) (y.x.get idx)) = _
  generalize y.x.get idx = v at htv
  rcases hd with h | h | h <;> rw [h] at htv <;> cases v <;> simp [Val.hasDType] at htv <;>
    simp [ElemMethod.fn, Elem.isnan, Elem.nanReplace, Val.isNan, Val.num, Flt.isNan]
  rename_i g
  cases g <;> simp

/-- `uf` multiplies ints and floats. -/
structure IsProduct (uf : UFunc2) : Prop where
  int : uf.dt .int .int = .ok .int
  float : uf.dt .float .float = .ok .float
  ints (m n : Int) : uf.f (.int m) (.int n) = .int (m * n)
  floats (f g : Flt) : uf.f (.flt f) (.flt g) = .flt (f.mul g)

theorem IsProduct.dt {uf : UFunc2} (h : IsProduct uf) {d : DType} (hd : d = .int ∨ d = .float) : uf.dt d d = .ok d := by
  rcases hd with rfl | rfl
  · exact h.int
  · exact h.float

/-- Combine two elementwise results of one larry with a binary operator. -/
theorem combine [LinearOrder L] {y : Larry L} (hy : y.Valid) (ht : y.Typed) {uf : UFunc2} {m m' k : ElemMethod} {d : DType}
    (hu : uf.dt (m.dt y.dtype) (m'.dt y.dtype) = .ok d) (hk : k.dt y.dtype = d)
    (h : ∀ v, v.hasDType y.dtype = true → uf.f (m.fn v) (m'.fn v) = k.fn v) :
    ∃ z, Larry.binop uf (y.mapped m.fn (m.dt y.dtype)) (y.mapped m'.fn (m'.dt y.dtype)) = .ok z ∧
      z.Same (y.mapped k.fn (k.dt y.dtype)) := by
  have hz1 : (y.mapped m.fn (m.dt y.dtype)).Valid := hy
  have hz2 : (y.mapped m'.fn (m'.dt y.dtype)).Valid := hy
  obtain ⟨z, h1, h2, h3, h4, h5⟩ := C09_binop hz1 hz2 rfl uf (d := d) hu
  have hk3 : (y.mapped k.fn (k.dt y.dtype)).Valid := hy
  refine ⟨z, h1, h2.same_of_has hk3 ?_ (h3.trans hk.symm) ?_⟩
  · exact h4.unique (fun _ _ _ _ h h' => h.unique h') (Joined.refl_inner y.label)
  · intro names v hv
    rw [← get_ok_iff h2, h5] at hv
    obtain ⟨u, w, hu, hw, rfl⟩ := hv
    rw [get_ok_iff hz1, mapped_has] at hu
    rw [get_ok_iff hz2, mapped_has] at hw
    obtain ⟨v, hv, rfl⟩ := hu
    obtain ⟨v', hv', rfl⟩ := hw
    obtain rfl := Holds_unique hy.nodup hv hv'
    rw [mapped_has]
    exact ⟨v, hv, h v ((typed_iff hy).mp ht names v hv)⟩

/-- C72. An int or float larry is its sign times its absolute value. -/
theorem C72_sign_mul_abs [LinearOrder L] {y : Larry L} (hy : y.Valid) (ht : y.Typed)
    (hd : y.dtype = .int ∨ y.dtype = .float) {mul : UFunc2} (hmul : IsProduct mul) :
    ∃ s a z, y.elem .sign = .ok s ∧ y.elem .abs = .ok a ∧ Larry.binop mul s a = .ok z ∧ z.Same y := by
  have hd3 : y.dtype = .bool ∨ y.dtype = .int ∨ y.dtype = .float := .inr hd
  have hb : y.dtype ≠ .bool := by rcases hd with h | h <;> simp [h]
  obtain ⟨z, h1, h2⟩ := combine hy ht (uf := mul) (m := .sign) (m' := .abs) (k := .pos) (d := y.dtype)
    (by simpa [ElemMethod.dt, hb] using hmul.dt hd) rfl (by
      intro v hv
      rcases hd with h | h <;> rw [h] at hv <;> cases v <;> simp [Val.hasDType] at hv
      · rename_i n
        simp only [ElemMethod.fn, Elem.sign, Elem.abs, hmul.ints, id]
        rcases lt_trichotomy n 0 with h | h | h
        · rw [if_neg (by omega), if_pos h]; congr 1; omega
        · subst h; simp
        · rw [if_pos h]; congr 1; omega
      · rename_i f
        simp only [ElemMethod.fn, Elem.sign, Elem.abs, hmul.floats, id]
        cases f with
        | nan => rfl
        | pinf => simp [Flt.sign, Flt.abs, Flt.mul, Flt.infOf]
        | ninf => simp [Flt.sign, Flt.abs, Flt.mul, Flt.infOf]
        | fin a =>
          simp only [Flt.sign, Flt.abs, Flt.mul]
          rcases lt_trichotomy a 0 with h | h | h
          · rw [if_neg (by linarith), if_pos h, if_pos h]; congr 2; ring
          · subst h; simp
          · rw [if_pos h, if_neg (by linarith)]; congr 2; ring)
  exact ⟨_, _, z, elem_ok ⟨hd3, trivial⟩ (by simp), elem_ok ⟨hd3, trivial⟩ (by simp), h1, h2⟩

theorem pow_add_flt (f : Flt) (p q : Nat) : (f.pow p).mul (f.pow q) = f.pow (p + q) := by
  rcases Nat.eq_zero_or_pos p with rfl | hp
  · rw [Nat.zero_add]
    have h1 : f.pow 0 = .fin 1 := by simp [Flt.pow]
    rw [h1]
    cases h : f.pow q <;> simp [Flt.mul, Flt.infOf]
  · rcases Nat.eq_zero_or_pos q with rfl | hq
    · have h1 : f.pow 0 = .fin 1 := by simp [Flt.pow]
      rw [h1, Nat.add_zero]
      cases h : f.pow p <;> simp [Flt.mul, Flt.infOf]
    · simp only [Flt.pow, if_neg (show p ≠ 0 by omega), if_neg (show q ≠ 0 by omega), if_neg (show p + q ≠ 0 by omega)]
      cases f with
      | nan => rfl
      | pinf => rfl
      | ninf =>
        show Flt.mul (if p % 2 = 0 then .pinf else .ninf) (if q % 2 = 0 then .pinf else .ninf) =
          if (p + q) % 2 = 0 then .pinf else .ninf
        rcases Nat.mod_two_eq_zero_or_one p with h | h <;> rcases Nat.mod_two_eq_zero_or_one q with h' | h' <;>
          simp [h, h', Nat.add_mod, Flt.mul]
      | fin a => simp [Flt.mul, pow_add]

/-- C72. `power(p)` times `power(q)` is `power(p + q)`, for int and float larrys and whole numbers `p`, `q`. -/
theorem C72_power_add [LinearOrder L] {y : Larry L} (hy : y.Valid) (ht : y.Typed)
    (hd : y.dtype = .int ∨ y.dtype = .float) {mul : UFunc2} (hmul : IsProduct mul) (p q : Nat) :
    ∃ u w z r, y.elem (.power p) = .ok u ∧ y.elem (.power q) = .ok w ∧ Larry.binop mul u w = .ok z ∧
      y.elem (.power (p + q)) = .ok r ∧ z.Same r := by
  have hd3 : y.dtype = .bool ∨ y.dtype = .int ∨ y.dtype = .float := .inr hd
  have hb : y.dtype ≠ .bool := by rcases hd with h | h <;> simp [h]
  obtain ⟨z, h1, h2⟩ := combine hy ht (uf := mul) (m := .power p) (m' := .power q) (k := .power (p + q)) (d := y.dtype)
    (by simpa [ElemMethod.dt, hb] using hmul.dt hd) (by simp [ElemMethod.dt, hb]) (by
      intro v hv
      rcases hd with h | h <;> rw [h] at hv <;> cases v <;> simp [Val.hasDType] at hv
      · simp [ElemMethod.fn, Elem.power, hmul.ints, pow_add]
      · simp [ElemMethod.fn, Elem.power, hmul.floats, pow_add_flt])
  exact ⟨_, _, z, _, elem_ok ⟨hd3, trivial⟩ (by simp), elem_ok ⟨hd3, trivial⟩ (by simp), h1,
    elem_ok ⟨hd3, trivial⟩ (by simp), h2⟩

/-! ### A concrete case -/

/-- A float larry with a NaN, an infinity, zero and a negative number. -/
def exElem : Larry Int := ⟨⟨[2, 2], fun idx => match idx with
  | [0, 0] => .flt .nan
  | [0, 1] => .flt .ninf
  | [1, 0] => .flt (.fin (-7 / 2))
  | _ => .flt (.fin 0)⟩, .float, [[1, 2], [5, 3]]⟩

example : exElem.Valid := ⟨rfl, by decide, by decide⟩
example : exElem.Typed := by
  intro idx _
  show (exElem.x.get idx).hasDType .float = true
  simp only [exElem]
  split <;> rfl
example : (ElemMethod.nanReplace (.fin 9)).Modelled exElem.dtype ∧ (ElemMethod.astype (fun _ => 0) .int).Modelled exElem.dtype := by
  simp [ElemMethod.Modelled, exElem]

/-- What the methods give at `[2, 5]`, where the larry holds -7/2, at `[1, 3]`, -inf, and at `[1, 5]`, NaN. -/
example : (match exElem.elem .abs with | .ok z => (z.get [2, 5]).toOption | _ => none) = some (.flt (.fin (7 / 2))) ∧
    (match exElem.elem (.astype (fun _ => 0) .int) with | .ok z => (z.get [2, 5]).toOption | _ => none) = some (.int (-3)) ∧
    (match exElem.elem (.power 3) with | .ok z => (z.get [1, 3]).toOption | _ => none) = some (.flt .ninf) ∧
    (match exElem.elem (.power 0) with | .ok z => (z.get [1, 5]).toOption | _ => none) = some (.flt (.fin 1)) := by
  decide +kernel

/-- numpy's product of ints and floats. -/
def exProduct : UFunc2 := ⟨fun u w => match u, w with
  | .int m, .int n => .int (m * n)
  | u, w => .flt (u.num.mul w.num), fun d e => .ok (if d = .int ∧ e = .int then .int else .float)⟩
example : IsProduct exProduct := ⟨rfl, rfl, fun _ _ => rfl, fun _ _ => rfl⟩

end La
