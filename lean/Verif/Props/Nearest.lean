import Verif.Props.StatUnits
import Verif.Props.Identities
import Verif.Props.Growth
import Verif.Props.Neutral
import Verif.Props.Chunks
import Mathlib.Order.Bounds.Basic
import Mathlib.Tactic.FieldSimp
import Mathlib.Tactic.Linarith
import Mathlib.Tactic.Ring

/-!
# C134: what mean, median and var are nearest to

The mean of a line is the number with the least sum of squared distances to the numbers on it, the median one with the least
sum of distances, and the variance is that least mean square.  From this follows how far apart they can be.
-/

namespace La

variable {L : Type _}

/-! ## Specification -/

/-- The numbers on a line. -/
def onLine (vs : List Val) : List ℚ := finites (vs.map Val.num)

/-- The sum of the distances from `c`. -/
def farness (c : ℚ) (l : List ℚ) : ℚ := (l.map fun q => |q - c|).sum

/-- The sum of the squared distances from `c`. -/
def squares (c : ℚ) (l : List ℚ) : ℚ := (l.map fun q => (q - c) * (q - c)).sum

/-- Without infinities on the line: NaN if there is no number on it, otherwise a number of which `P` holds. -/
def NumberWith (P : List ℚ → ℚ → Prop) (vs : List Val) (v : Val) : Prop :=
  NoInf (vs.map Val.num) → (onLine vs = [] ∧ v = .flt .nan) ∨ (onLine vs ≠ [] ∧ ∃ m, v = .flt (.fin m) ∧ P (onLine vs) m)

/-! ## Sums -/

theorem squares_expand (c : ℚ) (l : List ℚ) :
    squares c l = (l.map fun q => q * q).sum - 2 * c * l.sum + l.length * (c * c) := by
  induction l with
  | nil => simp [squares]
  | cons q l ih =>
    simp only [squares, List.map_cons, List.sum_cons, List.length_cons, Nat.cast_add, Nat.cast_one] at ih ⊢
    rw [ih]; ring

theorem length_pos' {l : List ℚ} (h : l ≠ []) : (0 : ℚ) < l.length := by
  exact_mod_cast List.length_pos_iff.mpr h

/-- The sum of squares about any number, from the one about the mean. -/
theorem squares_shift {l : List ℚ} (h : l ≠ []) (c : ℚ) :
    squares c l = squares (l.sum / l.length) l + l.length * ((c - l.sum / l.length) * (c - l.sum / l.length)) := by
  have hn := (length_pos' h).ne'
  rw [squares_expand, squares_expand]
  field_simp
  ring

theorem variance_squares {l : List ℚ} (h : l ≠ []) :
    (l.map fun q => q * q).sum / l.length - l.sum / l.length * (l.sum / l.length) = squares (l.sum / l.length) l / l.length := by
  have hn := (length_pos' h).ne'
  rw [squares_expand]
  field_simp
  ring

/-- Going away from `m` gains one step for each number beyond and loses one for each other. -/
theorem farness_up (m c : ℚ) (l : List ℚ) :
    farness m l + (c - m) * (l.length - 2 * (l.filter fun q => m < q).length) ≤ farness c l := by
  induction l with
  | nil => simp [farness]
  | cons q l ih =>
    simp only [farness, List.map_cons, List.sum_cons, List.length_cons] at ih ⊢
    by_cases hq : m < q
    · rw [List.filter_cons_of_pos (by simpa using hq), List.length_cons]
      have h1 : |q - m| = q - m := abs_of_pos (by linarith)
      have h2 : q - c ≤ |q - c| := le_abs_self _
      push_cast
      linarith
    · rw [List.filter_cons_of_neg (by simpa using hq)]
      have h1 : |q - m| = m - q := by rw [abs_of_nonpos (by linarith)]; ring
      have h2 : c - q ≤ |q - c| := by rw [abs_sub_comm]; exact le_abs_self _
      push_cast
      linarith

theorem farness_down (m c : ℚ) (l : List ℚ) :
    farness m l + (m - c) * (l.length - 2 * (l.filter fun q => q < m).length) ≤ farness c l := by
  induction l with
  | nil => simp [farness]
  | cons q l ih =>
    simp only [farness, List.map_cons, List.sum_cons, List.length_cons] at ih ⊢
    by_cases hq : q < m
    · rw [List.filter_cons_of_pos (by simpa using hq), List.length_cons]
      have h1 : |q - m| = m - q := by rw [abs_of_neg (by linarith)]; ring
      have h2 : c - q ≤ |q - c| := by rw [abs_sub_comm]; exact le_abs_self _
      push_cast
      linarith
    · rw [List.filter_cons_of_neg (by simpa using hq)]
      have h1 : |q - m| = q - m := abs_of_nonneg (by linarith)
      have h2 : q - c ≤ |q - c| := le_abs_self _
      push_cast
      linarith

theorem farness_median {l : List ℚ} {m : ℚ} (h : IsMedian l m) (c : ℚ) : farness m l ≤ farness c l := by
  have h1 : (2 : ℚ) * (l.filter fun q => q < m).length ≤ l.length := by exact_mod_cast h.1
  have h2 : (2 : ℚ) * (l.filter fun q => m < q).length ≤ l.length := by exact_mod_cast h.2
  rcases le_total m c with hc | hc
  · have := farness_up m c l
    have : 0 ≤ (c - m) * (l.length - 2 * (l.filter fun q => m < q).length) := mul_nonneg (by linarith) (by linarith)
    linarith
  · have := farness_down m c l
    have : 0 ≤ (m - c) * (l.length - 2 * (l.filter fun q => q < m).length) := mul_nonneg (by linarith) (by linarith)
    linarith

theorem sum_sub_le (c : ℚ) (l : List ℚ) : |l.sum - l.length * c| ≤ farness c l := by
  induction l with
  | nil => simp [farness]
  | cons q l ih =>
    simp only [farness, List.map_cons, List.sum_cons, List.length_cons, Nat.cast_add, Nat.cast_one] at ih ⊢
    have e : q + l.sum - (l.length + 1) * c = (q - c) + (l.sum - l.length * c) := by ring
    rw [e]
    exact (abs_add_le _ _).trans (by linarith)

/-- Cauchy's inequality for the distances. -/
theorem farness_sq (c : ℚ) (l : List ℚ) : farness c l * farness c l ≤ l.length * squares c l := by
  induction l with
  | nil => simp [farness, squares]
  | cons q l ih =>
    have h0 : ∀ l : List ℚ, ∀ t : ℚ, 2 * t * farness c l ≤ squares c l + l.length * (t * t) := by
      intro l t
      induction l with
      | nil => simp [farness, squares]
      | cons p l ih =>
        simp only [farness, squares, List.map_cons, List.sum_cons, List.length_cons, Nat.cast_add, Nat.cast_one] at ih ⊢
        have := mul_self_nonneg (|p - c| - t)
        have h2 := abs_mul_abs_self (p - c)
        nlinarith
    have h1 := h0 l |q - c|
    have h2 := abs_mul_abs_self (q - c)
    simp only [farness, squares, List.map_cons, List.sum_cons, List.length_cons, Nat.cast_add, Nat.cast_one] at ih h1 ⊢
    nlinarith

theorem squares_nonneg (c : ℚ) (l : List ℚ) : 0 ≤ squares c l := by
  refine List.sum_nonneg fun x hx => ?_
  obtain ⟨q, -, rfl⟩ := List.mem_map.mp hx
  exact mul_self_nonneg _

theorem squares_within {c r : ℚ} {l : List ℚ} (h : ∀ q ∈ l, |q - c| ≤ r) : squares c l ≤ l.length * (r * r) := by
  induction l with
  | nil => simp [squares]
  | cons q l ih =>
    have h1 := ih fun p hp => h p (List.mem_cons_of_mem _ hp)
    have h2 := h q List.mem_cons_self
    have h3 : (q - c) * (q - c) ≤ r * r := by
      rw [← abs_mul_abs_self (q - c)]
      exact mul_self_le_mul_self (abs_nonneg _) h2
    simp only [squares, List.map_cons, List.sum_cons, List.length_cons, Nat.cast_add, Nat.cast_one] at h1 ⊢
    linarith

theorem squares_tail (c : ℚ) {t : ℚ} (ht : 0 ≤ t) (l : List ℚ) :
    (l.filter fun q => t ≤ |q - c|).length * (t * t) ≤ squares c l := by
  induction l with
  | nil => simp [squares]
  | cons q l ih =>
    have h0 := mul_self_nonneg (q - c)
    simp only [squares, List.map_cons, List.sum_cons] at ih ⊢
    by_cases hq : t ≤ |q - c|
    · rw [List.filter_cons_of_pos (by simpa using hq), List.length_cons]
      have : t * t ≤ (q - c) * (q - c) := by
        rw [← abs_mul_abs_self (q - c)]
        exact mul_self_le_mul_self ht hq
      push_cast
      linarith
    · rw [List.filter_cons_of_neg (by simpa using hq)]
      linarith

/-! ## The methods -/

/-- C134. The mean has the least sum of squared distances, and no other number has as little. -/
theorem C134_mean {y : Larry L} (hy : y.Numeric) :
    Computes y.mean (NumberWith fun l m => ∀ c, c ≠ m → squares m l < squares c l) .float y := by
  refine (C91_mean hy.valid hy.typed hy.elements hy.dtype).mono fun vs v ⟨s, e, h⟩ hi => ?_
  subst e
  rcases mean_finites hi h with ⟨h1, rfl⟩ | ⟨h1, rfl⟩
  · exact .inl ⟨h1, rfl⟩
  · refine .inr ⟨h1, _, rfl, fun c hc => ?_⟩
    simp only [onLine]
    rw [squares_shift h1 c]
    have := mul_pos (length_pos' h1) (mul_self_pos.mpr (sub_ne_zero.mpr hc))
    linarith

/-- C134. The median has the least sum of distances. -/
theorem C134_median {y : Larry L} (hy : y.Numeric) :
    Computes y.median (NumberWith fun l m => ∀ c, farness m l ≤ farness c l) .float y := by
  refine (C91_median hy.valid hy.typed hy.elements hy.dtype).mono fun vs v ⟨s, e, h⟩ hi => ?_
  subst e
  have hs := medianIs_unique h (median_is _)
  by_cases h1 : onLine vs = []
  · have h0 : (vs.map Val.num).filter (· ≠ .nan) = [] := by
      rw [noInf_ok hi, show finites (vs.map Val.num) = [] from h1]; rfl
    rcases h with ⟨-, rfl⟩ | ⟨t, hp, -, h⟩
    · exact .inl ⟨h1, rfl⟩
    · rw [h0] at hp
      have ht := hp.length_eq
      rw [List.length_nil] at ht
      rcases h with ⟨k, hk, -⟩ | ⟨k, -, -, hk, -⟩ <;> omega
  · obtain ⟨m, h2, h3⟩ := C91_middle hi h1
    exact .inr ⟨h1, m, by rw [hs, h2], farness_median h3⟩

/-- C134. The variance (with ddof 0) is the least mean of the squared distances from a number. -/
theorem C134_var {y : Larry L} (hy : y.Numeric) :
    Computes (fun axis => y.var axis 0)
      (NumberWith fun l s => IsLeast (Set.range fun c => squares c l / l.length) s) .float y := by
  refine (C91_var 0 hy.valid hy.typed hy.elements hy.dtype).mono fun vs v ⟨s, e, h⟩ hi => ?_
  subst e
  rcases var_finites hi h with ⟨h1, rfl⟩ | ⟨h1, rfl⟩
  · exact .inl ⟨h1, rfl⟩
  · refine .inr ⟨h1, _, rfl, ?_⟩
    rw [variance_squares h1]
    refine ⟨⟨_, rfl⟩, ?_⟩
    rintro _ ⟨c, rfl⟩
    simp only [onLine]
    rw [squares_shift h1 c]
    exact div_le_div_of_nonneg_right (le_add_of_nonneg_right (mul_nonneg (length_pos' h1).le (mul_self_nonneg _)))
      (length_pos' h1).le

/-- C134. If the numbers of a line are between `lo` and `hi`, its variance is at most a quarter of the square of their
difference. -/
theorem C134_range {y : Larry L} (hy : y.Numeric) :
    Computes (fun axis => y.var axis 0)
      (NumberWith fun l s => ∀ lo hi, (∀ q ∈ l, lo ≤ q ∧ q ≤ hi) → s ≤ (hi - lo) * (hi - lo) / 4) .float y := by
  refine (C134_var hy).mono fun vs v h hi => ?_
  rcases h hi with h1 | ⟨h1, s, e, h2⟩
  · exact .inl h1
  · refine .inr ⟨h1, s, e, fun lo hi hb => (h2.2 ⟨(lo + hi) / 2, rfl⟩).trans ?_⟩
    rw [div_le_iff₀ (length_pos' h1)]
    have : ∀ q ∈ onLine vs, |q - (lo + hi) / 2| ≤ (hi - lo) / 2 := fun q hq => by
      obtain ⟨h3, h4⟩ := hb q hq
      rw [abs_le]
      constructor <;> linarith
    refine (squares_within this).trans (le_of_eq ?_)
    ring

/-- C134. Chebyshev's inequality: of the numbers of a line, those whose distance from the mean is `t` or more are no more
than their number times the variance over `t` squared. -/
theorem C134_tail {y : Larry L} (hy : y.Numeric) :
    Computes (fun axis => y.var axis 0)
      (NumberWith fun l s => ∀ t, 0 < t → ((l.filter fun q => t ≤ |q - l.sum / l.length|).length : ℚ) ≤ l.length * s / (t * t))
      .float y := by
  refine (C91_var 0 hy.valid hy.typed hy.elements hy.dtype).mono fun vs v ⟨s, e, h⟩ hi => ?_
  subst e
  rcases var_finites hi h with ⟨h1, rfl⟩ | ⟨h1, rfl⟩
  · exact .inl ⟨h1, rfl⟩
  · refine .inr ⟨h1, _, rfl, fun t ht => ?_⟩
    simp only [onLine]
    rw [variance_squares h1, le_div_iff₀ (mul_pos ht ht), mul_div_cancel₀ _ (length_pos' h1).ne']
    exact squares_tail _ ht.le _

/-- What three calls return, compared cell by cell. -/
inductive CompareThree (R : Val → Val → Val → Prop) : Res (Out L) → Res (Out L) → Res (Out L) → Prop
  | scalar {u v w : Val} : R u v w → CompareThree R (.ok (.scalar u)) (.ok (.scalar v)) (.ok (.scalar w))
  | larry {x y z : Larry L} : x.label = y.label → y.label = z.label →
      (∀ names u v w, x.Has names u → y.Has names v → z.Has names w → R u v w) →
      CompareThree R (.ok (.larry x)) (.ok (.larry y)) (.ok (.larry z))

/-- Where `s` is a number, so are `a` and `m`, and the square of their difference is at most `s`. -/
def WithinRoot (a m s : Val) : Prop :=
  ∀ r, s = .flt (.fin r) → ∃ p q, a = .flt (.fin p) ∧ m = .flt (.fin q) ∧ (p - q) * (p - q) ≤ r

theorem compare_three {m₁ m₂ m₃ : Option Int → Res (Out L)} {S₁ S₂ S₃ : List Val → Val → Prop} {d₁ d₂ d₃ : DType} {y : Larry L}
    (hv : y.Valid) (h₁ : Computes m₁ S₁ d₁ y) (h₂ : Computes m₂ S₂ d₂ y) (h₃ : Computes m₃ S₃ d₃ y)
    {R : Val → Val → Val → Prop} (hR : ∀ vs u v w, S₁ vs u → S₂ vs v → S₃ vs w → R u v w) {axis : Option Int}
    (hax : ∀ a, axis = some a → ∃ ax, pyIdx y.ndim a = some ax) : CompareThree R (m₁ axis) (m₂ axis) (m₃ axis) := by
  cases axis with
  | none =>
    obtain ⟨vs, u, a1, e1, s1⟩ := h₁.1
    obtain ⟨vs', v, a2, e2, s2⟩ := h₂.1
    obtain ⟨vs'', w, a3, e3, s3⟩ := h₃.1
    obtain rfl := allValues_unique hv a1 a2
    obtain rfl := allValues_unique hv a1 a3
    rw [e1, e2, e3]
    exact .scalar (hR _ _ _ _ s1 s2 s3)
  | some a =>
    obtain ⟨ax, hp⟩ := hax a rfl
    have hlt : ax < y.ndim := pyIdx_lt hp
    by_cases h1 : y.ndim = 1
    · have ha : a = 0 ∨ a = -1 := by
        rw [h1] at hp
        unfold pyIdx at hp
        split at hp <;> split at hp <;> simp at hp <;> omega
      obtain ⟨vs, u, a1, e1, s1⟩ := h₁.2.1 a h1 ha
      obtain ⟨vs', v, a2, e2, s2⟩ := h₂.2.1 a h1 ha
      obtain ⟨vs'', w, a3, e3, s3⟩ := h₃.2.1 a h1 ha
      obtain rfl := lineAt_unique hv a1 a2
      obtain rfl := lineAt_unique hv a1 a3
      rw [e1, e2, e3]
      exact .scalar (hR _ _ _ _ s1 s2 s3)
    · obtain ⟨z1, e1, v1, -, l1, c1⟩ := h₁.2.2 a ax (by omega) hp
      obtain ⟨z2, e2, v2, -, l2, c2⟩ := h₂.2.2 a ax (by omega) hp
      obtain ⟨z3, e3, v3, -, l3, c3⟩ := h₃.2.2 a ax (by omega) hp
      rw [e1, e2, e3]
      refine .larry (l1.trans l2.symm) (l2.trans l3.symm) fun names u v w hu hv' hw => ?_
      obtain ⟨vs, u', a1, b1, s1⟩ := c1 names (Named_of_Holds hu)
      obtain ⟨vs', v', a2, b2, s2⟩ := c2 names (Named_of_Holds hv')
      obtain ⟨vs'', w', a3, b3, s3⟩ := c3 names (Named_of_Holds hw)
      obtain rfl := lineAt_unique hv a1 a2
      obtain rfl := lineAt_unique hv a1 a3
      rw [Holds_unique v1.nodup hu b1, Holds_unique v2.nodup hv' b2, Holds_unique v3.nodup hw b3]
      exact hR _ _ _ _ s1 s2 s3

/-- C134. Mean and median are no more than a standard deviation apart: what `mean`, `median` and `var` return along an axis, or
for all elements, is cell by cell such that the square of the difference is at most the variance. -/
theorem C134_near {y : Larry L} (hy : y.Numeric) {axis : Option Int}
    (hax : ∀ a, axis = some a → ∃ ax, pyIdx y.ndim a = some ax) :
    CompareThree WithinRoot (y.mean axis) (y.median axis) (y.var axis 0) := by
  refine compare_three (m₃ := fun axis => y.var axis 0) hy.valid (C91_mean hy.valid hy.typed hy.elements hy.dtype)
    (C91_median hy.valid hy.typed hy.elements hy.dtype) (C91_var 0 hy.valid hy.typed hy.elements hy.dtype) ?_ hax
  rintro vs _ _ _ ⟨p, rfl, hp⟩ ⟨q, rfl, hq⟩ ⟨s, rfl, hs⟩ r e
  generalize vs.map Val.num = fs at hp hq hs
  obtain rfl : s = .fin r := by injection e
  have hf : NoInf fs := by
    cases hs with
    | finite qs m h1 h2 h3 h4 =>
      have := fin_no_inf h2
      exact fun x hx => ⟨fun e => this.1 (e ▸ hx), fun e => this.2 (e ▸ hx)⟩
  rcases var_finites hf hs with ⟨-, h4⟩ | ⟨h1, h4⟩
  · cases h4
  rw [variance_squares h1] at h4
  rcases mean_finites hf hp with ⟨h5, -⟩ | ⟨-, rfl⟩
  · exact absurd h5 h1
  obtain ⟨m, h2, h3⟩ := C91_middle hf h1
  obtain rfl := medianIs_unique hq (median_is fs)
  refine ⟨_, m, rfl, by rw [h2], ?_⟩
  rw [Flt.fin.inj h4]
  generalize finites fs = l at h1 h3
  have hn := length_pos' h1
  set a := l.sum / l.length with ha
  have h5 : |l.sum - l.length * m| ≤ farness a l := (sum_sub_le m l).trans (farness_median h3 a)
  have h6 : l.sum - l.length * m = l.length * (a - m) := by rw [ha]; field_simp
  rw [h6] at h5
  have h7 : (l.length * (a - m)) * (l.length * (a - m)) ≤ farness a l * farness a l := by
    rw [← abs_mul_abs_self (l.length * (a - m))]
    exact mul_self_le_mul_self (abs_nonneg _) h5
  have h8 := h7.trans (farness_sq a l)
  rw [le_div_iff₀ hn]
  have h9 : l.length * ((a - m) * (a - m) * l.length) ≤ l.length * squares a l := by linarith
  exact le_of_mul_le_mul_left h9 hn

/-! ## Cases -/

theorem exStat_numeric : exStat.Numeric := ⟨⟨rfl, by decide, by decide⟩, typed_cells (by decide +kernel), .inl rfl, by decide⟩

example : Computes exStat.mean (NumberWith fun l m => ∀ c, c ≠ m → squares m l < squares c l) .float exStat :=
  C134_mean exStat_numeric

/-- The numbers 1, 3, 5: the mean is 3, and the squared distances from it are 8; from 4 they are 11. -/
example : numberOf (exStat.mean none) = some (fl 3) ∧ squares 3 [1, 5, 3] = 8 ∧ squares 4 [1, 5, 3] = 11 ∧
    numberOf (exStat.median none) = some (fl 3) ∧ farness 3 [1, 5, 3] = 4 ∧ farness 4 [1, 5, 3] = 5 ∧
    numberOf (exStat.var none 0) = some (fl (8 / 3)) := by
  refine ⟨by decide +kernel, by decide +kernel, by decide +kernel, by decide +kernel, by decide +kernel, by decide +kernel,
    by decide +kernel⟩

/-- A larry whose mean and median differ: 0, 0, 3 have the mean 1, the median 0 and the variance 2. -/
def exSkewed : Larry Nat := ⟨NDArray.ofList [3] [fl 0, fl 0, fl 3], .float, [[0, 1, 2]]⟩

example : CompareThree WithinRoot (exSkewed.mean none) (exSkewed.median none) (exSkewed.var none 0) :=
  C134_near ⟨⟨rfl, by decide, by decide⟩, typed_cells (by decide +kernel), .inl rfl, by decide⟩ (fun _ h => nomatch h)

example : numberOf (exSkewed.mean none) = some (fl 1) ∧ numberOf (exSkewed.median none) = some (fl 0) ∧
    numberOf (exSkewed.var none 0) = some (fl 2) := ⟨by decide +kernel, by decide +kernel, by decide +kernel⟩

end La
