import Verif.RealStats
import Verif.Props.Reduce
import Verif.HeapWrite

/-!
# C68 and C69: geometric_mean and correlation over the real numbers
-/

namespace La

/-! ## Specification -/

/-- The real number an element stands for; none if it is missing (NaN). -/
def RFlt.real? : RFlt → Option ℝ
  | .fin r => some r
  | _ => none

/-- Neither of the infinities. -/
def RFlt.NoInf : RFlt → Prop
  | .pinf => False
  | .ninf => False
  | _ => True

/-- The elements a result is computed from: with axis `none` all of them, with an axis the ones met when
walking along the axis with the other coordinates fixed at `rest`. -/
def walk {α : Type _} (x : NDArray α) (ax : Option Nat) (rest : List Nat) : List α :=
  match ax with
  | none => (allIdx x.shape).map x.get
  | some ax => (List.range (x.shape.getD ax 0)).map fun i => x.get (rest.insertIdx ax i)

/-- The shape of the result. -/
def shapeWithout (s : List Nat) : Option Nat → List Nat
  | none => []
  | some ax => s.eraseIdx ax

/-- `axis` (an integer, negative ones counting from the end, or None) names the axis `ax` (or all of them). -/
def Names (n : Nat) (axis : Option Int) (ax : Option Nat) : Prop :=
  match axis, ax with
  | none, none => True
  | some a, some k => k < n ∧ (a = k ∨ a = (k : Int) - n)
  | _, _ => False

/-- The numbers that are present among `l`. -/
def numbers (l : List RFlt) : List ℝ := l.filterMap RFlt.real?

/-- The pairs of numbers at the places where both are present. -/
def numberPairs (l : List (RFlt × RFlt)) : List (ℝ × ℝ) :=
  l.filterMap fun p => match p.1, p.2 with
    | .fin a, .fin b => some (a, b)
    | _, _ => none

/-- `v` is the geometric mean of the nonnegative numbers `l`: NaN if there are none, else the nonnegative
number whose power with the number of elements is their product. -/
def IsGeometricMean (l : List ℝ) (v : RFlt) : Prop :=
  (l = [] ∧ v = .nan) ∨ (l ≠ [] ∧ ∃ g : ℝ, v = .fin g ∧ 0 ≤ g ∧ g ^ l.length = l.prod)

/-- The average of a list of numbers. -/
noncomputable def average (l : List ℝ) : ℝ := l.sum / l.length

/-- The sum of products of the deviations of two quantities from their averages. -/
noncomputable def deviations {α : Type _} (f g : α → ℝ) (l : List α) : ℝ :=
  (l.map fun p => (f p - average (l.map f)) * (g p - average (l.map g))).sum

/-- Pearson's correlation coefficient of a list of pairs. -/
noncomputable def pearson (l : List (ℝ × ℝ)) : ℝ :=
  deviations Prod.fst Prod.snd l /
    (Real.sqrt (deviations Prod.fst Prod.fst l) * Real.sqrt (deviations Prod.snd Prod.snd l))

/-- One of the two quantities does not vary (as when there are fewer than two pairs). -/
def Still (l : List (ℝ × ℝ)) : Prop :=
  (∀ p ∈ l, ∀ q ∈ l, p.1 = q.1) ∨ (∀ p ∈ l, ∀ q ∈ l, p.2 = q.2)

/-- `v` is the correlation of the pairs `l`: NaN if one quantity does not vary, else Pearson's coefficient. -/
def IsCorrelation (l : List (ℝ × ℝ)) (v : RFlt) : Prop :=
  (Still l ∧ v = .nan) ∨ (¬ Still l ∧ v = .fin (pearson l))

/-! ## Sums of real numbers -/

theorem foldl_add_fin (l : List ℝ) (a : ℝ) : (l.map RFlt.fin).foldl RFlt.add (.fin a) = .fin (a + l.sum) := by
  induction l generalizing a with
  | nil => simp
  | cons b l ih => simp [RFlt.add, ih, add_assoc]

theorem sum_map_fin (l : List ℝ) : RFlt.sum (l.map RFlt.fin) = .fin l.sum := by
  rw [RFlt.sum, foldl_add_fin, zero_add]

theorem foldl_nan (l : List RFlt) : l.foldl RFlt.add .nan = .nan := by
  induction l with
  | nil => rfl
  | cons b l ih => simpa [RFlt.add] using ih

theorem sum_append (l m : List RFlt) : RFlt.sum (l ++ m) = m.foldl RFlt.add (RFlt.sum l) := by
  rw [RFlt.sum, List.foldl_append]; rfl

/-! ## geometric_mean -/

theorem numbers_nan (l : List RFlt) : numbers (.nan :: l) = numbers l := rfl

theorem numbers_fin (r : ℝ) (l : List RFlt) : numbers (.fin r :: l) = r :: numbers l := rfl

theorem gm_count (l : List RFlt) (hl : ∀ v ∈ l, v.NoInf) :
    RFlt.sum (l.map fun v => .fin (if v.isNan then 0 else 1)) = .fin (numbers l).length := by
  have : (l.map fun v : RFlt => RFlt.fin (if v.isNan then 0 else 1)) =
      (l.map fun v : RFlt => if v.isNan then (0 : ℝ) else 1).map RFlt.fin := by simp
  rw [this, sum_map_fin]
  congr 1
  induction l with
  | nil => simp [numbers]
  | cons v l ih =>
    have hv := hl v (by simp)
    have ih := ih (fun w h => hl w (by simp [h])) (by simp)
    match v, hv with
    | .nan, _ => rw [numbers_nan, ← ih]; simp [RFlt.isNan]
    | .fin r, _ => rw [numbers_fin, List.length_cons, Nat.cast_succ, ← ih]; simp [RFlt.isNan, add_comm]

theorem numbers_ne_nil_count {l : List RFlt} (h : numbers l ≠ []) : (0 : ℝ) < (numbers l).length := by
  have : 0 < (numbers l).length := List.length_pos_iff.mpr h
  exact_mod_cast this

/-- The logarithms after NaNs are replaced by one. -/
noncomputable def logs (l : List RFlt) : List RFlt := (l.map fun v => RFlt.put v.isNan (.fin 1) v).map RFlt.log

theorem logs_nan (l : List RFlt) : logs (.nan :: l) = .fin 0 :: logs l := by
  simp [logs, RFlt.put, RFlt.isNan, RFlt.log]

theorem logs_neg {r : ℝ} (h : r < 0) (l : List RFlt) : logs (.fin r :: l) = .nan :: logs l := by
  simp [logs, RFlt.put, RFlt.isNan, RFlt.log, h]

theorem logs_zero (l : List RFlt) : logs (.fin 0 :: l) = .ninf :: logs l := by
  simp [logs, RFlt.put, RFlt.isNan, RFlt.log]

theorem logs_pos {r : ℝ} (h : 0 < r) (l : List RFlt) : logs (.fin r :: l) = .fin (Real.log r) :: logs l := by
  simp [logs, RFlt.put, RFlt.isNan, RFlt.log, not_lt.mpr h.le, h.ne']

/-- The sum of logarithms after NaNs are replaced by one, all numbers being positive. -/
theorem gm_logs (l : List RFlt) (hl : ∀ v ∈ l, v.NoInf) (hp : ∀ r ∈ numbers l, 0 < r) (a : ℝ) :
    (logs l).foldl RFlt.add (.fin a) = .fin (a + ((numbers l).map Real.log).sum) := by
  induction l generalizing a with
  | nil => simp [numbers, logs]
  | cons v l ih =>
    have hv := hl v (by simp)
    have hl' : ∀ v ∈ l, v.NoInf := fun w h => hl w (by simp [h])
    match v, hv with
    | .nan, _ => rw [logs_nan, numbers_nan, List.foldl_cons, RFlt.add, add_zero, ih hl' hp]
    | .fin r, _ =>
      rw [numbers_fin] at hp ⊢
      rw [logs_pos (hp r (by simp)), List.foldl_cons, RFlt.add, ih hl' (fun q h => hp q (by simp [h])),
        List.map_cons, List.sum_cons, add_assoc]

theorem gm_bad (l : List RFlt) (a : RFlt) (hl : ∀ v ∈ l, v.NoInf) (h : ∃ r ∈ numbers l, r < 0) :
    (logs l).foldl RFlt.add a = .nan := by
  induction l generalizing a with
  | nil => simp [numbers] at h
  | cons v l ih =>
    have hv := hl v (by simp)
    have hl' : ∀ v ∈ l, v.NoInf := fun w h => hl w (by simp [h])
    match v, hv with
    | .nan, _ => rw [logs_nan, List.foldl_cons]; exact ih _ hl' h
    | .fin q, _ =>
      by_cases hq : q < 0
      · rw [logs_neg hq, List.foldl_cons]
        have : a.add .nan = .nan := by cases a <;> rfl
        rw [this, foldl_nan]
      · obtain ⟨r, hr, hneg⟩ := h
        rw [numbers_fin] at hr
        have hr : r ∈ numbers l := (List.mem_cons.mp hr).resolve_left (by rintro rfl; exact hq hneg)
        obtain ⟨w, hw⟩ : ∃ w, logs (.fin q :: l) = w :: logs l := ⟨_, rfl⟩
        rw [hw, List.foldl_cons]
        exact ih _ hl' ⟨r, hr, hneg⟩

theorem gm_zero (l : List RFlt) (a : RFlt) (hl : ∀ v ∈ l, v.NoInf) (ha : (∃ r, a = .fin r) ∨ a = .ninf)
    (hn : ∀ r ∈ numbers l, 0 ≤ r) (h : a = .ninf ∨ (0 : ℝ) ∈ numbers l) :
    (logs l).foldl RFlt.add a = .ninf := by
  induction l generalizing a with
  | nil => simpa [numbers, logs] using h
  | cons v l ih =>
    have hv := hl v (by simp)
    have hl' : ∀ v ∈ l, v.NoInf := fun w h => hl w (by simp [h])
    match v, hv with
    | .nan, _ =>
      rw [logs_nan, List.foldl_cons]
      rw [numbers_nan] at hn h
      have : a.add (.fin 0) = a := by rcases ha with ⟨r, rfl⟩ | rfl <;> simp [RFlt.add]
      rw [this]
      exact ih a hl' ha hn h
    | .fin q, _ =>
      rw [numbers_fin] at hn h
      have hn' : ∀ r ∈ numbers l, 0 ≤ r := fun r h => hn r (by simp [h])
      rcases (hn q (by simp)).eq_or_lt with rfl | hq
      · rw [logs_zero, List.foldl_cons]
        have : a.add .ninf = .ninf := by rcases ha with ⟨r, rfl⟩ | rfl <;> simp [RFlt.add]
        rw [this]
        exact ih _ hl' (.inr rfl) hn' (.inl rfl)
      · rw [logs_pos hq, List.foldl_cons]
        rcases ha with ⟨r, rfl⟩ | rfl
        · refine ih _ hl' (.inl ⟨_, rfl⟩) hn' (.inr ?_)
          exact (List.mem_cons.mp (h.resolve_left (by simp))).resolve_left hq.ne
        · exact ih _ hl' (.inr rfl) hn' (.inl rfl)

theorem mem_numbers {l : List RFlt} {r : ℝ} : r ∈ numbers l ↔ .fin r ∈ l := by
  unfold numbers
  rw [List.mem_filterMap]
  constructor
  · rintro ⟨v, hv, h⟩
    cases v <;> simp_all [RFlt.real?]
  · intro h
    exact ⟨_, h, rfl⟩

theorem gmLine_eq (l : List RFlt) (hl : ∀ v ∈ l, v.NoInf) :
    gmLine l = RFlt.mul (RFlt.exp ((RFlt.div (.fin 1) (.fin (numbers l).length)).mul (RFlt.sum (logs l))))
      (if numbers l = [] then .nan else .fin 1) := by
  have hc := gm_count l hl
  unfold gmLine
  simp only
  generalize RFlt.sum (l.map fun v => .fin (if v.isNan then 0 else 1)) = c at hc ⊢
  subst hc
  by_cases h : numbers l = []
  · rw [if_pos h, if_pos (by simp [h])]; rfl
  · rw [if_neg h, if_neg (by simpa using h)]; rfl

/-- What the loop body computes on a line whose numbers are all positive. -/
theorem gmLine_pos (l : List RFlt) (hl : ∀ v ∈ l, v.NoInf) (hp : ∀ r ∈ numbers l, 0 < r) (h : numbers l ≠ []) :
    gmLine l = .fin (Real.exp (((numbers l).map Real.log).sum / (numbers l).length)) := by
  have h0 := numbers_ne_nil_count h
  rw [gmLine_eq l hl, if_neg h, RFlt.sum, gm_logs l hl hp 0]
  simp [RFlt.div, h0.ne', RFlt.mul, RFlt.exp, div_eq_inv_mul]

theorem gmLine_nil (l : List RFlt) (hl : ∀ v ∈ l, v.NoInf) (h : numbers l = []) : gmLine l = .nan := by
  rw [gmLine_eq l hl, if_pos h]
  generalize RFlt.exp _ = e
  cases e <;> rfl

theorem exp_sum_log (l : List ℝ) (hp : ∀ r ∈ l, 0 < r) : Real.exp ((l.map Real.log).sum) = l.prod := by
  induction l with
  | nil => simp
  | cons a l ih =>
    rw [List.map_cons, List.sum_cons, List.prod_cons, Real.exp_add, Real.exp_log (hp a (by simp)),
      ih fun r h => hp r (by simp [h])]

theorem gm_spec (l : List RFlt) (hl : ∀ v ∈ l, v.NoInf) (hn : ∀ r ∈ numbers l, 0 ≤ r) :
    IsGeometricMean (numbers l) (gmLine l) := by
  by_cases h : numbers l = []
  · exact .inl ⟨h, gmLine_nil l hl h⟩
  refine .inr ⟨h, ?_⟩
  have h0 := numbers_ne_nil_count h
  by_cases hz : (0 : ℝ) ∈ numbers l
  · refine ⟨0, ?_, le_refl _, ?_⟩
    · rw [gmLine_eq l hl, if_neg h, RFlt.sum, gm_zero l _ hl (.inl ⟨0, rfl⟩) hn (.inr hz)]
      simp [RFlt.div, h0.ne', RFlt.mul, RFlt.infOf, RFlt.exp, not_lt.mpr h0.le, h0]
    · rw [zero_pow (List.length_pos_iff.mpr h).ne', eq_comm, List.prod_eq_zero hz]
  · have hp : ∀ r ∈ numbers l, 0 < r := fun r hr => lt_of_le_of_ne (hn r hr) (by rintro rfl; exact hz hr)
    refine ⟨_, gmLine_pos l hl hp h, (Real.exp_pos _).le, ?_⟩
    rw [← Real.exp_nat_mul, mul_div_cancel₀ _ h0.ne', exp_sum_log _ hp]

theorem gm_neg (l : List RFlt) (hl : ∀ v ∈ l, v.NoInf) (hn : ∃ r ∈ numbers l, r < 0) : gmLine l = .nan := by
  have h : numbers l ≠ [] := by
    obtain ⟨r, hr, -⟩ := hn
    exact List.ne_nil_of_mem hr
  have h0 := numbers_ne_nil_count h
  rw [gmLine_eq l hl, if_neg h, RFlt.sum, gm_bad l _ hl hn]
  simp [RFlt.div, h0.ne', RFlt.mul, RFlt.exp]

/-- Every element in range is one of the elements along an axis, and of the flat list. -/
theorem mem_vals' {α : Type _} (x : NDArray α) {v : α} : v ∈ x.vals ↔ ∃ idx, InB x.shape idx ∧ x.get idx = v := by
  simp only [NDArray.vals, List.mem_map, mem_allIdx]

theorem mem_walk {α : Type _} {x : NDArray α} {ax : Option Nat} (hax : ∀ k, ax = some k → k < x.shape.length)
    {rest : List Nat} (hr : InB (shapeWithout x.shape ax) rest) {v : α} (h : v ∈ walk x ax rest) :
    ∃ idx, InB x.shape idx ∧ x.get idx = v := by
  match ax with
  | none => exact (mem_vals' x).mp h
  | some ax =>
    obtain ⟨i, hi, rfl⟩ := List.mem_map.mp h
    exact ⟨_, InB_insert (hax ax rfl) (List.mem_range.mp hi) hr, rfl⟩

theorem Names.pyIdx {n : Nat} {a : Int} {k : Nat} (h : Names n (some a) (some k)) : pyIdx n a = some k := by
  obtain ⟨h1, h2⟩ := h
  unfold La.pyIdx
  rcases h2 with rfl | rfl
  · simp [h1]
  · rw [if_neg (by omega), if_pos (by omega)]
    congr 1
    omega

theorem Names.lt {n : Nat} {a : Option Int} {ax : Option Nat} (h : Names n a ax) : ∀ k, ax = some k → k < n := by
  rintro k rfl
  match a, h with
  | some a, h => exact h.1

/-- What `geometric_mean` returns when the check passes. -/
theorem geometricMean_ok (x : NDArray RFlt) {axis : Option Int} {ax : Option Nat} (hax : Names x.ndim axis ax) {check : Bool}
    (hc : check = true → ∀ v ∈ x.vals, ¬ v.Nonpos) :
    ∃ z, geometricMean x axis check = .ok z ∧ z.shape = shapeWithout x.shape ax ∧
      ∀ rest, z.get rest = gmLine (walk x ax rest) := by
  have hn : ¬ ((∃ v ∈ x.vals, v.Nonpos) ∧ check = true) := by
    rintro ⟨⟨v, h1, h2⟩, h3⟩
    exact hc h3 v h1 h2
  match axis, ax, hax with
  | none, none, _ => exact ⟨_, by rw [geometricMean, if_neg hn], rfl, fun rest => rfl⟩
  | some a, some k, h =>
    exact ⟨x.reduceAx gmLine k, by simp only [geometricMean, if_neg hn, h.pyIdx], rfl, fun rest => rfl⟩

/-- C68. Each result of geometric_mean is NaN if no number is present along the axis (or at all, with axis=None),
and else is the number whose m-th power is the product of the m numbers present.  With the check on, the numbers have
to be positive; with the check off, zeros are allowed as well. -/
theorem C68_geometric_mean (x : NDArray RFlt) {axis : Option Int} {ax : Option Nat} (hax : Names x.ndim axis ax)
    {check : Bool} (hinf : ∀ idx, InB x.shape idx → (x.get idx).NoInf)
    (hpos : ∀ idx, InB x.shape idx → ∀ r, x.get idx = .fin r → 0 ≤ r)
    (hc : check = true → ∀ idx, InB x.shape idx → x.get idx ≠ .fin 0) :
    ∃ z, geometricMean x axis check = .ok z ∧ z.shape = shapeWithout x.shape ax ∧
      ∀ rest, InB z.shape rest → IsGeometricMean (numbers (walk x ax rest)) (z.get rest) := by
  obtain ⟨z, h1, h2, h3⟩ := geometricMean_ok x hax (check := check) (fun h v hv hn => by
    obtain ⟨idx, hi, rfl⟩ := (mem_vals' x).mp hv
    have := hinf idx hi
    have hp := hpos idx hi
    have h0 := hc h idx hi
    match he : x.get idx, this, hn with
    | .fin r, _, hn =>
      have : r = 0 := le_antisymm hn (hp r he)
      exact h0 (by rw [he, this]))
  refine ⟨z, h1, h2, fun rest hr => ?_⟩
  rw [h3]
  rw [h2] at hr
  refine gm_spec _ (fun v hv => ?_) (fun r hr' => ?_)
  · obtain ⟨idx, hi, rfl⟩ := mem_walk hax.lt hr hv
    exact hinf idx hi
  · obtain ⟨idx, hi, he⟩ := mem_walk hax.lt hr (mem_numbers.mp hr')
    exact hpos idx hi r he

/-- C68. With the check on, a number that is zero or less anywhere in the array is a ValueError, whatever the axis. -/
theorem C68_check (x : NDArray RFlt) (axis : Option Int) {idx : List Nat} (hi : InB x.shape idx) {r : ℝ}
    (h : x.get idx = .fin r) (hr : r ≤ 0) : geometricMean x axis true = .error .valueError := by
  have : (∃ v ∈ x.vals, v.Nonpos) ∧ true = true := ⟨⟨_, (mem_vals' x).mpr ⟨idx, hi, rfl⟩, by rw [h]; exact hr⟩, rfl⟩
  unfold geometricMean
  rw [if_pos this]

/-- C68. With the check off, a negative number along the axis makes that result NaN, and no other. -/
theorem C68_negative (x : NDArray RFlt) {axis : Option Int} {ax : Option Nat} (hax : Names x.ndim axis ax)
    (hinf : ∀ idx, InB x.shape idx → (x.get idx).NoInf) :
    ∃ z, geometricMean x axis false = .ok z ∧ z.shape = shapeWithout x.shape ax ∧
      ∀ rest, InB z.shape rest →
        ((∃ r ∈ numbers (walk x ax rest), r < 0) → z.get rest = .nan) ∧
        ((∀ r ∈ numbers (walk x ax rest), 0 ≤ r) → IsGeometricMean (numbers (walk x ax rest)) (z.get rest)) := by
  obtain ⟨z, h1, h2, h3⟩ := geometricMean_ok x hax (check := false) (by simp)
  refine ⟨z, h1, h2, fun rest hr => ?_⟩
  rw [h3]
  rw [h2] at hr
  have hni : ∀ v ∈ walk x ax rest, v.NoInf := fun v hv => by
    obtain ⟨idx, hi, rfl⟩ := mem_walk hax.lt hr hv
    exact hinf idx hi
  exact ⟨gm_neg _ hni, gm_spec _ hni⟩

/-- C68. The specification has one solution. -/
theorem C68_unique {l : List ℝ} {v w : RFlt} (hv : IsGeometricMean l v) (hw : IsGeometricMean l w) : v = w := by
  rcases hv with ⟨h, rfl⟩ | ⟨h, g, rfl, hg, he⟩ <;> rcases hw with ⟨h', rfl⟩ | ⟨h', g', rfl, hg', he'⟩
  · rfl
  · exact absurd h h'
  · exact absurd h' h
  · rw [(pow_left_inj₀ hg hg' (List.length_pos_iff.mpr h).ne').mp (he.trans he'.symm)]

/-- Two lines of numbers, the second one with a NaN. -/
noncomputable def exLines : NDArray RFlt := ⟨[2, 3], fun idx =>
  ([[RFlt.fin 2, .fin 8, .fin 4], [.fin 9, .nan, .fin 1]].getD (idx.getD 0 0) []).getD (idx.getD 1 0) .nan⟩

theorem exLines_cases (idx : List Nat) (h : InB exLines.shape idx) :
    exLines.get idx = .fin 2 ∨ exLines.get idx = .fin 8 ∨ exLines.get idx = .fin 4 ∨ exLines.get idx = .fin 9 ∨
      exLines.get idx = .nan ∨ exLines.get idx = .fin 1 := by
  have : idx ∈ allIdx [2, 3] := mem_allIdx.mpr h
  have e : allIdx [2, 3] = [[0, 0], [0, 1], [0, 2], [1, 0], [1, 1], [1, 2]] := by decide
  rw [e] at this
  simp only [List.mem_cons, List.not_mem_nil, or_false] at this
  rcases this with rfl | rfl | rfl | rfl | rfl | rfl <;> simp [exLines]

/-- The geometric means of 2, 8, 4 and of 9, 1. -/
example : ∃ z, geometricMean exLines (some (-1)) true = .ok z ∧ z.shape = [2] ∧
    z.get [0] = .fin 4 ∧ z.get [1] = .fin 3 := by
  obtain ⟨z, h1, h2, h3⟩ := C68_geometric_mean exLines (axis := some (-1)) (ax := some 1) (check := true)
    ⟨by decide, .inr (by decide)⟩
    (fun idx h => by rcases exLines_cases idx h with h | h | h | h | h | h <;> rw [h] <;> trivial)
    (fun idx h r hr => by
      rcases exLines_cases idx h with h | h | h | h | h | h <;> rw [h] at hr <;> cases hr <;> norm_num)
    (fun _ idx h he => by
      rcases exLines_cases idx h with h | h | h | h | h | h <;> rw [h] at he <;> simp at he)
  refine ⟨z, h1, h2, ?_, ?_⟩
  · refine C68_unique (h3 [0] (by rw [h2]; decide)) ?_
    refine .inr ⟨?_, 4, rfl, by norm_num, ?_⟩ <;>
      simp [walk, exLines, numbers, RFlt.real?, List.range_succ]; norm_num
  · have h := h3 [1] (by rw [h2]; decide)
    have e : numbers (walk exLines (some 1) [1]) = [9, 1] := by
      simp only [walk, exLines, List.getD_cons_succ, List.getD_cons_zero, List.range_succ, List.range_zero]
      rfl
    rw [e] at h
    exact C68_unique h (.inr ⟨by simp, 3, rfl, by norm_num, by norm_num⟩)

theorem pow_le_prod {l : List ℝ} {a : ℝ} (ha : 0 ≤ a) (h : ∀ r ∈ l, a ≤ r) : a ^ l.length ≤ l.prod := by
  induction l with
  | nil => simp
  | cons b l ih =>
    rw [List.length_cons, pow_succ', List.prod_cons]
    exact mul_le_mul (h b (by simp)) (ih fun r hr => h r (by simp [hr])) (pow_nonneg ha _) (ha.trans (h b (by simp)))

theorem prod_le_pow {l : List ℝ} {a : ℝ} (h : ∀ r ∈ l, 0 ≤ r ∧ r ≤ a) : l.prod ≤ a ^ l.length := by
  induction l with
  | nil => simp
  | cons b l ih =>
    rw [List.length_cons, pow_succ', List.prod_cons]
    exact mul_le_mul (h b (by simp)).2 (ih fun r hr => h r (by simp [hr]))
      (List.prod_nonneg fun r hr => (h r (by simp [hr])).1) ((h b (by simp)).1.trans (h b (by simp)).2)

/-- The geometric mean is at most the average. -/
theorem prod_le_average {l : List ℝ} (hp : ∀ r ∈ l, 0 ≤ r) (h : l ≠ []) : l.prod ≤ average l ^ l.length := by
  have h0 : (0 : ℝ) < l.length := by exact_mod_cast List.length_pos_iff.mpr h
  by_cases hz : (0 : ℝ) ∈ l
  · rw [List.prod_eq_zero hz]
    exact pow_nonneg (div_nonneg (List.sum_nonneg hp) h0.le) _
  have hp : ∀ r ∈ l, 0 < r := fun r hr => lt_of_le_of_ne (hp r hr) (by rintro rfl; exact hz hr)
  have hs : 0 < l.sum := List.sum_pos _ hp h
  have hA : 0 < average l := div_pos hs h0
  have key : ∀ m : List ℝ, (∀ r ∈ m, 0 < r) →
      (m.map Real.log).sum ≤ m.length * Real.log (average l) + m.sum / average l - m.length := by
    intro m hm
    induction m with
    | nil => simp
    | cons b m ih =>
      have ih := ih fun r hr => hm r (by simp [hr])
      have hb : 0 < b := hm b (by simp)
      have := Real.log_le_sub_one_of_pos (div_pos hb hA)
      rw [Real.log_div hb.ne' hA.ne'] at this
      simp only [List.map_cons, List.sum_cons, List.length_cons, Nat.cast_succ, add_div]
      linarith
  have := key l hp
  have e : l.sum / average l = l.length := by
    unfold average
    field_simp
  rw [e, add_sub_cancel_right] at this
  rw [← exp_sum_log l hp, ← Real.exp_log hA, ← Real.exp_nat_mul]
  exact Real.exp_le_exp.mpr this

/-- C68. A geometric mean lies between any bounds of the numbers, and is at most their average. -/
theorem C68_bounds {l : List ℝ} {g : ℝ} (hg : IsGeometricMean l (.fin g)) (hl : ∀ r ∈ l, 0 ≤ r) :
    (∀ lo, 0 ≤ lo → (∀ r ∈ l, lo ≤ r) → lo ≤ g) ∧ (∀ hi, (∀ r ∈ l, r ≤ hi) → g ≤ hi) ∧ g ≤ average l := by
  rcases hg with ⟨_, h⟩ | ⟨h, g', e, hg, he⟩
  · cases h
  obtain rfl := RFlt.fin.inj e
  have hne := (List.length_pos_iff.mpr h).ne'
  refine ⟨fun lo h0 hlo => ?_, fun hi hhi => ?_, ?_⟩
  · exact (pow_le_pow_iff_left₀ h0 hg hne).mp (he ▸ pow_le_prod h0 hlo)
  · obtain ⟨r, hr⟩ := List.exists_mem_of_ne_nil _ h
    exact (pow_le_pow_iff_left₀ hg ((hl r hr).trans (hhi r hr)) hne).mp
      (he ▸ prod_le_pow fun r hr => ⟨hl r hr, hhi r hr⟩)
  · exact (pow_le_pow_iff_left₀ hg (div_nonneg (List.sum_nonneg hl) (Nat.cast_nonneg _)) hne).mp
      (he ▸ prod_le_average hl h)

/-! ## correlation -/

/-- Both numbers of a pair, if present. -/
def both : RFlt × RFlt → Option (ℝ × ℝ)
  | (.fin a, .fin b) => some (a, b)
  | _ => none

theorem numberPairs_eq (l : List (RFlt × RFlt)) : numberPairs l = l.filterMap both := by
  unfold numberPairs
  congr 1
  funext p
  obtain ⟨a, b⟩ := p
  cases a <;> cases b <;> rfl

/-- The pair of floats of a pair of numbers, NaNs for none. -/
def unboth : Option (ℝ × ℝ) → RFlt × RFlt
  | some p => (.fin p.1, .fin p.2)
  | none => (.nan, .nan)

theorem maskPair_eq {p : RFlt × RFlt} (h1 : p.1.NoInf) (h2 : p.2.NoInf) : maskPair p = unboth (both p) := by
  obtain ⟨a, b⟩ := p
  cases a <;> cases b <;> first | rfl | exact h1.elim | exact h2.elim

theorem pairMask_eq {p : RFlt × RFlt} (h1 : p.1.NoInf) (h2 : p.2.NoInf) : pairMask p = (both p).isNone := by
  obtain ⟨a, b⟩ := p
  cases a <;> cases b <;> first | rfl | exact h1.elim | exact h2.elim

theorem unmasked {l : List (RFlt × RFlt)} (h1 : ∀ p ∈ l, p.1.NoInf ∧ p.2.NoInf) :
    (l.filter fun p => !pairMask p) = (numberPairs l).map fun p => (.fin p.1, .fin p.2) := by
  rw [numberPairs_eq]
  induction l with
  | nil => rfl
  | cons p l ih =>
    have ih := ih fun q h => h1 q (by simp [h])
    have hp := h1 p (by simp)
    obtain ⟨a, b⟩ := p
    cases a <;> cases b <;>
      first
        | exact hp.1.elim
        | exact hp.2.elim
        | (rw [List.filter_cons_of_neg (by simp [pairMask, RFlt.isNan]), ih]; rfl)
        | (rw [List.filter_cons_of_pos (by rfl), ih]; rfl)

theorem map_sum_fin {α : Type _} (l : List α) (f : α → ℝ) : RFlt.sum (l.map fun p => .fin (f p)) = .fin (l.map f).sum := by
  rw [← sum_map_fin, List.map_map]; rfl

theorem mean_fin {α : Type _} {l : List α} (h : l ≠ []) (f : α → ℝ) :
    RFlt.mean (l.map fun p => .fin (f p)) = .fin (average (l.map f)) := by
  have h0 : (l.length : ℝ) ≠ 0 := by simpa using h
  rw [RFlt.mean, map_sum_fin, RFlt.div, List.length_map, if_neg h0, average, List.length_map]

theorem deviations_nonneg {α : Type _} (f : α → ℝ) (l : List α) : 0 ≤ deviations f f l :=
  List.sum_nonneg (by
    intro r hr
    obtain ⟨p, -, rfl⟩ := List.mem_map.mp hr
    exact mul_self_nonneg _)

theorem sum_sq_eq_zero {α : Type _} {l : List α} {f : α → ℝ} : (l.map fun p => f p * f p).sum = 0 ↔ ∀ p ∈ l, f p = 0 := by
  induction l with
  | nil => simp
  | cons a l ih =>
    have h2 : 0 ≤ (l.map fun p => f p * f p).sum := List.sum_nonneg (by
      intro r hr
      obtain ⟨p, -, rfl⟩ := List.mem_map.mp hr
      exact mul_self_nonneg _)
    have h1 := mul_self_nonneg (f a)
    rw [List.map_cons, List.sum_cons]
    constructor
    · intro h
      have ha : f a * f a = 0 := by linarith
      intro p hp
      rcases List.mem_cons.mp hp with rfl | hp
      · exact mul_self_eq_zero.mp ha
      · exact ih.mp (by linarith) p hp
    · intro h
      rw [h a (by simp), ih.mpr fun p hp => h p (by simp [hp])]
      simp

theorem average_const {α : Type _} {l : List α} (h : l ≠ []) {f : α → ℝ} {c : ℝ} (hc : ∀ p ∈ l, f p = c) :
    average (l.map f) = c := by
  have h0 : (l.length : ℝ) ≠ 0 := by simpa using h
  have : l.map f = List.replicate l.length c := by
    rw [List.eq_replicate_iff]
    exact ⟨by simp, fun b hb => by obtain ⟨p, hp, rfl⟩ := List.mem_map.mp hb; exact hc p hp⟩
  rw [average, this]
  simp [h0]

/-- A quantity has no deviation exactly if it does not vary. -/
theorem deviations_eq_zero {α : Type _} {l : List α} {f : α → ℝ} :
    deviations f f l = 0 ↔ ∀ p ∈ l, ∀ q ∈ l, f p = f q := by
  unfold deviations
  rw [sum_sq_eq_zero (f := fun p => f p - average (l.map f))]
  constructor
  · intro h p hp q hq
    have := h p hp
    have := h q hq
    linarith
  · intro h p hp
    rw [average_const (List.ne_nil_of_mem hp) (fun q hq => h q hq p hp), sub_self]

theorem still_iff (l : List (ℝ × ℝ)) :
    Still l ↔ deviations Prod.fst Prod.fst l = 0 ∨ deviations Prod.snd Prod.snd l = 0 := by
  rw [deviations_eq_zero, deviations_eq_zero]; rfl

theorem deviations_still {l : List (ℝ × ℝ)} (h : Still l) : deviations Prod.fst Prod.snd l = 0 := by
  have hz : ∀ (f : ℝ × ℝ → ℝ), deviations f f l = 0 → ∀ p ∈ l, f p - average (l.map f) = 0 := fun f hf =>
    sum_sq_eq_zero.mp hf
  have : l.map (fun p => (p.1 - average (l.map Prod.fst)) * (p.2 - average (l.map Prod.snd))) = l.map fun _ => 0 := by
    apply List.map_congr_left
    intro p hp
    rcases (still_iff l).mp h with h | h
    · rw [hz _ h p hp, zero_mul]
    · rw [hz _ h p hp, mul_zero]
  unfold deviations
  rw [this]
  simp

/-- The last step, `num / den`. -/
theorem ratio_spec (l : List (ℝ × ℝ)) :
    IsCorrelation l (RFlt.div (.fin (deviations Prod.fst Prod.snd l))
      (RFlt.sqrt (RFlt.mul (.fin (deviations Prod.fst Prod.fst l)) (.fin (deviations Prod.snd Prod.snd l))))) := by
  have h1 := deviations_nonneg Prod.fst l
  have h2 := deviations_nonneg Prod.snd l
  rw [RFlt.mul, RFlt.sqrt, if_neg (not_lt.mpr (mul_nonneg h1 h2)), Real.sqrt_mul h1, RFlt.div]
  by_cases h : Still l
  · left
    refine ⟨h, ?_⟩
    rw [if_pos, deviations_still h]
    · simp [RFlt.infOf]
    · rcases (still_iff l).mp h with h | h <;> simp [h]
  · right
    refine ⟨h, ?_⟩
    rw [if_neg]
    · rfl
    · rw [still_iff, not_or] at h
      have a1 := Real.sqrt_pos.mpr (lt_of_le_of_ne h1 (Ne.symm h.1))
      have a2 := Real.sqrt_pos.mpr (lt_of_le_of_ne h2 (Ne.symm h.2))
      exact (mul_pos a1 a2).ne'

theorem still_nil : Still [] := .inl (by simp)

/-- The branch without NaN functions, on pairs of numbers. -/
theorem corr_fast (l : List (ℝ × ℝ)) :
    IsCorrelation l (corrWith RFlt.mean RFlt.sum (l.map fun p => (.fin p.1, .fin p.2))) := by
  by_cases h : l = []
  · subst h
    refine .inl ⟨still_nil, ?_⟩
    simp [corrWith, RFlt.sum, RFlt.mul, RFlt.sqrt, RFlt.div, RFlt.infOf]
  · have e := ratio_spec l
    convert e using 1
    unfold corrWith deviations
    simp only [List.map_map, Function.comp_def, mean_fin h, RFlt.sub, RFlt.neg, RFlt.add,
      ← sub_eq_add_neg, List.zipWith_map_left, List.zipWith_map_right, List.zipWith_self, RFlt.mul, map_sum_fin]

/-- A function of pairs of numbers, NaN where there is no pair. -/
def lift (f : ℝ × ℝ → ℝ) : Option (ℝ × ℝ) → RFlt
  | some p => .fin (f p)
  | none => .nan

theorem filter_lift (os : List (Option (ℝ × ℝ))) (f : ℝ × ℝ → ℝ) :
    ((os.map (lift f)).filter fun v => !v.isNan) = (os.filterMap id).map fun p => .fin (f p) := by
  induction os with
  | nil => rfl
  | cons o os ih =>
    cases o with
    | none => rw [List.map_cons, List.filter_cons_of_neg (by simp [lift, RFlt.isNan]), ih]; rfl
    | some p => rw [List.map_cons, List.filter_cons_of_pos (by simp [lift, RFlt.isNan]), ih]; rfl

theorem nansum_lift (os : List (Option (ℝ × ℝ))) (f : ℝ × ℝ → ℝ) (h : os.filterMap id ≠ []) :
    RFlt.nansum (os.map (lift f)) = .fin ((os.filterMap id).map f).sum := by
  unfold RFlt.nansum
  simp only [filter_lift, List.length_map]
  rw [if_neg (by simpa using h), map_sum_fin]

theorem nanmean_lift (os : List (Option (ℝ × ℝ))) (f : ℝ × ℝ → ℝ) (h : os.filterMap id ≠ []) :
    RFlt.nanmean (os.map (lift f)) = .fin (average ((os.filterMap id).map f)) := by
  unfold RFlt.nanmean
  simp only [filter_lift, List.length_map]
  rw [if_neg (by simpa using h), mean_fin h]

theorem map_unboth_fst (os : List (Option (ℝ × ℝ))) : (os.map unboth).map Prod.fst = os.map (lift Prod.fst) := by
  rw [List.map_map]
  exact List.map_congr_left fun o _ => by cases o <;> rfl

theorem map_unboth_snd (os : List (Option (ℝ × ℝ))) : (os.map unboth).map Prod.snd = os.map (lift Prod.snd) := by
  rw [List.map_map]
  exact List.map_congr_left fun o _ => by cases o <;> rfl

theorem lift_sub (os : List (Option (ℝ × ℝ))) (f : ℝ × ℝ → ℝ) (c : ℝ) :
    (os.map (lift f)).map (fun v => v.sub (.fin c)) = os.map (lift fun p => f p - c) := by
  rw [List.map_map]
  exact List.map_congr_left fun o _ => by
    cases o with
    | none => rfl
    | some p => show RFlt.fin (f p + -c) = RFlt.fin (f p - c); rw [sub_eq_add_neg]

theorem lift_sq (os : List (Option (ℝ × ℝ))) (f : ℝ × ℝ → ℝ) :
    (os.map (lift f)).map (fun v => v.mul v) = os.map (lift fun p => f p * f p) := by
  rw [List.map_map]
  exact List.map_congr_left fun o _ => by cases o <;> rfl

theorem lift_mul (os : List (Option (ℝ × ℝ))) (f g : ℝ × ℝ → ℝ) :
    List.zipWith RFlt.mul (os.map (lift f)) (os.map (lift g)) = os.map (lift fun p => f p * g p) := by
  induction os with
  | nil => rfl
  | cons o os ih =>
    rw [List.map_cons, List.map_cons, List.zipWith_cons_cons, ih, List.map_cons]
    cases o <;> rfl

theorem nansum_none (l : List RFlt) (h : ∀ v ∈ l, v = .nan) : RFlt.nansum l = .nan := by
  unfold RFlt.nansum
  have : (l.filter fun v => !v.isNan) = [] := by
    rw [List.filter_eq_nil_iff]
    intro v hv
    rw [h v hv]
    simp [RFlt.isNan]
  simp only [this]
  rfl

/-- The branch with NaN functions. -/
theorem corr_nan (os : List (Option (ℝ × ℝ))) :
    IsCorrelation (os.filterMap id) (corrWith RFlt.nanmean RFlt.nansum (os.map unboth)) := by
  by_cases h : os.filterMap id = []
  · rw [h]
    refine .inl ⟨still_nil, ?_⟩
    have hn : ∀ o ∈ os, o = none := by
      intro o ho
      match o with
      | none => rfl
      | some p =>
        have : p ∈ os.filterMap id := List.mem_filterMap.mpr ⟨_, ho, rfl⟩
        rw [h] at this
        cases this
    unfold corrWith
    simp only [map_unboth_fst, map_unboth_snd]
    rw [nansum_none (List.zipWith _ _ _)]
    · rfl
    · intro v hv
      obtain ⟨i, hi⟩ := List.getElem?_of_mem hv
      rw [List.getElem?_zipWith, List.map_map, List.map_map, List.getElem?_map, List.getElem?_map] at hi
      cases ho : os[i]? with
      | none => rw [ho] at hi; cases hi
      | some o =>
        rw [ho, hn o (List.mem_of_getElem? ho)] at hi
        exact (Option.some.inj hi).symm
  · have e := ratio_spec (os.filterMap id)
    convert e using 1
    unfold corrWith deviations
    simp only [map_unboth_fst, map_unboth_snd, nanmean_lift _ _ h, lift_sub, lift_sq, lift_mul, nansum_lift _ _ h]

theorem corr_masked {l : List (RFlt × RFlt)} (h : ∀ p ∈ l, p.1.NoInf ∧ p.2.NoInf) :
    IsCorrelation (numberPairs l) (corrWith RFlt.nanmean RFlt.nansum (l.map maskPair)) := by
  have : l.map maskPair = (l.map both).map unboth := by
    rw [List.map_map]
    exact List.map_congr_left fun p hp => maskPair_eq (h p hp).1 (h p hp).2
  rw [this]
  have e := corr_nan (l.map both)
  rw [List.filterMap_map] at e
  rw [numberPairs_eq]
  exact e

theorem corr_unmasked {l : List (RFlt × RFlt)} (h : ∀ p ∈ l, p.1.NoInf ∧ p.2.NoInf) :
    IsCorrelation (numberPairs l) (corrWith RFlt.mean RFlt.sum (l.filter fun p => !pairMask p)) := by
  rw [unmasked h]
  exact corr_fast _

theorem corr_nonan {l : List (RFlt × RFlt)} (h : ∀ p ∈ l, p.1.NoInf ∧ p.2.NoInf) (hm : ∀ p ∈ l, pairMask p = false) :
    IsCorrelation (numberPairs l) (corrWith RFlt.mean RFlt.sum l) := by
  have := corr_unmasked h
  rwa [List.filter_eq_self.mpr (fun p hp => by rw [hm p hp]; rfl)] at this

theorem walk_zip (x1 x2 : NDArray RFlt) (hs : x1.shape = x2.shape) (ax : Option Nat) (rest : List Nat) :
    walk (NDArray.zipWith Prod.mk x1 x2) ax rest = (walk x1 ax rest).zip (walk x2 ax rest) := by
  cases ax <;> simp [walk, NDArray.zipWith, ← hs, List.zip_map']

/-- C69. Each result of correlation is Pearson's coefficient of the pairs of numbers at the places along the axis (or
anywhere, with axis=None) where both arrays have one, and NaN if one of the two does not vary over these places.  An int
array together with NaNs in the other one is only possible with axis=None. -/
theorem C69_correlation (x1 x2 : NDArray RFlt) (hs : x1.shape = x2.shape) {int1 int2 : Bool} {axis : Option Int}
    {ax : Option Nat} (hax : Names x1.ndim axis ax)
    (hinf : ∀ idx, InB x1.shape idx → (x1.get idx).NoInf ∧ (x2.get idx).NoInf)
    (hint : axis = none ∨ (int1 = false ∧ int2 = false) ∨
      ∀ idx, InB x1.shape idx → x1.get idx ≠ .nan ∧ x2.get idx ≠ .nan) :
    ∃ z, correlation x1 x2 int1 int2 axis = .ok z ∧ z.shape = shapeWithout x1.shape ax ∧
      ∀ rest, InB z.shape rest →
        IsCorrelation (numberPairs ((walk x1 ax rest).zip (walk x2 ax rest))) (z.get rest) := by
  have hmem : ∀ rest, InB (shapeWithout x1.shape ax) rest → ∀ p ∈ walk (NDArray.zipWith Prod.mk x1 x2) ax rest,
      ∃ idx, InB x1.shape idx ∧ (x1.get idx, x2.get idx) = p := fun rest hr p hp =>
    mem_walk (x := NDArray.zipWith Prod.mk x1 x2) hax.lt hr hp
  have hni : ∀ rest, InB (shapeWithout x1.shape ax) rest → ∀ p ∈ walk (NDArray.zipWith Prod.mk x1 x2) ax rest,
      p.1.NoInf ∧ p.2.NoInf := fun rest hr p hp => by
    obtain ⟨idx, hi, rfl⟩ := hmem rest hr p hp
    exact hinf idx hi
  by_cases hany : (NDArray.zipWith Prod.mk x1 x2).vals.any pairMask = true
  · match axis, ax, hax with
    | none, none, _ =>
      refine ⟨⟨[], fun _ => _⟩, by simp only [correlation, if_pos hany]; rfl, rfl, fun rest hr => ?_⟩
      rw [← walk_zip x1 x2 hs]
      exact corr_unmasked (hni rest hr)
    | some a, some k, h =>
      have hi : (int1 || int2) = false := by
        rcases hint with h | ⟨rfl, rfl⟩ | h
        · cases h
        · rfl
        · obtain ⟨p, hp, hm⟩ := List.any_eq_true.mp hany
          obtain ⟨idx, hi, rfl⟩ := (mem_vals' _).mp hp
          obtain ⟨a1, a2⟩ := h idx hi
          simp only [NDArray.zipWith, pairMask, Bool.or_eq_true] at hm
          rcases hm with hm | hm
          · cases he : x1.get idx <;> simp_all [RFlt.isNan]
          · cases he : x2.get idx <;> simp_all [RFlt.isNan]
      have hp : pyIdx (NDArray.zipWith Prod.mk x1 x2).ndim a = some k := h.pyIdx
      refine ⟨_, by simp only [correlation, if_pos hany, hi, hp]; rfl, rfl, fun rest hr => ?_⟩
      rw [← walk_zip x1 x2 hs]
      have := corr_masked (hni rest hr)
      simpa [NDArray.reduceAx, NDArray.line, walk, NDArray.map, List.map_map, Function.comp_def] using this
  · have hno : ∀ idx, InB x1.shape idx → pairMask (x1.get idx, x2.get idx) = false := fun idx hi => by
      by_contra hm
      exact hany (List.any_eq_true.mpr ⟨_, (mem_vals' _).mpr ⟨idx, hi, rfl⟩, by simpa [NDArray.zipWith] using hm⟩)
    have hmk : ∀ rest, InB (shapeWithout x1.shape ax) rest →
        ∀ p ∈ walk (NDArray.zipWith Prod.mk x1 x2) ax rest, pairMask p = false := fun rest hr p hp => by
      obtain ⟨idx, hi, rfl⟩ := hmem rest hr p hp
      exact hno idx hi
    match axis, ax, hax with
    | none, none, _ =>
      refine ⟨⟨[], fun _ => _⟩, by simp only [correlation, if_neg hany]; rfl, rfl, fun rest hr => ?_⟩
      rw [← walk_zip x1 x2 hs]
      exact corr_nonan (hni rest hr) (hmk rest hr)
    | some a, some k, h =>
      have hp : pyIdx (NDArray.zipWith Prod.mk x1 x2).ndim a = some k := h.pyIdx
      refine ⟨_, by simp only [correlation, if_neg hany, hp]; rfl, rfl, fun rest hr => ?_⟩
      rw [← walk_zip x1 x2 hs]
      exact corr_nonan (hni rest hr) (hmk rest hr)

/-- C69. A NaN in either array while one of them is an int array is a ValueError if an axis is given. -/
theorem C69_int (x1 x2 : NDArray RFlt) {int1 int2 : Bool} (hi : int1 = true ∨ int2 = true) (axis : Int)
    {idx : List Nat} (hidx : InB x1.shape idx) (hn : x1.get idx = .nan ∨ x2.get idx = .nan) :
    correlation x1 x2 int1 int2 (some axis) = .error .valueError := by
  have hany : (NDArray.zipWith Prod.mk x1 x2).vals.any pairMask = true :=
    List.any_eq_true.mpr ⟨_, (mem_vals' _).mpr ⟨idx, hidx, rfl⟩, by
      rcases hn with h | h <;> simp [NDArray.zipWith, pairMask, h, RFlt.isNan]⟩
  have : (int1 || int2) = true := by rcases hi with rfl | rfl <;> simp
  simp [correlation, hany, this]

theorem sum_square {α : Type _} (l : List α) (f g : α → ℝ) (a b : ℝ) :
    (l.map fun p => (a * g p + b * f p) * (a * g p + b * f p)).sum =
      a ^ 2 * (l.map fun p => g p * g p).sum + 2 * a * b * (l.map fun p => f p * g p).sum +
        b ^ 2 * (l.map fun p => f p * f p).sum := by
  induction l with
  | nil => simp
  | cons p l ih =>
    simp only [List.map_cons, List.sum_cons, ih]
    ring

/-- Cauchy and Schwarz. -/
theorem cauchy (l : List (ℝ × ℝ)) :
    deviations Prod.fst Prod.snd l ^ 2 ≤ deviations Prod.fst Prod.fst l * deviations Prod.snd Prod.snd l := by
  have hA := deviations_nonneg Prod.fst l
  rcases hA.eq_or_lt with h | h
  · have : Still l := (still_iff l).mpr (.inl h.symm)
    rw [deviations_still this, ← h]
    simp
  · have e := sum_square l (fun p => p.1 - average (l.map Prod.fst)) (fun p => p.2 - average (l.map Prod.snd))
      (deviations Prod.fst Prod.fst l) (-deviations Prod.fst Prod.snd l)
    have h0 : 0 ≤ deviations Prod.fst Prod.fst l *
        (deviations Prod.fst Prod.fst l * deviations Prod.snd Prod.snd l - deviations Prod.fst Prod.snd l ^ 2) := by
      have : 0 ≤ (l.map fun p => (deviations Prod.fst Prod.fst l * (p.2 - average (l.map Prod.snd)) +
          -deviations Prod.fst Prod.snd l * (p.1 - average (l.map Prod.fst))) *
          (deviations Prod.fst Prod.fst l * (p.2 - average (l.map Prod.snd)) +
          -deviations Prod.fst Prod.snd l * (p.1 - average (l.map Prod.fst)))).sum :=
        List.sum_nonneg (by
          intro r hr
          obtain ⟨p, -, rfl⟩ := List.mem_map.mp hr
          exact mul_self_nonneg _)
      rw [e] at this
      change 0 ≤ _ ^ 2 * deviations Prod.snd Prod.snd l + _ * deviations Prod.fst Prod.snd l +
        _ * deviations Prod.fst Prod.fst l at this
      nlinarith
    have := nonneg_of_mul_nonneg_right h0 h
    linarith

theorem spread_pos {l : List (ℝ × ℝ)} (h : ¬ Still l) :
    0 < deviations Prod.fst Prod.fst l ∧ 0 < deviations Prod.snd Prod.snd l := by
  rw [still_iff, not_or] at h
  exact ⟨lt_of_le_of_ne (deviations_nonneg _ l) (Ne.symm h.1), lt_of_le_of_ne (deviations_nonneg _ l) (Ne.symm h.2)⟩

theorem pearson_abs {l : List (ℝ × ℝ)} (h : ¬ Still l) : |pearson l| ≤ 1 := by
  obtain ⟨h1, h2⟩ := spread_pos h
  have hd : 0 < Real.sqrt (deviations Prod.fst Prod.fst l) * Real.sqrt (deviations Prod.snd Prod.snd l) :=
    mul_pos (Real.sqrt_pos.mpr h1) (Real.sqrt_pos.mpr h2)
  rw [pearson, abs_div, abs_of_pos hd, div_le_one hd, ← Real.sqrt_mul h1.le]
  exact Real.abs_le_sqrt (cauchy l)

theorem average_affine {α : Type _} {l : List α} (h : l ≠ []) {f g : α → ℝ} {a b : ℝ}
    (hg : ∀ p ∈ l, g p = a * f p + b) : average (l.map g) = a * average (l.map f) + b := by
  have h0 : (l.length : ℝ) ≠ 0 := by simpa using h
  have : (l.map g).sum = a * (l.map f).sum + l.length * b := by
    clear h h0
    induction l with
    | nil => simp
    | cons p l ih =>
      rw [List.map_cons, List.sum_cons, ih fun q hq => hg q (by simp [hq]), hg p (by simp), List.map_cons, List.sum_cons,
        List.length_cons]
      push_cast
      ring
  rw [average, average, this, List.length_map, List.length_map]
  field_simp

theorem sum_mul_left {α : Type _} (l : List α) (f : α → ℝ) (c : ℝ) : (l.map fun p => c * f p).sum = c * (l.map f).sum := by
  induction l with
  | nil => simp
  | cons p l ih => rw [List.map_cons, List.sum_cons, ih, List.map_cons, List.sum_cons, mul_add]

/-- Deviations of quantities that are affine functions of others. -/
theorem deviations_affine {α : Type _} {l : List α} {f g f' g' : α → ℝ} {a b c d : ℝ}
    (hf : ∀ p ∈ l, f' p = a * f p + b) (hg : ∀ p ∈ l, g' p = c * g p + d) :
    deviations f' g' l = a * c * deviations f g l := by
  by_cases h : l = []
  · subst h; simp [deviations]
  unfold deviations
  rw [← sum_mul_left]
  congr 1
  apply List.map_congr_left
  intro p hp
  rw [average_affine h hf, average_affine h hg, hf p hp, hg p hp]
  ring

theorem sqrt_sq_mul {a A : ℝ} : Real.sqrt (a * a * A) = |a| * Real.sqrt A := by
  rw [Real.sqrt_mul (mul_self_nonneg a), Real.sqrt_mul_self_eq_abs]

/-- Pairs on a line. -/
theorem pearson_line {l : List (ℝ × ℝ)} (h : ¬ Still l) {a b : ℝ} (hl : ∀ p ∈ l, p.2 = a * p.1 + b) :
    pearson l = a / |a| := by
  obtain ⟨h1, h2⟩ := spread_pos h
  have e1 : deviations Prod.fst Prod.snd l = 1 * a * deviations Prod.fst Prod.fst l :=
    deviations_affine (b := 0) (fun p _ => by ring) hl
  have e2 : deviations Prod.snd Prod.snd l = a * a * deviations Prod.fst Prod.fst l := deviations_affine hl hl
  rw [pearson, e1, e2, sqrt_sq_mul, mul_left_comm, Real.mul_self_sqrt h1.le, one_mul, mul_div_mul_right _ _ h1.ne']

/-- Perfectly correlated pairs are on a line. -/
theorem line_of_pearson {l : List (ℝ × ℝ)} (h : ¬ Still l) (hr : pearson l * pearson l = 1) :
    ∃ a b : ℝ, ∀ p ∈ l, p.2 = a * p.1 + b := by
  obtain ⟨h1, h2⟩ := spread_pos h
  have hP : deviations Prod.fst Prod.snd l ^ 2 = deviations Prod.fst Prod.fst l * deviations Prod.snd Prod.snd l := by
    rw [pearson, div_mul_div_comm, mul_mul_mul_comm, Real.mul_self_sqrt h1.le, Real.mul_self_sqrt h2.le,
      div_eq_one_iff_eq (mul_pos h1 h2).ne'] at hr
    rw [sq, hr]
  have e := sum_square l (fun p => p.1 - average (l.map Prod.fst)) (fun p => p.2 - average (l.map Prod.snd))
    (deviations Prod.fst Prod.fst l) (-deviations Prod.fst Prod.snd l)
  change _ = _ ^ 2 * deviations Prod.snd Prod.snd l + _ * deviations Prod.fst Prod.snd l +
        _ * deviations Prod.fst Prod.fst l at e
  have e0 : deviations Prod.fst Prod.fst l ^ 2 * deviations Prod.snd Prod.snd l +
      2 * deviations Prod.fst Prod.fst l * -deviations Prod.fst Prod.snd l * deviations Prod.fst Prod.snd l +
      (-deviations Prod.fst Prod.snd l) ^ 2 * deviations Prod.fst Prod.fst l = 0 := by
    have : deviations Prod.fst Prod.fst l ^ 2 * deviations Prod.snd Prod.snd l +
      2 * deviations Prod.fst Prod.fst l * -deviations Prod.fst Prod.snd l * deviations Prod.fst Prod.snd l +
      (-deviations Prod.fst Prod.snd l) ^ 2 * deviations Prod.fst Prod.fst l = deviations Prod.fst Prod.fst l *
      (deviations Prod.fst Prod.fst l * deviations Prod.snd Prod.snd l - deviations Prod.fst Prod.snd l ^ 2) := by ring
    rw [this, hP, sub_self, mul_zero]
  rw [e0] at e
  have hz := sum_sq_eq_zero.mp e
  refine ⟨deviations Prod.fst Prod.snd l / deviations Prod.fst Prod.fst l, average (l.map Prod.snd) -
    deviations Prod.fst Prod.snd l / deviations Prod.fst Prod.fst l * average (l.map Prod.fst), fun p hp => ?_⟩
  have := hz p hp
  field_simp
  linarith

/-- C69. A correlation is at most one in absolute value, and is 1 or -1 exactly for pairs on a rising or a falling
line. -/
theorem C69_bounds {l : List (ℝ × ℝ)} {r : ℝ} (h : IsCorrelation l (.fin r)) :
    |r| ≤ 1 ∧ (r = 1 ↔ ∃ a b : ℝ, 0 < a ∧ ∀ p ∈ l, p.2 = a * p.1 + b) ∧
      (r = -1 ↔ ∃ a b : ℝ, a < 0 ∧ ∀ p ∈ l, p.2 = a * p.1 + b) := by
  rcases h with ⟨_, h⟩ | ⟨hs, h⟩
  · cases h
  obtain rfl := RFlt.fin.inj h
  refine ⟨pearson_abs hs, ⟨fun hr => ?_, ?_⟩, ⟨fun hr => ?_, ?_⟩⟩
  · obtain ⟨a, b, hl⟩ := line_of_pearson hs (by rw [hr]; norm_num)
    refine ⟨a, b, ?_, hl⟩
    rw [pearson_line hs hl] at hr
    rcases lt_trichotomy a 0 with h | h | h
    · rw [abs_of_neg h, div_neg, div_self h.ne] at hr; norm_num at hr
    · rw [h] at hr; norm_num at hr
    · exact h
  · rintro ⟨a, b, ha, hl⟩
    rw [pearson_line hs hl, abs_of_pos ha, div_self ha.ne']
  · obtain ⟨a, b, hl⟩ := line_of_pearson hs (by rw [hr]; norm_num)
    refine ⟨a, b, ?_, hl⟩
    rw [pearson_line hs hl] at hr
    rcases lt_trichotomy a 0 with h | h | h
    · exact h
    · rw [h] at hr; norm_num at hr
    · rw [abs_of_pos h, div_self h.ne'] at hr; norm_num at hr
  · rintro ⟨a, b, ha, hl⟩
    rw [pearson_line hs hl, abs_of_neg ha, div_neg, div_self ha.ne]

/-- C69. The specification has one solution. -/
theorem C69_unique {l : List (ℝ × ℝ)} {v w : RFlt} (hv : IsCorrelation l v) (hw : IsCorrelation l w) : v = w := by
  rcases hv with ⟨h, rfl⟩ | ⟨h, rfl⟩ <;> rcases hw with ⟨h', rfl⟩ | ⟨h', rfl⟩ <;> first | rfl | contradiction

theorem deviations_map {α β : Type _} (k : α → β) (f g : β → ℝ) (l : List α) :
    deviations f g (l.map k) = deviations (fun p => f (k p)) (fun p => g (k p)) l := by
  simp [deviations, List.map_map, Function.comp_def]

theorem deviations_comm {α : Type _} (f g : α → ℝ) (l : List α) : deviations f g l = deviations g f l := by
  simp [deviations, mul_comm]

/-- C69. Changing the units of the quantities, `a*x + b` and `c*y + d`, changes the correlation at most in its sign. -/
theorem C69_units {l : List (ℝ × ℝ)} {r : ℝ} (h : IsCorrelation l (.fin r)) {a b c d : ℝ} (ha : a ≠ 0) (hc : c ≠ 0) :
    IsCorrelation (l.map fun p => (a * p.1 + b, c * p.2 + d)) (.fin (if 0 < a * c then r else -r)) := by
  rcases h with ⟨_, h⟩ | ⟨hs, h⟩
  · cases h
  obtain rfl := RFlt.fin.inj h
  obtain ⟨h1, h2⟩ := spread_pos hs
  have e1 : deviations Prod.fst Prod.fst (l.map fun p => (a * p.1 + b, c * p.2 + d)) =
      a * a * deviations Prod.fst Prod.fst l := by
    rw [deviations_map]; exact deviations_affine (fun _ _ => rfl) (fun _ _ => rfl)
  have e2 : deviations Prod.snd Prod.snd (l.map fun p => (a * p.1 + b, c * p.2 + d)) =
      c * c * deviations Prod.snd Prod.snd l := by
    rw [deviations_map]; exact deviations_affine (fun _ _ => rfl) (fun _ _ => rfl)
  have e3 : deviations Prod.fst Prod.snd (l.map fun p => (a * p.1 + b, c * p.2 + d)) =
      a * c * deviations Prod.fst Prod.snd l := by
    rw [deviations_map]; exact deviations_affine (fun _ _ => rfl) (fun _ _ => rfl)
  right
  refine ⟨?_, ?_⟩
  · rw [still_iff, e1, e2]
    simp [ha, hc, h1.ne', h2.ne']
  · congr 1
    symm
    rw [pearson, e1, e2, e3, sqrt_sq_mul, sqrt_sq_mul, mul_mul_mul_comm, mul_div_mul_comm, ← abs_mul]
    split
    · next h => rw [abs_of_pos h, div_self h.ne', one_mul]; rfl
    · next h =>
      have h : a * c < 0 := lt_of_le_of_ne (not_lt.mp h) (mul_ne_zero ha hc)
      rw [abs_of_neg h, div_neg, div_self h.ne]
      simp [pearson]

theorem isCorrelation_swap {l : List (ℝ × ℝ)} {v : RFlt} (h : IsCorrelation l v) : IsCorrelation (l.map Prod.swap) v := by
  have e1 : deviations Prod.fst Prod.fst (l.map Prod.swap) = deviations Prod.snd Prod.snd l := by rw [deviations_map]; rfl
  have e2 : deviations Prod.snd Prod.snd (l.map Prod.swap) = deviations Prod.fst Prod.fst l := by rw [deviations_map]; rfl
  have e3 : deviations Prod.fst Prod.snd (l.map Prod.swap) = deviations Prod.fst Prod.snd l := by
    rw [deviations_map, deviations_comm]; rfl
  have es : Still (l.map Prod.swap) ↔ Still l := by rw [still_iff, still_iff, e1, e2, or_comm]
  rcases h with ⟨h, rfl⟩ | ⟨h, rfl⟩
  · exact .inl ⟨es.mpr h, rfl⟩
  · refine .inr ⟨fun h' => h (es.mp h'), ?_⟩
    rw [pearson, pearson, e1, e2, e3, mul_comm]

theorem numberPairs_swap (l : List (RFlt × RFlt)) : numberPairs (l.map Prod.swap) = (numberPairs l).map Prod.swap := by
  rw [numberPairs_eq, numberPairs_eq, List.filterMap_map, List.map_filterMap]
  congr 1
  funext p
  obtain ⟨a, b⟩ := p
  cases a <;> cases b <;> rfl

/-- C69. The order of the two arrays does not matter. -/
theorem C69_symmetric (x1 x2 : NDArray RFlt) (hs : x1.shape = x2.shape) {int1 int2 : Bool} {axis : Option Int}
    {ax : Option Nat} (hax : Names x1.ndim axis ax)
    (hinf : ∀ idx, InB x1.shape idx → (x1.get idx).NoInf ∧ (x2.get idx).NoInf) {z : NDArray RFlt}
    (h : correlation x1 x2 int1 int2 axis = .ok z) :
    ∃ z', correlation x2 x1 int2 int1 axis = .ok z' ∧ z.Same z' := by
  have hint : axis = none ∨ (int1 = false ∧ int2 = false) ∨
      ∀ idx, InB x1.shape idx → x1.get idx ≠ .nan ∧ x2.get idx ≠ .nan := by
    by_contra hn
    push Not at hn
    obtain ⟨h1, h2, idx, hi, h3⟩ := hn
    obtain ⟨a, rfl⟩ := Option.ne_none_iff_exists'.mp h1
    rw [C69_int x1 x2 (int1 := int1) (int2 := int2) (by cases int1 <;> cases int2 <;> simp_all) a hi (by
      by_cases h4 : x1.get idx = .nan
      · exact .inl h4
      · exact .inr (h3 h4))] at h
    cases h
  obtain ⟨z0, g1, g2, g3⟩ := C69_correlation x1 x2 hs hax hinf hint
  rw [h] at g1
  obtain rfl := Except.ok.inj g1
  obtain ⟨z', k1, k2, k3⟩ := C69_correlation x2 x1 hs.symm (int1 := int2) (int2 := int1) (axis := axis) (ax := ax)
    (by rw [NDArray.ndim, ← hs]; exact hax) (fun idx hi => (hinf idx (hs ▸ hi)).symm)
    (hint.imp_right (Or.imp And.symm fun h idx hi => (h idx (hs ▸ hi)).symm))
  refine ⟨z', k1, by rw [g2, k2, hs], fun rest hr => ?_⟩
  refine C69_unique (g3 rest hr) ?_
  have := isCorrelation_swap (k3 rest (by rw [k2, ← hs, ← g2]; exact hr))
  rwa [← numberPairs_swap, List.zip_swap] at this

/-- The rows of `exLines` are compared with the rows 1, 7, 3 and 5, 6, 13: pairs on a rising line, and pairs on a
falling one with one of them missing. -/
noncomputable def exOther : NDArray RFlt := ⟨[2, 3], fun idx =>
  ([[RFlt.fin 1, .fin 7, .fin 3], [.fin 5, .fin 6, .fin 13]].getD (idx.getD 0 0) []).getD (idx.getD 1 0) .nan⟩

theorem exOther_fin (idx : List Nat) (h : InB exOther.shape idx) : ∃ r, exOther.get idx = .fin r := by
  have : idx ∈ allIdx [2, 3] := mem_allIdx.mpr h
  have e : allIdx [2, 3] = [[0, 0], [0, 1], [0, 2], [1, 0], [1, 1], [1, 2]] := by decide
  rw [e] at this
  simp only [List.mem_cons, List.not_mem_nil, or_false] at this
  rcases this with rfl | rfl | rfl | rfl | rfl | rfl <;> exact ⟨_, rfl⟩

example : ∃ z, correlation exLines exOther false false (some 1) = .ok z ∧ z.shape = [2] ∧
    z.get [0] = .fin 1 ∧ z.get [1] = .fin (-1) := by
  obtain ⟨z, h1, h2, h3⟩ := C69_correlation exLines exOther rfl (int1 := false) (int2 := false) (axis := some 1)
    (ax := some 1) ⟨by decide, .inl rfl⟩
    (fun idx h => by
      obtain ⟨r, hr⟩ := exOther_fin idx h
      rw [hr]
      rcases exLines_cases idx h with h | h | h | h | h | h <;> rw [h] <;> exact ⟨trivial, trivial⟩)
    (.inr (.inl ⟨rfl, rfl⟩))
  refine ⟨z, h1, h2, ?_, ?_⟩
  · have h := h3 [0] (by rw [h2]; decide)
    have e : numberPairs ((walk exLines (some 1) [0]).zip (walk exOther (some 1) [0])) = [(2, 1), (8, 7), (4, 3)] := by
      simp [walk, exLines, exOther, numberPairs, List.range_succ]
    rw [e] at h
    have hs : ¬ Still [((2 : ℝ), (1 : ℝ)), (8, 7), (4, 3)] := by
      rintro (h | h) <;> have := h (2, 1) (by simp) (8, 7) (by simp) <;> norm_num at this
    rcases h with ⟨h, -⟩ | ⟨-, h⟩
    · exact absurd h hs
    · rw [h, pearson_line hs (a := 1) (b := -1)]
      · norm_num
      · simp; norm_num
  · have h := h3 [1] (by rw [h2]; decide)
    have e : numberPairs ((walk exLines (some 1) [1]).zip (walk exOther (some 1) [1])) = [(9, 5), (1, 13)] := by
      simp [walk, exLines, exOther, numberPairs, List.range_succ]
    rw [e] at h
    have hs : ¬ Still [((9 : ℝ), (5 : ℝ)), (1, 13)] := by
      rintro (h | h) <;> have := h (9, 5) (by simp) (1, 13) (by simp) <;> norm_num at this
    rcases h with ⟨h, -⟩ | ⟨-, h⟩
    · exact absurd h hs
    · rw [h, pearson_line hs (a := -1) (b := 14)]
      · norm_num
      · simp; norm_num

end La
