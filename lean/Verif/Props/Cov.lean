import Verif.Cov
import Verif.ReorderLines

/-!
# Property C67: the covariance matrix adjusted for missing values
-/

namespace La
open Larry
variable {L : Type _}

/-! ## Specification -/

/-- `V a c` is the number in row `a`, column `c`; NaN if missing, never infinite. -/
def Table (y : Larry L) (rows cols : List L) (V : L → L → Option ℚ) : Prop :=
  ∀ a ∈ rows, ∀ c ∈ cols, ∃ v, y.Has [a, c] v ∧ v.num = ((V a c).map Flt.fin).getD .nan

/-- The columns in which both rows have a value. -/
def common (V : L → L → Option ℚ) (cols : List L) (a b : L) : List L :=
  cols.filter fun c => (V a c).isSome && (V b c).isSome

/-- The mean product of two rows over the columns they share. -/
def meanProduct (V : L → L → Option ℚ) (cols : List L) (a b : L) : ℚ :=
  ((common V cols a b).map fun c => (V a c).getD 0 * (V b c).getD 0).sum / (common V cols a b).length

/-! ## Proofs -/

theorem has2 {y : Larry L} {rows cols : List L} (hl : y.label = [rows, cols]) {i t : Nat} {a c : L}
    (hi : rows[i]? = some a) (ht : cols[t]? = some c) : y.Has [a, c] (y.x.get [i, t]) :=
  ⟨[i, t], by rw [hl]; simp [At, hi, ht], rfl⟩

theorem shape2 {y : Larry L} (hv : y.Valid) {rows cols : List L} (hl : y.label = [rows, cols]) :
    y.x.shape = [rows.length, cols.length] ∧ y.ndim = 2 := by
  have : y.x.shape = [rows.length, cols.length] := by rw [hv.shape_eq, hl]; rfl
  exact ⟨this, by simp [Larry.ndim, NDArray.ndim, this]⟩

theorem table_get {y : Larry L} (hv : y.Valid) {rows cols : List L} (hl : y.label = [rows, cols])
    {V : L → L → Option ℚ} (hV : Table y rows cols V) {i t : Nat} {a c : L}
    (hi : rows[i]? = some a) (ht : cols[t]? = some c) : (y.x.get [i, t]).num = ((V a c).map Flt.fin).getD .nan := by
  obtain ⟨v, h1, h2⟩ := hV a (List.mem_of_getElem? hi) c (List.mem_of_getElem? ht)
  rw [Holds_unique hv.nodup (has2 hl hi ht) h1]
  exact h2

theorem presentOf_eq {v : Val} {o : Option ℚ} (h : v.num = (o.map Flt.fin).getD .nan) :
    presentOf v = if o.isSome then 1 else 0 := by
  cases o <;> simp_all [presentOf, Val.isNan, Flt.isNan]

theorem zeroNan_eq {v : Val} {o : Option ℚ} (h : v.num = (o.map Flt.fin).getD .nan) :
    zeroNan v = .fin (o.getD 0) := by
  cases o <;> simp_all [zeroNan, Val.isNan, Flt.isNan]

theorem map_range {α : Type _} (l : List L) (f : Nat → α) (g : L → α) (h : ∀ (i : Nat) c, l[i]? = some c → f i = g c) :
    (List.range l.length).map f = l.map g := by
  refine List.ext_getElem (by simp) fun i h1 h2 => ?_
  simp only [List.getElem_map, List.getElem_range]
  exact h i _ (List.getElem?_eq_getElem _)

theorem normalization_eq {y : Larry L} (hv : y.Valid) {rows cols : List L} (hl : y.label = [rows, cols])
    {V : L → L → Option ℚ} (hV : Table y rows cols V) {i j : Nat} {a b : L}
    (hi : rows[i]? = some a) (hj : rows[j]? = some b) :
    normalization y.x cols.length i j = (common V cols a b).length := by
  unfold normalization common
  rw [map_range cols _ (fun c => (if (V a c).isSome && (V b c).isSome then (1 : ℚ) else 0))
    (fun t c ht => by
      rw [presentOf_eq (table_get hv hl hV hi ht), presentOf_eq (table_get hv hl hV hj ht)]
      cases V a c <;> cases V b c <;> simp)]
  clear hl hV
  induction cols with
  | nil => simp
  | cons c cols ih =>
    rw [List.map_cons, List.sum_cons, ih, List.filter_cons]
    split <;> simp [add_comm]

theorem dotRows_eq {y : Larry L} (hv : y.Valid) {rows cols : List L} (hl : y.label = [rows, cols])
    {V : L → L → Option ℚ} (hV : Table y rows cols V) {d : DType} (hd : d ≠ .bool) {i j : Nat} {a b : L}
    (hi : rows[i]? = some a) (hj : rows[j]? = some b) :
    dotRows y.x d cols.length i j = .fin ((common V cols a b).map fun c => (V a c).getD 0 * (V b c).getD 0).sum := by
  unfold dotRows common
  rw [if_neg hd, map_range cols _ (fun c => Flt.fin ((V a c).getD 0 * (V b c).getD 0))
    (fun t c ht => by
      rw [zeroNan_eq (table_get hv hl hV hi ht), zeroNan_eq (table_get hv hl hV hj ht)]; rfl)]
  rw [show (cols.map fun c => Flt.fin ((V a c).getD 0 * (V b c).getD 0)) =
    (cols.map fun c => ((V a c).getD 0 * (V b c).getD 0)).map Flt.fin by simp, sum_fin]
  congr 1
  clear hl hV
  induction cols with
  | nil => rfl
  | cons c cols ih =>
    rw [List.map_cons, List.sum_cons, ih, List.filter_cons]
    cases h1 : V a c <;> cases h2 : V b c <;> simp [h1, h2]

theorem any_range_iff (l : List L) (p : Nat → Bool) :
    (List.range l.length).any p = true ↔ ∃ (i : Nat) (a : L), l[i]? = some a ∧ p i = true := by
  simp only [List.any_eq_true, List.mem_range]
  constructor
  · rintro ⟨i, hi, h⟩; exact ⟨i, _, List.getElem?_eq_getElem hi, h⟩
  · rintro ⟨i, a, hi, h⟩; exact ⟨i, (List.getElem?_eq_some_iff.mp hi).1, h⟩

theorem cov_cases {y : Larry L} (hv : y.Valid) {rows cols : List L} (hl : y.label = [rows, cols])
    (hd : y.dtype ≠ .str ∧ y.dtype ≠ .object) :
    (cov y = .error .valueError ∧ ∃ (i j : Nat) (a b : L), rows[i]? = some a ∧ rows[j]? = some b ∧
      normalization y.x cols.length i j < 2) ∨
    (cov y = .ok ⟨⟨[rows.length, rows.length], covAt y.x y.dtype cols.length⟩, .float, [rows, rows]⟩ ∧
      ∀ (i j : Nat) (a b : L), rows[i]? = some a → rows[j]? = some b → 2 ≤ normalization y.x cols.length i j) := by
  obtain ⟨hs, hn⟩ := shape2 hv hl
  unfold cov covMissing
  simp only [hn, hs, ne_eq, not_true_eq_false, if_false, List.getD_cons_zero, List.getD_cons_succ, hd.1, hd.2, or_self]
  by_cases h : (List.range rows.length).any (fun i => (List.range rows.length).any fun j =>
      decide (normalization y.x cols.length i j < 2)) = true
  · left
    simp only [h, if_true, true_and]
    obtain ⟨i, a, hi, h⟩ := (any_range_iff rows _).mp h
    obtain ⟨j, b, hj, h⟩ := (any_range_iff rows _).mp h
    exact ⟨i, j, a, b, hi, hj, of_decide_eq_true h⟩
  · right
    simp only [h, Bool.false_eq_true, if_false, hl, List.getD_cons_zero, true_and]
    intro i j a b hi hj
    by_contra hlt
    exact h ((any_range_iff rows _).mpr ⟨i, a, hi, (any_range_iff rows _).mpr ⟨j, b, hj, decide_eq_true (not_le.mp hlt)⟩⟩)

theorem cov_has {rows : List L} {f : List Nat → Val} {d : DType} {a b : L} {v : Val} :
    Larry.Has ⟨⟨[rows.length, rows.length], f⟩, d, [rows, rows]⟩ [a, b] v ↔
      ∃ i j : Nat, rows[i]? = some a ∧ rows[j]? = some b ∧ v = f [i, j] := by
  constructor
  · rintro ⟨idx, hat, rfl⟩
    match idx, hat with
    | [i, j], hat =>
      simp only [At, and_true] at hat
      exact ⟨i, j, hat.1, hat.2, rfl⟩
  · rintro ⟨i, j, hi, hj, rfl⟩
    exact ⟨[i, j], by simp [At, hi, hj], rfl⟩

/-- C67. On a 2d int or float larry without infinities, `cov` raises ValueError if two rows, or a row with
itself, share fewer than two columns without a missing value; otherwise the value under the names of two rows
is the mean of their products over the columns they share. -/
theorem C67_cov {y : Larry L} (hv : y.Valid) {rows cols : List L} (hl : y.label = [rows, cols])
    (hd : y.dtype = .float ∨ y.dtype = .int) {V : L → L → Option ℚ} (hV : Table y rows cols V) :
    ((∃ a ∈ rows, ∃ b ∈ rows, (common V cols a b).length < 2) → cov y = .error .valueError) ∧
    ((∀ a ∈ rows, ∀ b ∈ rows, 2 ≤ (common V cols a b).length) →
      ∃ z, cov y = .ok z ∧ z.Valid ∧ z.label = [rows, rows] ∧ z.dtype = .float ∧
        ∀ a ∈ rows, ∀ b ∈ rows, z.Has [a, b] (.flt (.fin (meanProduct V cols a b)))) := by
  have hd1 : y.dtype ≠ .str ∧ y.dtype ≠ .object := by rcases hd with h | h <;> rw [h] <;> decide
  have hd2 : y.dtype ≠ .bool := by rcases hd with h | h <;> rw [h] <;> decide
  have hrows : rows.Nodup := hv.nodup rows (by rw [hl]; simp)
  rcases cov_cases hv hl hd1 with ⟨h1, i, j, a, b, hi, hj, hlt⟩ | ⟨h1, h2⟩
  · refine ⟨fun _ => h1, fun h => ?_⟩
    rw [normalization_eq hv hl hV hi hj] at hlt
    have := h a (List.mem_of_getElem? hi) b (List.mem_of_getElem? hj)
    have : (2 : ℚ) ≤ (common V cols a b).length := by exact_mod_cast this
    linarith
  · constructor
    · rintro ⟨a, ha, b, hb, hlt⟩
      obtain ⟨i, hi⟩ := List.getElem?_of_mem ha
      obtain ⟨j, hj⟩ := List.getElem?_of_mem hb
      have := h2 i j a b hi hj
      rw [normalization_eq hv hl hV hi hj] at this
      have : 2 ≤ (common V cols a b).length := by exact_mod_cast this
      omega
    · intro h
      refine ⟨_, h1, ⟨rfl, by simpa using hrows, by simp⟩, rfl, rfl, fun a ha b hb => ?_⟩
      obtain ⟨i, hi⟩ := List.getElem?_of_mem ha
      obtain ⟨j, hj⟩ := List.getElem?_of_mem hb
      refine cov_has.mpr ⟨i, j, hi, hj, ?_⟩
      have hn : ((common V cols a b).length : ℚ) ≠ 0 := by
        have := h a ha b hb
        have : (0 : ℚ) < (common V cols a b).length := by exact_mod_cast (by omega)
        exact this.ne'
      simp only [covAt, List.getD_cons_zero, List.getD_cons_succ]
      rw [dotRows_eq hv hl hV hd2 hi hj, normalization_eq hv hl hV hi hj]
      simp only [Flt.div, hn, if_false, meanProduct]

/-- C67. The matrix is symmetric, whatever the dtype and the values. -/
theorem C67_symmetric {y z : Larry L} (hv : y.Valid) (h : cov y = .ok z) (a b : L) (v : Val) :
    z.Has [a, b] v ↔ z.Has [b, a] v := by
  have hn : y.ndim = 2 := by
    by_contra hn
    simp [cov, hn] at h
  obtain ⟨rows, cols, hl⟩ : ∃ rows cols, y.label = [rows, cols] := by
    have : y.label.length = 2 := by rw [hv.label_length, hn]
    match y.label, this with
    | [r, c], _ => exact ⟨r, c, rfl⟩
  have hd : y.dtype ≠ .str ∧ y.dtype ≠ .object := by
    by_contra hd
    have : y.dtype = .str ∨ y.dtype = .object := by tauto
    simp [cov, hn, covMissing, this] at h
  rcases cov_cases hv hl hd with ⟨h1, -⟩ | ⟨h1, -⟩
  · rw [h1] at h; simp at h
  · rw [h1] at h
    obtain rfl := Except.ok.inj h
    have key : ∀ i j : Nat, covAt y.x y.dtype cols.length [i, j] = covAt y.x y.dtype cols.length [j, i] := by
      intro i j
      simp only [covAt, List.getD_cons_zero, List.getD_cons_succ]
      have e1 : normalization y.x cols.length i j = normalization y.x cols.length j i := by
        simp only [normalization, mul_comm]
      have e2 : dotRows y.x y.dtype cols.length i j = dotRows y.x y.dtype cols.length j i := by
        simp only [dotRows, Flt.mul_comm', Bool.and_comm]
      rw [e1, e2]
    rw [cov_has, cov_has]
    constructor <;> rintro ⟨i, j, hi, hj, rfl⟩ <;> exact ⟨j, i, hj, hi, key i j⟩

theorem sum_nonneg' {α : Type _} (l : List α) (f : α → ℚ) (h : ∀ a ∈ l, 0 ≤ f a) : 0 ≤ (l.map f).sum := by
  induction l with
  | nil => simp
  | cons a l ih =>
    rw [List.map_cons, List.sum_cons]
    exact add_nonneg (h a List.mem_cons_self) (ih fun b hb => h b (List.mem_cons_of_mem _ hb))

/-- C67. The diagonal, the variances, is not negative. -/
theorem C67_variance {y z : Larry L} (hv : y.Valid) {rows cols : List L} (hl : y.label = [rows, cols])
    (hd : y.dtype = .float ∨ y.dtype = .int) {V : L → L → Option ℚ} (hV : Table y rows cols V) (h : cov y = .ok z)
    {a : L} (ha : a ∈ rows) : ∃ q, z.Has [a, a] (.flt (.fin q)) ∧ 0 ≤ q := by
  obtain ⟨c1, c2⟩ := C67_cov hv hl hd hV
  by_cases hc : ∃ a ∈ rows, ∃ b ∈ rows, (common V cols a b).length < 2
  · rw [c1 hc] at h; simp at h
  · push Not at hc
    obtain ⟨z', h1, -, -, -, h2⟩ := c2 hc
    rw [h1] at h
    obtain rfl := Except.ok.inj h
    exact ⟨_, h2 a ha a ha, div_nonneg (sum_nonneg' _ _ fun c _ => mul_self_nonneg _) (Nat.cast_nonneg _)⟩

theorem sum_mul_sum {α β : Type _} (l : List α) (m : List β) (f : α → β → ℚ) :
    (l.map fun a => (m.map fun b => f a b).sum).sum = (m.map fun b => (l.map fun a => f a b).sum).sum := by
  induction l with
  | nil => simp
  | cons a l ih =>
    rw [List.map_cons, List.sum_cons, ih]
    clear ih
    induction m with
    | nil => simp
    | cons b m ih2 =>
      simp only [List.map_cons, List.sum_cons] at ih2 ⊢
      rw [← ih2]; ring

theorem sum_mul_const {α : Type _} (l : List α) (f : α → ℚ) (k : ℚ) : (l.map fun a => f a * k).sum = (l.map f).sum * k := by
  induction l with
  | nil => simp
  | cons a l ih => simp [ih, add_mul]

/-- C67. Without missing values the matrix is positive semidefinite: no combination of the rows has a negative
variance. -/
theorem C67_semidefinite {y z : Larry L} (hv : y.Valid) {rows cols : List L} (hl : y.label = [rows, cols])
    (hd : y.dtype = .float ∨ y.dtype = .int) {V : L → L → Option ℚ} (hV : Table y rows cols V)
    (hfull : ∀ a ∈ rows, ∀ c ∈ cols, (V a c).isSome) (h : cov y = .ok z) (w : L → ℚ) :
    ∃ C : L → L → ℚ, (∀ a ∈ rows, ∀ b ∈ rows, z.Has [a, b] (.flt (.fin (C a b)))) ∧
      0 ≤ (rows.map fun a => (rows.map fun b => w a * w b * C a b).sum).sum := by
  obtain ⟨c1, c2⟩ := C67_cov hv hl hd hV
  by_cases hc : ∃ a ∈ rows, ∃ b ∈ rows, (common V cols a b).length < 2
  · rw [c1 hc] at h; simp at h
  · push Not at hc
    obtain ⟨z', h1, -, -, -, h2⟩ := c2 hc
    rw [h1] at h
    obtain rfl := Except.ok.inj h
    refine ⟨meanProduct V cols, h2, ?_⟩
    have hcom : ∀ a ∈ rows, ∀ b ∈ rows, common V cols a b = cols := by
      intro a ha b hb
      exact List.filter_eq_self.mpr fun c hc => by simp [hfull a ha c hc, hfull b hb c hc]
    let S : L → ℚ := fun c => (rows.map fun a => w a * (V a c).getD 0).sum
    have e : (rows.map fun a => (rows.map fun b => w a * w b * meanProduct V cols a b).sum).sum =
        (cols.map fun c => S c * S c).sum / cols.length := by
      have e1 : ∀ a ∈ rows, ∀ b ∈ rows, w a * w b * meanProduct V cols a b =
          (cols.map fun c => (w a * (V a c).getD 0) * (w b * (V b c).getD 0)).sum / cols.length := by
        intro a ha b hb
        unfold meanProduct
        rw [hcom a ha b hb, mul_div_assoc', mul_comm, ← sum_mul_const]
        congr 3
        funext c; ring
      have e2 : (rows.map fun a => (rows.map fun b => w a * w b * meanProduct V cols a b).sum) =
          rows.map fun a => (cols.map fun c => (w a * (V a c).getD 0) * S c).sum * (1 / (cols.length : ℚ)) := by
        refine List.map_congr_left fun a ha => ?_
        rw [List.map_congr_left (g := fun b => (cols.map fun c => (w a * (V a c).getD 0) * (w b * (V b c).getD 0)).sum *
          (1 / (cols.length : ℚ))) fun b hb => by rw [e1 a ha b hb, mul_one_div]]
        rw [sum_mul_const, sum_mul_sum]
        congr 2
        refine List.map_congr_left fun c _ => ?_
        rw [mul_comm _ (S c), ← sum_mul_const]
        congr 1
        refine List.map_congr_left fun b _ => ?_
        ring
      rw [e2, sum_mul_const, sum_mul_sum, mul_one_div]
      congr 2
      refine List.map_congr_left fun c _ => ?_
      rw [sum_mul_const]
    rw [e]
    exact div_nonneg (sum_nonneg' _ _ fun c _ => mul_self_nonneg _) (Nat.cast_nonneg _)

/-- C67. Neither the order of the rows nor of the columns matters. -/
theorem C67_order {y y' : Larry L} (hy : y.Valid) (hy' : y'.Valid) (h : y.Reordered y') :
    Res.Agree Larry.Reordered (cov y) (cov y') := by
  have hn := h.ndim_eq hy hy'
  by_cases h2 : y.ndim = 2
  swap
  · exact .error (e := .valueError) (by simp [cov, h2]) (by simp [cov, ← hn, h2])
  obtain ⟨rows, cols, hl⟩ : ∃ rows cols, y.label = [rows, cols] := by
    have : y.label.length = 2 := by rw [hy.label_length, h2]
    match y.label, this with
    | [r, c], _ => exact ⟨r, c, rfl⟩
  obtain ⟨rows', cols', hl', hr, hc⟩ : ∃ rows' cols', y'.label = [rows', cols'] ∧ rows.Perm rows' ∧ cols.Perm cols' := by
    have := h.label
    rw [hl] at this
    match y'.label, this with
    | [r, c], .cons p (.cons q .nil) => exact ⟨r, c, rfl, p, q⟩
  by_cases hd : y.dtype = .str ∨ y.dtype = .object
  · exact .error (e := .typeError) (by simp [cov, h2, covMissing, hd])
      (by rw [h.dtype_eq] at hd; simp [cov, ← hn, h2, covMissing, hd])
  have hd1 : y.dtype ≠ .str ∧ y.dtype ≠ .object := by tauto
  have hd1' : y'.dtype ≠ .str ∧ y'.dtype ≠ .object := h.dtype_eq ▸ hd1
  let G : L → L → Val := fun a c => y.valueAt [a, c]
  have g1 : ∀ {i t : Nat} {a c : L}, rows[i]? = some a → cols[t]? = some c → y.x.get [i, t] = G a c :=
    fun hi ht => (valueAt_of hy (has2 hl hi ht)).symm
  have g2 : ∀ {i t : Nat} {a c : L}, rows'[i]? = some a → cols'[t]? = some c → y'.x.get [i, t] = G a c :=
    fun hi ht => by
      show _ = y.valueAt _
      rw [h.valueAt_eq]
      exact (valueAt_of hy' (has2 hl' hi ht)).symm
  have norm : ∀ {i j i' j' : Nat} {a b : L}, rows[i]? = some a → rows[j]? = some b → rows'[i']? = some a →
      rows'[j']? = some b → normalization y.x cols.length i j = normalization y'.x cols'.length i' j' := by
    intro i j i' j' a b hi hj hi' hj'
    unfold normalization
    rw [map_range cols _ (fun c => presentOf (G a c) * presentOf (G b c)) (fun t c ht => by rw [g1 hi ht, g1 hj ht]),
      map_range cols' _ (fun c => presentOf (G a c) * presentOf (G b c)) (fun t c ht => by rw [g2 hi' ht, g2 hj' ht])]
    exact (hc.map _).sum_eq
  have dot : ∀ {i j i' j' : Nat} {a b : L}, rows[i]? = some a → rows[j]? = some b → rows'[i']? = some a →
      rows'[j']? = some b → dotRows y.x y.dtype cols.length i j = dotRows y'.x y'.dtype cols'.length i' j' := by
    intro i j i' j' a b hi hj hi' hj'
    unfold dotRows
    rw [h.dtype_eq]
    split
    · congr 2
      have any : ∀ (l : List L) (x : NDArray Val) (i j : Nat), (∀ (t : Nat) c, l[t]? = some c → x.get [i, t] = G a c ∧
          x.get [j, t] = G b c) → (List.range l.length).any (fun t => decide (zeroNan (x.get [i, t]) = .fin 1) &&
          decide (zeroNan (x.get [j, t]) = .fin 1)) =
          l.any (fun c => decide (zeroNan (G a c) = .fin 1) && decide (zeroNan (G b c) = .fin 1)) := by
        intro l x i j hx
        have := congrArg (fun l => List.any l id) (map_range l (fun t => decide (zeroNan (x.get [i, t]) = .fin 1) &&
          decide (zeroNan (x.get [j, t]) = .fin 1))
          (fun c => decide (zeroNan (G a c) = .fin 1) && decide (zeroNan (G b c) = .fin 1))
          (fun t c ht => by rw [(hx t c ht).1, (hx t c ht).2]))
        simpa [List.any_map, Function.comp_def] using this
      rw [any cols y.x i j (fun t c ht => ⟨g1 hi ht, g1 hj ht⟩), any cols' y'.x i' j' (fun t c ht => ⟨g2 hi' ht, g2 hj' ht⟩),
        hc.any_eq]
    · rw [map_range cols _ (fun c => (zeroNan (G a c)).mul (zeroNan (G b c))) (fun t c ht => by rw [g1 hi ht, g1 hj ht]),
        map_range cols' _ (fun c => (zeroNan (G a c)).mul (zeroNan (G b c))) (fun t c ht => by rw [g2 hi' ht, g2 hj' ht])]
      exact sum_unordered _ _ (hc.map _)
  have move : ∀ {i : Nat} {a : L}, rows[i]? = some a → ∃ i' : Nat, rows'[i']? = some a := fun hi =>
    List.getElem?_of_mem (hr.mem_iff.mp (List.mem_of_getElem? hi))
  have move' : ∀ {i : Nat} {a : L}, rows'[i]? = some a → ∃ i' : Nat, rows[i']? = some a := fun hi =>
    List.getElem?_of_mem (hr.mem_iff.mpr (List.mem_of_getElem? hi))
  rcases cov_cases hy hl hd1 with ⟨h1, i, j, a, b, hi, hj, hlt⟩ | ⟨h1, h3⟩
  · rcases cov_cases hy' hl' hd1' with ⟨h1', -⟩ | ⟨h1', h3'⟩
    · exact .error h1 h1'
    · obtain ⟨i', hi'⟩ := move hi
      obtain ⟨j', hj'⟩ := move hj
      have := h3' i' j' a b hi' hj'
      rw [← norm hi hj hi' hj'] at this
      linarith
  · rcases cov_cases hy' hl' hd1' with ⟨h1', i', j', a, b, hi', hj', hlt⟩ | ⟨h1', h3'⟩
    · obtain ⟨i, hi⟩ := move' hi'
      obtain ⟨j, hj⟩ := move' hj'
      have := h3 i j a b hi hj
      rw [norm hi hj hi' hj'] at this
      linarith
    · refine .ok h1 h1' (reordered_of rfl (.cons hr (.cons hr .nil)) ?_)
      intro names v v' hv hv'
      match names, hv, hv' with
      | [], ⟨idx, hat, _⟩, _ => cases idx <;> simp [At] at hat
      | [_], ⟨idx, hat, _⟩, _ => match idx, hat with
        | [], hat => simp [At] at hat
        | [_], hat => simp [At] at hat
        | _ :: _ :: _, hat => simp [At] at hat
      | _ :: _ :: _ :: _, ⟨idx, hat, _⟩, _ => match idx, hat with
        | [], hat => simp [At] at hat
        | [_], hat => simp [At] at hat
        | _ :: _ :: _, hat => simp [At] at hat
      | [a, b], hv, hv' =>
        obtain ⟨i, j, hi, hj, rfl⟩ := cov_has.mp hv
        obtain ⟨i', j', hi', hj', rfl⟩ := cov_has.mp hv'
        simp only [covAt, List.getD_cons_zero, List.getD_cons_succ]
        rw [norm hi hj hi' hj', dot hi hj hi' hj']

/-- C67. A larry that is not 2d raises ValueError; a str or object larry raises TypeError. -/
theorem C67_errors (y : Larry L) :
    (y.ndim ≠ 2 → cov y = .error .valueError) ∧
    (y.ndim = 2 → (y.dtype = .str ∨ y.dtype = .object) → cov y = .error .typeError) :=
  ⟨fun h => by simp [cov, h], fun h hd => by simp [cov, h, covMissing, hd]⟩

/-- C67. A bool larry is not treated as numbers: the product of two rows is whether they are both True somewhere,
not how often. -/
theorem C67_bool {y : Larry L} (hv : y.Valid) {rows cols : List L} (hl : y.label = [rows, cols]) (hd : y.dtype = .bool)
    (h2 : 2 ≤ cols.length) {B : L → L → Bool} (hB : ∀ a ∈ rows, ∀ c ∈ cols, y.Has [a, c] (.bool (B a c))) :
    ∃ z, cov y = .ok z ∧ z.label = [rows, rows] ∧ ∀ a ∈ rows, ∀ b ∈ rows,
      z.Has [a, b] (.flt (.fin ((if ∃ c ∈ cols, B a c = true ∧ B b c = true then 1 else 0) / cols.length))) := by
  have hV : Table y rows cols (fun a c => some (if B a c then 1 else 0)) := fun a ha c hc =>
    ⟨_, hB a ha c hc, rfl⟩
  have hcom : ∀ a b : L, common (fun a c => some (if B a c then (1 : ℚ) else 0)) cols a b = cols := fun a b =>
    List.filter_eq_self.mpr fun c _ => rfl
  rcases cov_cases hv hl (by rw [hd]; decide) with ⟨h1, i, j, a, b, hi, hj, hlt⟩ | ⟨h1, -⟩
  · rw [normalization_eq hv hl hV hi hj, hcom] at hlt
    have : (2 : ℚ) ≤ cols.length := by exact_mod_cast h2
    linarith
  · refine ⟨_, h1, rfl, fun a ha b hb => ?_⟩
    obtain ⟨i, hi⟩ := List.getElem?_of_mem ha
    obtain ⟨j, hj⟩ := List.getElem?_of_mem hb
    refine cov_has.mpr ⟨i, j, hi, hj, ?_⟩
    have hn : (cols.length : ℚ) ≠ 0 := by
      have : (0 : ℚ) < cols.length := by exact_mod_cast (by omega)
      exact this.ne'
    simp only [covAt, List.getD_cons_zero, List.getD_cons_succ]
    rw [normalization_eq hv hl hV hi hj, hcom]
    have : ((List.range cols.length).any (fun t => decide (zeroNan (y.x.get [i, t]) = .fin 1) &&
        decide (zeroNan (y.x.get [j, t]) = .fin 1)) = true) ↔ ∃ c ∈ cols, B a c = true ∧ B b c = true := by
      have z1 : ∀ {i t : Nat} {a c : L}, rows[i]? = some a → cols[t]? = some c →
          (zeroNan (y.x.get [i, t]) = .fin 1 ↔ B a c = true) := by
        intro i t a c hi ht
        rw [zeroNan_eq (table_get hv hl hV hi ht)]
        cases B a c <;> simp
      rw [any_range_iff]
      constructor
      · rintro ⟨t, c, ht, h⟩
        simp only [Bool.and_eq_true, decide_eq_true_eq, z1 hi ht, z1 hj ht] at h
        exact ⟨c, List.mem_of_getElem? ht, h⟩
      · rintro ⟨c, hc, h⟩
        obtain ⟨t, ht⟩ := List.getElem?_of_mem hc
        exact ⟨t, c, ht, by simpa [z1 hi ht, z1 hj ht] using h⟩
    simp only [dotRows, hd, if_true, this, Flt.div, hn, if_false]

/-! ## Cases -/

/-- Two rows, three columns, one value missing. -/
def exR : Larry Nat :=
  ⟨NDArray.ofList [2, 3] [fl 1, fl 2, .flt .nan, fl 3, fl 4, fl 5], .float, [[1, 2], [7, 8, 9]]⟩

def exRV : Nat → Nat → Option ℚ
  | 1, 7 => some 1
  | 1, 8 => some 2
  | 2, 7 => some 3
  | 2, 8 => some 4
  | 2, 9 => some 5
  | _, _ => none

example : exR.Valid ∧ Table exR [1, 2] [7, 8, 9] exRV ∧ (∀ a ∈ [1, 2], ∀ b ∈ [1, 2], 2 ≤ (common exRV [7, 8, 9] a b).length) ∧
    meanProduct exRV [7, 8, 9] 1 2 = 11 / 2 := by
  have hv : exR.Valid := ⟨rfl, by decide, by decide⟩
  refine ⟨hv, ?_, by decide +kernel, by decide +kernel⟩
  intro a ha c hc
  obtain ⟨i, hi⟩ := List.getElem?_of_mem ha
  obtain ⟨t, ht⟩ := List.getElem?_of_mem hc
  refine ⟨_, has2 rfl hi ht, ?_⟩
  have hi2 : i < 2 := (List.getElem?_eq_some_iff.mp hi).1
  have ht2 : t < 3 := (List.getElem?_eq_some_iff.mp ht).1
  match i, t, hi2, ht2, hi, ht with
  | 0, 0, _, _, rfl, rfl | 0, 1, _, _, rfl, rfl | 0, 2, _, _, rfl, rfl
  | 1, 0, _, _, rfl, rfl | 1, 1, _, _, rfl, rfl | 1, 2, _, _, rfl, rfl => rfl

example : (cov exR).map (fun z => z.x.vals) = .ok [.flt (.fin (5/2)), .flt (.fin (11/2)), .flt (.fin (11/2)),
    .flt (.fin (50/3))] := by decide +kernel

/-- Two rows, two values missing in the second. -/
def exIndef : Larry Nat :=
  ⟨NDArray.ofList [2, 4] [fl 2, fl 2, fl 0, fl 0, fl 2, fl 2, .flt .nan, .flt .nan], .float, [[1, 2], [7, 8, 9, 10]]⟩

/-- With missing values the matrix need not be positive semidefinite: the weights 2, -1 give -4. -/
theorem C67_indefinite : (cov exIndef).map (fun z => z.x.vals) =
      .ok [.flt (.fin 2), .flt (.fin 4), .flt (.fin 4), .flt (.fin 4)] ∧
    (2 : ℚ) * 2 * 2 + 2 * (2 * -1 * 4) + -1 * -1 * 4 = -4 := by
  constructor
  · decide +kernel
  · norm_num

end La
