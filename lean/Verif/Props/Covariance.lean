import Verif.Props.Cov
import Verif.Props.Chunks
import Verif.Props.Normalize
import Verif.Props.RealStats
import Mathlib.Algebra.QuadraticDiscriminant

/-!
# Property C129: `cov`, `demean`, `var` and `correlation` fit together

`cov` (la/flarry.py:1471-1502) takes the mean of each row to be zero, as its docstring says.  After
`demean(1)` its result is the covariance matrix that goes with `var` and `correlation`.
-/

namespace La
open Larry
variable {L : Type _}

/-! ## Specification -/

/-- The numbers present in row `a`. -/
def rowNumbers (V : L → L → Option ℚ) (cols : List L) (a : L) : List ℚ := cols.filterMap (V a)

/-- Their mean. -/
def rowMean (V : L → L → Option ℚ) (cols : List L) (a : L) : ℚ :=
  (rowNumbers V cols a).sum / (rowNumbers V cols a).length

/-- The mean of products of two rows `f` and `g` less the product of their means. -/
def coMoment (cols : List L) (f g : L → ℚ) : ℚ :=
  (cols.map fun c => f c * g c).sum / cols.length - (cols.map f).sum / cols.length * ((cols.map g).sum / cols.length)

/-! ## Rows -/

theorem table_line {y : Larry L} (hv : y.Valid) {rows cols : List L} (hl : y.label = [rows, cols]) {V : L → L → Option ℚ}
    (hV : Table y rows cols V) {a : L} (ha : a ∈ rows) :
    ∃ vs, y.LineAt 1 [a] vs ∧ vs = cols.map (fun c => y.valueAt [a, c]) ∧
      vs.map Val.num = cols.map fun c => ((V a c).map Flt.fin).getD .nan := by
  have hN : Named (y.label.eraseIdx 1) [a] := by rw [hl]; exact ⟨ha, trivial⟩
  refine ⟨_, lineAt_of hv (l := cols) (by rw [hl]; rfl) hN, rfl, ?_⟩
  rw [List.map_map]
  refine List.map_congr_left fun c hc => ?_
  obtain ⟨v, h, e⟩ := hV a ha c hc
  simp only [Function.comp_apply, List.insertIdx_succ_cons, List.insertIdx_zero]
  rw [valueAt_of hv h, e]

theorem finites_row (V : L → L → Option ℚ) (cols : List L) (a : L) :
    finites (cols.map fun c => ((V a c).map Flt.fin).getD .nan) = rowNumbers V cols a := by
  unfold finites rowNumbers
  rw [List.filterMap_map]
  refine List.filterMap_congr fun c _ => ?_
  simp only [Function.comp_apply]
  cases V a c <;> rfl

theorem noInf_row (V : L → L → Option ℚ) (cols : List L) (a : L) :
    NoInf (cols.map fun c => ((V a c).map Flt.fin).getD .nan) := by
  intro f hf
  obtain ⟨c, -, rfl⟩ := List.mem_map.mp hf
  cases V a c <;> simp

/-- `demean(1)` subtracts from each row its mean. -/
theorem demean_table {y d : Larry L} (hv : y.Valid) {rows cols : List L} (hl : y.label = [rows, cols])
    (hd : y.dtype = .float ∨ y.dtype = .int) {V : L → L → Option ℚ} (hV : Table y rows cols V)
    (h : y.demean nanmean (some 1) = .ok d) :
    d.Valid ∧ d.label = [rows, cols] ∧ d.dtype = .float ∧
      Table d rows cols (fun a c => (V a c).map fun q => q - rowMean V cols a) := by
  have hn : y.ndim = 2 := by rw [← hv.label_length, hl]; rfl
  obtain ⟨z, e, hdt, hz⟩ := C52_demean hv (by rcases hd with h | h <;> rw [h] <;> decide) (axis := 1) (ax := 1)
    (by rw [hn]; rfl)
  rw [h] at e
  obtain rfl := Except.ok.inj e
  have hl' : d.label = [rows, cols] := hz.label_eq.trans hl
  refine ⟨hz.valid, hl', hdt, fun a ha c hc => ?_⟩
  obtain ⟨vs, hvs, e1, e2⟩ := table_line hv hl hV ha
  have hN : Named (y.label.eraseIdx 1) [a] := by rw [hl]; exact ⟨ha, trivial⟩
  have hN' : Named (d.label.eraseIdx 1) [a] := by rw [hl']; exact ⟨ha, trivial⟩
  have hws := lineAt_of hz.valid (l := cols) (by rw [hl']; rfl) hN'
  have hdm := hz.line [a] vs _ hN hvs hws (by rw [e2]; exact noInf_row _ _ _)
  obtain ⟨t, ht⟩ := List.getElem?_of_mem hc
  obtain ⟨w, hw⟩ := Holds_of_Named (x := d.x) (label := d.label) (names := [a, c]) (by rw [hl']; exact ⟨ha, hc, trivial⟩)
  obtain ⟨v, hvv, ev⟩ := hV a ha c hc
  have gv : vs[t]? = some v := by rw [e1, List.getElem?_map, ht, Option.map_some, valueAt_of hv hvv]
  have gw : (cols.map fun b => d.valueAt ([a].insertIdx 1 b))[t]? = some w := by
    rw [List.getElem?_map, ht, Option.map_some]
    simp only [List.insertIdx_succ_cons, List.insertIdx_zero]
    rw [valueAt_of hz.valid hw]
  refine ⟨w, hw, ?_⟩
  obtain ⟨-, d1, -, -, d2⟩ := hdm
  rw [e2, finites_row] at d1
  cases hva : V a c with
  | none =>
    rw [hva] at ev
    rw [d2 t v w gv gw ev]
    simp [Val.num, hva]
  | some q =>
    rw [hva] at ev
    have h0 : (rowNumbers V cols a).length ≠ 0 := by
      have : q ∈ rowNumbers V cols a := List.mem_filterMap.mpr ⟨c, hc, hva⟩
      exact (List.length_pos_of_mem this).ne'
    rw [((d1 h0).2 t v w gv gw).1 q ev]
    simp [Val.num, hva, rowMean]

/-- What `cov` returns, in terms of the numbers before `demean(1)`. -/
theorem cov_demeaned {y d z : Larry L} (hv : y.Valid) {rows cols : List L} (hl : y.label = [rows, cols])
    (hd : y.dtype = .float ∨ y.dtype = .int) {V : L → L → Option ℚ} (hV : Table y rows cols V)
    (h : y.demean nanmean (some 1) = .ok d) (hz : cov d = .ok z) :
    (∀ a ∈ rows, ∀ b ∈ rows, 2 ≤ (common V cols a b).length) ∧ z.Valid ∧ z.label = [rows, rows] ∧
      ∀ a ∈ rows, ∀ b ∈ rows,
        z.Has [a, b] (.flt (.fin (meanProduct (fun a c => (V a c).map fun q => q - rowMean V cols a) cols a b))) := by
  obtain ⟨d1, d2, d3, d4⟩ := demean_table hv hl hd hV h
  obtain ⟨c1, c2⟩ := C67_cov d1 d2 (.inl d3) d4
  have hcom : ∀ a b, common (fun a c => (V a c).map fun q => q - rowMean V cols a) cols a b = common V cols a b := by
    intro a b
    unfold common
    refine List.filter_congr fun c _ => ?_
    rw [Option.isSome_map, Option.isSome_map]
  by_cases hc : ∃ a ∈ rows, ∃ b ∈ rows, (common V cols a b).length < 2
  · obtain ⟨a, ha, b, hb, hlt⟩ := hc
    rw [c1 ⟨a, ha, b, hb, by rw [hcom]; exact hlt⟩] at hz
    simp at hz
  · push Not at hc
    obtain ⟨z', h1, h2, h3, -, h4⟩ := c2 fun a ha b hb => by rw [hcom]; exact hc a ha b hb
    rw [h1] at hz
    obtain rfl := Except.ok.inj hz
    exact ⟨hc, h2, h3, h4⟩

theorem common_row (V : L → L → Option ℚ) (cols : List L) (a : L) :
    ((common V cols a a).map fun c => (V a c).getD 0 * (V a c).getD 0) = (rowNumbers V cols a).map fun q => q * q := by
  unfold common rowNumbers
  induction cols with
  | nil => rfl
  | cons c cols ih =>
    cases h : V a c <;> simp [h, ← ih]

theorem common_row_length (V : L → L → Option ℚ) (cols : List L) (a : L) :
    (common V cols a a).length = (rowNumbers V cols a).length := by
  have := congrArg List.length (common_row V cols a)
  simpa using this

theorem meanProduct_row (V : L → L → Option ℚ) (cols : List L) (a : L) :
    meanProduct V cols a a = ((rowNumbers V cols a).map fun q => q * q).sum / (rowNumbers V cols a).length := by
  rw [meanProduct, common_row, common_row_length]

theorem rowNumbers_shift (V : L → L → Option ℚ) (cols : List L) (a : L) (m : L → ℚ) :
    rowNumbers (fun a c => (V a c).map fun q => q - m a) cols a = (rowNumbers V cols a).map fun q => q - m a := by
  unfold rowNumbers
  rw [List.map_filterMap]

theorem sum_sq_shift (l : List ℚ) (m : ℚ) : ((l.map fun q => q - m).map fun q => q * q).sum =
    (l.map fun q => q * q).sum - 2 * m * l.sum + m * m * l.length := by
  induction l with
  | nil => simp
  | cons q l ih =>
    simp only [List.map_cons, List.sum_cons, List.length_cons] at ih ⊢
    rw [ih]
    push_cast
    ring

/-- The numbers of a larry by row and column. -/
noncomputable def tableOf (y : Larry L) (a c : L) : Option ℚ :=
  match (y.valueAt [a, c]).num with
  | .fin q => some q
  | _ => none

theorem table_of {y : Larry L} (hy : y.Numeric) {rows cols : List L} (hl : y.label = [rows, cols]) (hi : y.NoInfinities) :
    Table y rows cols (tableOf y) := by
  intro a ha c hc
  obtain ⟨v, hv⟩ := Holds_of_Named (x := y.x) (label := y.label) (names := [a, c]) (by rw [hl]; exact ⟨ha, hc, trivial⟩)
  refine ⟨v, hv, ?_⟩
  have := hi _ _ hv
  unfold tableOf
  rw [valueAt_of hy.valid hv]
  cases h : v.num with
  | pinf => exact absurd h this.1
  | ninf => exact absurd h this.2
  | nan => rfl
  | fin q => rfl

/-! ## C129 -/

/-- C129. The diagonal of `y.demean(1).cov()` is `y.var(1)`, missing values included. -/
theorem C129_diagonal {y d z : Larry L} (hy : y.Numeric) {rows cols : List L} (hl : y.label = [rows, cols])
    (hd : y.dtype = .float ∨ y.dtype = .int) (hi : y.NoInfinities)
    (h : y.demean nanmean (some 1) = .ok d) (hz : cov d = .ok z) :
    ∃ v, y.var (some 1) 0 = .ok (.larry v) ∧ v.Valid ∧ v.label = [rows] ∧
      ∀ a ∈ rows, ∃ q : ℚ, v.Has [a] (.flt (.fin q)) ∧ z.Has [a, a] (.flt (.fin q)) := by
  have hn : y.ndim = 2 := by rw [← hy.valid.label_length, hl]; rfl
  have hV := table_of hy hl hi
  obtain ⟨h2, -, -, hcov⟩ := cov_demeaned hy.valid hl hd hV h hz
  obtain ⟨v, e, vv, -, vl, vc⟩ := (C91_var 0 hy.valid hy.typed hy.elements hy.dtype).2.2 1 1 (by omega) (by rw [hn]; rfl)
  have vl' : v.label = [rows] := by rw [vl, hl]; rfl
  refine ⟨v, e, vv, vl', fun a ha => ?_⟩
  obtain ⟨vs, w, hline, hw, s, rfl, hs⟩ := vc [a] (by rw [vl']; exact ⟨ha, trivial⟩)
  obtain ⟨vs', hline', -, e2⟩ := table_line hy.valid hl hV ha
  obtain rfl := lineAt_unique hy.valid hline hline'
  rw [e2] at hs
  have hc := hcov a ha a ha
  rw [meanProduct_row, rowNumbers_shift, sum_sq_shift, List.length_map] at hc
  have hpos := h2 a ha a ha
  rw [common_row_length] at hpos
  rcases var_finites (noInf_row _ _ _) hs with ⟨hnil, -⟩ | ⟨-, rfl⟩
  · rw [finites_row] at hnil
    rw [hnil] at hpos
    simp at hpos
  · refine ⟨_, hw, ?_⟩
    rw [finites_row]
    convert hc using 4
    have h0 : ((rowNumbers (tableOf y) cols a).length : ℚ) ≠ 0 := by
      have : (0 : ℚ) < (rowNumbers (tableOf y) cols a).length := by exact_mod_cast (by omega)
      exact this.ne'
    unfold rowMean
    field_simp
    ring

/-! ### Data without gaps -/

theorem sum_shift_product (cols : List L) (f g : L → ℚ) (m n : ℚ) :
    (cols.map fun c => (f c - m) * (g c - n)).sum =
      (cols.map fun c => f c * g c).sum - m * (cols.map g).sum - n * (cols.map f).sum + m * n * cols.length := by
  induction cols with
  | nil => simp
  | cons c cols ih =>
    simp only [List.map_cons, List.sum_cons, List.length_cons]
    rw [ih]
    push_cast
    ring

theorem full_common {V : L → L → Option ℚ} {F : L → L → ℚ} {rows cols : List L}
    (hF : ∀ a ∈ rows, ∀ c ∈ cols, V a c = some (F a c)) {a b : L} (ha : a ∈ rows) (hb : b ∈ rows) :
    common V cols a b = cols ∧ rowNumbers V cols a = cols.map (F a) := by
  constructor
  · refine List.filter_eq_self.mpr fun c hc => ?_
    rw [hF a ha c hc, hF b hb c hc]
    rfl
  · unfold rowNumbers
    rw [← List.filterMap_eq_map]
    exact List.filterMap_congr fun c hc => hF a ha c hc

/-- What `cov` of the demeaned rows returns if nothing is missing. -/
theorem cov_full {y d z : Larry L} (hy : y.Valid) {rows cols : List L} (hl : y.label = [rows, cols])
    (hd : y.dtype = .float ∨ y.dtype = .int) {F : L → L → ℚ} (hF : Table y rows cols fun a c => some (F a c))
    (h : y.demean nanmean (some 1) = .ok d) (hz : cov d = .ok z) {a b : L} (ha : a ∈ rows) (hb : b ∈ rows) :
    0 < cols.length ∧ z.Has [a, b] (.flt (.fin ((cols.map fun c =>
      (F a c - (cols.map (F a)).sum / cols.length) * (F b c - (cols.map (F b)).sum / cols.length)).sum / cols.length))) := by
  obtain ⟨h2, -, -, hcov⟩ := cov_demeaned hy hl hd hF h hz
  have hc := hcov a ha b hb
  have hfull : ∀ a ∈ rows, ∀ c ∈ cols, (fun a c => some (F a c)) a c = some (F a c) := fun _ _ _ _ => rfl
  obtain ⟨c1, r1⟩ := full_common hfull ha hb
  obtain ⟨-, r2⟩ := full_common hfull hb ha
  have c2 : common (fun a' c => ((fun a c => some (F a c)) a' c).map fun q => q - rowMean (fun a c => some (F a c)) cols a') cols a b = cols :=
    List.filter_eq_self.mpr fun c _ => rfl
  have hpos := h2 a ha b hb
  rw [c1] at hpos
  refine ⟨by omega, ?_⟩
  unfold meanProduct at hc
  rw [c2] at hc
  simpa [rowMean, r1, r2] using hc

/-- C129. Without missing values an element of `y.demean(1).cov()` is the mean of the products of two rows less the
product of their means. -/
theorem C129_moments {y d z : Larry L} (hy : y.Valid) {rows cols : List L} (hl : y.label = [rows, cols])
    (hd : y.dtype = .float ∨ y.dtype = .int) {F : L → L → ℚ} (hF : Table y rows cols fun a c => some (F a c))
    (h : y.demean nanmean (some 1) = .ok d) (hz : cov d = .ok z) {a b : L} (ha : a ∈ rows) (hb : b ∈ rows) :
    z.Has [a, b] (.flt (.fin (coMoment cols (F a) (F b)))) := by
  obtain ⟨hpos, hc⟩ := cov_full hy hl hd hF h hz ha hb
  convert hc using 4
  rw [sum_shift_product]
  have h0 : (cols.length : ℚ) ≠ 0 := by exact_mod_cast hpos.ne'
  unfold coMoment
  field_simp
  ring

theorem cauchy_list {α : Type _} (l : List α) (f g : α → ℚ) :
    (l.map fun c => f c * g c).sum ^ 2 ≤ (l.map fun c => f c * f c).sum * (l.map fun c => g c * g c).sum := by
  have key : ∀ x : ℚ, 0 ≤ (l.map fun c => f c * f c).sum * (x * x) + 2 * (l.map fun c => f c * g c).sum * x +
      (l.map fun c => g c * g c).sum := by
    intro x
    have : (l.map fun c => f c * f c).sum * (x * x) + 2 * (l.map fun c => f c * g c).sum * x +
        (l.map fun c => g c * g c).sum = (l.map fun c => (f c * x + g c) * (f c * x + g c)).sum := by
      induction l with
      | nil => simp
      | cons c l ih =>
        simp only [List.map_cons, List.sum_cons]
        rw [← ih]
        ring
    rw [this]
    exact sum_nonneg' _ _ fun c _ => mul_self_nonneg _
  have := discrim_le_zero key
  unfold discrim at this
  linarith

/-- C129. Without missing values the square of an element off the diagonal is at most the product of the two variances. -/
theorem C129_bound {y d z : Larry L} (hy : y.Valid) {rows cols : List L} (hl : y.label = [rows, cols])
    (hd : y.dtype = .float ∨ y.dtype = .int) {F : L → L → ℚ} (hF : Table y rows cols fun a c => some (F a c))
    (h : y.demean nanmean (some 1) = .ok d) (hz : cov d = .ok z) {a b : L} (ha : a ∈ rows) (hb : b ∈ rows) :
    ∃ p q r : ℚ, z.Has [a, a] (.flt (.fin p)) ∧ z.Has [b, b] (.flt (.fin q)) ∧ z.Has [a, b] (.flt (.fin r)) ∧ r ^ 2 ≤ p * q := by
  obtain ⟨hpos, h1⟩ := cov_full hy hl hd hF h hz ha ha
  obtain ⟨-, h2⟩ := cov_full hy hl hd hF h hz hb hb
  obtain ⟨-, h3⟩ := cov_full hy hl hd hF h hz ha hb
  refine ⟨_, _, _, h1, h2, h3, ?_⟩
  rw [div_pow, div_mul_div_comm, ← pow_two]
  exact div_le_div_of_nonneg_right (cauchy_list _ _ _) (by positivity)

/-! ### Correlation -/

theorem average_cast (cols : List L) (f : L → ℚ) :
    average (cols.map fun c => ((f c : ℚ) : ℝ)) = (((cols.map f).sum / cols.length : ℚ) : ℝ) := by
  unfold average
  rw [List.length_map, Rat.cast_div, Rat.cast_natCast]
  congr 1
  induction cols with
  | nil => simp
  | cons c cols ih => simp only [List.map_cons, List.sum_cons, Rat.cast_add, ih]

theorem deviations_cast (cols : List L) (hpos : 0 < cols.length) (f g : L → ℚ) {h k : ℝ × ℝ → ℝ} (l : List (ℝ × ℝ))
    (hl : l = cols.map fun c => ((f c : ℝ), (g c : ℝ))) {u v : L → ℚ} (hh : ∀ c, h ((f c : ℝ), (g c : ℝ)) = u c)
    (hk : ∀ c, k ((f c : ℝ), (g c : ℝ)) = v c) :
    deviations h k l = (cols.length : ℝ) * (((cols.map fun c =>
      (u c - (cols.map u).sum / cols.length) * (v c - (cols.map v).sum / cols.length)).sum / cols.length : ℚ) : ℝ) := by
  subst hl
  unfold deviations
  have h0 : (cols.length : ℝ) ≠ 0 := by exact_mod_cast hpos.ne'
  rw [List.map_map, List.map_map, List.map_map, Rat.cast_div, Rat.cast_natCast, mul_div_cancel₀ _ h0]
  have e1 : (h ∘ fun c => ((f c : ℝ), (g c : ℝ))) = fun c => ((u c : ℚ) : ℝ) := funext hh
  have e2 : (k ∘ fun c => ((f c : ℝ), (g c : ℝ))) = fun c => ((v c : ℚ) : ℝ) := funext hk
  rw [e1, e2, average_cast, average_cast]
  generalize (cols.map u).sum / (cols.length : ℚ) = m
  generalize (cols.map v).sum / (cols.length : ℚ) = n
  clear hpos h0 e1 e2
  induction cols with
  | nil => simp
  | cons c cols ih =>
    simp only [List.map_cons, List.sum_cons, Rat.cast_add, Function.comp_apply, hh, hk] at ih ⊢
    rw [ih]
    push_cast
    rfl

theorem row_pairs {x1 x2 : NDArray RFlt} {cols : List L} {f g : L → ℚ} (s1 : x1.shape = [cols.length])
    (s2 : x2.shape = [cols.length]) (g1 : ∀ (t : Nat) c, cols[t]? = some c → x1.get [t] = .fin (f c))
    (g2 : ∀ (t : Nat) c, cols[t]? = some c → x2.get [t] = .fin (g c)) :
    numberPairs ((walk x1 none []).zip (walk x2 none [])) = cols.map fun c => ((f c : ℝ), (g c : ℝ)) := by
  have w : ∀ {x : NDArray RFlt} {f : L → ℚ}, x.shape = [cols.length] →
      (∀ (t : Nat) c, cols[t]? = some c → x.get [t] = .fin (f c)) →
      walk x none [] = cols.map fun c => RFlt.fin (f c) := by
    intro x f hs hg
    refine List.ext_getElem? fun t => ?_
    have e : allIdx [cols.length] = (List.range cols.length).map fun i => [i] := by
      simp only [allIdx, List.map_cons, List.map_nil]
      exact List.map_eq_flatMap.symm
    simp only [walk, hs]
    rw [e, List.map_map, List.getElem?_map, List.getElem?_map]
    rcases Nat.lt_or_ge t cols.length with ht | ht
    · rw [List.getElem?_range ht, List.getElem?_eq_getElem ht]
      exact congrArg some (hg t _ (List.getElem?_eq_getElem ht))
    · rw [List.getElem?_eq_none (by simpa using ht), List.getElem?_eq_none ht]
      rfl
  rw [w s1 g1, w s2 g2, List.zip_map', numberPairs, List.filterMap_map, ← List.filterMap_eq_map]
  rfl

/-- C129. Without missing values the correlation of two rows is their covariance over the roots of their variances, all
three taken from `y.demean(1).cov()`; it is NaN if one of the variances is 0. -/
theorem C129_correlation {y d z : Larry L} (hy : y.Valid) {rows cols : List L} (hl : y.label = [rows, cols])
    (hd : y.dtype = .float ∨ y.dtype = .int) {F : L → L → ℚ} (hF : Table y rows cols fun a c => some (F a c))
    (h : y.demean nanmean (some 1) = .ok d) (hz : cov d = .ok z) {a b : L} (ha : a ∈ rows) (hb : b ∈ rows)
    {x1 x2 : NDArray RFlt} (s1 : x1.shape = [cols.length]) (s2 : x2.shape = [cols.length])
    (g1 : ∀ (t : Nat) c, cols[t]? = some c → x1.get [t] = .fin (F a c))
    (g2 : ∀ (t : Nat) c, cols[t]? = some c → x2.get [t] = .fin (F b c)) (int1 int2 : Bool) :
    ∃ r, correlation x1 x2 int1 int2 none = .ok r ∧ r.shape = [] ∧
      ∃ p q s : ℚ, z.Has [a, a] (.flt (.fin p)) ∧ z.Has [b, b] (.flt (.fin q)) ∧ z.Has [a, b] (.flt (.fin s)) ∧
        (((p = 0 ∨ q = 0) ∧ r.get [] = .nan) ∨
          (p ≠ 0 ∧ q ≠ 0 ∧ r.get [] = .fin ((s : ℝ) / (Real.sqrt p * Real.sqrt q)))) := by
  obtain ⟨hpos, h1⟩ := cov_full hy hl hd hF h hz ha ha
  obtain ⟨-, h2⟩ := cov_full hy hl hd hF h hz hb hb
  obtain ⟨-, h3⟩ := cov_full hy hl hd hF h hz ha hb
  have hnum : ∀ {x : NDArray RFlt} {f : L → ℚ}, x.shape = [cols.length] →
      (∀ (t : Nat) c, cols[t]? = some c → x.get [t] = .fin (f c)) → ∀ idx, InB x.shape idx → (x.get idx).NoInf := by
    intro x f hs hg idx hi
    rw [hs] at hi
    match idx, hi with
    | [t], hi =>
      have ht : t < cols.length := by simpa [InB] using hi
      rw [hg t _ (List.getElem?_eq_getElem ht)]
      trivial
  obtain ⟨r, e, rs, hr⟩ := C69_correlation x1 x2 (s1.trans s2.symm) (int1 := int1) (int2 := int2) (axis := none) (ax := none)
    trivial (fun idx hi => ⟨hnum s1 g1 idx hi, hnum s2 g2 idx (by rw [s2, ← s1]; exact hi)⟩) (.inl rfl)
  refine ⟨r, e, rs, _, _, _, h1, h2, h3, ?_⟩
  have hr := hr [] (by rw [rs]; trivial)
  rw [row_pairs s1 s2 g1 g2] at hr
  have n0 : (0 : ℝ) < cols.length := by exact_mod_cast hpos
  have d11 := deviations_cast cols hpos (F a) (F b) (h := Prod.fst) (k := Prod.fst) _ rfl (u := F a) (v := F a)
    (fun _ => rfl) (fun _ => rfl)
  have d22 := deviations_cast cols hpos (F a) (F b) (h := Prod.snd) (k := Prod.snd) _ rfl (u := F b) (v := F b)
    (fun _ => rfl) (fun _ => rfl)
  have d12 := deviations_cast cols hpos (F a) (F b) (h := Prod.fst) (k := Prod.snd) _ rfl (u := F a) (v := F b)
    (fun _ => rfl) (fun _ => rfl)
  unfold IsCorrelation pearson at hr
  rw [still_iff, d11, d22, d12] at hr
  generalize (cols.map fun c => (F a c - (cols.map (F a)).sum / cols.length) * (F a c - (cols.map (F a)).sum / cols.length)).sum / (cols.length : ℚ) = p at *
  generalize (cols.map fun c => (F b c - (cols.map (F b)).sum / cols.length) * (F b c - (cols.map (F b)).sum / cols.length)).sum / (cols.length : ℚ) = q at *
  generalize (cols.map fun c => (F a c - (cols.map (F a)).sum / cols.length) * (F b c - (cols.map (F b)).sum / cols.length)).sum / (cols.length : ℚ) = s at *
  have z0 : ∀ t : ℚ, (cols.length : ℝ) * (t : ℝ) = 0 ↔ t = 0 := fun t => by
    rw [mul_eq_zero, Rat.cast_eq_zero]
    exact ⟨fun h => h.resolve_left n0.ne', .inr⟩
  rw [z0, z0] at hr
  rcases hr with ⟨h0, hv⟩ | ⟨h0, hv⟩
  · exact .inl ⟨h0, hv⟩
  · push Not at h0
    refine .inr ⟨h0.1, h0.2, ?_⟩
    rw [hv, Real.sqrt_mul n0.le, Real.sqrt_mul n0.le]
    congr 1
    have : Real.sqrt (cols.length : ℝ) * Real.sqrt p * (Real.sqrt (cols.length : ℝ) * Real.sqrt q) =
        (cols.length : ℝ) * (Real.sqrt p * Real.sqrt q) := by
      have := Real.mul_self_sqrt n0.le
      calc _ = (Real.sqrt (cols.length : ℝ) * Real.sqrt (cols.length : ℝ)) * (Real.sqrt p * Real.sqrt q) := by ring
        _ = _ := by rw [this]
    rw [this, mul_div_mul_left _ _ n0.ne']

/-! ### Cases -/

/-- `larry([[1, 2, 6, nan], [2, 4, 3, 5]])` -/
def exSeries : Larry Nat :=
  ⟨NDArray.ofList [2, 4] [fl 1, fl 2, fl 6, .flt .nan, fl 2, fl 4, fl 3, fl 5], .float, [[1, 2], [10, 20, 30, 40]]⟩

example : exSeries.Numeric ∧ exSeries.NoInfinities ∧ exSeries.label = [[1, 2], [10, 20, 30, 40]] := by
  have h : exSeries.Valid := ⟨rfl, by decide, by decide⟩
  exact ⟨⟨h, typed_cells (by decide +kernel), .inl rfl, by decide⟩, noInfinities_cells (by decide +kernel) h, rfl⟩

/-- Its variances are 14/3 and 5/4. -/
example : ((exSeries.demean nanmean (some 1)).bind cov).map (fun z => z.x.vals) =
    .ok [fl (14 / 3), fl (1 / 3), fl (1 / 3), fl (5 / 4)] ∧
    (match exSeries.var (some 1) 0 with | .ok (.larry v) => v.x.vals | _ => []) = [fl (14 / 3), fl (5 / 4)] := by
  constructor <;> decide +kernel

/-- `larry([[1, 2, 6], [2, 4, 3]])` -/
def exFull : Larry Nat :=
  ⟨NDArray.ofList [2, 3] [fl 1, fl 2, fl 6, fl 2, fl 4, fl 3], .float, [[1, 2], [10, 20, 30]]⟩

example : exFull.Valid ∧ Table exFull [1, 2] [10, 20, 30] (fun a c => some
    (if a = 1 then (if c = 10 then 1 else if c = 20 then 2 else 6) else (if c = 10 then 2 else if c = 20 then 4 else 3))) := by
  refine ⟨⟨rfl, by decide, by decide⟩, fun a ha c hc => ?_⟩
  simp only [List.mem_cons, List.not_mem_nil, or_false] at ha hc
  rcases ha with rfl | rfl <;> rcases hc with rfl | rfl | rfl
  · exact ⟨_, ⟨[0, 0], by simp [At, exFull], rfl⟩, by decide +kernel⟩
  · exact ⟨_, ⟨[0, 1], by simp [At, exFull], rfl⟩, by decide +kernel⟩
  · exact ⟨_, ⟨[0, 2], by simp [At, exFull], rfl⟩, by decide +kernel⟩
  · exact ⟨_, ⟨[1, 0], by simp [At, exFull], rfl⟩, by decide +kernel⟩
  · exact ⟨_, ⟨[1, 1], by simp [At, exFull], rfl⟩, by decide +kernel⟩
  · exact ⟨_, ⟨[1, 2], by simp [At, exFull], rfl⟩, by decide +kernel⟩

example : ((exFull.demean nanmean (some 1)).bind cov).map (fun z => z.x.vals) =
    .ok [fl (14 / 3), fl (1 / 3), fl (1 / 3), fl (2 / 3)] := by
  decide +kernel

end La
