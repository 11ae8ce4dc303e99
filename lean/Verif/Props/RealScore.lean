import Verif.RealScore
import Verif.Props.RealStats
import Mathlib.Tactic.LinearCombination

/-!
# C131: standard deviations and z-scores over the real numbers
-/

namespace La

/-! ## Specification -/

/-- All the numbers are the same (as when there is only one, or none). -/
def Steady (l : List ℝ) : Prop := ∀ p ∈ l, ∀ q ∈ l, p = q

/-- `v` is the standard deviation of the numbers `l`: NaN if there are none, else the number that is not negative and
whose square, times the number of elements less `ddof`, is the sum of the squared distances from the average. -/
def IsStd (ddof : Int) (l : List ℝ) (v : RFlt) : Prop :=
  (l = [] ∧ v = .nan) ∨
  (l ≠ [] ∧ ∃ s : ℝ, v = .fin s ∧ 0 ≤ s ∧
    s * s * ((l.length : ℝ) - ddof) = (l.map fun r => (r - average l) * (r - average l)).sum)

/-- The number of units `s` an element is above `c`; a missing element stays missing. -/
noncomputable def above (c s : ℝ) : RFlt → RFlt
  | .fin r => .fin ((r - c) / s)
  | _ => .nan

/-- `m` are the z-scores of the elements `l`: all NaN if the numbers among them do not differ; else the elements in
units above some level, such that they sum to zero and their squares sum to their number. -/
def IsScores (l m : List RFlt) : Prop :=
  (Steady (numbers l) ∧ m = l.map fun _ => .nan) ∨
  (∃ c s : ℝ, 0 < s ∧ m = l.map (above c s) ∧ numbers m ≠ [] ∧ (numbers m).sum = 0 ∧
    ((numbers m).map fun r => r * r).sum = (numbers m).length)

/-! ## Lines of elements -/

theorem filter_numbers {l : List RFlt} (hl : ∀ v ∈ l, v.NoInf) :
    l.filter (fun v => !v.isNan) = (numbers l).map RFlt.fin := by
  induction l with
  | nil => rfl
  | cons v l ih =>
    have hv := hl v (by simp)
    have := ih fun w hw => hl w (by simp [hw])
    cases v with
    | nan => simpa [RFlt.isNan, numbers_nan] using this
    | pinf => exact hv.elim
    | ninf => exact hv.elim
    | fin r => simpa [RFlt.isNan, numbers_fin] using this

theorem nanmean_numbers {l : List RFlt} (hl : ∀ v ∈ l, v.NoInf) (h : numbers l ≠ []) :
    RFlt.nanmean l = .fin (average (numbers l)) := by
  have h0 : ¬ (numbers l).length = 0 := by simpa using h
  rw [RFlt.nanmean, filter_numbers hl, List.length_map, if_neg h0]
  simpa using mean_fin h (fun r => r)

theorem nanvar_numbers {l : List RFlt} (hl : ∀ v ∈ l, v.NoInf) (h : numbers l ≠ []) (ddof : Int) :
    RFlt.nanvar ddof l =
      (RFlt.fin (deviations id id (numbers l))).div (.fin (((numbers l).length : ℝ) - ddof)) := by
  have h0 : ¬ (numbers l).length = 0 := by simpa using h
  have hm : RFlt.mean ((numbers l).map RFlt.fin) = .fin (average (numbers l)) := by
    simpa using mean_fin h (fun r => r)
  rw [RFlt.nanvar, filter_numbers hl, List.length_map, if_neg h0, hm, List.map_map]
  congr 1
  rw [deviations, ← map_sum_fin]
  congr 1
  apply List.map_congr_left
  intro r _
  simp [RFlt.sub, RFlt.neg, RFlt.add, RFlt.mul, sub_eq_add_neg]

theorem nanvar_none {l : List RFlt} (hl : ∀ v ∈ l, v.NoInf) (h : numbers l = []) (ddof : Int) :
    RFlt.nanvar ddof l = .nan := by
  simp only [RFlt.nanvar, filter_numbers hl, h, List.map_nil, List.length_nil, if_true]

theorem deviations_id (l : List ℝ) :
    deviations id id l = (l.map fun r => (r - average l) * (r - average l)).sum := by
  simp [deviations]

/-- The standard deviation of a line. -/
theorem nanstd_spec {l : List RFlt} (hl : ∀ v ∈ l, v.NoInf) {ddof : Int} (hd : ddof < (numbers l).length ∨ numbers l = []) :
    IsStd ddof (numbers l) (RFlt.nanstd ddof l) := by
  by_cases h : numbers l = []
  · exact .inl ⟨h, by rw [RFlt.nanstd, nanvar_none hl h]; rfl⟩
  have hd : ddof < (numbers l).length := hd.resolve_right h
  have hp : (0 : ℝ) < ((numbers l).length : ℝ) - ddof := by
    have : (ddof : ℝ) < ((numbers l).length : ℝ) := by exact_mod_cast hd
    linarith
  have hn := deviations_nonneg id (numbers l)
  refine .inr ⟨h, Real.sqrt (deviations id id (numbers l) / (((numbers l).length : ℝ) - ddof)), ?_, Real.sqrt_nonneg _, ?_⟩
  · rw [RFlt.nanstd, nanvar_numbers hl h, RFlt.div, if_neg hp.ne', RFlt.sqrt, if_neg]
    exact not_lt.mpr (div_nonneg hn hp.le)
  · rw [Real.mul_self_sqrt (div_nonneg hn hp.le), ← deviations_id, div_mul_cancel₀ _ hp.ne']

/-- What a function of the elements makes of the numbers among them. -/
theorem numbers_map {l : List RFlt} (hl : ∀ v ∈ l, v.NoInf) {k : RFlt → RFlt} {g : ℝ → ℝ} (hn : k .nan = .nan)
    (hk : ∀ r ∈ numbers l, k (.fin r) = .fin (g r)) : numbers (l.map k) = (numbers l).map g := by
  induction l with
  | nil => rfl
  | cons v l ih =>
    have hv := hl v (by simp)
    have ih' := ih fun w hw => hl w (by simp [hw])
    cases v with
    | nan => rw [List.map_cons, hn, numbers_nan, numbers_nan]; exact ih' hk
    | pinf => exact hv.elim
    | ninf => exact hv.elim
    | fin r =>
      rw [numbers_fin] at hk
      rw [List.map_cons, hk r (by simp), numbers_fin, numbers_fin, List.map_cons, ih' fun q hq => hk q (by simp [hq])]

theorem map_congr_numbers {l : List RFlt} (hl : ∀ v ∈ l, v.NoInf) {k k' : RFlt → RFlt} (hn : k .nan = k' .nan)
    (hk : ∀ r ∈ numbers l, k (.fin r) = k' (.fin r)) : l.map k = l.map k' := by
  apply List.map_congr_left
  intro v hv
  have := hl v hv
  cases v with
  | nan => exact hn
  | pinf => exact this.elim
  | ninf => exact this.elim
  | fin r => exact hk r (mem_numbers.mpr hv)

theorem steady_iff {l : List ℝ} : Steady l ↔ deviations id id l = 0 := by rw [deviations_eq_zero]; rfl

/-- What `zscore` makes of a line. -/
noncomputable def scores (l : List RFlt) : List RFlt :=
  (l.map fun v => v.sub (RFlt.nanmean l)).map fun v => v.div (RFlt.nanstd 0 (l.map fun v => v.sub (RFlt.nanmean l)))

theorem average_zero {l : List ℝ} : (l.map fun r => r - average l).sum = 0 := by
  by_cases h : l = []
  · subst h; rfl
  have h0 : (l.length : ℝ) ≠ 0 := by simpa using h
  have := average_affine h (f := id) (g := fun r => r - average l) (a := 1) (b := - average l) (fun r _ => by simp; ring)
  rw [List.map_id, average, List.length_map, div_eq_iff h0] at this
  rw [this]; ring

/-- The z-scores of a line. -/
theorem scores_spec {l : List RFlt} (hl : ∀ v ∈ l, v.NoInf) : IsScores l (scores l) := by
  by_cases h : numbers l = []
  · left
    refine ⟨by rw [h]; intro p hp; simp at hp, ?_⟩
    rw [scores, List.map_map]
    exact map_congr_numbers hl rfl (by rw [h]; simp)
  have hm := nanmean_numbers hl h
  set c := average (numbers l) with hc
  have hl' : ∀ v ∈ l.map (fun v => v.sub (RFlt.nanmean l)), v.NoInf := by
    intro v hv
    obtain ⟨w, hw, rfl⟩ := List.mem_map.mp hv
    have := hl w hw
    rw [hm]
    cases w with
    | nan => trivial
    | pinf => exact this.elim
    | ninf => exact this.elim
    | fin r => trivial
  have hnum : numbers (l.map fun v => v.sub (RFlt.nanmean l)) = (numbers l).map fun r => r - c :=
    numbers_map hl rfl (fun r _ => by rw [hm]; simp [RFlt.sub, RFlt.neg, RFlt.add, sub_eq_add_neg])
  have hne : numbers (l.map fun v => v.sub (RFlt.nanmean l)) ≠ [] := by rw [hnum]; simpa using h
  have hdev : deviations id id ((numbers l).map fun r => r - c) = deviations id id (numbers l) := by
    rw [deviations_map, deviations_affine (f := id) (g := id) (a := 1) (b := -c) (c := 1) (d := -c)]
    · ring
    · intro r _; simp; ring
    · intro r _; simp; ring
  have hlen : (0 : ℝ) < (numbers l).length := numbers_ne_nil_count h
  have hn := deviations_nonneg id (numbers l)
  obtain ⟨h1, -⟩ | ⟨-, s, hs, hs0, hs2⟩ := nanstd_spec hl' (ddof := 0)
    (.inl (by have := List.length_pos_iff.mpr hne; exact_mod_cast this))
  · exact absurd h1 hne
  rw [← deviations_id, hnum, hdev, List.length_map, Int.cast_zero, sub_zero] at hs2
  by_cases hst : Steady (numbers l)
  · left
    refine ⟨hst, ?_⟩
    have hs00 : s = 0 := by
      rw [steady_iff.mp hst] at hs2
      rcases mul_eq_zero.mp hs2 with h | h
      · exact mul_self_eq_zero.mp h
      · exact absurd h hlen.ne'
    rw [scores, List.map_map, hs]
    refine map_congr_numbers hl rfl fun r hr => ?_
    have hrc : r = c := by
      have := average_const h (f := fun r => r) (c := r) (fun q hq => hst q hq r hr)
      simpa [hc] using this.symm
    simp [hm, RFlt.sub, RFlt.neg, RFlt.add, RFlt.div, RFlt.infOf, hs00, hrc]
  · right
    have hsp : 0 < s := by
      rcases hs0.lt_or_eq with h | h
      · exact h
      · exact absurd (steady_iff.mpr (by rw [← hs2, ← h]; ring)) hst
    have he : scores l = l.map (above c s) := by
      rw [scores, List.map_map, hs]
      refine map_congr_numbers hl rfl fun r hr => ?_
      simp [hm, RFlt.sub, RFlt.neg, RFlt.add, RFlt.div, hsp.ne', above, sub_eq_add_neg]
    have hnu : numbers (scores l) = (numbers l).map fun r => (r - c) / s := by
      rw [he]
      exact numbers_map hl rfl fun r _ => rfl
    refine ⟨c, s, hsp, he, by rw [hnu]; simpa using h, ?_, ?_⟩
    · have : (numbers l).map (fun r => (r - c) / s) = (numbers l).map fun r => s⁻¹ * (r - c) := by
        apply List.map_congr_left; intro r _; rw [div_eq_inv_mul]
      rw [hnu, this, sum_mul_left, hc, average_zero, mul_zero]
    · rw [hnu, List.map_map, List.length_map]
      have : (numbers l).map ((fun r => r * r) ∘ fun r => (r - c) / s) =
          (numbers l).map fun r => (s * s)⁻¹ * ((r - c) * (r - c)) := by
        apply List.map_congr_left; intro r _; simp only [Function.comp]; field_simp
      rw [this, sum_mul_left, hc, ← deviations_id, ← hs2]
      field_simp

/-! ## Arrays -/

theorem walk_withReduced (f : List RFlt → RFlt) (op : RFlt → RFlt → RFlt) {x : NDArray RFlt} {ax : Option Nat}
    (hax : ∀ k, ax = some k → k < x.shape.length) {rest : List Nat} (hr : InB (shapeWithout x.shape ax) rest) :
    walk (withReduced f op x ax) ax rest = (walk x ax rest).map fun v => op v (f (walk x ax rest)) := by
  match ax with
  | none => simp [walk, withReduced, NDArray.map, NDArray.vals, Function.comp_def]
  | some k =>
    have hk := hax k rfl
    have hlen : k ≤ rest.length := by
      have := InB_length hr
      simp only [shapeWithout, List.length_eraseIdx, if_pos hk] at this
      omega
    simp only [walk, withReduced, List.map_map]
    apply List.map_congr_left
    intro i _
    simp only [Function.comp, NDArray.reduceAx, NDArray.line, List.eraseIdx_insertIdx_self]

theorem withReduced_shape (f : List RFlt → RFlt) (op : RFlt → RFlt → RFlt) (x : NDArray RFlt) (ax : Option Nat) :
    (withReduced f op x ax).shape = x.shape := by cases ax <;> rfl

theorem walk_zscoreAx {x : NDArray RFlt} {ax : Option Nat} (hax : ∀ k, ax = some k → k < x.shape.length)
    {rest : List Nat} (hr : InB (shapeWithout x.shape ax) rest) :
    walk (zscoreAx x ax) ax rest = scores (walk x ax rest) := by
  have hs : (demeanArr x ax).shape = x.shape := withReduced_shape _ _ _ _
  rw [zscoreAx, walk_withReduced _ _ (by rw [hs]; exact hax) (by rw [hs]; exact hr), demeanArr,
    walk_withReduced _ _ hax hr, scores]

theorem zscoreArr_ok {x : NDArray RFlt} {axis : Option Int} {ax : Option Nat} (hax : Names x.ndim axis ax) :
    zscoreArr x axis = .ok (zscoreAx x ax) := by
  match axis, ax, hax with
  | none, none, _ => rfl
  | some a, some k, h => simp only [zscoreArr, h.pyIdx]

theorem walk_noInf {x : NDArray RFlt} {ax : Option Nat} (hax : ∀ k, ax = some k → k < x.shape.length)
    (hinf : ∀ idx, InB x.shape idx → (x.get idx).NoInf) {rest : List Nat} (hr : InB (shapeWithout x.shape ax) rest) :
    ∀ v ∈ walk x ax rest, v.NoInf := by
  intro v hv
  obtain ⟨idx, hi, rfl⟩ := mem_walk hax hr hv
  exact hinf idx hi

/-- C131. Each result of std is NaN if there is no number along the axis (or at all, with axis=None), and else the
standard deviation of the numbers: the number that is not negative and whose square, times the number of them less
ddof, is the sum of the squared distances from their average. -/
theorem C131_std (x : NDArray RFlt) {axis : Option Int} {ax : Option Nat} (hax : Names x.ndim axis ax) (ddof : Int)
    (hinf : ∀ idx, InB x.shape idx → (x.get idx).NoInf) :
    ∃ z, stdArr x axis ddof = .ok z ∧ z.shape = shapeWithout x.shape ax ∧
      ∀ rest, InB z.shape rest → (ddof < (numbers (walk x ax rest)).length ∨ numbers (walk x ax rest) = []) →
        IsStd ddof (numbers (walk x ax rest)) (z.get rest) := by
  have key : ∃ z, stdArr x axis ddof = .ok z ∧ z.shape = shapeWithout x.shape ax ∧
      ∀ rest, z.get rest = RFlt.nanstd ddof (walk x ax rest) := by
    match axis, ax, hax with
    | none, none, _ => exact ⟨_, rfl, rfl, fun _ => rfl⟩
    | some a, some k, h => exact ⟨x.reduceAx (RFlt.nanstd ddof) k, by simp only [stdArr, h.pyIdx], rfl, fun _ => rfl⟩
  obtain ⟨z, h1, h2, h3⟩ := key
  refine ⟨z, h1, h2, fun rest hr hd => ?_⟩
  rw [h3]
  exact nanstd_spec (walk_noInf hax.lt hinf (by rw [← h2]; exact hr)) hd

/-- C131. zscore keeps the shape, and each line of its result (or all of it, with axis=None) are the z-scores of the line
of the array. -/
theorem C131_zscore (x : NDArray RFlt) {axis : Option Int} {ax : Option Nat} (hax : Names x.ndim axis ax)
    (hinf : ∀ idx, InB x.shape idx → (x.get idx).NoInf) :
    ∃ z, zscoreArr x axis = .ok z ∧ z.shape = x.shape ∧
      ∀ rest, InB (shapeWithout x.shape ax) rest → IsScores (walk x ax rest) (walk z ax rest) := by
  refine ⟨_, zscoreArr_ok hax, ?_, fun rest hr => ?_⟩
  · rw [zscoreAx, withReduced_shape, demeanArr, withReduced_shape]
  · rw [walk_zscoreAx hax.lt hr]
    exact scores_spec (walk_noInf hax.lt hinf hr)

/-- C131. An axis out of range is a ValueError, for std and for zscore. -/
theorem C131_axis (x : NDArray RFlt) {a : Int} (h : a < -(x.ndim : Int) ∨ (x.ndim : Int) ≤ a) (ddof : Int) :
    stdArr x (some a) ddof = .error .valueError ∧ zscoreArr x (some a) = .error .valueError := by
  have : pyIdx x.ndim a = none := by
    unfold pyIdx
    split_ifs <;> first | rfl | omega
  simp only [stdArr, zscoreArr, this, and_self]

/-! ## What follows from the specification -/

theorem isScores_numbers {l m : List RFlt} (hl : ∀ v ∈ l, v.NoInf) {c s : ℝ} (hm : m = l.map (above c s)) :
    numbers m = (numbers l).map fun r => (r - c) / s := by
  rw [hm]
  exact numbers_map hl rfl fun r _ => rfl

/-- The level and the unit of z-scores. -/
theorem level_unit {l : List ℝ} (h : l ≠ []) {c s : ℝ} (hs : 0 < s) (h0 : (l.map fun r => (r - c) / s).sum = 0)
    (h2 : ((l.map fun r => (r - c) / s).map fun r => r * r).sum = l.length) :
    c = average l ∧ s * s * l.length = deviations id id l := by
  have hlen : (0 : ℝ) < l.length := by
    have := List.length_pos_iff.mpr h
    exact_mod_cast this
  have ha := average_affine h (f := id) (g := fun r => (r - c) / s) (a := s⁻¹) (b := - (s⁻¹ * c))
    (fun r _ => by simp only [id]; field_simp; ring)
  rw [List.map_id, average, h0, zero_div] at ha
  have hc : c = average l := by
    have : s⁻¹ * (average l - c) = 0 := by linarith
    rcases mul_eq_zero.mp this with h | h
    · exact absurd h (inv_pos.mpr hs).ne'
    · linarith
  refine ⟨hc, ?_⟩
  have : (l.map fun r => (r - c) / s).map (fun r => r * r) = l.map fun r => (s * s)⁻¹ * ((r - c) * (r - c)) := by
    rw [List.map_map]
    apply List.map_congr_left; intro r _; simp only [Function.comp]; field_simp
  rw [this, sum_mul_left, hc, ← deviations_id] at h2
  rw [← h2]
  field_simp

/-- z-scores, with their level and unit. -/
theorem isScores_cases {l m : List RFlt} (hl : ∀ v ∈ l, v.NoInf) (h : IsScores l m) :
    (Steady (numbers l) ∧ m = l.map fun _ => .nan) ∨
    (¬ Steady (numbers l) ∧ numbers l ≠ [] ∧ ∃ s : ℝ, 0 < s ∧ s * s * (numbers l).length = deviations id id (numbers l) ∧
      m = l.map (above (average (numbers l)) s)) := by
  rcases h with h | ⟨c, s, hs, hm, h1, h2, h3⟩
  · exact .inl h
  · rw [isScores_numbers hl hm] at h1 h2 h3
    have hne : numbers l ≠ [] := by simpa using h1
    rw [List.length_map] at h3
    obtain ⟨hc, hd⟩ := level_unit hne hs h2 h3
    have hlen := numbers_ne_nil_count hne
    refine .inr ⟨fun hst => ?_, hne, s, hs, hd, by rw [← hc]; exact hm⟩
    rw [steady_iff.mp hst] at hd
    exact absurd hd (mul_pos (mul_pos hs hs) hlen).ne'

/-- C131. There is only one list of z-scores of a line, and one standard deviation. -/
theorem C131_unique {l m m' : List RFlt} (hl : ∀ v ∈ l, v.NoInf) (h : IsScores l m) (h' : IsScores l m') : m = m' := by
  rcases isScores_cases hl h with ⟨h1, rfl⟩ | ⟨h1, hne, s, hs, hd, rfl⟩ <;>
    rcases isScores_cases hl h' with ⟨h1', rfl⟩ | ⟨h1', -, s', hs', hd', rfl⟩
  · rfl
  · exact absurd h1 h1'
  · exact absurd h1' h1
  · have hlen := numbers_ne_nil_count hne
    have : s = s' := by
      have : s * s = s' * s' := mul_right_cancel₀ hlen.ne' (hd.trans hd'.symm)
      exact (mul_self_inj hs.le hs'.le).mp this
    rw [this]

/-- C131. There is only one standard deviation. -/
theorem C131_std_unique {ddof : Int} {l : List ℝ} {v w : RFlt} (hd : ddof < l.length) (hv : IsStd ddof l v)
    (hw : IsStd ddof l w) : v = w := by
  rcases hv with ⟨h, rfl⟩ | ⟨h, s, rfl, hs, h2⟩ <;> rcases hw with ⟨h', rfl⟩ | ⟨h', s', rfl, hs', h2'⟩
  · rfl
  · exact absurd h h'
  · exact absurd h' h
  · have hp : (0 : ℝ) < (l.length : ℝ) - ddof := by
      have : (ddof : ℝ) < (l.length : ℝ) := by exact_mod_cast hd
      linarith
    rw [(mul_self_inj hs hs').mp (mul_right_cancel₀ hp.ne' (h2.trans h2'.symm))]

/-- C131. The standard deviation is zero exactly if the numbers do not differ. -/
theorem C131_std_zero {ddof : Int} {l : List ℝ} {s : ℝ} (hd : ddof < l.length) (h : IsStd ddof l (.fin s)) :
    s = 0 ↔ Steady l := by
  rcases h with ⟨-, h⟩ | ⟨-, s', he, hs, h2⟩
  · cases h
  · cases he
    have hp : (0 : ℝ) < (l.length : ℝ) - ddof := by
      have : (ddof : ℝ) < (l.length : ℝ) := by exact_mod_cast hd
      linarith
    rw [← deviations_id] at h2
    rw [steady_iff, ← h2]
    constructor
    · rintro rfl; ring
    · intro h
      rcases mul_eq_zero.mp h with h | h
      · exact mul_self_eq_zero.mp h
      · exact absurd h hp.ne'

/-- C131. Other units: scaling the numbers by `a` scales the standard deviation by `|a|`, and moving them does not
change it. -/
theorem C131_std_units {ddof : Int} {l : List ℝ} {s : ℝ} (h : IsStd ddof l (.fin s)) (a b : ℝ) :
    IsStd ddof (l.map fun r => a * r + b) (.fin (|a| * s)) := by
  rcases h with ⟨-, h⟩ | ⟨h, s', he, hs, h2⟩
  · cases h
  · cases he
    refine .inr ⟨by simpa using h, _, rfl, mul_nonneg (abs_nonneg a) hs, ?_⟩
    rw [← deviations_id] at h2
    have hd : deviations (fun p => id (a * p + b)) (fun p => id (a * p + b)) l = a * a * deviations id id l :=
      deviations_affine (b := b) (d := b) (fun _ _ => rfl) (fun _ _ => rfl)
    rw [← deviations_id, deviations_map, hd, ← h2, List.length_map, mul_mul_mul_comm, abs_mul_abs_self, mul_assoc]

/-- C131. Missing elements stay missing, and where the numbers differ nothing else becomes missing and the order of any
two of them is kept. -/
theorem C131_order {l m : List RFlt} (hl : ∀ v ∈ l, v.NoInf) (h : IsScores l m) :
    m.length = l.length ∧ (∀ i : Nat, l[i]? = some .nan → m[i]? = some .nan) ∧
    (¬ Steady (numbers l) → ∀ (i j : Nat) (p q : ℝ), l[i]? = some (.fin p) → l[j]? = some (.fin q) →
      ∃ p' q', m[i]? = some (.fin p') ∧ m[j]? = some (.fin q') ∧ (p' < q' ↔ p < q) ∧ (p' = q' ↔ p = q)) := by
  rcases isScores_cases hl h with ⟨h1, rfl⟩ | ⟨h1, hne, s, hs, hd, rfl⟩
  · exact ⟨by simp, fun i hi => by rw [List.getElem?_map, hi]; rfl, fun h => absurd h1 h⟩
  · refine ⟨by simp, fun i hi => by simp [hi, above], fun _ i j p q hi hj => ?_⟩
    refine ⟨(p - average (numbers l)) / s, (q - average (numbers l)) / s, by simp [hi, above], by simp [hj, above], ?_, ?_⟩
    · rw [div_lt_div_iff_of_pos_right hs, sub_lt_sub_iff_right]
    · rw [div_left_inj' hs.ne', sub_left_inj]

/-- `a * v + b` for an element; a missing one stays missing. -/
noncomputable def affine (a b : ℝ) : RFlt → RFlt
  | .fin r => .fin (a * r + b)
  | _ => .nan

theorem numbers_affine {l : List RFlt} (hl : ∀ v ∈ l, v.NoInf) (a b : ℝ) :
    numbers (l.map (affine a b)) = (numbers l).map fun r => a * r + b := numbers_map hl rfl fun _ _ => rfl

theorem steady_affine {l : List ℝ} (h : Steady l) (a b : ℝ) : Steady (l.map fun r => a * r + b) := by
  intro p hp q hq
  obtain ⟨r, hr, rfl⟩ := List.mem_map.mp hp
  obtain ⟨t, ht, rfl⟩ := List.mem_map.mp hq
  rw [h r hr t ht]

/-- C131. z-scores do not depend on the units and the origin of the numbers. -/
theorem C131_units {l m : List RFlt} (hl : ∀ v ∈ l, v.NoInf) (h : IsScores l m) {a : ℝ} (ha : 0 < a) (b : ℝ) :
    IsScores (l.map (affine a b)) m := by
  rcases h with ⟨h1, rfl⟩ | ⟨c, s, hs, hm, h1⟩
  · exact .inl ⟨by rw [numbers_affine hl]; exact steady_affine h1 a b, by simp [Function.comp_def]⟩
  · refine .inr ⟨a * c + b, a * s, mul_pos ha hs, ?_, h1⟩
    rw [hm, List.map_map]
    refine map_congr_numbers hl rfl fun r _ => ?_
    simp only [above, affine, Function.comp]
    congr 1
    field_simp
    ring

/-- C131. Changing the sign of the numbers changes the sign of the z-scores. -/
theorem C131_negative {l m : List RFlt} (hl : ∀ v ∈ l, v.NoInf) (h : IsScores l m) {a : ℝ} (ha : a < 0) (b : ℝ) :
    IsScores (l.map (affine a b)) (m.map RFlt.neg) := by
  rcases h with ⟨h1, rfl⟩ | ⟨c, s, hs, hm, h1, h2, h3⟩
  · exact .inl ⟨by rw [numbers_affine hl]; exact steady_affine h1 a b, by simp [Function.comp_def, RFlt.neg]⟩
  · have hm' : ∀ v ∈ m, v.NoInf := by
      rw [hm]; intro v hv
      obtain ⟨w, -, rfl⟩ := List.mem_map.mp hv
      cases w <;> trivial
    have hnu : numbers (m.map RFlt.neg) = (numbers m).map fun r => -1 * r :=
      numbers_map hm' rfl fun r _ => by simp [RFlt.neg]
    refine .inr ⟨a * c + b, -a * s, mul_pos (by linarith) hs, ?_, by rw [hnu]; simpa using h1, ?_, ?_⟩
    · rw [hm, List.map_map, List.map_map]
      refine map_congr_numbers hl rfl fun r _ => ?_
      simp only [above, affine, Function.comp, RFlt.neg]
      congr 1
      have := ha.ne
      field_simp
      ring
    · rw [hnu, sum_mul_left]
      simpa using h2
    · rw [hnu, List.map_map, List.length_map, ← h3]
      congr 1
      apply List.map_congr_left
      intro r _
      simp only [Function.comp]; ring

/-- C131. z-scores are their own z-scores. -/
theorem C131_again {l m : List RFlt} (h : IsScores l m) : IsScores m m := by
  rcases h with ⟨h1, rfl⟩ | ⟨c, s, hs, hm, h1⟩
  · left
    have : numbers (l.map fun _ => RFlt.nan) = [] := by
      clear h1
      induction l with
      | nil => rfl
      | cons v l ih => rw [List.map_cons, numbers_nan, ih]
    exact ⟨by rw [this]; intro p hp; simp at hp, by simp⟩
  · refine .inr ⟨0, 1, one_pos, ?_, h1⟩
    conv_lhs => rw [← List.map_id m]
    apply List.map_congr_left
    intro v hv
    rw [hm] at hv
    obtain ⟨w, -, rfl⟩ := List.mem_map.mp hv
    cases w <;> simp [above]

/-- The square of a sum is at most the number of terms times the sum of the squares. -/
theorem sq_sum_le (l : List ℝ) : l.sum * l.sum ≤ l.length * (l.map fun r => r * r).sum := by
  induction l with
  | nil => simp
  | cons a l ih =>
    have h0 : 0 ≤ (l.map fun r => (r - a) * (r - a)).sum := List.sum_nonneg (by
      intro r hr
      obtain ⟨p, -, rfl⟩ := List.mem_map.mp hr
      exact mul_self_nonneg _)
    have h1 : (l.map fun r => (r - a) * (r - a)).sum =
        (l.map fun r => r * r).sum - 2 * a * l.sum + l.length * (a * a) := by
      clear ih h0
      induction l with
      | nil => simp
      | cons b l ih => simp only [List.map_cons, List.sum_cons, ih, List.length_cons]; push_cast; ring
    simp only [List.map_cons, List.sum_cons, List.length_cons]
    push_cast
    nlinarith

/-- C131. No z-score of n numbers is larger than the root of n - 1. -/
theorem C131_bounds {l m : List RFlt} (h : IsScores l m) {r : ℝ} (hr : .fin r ∈ m) :
    r * r ≤ ((numbers m).length : ℝ) - 1 := by
  rcases h with ⟨h1, rfl⟩ | ⟨c, s, hs, hm, h1, h2, h3⟩
  · obtain ⟨v, -, hv⟩ := List.mem_map.mp hr
    cases hv
  · obtain ⟨u, w, he⟩ := List.append_of_mem (mem_numbers.mpr hr)
    rw [he] at h2 h3 ⊢
    simp only [List.sum_append, List.sum_cons, List.map_append, List.map_cons, List.length_append, List.length_cons] at h2 h3 ⊢
    have := sq_sum_le (u ++ w)
    simp only [List.sum_append, List.map_append, List.length_append] at this
    push_cast at h2 h3 this ⊢
    set U := (u.map fun r => r * r).sum
    set W := (w.map fun r => r * r).sum
    have e1 : u.sum + w.sum = -r := by linarith
    have e2 : U + W = u.length + (w.length + 1) - r * r := by linarith
    rw [e1, e2] at this
    have hn : (0 : ℝ) < u.length + w.length + 1 := by positivity
    have : 0 ≤ ((u.length : ℝ) + w.length + 1) * ((u.length : ℝ) + w.length - r * r) := by nlinarith
    have := (mul_nonneg_iff_of_pos_left hn).mp this
    linarith

/-! ## z-scores and correlation -/

theorem pairs_fst {l m : List RFlt} (hg : ∀ p ∈ l.zip m, p.1.NoInf ∧ p.2.NoInf ∧ (p.1 = .nan ↔ p.2 = .nan))
    (hlen : l.length = m.length) :
    (numberPairs (l.zip m)).map Prod.fst = numbers l ∧ (numberPairs (l.zip m)).map Prod.snd = numbers m := by
  induction l generalizing m with
  | nil =>
    match m with
    | [] => exact ⟨rfl, rfl⟩
    | _ :: _ => simp at hlen
  | cons v l ih =>
    match m with
    | [] => simp at hlen
    | w :: m =>
      have h1 := hg (v, w) (by simp)
      obtain ⟨i1, i2⟩ := ih (m := m) (fun p hp => hg p (by simp [hp])) (by simpa using hlen)
      clear ih hg hlen
      rw [List.zip_cons_cons]
      match v, w, h1 with
      | .nan, .nan, _ => exact ⟨i1, i2⟩
      | .fin a, .fin b, _ => exact ⟨congrArg (a :: ·) i1, congrArg (b :: ·) i2⟩
      | .nan, .fin _, h => exact absurd (h.2.2.mp rfl) (by simp)
      | .fin _, .nan, h => exact absurd (h.2.2.mpr rfl) (by simp)
      | .pinf, _, h => exact h.1.elim
      | .ninf, _, h => exact h.1.elim
      | .nan, .pinf, h => exact h.2.1.elim
      | .nan, .ninf, h => exact h.2.1.elim
      | .fin _, .pinf, h => exact h.2.1.elim
      | .fin _, .ninf, h => exact h.2.1.elim

theorem pairs_map (l m : List RFlt) {c s c' s' : ℝ} :
    numberPairs ((l.map (above c s)).zip (m.map (above c' s'))) =
      (numberPairs (l.zip m)).map fun p => ((p.1 - c) / s, (p.2 - c') / s') := by
  rw [List.zip_map, numberPairs_eq, numberPairs_eq, List.filterMap_map, List.map_filterMap]
  congr 1
  funext p
  obtain ⟨v, w⟩ := p
  cases v <;> cases w <;> rfl

/-- C131. The correlation of two arrays with NaNs in the same places is the average product of their z-scores, along
every line on which both of them vary. -/
theorem C131_correlation (x1 x2 : NDArray RFlt) (hs : x1.shape = x2.shape) {axis : Option Int} {ax : Option Nat}
    (hax : Names x1.ndim axis ax) (hinf : ∀ idx, InB x1.shape idx → (x1.get idx).NoInf ∧ (x2.get idx).NoInf)
    (hgap : ∀ idx, InB x1.shape idx → (x1.get idx = .nan ↔ x2.get idx = .nan)) :
    ∃ z z1 z2, correlation x1 x2 false false axis = .ok z ∧ zscoreArr x1 axis = .ok z1 ∧ zscoreArr x2 axis = .ok z2 ∧
      ∀ rest, InB (shapeWithout x1.shape ax) rest →
        ¬ Steady (numbers (walk x1 ax rest)) → ¬ Steady (numbers (walk x2 ax rest)) →
        z.get rest = .fin (average ((numberPairs ((walk z1 ax rest).zip (walk z2 ax rest))).map fun p => p.1 * p.2)) := by
  obtain ⟨z, h1, h2, h3⟩ := C69_correlation x1 x2 hs (int1 := false) (int2 := false) hax hinf (.inr (.inl ⟨rfl, rfl⟩))
  have hax2 : Names x2.ndim axis ax := by
    have : x2.ndim = x1.ndim := by rw [NDArray.ndim, NDArray.ndim, hs]
    rw [this]; exact hax
  obtain ⟨z1, e1, -, f1⟩ := C131_zscore x1 hax (fun idx h => (hinf idx h).1)
  obtain ⟨z2, e2, -, f2⟩ := C131_zscore x2 hax2 (fun idx h => (hinf idx (by rw [hs]; exact h)).2)
  refine ⟨z, z1, z2, h1, e1, e2, fun rest hr n1 n2 => ?_⟩
  have hr2 : InB (shapeWithout x2.shape ax) rest := by rw [← hs]; exact hr
  have l1 := walk_noInf hax.lt (fun idx h => (hinf idx h).1) hr
  have l2 := walk_noInf hax2.lt (fun idx h => (hinf idx (by rw [hs]; exact h)).2) hr2
  obtain ⟨h, -⟩ | ⟨-, m1, s1, p1, d1, w1⟩ := isScores_cases l1 (f1 rest hr)
  · exact absurd h n1
  obtain ⟨h, -⟩ | ⟨-, m2, s2, p2, d2, w2⟩ := isScores_cases l2 (f2 rest hr2)
  · exact absurd h n2
  have hg : ∀ p ∈ (walk x1 ax rest).zip (walk x2 ax rest), p.1.NoInf ∧ p.2.NoInf ∧ (p.1 = .nan ↔ p.2 = .nan) := by
    intro p hp
    rw [← walk_zip x1 x2 hs] at hp
    obtain ⟨idx, hi, rfl⟩ := mem_walk (x := NDArray.zipWith Prod.mk x1 x2) hax.lt hr hp
    exact ⟨(hinf idx hi).1, (hinf idx hi).2, hgap idx hi⟩
  have hlen : (walk x1 ax rest).length = (walk x2 ax rest).length := by cases ax <;> simp [walk, hs]
  obtain ⟨q1, q2⟩ := pairs_fst hg hlen
  have hc := h3 rest (by rw [h2]; exact hr)
  rw [w1, w2, pairs_map]
  set P := numberPairs ((walk x1 ax rest).zip (walk x2 ax rest)) with hP
  rw [← q1] at n1 d1 m1 ⊢
  rw [← q2] at n2 d2 ⊢
  rw [deviations_map, List.length_map] at d1 d2
  have hst : ¬ Still P := by
    rintro (h | h)
    · refine n1 fun a ha b hb => ?_
      obtain ⟨p, hp, rfl⟩ := List.mem_map.mp ha
      obtain ⟨q, hq, rfl⟩ := List.mem_map.mp hb
      exact h p hp q hq
    · refine n2 fun a ha b hb => ?_
      obtain ⟨p, hp, rfl⟩ := List.mem_map.mp ha
      obtain ⟨q, hq, rfl⟩ := List.mem_map.mp hb
      exact h p hp q hq
  have hne : P ≠ [] := by simpa using m1
  have hn : (0 : ℝ) < P.length := by
    have := List.length_pos_iff.mpr hne
    exact_mod_cast this
  obtain ⟨h, -⟩ | ⟨-, hv⟩ := hc
  · exact absurd h hst
  rw [hv]
  congr 1
  rw [pearson, average, List.map_map, List.length_map]
  have k1 : deviations Prod.fst Prod.fst P = s1 * s1 * P.length := d1.symm
  have k2 : deviations Prod.snd Prod.snd P = s2 * s2 * P.length := d2.symm
  have k3 : (P.map ((fun p : ℝ × ℝ => p.1 * p.2) ∘ fun p => ((p.1 - average (P.map Prod.fst)) / s1,
      (p.2 - average (P.map Prod.snd)) / s2))) =
      P.map fun p => (s1 * s2)⁻¹ * ((p.1 - average (P.map Prod.fst)) * (p.2 - average (P.map Prod.snd))) := by
    apply List.map_congr_left; intro p _; simp only [Function.comp]; field_simp
  rw [k3, sum_mul_left, ← deviations, k1, k2, sqrt_sq_mul, sqrt_sq_mul, abs_of_pos p1, abs_of_pos p2, mul_mul_mul_comm,
    Real.mul_self_sqrt hn.le]
  field_simp

/-! ## Too large a ddof -/

/-- C131. If ddof is the number of numbers, std is NaN where they do not differ and infinite where they do; if it is
larger, std is zero where they do not differ and NaN where they do. -/
theorem C131_ddof (x : NDArray RFlt) {axis : Option Int} {ax : Option Nat} (hax : Names x.ndim axis ax) (ddof : Int)
    (hinf : ∀ idx, InB x.shape idx → (x.get idx).NoInf) :
    ∃ z, stdArr x axis ddof = .ok z ∧ z.shape = shapeWithout x.shape ax ∧
      ∀ rest, InB z.shape rest → numbers (walk x ax rest) ≠ [] →
        (ddof = (numbers (walk x ax rest)).length →
          (Steady (numbers (walk x ax rest)) → z.get rest = .nan) ∧
          (¬ Steady (numbers (walk x ax rest)) → z.get rest = .pinf)) ∧
        ((numbers (walk x ax rest)).length < ddof →
          (Steady (numbers (walk x ax rest)) → z.get rest = .fin 0) ∧
          (¬ Steady (numbers (walk x ax rest)) → z.get rest = .nan)) := by
  have key : ∃ z, stdArr x axis ddof = .ok z ∧ z.shape = shapeWithout x.shape ax ∧
      ∀ rest, z.get rest = RFlt.nanstd ddof (walk x ax rest) := by
    match axis, ax, hax with
    | none, none, _ => exact ⟨_, rfl, rfl, fun _ => rfl⟩
    | some a, some k, h => exact ⟨x.reduceAx (RFlt.nanstd ddof) k, by simp only [stdArr, h.pyIdx], rfl, fun _ => rfl⟩
  obtain ⟨z, h1, h2, h3⟩ := key
  refine ⟨z, h1, h2, fun rest hr hne => ?_⟩
  have hl := walk_noInf hax.lt hinf (by rw [← h2]; exact hr)
  rw [h3, RFlt.nanstd, nanvar_numbers hl hne, steady_iff]
  set D := deviations id id (numbers (walk x ax rest)) with hD
  have hD0 : 0 ≤ D := deviations_nonneg id _
  refine ⟨fun hd => ?_, fun hd => ?_⟩
  · have e : ((numbers (walk x ax rest)).length : ℝ) - (ddof : ℝ) = 0 := by rw [hd]; simp
    rw [e]
    refine ⟨fun h => by simp [h, RFlt.div, RFlt.infOf, RFlt.sqrt], fun h => ?_⟩
    have : 0 < D := lt_of_le_of_ne hD0 (Ne.symm h)
    simp [RFlt.div, RFlt.infOf, RFlt.sqrt, this]
  · have e : ((numbers (walk x ax rest)).length : ℝ) - (ddof : ℝ) < 0 := by
      have : ((numbers (walk x ax rest)).length : ℝ) < (ddof : ℝ) := by exact_mod_cast hd
      linarith
    refine ⟨fun h => by simp [h, RFlt.div, RFlt.sqrt, e.ne], fun h => ?_⟩
    have h0 : 0 < D := lt_of_le_of_ne hD0 (Ne.symm h)
    rw [RFlt.div, if_neg e.ne, RFlt.sqrt, if_pos (div_neg_of_pos_of_neg h0 e)]

/-! ## An example: 1, NaN and 3, with the z-scores -1, NaN and 1 -/

noncomputable def exOneThree : NDArray RFlt := ⟨[3], fun idx =>
  if idx = [0] then .fin 1 else if idx = [2] then .fin 3 else .nan⟩

theorem exOneThree_walk : walk exOneThree (some 0) [] = [.fin 1, .nan, .fin 3] := by
  simp [walk, exOneThree, List.range_succ]

theorem exOneThree_noInf (idx : List Nat) : (exOneThree.get idx).NoInf := by
  simp only [exOneThree]
  split_ifs <;> trivial

theorem exOneThree_numbers : numbers (walk exOneThree (some 0) []) = [1, 3] := by rw [exOneThree_walk]; rfl

theorem exOneThree_varies : ¬ Steady (numbers (walk exOneThree (some 0) [])) := by
  rw [exOneThree_numbers]
  intro h
  have := h 1 (by simp) 3 (by simp)
  norm_num at this

theorem exOneThree_scores : IsScores [.fin 1, .nan, .fin 3] [.fin (-1), .nan, .fin 1] := by
  have e : numbers [.fin (-1), .nan, .fin 1] = [-1, 1] := rfl
  refine .inr ⟨2, 1, one_pos, ?_, by simp [e], ?_, ?_⟩
  · simp only [List.map_cons, List.map_nil, above]; norm_num
  · simp [e]
  · simp [e]; norm_num

example : ∃ z, zscoreArr exOneThree (some (-1)) = .ok z ∧ walk z (some 0) [] = [.fin (-1), .nan, .fin 1] := by
  obtain ⟨z, h1, -, h3⟩ := C131_zscore exOneThree (axis := some (-1)) (ax := some 0) ⟨by decide, .inr rfl⟩
    (fun idx _ => exOneThree_noInf idx)
  refine ⟨z, h1, ?_⟩
  have := h3 [] (by simp [shapeWithout, exOneThree, InB])
  rw [exOneThree_walk] at this
  exact C131_unique (by intro v hv; simp at hv; rcases hv with rfl | rfl | rfl <;> trivial) this exOneThree_scores

example : ∃ z, stdArr exOneThree none 0 = .ok z ∧ z.get [] = .fin 1 := by
  obtain ⟨z, h1, h2, h3⟩ := C131_std exOneThree (axis := none) (ax := none) trivial 0 (fun idx _ => exOneThree_noInf idx)
  have hn : numbers (walk exOneThree none []) = [1, 3] := by
    simp [walk, exOneThree, allIdx, List.range_succ]
    rfl
  refine ⟨z, h1, ?_⟩
  have := h3 [] (by rw [h2]; trivial) (by rw [hn]; simp)
  rw [hn] at this
  refine C131_std_unique (by simp) this (.inr ⟨by simp, 1, rfl, by norm_num, ?_⟩)
  norm_num [average]

example : ∃ z, stdArr exOneThree none 2 = .ok z ∧ z.get [] = .pinf := by
  obtain ⟨z, h1, h2, h3⟩ := C131_ddof exOneThree (axis := none) (ax := none) trivial 2 (fun idx _ => exOneThree_noInf idx)
  have hn : numbers (walk exOneThree none []) = [1, 3] := by
    simp [walk, exOneThree, allIdx, List.range_succ]
    rfl
  have := h3 [] (by rw [h2]; trivial) (by rw [hn]; simp)
  rw [hn] at this
  exact ⟨z, h1, (this.1 (by simp)).2 (by rw [← exOneThree_numbers]; exact exOneThree_varies)⟩

/-- The hypotheses of `C131_correlation`, `C131_order`, `C131_bounds`, `C131_units`, `C131_negative`, `C131_std_zero`
and `C131_std_units` hold for the example. -/
example : ∃ z z1 z2, correlation exOneThree exOneThree false false (some 0) = .ok z ∧ zscoreArr exOneThree (some 0) = .ok z1 ∧
    zscoreArr exOneThree (some 0) = .ok z2 ∧
    z.get [] = .fin (average ((numberPairs ((walk z1 (some 0) []).zip (walk z2 (some 0) []))).map fun p => p.1 * p.2)) := by
  obtain ⟨z, z1, z2, h1, h2, h3, h4⟩ := C131_correlation exOneThree exOneThree rfl (axis := some 0) (ax := some 0)
    ⟨by decide, .inl rfl⟩ (fun idx _ => ⟨exOneThree_noInf idx, exOneThree_noInf idx⟩) (fun _ _ => Iff.rfl)
  exact ⟨z, z1, z2, h1, h2, h3, h4 [] (by simp [shapeWithout, exOneThree, InB]) exOneThree_varies exOneThree_varies⟩

example : IsScores [.fin 7, .nan, .fin 11] [.fin (-1), .nan, .fin 1] := by
  have := C131_units (by intro v hv; simp at hv; rcases hv with rfl | rfl | rfl <;> trivial) exOneThree_scores
    (a := 2) (by norm_num) 5
  simp only [List.map_cons, List.map_nil, affine] at this
  norm_num at this
  exact this

example : (1 : ℝ) * 1 ≤ ((numbers [.fin (-1), .nan, .fin 1]).length : ℝ) - 1 :=
  C131_bounds exOneThree_scores (by simp)

example : stdArr exOneThree (some 1) 0 = .error .valueError ∧ zscoreArr exOneThree (some 1) = .error .valueError :=
  C131_axis exOneThree (.inr (by decide)) 0

end La
