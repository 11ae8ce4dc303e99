import Verif.Props.MoveBn
import Verif.Props.Arith
import Mathlib.Data.Rat.Sqrt

/-!
# Property C115: the statistics of a larry in other units

C83 says what a change of units does to demean, zscore, cumsum, cov and the group methods.  Here it is followed through
the statistics along an axis (or of the whole larry) and through the moving statistics.
-/

namespace La
open Larry
variable {L : Type _}

/-! ## Specification -/

/-- The statistics; `root` is the square root of a float. -/
inductive Measure
  | sum | mean | median | max | min
  | var (ddof : Int)
  | std (root : Flt → Flt) (ddof : Int)

/-- The method. -/
def Measure.of (y : Larry L) (axis : Option Int) : Measure → Res (Out L)
  | .sum => y.sum axis
  | .mean => y.mean axis
  | .median => y.median axis
  | .max => y.max axis
  | .min => y.min axis
  | .var ddof => y.var axis ddof
  | .std root ddof => y.std root axis ddof

/-- What `move_func` is given to compute it for each window. -/
def Measure.func : Measure → Red
  | .sum => bnNansum
  | .mean => bnNanmean
  | .median => bnNanmedian
  | .max => bnNanmax
  | .min => bnNanmin
  | .var ddof => bnNanvar ddof
  | .std root ddof => bnNanstd root ddof

/-- The statistic of the values in other units that belongs to it: turning the values upside down exchanges the largest
and the smallest. -/
def Measure.turned (a : ℚ) : Measure → Measure
  | .max => if 0 < a then .max else .min
  | .min => if 0 < a then .min else .max
  | s => s

/-- How its value changes if the values `v` become `a * v + b`. -/
def Measure.inUnits (a b : ℚ) : Measure → Flt → Flt
  | .var _ => Flt.units (a * a) 0
  | .std _ _ => Flt.units |a| 0
  | _ => Flt.units a b

/-- A square root: that of `a * a` times a number is `|a|` times the root of the number. -/
def IsRoot (root : Flt → Flt) : Prop := ∀ a : ℚ, a ≠ 0 → ∀ x, root (x.units (a * a) 0) = (root x).units |a| 0

/-- What is asked: a sum is only scaled, and the root of a standard deviation is a square root. -/
def Measure.Fit (b : ℚ) : Measure → Prop
  | .sum => b = 0
  | .std root _ => IsRoot root
  | _ => True

/-! ## Lists of floats -/

theorem units_eq_nan {a : ℚ} (ha : a ≠ 0) (b : ℚ) {x : Flt} : x.units a b = .nan ↔ x = .nan := by
  rcases lt_or_gt_of_ne ha with h | h <;> cases x <;>
    simp [units_fin, units_nan, units_pinf ha, units_ninf ha, h, not_lt.mpr h.le]

theorem all_nan_units (a b : ℚ) {fs : List Flt} (h : ∀ f ∈ fs, f = .nan) :
    ∀ f ∈ fs.map (Flt.units a b), f = .nan := by
  intro f hf
  obtain ⟨g, hg, rfl⟩ := List.mem_map.mp hf
  rw [h g hg]; rfl

theorem filter_units' {a : ℚ} (ha : a ≠ 0) (b : ℚ) (fs : List Flt) :
    (fs.map (Flt.units a b)).filter (· ≠ .nan) = (fs.filter (· ≠ .nan)).map (Flt.units a b) := by
  rw [List.filter_map]
  congr 2
  funext x
  simp only [Function.comp, ne_eq, units_eq_nan ha]

theorem pinf_mem_units {a : ℚ} (ha : a ≠ 0) (b : ℚ) {fs : List Flt} :
    .pinf ∈ fs.map (Flt.units a b) ↔ (if 0 < a then Flt.pinf else .ninf) ∈ fs := by
  rw [List.mem_map]
  constructor
  · rintro ⟨x, hx, e⟩
    rcases lt_or_gt_of_ne ha with h | h <;> cases x <;>
      simp [units_fin, units_nan, units_pinf ha, units_ninf ha, h, not_lt.mpr h.le] at e ⊢ <;> exact hx
  · intro h
    refine ⟨_, h, ?_⟩
    rcases lt_or_gt_of_ne ha with h | h <;> simp [units_pinf ha, units_ninf ha, h, not_lt.mpr h.le]

theorem ninf_mem_units {a : ℚ} (ha : a ≠ 0) (b : ℚ) {fs : List Flt} :
    .ninf ∈ fs.map (Flt.units a b) ↔ (if 0 < a then Flt.ninf else .pinf) ∈ fs := by
  rw [List.mem_map]
  constructor
  · rintro ⟨x, hx, e⟩
    rcases lt_or_gt_of_ne ha with h | h <;> cases x <;>
      simp [units_fin, units_nan, units_pinf ha, units_ninf ha, h, not_lt.mpr h.le] at e ⊢ <;> exact hx
  · intro h
    refine ⟨_, h, ?_⟩
    rcases lt_or_gt_of_ne ha with h | h <;> simp [units_pinf ha, units_ninf ha, h, not_lt.mpr h.le]

theorem sumIs_units {a : ℚ} (ha : a ≠ 0) {fs : List Flt} {q : Flt} (h : SumIs fs q) :
    SumIs (fs.map (Flt.units a 0)) (q.units a 0) := by
  cases h with
  | none h => exact .none (all_nan_units a 0 h)
  | finite qs hq e =>
    have h1 : (fs.map (Flt.units a 0)).filter (· ≠ .nan) = (qs.map (a * ·)).map .fin := by
      rw [filter_units' ha, e]
      simp [units_fin, Function.comp_def]
    have h2 : (Flt.fin qs.sum).units a 0 = .fin (qs.map (a * ·)).sum := by
      rw [units_fin, add_zero]
      exact congrArg Flt.fin (by
        clear e h1 hq
        induction qs with
        | nil => simp
        | cons p ps ih => rw [List.map_cons, List.sum_cons, List.sum_cons, mul_add, ih])
    rw [h2]
    exact .finite _ (by simpa using hq) h1
  | plus h1 h2 =>
    rw [units_pinf ha]
    split
    case isTrue h => exact .plus ((pinf_mem_units ha 0).mpr (by rwa [if_pos h])) (fun k => h2 (by
      have := (ninf_mem_units ha 0).mp k; rwa [if_pos h] at this))
    case isFalse h => exact .minus ((ninf_mem_units ha 0).mpr (by rwa [if_neg h])) (fun k => h2 (by
      have := (pinf_mem_units ha 0).mp k; rwa [if_neg h] at this))
  | minus h1 h2 =>
    rw [units_ninf ha]
    split
    case isTrue h => exact .minus ((ninf_mem_units ha 0).mpr (by rwa [if_pos h])) (fun k => h2 (by
      have := (pinf_mem_units ha 0).mp k; rwa [if_pos h] at this))
    case isFalse h => exact .plus ((pinf_mem_units ha 0).mpr (by rwa [if_neg h])) (fun k => h2 (by
      have := (ninf_mem_units ha 0).mp k; rwa [if_neg h] at this))
  | both h1 h2 =>
    refine .both ((pinf_mem_units ha 0).mpr ?_) ((ninf_mem_units ha 0).mpr ?_) <;> split <;> assumption

theorem leF_units {a : ℚ} (ha : a ≠ 0) (b : ℚ) {x y : Flt} (h : LeF x y) :
    if 0 < a then LeF (x.units a b) (y.units a b) else LeF (y.units a b) (x.units a b) := by
  rcases lt_or_gt_of_ne ha with k | k
  · rw [if_neg (not_lt.mpr k.le)]
    cases x <;> cases y <;> simp only [units_fin, units_pinf ha, units_ninf ha, not_lt.mpr k.le, if_false, LeF] at h ⊢
    nlinarith
  · rw [if_pos k]
    cases x <;> cases y <;> simp only [units_fin, units_pinf ha, units_ninf ha, k, if_true, LeF] at h ⊢
    nlinarith

theorem leF_antisymm' {x y : Flt} (h : LeF x y) (h' : LeF y x) : x = y := by
  cases x <;> cases y <;> simp only [LeF] at h h' <;> try rfl
  rw [le_antisymm h h']

theorem maxIs_unique {fs : List Flt} {m m' : Flt} (h : MaxIs fs m) (h' : MaxIs fs m') : m = m' := by
  rcases h with ⟨k, rfl⟩ | ⟨k1, k2, k3⟩ <;> rcases h' with ⟨k', rfl⟩ | ⟨k1', k2', k3'⟩
  · rfl
  · exact absurd (k _ k1') k2'
  · exact absurd (k' _ k1) k2
  · exact leF_antisymm' (k3' _ k1 k2) (k3 _ k1' k2')

theorem minIs_unique {fs : List Flt} {m m' : Flt} (h : MinIs fs m) (h' : MinIs fs m') : m = m' := by
  rcases h with ⟨k, rfl⟩ | ⟨k1, k2, k3⟩ <;> rcases h' with ⟨k', rfl⟩ | ⟨k1', k2', k3'⟩
  · rfl
  · exact absurd (k _ k1') k2'
  · exact absurd (k' _ k1) k2
  · exact leF_antisymm' (k3 _ k1' k2') (k3' _ k1 k2)

theorem maxIs_units {a : ℚ} (ha : a ≠ 0) (b : ℚ) {fs : List Flt} {m : Flt} (h : MaxIs fs m) :
    if 0 < a then MaxIs (fs.map (Flt.units a b)) (m.units a b) else MinIs (fs.map (Flt.units a b)) (m.units a b) := by
  rcases h with ⟨k, rfl⟩ | ⟨k1, k2, k3⟩
  · split <;> exact .inl ⟨all_nan_units a b k, rfl⟩
  · have key : ∀ f ∈ fs.map (Flt.units a b), f ≠ .nan → if 0 < a then LeF f (m.units a b) else LeF (m.units a b) f := by
      intro f hf hn
      obtain ⟨g, hg, rfl⟩ := List.mem_map.mp hf
      exact leF_units ha b (k3 g hg fun e => hn ((units_eq_nan ha b).mpr e))
    have hm : m.units a b ∈ fs.map (Flt.units a b) := List.mem_map_of_mem k1
    have hn : m.units a b ≠ .nan := fun e => k2 ((units_eq_nan ha b).mp e)
    split
    case isTrue h => simp only [if_pos h] at key; exact .inr ⟨hm, hn, key⟩
    case isFalse h => simp only [if_neg h] at key; exact .inr ⟨hm, hn, key⟩

theorem minIs_units {a : ℚ} (ha : a ≠ 0) (b : ℚ) {fs : List Flt} {m : Flt} (h : MinIs fs m) :
    if 0 < a then MinIs (fs.map (Flt.units a b)) (m.units a b) else MaxIs (fs.map (Flt.units a b)) (m.units a b) := by
  rcases h with ⟨k, rfl⟩ | ⟨k1, k2, k3⟩
  · split <;> exact .inl ⟨all_nan_units a b k, rfl⟩
  · have key : ∀ f ∈ fs.map (Flt.units a b), f ≠ .nan → if 0 < a then LeF (m.units a b) f else LeF f (m.units a b) := by
      intro f hf hn
      obtain ⟨g, hg, rfl⟩ := List.mem_map.mp hf
      exact leF_units ha b (k3 g hg fun e => hn ((units_eq_nan ha b).mpr e))
    have hm : m.units a b ∈ fs.map (Flt.units a b) := List.mem_map_of_mem k1
    have hn : m.units a b ≠ .nan := fun e => k2 ((units_eq_nan ha b).mp e)
    split
    case isTrue h => simp only [if_pos h] at key; exact .inr ⟨hm, hn, key⟩
    case isFalse h => simp only [if_neg h] at key; exact .inr ⟨hm, hn, key⟩

/-! ### The median -/

theorem halfway_units {a : ℚ} (ha : a ≠ 0) (b : ℚ) {x y m : Flt} (h : Halfway x y m) :
    if 0 < a then Halfway (x.units a b) (y.units a b) (m.units a b) else Halfway (y.units a b) (x.units a b) (m.units a b) := by
  rcases lt_or_gt_of_ne ha with k | k
  · rw [if_neg (not_lt.mpr k.le)]
    cases h with
    | finite p q =>
      simp only [units_fin]
      rw [show a * ((p + q) / 2) + b = ((a * q + b) + (a * p + b)) / 2 by ring]
      exact .finite _ _
    | low y h1 h2 =>
      rw [units_ninf ha, if_neg (not_lt.mpr k.le)]
      refine .high _ ?_ fun e => h2 ((units_eq_nan ha b).mp e)
      cases y <;> simp_all [units_fin, units_ninf ha, not_lt.mpr k.le]
    | high x h1 h2 =>
      rw [units_pinf ha, if_neg (not_lt.mpr k.le)]
      refine .low _ ?_ fun e => h2 ((units_eq_nan ha b).mp e)
      cases x <;> simp_all [units_fin, units_pinf ha, not_lt.mpr k.le]
    | apart =>
      rw [units_pinf ha, units_ninf ha, if_neg (not_lt.mpr k.le), if_neg (not_lt.mpr k.le)]
      exact .apart
  · rw [if_pos k]
    cases h with
    | finite p q =>
      simp only [units_fin]
      rw [show a * ((p + q) / 2) + b = ((a * p + b) + (a * q + b)) / 2 by ring]
      exact .finite _ _
    | low y h1 h2 =>
      rw [units_ninf ha, if_pos k]
      refine .low _ ?_ fun e => h2 ((units_eq_nan ha b).mp e)
      cases y <;> simp_all [units_fin, units_ninf ha]
    | high x h1 h2 =>
      rw [units_pinf ha, if_pos k]
      refine .high _ ?_ fun e => h2 ((units_eq_nan ha b).mp e)
      cases x <;> simp_all [units_fin, units_pinf ha]
    | apart =>
      rw [units_pinf ha, units_ninf ha, if_pos k, if_pos k]
      exact .apart

theorem medianIs_units {a : ℚ} (ha : a ≠ 0) (b : ℚ) {fs : List Flt} {m : Flt} (h : MedianIs fs m) :
    MedianIs (fs.map (Flt.units a b)) (m.units a b) := by
  rcases h with ⟨k, rfl⟩ | ⟨s, hp, hs, hm⟩
  · exact .inl ⟨all_nan_units a b k, rfl⟩
  · rcases lt_or_gt_of_ne ha with k | k
    · refine .inr ⟨(s.map (Flt.units a b)).reverse, ?_, ?_, ?_⟩
      · rw [filter_units' ha]
        exact (List.reverse_perm _).trans (hp.map _)
      · rw [List.pairwise_reverse, List.pairwise_map]
        refine hs.imp fun {x y} h => ?_
        have := leF_units ha b h
        rwa [if_neg (not_lt.mpr k.le)] at this
      · rcases hm with ⟨j, hj, e⟩ | ⟨j, x, y, hj, e1, e2, hw⟩
        · refine .inl ⟨j, by simpa using hj, ?_⟩
          rw [List.getElem?_reverse (by simp; omega), List.getElem?_map, List.length_map,
            show s.length - 1 - j = j by omega, e]
          rfl
        · refine .inr ⟨j, y.units a b, x.units a b, by simpa using hj, ?_, ?_, ?_⟩
          · rw [List.getElem?_reverse (by simp; omega), List.getElem?_map, List.length_map,
              show s.length - 1 - j = j + 1 by omega, e2]
            rfl
          · rw [List.getElem?_reverse (by simp; omega), List.getElem?_map, List.length_map,
              show s.length - 1 - (j + 1) = j by omega, e1]
            rfl
          · have := halfway_units ha b hw
            rwa [if_neg (not_lt.mpr k.le)] at this
    · refine .inr ⟨s.map (Flt.units a b), ?_, ?_, ?_⟩
      · rw [filter_units' ha]
        exact hp.map _
      · rw [List.pairwise_map]
        refine hs.imp fun {x y} h => ?_
        have := leF_units ha b h
        rwa [if_pos k] at this
      · rcases hm with ⟨j, hj, e⟩ | ⟨j, x, y, hj, e1, e2, hw⟩
        · exact .inl ⟨j, by simpa using hj, by rw [List.getElem?_map, e]; rfl⟩
        · refine .inr ⟨j, x.units a b, y.units a b, by simpa using hj, by rw [List.getElem?_map, e1]; rfl,
            by rw [List.getElem?_map, e2]; rfl, ?_⟩
          have := halfway_units ha b hw
          rwa [if_pos k] at this

theorem halfway_unique {x y m m' : Flt} (h : Halfway x y m) (h' : Halfway x y m') : m = m' := by
  cases h <;> cases h' <;> simp_all

theorem medianIs_unique {fs : List Flt} {m m' : Flt} (h : MedianIs fs m) (h' : MedianIs fs m') : m = m' := by
  have none_of : (∀ f ∈ fs, f = .nan) → fs.filter (· ≠ .nan) = [] := fun k => by
    rw [List.filter_eq_nil_iff]
    intro f hf
    simp [k f hf]
  have some_of : ∀ {s : List Flt}, s.Perm (fs.filter (· ≠ .nan)) → (∀ f ∈ fs, f = .nan) → s = [] := fun hp k => by
    rw [none_of k] at hp
    exact List.perm_nil.mp hp
  rcases h with ⟨k, rfl⟩ | ⟨s, hp, hs, hm⟩ <;> rcases h' with ⟨k', rfl⟩ | ⟨s', hp', hs', hm'⟩
  · rfl
  · rw [some_of hp' k] at hm'
    rcases hm' with ⟨j, hj, -⟩ | ⟨j, x, y, hj, -⟩ <;> simp at hj
  · rw [some_of hp k'] at hm
    rcases hm with ⟨j, hj, -⟩ | ⟨j, x, y, hj, -⟩ <;> simp at hj
  · have e : s = s' := (hp.trans hp'.symm).eq_of_pairwise (fun x y _ _ h1 h2 => leF_antisymm' h1 h2) hs hs'
    subst e
    rcases hm with ⟨j, hj, e⟩ | ⟨j, x, y, hj, e1, e2, hw⟩ <;> rcases hm' with ⟨j', hj', e'⟩ | ⟨j', x', y', hj', e1', e2', hw'⟩
    · obtain rfl : j = j' := by omega
      rw [e] at e'
      exact Option.some.inj e'
    · omega
    · omega
    · obtain rfl : j = j' := by omega
      rw [e1] at e1'
      rw [e2] at e2'
      cases e1'
      cases e2'
      exact halfway_unique hw hw'

/-! ### The variance -/

theorem square_units {a : ℚ} (ha : a ≠ 0) (x : Flt) :
    (x.units a 0).mul (x.units a 0) = (x.mul x).units (a * a) 0 := by
  have haa : a * a ≠ 0 := mul_ne_zero ha ha
  have hpos : 0 < a * a := mul_self_pos.mpr ha
  rcases lt_or_gt_of_ne ha with h | h <;> cases x <;>
    simp only [units_fin, units_nan, units_pinf ha, units_ninf ha, h, not_lt.mpr h.le, if_true, if_false, Flt.mul,
      units_pinf haa, hpos]
  all_goals (congr 1; ring)

theorem varOf_units {a : ℚ} (ha : a ≠ 0) (b : ℚ) (ddof : Int) (xs : List Flt) :
    varOf ddof (xs.map (Flt.units a b)) = (varOf ddof xs).units (a * a) 0 := by
  have haa : a * a ≠ 0 := mul_ne_zero ha ha
  unfold varOf
  simp only [filter_units ha, List.length_map]
  by_cases h0 : (xs.filter fun x => !x.isNan).length = 0
  · rw [if_pos h0, if_pos h0]; rfl
  · rw [if_neg h0, if_neg h0]
    generalize (xs.filter fun x => !x.isNan) = ok at h0
    have e : ((Flt.sum (ok.map (Flt.units a b))).div (.fin ok.length)) = ((Flt.sum ok).div (.fin ok.length)).units a b := by
      rw [sum_units ha]
      exact units_div ha rfl _
    rw [e]
    generalize (Flt.sum ok).div (.fin ok.length) = m
    have e2 : (ok.map (Flt.units a b)).map (fun x => (x.sub (m.units a b)).mul (x.sub (m.units a b))) =
        (ok.map fun x => (x.sub m).mul (x.sub m)).map (Flt.units (a * a) 0) := by
      simp only [List.map_map]
      apply List.map_congr_left
      intro x _
      simp only [Function.comp, units_sub ha, sub_self, square_units ha]
    rw [e2, sum_units haa, zero_mul]
    exact units_div haa (by ring) _

/-! ## Lines -/

theorem measure_line {a b : ℚ} (ha : a ≠ 0) {s : Measure} (hb : s.Fit b) {vs vs' : List Val}
    (h : vs'.map Val.num = (vs.map Val.num).map (Flt.units a b)) (hne : vs ≠ [])
    (ht : ∀ v ∈ vs, v.hasDType .float = true) (ht' : ∀ v ∈ vs', v.hasDType .float = true) :
    ((s.turned a).func.f vs').num = s.inUnits a b (s.func.f vs).num := by
  have hne' : vs' ≠ [] := by
    rintro rfl
    exact hne (by simpa using h.symm)
  have is : ∀ s : Statistic, s.Is (vs.map Val.num) (s.red.f vs).num := fun s => stat_is s (.inl rfl) hne ht
  have is' : ∀ s : Statistic, s.Is (vs'.map Val.num) (s.red.f vs').num := fun s => stat_is s (.inl rfl) hne' ht'
  rw [h] at is'
  cases s with
  | sum =>
    obtain rfl : b = 0 := hb
    have h1 := sumIs_eq (is' .sum)
    have h2 := sumIs_eq (sumIs_units ha (is .sum))
    exact h1.trans h2.symm
  | mean =>
    show nanmean (vs'.map Val.num) = _
    rw [h]
    exact nanmean_moves a b ha _
  | median => exact medianIs_unique (is' .median) (medianIs_units ha b (is .median))
  | max =>
    have := maxIs_units ha b (is .max)
    split at this
    case isTrue k =>
      have e : Measure.turned a .max = .max := if_pos k
      rw [e]; exact maxIs_unique (is' .max) this
    case isFalse k =>
      have e : Measure.turned a .max = .min := if_neg k
      rw [e]; exact minIs_unique (is' .min) this
  | min =>
    have := minIs_units ha b (is .min)
    split at this
    case isTrue k =>
      have e : Measure.turned a .min = .min := if_pos k
      rw [e]; exact minIs_unique (is' .min) this
    case isFalse k =>
      have e : Measure.turned a .min = .max := if_neg k
      rw [e]; exact maxIs_unique (is' .max) this
  | var ddof =>
    show varOf ddof (vs'.map Val.num) = _
    rw [h]
    exact varOf_units ha b ddof _
  | std root ddof =>
    show root (varOf ddof (vs'.map Val.num)) = _
    rw [h, varOf_units ha b ddof]
    exact hb a ha _

theorem inUnits_nan (s : Measure) (a b : ℚ) : s.inUnits a b .nan = .nan := by cases s <;> rfl

theorem func_dt (s : Measure) : s.func.dt .float = .ok .float := by cases s <;> rfl
theorem func_default (s : Measure) : s.func.default = .flt .nan := by cases s <;> rfl
theorem func_logical (s : Measure) : s.func.logical = false := by cases s <;> rfl
theorem measure_of (s : Measure) (y : Larry L) (axis : Option Int) : s.of y axis = y.reduce s.func axis := by cases s <;> rfl

/-! ## The methods -/

theorem vals_ne_nil {y : Larry L} (h0 : ¬ y.size = 0) : y.x.vals ≠ [] := by
  intro e
  refine h0 ?_
  show y.x.shape.prod = 0
  have := congrArg List.length e
  simpa [NDArray.vals, length_allIdx] using this

theorem lineOf_ne_nil {y : Larry L} (h0 : ¬ y.size = 0) {ax : Nat} (hax : ax < y.x.shape.length) (rest : List Nat) :
    y.x.line ax rest ≠ [] := by
  intro e
  refine h0 ?_
  have := congrArg List.length e
  simp only [NDArray.line, List.length_map, List.length_range, List.length_nil] at this
  show y.x.shape.prod = 0
  have hm : 0 ∈ y.x.shape := by
    rw [← this]
    simp [hax]
  clear h0 e this hax
  generalize y.x.shape = sh at hm
  induction sh with
  | nil => simp at hm
  | cons n t ih =>
    rw [List.prod_cons]
    rcases List.mem_cons.mp hm with e | e
    · rw [← e, zero_mul]
    · rw [ih e, mul_zero]

/-- C115. The statistics of a larry in other units, along an axis or of all its elements: the mean, the median, the largest
and the smallest value change as the values do, and the last two are exchanged by a change of sign; a sum is scaled; the
variance is multiplied by the square of the factor, the standard deviation by its size.  Calls that raise raise the same. -/
theorem C115_statistics {a b : ℚ} (ha : a ≠ 0) {s : Measure} (hb : s.Fit b) {y y' : Larry L} (hv : y.Valid) (hv' : y'.Valid)
    (ht : y.Typed) (ht' : y'.Typed) (h : y.Rescaled (Flt.units a b) y') (axis : Option Int) :
    Res.Agree (Out.Rescaled (s.inUnits a b)) (s.of y axis) ((s.turned a).of y' axis) := by
  have hn := h.nums hv hv'
  have hs : y'.shape = y.shape := hn.1
  have hnd : y'.ndim = y.ndim := by simp only [Larry.ndim, NDArray.ndim, hn.1]
  have hsz : y'.size = y.size := by simp only [Larry.size, NDArray.size, hn.1]
  have tv : ∀ idx, InB y.x.shape idx → (y.x.get idx).hasDType .float = true := fun idx hi => h.float ▸ ht idx hi
  have tv' : ∀ idx, InB y.x.shape idx → (y'.x.get idx).hasDType .float = true := fun idx hi =>
    h.float' ▸ ht' idx (hn.1.symm ▸ hi)
  rw [measure_of, measure_of]
  unfold reduce
  simp only [hsz, hs, h.float, h.float', hnd, h.label, func_dt, func_default, func_logical]
  by_cases h0 : y.size = 0
  · rw [if_pos h0, if_pos h0]
    have hself : ∀ o : Res (Out L), (∀ v, o = .ok (.scalar v) → v = .flt .nan) →
        (∀ z, o = .ok (.larry z) → z.dtype = .float ∧ ∀ idx, z.x.get idx = .flt .nan) →
        Res.Agree (Out.Rescaled (s.inUnits a b)) o o := by
      intro o h1 h2
      cases o with
      | error e => exact rfl
      | ok o => cases o with
        | scalar v => rw [h1 v rfl]; exact (inUnits_nan s a b).symm
        | larry z =>
          obtain ⟨e1, e2⟩ := h2 z rfl
          refine ⟨rfl, e1, e1, ?_⟩
          rintro names v v' ⟨i, -, rfl⟩ ⟨j, -, rfl⟩
          rw [e2, e2]
          exact (inUnits_nan s a b).symm
    apply hself
    · intro v hv
      cases axis with
      | none => simpa using hv.symm
      | some ax =>
        simp only at hv
        split at hv
        · cases hv
        · split at hv
          · simpa using hv.symm
          · simp only [Bool.false_eq_true, if_false, fillVal?] at hv
            split at hv <;> cases hv
    · intro z hz
      cases axis with
      | none => cases hz
      | some ax =>
        simp only at hz
        split at hz
        · cases hz
        · split at hz
          · cases hz
          · simp only [Bool.false_eq_true, if_false, fillVal?] at hz
            split at hz
            · cases hz
            · cases hz
              exact ⟨rfl, fun _ => rfl⟩
  · rw [if_neg h0, if_neg h0]
    cases axis with
    | none =>
      refine measure_line ha hb hn.vals (vals_ne_nil h0) ?_ ?_
      · intro v hv
        obtain ⟨i, hi, rfl⟩ := List.mem_map.mp hv
        exact tv i (mem_allIdx.mp hi)
      · intro v hv
        obtain ⟨i, hi, rfl⟩ := List.mem_map.mp hv
        exact tv' i (hn.1 ▸ mem_allIdx.mp hi)
    | some i =>
      simp only
      cases hp : pyIdx y.ndim i with
      | none => exact rfl
      | some ax =>
        have hax : ax < y.x.shape.length := pyIdx_lt' hp
        have hsh : (y'.x.reduceAx (s.turned a).func.f ax).shape = (y.x.reduceAx s.func.f ax).shape := by
          simp only [NDArray.reduceAx, hn.1]
        have hget : ∀ rest, InB (y.x.shape.eraseIdx ax) rest →
            ((y'.x.reduceAx (s.turned a).func.f ax).get rest).num = s.inUnits a b ((y.x.reduceAx s.func.f ax).get rest).num :=
          fun rest hr => by
            refine measure_line ha hb (hn.line hax hr) (lineOf_ne_nil h0 hax rest) ?_ ?_
            · intro v hv
              obtain ⟨j, hj, rfl⟩ := List.mem_map.mp hv
              exact tv _ (InB_insert hax (List.mem_range.mp hj) hr)
            · intro v hv
              obtain ⟨j, hj, rfl⟩ := List.mem_map.mp hv
              rw [hn.1] at hj
              exact tv' _ (InB_insert hax (List.mem_range.mp hj) hr)
        simp only [hsh]
        by_cases hl0 : (y.x.reduceAx s.func.f ax).shape.length = 0
        · rw [if_pos hl0, if_pos hl0]
          refine hget [] ?_
          rw [show y.x.shape.eraseIdx ax = [] from List.length_eq_zero_iff.mp hl0]
          trivial
        · rw [if_neg hl0, if_neg hl0]
          have hpop : pyPop y.label i = .ok (y.label.eraseIdx ax) := by
            simp only [pyPop, hv.label_length, hp]
          rw [hpop]
          refine Larry.Rescaled.of_nums ⟨?_, ?_, ?_⟩ rfl rfl rfl ⟨hsh, fun idx hi => hget idx hi⟩
          · show y.x.shape.eraseIdx ax = (y.label.eraseIdx ax).map List.length
            rw [hv.shape_eq, List.eraseIdx_map]
          · exact fun l hl => hv.nodup l (List.mem_of_mem_eraseIdx hl)
          · show y.label.eraseIdx ax ≠ []
            intro e
            refine hl0 ?_
            show (y.x.shape.eraseIdx ax).length = 0
            rw [hv.shape_eq, List.eraseIdx_map, e]
            rfl

/-! ## Moving windows -/

/-- Numbers related by `f` under each names, in lines. -/
theorem rescaled_line {f : Flt → Flt} {y y' : Larry L} (h : y.Rescaled f y') {ax : Nat} {rest : List L} {vs us : List Val}
    (hl : y.LineAt ax rest vs) (hl' : y'.LineAt ax rest us) : us.map Val.num = (vs.map Val.num).map f := by
  have h2 := under_line (R := fun v u => u.num = f v.num) h.label.symm h.has hl hl'
  clear hl hl'
  induction h2 with
  | nil => rfl
  | cons h1 _ ih => rw [List.map_cons, List.map_cons, List.map_cons, h1, ih]

theorem window_line {f : Flt → Flt} {vs us : List Val} (h : us.map Val.num = (vs.map Val.num).map f) (m n : Nat) :
    ((us.drop m).take n).map Val.num = (((vs.drop m).take n).map Val.num).map f := by
  simp only [List.map_take, List.map_drop, h]

theorem window_ne_nil {l : List L} {vs : List Val} (hlen : vs.length = l.length) {i window : Nat} {a : L}
    (ha : l[i]? = some a) (hpos : 1 ≤ window) : (vs.drop (i + 1 - window)).take window ≠ [] := by
  intro e0
  have hil := (List.getElem?_eq_some_iff.mp ha).1
  have := congrArg List.length e0
  simp only [List.length_take, List.length_drop, List.length_nil] at this
  omega

theorem lineAt_length {y : Larry L} {ax : Nat} {l : List L} (hl : y.label[ax]? = some l) {rest : List L} {vs : List Val}
    (h : y.LineAt ax rest vs) : vs.length = l.length := by
  obtain ⟨l', hl1, hlen, -⟩ := h
  rw [hl] at hl1
  cases hl1
  exact hlen

theorem lineAt_float {y : Larry L} (hv : y.Valid) (ht : y.Typed) (hd : y.dtype = .float) {ax : Nat} {rest : List L}
    {vs : List Val} (h : y.LineAt ax rest vs) : ∀ v ∈ vs, v.hasDType .float = true := fun v hm => by
  obtain ⟨names, hh⟩ := line_mem_has h hm
  exact hd ▸ (typed_iff hv).mp ht names v hh

/-- Two moving statistics that agree on each window agree. -/
theorem moveStat_rescaled {f k : Flt → Flt} (hk : k .nan = .nan) (r r' : Red) {y y' : Larry L} {buf buf' : Int → Val}
    {arr arr' : Strided} {window : Nat} {axis : Int} {ax : Nat} {m m' : MoveMethod} (hm : CanMove y buf arr window axis ax m)
    (hm' : CanMove y' buf' arr' window axis ax m') (ht : y.Typed) (ht' : y'.Typed) (h : y.Rescaled f y')
    {d d' : DType} (hd : r.dt .float = .ok d) (hd' : r'.dt .float = .ok d')
    (hg : ∀ vs us : List Val, vs ≠ [] → (∀ v ∈ vs, v.hasDType .float = true) → (∀ v ∈ us, v.hasDType .float = true) →
      us.map Val.num = (vs.map Val.num).map f → (r'.f us).num = k (r.f vs).num) :
    ∃ z z', y.moveStat r buf arr window (some axis) m = .ok z ∧ y'.moveStat r' buf' arr' window (some axis) m' = .ok z' ∧
      z.Rescaled k z' := by
  obtain ⟨l, hl, -⟩ := label_at hm.valid hm.axis
  have hl' : y'.label[ax]? = some l := by rw [h.label]; exact hl
  obtain ⟨z, e, hz, hal⟩ := moveStat_ok r hm (d := d) (by rw [h.float]; exact hd) hl
  obtain ⟨z', e', hz', hal'⟩ := moveStat_ok r' hm' (d := d') (by rw [h.float']; exact hd') hl'
  refine ⟨z, z', e, e', by rw [hal.label_eq, hal'.label_eq, h.label], hz, hz', fun names v u hv hu => ?_⟩
  have hN : Named y.label names := by rw [← hal.label_eq]; exact Named_of_Holds hv
  obtain ⟨i, a, rest, ha, hr, rfl⟩ := named_split hl hN
  have hr' : Named (y'.label.eraseIdx ax) rest := by rw [h.label]; exact hr
  obtain ⟨vs, hline⟩ := lineAt_exists hm.valid hl hr
  obtain ⟨us, hline'⟩ := lineAt_exists hm'.valid hl' hr'
  rw [Holds_unique hal.valid.nodup hv (moved_has hal hl ha hline hr),
    Holds_unique hal'.valid.nodup hu (moved_has hal' hl' ha hline' hr')]
  split_ifs with hi
  · exact hk.symm
  · rw [toFloat_num, toFloat_num]
    exact hg _ _ (window_ne_nil (lineAt_length hl hline) ha hm.pos)
      (fun v hv => lineAt_float hm.valid ht h.float hline v (List.mem_of_mem_drop (List.mem_of_mem_take hv)))
      (fun v hv => lineAt_float hm'.valid ht' h.float' hline' v (List.mem_of_mem_drop (List.mem_of_mem_take hv)))
      (window_line (rescaled_line h hline hline') _ _)

/-- C115. Moving statistics in other units: `move_func` with any of the statistics, and `move_median`. -/
theorem C115_moving {a b : ℚ} (ha : a ≠ 0) {s : Measure} (hb : s.Fit b) {y y' : Larry L} {buf buf' : Int → Val}
    {arr arr' : Strided} {window : Nat} {axis : Int} {ax : Nat} {m m' : MoveMethod} (hm : CanMove y buf arr window axis ax m)
    (hm' : CanMove y' buf' arr' window axis ax m') (ht : y.Typed) (ht' : y'.Typed) (h : y.Rescaled (Flt.units a b) y') :
    ∃ z z', y.moveStat s.func buf arr window (some axis) m = .ok z ∧
      y'.moveStat (s.turned a).func buf' arr' window (some axis) m' = .ok z' ∧ z.Rescaled (s.inUnits a b) z' :=
  moveStat_rescaled (inUnits_nan s a b) _ _ hm hm' ht ht' h (func_dt s) (func_dt _)
    fun _ _ hne h1 h2 e => measure_line ha hb e hne h1 h2

/-- C115. `move_ranking` sees only the order of the values: strictly increasing `f` applied to every number changes nothing. -/
theorem C115_moving_ranking {f : ℚ → ℚ} (hf : StrictMono f) {y y' : Larry L} {buf buf' : Int → Val}
    {arr arr' : Strided} {window : Nat} {axis : Int} {ax : Nat} {m m' : MoveMethod} (hm : CanMove y buf arr window axis ax m)
    (hm' : CanMove y' buf' arr' window axis ax m') (ht : y.Typed) (ht' : y'.Typed) (h : y.Rescaled (Flt.through f) y') :
    ∃ z z', y.moveRanking buf arr window (some axis) m = .ok z ∧ y'.moveRanking buf' arr' window (some axis) m' = .ok z' ∧
      z.Rescaled id z' :=
  moveStat_rescaled rfl lastrankRed lastrankRed hm hm' ht ht' h (d := .float) (d' := .float) rfl rfl
    fun _ _ _ _ _ e => by rw [show lastrankRed.f _ = lastrankRed.f _ from lastrankLine_through hf e]; rfl

/-- How `move_sum`, `move_mean`, `move_std`, `move_min` and `move_max` correspond to the statistics. -/
def MoveKind.measure : MoveKind → Measure
  | .sum => .sum
  | .mean => .mean
  | .min => .min
  | .max => .max
  | .std root => .std root 0

/-- The method on the values in other units that belongs to it. -/
def MoveKind.turned (a : ℚ) : MoveKind → MoveKind
  | .max => if 0 < a then .max else .min
  | .min => if 0 < a then .min else .max
  | k => k

theorem noInf_units {a : ℚ} (ha : a ≠ 0) (b : ℚ) {fs : List Flt} : NoInf (fs.map (Flt.units a b)) ↔ NoInf fs := by
  have hx : ∀ x : Flt, (x.units a b ≠ .pinf ∧ x.units a b ≠ .ninf) ↔ (x ≠ .pinf ∧ x ≠ .ninf) := by
    intro x
    rcases lt_or_gt_of_ne ha with h | h <;> cases x <;>
      simp [units_fin, units_nan, units_pinf ha, units_ninf ha, h, not_lt.mpr h.le]
  unfold NoInf
  simp only [List.mem_map, forall_exists_index, and_imp, forall_apply_eq_imp_iff₂, hx]

theorem fin_filter {fs : List Flt} {qs : List ℚ} (e : fs.filter (· ≠ .nan) = qs.map .fin) {x : Flt} (hx : x ∈ fs)
    (hn : x ≠ .nan) : x ∈ qs.map Flt.fin := by
  rw [← e]
  exact List.mem_filter.mpr ⟨hx, by simpa using hn⟩

theorem fin_no_inf {fs : List Flt} {qs : List ℚ} (e : fs.filter (· ≠ .nan) = qs.map .fin) : .pinf ∉ fs ∧ .ninf ∉ fs :=
  ⟨fun h => by simpa using fin_filter e h (by simp), fun h => by simpa using fin_filter e h (by simp)⟩

theorem fin_unique {fs : List Flt} {qs ps : List ℚ} (e : fs.filter (· ≠ .nan) = qs.map .fin)
    (e' : fs.filter (· ≠ .nan) = ps.map .fin) : ps = qs := by
  rw [e] at e'
  exact (List.map_injective_iff.mpr (fun a b h => by simpa using h) e').symm

theorem none_not_fin {fs : List Flt} (h : ∀ f ∈ fs, f = .nan) {qs : List ℚ} (hq : qs ≠ [])
    (e : fs.filter (· ≠ .nan) = qs.map .fin) : False := by
  rw [ok_nil h] at e
  exact hq (by simpa using e.symm)

theorem meanIs_unique {fs : List Flt} {p q : Flt} (h : MeanIs fs p) (h' : MeanIs fs q) : p = q := by
  have key : ∀ {f : Flt}, (∀ f ∈ fs, f = .nan) → f ∈ fs → f ≠ .nan → False := fun k hf hn => hn (k _ hf)
  cases h with
  | none h =>
    cases h' with
    | none h' => rfl
    | finite qs hq e => exact (none_not_fin h hq e).elim
    | plus h1 _ => exact (key h h1 (by simp)).elim
    | minus h1 _ => exact (key h h1 (by simp)).elim
    | both h1 _ => rfl
  | finite qs hq e =>
    cases h' with
    | none h' => exact (none_not_fin h' hq e).elim
    | finite ps hp e' => rw [fin_unique e e']
    | plus h1 _ => exact ((fin_no_inf e).1 h1).elim
    | minus h1 _ => exact ((fin_no_inf e).2 h1).elim
    | both h1 _ => exact ((fin_no_inf e).1 h1).elim
  | plus h1 h2 =>
    cases h' with
    | none h' => exact (key h' h1 (by simp)).elim
    | finite ps hp e' => exact ((fin_no_inf e').1 h1).elim
    | plus => rfl
    | minus k1 k2 => exact (k2 h1).elim
    | both k1 k2 => exact (h2 k2).elim
  | minus h1 h2 =>
    cases h' with
    | none h' => exact (key h' h1 (by simp)).elim
    | finite ps hp e' => exact ((fin_no_inf e').2 h1).elim
    | plus k1 k2 => exact (k2 h1).elim
    | minus => rfl
    | both k1 k2 => exact (h2 k1).elim
  | both h1 h2 =>
    cases h' with
    | none h' => rfl
    | finite ps hp e' => exact ((fin_no_inf e').2 h2).elim
    | plus k1 k2 => exact (k2 h2).elim
    | minus k1 k2 => exact (k2 h1).elim
    | both => rfl

theorem varIs_unique {ddof : Int} {fs : List Flt} {p q : Flt} (h : VarIs ddof fs p) (h' : VarIs ddof fs q) : p = q := by
  have inf_fin : (.pinf ∈ fs ∨ .ninf ∈ fs) → ∀ {qs : List ℚ}, fs.filter (· ≠ .nan) = qs.map .fin → False := fun h _ e =>
    h.elim (fin_no_inf e).1 (fin_no_inf e).2
  cases h with
  | none h =>
    cases h' with
    | none => rfl
    | infinite => rfl
    | finite qs m hq e => exact (none_not_fin h hq e).elim
    | equal => rfl
    | unequal qs p q e hp => exact (none_not_fin h (List.ne_nil_of_mem hp) e).elim
  | infinite h =>
    cases h' with
    | none => rfl
    | infinite => rfl
    | finite qs m hq e => exact (inf_fin h e).elim
    | equal => rfl
    | unequal qs p q e hp => exact (inf_fin h e).elim
  | finite qs m hq e hm hd =>
    cases h' with
    | none h' => exact (none_not_fin h' hq e).elim
    | infinite h' => exact (inf_fin h' e).elim
    | finite ps m' hq' e' hm' hd' =>
      obtain rfl := fin_unique e e'
      have hl : ((ps.length : Nat) : ℚ) ≠ 0 := by simpa using hq'
      obtain rfl : m = m' := mul_right_cancel₀ hl (hm.trans hm'.symm)
      rfl
    | equal ps q hq' e' h1 h2 => exact absurd (by rw [← fin_unique e e']; exact h2) hd
    | unequal ps p q e' h1 h2 h3 h4 => exact absurd (by rw [← fin_unique e e']; exact h4) hd
  | equal qs q hq e h1 h2 =>
    cases h' with
    | none h' => rfl
    | infinite h' => rfl
    | finite ps m' hq' e' hm' hd' => exact absurd (by rw [fin_unique e e']; exact h2) hd'
    | equal => rfl
    | unequal ps p q e' k1 k2 k3 k4 =>
      rw [fin_unique e e'] at k1 k2
      exact absurd ((h1 _ k1).trans (h1 _ k2).symm) k3
  | unequal qs p q e k1 k2 k3 k4 =>
    cases h' with
    | none h' => exact (none_not_fin h' (List.ne_nil_of_mem k1) e).elim
    | infinite h' => exact (inf_fin h' e).elim
    | finite ps m' hq' e' hm' hd' => exact absurd (by rw [fin_unique e e']; exact k4) hd'
    | equal ps q hq' e' h1 h2 =>
      rw [fin_unique e e'] at h1
      exact absurd ((h1 _ k1).trans (h1 _ k2).symm) k3
    | unequal => rfl

/-- Two larrys of moving values that correspond window by window. -/
theorem movesBy_rescaled {f k : Flt → Flt} (hk : k .nan = .nan) {S S' : List Flt → List Flt → Flt → Prop}
    {y y' z z' : Larry L} {ax window : Nat} (hpos : 1 ≤ window) (hv : y.Valid) (hv' : y'.Valid) {axis : Int}
    (hax : pyIdx y.ndim axis = some ax) (h : y.Rescaled f y') (hz : y.MovesBy z ax window S) (hz' : y'.MovesBy z' ax window S')
    (hS : ∀ (before win : List Flt) (q q' : Flt), win ≠ [] → S before win q → S' (before.map f) (win.map f) q' → q' = k q) :
    z.Rescaled k z' := by
  obtain ⟨l, hl, -⟩ := label_at hv hax
  have hl' : y'.label[ax]? = some l := by rw [h.label]; exact hl
  refine ⟨by rw [hz.label, hz'.label, h.label], hz.dtype, hz'.dtype, fun names v u hh hu => ?_⟩
  have hN : Named y.label names := by rw [← hz.label]; exact Named_of_Holds hh
  obtain ⟨i, a, rest, ha, hr, rfl⟩ := named_split hl hN
  have hr' : Named (y'.label.eraseIdx ax) rest := by rw [h.label]; exact hr
  obtain ⟨vs, hline⟩ := lineAt_exists hv hl hr
  obtain ⟨us, hline'⟩ := lineAt_exists hv' hl' hr'
  obtain ⟨q, c1, c2, c3⟩ := hz.cell l i a rest vs hl ha hr hline
  obtain ⟨q', d1, d2, d3⟩ := hz'.cell l i a rest us hl' ha hr' hline'
  rw [Holds_unique hz.valid.nodup hh c1, Holds_unique hz'.valid.nodup hu d1]
  show q' = k q
  by_cases hi : i + 1 < window
  · rw [c2 hi, d2 hi, hk]
  · have e := rescaled_line h hline hline'
    have h1 := d3 (by omega)
    rw [window_line e, List.map_take, e, ← List.map_take, ← List.map_take] at h1
    refine hS _ _ _ _ ?_ (c3 (by omega)) h1
    have := window_ne_nil (lineAt_length hl hline) ha hpos
    simpa using this

/-- C115. `move_sum`, `move_mean`, `move_std`, `move_min` and `move_max` in other units.  Calls that raise raise the same. -/
theorem C115_move {a b : ℚ} (ha : a ≠ 0) {k : MoveKind} (hb : k.measure.Fit b) {y y' : Larry L} (hv : y.Valid) (hv' : y'.Valid)
    (ht : y.Typed) (ht' : y'.Typed) (h : y.Rescaled (Flt.units a b) y') (window axis : Int) :
    Res.Agree (Larry.Rescaled (k.measure.inUnits a b)) (k.run y window axis) ((k.turned a).run y' window axis) := by
  have hn := h.nums hv hv'
  have hs : y'.shape = y.shape := hn.1
  have hnd : y'.ndim = y.ndim := by simp only [Larry.ndim, NDArray.ndim, hn.1]
  cases hp : pyIdx y.ndim axis with
  | none =>
    rw [k.run_eq, MoveKind.run_eq]
    simp only [moveBn, hnd, hp]
    exact rfl
  | some ax =>
    by_cases hw : window < 1 ∨ ((y.shape.getD ax 0 : Nat) : Int) < window
    · rw [k.run_eq, MoveKind.run_eq]
      simp only [moveBn, hnd, hp, hs, h.float, h.float', if_pos hw]
      exact rfl
    · obtain ⟨hw1, hw2⟩ := not_or.mp hw
      obtain ⟨n, rfl⟩ : ∃ n : Nat, window = n := ⟨window.toNat, by omega⟩
      have hlen : ∀ l, y.label[ax]? = some l → y.shape.getD ax 0 = l.length := fun l hl => by
        simp [Larry.shape, hv.shape_eq, hl]
      have hc : CanSlide y n axis ax := ⟨hv, ht, .inl h.float, by omega, hp, fun l hl => by have := hlen l hl; omega⟩
      have hc' : CanSlide y' n axis ax := ⟨hv', ht', .inl h.float', by omega, by rw [hnd]; exact hp, fun l hl => by
        rw [h.label] at hl; have := hlen l hl; omega⟩
      cases k with
      | sum =>
        obtain rfl : b = 0 := hb
        obtain ⟨z, e, hz⟩ := C107_sum hc
        obtain ⟨z', e', hz'⟩ := C107_sum hc'
        show Res.Agree _ (y.moveSum n axis) (y'.moveSum n axis)
        rw [e, e']
        refine movesBy_rescaled rfl hc.pos hv hv' hp h hz hz' fun before win q q' _ h1 h2 => ?_
        rw [noInf_units ha] at h2
        by_cases hi : NoInf before
        · exact (sumIs_eq (h2.1 hi)).trans (sumIs_eq (sumIs_units ha (h1.1 hi))).symm
        · rw [h1.2 hi, h2.2 hi]; rfl
      | mean =>
        obtain ⟨z, e, hz⟩ := C107_mean hc
        obtain ⟨z', e', hz'⟩ := C107_mean hc'
        show Res.Agree _ (y.moveMean n axis) (y'.moveMean n axis)
        rw [e, e']
        refine movesBy_rescaled rfl hc.pos hv hv' hp h hz hz' fun before win q q' _ h1 h2 => ?_
        rw [noInf_units ha] at h2
        by_cases hi : NoInf before
        · rw [meanIs_unique (h2.1 hi) (mean_is _), meanIs_unique (h1.1 hi) (mean_is _)]
          exact nanmean_moves a b ha win
        · rw [h1.2 hi, h2.2 hi]; rfl
      | min =>
        obtain ⟨z, e, hz⟩ := C107_min hc
        show Res.Agree _ (y.moveMin n axis) _
        rw [e]
        by_cases h0 : 0 < a
        · obtain ⟨z', e', hz'⟩ := C107_min hc'
          rw [show MoveKind.turned a .min = .min from if_pos h0]
          show Res.Agree _ _ (y'.moveMin n axis)
          rw [e']
          refine movesBy_rescaled rfl hc.pos hv hv' hp h hz hz' fun before win q q' _ h1 h2 => ?_
          have := minIs_units ha b h1
          rw [if_pos h0] at this
          exact minIs_unique h2 this
        · obtain ⟨z', e', hz'⟩ := C107_max hc'
          rw [show MoveKind.turned a .min = .max from if_neg h0]
          show Res.Agree _ _ (y'.moveMax n axis)
          rw [e']
          refine movesBy_rescaled rfl hc.pos hv hv' hp h hz hz' fun before win q q' _ h1 h2 => ?_
          have := minIs_units ha b h1
          rw [if_neg h0] at this
          exact maxIs_unique h2 this
      | max =>
        obtain ⟨z, e, hz⟩ := C107_max hc
        show Res.Agree _ (y.moveMax n axis) _
        rw [e]
        by_cases h0 : 0 < a
        · obtain ⟨z', e', hz'⟩ := C107_max hc'
          rw [show MoveKind.turned a .max = .max from if_pos h0]
          show Res.Agree _ _ (y'.moveMax n axis)
          rw [e']
          refine movesBy_rescaled rfl hc.pos hv hv' hp h hz hz' fun before win q q' _ h1 h2 => ?_
          have := maxIs_units ha b h1
          rw [if_pos h0] at this
          exact maxIs_unique h2 this
        · obtain ⟨z', e', hz'⟩ := C107_min hc'
          rw [show MoveKind.turned a .max = .min from if_neg h0]
          show Res.Agree _ _ (y'.moveMin n axis)
          rw [e']
          refine movesBy_rescaled rfl hc.pos hv hv' hp h hz hz' fun before win q q' _ h1 h2 => ?_
          have := maxIs_units ha b h1
          rw [if_neg h0] at this
          exact minIs_unique h2 this
      | std root =>
        obtain ⟨z, e, hz⟩ := C107_std root hc
        obtain ⟨z', e', hz'⟩ := C107_std root hc'
        show Res.Agree _ (y.moveStd root n axis) (y'.moveStd root n axis)
        rw [e, e']
        refine movesBy_rescaled rfl hc.pos hv hv' hp h hz hz' ?_
        rintro before win q q' - ⟨w, h1, rfl⟩ ⟨w', h2, rfl⟩
        rw [varIs_unique h2 (var_is 0 _), varIs_unique h1 (var_is 0 _), varOf_units ha]
        exact hb a ha _

/-! ## Where the other units come from -/

/-- C115. `a * y + b`, computed with the operators, is `y` in other units. -/
theorem C115_operators [LinearOrder L] (py3 : Bool) {y : Larry L} (hv : y.Valid) (ht : y.Typed) (hd : y.dtype = .float) (a b : ℚ) :
    ∃ s z, y.opLeft py3 .mul ⟨[], fun _ => fl a⟩ .float = .ok s ∧ s.opRight py3 .add ⟨[], fun _ => fl b⟩ .float = .ok z ∧
      z.Valid ∧ z.Typed ∧ y.Rescaled (Flt.units a b) z := by
  have hn : DType.Number .float := .inr (.inr rfl)
  obtain ⟨s, e1, sv, st, sl, sd, sc⟩ := C74_left_scalar py3 .mul hv ht (hd ▸ hn) (o := fl a) (od := .float) rfl hn (by simp)
  have sd : s.dtype = .float := by simpa [ArithOp.Dtype] using sd
  obtain ⟨z, e2, zv, zt, zl, zd, zc⟩ := C74_right_scalar py3 .add sv st (sd ▸ hn) (o := fl b) (od := .float) rfl hn
  have zd : z.dtype = .float := by simpa [ArithOp.Dtype] using zd
  refine ⟨s, z, e1, e2, zv, zt, ⟨zl.trans sl, hd, zd, fun names v u hv' hu => ?_⟩⟩
  obtain ⟨w, hw, hwd, g, h, t, k1, k2, k3, k4⟩ := (zc names u).mp ((Larry.get_ok_iff zv).mpr hu)
  obtain ⟨v', hv2, -, g', h', t', m1, m2, m3, m4⟩ := (sc names w).mp hw
  have hvv : v' = v := Holds_unique hv.nodup ((Larry.get_ok_iff hv).mp hv2) hv'
  subst hvv
  have num_of : ∀ {v : Val} {g : Flt}, IsNumber v g → v.num = g := fun h => by cases h <;> rfl
  have p1 : t = h.add g := plus_iff.mp (by simpa [ArithOp.Means, sd] using k4)
  have p2 : t' = g'.mul h' := times_iff.mp (by simpa [ArithOp.Means, hd] using m4)
  rw [num_of k3, num_of m2, p1, ← num_of k1, num_of m3, p2, ← num_of k2, ← num_of m1]
  rfl

/-! ### Cases -/

/-- The square root, where it is a fraction. -/
def exRootOf : Flt → Flt
  | .fin q => if Rat.sqrt q * Rat.sqrt q = q then .fin (Rat.sqrt q) else .nan
  | .pinf => .pinf
  | _ => .nan

theorem exRootOf_root : IsRoot exRootOf := by
  intro a ha x
  have haa : a * a ≠ 0 := mul_ne_zero ha ha
  have hpos : 0 < a * a := mul_self_pos.mpr ha
  have habs : |a| ≠ 0 := abs_ne_zero.mpr ha
  cases x with
  | nan => rfl
  | pinf => rw [units_pinf haa, if_pos hpos]; show Flt.pinf = Flt.pinf.units |a| 0; rw [units_pinf habs, if_pos (abs_pos.mpr ha)]
  | ninf => rw [units_ninf haa, if_pos hpos]; rfl
  | fin q =>
    rw [units_fin, add_zero]
    by_cases h : Rat.sqrt q * Rat.sqrt q = q
    · have e : a * a * q = (|a| * Rat.sqrt q) * (|a| * Rat.sqrt q) := by
        rw [mul_mul_mul_comm, abs_mul_abs_self, h]
      have hs : Rat.sqrt (a * a * q) = |a| * Rat.sqrt q := by
        rw [e, Rat.sqrt_eq, abs_of_nonneg (mul_nonneg (abs_nonneg a) (Rat.sqrt_nonneg q))]
      simp only [exRootOf, if_pos h, hs]
      rw [if_pos e.symm, units_fin, add_zero]
    · have h' : ¬ Rat.sqrt (a * a * q) * Rat.sqrt (a * a * q) = a * a * q := fun k => by
        refine h ((Rat.exists_mul_self q).mp ⟨Rat.sqrt (a * a * q) / a, ?_⟩)
        rw [div_mul_div_comm, k, mul_div_cancel_left₀ _ haa]
      simp only [exRootOf, if_neg h, if_neg h']
      rfl

/-- `3 - 2 * exMoving`. -/
def exMovingDown : Larry Nat :=
  ⟨NDArray.ofList [5] [fl 1, fl (-1), .flt .nan, fl (-5), fl (-3)], .float, [[0, 1, 2, 3, 4]]⟩

theorem exMovingDown_valid : exMovingDown.Valid ∧ exMovingDown.Typed := ⟨⟨rfl, by decide, by decide⟩, typed_cells (by decide +kernel)⟩

theorem exMovingDown_units : exMoving.Rescaled (Flt.units (-2) 3) exMovingDown := by
  refine Larry.Rescaled.of_nums exMoving_numeric.1.valid rfl rfl rfl ⟨rfl, fun idx hidx => ?_⟩
  have := mem_allIdx.mpr hidx
  clear hidx
  revert idx
  decide +kernel

def exMovingDownBuf (a : Int) : Val := exMovingDown.x.get [a.toNat / 8]

theorem exMovingDown_can : CanMove exMovingDown exMovingDownBuf exMovingAt 2 (-1) 0 .loop := by
  refine ⟨exMovingDown_valid.1, ⟨rfl, rfl, ?_⟩, .inl rfl, by decide, rfl, ?_⟩
  · intro idx h
    match idx, h with
    | [i], h =>
      have h' : i < 5 := by simpa [exMovingAt, InB] using h
      interval_cases i <;> rfl
  · intro l hl
    cases hl
    decide

example : Measure.Fit (3 : ℚ) .max ∧ Measure.Fit (3 : ℚ) (.std exRootOf 0) ∧ Measure.Fit (0 : ℚ) .sum ∧ (-2 : ℚ) ≠ 0 :=
  ⟨trivial, exRootOf_root, rfl, by norm_num⟩

example : numberOf (exMoving.max none) = some (fl 4) ∧ numberOf (exMovingDown.min none) = some (fl (-5)) ∧
    numberOf (exMoving.median none) = some (fl (5 / 2)) ∧ numberOf (exMovingDown.median none) = some (fl (-2)) ∧
    numberOf (exMoving.var none 0) = some (fl (5 / 4)) ∧ numberOf (exMovingDown.var none 0) = some (fl 5) := by
  refine ⟨?_, ?_, ?_, ?_, ?_, ?_⟩ <;> decide +kernel

example : cellsOf (exMoving.moveMax 2) = some [.flt .nan, fl 2, fl 2, fl 4, fl 4] ∧
    cellsOf (exMovingDown.moveMin 2) = some [.flt .nan, fl (-1), fl (-1), fl (-5), fl (-5)] := by
  constructor <;> decide +kernel

/-- An increasing function, for `C115_moving_ranking`. -/
example : StrictMono (fun q : ℚ => 2 * q + 3) := fun a b h => by dsimp only; linarith

/-- C115. A shift does not go through a sum by itself: the sum of `y + 1` is that of `y` and the number of elements that
are not NaN. -/
theorem C115_sum_shift : numberOf (exMoving.sum none) = some (fl 10) ∧
    (exMoving.opRight true .add ⟨[], fun _ => fl 1⟩ .float).toOption.map (fun z => numberOf (z.sum none)) = some (some (fl 14)) := by
  constructor <;> decide +kernel

end La
