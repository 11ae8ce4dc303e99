import Verif.Props.Stats
import Verif.Props.Moving
import Verif.Props.Numeric

/-!
# Larger data, larger statistics (property C104)
-/

namespace La
open Larry
variable {L : Type _}

/-! ## Specification -/

/-- One element is at most the other: numbers in order, or both missing. -/
def AtMost (v u : Val) : Prop := (v.num = .nan ∧ u.num = .nan) ∨ LeF v.num u.num

/-- If both are numbers, the first is at most the second. -/
def NotAbove (v u : Val) : Prop := v.num ≠ .nan → u.num ≠ .nan → LeF v.num u.num

/-- `y` has the labels of `w`, and each of its elements is at most the one of `w` of the same name; elements
are missing at the same places. -/
structure Larry.Under (y w : Larry L) : Prop where
  label : y.label = w.label
  cells : ∀ names v u, y.Has names v → w.Has names u → AtMost v u

/-- A well-formed larry of numbers that has elements. -/
structure Larry.Numeric (y : Larry L) : Prop where
  valid : y.Valid
  typed : y.Typed
  dtype : y.dtype = .float ∨ y.dtype = .int ∨ y.dtype = .bool
  elements : y.shape.prod ≠ 0

/-- No element is an infinity. -/
def Larry.NoInfinities (y : Larry L) : Prop := ∀ names v, y.Has names v → v.num ≠ .pinf ∧ v.num ≠ .ninf

/-- The statistics. -/
inductive Statistic
  | sum | mean | median | max | min

/-- The method. -/
def Statistic.of (y : Larry L) (axis : Option Int) : Statistic → Res (Out L)
  | .sum => y.sum axis
  | .mean => y.mean axis
  | .median => y.median axis
  | .max => y.max axis
  | .min => y.min axis

/-- Both are scalars, or both larrys with the same labels, and element by element `R` holds. -/
inductive Compare (R : Val → Val → Prop) : Res (Out L) → Res (Out L) → Prop
  | scalar {v u : Val} : R v u → Compare R (.ok (.scalar v)) (.ok (.scalar u))
  | larry {z z' : Larry L} : z.Valid → z'.Valid → z.label = z'.label →
      (∀ names v u, z.Has names v → z'.Has names u → R v u) → Compare R (.ok (.larry z)) (.ok (.larry z'))

/-! ## Lists of floats -/

/-- `AtMost` of floats. -/
def AtMostF (a b : Flt) : Prop := (a = .nan ∧ b = .nan) ∨ LeF a b

theorem LeF.ne_nan {a b : Flt} (h : LeF a b) : a ≠ .nan ∧ b ≠ .nan := by
  cases a <;> cases b <;> simp_all [LeF]

theorem leF_refl {a : Flt} (h : a ≠ .nan) : LeF a a := by cases a <;> simp_all [LeF]

theorem atMost_ok {fs gs : List Flt} (h : List.Forall₂ AtMostF fs gs) :
    List.Forall₂ LeF (fs.filter (· ≠ .nan)) (gs.filter (· ≠ .nan)) := by
  induction h with
  | nil => exact .nil
  | cons hab _ ih =>
    rcases hab with ⟨rfl, rfl⟩ | hab
    · simpa using ih
    · have := hab.ne_nan
      rw [List.filter_cons_of_pos (by simpa using this.1), List.filter_cons_of_pos (by simpa using this.2)]
      exact .cons hab ih

theorem forall₂_left {fs gs : List Flt} {R : Flt → Flt → Prop} (h : List.Forall₂ R fs gs) {a : Flt} (ha : a ∈ fs) :
    ∃ b ∈ gs, R a b := by
  induction h with
  | nil => simp at ha
  | cons hab _ ih =>
    rcases List.mem_cons.mp ha with rfl | ha
    · exact ⟨_, List.mem_cons_self .., hab⟩
    · obtain ⟨b, hb, h⟩ := ih ha
      exact ⟨b, List.mem_cons_of_mem _ hb, h⟩

theorem forall₂_right {fs gs : List Flt} {R : Flt → Flt → Prop} (h : List.Forall₂ R fs gs) {b : Flt} (hb : b ∈ gs) :
    ∃ a ∈ fs, R a b := by
  induction h with
  | nil => simp at hb
  | cons hab _ ih =>
    rcases List.mem_cons.mp hb with rfl | hb
    · exact ⟨_, List.mem_cons_self .., hab⟩
    · obtain ⟨a, ha, h⟩ := ih hb
      exact ⟨a, List.mem_cons_of_mem _ ha, h⟩

theorem atMost_pinf {fs gs : List Flt} (h : List.Forall₂ AtMostF fs gs) (hp : .pinf ∈ fs) : .pinf ∈ gs := by
  obtain ⟨b, hb, h⟩ := forall₂_left h hp
  cases b <;> simp [AtMostF, LeF] at h
  exact hb

theorem atMost_ninf {fs gs : List Flt} (h : List.Forall₂ AtMostF fs gs) (hp : .ninf ∈ gs) : .ninf ∈ fs := by
  obtain ⟨b, hb, h⟩ := forall₂_right h hp
  cases b <;> simp [AtMostF, LeF] at h
  exact hb

theorem atMost_nan {fs gs : List Flt} (h : List.Forall₂ AtMostF fs gs) :
    (∀ f ∈ fs, f = .nan) ↔ (∀ g ∈ gs, g = .nan) := by
  constructor
  · intro hf g hg
    obtain ⟨a, ha, h⟩ := forall₂_right h hg
    rcases h with h | h
    · exact h.2
    · exact absurd (hf a ha) h.ne_nan.1
  · intro hf a ha
    obtain ⟨b, hb, h⟩ := forall₂_left h ha
    rcases h with h | h
    · exact h.1
    · exact absurd (hf b hb) h.ne_nan.2

theorem fin_forall₂ {ps qs : List ℚ} (h : List.Forall₂ LeF (ps.map Flt.fin) (qs.map Flt.fin)) :
    List.Forall₂ (· ≤ ·) ps qs := by
  rw [List.forall₂_map_left_iff, List.forall₂_map_right_iff] at h
  exact h

theorem sum_forall₂ {ps qs : List ℚ} (h : List.Forall₂ (· ≤ ·) ps qs) : ps.sum ≤ qs.sum := by
  induction h with
  | nil => exact le_refl _
  | cons h _ ih => simp only [List.sum_cons]; exact add_le_add h ih

theorem finites_no_inf {fs : List Flt} {qs : List ℚ} (h : fs.filter (· ≠ .nan) = qs.map .fin) :
    .pinf ∉ fs ∧ .ninf ∉ fs := by
  constructor <;> intro hm
  · have := (mem_ok (f := .pinf) (by simp)).mpr hm
    rw [h] at this; simp at this
  · have := (mem_ok (f := .ninf) (by simp)).mpr hm
    rw [h] at this; simp at this

theorem finites_some {fs : List Flt} {qs : List ℚ} (hq : qs ≠ []) (h : fs.filter (· ≠ .nan) = qs.map .fin) :
    ¬ ∀ f ∈ fs, f = .nan := by
  intro hn
  rw [ok_nil hn, eq_comm, List.map_eq_nil_iff] at h
  exact hq h

/-- The first is at most the second unless one is NaN. -/
def NotAboveF (a b : Flt) : Prop := a ≠ .nan → b ≠ .nan → LeF a b

theorem sum_grows {fs gs : List Flt} (h : List.Forall₂ AtMostF fs gs) {a b : Flt} (ha : SumIs fs a) (hb : SumIs gs b) :
    NotAboveF a b := by
  intro na nb
  cases ha with
  | none _ => exact absurd rfl na
  | both _ _ => exact absurd rfl na
  | minus _ _ => cases b <;> simp_all [LeF]
  | plus h1 _ =>
    have := atMost_pinf h h1
    cases hb with
    | none _ => exact absurd rfl nb
    | both _ _ => exact absurd rfl nb
    | plus _ _ => simp [LeF]
    | minus _ h2 => exact absurd this h2
    | finite qs _ e => exact absurd this (finites_no_inf e).1
  | finite ps hp e =>
    cases hb with
    | none _ => exact absurd rfl nb
    | both _ _ => exact absurd rfl nb
    | plus _ _ => simp [LeF]
    | minus h2 _ => exact absurd (atMost_ninf h h2) (finites_no_inf e).2
    | finite qs _ e' =>
      have := atMost_ok h
      rw [e, e'] at this
      exact sum_forall₂ (fin_forall₂ this)

theorem mean_grows {fs gs : List Flt} (h : List.Forall₂ AtMostF fs gs) {a b : Flt} (ha : MeanIs fs a) (hb : MeanIs gs b) :
    NotAboveF a b := by
  intro na nb
  cases ha with
  | none _ => exact absurd rfl na
  | both _ _ => exact absurd rfl na
  | minus _ _ => cases b <;> simp_all [LeF]
  | plus h1 _ =>
    have := atMost_pinf h h1
    cases hb with
    | none _ => exact absurd rfl nb
    | both _ _ => exact absurd rfl nb
    | plus _ _ => simp [LeF]
    | minus _ h2 => exact absurd this h2
    | finite qs _ e => exact absurd this (finites_no_inf e).1
  | finite ps hp e =>
    cases hb with
    | none _ => exact absurd rfl nb
    | both _ _ => exact absurd rfl nb
    | plus _ _ => simp [LeF]
    | minus h2 _ => exact absurd (atMost_ninf h h2) (finites_no_inf e).2
    | finite qs _ e' =>
      have := atMost_ok h
      rw [e, e'] at this
      have h1 := fin_forall₂ this
      have h2 := h1.length_eq
      simp only [LeF]
      rw [h2]
      exact div_le_div_of_nonneg_right (sum_forall₂ h1) (Nat.cast_nonneg _)

/-- Sorted lists are in order element by element if the lists were. -/
theorem sorted_grows {xs ys s t : List Flt} (h : List.Forall₂ LeF xs ys) (hs : s.Perm xs) (ht : t.Perm ys)
    (hss : s.Pairwise LeF) (hts : t.Pairwise LeF) {k : Nat} {a b : Flt} (ha : s[k]? = some a) (hb : t[k]? = some b) :
    LeF a b := by
  by_contra hab
  have hna : a ≠ .nan := by
    obtain ⟨c, -, hc⟩ := forall₂_left h (hs.mem_iff.mp (List.mem_of_getElem? ha))
    exact hc.ne_nan.1
  have hnb : b ≠ .nan := by
    obtain ⟨c, -, hc⟩ := forall₂_right h (ht.mem_iff.mp (List.mem_of_getElem? hb))
    exact hc.ne_nan.2
  -- how many are at most b
  have h1 : k + 1 ≤ t.countP (fun z => z.le b) := by
    have hlt := (List.getElem?_eq_some_iff.mp hb).1
    have e : (t.take (k + 1)).countP (fun z => z.le b) = k + 1 := by
      rw [List.countP_eq_length.mpr, List.length_take, Nat.min_eq_left hlt]
      intro z hz
      rw [leF_iff]
      obtain ⟨i, hi⟩ := List.mem_iff_getElem?.mp hz
      rw [List.getElem?_take] at hi
      split_ifs at hi with hik
      rcases Nat.lt_or_ge i k with h' | h'
      · have := List.pairwise_iff_getElem.mp hts i k (by omega) hlt h'
        rw [(List.getElem?_eq_some_iff.mp hi).2, (List.getElem?_eq_some_iff.mp hb).2] at this
        exact this
      · have : i = k := by omega
        subst this
        rw [hi] at hb
        cases hb
        exact leF_refl hnb
    calc k + 1 = (t.take (k + 1)).countP (fun z => z.le b) := e.symm
      _ ≤ t.countP (fun z => z.le b) := (List.take_sublist _ _).countP_le
  have h2 : s.countP (fun z => z.le b) ≤ k := by
    have hlt := (List.getElem?_eq_some_iff.mp ha).1
    rw [← List.take_append_drop k s, List.countP_append]
    have e : (s.drop k).countP (fun z => z.le b) = 0 := by
      rw [List.countP_eq_zero]
      intro z hz hzb
      rw [leF_iff] at hzb
      apply hab
      obtain ⟨i, hi⟩ := List.mem_iff_getElem?.mp hz
      rw [List.getElem?_drop] at hi
      rcases Nat.eq_zero_or_pos i with rfl | h'
      · rw [Nat.add_zero, ha] at hi
        cases hi
        exact hzb
      · have hlt' := (List.getElem?_eq_some_iff.mp hi).1
        have := List.pairwise_iff_getElem.mp hss k (k + i) hlt hlt' (by omega)
        rw [(List.getElem?_eq_some_iff.mp hi).2, (List.getElem?_eq_some_iff.mp ha).2] at this
        exact leF_trans this hzb
    rw [e, Nat.add_zero]
    exact List.countP_le_length.trans (by rw [List.length_take]; omega)
  have h3 : ys.countP (fun z => z.le b) ≤ xs.countP (fun z => z.le b) := by
    clear * - h
    induction h with
    | nil => exact le_refl _
    | @cons x y xs ys hxy _ ih =>
      rw [List.countP_cons, List.countP_cons]
      have : (y.le b = true → x.le b = true) := by
        rw [leF_iff, leF_iff]; exact leF_trans hxy
      split_ifs <;> (simp_all; try omega)
  rw [hs.countP_eq] at h2
  rw [ht.countP_eq] at h1
  omega

theorem halfway_grows {a b c d m n : Flt} (h1 : LeF a c) (h2 : LeF b d) (hm : Halfway a b m) (hn : Halfway c d n) :
    NotAboveF m n := by
  intro nm nn
  cases hm with
  | apart => exact absurd rfl nm
  | low b _ _ => cases n <;> simp_all [LeF]
  | high a _ _ =>
    cases d <;> simp only [LeF] at h2
    cases hn with
    | apart => exact absurd rfl nn
    | low _ h _ => exact absurd rfl h
    | high _ _ _ => simp [LeF]
  | finite p q =>
    cases hn with
    | apart => exact absurd rfl nn
    | low _ _ _ => simp [LeF] at h1
    | high _ _ _ => simp [LeF]
    | finite p' q' =>
      simp only [LeF] at h1 h2 ⊢
      linarith

theorem median_grows {fs gs : List Flt} (h : List.Forall₂ AtMostF fs gs) {a b : Flt} (ha : MedianIs fs a)
    (hb : MedianIs gs b) : NotAboveF a b := by
  intro na nb
  rcases ha with ⟨-, e⟩ | ⟨s, hs, hss, ha⟩
  · exact absurd e na
  rcases hb with ⟨-, e⟩ | ⟨t, ht, hts, hb⟩
  · exact absurd e nb
  have hok := atMost_ok h
  have hlen : s.length = t.length := by rw [hs.length_eq, ht.length_eq, hok.length_eq]
  have key : ∀ (k : Nat) (x y : Flt), s[k]? = some x → t[k]? = some y → LeF x y :=
    fun k x y hx hy => sorted_grows hok hs ht hss hts hx hy
  rcases ha with ⟨k, hk, ha⟩ | ⟨k, x, y, hk, hx, hy, ha⟩ <;> rcases hb with ⟨k', hk', hb⟩ | ⟨k', x', y', hk', hx', hy', hb⟩
  · have : k = k' := by omega
    subst this
    exact key k a b ha hb
  · omega
  · omega
  · have : k = k' := by omega
    subst this
    exact halfway_grows (key _ _ _ hx hx') (key _ _ _ hy hy') ha hb na nb

/-- The largest of some floats. -/
def MaxIs (fs : List Flt) (m : Flt) : Prop :=
  ((∀ f ∈ fs, f = .nan) ∧ m = .nan) ∨ (m ∈ fs ∧ m ≠ .nan ∧ ∀ f ∈ fs, f ≠ .nan → LeF f m)

/-- The smallest of some floats. -/
def MinIs (fs : List Flt) (m : Flt) : Prop :=
  ((∀ f ∈ fs, f = .nan) ∧ m = .nan) ∨ (m ∈ fs ∧ m ≠ .nan ∧ ∀ f ∈ fs, f ≠ .nan → LeF m f)

theorem leF_of_not_lt {a b : Flt} (ha : a ≠ .nan) (hb : b ≠ .nan) (h : ¬ LtX b a) : LeF a b := by
  cases a <;> cases b <;> simp_all [LeF, LtX]

theorem maxIs_of {vs : List Val} {v : Val} (h : MaxOf vs v) : MaxIs (vs.map Val.num) v.num := by
  rcases h with ⟨h, rfl⟩ | ⟨h1, h2, h3⟩
  · exact .inl ⟨by simpa using h, rfl⟩
  · refine .inr ⟨List.mem_map_of_mem h1, h2, fun f hf hn => ?_⟩
    obtain ⟨w, hw, rfl⟩ := List.mem_map.mp hf
    exact leF_of_not_lt hn h2 (h3 w hw)

theorem minIs_of {vs : List Val} {v : Val} (h : MinOf vs v) : MinIs (vs.map Val.num) v.num := by
  rcases h with ⟨h, rfl⟩ | ⟨h1, h2, h3⟩
  · exact .inl ⟨by simpa using h, rfl⟩
  · refine .inr ⟨List.mem_map_of_mem h1, h2, fun f hf hn => ?_⟩
    obtain ⟨w, hw, rfl⟩ := List.mem_map.mp hf
    exact leF_of_not_lt h2 hn (h3 w hw)

theorem max_grows {fs gs : List Flt} (h : List.Forall₂ AtMostF fs gs) {a b : Flt} (ha : MaxIs fs a) (hb : MaxIs gs b) :
    AtMostF a b := by
  rcases ha with ⟨h1, rfl⟩ | ⟨h1, h2, -⟩
  · rcases hb with ⟨-, rfl⟩ | ⟨h3, h4, -⟩
    · exact .inl ⟨rfl, rfl⟩
    · exact absurd ((atMost_nan h).mp h1 b h3) h4
  · rcases hb with ⟨h3, -⟩ | ⟨-, -, h5⟩
    · exact absurd ((atMost_nan h).mpr h3 a h1) h2
    · obtain ⟨c, hc, hac⟩ := forall₂_left h h1
      rcases hac with e | hac
      · exact absurd e.1 h2
      · exact .inr (leF_trans hac (h5 c hc hac.ne_nan.2))

theorem min_grows {fs gs : List Flt} (h : List.Forall₂ AtMostF fs gs) {a b : Flt} (ha : MinIs fs a) (hb : MinIs gs b) :
    AtMostF a b := by
  rcases hb with ⟨h1, rfl⟩ | ⟨h1, h2, -⟩
  · rcases ha with ⟨-, rfl⟩ | ⟨h3, h4, -⟩
    · exact .inl ⟨rfl, rfl⟩
    · exact absurd ((atMost_nan h).mpr h1 a h3) h4
  · rcases ha with ⟨h3, -⟩ | ⟨-, -, h5⟩
    · exact absurd ((atMost_nan h).mp h3 b h1) h2
    · obtain ⟨c, hc, hac⟩ := forall₂_right h h1
      rcases hac with e | hac
      · exact absurd e.2 h2
      · exact .inr (leF_trans (h5 c hc hac.ne_nan.1) hac)

/-! ## Without infinities only nothing but NaN gives NaN -/

theorem sum_nan {fs : List Flt} (h : NoInf fs) {a : Flt} (ha : SumIs fs a) : a = .nan ↔ ∀ f ∈ fs, f = .nan := by
  cases ha with
  | none h => simpa using h
  | finite qs hq e => simpa using finites_some hq e
  | plus h1 _ => exact absurd h1 (fun hm => (h _ hm).1 rfl)
  | minus h1 _ => exact absurd h1 (fun hm => (h _ hm).2 rfl)
  | both h1 _ => exact absurd h1 (fun hm => (h _ hm).1 rfl)

theorem mean_nan {fs : List Flt} (h : NoInf fs) {a : Flt} (ha : MeanIs fs a) : a = .nan ↔ ∀ f ∈ fs, f = .nan := by
  cases ha with
  | none h => simpa using h
  | finite qs hq e => simpa using finites_some hq e
  | plus h1 _ => exact absurd h1 (fun hm => (h _ hm).1 rfl)
  | minus h1 _ => exact absurd h1 (fun hm => (h _ hm).2 rfl)
  | both h1 _ => exact absurd h1 (fun hm => (h _ hm).1 rfl)

theorem median_nan {fs : List Flt} (h : NoInf fs) {a : Flt} (ha : MedianIs fs a) : a = .nan ↔ ∀ f ∈ fs, f = .nan := by
  rcases ha with ⟨h1, rfl⟩ | ⟨s, hs, -, ha⟩
  · simpa using h1
  · have hmem : ∀ (k : Nat) (x : Flt), s[k]? = some x → x ∈ fs ∧ x ≠ .nan := fun k x hx => by
      simpa using hs.mem_iff.mp (List.mem_of_getElem? hx)
    rcases ha with ⟨k, -, hk⟩ | ⟨k, x, y, -, hx, hy, hm⟩
    · obtain ⟨h1, h2⟩ := hmem k a hk
      exact ⟨fun e => absurd e h2, fun hall => absurd (hall a h1) h2⟩
    · obtain ⟨h1, h2⟩ := hmem k x hx
      obtain ⟨h3, h4⟩ := hmem _ y hy
      refine ⟨fun e => ?_, fun hall => absurd (hall x h1) h2⟩
      subst e
      cases hm
      exact absurd rfl (h _ h1).2

theorem max_nan {fs : List Flt} {a : Flt} (ha : MaxIs fs a) : a = .nan ↔ ∀ f ∈ fs, f = .nan := by
  rcases ha with ⟨h1, rfl⟩ | ⟨h1, h2, -⟩
  · simpa using h1
  · exact ⟨fun e => absurd e h2, fun hall => absurd (hall a h1) h2⟩

theorem min_nan {fs : List Flt} {a : Flt} (ha : MinIs fs a) : a = .nan ↔ ∀ f ∈ fs, f = .nan := by
  rcases ha with ⟨h1, rfl⟩ | ⟨h1, h2, -⟩
  · simpa using h1
  · exact ⟨fun e => absurd e h2, fun hall => absurd (hall a h1) h2⟩

/-! ## Between the extremes -/

theorem sum_le_of_le {qs : List ℚ} {m : ℚ} (h : ∀ q ∈ qs, q ≤ m) : qs.sum ≤ m * qs.length := by
  induction qs with
  | nil => simp
  | cons q qs ih =>
    simp only [List.mem_cons, forall_eq_or_imp] at h
    have := ih h.2
    push_cast [List.sum_cons, List.length_cons]
    linarith [h.1]

theorem le_sum_of_le {qs : List ℚ} {m : ℚ} (h : ∀ q ∈ qs, m ≤ q) : m * qs.length ≤ qs.sum := by
  induction qs with
  | nil => simp
  | cons q qs ih =>
    simp only [List.mem_cons, forall_eq_or_imp] at h
    have := ih h.2
    push_cast [List.sum_cons, List.length_cons]
    linarith [h.1]

theorem finites_mem {fs : List Flt} {qs : List ℚ} (h : fs.filter (· ≠ .nan) = qs.map .fin) (q : ℚ) :
    q ∈ qs ↔ .fin q ∈ fs := by
  rw [← mem_ok (f := .fin q) (by simp), h]
  simp

theorem mean_le_max {fs : List Flt} {a b : Flt} (ha : MeanIs fs a) (hb : MaxIs fs b) : NotAboveF a b := by
  intro na nb
  rcases hb with ⟨-, e⟩ | ⟨h1, -, h3⟩
  · exact absurd e nb
  cases ha with
  | none _ => exact absurd rfl na
  | both _ _ => exact absurd rfl na
  | minus _ _ => cases b <;> simp_all [LeF]
  | plus h _ => exact h3 _ h (by simp)
  | finite qs hq e =>
    cases b with
    | nan => exact absurd rfl nb
    | pinf => simp [LeF]
    | ninf => exact absurd h1 (finites_no_inf e).2
    | fin m =>
      have hl : (0 : ℚ) < qs.length := by exact_mod_cast List.length_pos_iff.mpr hq
      simp only [LeF]
      rw [div_le_iff₀ hl]
      exact sum_le_of_le fun q hm => h3 _ ((finites_mem e q).mp hm) (by simp)

theorem min_le_mean {fs : List Flt} {a b : Flt} (ha : MinIs fs a) (hb : MeanIs fs b) : NotAboveF a b := by
  intro na nb
  rcases ha with ⟨-, e⟩ | ⟨h1, -, h3⟩
  · exact absurd e na
  cases hb with
  | none _ => exact absurd rfl nb
  | both _ _ => exact absurd rfl nb
  | plus _ _ => cases a <;> simp_all [LeF]
  | minus h _ => exact h3 _ h (by simp)
  | finite qs hq e =>
    cases a with
    | nan => exact absurd rfl na
    | ninf => simp [LeF]
    | pinf => exact absurd h1 (finites_no_inf e).1
    | fin m =>
      have hl : (0 : ℚ) < qs.length := by exact_mod_cast List.length_pos_iff.mpr hq
      simp only [LeF]
      rw [le_div_iff₀ hl]
      exact le_sum_of_le fun q hm => h3 _ ((finites_mem e q).mp hm) (by simp)

theorem halfway_between {a b m lo hi : Flt} (h : Halfway a b m) (hm : m ≠ .nan) (ha : LeF lo a) (hb : LeF b hi) (ha' : LeF a hi)
    (hb' : LeF lo b) : LeF lo m ∧ LeF m hi := by
  cases h with
  | apart => exact absurd rfl hm
  | low _ _ _ => exact ⟨ha, ha'⟩
  | high _ _ _ => exact ⟨hb', hb⟩
  | finite p q =>
    cases lo <;> cases hi <;> simp only [LeF] at ha hb ha' hb' ⊢ <;> constructor <;> first | trivial | linarith

theorem median_between {fs : List Flt} {a m b : Flt} (ha : MinIs fs a) (hm : MedianIs fs m) (hb : MaxIs fs b) :
    NotAboveF a m ∧ NotAboveF m b := by
  rcases hm with ⟨-, rfl⟩ | ⟨s, hs, -, hm⟩
  · exact ⟨fun _ h => absurd rfl h, fun h _ => absurd rfl h⟩
  have hmem : ∀ (k : Nat) (x : Flt), s[k]? = some x → x ∈ fs ∧ x ≠ .nan := fun k x hx => by
    simpa using hs.mem_iff.mp (List.mem_of_getElem? hx)
  have hlo : ∀ x ∈ fs, x ≠ .nan → LeF a x := by
    rcases ha with ⟨h, -⟩ | ⟨-, -, h⟩
    · exact fun x hx hn => absurd (h x hx) hn
    · exact h
  have hhi : ∀ x ∈ fs, x ≠ .nan → LeF x b := by
    rcases hb with ⟨h, -⟩ | ⟨-, -, h⟩
    · exact fun x hx hn => absurd (h x hx) hn
    · exact h
  rcases hm with ⟨k, -, hk⟩ | ⟨k, x, y, -, hx, hy, hm⟩
  · obtain ⟨h1, h2⟩ := hmem k m hk
    exact ⟨fun _ _ => hlo m h1 h2, fun _ _ => hhi m h1 h2⟩
  · obtain ⟨h1, h2⟩ := hmem k x hx
    obtain ⟨h3, h4⟩ := hmem _ y hy
    have key : m ≠ .nan → LeF a m ∧ LeF m b := fun hn =>
      halfway_between hm hn (hlo x h1 h2) (hhi y h3 h4) (hhi x h1 h2) (hlo y h3 h4)
    exact ⟨fun _ hn => (key hn).1, fun hn _ => (key hn).2⟩

theorem min_le_max {fs : List Flt} {a b : Flt} (ha : MinIs fs a) (hb : MaxIs fs b) : AtMostF a b := by
  rcases ha with ⟨h1, rfl⟩ | ⟨h1, h2, h3⟩
  · exact .inl ⟨rfl, (max_nan hb).mpr h1⟩
  · rcases hb with ⟨h4, -⟩ | ⟨h4, h5, -⟩
    · exact absurd (h4 a h1) h2
    · exact .inr (h3 b h4 h5)

/-! ## The methods -/

/-- What a statistic is of a line. -/
def Statistic.Is (fs : List Flt) (a : Flt) : Statistic → Prop
  | .sum => SumIs fs a
  | .mean => MeanIs fs a
  | .median => MedianIs fs a
  | .max => MaxIs fs a
  | .min => MinIs fs a

/-- The function behind the method. -/
def Statistic.red : Statistic → Red
  | .sum => bnNansum
  | .mean => bnNanmean
  | .median => bnNanmedian
  | .max => bnNanmax
  | .min => bnNanmin

theorem of_eq (s : Statistic) (y : Larry L) (axis : Option Int) : s.of y axis = y.reduce s.red axis := by cases s <;> rfl

theorem red_dt (s : Statistic) {d : DType} (hd : d = .float ∨ d = .int ∨ d = .bool) : ∃ d', s.red.dt d = .ok d' := by
  rcases hd with h | h | h <;> subst h <;> cases s <;> exact ⟨_, rfl⟩

theorem sumIs_of {d : DType} {vs : List Val} {v : Val} (hne : vs ≠ []) (h : SumOf d vs v) : SumIs (vs.map Val.num) v.num := by
  cases d <;> simp only [SumOf] at h
  · obtain ⟨bs, rfl, rfl⟩ := h
    have hf : ((bs.map Val.bool).map Val.num) = (bs.map fun b => if b then (1 : ℚ) else 0).map Flt.fin := by
      simp [Val.num]
    rw [hf]
    have := SumIs.finite (fs := (bs.map fun b => if b then (1 : ℚ) else 0).map Flt.fin)
      (bs.map fun b => if b then (1 : ℚ) else 0) (by simpa using hne)
      (by rw [List.filter_eq_self]; intro a ha; obtain ⟨q, -, rfl⟩ := List.mem_map.mp ha; simp)
    convert this using 1
    simp only [Val.num]
    congr 1
    clear * -
    induction bs with
    | nil => simp
    | cons b bs ih => cases b <;> simp_all [add_comm]
  · obtain ⟨ns, rfl, rfl⟩ := h
    have hf : ((ns.map Val.int).map Val.num) = (ns.map fun n : Int => (n : ℚ)).map Flt.fin := by simp [Val.num]
    rw [hf]
    have := SumIs.finite (fs := (ns.map fun n : Int => (n : ℚ)).map Flt.fin) (ns.map fun n : Int => (n : ℚ))
      (by simpa using hne) (by simp [List.filter_eq_self])
    convert this using 1
    simp only [Val.num]
    congr 1
    clear * -
    induction ns with
    | nil => simp
    | cons n ns ih => simp_all
  · obtain ⟨s, rfl, h⟩ := h
    exact h

theorem stat_is (s : Statistic) {d : DType} (hd : d = .float ∨ d = .int ∨ d = .bool) {vs : List Val} (hne : vs ≠ [])
    (ht : ∀ v ∈ vs, v.hasDType d = true) : s.Is (vs.map Val.num) (s.red.f vs).num := by
  cases s with
  | sum =>
    refine sumIs_of hne (sumOf_nansum (d' := if d = .float then .float else .int) ?_ hne ht)
    rcases hd with h | h | h <;> subst h <;> rfl
  | mean => exact mean_is _
  | median => exact median_is _
  | max => exact maxIs_of (maxOf_nanmax vs)
  | min => exact minIs_of (minOf_nanmin vs)

theorem stat_grows (s : Statistic) {fs gs : List Flt} (h : List.Forall₂ AtMostF fs gs) {a b : Flt} (ha : s.Is fs a)
    (hb : s.Is gs b) : NotAboveF a b := by
  have weak : AtMostF a b → NotAboveF a b := by
    rintro (⟨rfl, -⟩ | h)
    · exact fun h => absurd rfl h
    · exact fun _ _ => h
  cases s with
  | sum => exact sum_grows h ha hb
  | mean => exact mean_grows h ha hb
  | median => exact median_grows h ha hb
  | max => exact weak (max_grows h ha hb)
  | min => exact weak (min_grows h ha hb)

theorem stat_nan (s : Statistic) {fs : List Flt} (h : NoInf fs) {a : Flt} (ha : s.Is fs a) : a = .nan ↔ ∀ f ∈ fs, f = .nan := by
  cases s with
  | sum => exact sum_nan h ha
  | mean => exact mean_nan h ha
  | median => exact median_nan h ha
  | max => exact max_nan ha
  | min => exact min_nan ha

/-! ## Lines of two larrys -/

theorem under_line {y w : Larry L} {R : Val → Val → Prop} (hl : y.label = w.label)
    (hc : ∀ names v u, y.Has names v → w.Has names u → R v u) {ax : Nat} {rest : List L} {vs us : List Val}
    (h : y.LineAt ax rest vs) (h' : w.LineAt ax rest us) : List.Forall₂ R vs us := by
  obtain ⟨l, hl1, hlen, hh⟩ := h
  obtain ⟨l', hl2, hlen', hh'⟩ := h'
  have : l' = l := by rw [← hl, hl1] at hl2; exact (Option.some.inj hl2).symm
  subst this
  rw [List.forall₂_iff_get]
  refine ⟨by omega, fun i h1 h2 => ?_⟩
  have hi : i < l'.length := by omega
  exact hc _ _ _ (hh i _ _ (List.getElem?_eq_getElem hi) (List.getElem?_eq_getElem h1))
    (hh' i _ _ (List.getElem?_eq_getElem hi) (List.getElem?_eq_getElem h2))

theorem under_vals {y w : Larry L} {R : Val → Val → Prop} (hv : y.Valid) (hv' : w.Valid) (hl : y.label = w.label)
    (hc : ∀ names v u, y.Has names v → w.Has names u → R v u) : List.Forall₂ R y.x.vals w.x.vals := by
  have hs : w.x.shape = y.x.shape := by rw [hv.shape_eq, hv'.shape_eq, hl]
  unfold NDArray.vals
  rw [hs, List.forall₂_map_left_iff, List.forall₂_map_right_iff, List.forall₂_same]
  intro idx hi
  rw [mem_allIdx, hv.shape_eq] at hi
  obtain ⟨names, hn⟩ := At_of_inB hi
  exact hc names _ _ ⟨idx, hn, rfl⟩ ⟨idx, hl ▸ hn, rfl⟩

/-- Two reductions of larrys with the same labels, compared line by line. -/
theorem compare_reduce {R Q : Val → Val → Prop} (r r' : Red) {y w : Larry L} (hy : y.Numeric) (hw : w.Numeric)
    {d d' : DType} (hd : r.dt y.dtype = .ok d) (hd' : r'.dt w.dtype = .ok d') (hl : y.label = w.label)
    (hc : ∀ names v u, y.Has names v → w.Has names u → R v u)
    (hR : ∀ vs us : List Val, List.Forall₂ R vs us → vs ≠ [] → us ≠ [] → (∀ v ∈ vs, ∃ names, y.Has names v) →
      (∀ v ∈ us, ∃ names, w.Has names v) → Q (r.f vs) (r'.f us))
    (axis : Option Int) (hax : ∀ a, axis = some a → ∃ ax, pyIdx y.ndim a = some ax) :
    Compare Q (y.reduce r axis) (w.reduce r' axis) := by
  have hnd : w.ndim = y.ndim := by rw [← hw.valid.label_length, ← hy.valid.label_length, hl]
  have hlines : ∀ ax rest vs us, y.LineAt ax rest vs → w.LineAt ax rest us → Q (r.f vs) (r'.f us) := by
    intro ax rest vs us h h'
    exact hR vs us (under_line hl hc h h') (line_ne_nil hy.valid hy.elements h) (line_ne_nil hw.valid hw.elements h')
      (fun v hm => line_mem_has h hm) (fun v hm => line_mem_has h' hm)
  cases axis with
  | none =>
    rw [reduce_none_eq r hd hy.elements, reduce_none_eq r' hd' hw.elements]
    refine .scalar (hR _ _ (under_vals hy.valid hw.valid hl hc) ?_ ?_ (fun v hm => mem_vals_has hy.valid hm)
      (fun v hm => mem_vals_has hw.valid hm))
    · intro h
      have := (vals_all hy.valid).1
      rw [h] at this
      exact hy.elements this.symm
    · intro h
      have := (vals_all hw.valid).1
      rw [h] at this
      exact hw.elements this.symm
  | some a =>
    obtain ⟨ax, hax⟩ := hax a rfl
    have hpos : 1 ≤ y.ndim := by
      have := hy.valid.ndim_pos
      rw [← hy.valid.label_length]
      exact List.length_pos_iff.mpr this
    rcases Nat.lt_or_ge y.ndim 2 with h1 | h2
    · have h1 : y.ndim = 1 := by omega
      have ha : a = 0 ∨ a = -1 := by
        rw [h1] at hax
        simp only [pyIdx] at hax
        split_ifs at hax <;> omega
      obtain ⟨vs, h, e⟩ := C42_reduce_1d r hy.valid hd hy.elements h1 ha
      obtain ⟨us, h', e'⟩ := C42_reduce_1d r' hw.valid hd' hw.elements (hnd.trans h1) ha
      rw [e, e']
      exact .scalar (hlines _ _ _ _ h h')
    · obtain ⟨z, e, zv, -, zl, zc⟩ := C42_reduce_axis r hy.valid hd hy.elements hax h2
      obtain ⟨z', e', zv', -, zl', zc'⟩ := C42_reduce_axis r' hw.valid hd' hw.elements (hnd ▸ hax) (hnd ▸ h2)
      rw [e, e']
      refine .larry zv zv' (by rw [zl, zl', hl]) fun names v u hv hu => ?_
      obtain ⟨-, vs, h, rfl⟩ := (zc names v).mp hv
      obtain ⟨-, us, h', rfl⟩ := (zc' names u).mp hu
      exact hlines _ _ _ _ h h'

theorem line_typed' {y : Larry L} (hy : y.Numeric) {vs : List Val} (h : ∀ v ∈ vs, ∃ names, y.Has names v) :
    ∀ v ∈ vs, v.hasDType y.dtype = true := fun v hv => by
  obtain ⟨names, hh⟩ := h v hv
  exact (typed_iff hy.valid).mp hy.typed names v hh

theorem line_noInf {y : Larry L} (hy : y.NoInfinities) {vs : List Val} (h : ∀ v ∈ vs, ∃ names, y.Has names v) :
    NoInf (vs.map Val.num) := by
  intro f hf
  obtain ⟨v, hv, rfl⟩ := List.mem_map.mp hf
  obtain ⟨names, hh⟩ := h v hv
  exact hy names v hh

theorem atMost_nums {vs us : List Val} (h : List.Forall₂ AtMost vs us) :
    List.Forall₂ AtMostF (vs.map Val.num) (us.map Val.num) := by
  rw [List.forall₂_map_left_iff, List.forall₂_map_right_iff]
  exact h

/-- C104. If no element of `y` is above the one of `w`, no sum, mean, median, maximum or minimum of `y` is above that of
`w`, along whatever axis. -/
theorem C104_grows (s : Statistic) {y w : Larry L} (hy : y.Numeric) (hw : w.Numeric) (h : y.Under w) (axis : Option Int)
    (hax : ∀ a, axis = some a → ∃ ax, pyIdx y.ndim a = some ax) : Compare NotAbove (s.of y axis) (s.of w axis) := by
  obtain ⟨d, hd⟩ := red_dt s hy.dtype
  obtain ⟨d', hd'⟩ := red_dt s hw.dtype
  rw [of_eq, of_eq]
  exact compare_reduce s.red s.red hy hw hd hd' h.label h.cells (fun vs us hvu h1 h2 h3 h4 =>
    stat_grows s (atMost_nums hvu) (stat_is s hy.dtype h1 (line_typed' hy h3)) (stat_is s hw.dtype h2 (line_typed' hw h4)))
    axis hax

/-- C104. Without infinities the results are missing at the same places too. -/
theorem C104_grows_finite (s : Statistic) {y w : Larry L} (hy : y.Numeric) (hw : w.Numeric) (h : y.Under w)
    (iy : y.NoInfinities) (iw : w.NoInfinities) (axis : Option Int)
    (hax : ∀ a, axis = some a → ∃ ax, pyIdx y.ndim a = some ax) : Compare AtMost (s.of y axis) (s.of w axis) := by
  obtain ⟨d, hd⟩ := red_dt s hy.dtype
  obtain ⟨d', hd'⟩ := red_dt s hw.dtype
  rw [of_eq, of_eq]
  refine compare_reduce s.red s.red hy hw hd hd' h.label h.cells (fun vs us hvu h1 h2 h3 h4 => ?_) axis hax
  have a1 := stat_is s hy.dtype h1 (line_typed' hy h3)
  have a2 := stat_is s hw.dtype h2 (line_typed' hw h4)
  have e : (s.red.f vs).num = .nan ↔ (s.red.f us).num = .nan := by
    rw [stat_nan s (line_noInf iy h3) a1, stat_nan s (line_noInf iw h4) a2, atMost_nan (atMost_nums hvu)]
  by_cases hn : (s.red.f vs).num = .nan
  · exact .inl ⟨hn, e.mp hn⟩
  · exact .inr (stat_grows s (atMost_nums hvu) a1 a2 hn (fun h => hn (e.mpr h)))

theorem self_forall₂ {vs us : List Val} (h : List.Forall₂ (· = ·) vs us) : vs = us := List.forall₂_eq_eq_eq ▸ h

/-- C104. Mean and median lie between the minimum and the maximum. -/
theorem C104_between {y : Larry L} (hy : y.Numeric) (axis : Option Int)
    (hax : ∀ a, axis = some a → ∃ ax, pyIdx y.ndim a = some ax) :
    Compare AtMost (y.min axis) (y.max axis) ∧
    Compare NotAbove (y.min axis) (y.mean axis) ∧ Compare NotAbove (y.mean axis) (y.max axis) ∧
    Compare NotAbove (y.min axis) (y.median axis) ∧ Compare NotAbove (y.median axis) (y.max axis) := by
  have key : ∀ (s t : Statistic) (Q : Val → Val → Prop),
      (∀ vs : List Val, s.Is (vs.map Val.num) (s.red.f vs).num → t.Is (vs.map Val.num) (t.red.f vs).num →
        MinIs (vs.map Val.num) (bnNanmin.f vs).num → MaxIs (vs.map Val.num) (bnNanmax.f vs).num →
        Q (s.red.f vs) (t.red.f vs)) → Compare Q (s.of y axis) (t.of y axis) := by
    intro s t Q hQ
    obtain ⟨d, hd⟩ := red_dt s hy.dtype
    obtain ⟨d', hd'⟩ := red_dt t hy.dtype
    rw [of_eq, of_eq]
    refine compare_reduce (R := (· = ·)) s.red t.red hy hy hd hd' rfl
      (fun names v u hv hu => Holds_unique hy.valid.nodup hv hu) (fun vs us hvu h1 h2 h3 h4 => ?_) axis hax
    have := self_forall₂ hvu
    subst this
    have ht := line_typed' hy h3
    exact hQ vs (stat_is s hy.dtype h1 ht) (stat_is t hy.dtype h1 ht) (stat_is .min hy.dtype h1 ht)
      (stat_is .max hy.dtype h1 ht)
  exact ⟨key .min .max AtMost fun vs a b _ _ => min_le_max a b,
    key .min .mean NotAbove fun vs a b _ _ => min_le_mean a b,
    key .mean .max NotAbove fun vs a b _ _ => mean_le_max a b,
    key .min .median NotAbove fun vs a b _ c => (median_between a b c).1,
    key .median .max NotAbove fun vs a b c _ => (median_between c a b).2⟩

/-! ## Variances -/

/-- How many elements of a line are not NaN. -/
def howMany (vs : List Val) : Nat := ((vs.map Val.num).filter (· ≠ .nan)).length

/-- No two numbers of a line differ. -/
def AllEqual (vs : List Val) : Prop := ∀ v ∈ vs, ∀ u ∈ vs, v.num ≠ .nan → u.num ≠ .nan → v.num = u.num

/-- What there is to say about the sign of a variance `v` of the line `vs`, which holds numbers and no infinities. -/
structure SpreadOf (ddof : Int) (vs : List Val) (v : Val) : Prop where
  enough : NoInf (vs.map Val.num) → 0 < howMany vs → ddof < howMany vs →
    ∃ q : ℚ, v = .flt (.fin q) ∧ 0 ≤ q ∧ (q = 0 ↔ AllEqual vs)
  toomany : NoInf (vs.map Val.num) → 0 < howMany vs → howMany vs < ddof →
    ∃ q : ℚ, v = .flt (.fin q) ∧ q ≤ 0 ∧ (q = 0 ↔ AllEqual vs)

theorem spread_of {ddof : Int} {vs : List Val} {s : Flt} (h : VarIs ddof (vs.map Val.num) s) : SpreadOf ddof vs (.flt s) := by
  have hpos : 0 < howMany vs → ¬ ∀ f ∈ vs.map Val.num, f = .nan := fun h hn => by
    rw [howMany, ok_nil hn] at h
    exact absurd h (by simp)
  have hinf : NoInf (vs.map Val.num) → ¬ (Flt.pinf ∈ vs.map Val.num ∨ Flt.ninf ∈ vs.map Val.num) := by
    rintro h (h1 | h1)
    · exact (h _ h1).1 rfl
    · exact (h _ h1).2 rfl
  have heq : ∀ (qs : List ℚ) (m : ℚ), (vs.map Val.num).filter (· ≠ .nan) = qs.map .fin → m * qs.length = qs.sum →
      qs ≠ [] → ((qs.map fun q => (q - m) * (q - m)).sum = 0 ↔ AllEqual vs) := by
    intro qs m e hm hq
    have hmem := finites_mem e
    constructor
    · intro h0 v hv u hu nv nu
      have hall := sq_sum_zero h0
      have hfin : ∀ v ∈ vs, v.num ≠ .nan → v.num = .fin m := by
        intro v hv nv
        have h1 : v.num ∈ (vs.map Val.num).filter (· ≠ .nan) := by simpa using ⟨⟨v, hv, rfl⟩, nv⟩
        rw [e] at h1
        obtain ⟨q, hq, hq'⟩ := List.mem_map.mp h1
        rw [← hq', hall q hq]
      rw [hfin v hv nv, hfin u hu nu]
    · intro hall
      obtain ⟨q0, hq0⟩ := List.exists_mem_of_ne_nil qs hq
      have hsame : ∀ q ∈ qs, q = q0 := by
        intro q hq
        obtain ⟨v, hv, e1⟩ := List.mem_map.mp ((hmem q).mp hq)
        obtain ⟨u, hu, e2⟩ := List.mem_map.mp ((hmem q0).mp hq0)
        have := hall v hv u hu (by rw [e1]; simp) (by rw [e2]; simp)
        rw [e1, e2] at this
        exact Flt.fin.inj this
      have hl : (0 : ℚ) < qs.length := by exact_mod_cast List.length_pos_iff.mpr hq
      have hsum : qs.sum = q0 * qs.length := by
        apply le_antisymm
        · exact sum_le_of_le fun q hq => (hsame q hq).le
        · exact le_sum_of_le fun q hq => (hsame q hq).ge
      have hmq : m = q0 := by
        have : m * qs.length = q0 * qs.length := hm.trans hsum
        exact mul_right_cancel₀ hl.ne' this
      apply List.sum_eq_zero
      intro x hx
      obtain ⟨q, hq, rfl⟩ := List.mem_map.mp hx
      rw [hsame q hq, hmq]
      ring
  cases h with
  | none h => exact ⟨fun _ hp => absurd h (hpos hp), fun _ hp => absurd h (hpos hp)⟩
  | infinite h => exact ⟨fun hi => absurd h (hinf hi), fun hi => absurd h (hinf hi)⟩
  | equal qs q hq e _ hd =>
    have : howMany vs = qs.length := by rw [howMany, e, List.length_map]
    exact ⟨fun _ _ h => by omega, fun _ _ h => by omega⟩
  | unequal qs p q e _ _ _ hd =>
    have : howMany vs = qs.length := by rw [howMany, e, List.length_map]
    exact ⟨fun _ _ h => by omega, fun _ _ h => by omega⟩
  | finite qs m hq e hm hd =>
    have hn : howMany vs = qs.length := by rw [howMany, e, List.length_map]
    refine ⟨fun _ _ h => ⟨_, rfl, ?_, ?_⟩, fun _ _ h => ⟨_, rfl, ?_, ?_⟩⟩
    · have hd : (0 : ℚ) < qs.length - ddof := by
        have : (ddof : ℚ) < qs.length := by rw [hn] at h; exact_mod_cast h
        linarith
      exact div_nonneg (sq_sum_nonneg _ _) hd.le
    · have hd : (qs.length : ℚ) - ddof ≠ 0 := by
        have : (ddof : ℚ) < qs.length := by rw [hn] at h; exact_mod_cast h
        linarith
      rw [div_eq_zero_iff, or_iff_left hd]
      exact heq qs m e hm hq
    · have hd : (qs.length : ℚ) - ddof < 0 := by
        have : (qs.length : ℚ) < ddof := by rw [hn] at h; exact_mod_cast h
        linarith
      exact div_nonpos_of_nonneg_of_nonpos (sq_sum_nonneg _ _) hd.le
    · have hd : (qs.length : ℚ) - ddof ≠ 0 := by
        have : (qs.length : ℚ) < ddof := by rw [hn] at h; exact_mod_cast h
        linarith
      rw [div_eq_zero_iff, or_iff_left hd]
      exact heq qs m e hm hq

theorem Computes.mono {m : Option Int → Res (Out L)} {S S' : List Val → Val → Prop} {d : DType} {y : Larry L}
    (h : Computes m S d y) (hS : ∀ vs v, S vs v → S' vs v) : Computes m S' d y := by
  obtain ⟨⟨vs, v, h1, h2, h3⟩, h4, h5⟩ := h
  refine ⟨⟨vs, v, h1, h2, hS _ _ h3⟩, fun a ha hb => ?_, fun a ax ha hb => ?_⟩
  · obtain ⟨vs, v, h1, h2, h3⟩ := h4 a ha hb
    exact ⟨vs, v, h1, h2, hS _ _ h3⟩
  · obtain ⟨z, h1, h2, h3, h4, h6⟩ := h5 a ax ha hb
    refine ⟨z, h1, h2, h3, h4, fun rest hr => ?_⟩
    obtain ⟨vs, v, h7, h8, h9⟩ := h6 rest hr
    exact ⟨vs, v, h7, h8, hS _ _ h9⟩

/-- C104. A variance is not negative, and zero exactly where all numbers are equal, as long as there are more numbers than
`ddof`; where there are fewer, it is not positive. -/
theorem C104_var {y : Larry L} (hy : y.Numeric) (ddof : Int) :
    Computes (fun axis => y.var axis ddof) (SpreadOf ddof) .float y :=
  (C91_var ddof hy.valid hy.typed hy.elements hy.dtype).mono fun _ _ ⟨_, e, h⟩ => e ▸ spread_of h

/-! ## Moving statistics, cumsum, clip -/

theorem toFloat_num (v : Val) : v.toFloat.num = v.num := by cases v <;> rfl

/-- C104. Moving statistics of `y` are nowhere above those of `w`. -/
theorem C104_moving (s : Statistic) {y w : Larry L} {buf buf' : Int → Val} {arr arr' : Strided} {window : Nat} {axis : Int}
    {ax : Nat} {m m' : MoveMethod} (hm : CanMove y buf arr window axis ax m) (hm' : CanMove w buf' arr' window axis ax m')
    (hy : y.Numeric) (hw : w.Numeric) (h : y.Under w) :
    ∃ z z', y.moveStat s.red buf arr window (some axis) m = .ok z ∧ w.moveStat s.red buf' arr' window (some axis) m' = .ok z' ∧
      z.label = z'.label ∧ ∀ names v u, z.Has names v → z'.Has names u → NotAbove v u := by
  obtain ⟨d, hd⟩ := red_dt s hy.dtype
  obtain ⟨d', hd'⟩ := red_dt s hw.dtype
  obtain ⟨l, hl, -⟩ := label_at hm.valid hm.axis
  have hl' : w.label[ax]? = some l := by rw [← h.label]; exact hl
  obtain ⟨z, e, -, hal⟩ := moveStat_ok s.red hm hd hl
  obtain ⟨z', e', -, hal'⟩ := moveStat_ok s.red hm' hd' hl'
  refine ⟨z, z', e, e', by rw [hal.label_eq, hal'.label_eq, h.label], fun names v u hv hu => ?_⟩
  have hN : Named y.label names := by rw [← hal.label_eq]; exact Named_of_Holds hv
  obtain ⟨i, a, rest, ha, hr, rfl⟩ := named_split hl hN
  have hr' : Named (w.label.eraseIdx ax) rest := by rw [← h.label]; exact hr
  obtain ⟨vs, hline⟩ := lineAt_exists hm.valid hl hr
  obtain ⟨us, hline'⟩ := lineAt_exists hm'.valid hl' hr'
  have c1 := Holds_unique hal.valid.nodup hv (moved_has hal hl ha hline hr)
  have c2 := Holds_unique hal'.valid.nodup hu (moved_has hal' hl' ha hline' hr')
  rw [c1, c2]
  split_ifs with hi
  · exact fun h => absurd rfl h
  · have hf := under_line h.label h.cells hline hline'
    have hf' : List.Forall₂ AtMost ((vs.drop (i + 1 - window)).take window) ((us.drop (i + 1 - window)).take window) :=
      List.forall₂_take _ (List.forall₂_drop _ hf)
    have hlen : vs.length = l.length := by
      obtain ⟨l', hl1, hlen, -⟩ := hline
      rw [hl] at hl1
      cases hl1
      exact hlen
    have hil := (List.getElem?_eq_some_iff.mp ha).1
    have hpos := hm.pos
    have hne : (vs.drop (i + 1 - window)).take window ≠ [] := by
      intro e0
      have := congrArg List.length e0
      simp only [List.length_take, List.length_drop, List.length_nil] at this
      omega
    have hne' : (us.drop (i + 1 - window)).take window ≠ [] := by
      intro e0
      have := hf'.length_eq
      rw [e0] at this
      exact hne (List.length_eq_zero_iff.mp this)
    have hsub : ∀ x ∈ (vs.drop (i + 1 - window)).take window, ∃ names, y.Has names x := fun x hx =>
      line_mem_has hline (List.mem_of_mem_drop (List.mem_of_mem_take hx))
    have hsub' : ∀ x ∈ (us.drop (i + 1 - window)).take window, ∃ names, w.Has names x := fun x hx =>
      line_mem_has hline' (List.mem_of_mem_drop (List.mem_of_mem_take hx))
    unfold NotAbove
    rw [toFloat_num, toFloat_num]
    exact stat_grows s (atMost_nums hf') (stat_is s hy.dtype hne (line_typed' hy hsub))
      (stat_is s hw.dtype hne' (line_typed' hw hsub'))

/-- What `cumsum` holds at a place: NaN where the line has NaN, elsewhere the sum so far. -/
def RunningSum (vs : List Val) (i : Nat) (v : Val) : Prop :=
  ∀ w, vs[i]? = some w → (w.num = .nan ∧ v.num = .nan) ∨ (w.num ≠ .nan ∧ SumIs ((vs.take (i + 1)).map Val.num) v.num)

theorem count_true (bs : List Bool) : bs.count true = (bs.filter id).length := by
  rw [List.count_eq_length_filter]
  congr 1
  apply List.filter_congr
  intro b _
  cases b <;> rfl

theorem running_sum {y : Larry L} (hy : y.Numeric) {axis : Int} {ax : Nat} (hax : pyIdx y.ndim axis = some ax) :
    ∃ z, y.cumsum (some axis) = .ok z ∧ z.Valid ∧ z.label = y.label ∧
      ∀ (rest : List L) (vs : List Val) (l : List L) (i : Nat) (b : L) (v : Val),
        y.LineAt ax rest vs → y.label[ax]? = some l → l[i]? = some b → z.Has (rest.insertIdx ax b) v → RunningSum vs i v := by
  have htake : ∀ {vs : List Val} {i : Nat} {w : Val}, vs[i]? = some w → vs.take (i + 1) ≠ [] := by
    intro vs i w hw e
    have h1 := congrArg List.length e
    have h2 := (List.getElem?_eq_some_iff.mp hw).1
    rw [List.length_take, List.length_nil] at h1
    omega
  rcases hy.dtype with hd | hd | hd
  · obtain ⟨z, e, -, hal⟩ := C43_cumsum hy.valid hd hax
    refine ⟨z, e, hal.valid, hal.label_eq, fun rest vs l i b v h1 h2 h3 h4 w hw => ?_⟩
    obtain ⟨c1, c2⟩ := hal.cell rest vs l i b v h1 h2 h3 h4 w hw
    by_cases hn : w.num = .nan
    · exact .inl ⟨hn, by rw [c1 hn]; rfl⟩
    · refine .inr ⟨hn, ?_⟩
      rw [c2 hn]
      have e1 : soFar vs i = ((vs.take (i + 1)).map Val.num).filter (· ≠ .nan) := by
        unfold soFar
        apply List.filter_congr
        intro f _
        cases f <;> rfl
      have hwm : w ∈ vs.take (i + 1) := List.mem_of_getElem? (i := i) (by rw [List.getElem?_take]; simp [hw])
      have := sumIs_sum ((vs.take (i + 1)).map Val.num) (by
        intro e0
        have : w.num ∈ ((vs.take (i + 1)).map Val.num).filter (· ≠ .nan) :=
          List.mem_filter.mpr ⟨List.mem_map_of_mem hwm, by simpa using hn⟩
        rw [e0] at this
        simp at this)
      rw [e1]
      exact this
  · obtain ⟨⟨z, e, -, hal⟩, -⟩ := C43_int hy.valid hd hax
    refine ⟨z, e, hal.valid, hal.label_eq, fun rest vs l i b v h1 h2 h3 h4 w hw => ?_⟩
    obtain ⟨ns, rfl⟩ := typed_int (hd ▸ line_typed' hy (fun v hv => line_mem_has h1 hv))
    have c := hal.cell rest _ l i b v h1 h2 h3 h4 ns rfl
    refine .inr ⟨?_, sumIs_of (d := .int) (htake hw) ⟨ns.take (i + 1), by rw [List.map_take], c⟩⟩
    obtain ⟨n, -, rfl⟩ := List.mem_map.mp (List.mem_of_getElem? hw)
    simp [Val.num]
  · obtain ⟨⟨z, e, -, hal⟩, -⟩ := C43_bool hy.valid hd hax
    refine ⟨z, e, hal.valid, hal.label_eq, fun rest vs l i b v h1 h2 h3 h4 w hw => ?_⟩
    obtain ⟨bs, rfl⟩ := typed_bool (hd ▸ line_typed' hy (fun v hv => line_mem_has h1 hv))
    have c := hal.cell rest _ l i b v h1 h2 h3 h4 bs rfl
    refine .inr ⟨?_, sumIs_of (d := .bool) (htake hw) ⟨bs.take (i + 1), by rw [List.map_take], by rw [c, count_true]⟩⟩
    obtain ⟨n, -, rfl⟩ := List.mem_map.mp (List.mem_of_getElem? hw)
    cases n <;> simp [Val.num]

/-- C104. Cumulative sums of `y` are nowhere above those of `w`. -/
theorem C104_cumsum {y w : Larry L} (hy : y.Numeric) (hw : w.Numeric) (h : y.Under w) {axis : Int} {ax : Nat}
    (hax : pyIdx y.ndim axis = some ax) :
    ∃ z z', y.cumsum (some axis) = .ok z ∧ w.cumsum (some axis) = .ok z' ∧ z.label = z'.label ∧
      ∀ names v u, z.Has names v → z'.Has names u → NotAbove v u := by
  have hnd : w.ndim = y.ndim := by
    rw [← hy.valid.label_length, ← hw.valid.label_length, h.label]
  obtain ⟨l, hl, -⟩ := label_at hy.valid hax
  have hl' : w.label[ax]? = some l := by rw [← h.label]; exact hl
  obtain ⟨z, e, zv, zl, zc⟩ := running_sum hy hax
  obtain ⟨z', e', zv', zl', zc'⟩ := running_sum hw (hnd ▸ hax)
  refine ⟨z, z', e, e', by rw [zl, zl', h.label], fun names v u hv hu => ?_⟩
  have hN : Named y.label names := by rw [← zl]; exact Named_of_Holds hv
  obtain ⟨i, a, rest, ha, hr, rfl⟩ := named_split hl hN
  have hr' : Named (w.label.eraseIdx ax) rest := by rw [← h.label]; exact hr
  obtain ⟨vs, hline⟩ := lineAt_exists hy.valid hl hr
  obtain ⟨us, hline'⟩ := lineAt_exists hw.valid hl' hr'
  have hf := under_line h.label h.cells hline hline'
  have hlen : vs.length = l.length := by
    obtain ⟨l', hl1, hlen, -⟩ := hline
    rw [hl] at hl1
    cases hl1
    exact hlen
  have hil := (List.getElem?_eq_some_iff.mp ha).1
  obtain ⟨x, hx⟩ : ∃ x, vs[i]? = some x := ⟨_, List.getElem?_eq_getElem (by omega)⟩
  obtain ⟨x', hx'⟩ : ∃ x, us[i]? = some x := ⟨_, List.getElem?_eq_getElem (by rw [← hf.length_eq]; omega)⟩
  have c := zc rest vs l i a v hline hl ha hv x hx
  have c' := zc' rest us l i a u hline' hl' ha hu x' hx'
  intro nv nu
  rcases c with ⟨-, c⟩ | ⟨-, c⟩
  · exact absurd c nv
  rcases c' with ⟨-, c'⟩ | ⟨-, c'⟩
  · exact absurd c' nu
  exact sum_grows (atMost_nums (List.forall₂_take _ hf)) c c' nv nu

theorem LeF.trans' {a b c : Flt} (h : LeF a b) (h' : LeF b c) : LeF a c := by
  cases a <;> cases b <;> cases c <;> simp_all [LeF]
  linarith

theorem clipped_mono {lo hi : Flt} (hb : LeF lo hi) {a b c d : Flt} (h : AtMostF a b) (h1 : ClippedTo lo hi a c)
    (h2 : ClippedTo lo hi b d) : AtMostF c d := by
  rcases h with ⟨rfl, rfl⟩ | hab
  · exact .inl ⟨h1.1 rfl, h2.1 rfl⟩
  · have r1 := C45_range hb h1 hab.ne_nan.1
    have r2 := C45_range hb h2 hab.ne_nan.2
    refine .inr ?_
    by_cases ha : LeF lo a
    · by_cases ha' : LeF a hi
      · rw [h1.2.1 ha ha']
        by_cases hd : LeF b hi
        · rw [h2.2.1 (ha.trans' hab) hd]; exact hab
        · rw [h2.2.2.2 hab.ne_nan.2 hd]; exact ha'
      · have hd : ¬ LeF b hi := fun hd => ha' (hab.trans' hd)
        rw [h2.2.2.2 hab.ne_nan.2 hd]; exact r1.2
    · rw [h1.2.2.1 hab.ne_nan.1 ha]; exact r2.1

theorem ClippedTo.unique {lo hi a c d : Flt} (h1 : ClippedTo lo hi a c) (h2 : ClippedTo lo hi a d) : c = d := by
  by_cases hn : a = .nan
  · rw [h1.1 hn, h2.1 hn]
  · by_cases ha : LeF lo a
    · by_cases ha' : LeF a hi
      · rw [h1.2.1 ha ha', h2.2.1 ha ha']
      · rw [h1.2.2.2 hn ha', h2.2.2.2 hn ha']
    · rw [h1.2.2.1 hn ha, h2.2.2.1 hn ha]

theorem ClippedTo.finite {lo hi c : Flt} {q : ℚ} (h : ClippedTo lo hi (.fin q) c) (hl : lo ≠ .pinf) (hh : hi ≠ .ninf) (hb : LeF lo hi) :
    ∃ p, c = .fin p := by
  by_cases h1 : LeF lo (.fin q)
  · by_cases h2 : LeF (.fin q) hi
    · exact ⟨q, h.2.1 h1 h2⟩
    · rw [h.2.2.2 (by simp) h2]
      cases hi <;> simp [LeF] at h2 hh
      · cases lo <;> simp [LeF] at hb
      · exact ⟨_, rfl⟩
  · rw [h.2.2.1 (by simp) h1]
    cases lo <;> simp [LeF] at h1 hl hb
    exact ⟨_, rfl⟩

/-- C104. `clip` keeps the order of two larrys of the same dtype. (Int larrys need bounds that leave room for ints.) -/
theorem C104_clip_order {y w : Larry L} (hy : y.Numeric) (hw : w.Numeric) (hd : y.dtype = w.dtype) (h : y.Under w) {lo hi : Flt}
    (hb : LeF lo hi) (hi' : y.dtype = .int → lo ≠ .pinf ∧ hi ≠ .ninf) :
    ∃ z z', y.clip lo hi = .ok z ∧ w.clip lo hi = .ok z' ∧ z.Under z' := by
  obtain ⟨z, e, zv, zl, -, zc⟩ := C45_clip hy.valid hy.dtype hb
  obtain ⟨z', e', zv', zl', -, zc'⟩ := C45_clip hw.valid hw.dtype hb
  refine ⟨z, z', e, e', ⟨by rw [zl, zl', h.label], fun names v u hv hu => ?_⟩⟩
  obtain ⟨a, ha⟩ := Holds_of_Named (x := y.x) (zl ▸ Named_of_Holds hv)
  obtain ⟨b, hb'⟩ := Holds_of_Named (x := w.x) (zl' ▸ Named_of_Holds hu)
  obtain ⟨c, v', hc, c1, s1⟩ := zc names a ha
  obtain ⟨d, u', hd', d1, s2⟩ := zc' names b hb'
  have ta := (typed_iff hy.valid).mp hy.typed names a ha
  have tb := (typed_iff hw.valid).mp hw.typed names b hb'
  rw [← hd] at s2 tb
  have hab := h.cells names a b ha hb'
  have hcd := clipped_mono hb hab c1 d1
  rw [Holds_unique zv.nodup hv hc, Holds_unique zv'.nodup hu hd']
  rcases hy.dtype with e1 | e1 | e1 <;> rw [e1] at s1 s2 ta tb
  · have s1 : v' = .flt c := s1
    have s2 : u' = .flt d := s2
    rw [s1, s2]; exact hcd
  · cases a with
    | int n =>
      cases b with
      | int m =>
        obtain ⟨p, rfl⟩ := c1.finite (hi' e1).1 (hi' e1).2 hb
        obtain ⟨q, rfl⟩ := d1.finite (hi' e1).1 (hi' e1).2 hb
        obtain ⟨i, rfl, t1⟩ := s1
        obtain ⟨j, rfl, t2⟩ := s2
        rcases hcd with ⟨hx, -⟩ | hpq
        · cases hx
        · refine .inr ?_
          have : i ≤ j := t1.mono t2 hpq
          show (i : ℚ) ≤ j
          exact_mod_cast this
      | _ => simp [Val.hasDType] at tb
    | _ => simp [Val.hasDType] at ta
  · cases a with
    | bool n =>
      cases b with
      | bool m =>
        obtain ⟨i, rfl, t1⟩ := s1
        obtain ⟨j, rfl, t2⟩ := s2
        refine .inr ?_
        have key : j = false → i = false := by
          intro hj
          have hd0 := t2.mp hj
          subst hd0
          rw [t1]
          cases n with
          | true =>
            cases m with
            | true => exact c1.unique d1
            | false =>
              rcases hab with ⟨hx, -⟩ | hx
              · cases hx
              · simp only [LeF, Val.num] at hx
                norm_num at hx
          | false =>
            have r := C45_range hb d1 (by cases m <;> simp [Val.num])
            have hz : (Val.bool false).num = .fin 0 := by simp [Val.num]
            rw [hz] at c1
            exact c1.2.1 r.1 r.2
        cases j with
        | true => cases i <;> simp [Val.num, LeF]
        | false => rw [key rfl]; simp [Val.num, LeF]
      | _ => simp [Val.hasDType] at tb
    | _ => simp [Val.hasDType] at ta

/-- C104. `clip` brings every number of a float larry between the bounds, and every number of an int larry if the bounds are whole. -/
theorem C104_clip_range {y : Larry L} (hy : y.Numeric) {lo hi : Flt} (hb : LeF lo hi)
    (hd : y.dtype = .float ∨ (y.dtype = .int ∧ WholeBounds lo hi)) :
    ∃ z, y.clip lo hi = .ok z ∧ ∀ names v, z.Has names v → v.num = .nan ∨ (LeF lo v.num ∧ LeF v.num hi) := by
  rcases hd with hd | ⟨hd, hwb⟩
  · obtain ⟨z, e, zv, zl, -, zc⟩ := C45_float hy.valid hd hb
    refine ⟨z, e, fun names v hv => ?_⟩
    obtain ⟨a, ha⟩ := Holds_of_Named (x := y.x) (zl ▸ Named_of_Holds hv)
    obtain ⟨c, hc, c1⟩ := zc names a ha
    rw [Holds_unique zv.nodup hv hc]
    by_cases hn : a.num = .nan
    · exact .inl (c1.1 hn)
    · exact .inr (C45_range hb c1 hn)
  · obtain ⟨z, e, zv, zl, -, zc⟩ := C45_int hy.valid hd hb hwb
    refine ⟨z, e, fun names v hv => ?_⟩
    obtain ⟨a, ha⟩ := Holds_of_Named (x := y.x) (zl ▸ Named_of_Holds hv)
    have ta := (typed_iff hy.valid).mp hy.typed names a ha
    rw [hd] at ta
    cases a with
    | int n =>
      obtain ⟨m, hm, c1⟩ := zc names n ha
      rw [Holds_unique zv.nodup hv hm]
      exact .inr (C45_range hb c1 (by simp))
    | _ => simp [Val.hasDType] at ta

/-! ## Where more cannot be said -/

/-- `larry([1., inf])`. -/
def exInfUp : Larry Nat := ⟨NDArray.ofList [2] [.flt (.fin 1), .flt .pinf], .float, [[0, 1]]⟩

/-- `larry([-inf, inf])`: below `exInfUp`. -/
def exInfBoth : Larry Nat := ⟨NDArray.ofList [2] [.flt .ninf, .flt .pinf], .float, [[0, 1]]⟩

theorem typed_cells {y : Larry Nat} (h : ∀ idx ∈ allIdx y.x.shape, (y.x.get idx).hasDType y.dtype = true) : y.Typed :=
  fun idx hidx => h idx (mem_allIdx.mpr hidx)

theorem under_cells {y w : Larry Nat} (hy : y.Valid) (hl : y.label = w.label)
    (h : ∀ idx ∈ allIdx y.x.shape, AtMost (y.x.get idx) (w.x.get idx)) : y.Under w := by
  refine ⟨hl, ?_⟩
  rintro names v u ⟨idx, hat, rfl⟩ ⟨idx', hat', rfl⟩
  have : idx' = idx := by
    rw [← hl] at hat'
    exact At_unique hy.nodup hat' hat
  subst this
  exact h _ (mem_allIdx.mpr (hy.shape_eq ▸ At_inB hat))

/-- C104. With infinities of both signs a sum is NaN, so that a smaller larry can have a NaN sum where a larger one has
a number: this is why `C104_grows` speaks only of places where both are numbers. -/
theorem C104_infinities : exInfBoth.Under exInfUp ∧ exInfBoth.Numeric ∧ exInfUp.Numeric ∧
    numberOf (exInfBoth.sum none) = some (.flt .nan) ∧ numberOf (exInfUp.sum none) = some (.flt .pinf) := by
  refine ⟨under_cells ⟨rfl, by decide, by decide⟩ rfl ?_, ⟨⟨rfl, by decide, by decide⟩,
    typed_cells (by decide +kernel), .inl rfl, by decide⟩, ⟨⟨rfl, by decide, by decide⟩, typed_cells (by decide +kernel),
    .inl rfl, by decide⟩, by decide +kernel, by decide +kernel⟩
  intro idx hidx
  have : idx = [0] ∨ idx = [1] := by
    revert hidx; revert idx; decide
  rcases this with rfl | rfl <;> exact .inr trivial

/-- C104. A variance can be negative: `larry([0., 2.]).var(ddof=3)` is `-2`. -/
theorem C104_negative_variance :
    numberOf ((⟨NDArray.ofList [2] [.flt (.fin 0), .flt (.fin 2)], .float, [[0, 1]]⟩ : Larry Nat).var none 3) =
      some (.flt (.fin (-2))) := by decide +kernel

/-! ### Cases -/

/-- `exMoving` with larger numbers. -/
def exMovingUp : Larry Nat :=
  ⟨NDArray.ofList [5] [.flt (.fin 2), .flt (.fin 2), .flt .nan, .flt (.fin 9), .flt (.fin 5)], .float, [[0, 1, 2, 3, 4]]⟩

theorem exMoving_numeric : exMoving.Numeric ∧ exMovingUp.Numeric :=
  ⟨⟨⟨rfl, by decide, by decide⟩, typed_cells (by decide +kernel), .inl rfl, by decide⟩,
    ⟨⟨rfl, by decide, by decide⟩, typed_cells (by decide +kernel), .inl rfl, by decide⟩⟩

theorem exMoving_under : exMoving.Under exMovingUp := by
  refine under_cells exMoving_numeric.1.valid rfl ?_
  intro idx hidx
  have : idx = [0] ∨ idx = [1] ∨ idx = [2] ∨ idx = [3] ∨ idx = [4] := by
    revert hidx; revert idx; decide
  rcases this with rfl | rfl | rfl | rfl | rfl
  · exact .inr (show (1 : ℚ) ≤ 2 by norm_num)
  · exact .inr (show (2 : ℚ) ≤ 2 by norm_num)
  · exact .inl ⟨rfl, rfl⟩
  · exact .inr (show (4 : ℚ) ≤ 9 by norm_num)
  · exact .inr (show (3 : ℚ) ≤ 5 by norm_num)

example : exMoving.NoInfinities := by
  rintro names v ⟨idx, hat, rfl⟩
  have hi := mem_allIdx.mpr (At_inB hat)
  clear hat
  revert idx
  decide +kernel
example : numberOf (exMoving.median none) = some (.flt (.fin (5 / 2))) ∧
    numberOf (exMovingUp.median none) = some (.flt (.fin (7 / 2))) := by constructor <;> decide +kernel
example : howMany [.flt (.fin 1), .flt .nan, .flt (.fin 3)] = 2 ∧ ¬ AllEqual [.flt (.fin 1), .flt .nan, .flt (.fin 3)] := by
  refine ⟨by decide +kernel, fun h => ?_⟩
  have := h (.flt (.fin 1)) (by simp) (.flt (.fin 3)) (by simp) (by simp [Val.num]) (by simp [Val.num])
  simp [Val.num] at this
example : LeF (.fin 1) (.fin 4) ∧ pyIdx exMoving.ndim (-1) = some 0 := ⟨show (1 : ℚ) ≤ 4 by norm_num, rfl⟩

end La
