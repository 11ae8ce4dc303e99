import Verif.Props.GroupStats
import Verif.Props.Ranking
import Verif.Props.ChunkMedian
import Verif.Props.MoveBn
import Verif.Props.Twice
import Mathlib.Tactic.LinearCombination
import Mathlib.Tactic.Set

/-!
# Property C130: rankings, demeaned and demedianed larrys are centred

What the statistics return for a larry that has been normalised: the average of ranks is the middle of their range, whatever the
ties, and the mean (median) of a demeaned (demedianed) larry is zero.
-/

namespace La
open Larry
variable {L : Type _}

/-! ## Specification -/

/-- `out` is the outcome of a reduction along `axis` for a larry with the labels of `y`; it is related by `P` to the values of
`y` on the same line. -/
def ForLines (y : Larry L) (axis : Option Int) (out : Res (Out L)) (P : List Val → Val → Prop) : Prop :=
  match axis with
  | none => ∃ vs v, AllValues y vs ∧ out = .ok (.scalar v) ∧ P vs v
  | some a => ∃ ax, pyIdx y.ndim a = some ax ∧
      ((y.ndim = 1 ∧ ∃ vs v, y.LineAt 0 [] vs ∧ out = .ok (.scalar v) ∧ P vs v) ∨
       (2 ≤ y.ndim ∧ ∃ z, out = .ok (.larry z) ∧ z.Valid ∧ z.dtype = .float ∧ z.label = y.label.eraseIdx ax ∧
        ∀ rest, Named z.label rest → ∃ vs v, y.LineAt ax rest vs ∧ z.Has rest v ∧ P vs v))

/-- `c` if there is anything on the line, NaN if there is nothing. -/
def AtLevel (c : ℚ) (vs : List Val) (v : Val) : Prop :=
  (v = .flt .nan ∧ ∀ x ∈ vs, x.num = .nan) ∨ (v = .flt (.fin c) ∧ ∃ x ∈ vs, x.num ≠ .nan)

/-! ## The sum of all ranks -/

theorem sum_scaled {α : Type _} (c : ℚ) (f : α → ℚ) (l : List α) : (l.map fun x => c * f x).sum = c * (l.map f).sum := by
  induction l with
  | nil => simp
  | cons a l ih => simp [ih, mul_add]

theorem sum_spread {α : Type _} (a b : ℚ) (f : α → ℚ) (l : List α) :
    (l.map fun x => a + b * f x).sum = l.length * a + b * (l.map f).sum := by
  induction l with
  | nil => simp
  | cons x l ih =>
    simp only [List.map_cons, List.sum_cons, ih, List.length_cons, Nat.cast_add, Nat.cast_one]
    ring

/-- The numbers of a line in which NaN stays NaN. -/
theorem kept_numbers (f : Flt → ℚ) (xs : List Flt) :
    (xs.map fun x => if x = .nan then Flt.nan else .fin (f x)).filter (· ≠ .nan) = ((present xs).map f).map Flt.fin := by
  rw [present]
  induction xs with
  | nil => rfl
  | cons x xs ih => by_cases hx : x = .nan <;> simp_all

theorem swap_count {α β : Type _} (R : α → β → Prop) [∀ a b, Decidable (R a b)] (l : List α) (m : List β) :
    (l.map fun x => ((m.filter fun y => R x y).length : ℚ)).sum = (m.map fun y => ((l.filter fun x => R x y).length : ℚ)).sum := by
  induction l with
  | nil => simp
  | cons a l ih =>
    have : (m.map fun y => (((a :: l).filter fun x => R x y).length : ℚ)).sum =
        ((m.filter fun y => R a y).length : ℚ) + (m.map fun y => ((l.filter fun x => R x y).length : ℚ)).sum := by
      clear ih
      induction m with
      | nil => simp
      | cons b m ih =>
        simp only [List.map_cons, List.sum_cons, ih]
        by_cases h : R a b
        · simp [h]; ring
        · simp [h]; ring
    rw [this, List.map_cons, List.sum_cons, ih]

theorem three_ways {x : Flt} (hx : x ≠ .nan) (l : List Flt) (hl : ∀ y ∈ l, y ≠ .nan) :
    (l.filter fun y => LtX y x).length + (l.filter fun y => EqX y x).length + (l.filter fun y => LtX x y).length = l.length := by
  induction l with
  | nil => rfl
  | cons y l ih =>
    have ih := ih fun z hz => hl z (List.mem_cons_of_mem _ hz)
    have hy := hl y (List.mem_cons_self ..)
    have : (LtX y x ∧ ¬ EqX y x ∧ ¬ LtX x y) ∨ (¬ LtX y x ∧ EqX y x ∧ ¬ LtX x y) ∨ (¬ LtX y x ∧ ¬ EqX y x ∧ LtX x y) := by
      cases x <;> cases y <;> simp_all [LtX, EqX]
      rename_i p q
      rcases lt_trichotomy p q with h | h | h
      · exact .inr (.inr ⟨h.le, h.ne', h⟩)
      · exact .inr (.inl ⟨h.le, h.symm, h.ge⟩)
      · exact .inl ⟨h, h.ne, h.le⟩
    rcases this with ⟨h1, h2, h3⟩ | ⟨h1, h2, h3⟩ | ⟨h1, h2, h3⟩ <;> simp [h1, h2, h3] <;> omega

theorem filter_present {P : Flt → Prop} [DecidablePred P] (h : ∀ x, P x → x ≠ .nan) (xs : List Flt) :
    xs.filter (fun y => P y) = (present xs).filter (fun y => P y) := by
  rw [present, List.filter_filter]
  refine List.filter_congr fun x _ => ?_
  by_cases hp : P x
  · simp [hp, h x hp]
  · simp [hp]

/-- All ranks from zero to one less than the number of values, on average the middle of it. -/
theorem rank_sum (xs : List Flt) :
    2 * ((present xs).map (rank0 xs)).sum = (present xs).length * (((present xs).length : ℚ) - 1) := by
  have hp : ∀ y ∈ present xs, y ≠ .nan := fun y hy => by simpa [present] using (List.mem_filter.mp hy).2
  have e1 : ∀ x, xs.filter (fun y => LtX y x) = (present xs).filter (fun y => LtX y x) := fun x =>
    filter_present (fun y h => h.ne_nan.1) xs
  have e2 : ∀ x, xs.filter (fun y => EqX y x) = (present xs).filter (fun y => EqX y x) := fun x =>
    filter_present (fun y h => h.2) xs
  have hs := swap_count (fun x y => LtX x y) (present xs) (present xs)
  have h1 : ((present xs).map fun x => 2 * rank0 xs x).sum =
      ((present xs).map fun x => ((present xs).length : ℚ) - 1).sum +
        (((present xs).map fun x => (((present xs).filter fun y => LtX y x).length : ℚ)).sum -
          ((present xs).map fun x => (((present xs).filter fun y => LtX x y).length : ℚ)).sum) := by
    have : ∀ l : List Flt, (∀ y ∈ l, y ≠ .nan) → (l.map fun x => 2 * rank0 xs x).sum =
      (l.map fun x => ((present xs).length : ℚ) - 1).sum +
        ((l.map fun x => (((present xs).filter fun y => LtX y x).length : ℚ)).sum -
          (l.map fun x => (((present xs).filter fun y => LtX x y).length : ℚ)).sum) := by
      intro l hl
      induction l with
      | nil => simp
      | cons x l ih =>
        have hx := hl x (List.mem_cons_self ..)
        have k := three_ways hx (present xs) hp
        have k' : (((present xs).filter fun y => LtX y x).length : ℚ) + (((present xs).filter fun y => EqX y x).length : ℚ) +
          (((present xs).filter fun y => LtX x y).length : ℚ) = ((present xs).length : ℚ) := by exact_mod_cast k
        simp only [List.map_cons, List.sum_cons]
        rw [ih fun z hz => hl z (List.mem_cons_of_mem _ hz), rank0, e1, e2]
        linarith
    exact this _ hp
  rw [← hs, sub_self, add_zero, List.map_const', List.sum_replicate, nsmul_eq_mul] at h1
  rw [← h1, sum_scaled]

/-- The numbers of a line of ranks. -/
theorem ranked_numbers {lo hi mid : ℚ} (hm : 2 * mid = lo + hi) {vs ws : List Val} (h : RankedLine lo hi mid vs ws) :
    ∃ qs : List ℚ, (ws.map Val.num).filter (· ≠ .nan) = qs.map .fin ∧ qs.length = (present (vs.map Val.num)).length ∧
      qs.sum = qs.length * mid := by
  obtain ⟨hlen, hc⟩ := h
  by_cases h1 : (present (vs.map Val.num)).length = 1
  · refine ⟨(present (vs.map Val.num)).map fun _ => mid, ?_, by simp, by simp [h1]⟩
    have : ws.map Val.num = (vs.map Val.num).map fun x => if x = .nan then .nan else .fin mid := by
      refine List.ext_getElem (by simp [hlen]) fun i hi hi' => ?_
      simp only [List.length_map] at hi hi'
      obtain ⟨c1, c2, -⟩ := hc i vs[i] ws[i] (List.getElem?_eq_getElem (by simpa using hi')) (List.getElem?_eq_getElem hi)
      simp only [List.getElem_map]
      by_cases hn : (vs[i]'(by simpa using hi')).num = .nan
      · rw [c1 hn, if_pos hn]; rfl
      · rw [c2 hn h1, if_neg hn]; rfl
    rw [this]
    exact kept_numbers (fun _ => mid) _
  · refine ⟨(present (vs.map Val.num)).map fun x => lo + (hi - lo) * (rank0 (vs.map Val.num) x /
        (((present (vs.map Val.num)).length : ℚ) - 1)), ?_, by simp, ?_⟩
    · have : ws.map Val.num = (vs.map Val.num).map fun x => if x = .nan then .nan else .fin (lo + (hi - lo) *
          (rank0 (vs.map Val.num) x / (((present (vs.map Val.num)).length : ℚ) - 1))) := by
        refine List.ext_getElem (by simp [hlen]) fun i hi hi' => ?_
        simp only [List.length_map] at hi hi'
        obtain ⟨c1, -, c3⟩ := hc i vs[i] ws[i] (List.getElem?_eq_getElem (by simpa using hi')) (List.getElem?_eq_getElem hi)
        simp only [List.getElem_map]
        by_cases hn : (vs[i]'(by simpa using hi')).num = .nan
        · rw [c1 hn, if_pos hn]; rfl
        · rw [c3 hn h1, if_neg hn]; rfl
      rw [this]
      exact kept_numbers _ _
    · have hr := rank_sum (vs.map Val.num)
      set p := present (vs.map Val.num)
      have hc0 : (p.length : ℚ) - 1 ≠ 0 := by
        intro e
        have : (p.length : ℚ) = 1 := by linarith
        exact h1 (by exact_mod_cast this)
      rw [sum_spread, List.length_map]
      have e : (p.map fun x => rank0 (vs.map Val.num) x / ((p.length : ℚ) - 1)).sum = p.length / 2 := by
        have := sum_scaled (((p.length : ℚ) - 1)⁻¹) (rank0 (vs.map Val.num)) p
        simp only [div_eq_inv_mul]
        rw [this]
        field_simp
        linarith
      rw [e]
      linear_combination (-(p.length : ℚ) / 2) * hm

/-! ## From lines to larrys -/

theorem allValues_unique {y : Larry L} (hv : y.Valid) {vs vs' : List Val} (h : AllValues y vs) (h' : AllValues y vs') : vs = vs' := by
  refine List.ext_getElem? fun p => ?_
  rcases Nat.lt_or_ge p y.shape.prod with hp | hp
  · obtain ⟨idx, hi, rfl⟩ := rowMajor_surj hp
    have hi' : InB (y.label.map List.length) idx := by rw [← hv.shape_eq]; exact hi
    obtain ⟨names, hn⟩ := At_of_inB hi'
    rw [h.2 idx names _ hn ⟨idx, hn, rfl⟩, h'.2 idx names _ hn ⟨idx, hn, rfl⟩]
  · rw [List.getElem?_eq_none (by rw [h.1]; exact hp), List.getElem?_eq_none (by rw [h'.1]; exact hp)]

/-- `z` has the labels of `y`, is float and its lines are related by `T` to those of `y`. -/
structure LineByLine (y z : Larry L) (axis : Option Int) (T : List Val → List Val → Prop) : Prop where
  valid : z.Valid
  label : z.label = y.label
  dtype : z.dtype = .float
  all : axis = none → ∃ vs ws, AllValues y vs ∧ AllValues z ws ∧ T vs ws
  line : ∀ a, axis = some a → ∃ ax, pyIdx y.ndim a = some ax ∧ ∀ rest vs ws, Named (y.label.eraseIdx ax) rest →
    y.LineAt ax rest vs → z.LineAt ax rest ws → T vs ws

theorem lineByLine_axis {y z : Larry L} {a : Int} {ax : Nat} (hax : pyIdx y.ndim a = some ax) {T : List Val → List Val → Prop}
    (hd : z.dtype = .float) (h : y.AlongLine z ax T) : LineByLine y z (some a) T :=
  ⟨h.valid, h.label_eq, hd, (fun e => nomatch e), fun b e => by cases e; exact ⟨ax, hax, h.line⟩⟩

theorem lineByLine_all {y z : Larry L} (hv : y.Valid) {T : List Val → List Val → Prop} (hd : z.dtype = .float) (h : y.AlongAllLine z T) :
    LineByLine y z none T := by
  refine ⟨h.valid, h.label_eq, hd, fun _ => ?_, fun b e => nomatch e⟩
  obtain ⟨vs, ws, hT, h1, h2, h3, h4⟩ := h.line
  have hs : z.shape = y.shape := by show z.x.shape = y.x.shape; rw [hv.shape_eq, h.valid.shape_eq, h.label_eq]
  exact ⟨vs, ws, ⟨h1, h3⟩, ⟨by rw [hs]; exact h2, by rw [hs, h.label_eq]; exact h4⟩, hT⟩

theorem allValues_mem {y : Larry L} (hv : y.Valid) {vs : List Val} (h : AllValues y vs) {v : Val} (hm : v ∈ vs) :
    ∃ names, y.Has names v := by
  rw [allValues_unique hv h (vals_all hv)] at hm
  obtain ⟨idx, hi, rfl⟩ := List.mem_map.mp hm
  rw [mem_allIdx, hv.shape_eq] at hi
  obtain ⟨names, hn⟩ := At_of_inB hi
  exact ⟨names, idx, hn, rfl⟩

theorem has_mem_all {y : Larry L} {vs : List Val} (h : AllValues y vs) {names : List L} {v : Val} (hh : y.Has names v) : v ∈ vs := by
  obtain ⟨idx, hi, e⟩ := hh
  exact List.mem_of_getElem? (h.2 idx names v hi ⟨idx, hi, e⟩)

theorem LineByLine.typed {y z : Larry L} (hy : y.Valid) {axis : Option Int} {T : List Val → List Val → Prop} (h : LineByLine y z axis T)
    (hT : ∀ vs ws, T vs ws → ∀ w ∈ ws, ∃ f, w = .flt f) : z.Typed := by
  rw [typed_iff h.valid, h.dtype]
  intro names v hh
  suffices ∃ f, v = .flt f by obtain ⟨f, rfl⟩ := this; rfl
  cases axis with
  | none =>
    obtain ⟨vs, ws, h1, h2, h3⟩ := h.all rfl
    exact hT _ _ h3 _ (has_mem_all h2 hh)
  | some a =>
    obtain ⟨ax, hax, hl⟩ := h.line a rfl
    obtain ⟨l, hlab, -⟩ := label_at hy hax
    have hlab' : z.label[ax]? = some l := by rw [h.label]; exact hlab
    obtain ⟨i, b, rest, hi, hr, rfl⟩ := named_split hlab' (Named_of_Holds hh)
    have hr' : Named (y.label.eraseIdx ax) rest := by rw [← h.label]; exact hr
    refine hT _ _ (hl rest _ _ hr' (lineAt_of hy hlab hr') (lineAt_of h.valid hlab' hr)) _ ?_
    refine List.mem_map.mpr ⟨b, List.mem_of_getElem? hi, ?_⟩
    exact valueAt_of h.valid hh

/-- A statistic of a larry that was made line by line. -/
theorem LineByLine.stat {y z : Larry L} (hy : y.Valid) {axis : Option Int} {T : List Val → List Val → Prop} (h : LineByLine y z axis T)
    {m : Option Int → Res (Out L)} {S P : List Val → Val → Prop} (hm : Computes m S .float z)
    (key : ∀ vs ws v, T vs ws → S ws v → P vs v) : ForLines y axis (m axis) P := by
  have hnd : z.ndim = y.ndim := by rw [← h.valid.label_length, ← hy.label_length, h.label]
  cases axis with
  | none =>
    obtain ⟨vs, ws, h1, h2, h3⟩ := h.all rfl
    obtain ⟨ws', v, h4, h5, h6⟩ := hm.1
    obtain rfl := allValues_unique h.valid h2 h4
    exact ⟨vs, v, h1, h5, key _ _ _ h3 h6⟩
  | some a =>
    obtain ⟨ax, hax, hl⟩ := h.line a rfl
    obtain ⟨l, hlab, hlt⟩ := label_at hy hax
    have hlab' : z.label[ax]? = some l := by rw [h.label]; exact hlab
    refine ⟨ax, hax, ?_⟩
    have hpos : ax < y.ndim := pyIdx_lt hax
    rcases Nat.lt_or_ge y.ndim 2 with h1 | h2
    · have h1 : y.ndim = 1 := by omega
      have hax0 : ax = 0 := by omega
      subst hax0
      have ha : a = 0 ∨ a = -1 := by
        have := hax
        rw [h1] at this
        simp only [pyIdx] at this
        split at this
        · simp at this; omega
        · split at this
          · simp at this; omega
          · cases this
      obtain ⟨ws, v, q1, q2, q3⟩ := hm.2.1 a (by rw [hnd]; exact h1) ha
      have he : y.label.eraseIdx 0 = [] := by
        have : y.label.length = 1 := by rw [hy.label_length]; exact h1
        match hq : y.label, this with
        | [_], _ => rfl
      have hN : Named (y.label.eraseIdx 0) [] := by rw [he]; trivial
      have hline := lineAt_of hy hlab hN
      exact .inl ⟨h1, _, v, hline, q2, key _ _ _ (hl [] _ _ hN hline q1) q3⟩
    · obtain ⟨w, q1, q2, q3, q4, q5⟩ := hm.2.2 a ax (by rw [hnd]; exact h2) (by rw [hnd]; exact hax)
      rw [h.label] at q4
      refine .inr ⟨h2, w, q1, q2, q3, q4, fun rest hr => ?_⟩
      obtain ⟨ws, v, r1, r2, r3⟩ := q5 rest hr
      have hr' : Named (y.label.eraseIdx ax) rest := by rw [← q4]; exact hr
      have hline := lineAt_of hy hlab hr'
      exact ⟨_, v, hline, r2, key _ _ _ (hl rest _ _ hr' hline r1) r3⟩

theorem sumIs_same {fs : List Flt} {a b : Flt} (h : SumIs fs a) (h' : SumIs fs b) : a = b :=
  (sumIs_eq h).trans (sumIs_eq h').symm

/-- The centre of numbers that add up to the middle of their range. -/
theorem level_mean {mid : ℚ} {vs ws : List Val} {qs : List ℚ} (h1 : (ws.map Val.num).filter (· ≠ .nan) = qs.map .fin)
    (h2 : qs.length = (present (vs.map Val.num)).length) (h3 : qs.sum = qs.length * mid) {m : Flt} (hm : MeanIs (ws.map Val.num) m) :
    AtLevel mid vs (.flt m) := by
  by_cases h0 : qs = []
  · subst h0
    refine .inl ⟨?_, fun x hx => ?_⟩
    · rw [meanIs_unique hm (.none fun f hf => ?_)]
      by_contra hn
      have : f ∈ (ws.map Val.num).filter (· ≠ .nan) := List.mem_filter.mpr ⟨hf, by simpa using hn⟩
      rw [h1] at this
      cases this
    · by_contra hn
      have : x.num ∈ present (vs.map Val.num) := List.mem_filter.mpr ⟨List.mem_map_of_mem hx, by simpa using hn⟩
      rw [List.length_eq_zero_iff.mp h2.symm] at this
      cases this
  · have hl : (qs.length : ℚ) ≠ 0 := by simpa using h0
    refine .inr ⟨?_, ?_⟩
    · rw [meanIs_unique hm (.finite qs h0 h1), h3, mul_div_cancel_left₀ _ hl]
    · have : 0 < (present (vs.map Val.num)).length := by rw [← h2]; exact List.length_pos_iff.mpr h0
      obtain ⟨x, hx⟩ := List.exists_mem_of_length_pos this
      obtain ⟨hx1, hx2⟩ := List.mem_filter.mp hx
      obtain ⟨v, hv, rfl⟩ := List.mem_map.mp hx1
      exact ⟨v, hv, by simpa using hx2⟩

theorem level_sum {vs ws : List Val} {qs : List ℚ} (h1 : (ws.map Val.num).filter (· ≠ .nan) = qs.map .fin)
    (h2 : qs.length = (present (vs.map Val.num)).length) (h3 : qs.sum = 0) {m : Flt} (hm : SumIs (ws.map Val.num) m) :
    AtLevel 0 vs (.flt m) := by
  have hn : MeanIs (ws.map Val.num) m := by
    by_cases h0 : qs = []
    · subst h0
      have hall : ∀ f ∈ ws.map Val.num, f = .nan := fun f hf => by
        by_contra hn
        have : f ∈ (ws.map Val.num).filter (· ≠ .nan) := List.mem_filter.mpr ⟨hf, by simpa using hn⟩
        rw [h1] at this
        cases this
      rw [sumIs_same hm (.none hall)]
      exact .none hall
    · have := MeanIs.finite (fs := ws.map Val.num) qs h0 h1
      rwa [h3, zero_div, ← h3, ← sumIs_same hm (.finite qs h0 h1)] at this
  exact level_mean h1 h2 (by rw [h3, mul_zero]) hn

theorem ranked_floats {lo hi mid : ℚ} {vs ws : List Val} (h : RankedLine lo hi mid vs ws) : ∀ w ∈ ws, ∃ f, w = .flt f := by
  intro w hw
  obtain ⟨i, hi⟩ := List.mem_iff_getElem?.mp hw
  have hlt : i < vs.length := by rw [← h.1]; exact (List.getElem?_eq_some_iff.mp hi).1
  obtain ⟨c1, c2, c3⟩ := h.2 i vs[i] w (List.getElem?_eq_getElem hlt) hi
  by_cases hn : vs[i].num = .nan
  · exact ⟨_, c1 hn⟩
  · by_cases h1 : (present (vs.map Val.num)).length = 1
    · exact ⟨_, c2 hn h1⟩
    · exact ⟨_, c3 hn h1⟩

theorem number_of {y : Larry L} (hy : y.Numeric) : y.dtype ≠ .str ∧ y.dtype ≠ .object := by
  rcases hy.dtype with h | h | h <;> rw [h] <;> decide

theorem ranking_lines {y z : Larry L} (hy : y.Numeric) {axis : Option Int} (h : y.ranking axis .pm1 = .ok z) :
    LineByLine y z axis (RankedLine (-1) 1 0) := by
  cases axis with
  | none =>
    obtain ⟨z', e, hd, hz⟩ := C48_ranking_all hy.valid (number_of hy)
    rw [h] at e
    cases e
    exact lineByLine_all hy.valid hd hz
  | some a =>
    cases hax : pyIdx y.ndim a with
    | none =>
      simp only [ranking, hax] at h
      split at h <;> cases h
    | some ax =>
      obtain ⟨z', e, hd, hz⟩ := C48_ranking hy.valid (number_of hy) hax
      rw [h] at e
      cases e
      exact lineByLine_axis hax hd hz

theorem LineByLine.elements {y z : Larry L} {axis : Option Int} {T : List Val → List Val → Prop} (h : LineByLine y z axis T) (hy : y.Numeric) :
    z.shape.prod ≠ 0 := by
  have hs : z.shape = y.shape := by show z.x.shape = y.x.shape; rw [hy.valid.shape_eq, h.valid.shape_eq, h.label]
  rw [hs]
  exact hy.elements

/-- C130. The ranks of norm `'-1,1'` add up to zero on every line, whatever the ties and the NaN. -/
theorem C130_ranking {y z : Larry L} (hy : y.Numeric) {axis : Option Int} (h : y.ranking axis .pm1 = .ok z) :
    ForLines y axis (z.mean axis) (AtLevel 0) ∧ ForLines y axis (z.sum axis) (AtLevel 0) := by
  have hl := ranking_lines hy h
  have ht := hl.typed hy.valid fun vs ws => ranked_floats
  have hs := C91_sum hl.valid ht (hl.elements hy) (.inl hl.dtype)
  rw [hl.dtype, if_pos rfl] at hs
  refine ⟨hl.stat hy.valid (C91_mean hl.valid ht (hl.elements hy) (.inl hl.dtype)) ?_, hl.stat hy.valid hs ?_⟩
  · rintro vs ws v hT ⟨m, rfl, hm⟩
    obtain ⟨qs, h1, h2, h3⟩ := ranked_numbers (by norm_num) hT
    exact level_mean h1 h2 h3 hm
  · rintro vs ws v hT ⟨m, rfl, hm⟩
    obtain ⟨qs, h1, h2, h3⟩ := ranked_numbers (by norm_num) hT
    exact level_sum h1 h2 (by rw [h3, mul_zero]) hm

/-- C130. With norm `'0,N-1'` their mean is the middle, `(N-1)/2`, where `N` is the length of the line, NaN included. -/
theorem C130_ranking_n1 {y z : Larry L} (hy : y.Numeric) {axis : Option Int} (h : y.ranking axis .n1 = .ok z) :
    ForLines y axis (z.mean axis) (fun vs v => AtLevel (((vs.length : ℚ) - 1) / 2) vs v) := by
  have hl : LineByLine y z axis (fun vs ws => RankedLine 0 ((vs.length : ℚ) - 1) (((vs.length : ℚ) - 1) / 2) vs ws) := by
    cases axis with
    | none =>
      obtain ⟨z', e, hd, hz⟩ := C48_ranking_n1_all hy.valid (number_of hy)
      rw [h] at e
      cases e
      exact lineByLine_all hy.valid hd hz
    | some a =>
      cases hax : pyIdx y.ndim a with
      | none =>
      simp only [ranking, hax] at h
      split at h <;> cases h
      | some ax =>
        obtain ⟨z', e, hd, hz⟩ := C48_ranking_n1 hy.valid (number_of hy) hax
        rw [h] at e
        cases e
        exact lineByLine_axis hax hd hz
  have ht := hl.typed hy.valid fun vs ws => ranked_floats
  refine hl.stat hy.valid (C91_mean hl.valid ht (hl.elements hy) (.inl hl.dtype)) ?_
  rintro vs ws v hT ⟨m, rfl, hm⟩
  obtain ⟨qs, h1, h2, h3⟩ := ranked_numbers (by ring) hT
  exact level_mean h1 h2 h3 hm

/-! ## demean and demedian -/

theorem alongBy_lines {y z : Larry L} (hy : y.Numeric) {f : List Val → List Val} (hf : ∀ vs, (f vs).length = vs.length) {axis : Option Int}
    (h : (match axis with
      | none => .ok (y.alongAll f .float)
      | some axis => match npAxis y.ndim axis with
        | .error e => .error e
        | .ok ax => .ok (y.along f .float ax)) = (.ok z : Res (Larry L))) :
    LineByLine y z axis (fun vs ws => ws = f vs ∧ ∀ v ∈ vs, ∃ names, y.Has names v) := by
  cases axis with
  | none =>
    cases h
    have := lineByLine_all hy.valid rfl (alongAllLine_spec hy.valid f .float (S := fun vs ws => ws = f vs) hf fun vs => rfl)
    refine ⟨this.valid, this.label, this.dtype, fun e => ?_, (fun _ e => nomatch e)⟩
    obtain ⟨vs, ws, h1, h2, h3⟩ := this.all e
    exact ⟨vs, ws, h1, h2, h3, fun v hv => allValues_mem hy.valid h1 hv⟩
  | some a =>
    cases hax : pyIdx y.ndim a with
    | none => simp [npAxis, hax] at h
    | some ax =>
      simp only [npAxis, hax] at h
      cases h
      obtain ⟨l, hlab, -⟩ := label_at hy.valid hax
      refine lineByLine_axis hax rfl ?_
      have := alongLine_mapLines hy.valid hlab f .float (S := fun vs ws => ws = f vs) hf fun vs => rfl
      exact ⟨this.valid, this.label_eq, fun rest vs ws h1 h2 h3 => ⟨this.line rest vs ws h1 h2 h3, fun v hv => line_mem_has h2 hv⟩⟩

theorem units_less (q : ℚ) (x : Flt) : x.units 1 (-q) = x.sub (.fin q) := by
  cases x with
  | fin p => rw [units_fin]; simp [Flt.sub, Flt.neg, Flt.add]
  | nan => rfl
  | pinf => rw [units_pinf one_ne_zero, if_pos one_pos]; rfl
  | ninf => rw [units_ninf one_ne_zero, if_pos one_pos]; rfl

theorem centred_line (c : GroupCenter) {vs : List Val} (hi : NoInf (vs.map Val.num)) {m : Flt}
    (hm : c.statistic.Is ((demeanLine c.of vs).map Val.num) m) : AtLevel 0 vs (.flt m) := by
  have hu : c.statistic.Is ((demeanLine c.of vs).map Val.num) (c.of ((demeanLine c.of vs).map Val.num)) := c.is _
  have hmu : m = c.of ((demeanLine c.of vs).map Val.num) := by
    cases c
    · exact meanIs_unique hm hu
    · exact medianIs_unique hm hu
  subst hmu
  have hw : (demeanLine c.of vs).map Val.num = (vs.map Val.num).map fun x => x.sub (c.of (vs.map Val.num)) := by
    simp [demeanLine, Val.num]
  rcases c.finite hi with hn | ⟨q, hq⟩
  · refine .inl ⟨?_, fun x hx => (stat_nan c.statistic hi (c.is _)).mp hn _ (List.mem_map_of_mem hx)⟩
    rw [c.all_nan fun f hf => ?_]
    rw [hw, hn] at hf
    obtain ⟨x, -, rfl⟩ := List.mem_map.mp hf
    cases x <;> rfl
  · refine .inr ⟨?_, ?_⟩
    · rw [hw, hq, ← funext (units_less q), c.moves 1 (-q) one_ne_zero, hq, units_fin]
      norm_num
    · by_contra hno
      have : c.of (vs.map Val.num) = .nan := c.all_nan fun f hf => by
        obtain ⟨v, hv, rfl⟩ := List.mem_map.mp hf
        by_contra h0
        exact hno ⟨v, hv, h0⟩
      rw [hq] at this
      cases this

theorem center_computes (c : GroupCenter) {z : Larry L} (hv : z.Valid) (ht : z.Typed) (hsz : z.shape.prod ≠ 0)
    (hd : z.dtype = .float ∨ z.dtype = .int ∨ z.dtype = .bool) :
    Computes (fun axis => c.statistic.of z axis) (fun vs v => ∃ m, v = .flt m ∧ c.statistic.Is (vs.map Val.num) m) .float z := by
  cases c
  · exact C91_mean hv ht hsz hd
  · exact C91_median hv ht hsz hd

/-- C130. The mean of a demeaned larry and the median of a demedianed one are zero on every line. -/
theorem C130_centred (c : GroupCenter) {y z : Larry L} (hy : y.Numeric) (hi : y.NoInfinities) {axis : Option Int}
    (h : y.demean c.of axis = .ok z) : ForLines y axis (c.statistic.of z axis) (AtLevel 0) := by
  have hd : y.dtype.isNumeric = true := by rcases hy.dtype with h | h | h <;> rw [h] <;> rfl
  unfold Larry.demean at h
  rw [if_neg (by rw [hd]; simp)] at h
  have hl := alongBy_lines hy (f := demeanLine c.of) (fun vs => by simp [demeanLine]) h
  have ht := hl.typed hy.valid (by
    rintro vs ws ⟨rfl, -⟩ w hw
    obtain ⟨v, -, rfl⟩ := List.mem_map.mp hw
    exact ⟨_, rfl⟩)
  refine hl.stat hy.valid (center_computes c hl.valid ht (hl.elements hy) (.inl hl.dtype)) ?_
  rintro vs ws v ⟨rfl, hh⟩ ⟨m, rfl, hm⟩
  exact centred_line c (line_noInf hi hh) hm

/-! ## zscore -/

/-- What a statistic of a z-scored line is: `c` where the standard deviation is a number other than zero, NaN where it is zero
and where there is nothing on the line.  `root` is the square root of a float. -/
structure Standard (root : Flt → Flt) (c : ℚ) (vs : List Val) (v : Val) : Prop where
  spread : ∀ q s : ℚ, VarIs 0 (vs.map Val.num) (.fin q) → root (.fin q) = .fin s → s * s = q → q ≠ 0 → v = .flt (.fin c)
  constant : VarIs 0 (vs.map Val.num) (.fin 0) → root (.fin 0) = .fin 0 → v = .flt .nan
  missing : (∀ x ∈ vs, x.num = .nan) → v = .flt .nan

theorem zscore_nums (std : List Flt → Flt) (vs : List Val) :
    (zscoreLine std vs).map Val.num = ((vs.map Val.num).map fun x => x.sub (nanmean (vs.map Val.num))).map fun x =>
      x.div (std ((vs.map Val.num).map fun x => x.sub (nanmean (vs.map Val.num)))) := by
  simp [zscoreLine, demeanLine, Val.num, Function.comp_def]

theorem spread_units {s : ℚ} (hs : s ≠ 0) (q : ℚ) (x : Flt) (hx : x ≠ .pinf ∧ x ≠ .ninf) :
    (x.sub (.fin q)).div (.fin s) = x.units (1 / s) (-q / s) := by
  cases x with
  | fin p =>
    rw [units_fin]
    simp only [Flt.sub, Flt.neg, Flt.add, Flt.div, if_neg hs]
    congr 1
    field_simp
  | nan => rfl
  | pinf => exact absurd rfl hx.1
  | ninf => exact absurd rfl hx.2

/-- A variance that is a number needs a mean that is one. -/
theorem mean_of_var {fs : List Flt} {q : ℚ} (h : VarIs 0 fs (.fin q)) : NoInf fs ∧ ∃ (qs : List ℚ) (m : ℚ), qs ≠ [] ∧
    fs.filter (· ≠ .nan) = qs.map .fin ∧ nanmean fs = .fin m ∧ q = (qs.map fun p => (p - m) * (p - m)).sum / qs.length := by
  cases h with
  | finite qs m hne hf hm hd =>
    refine ⟨fun x hx => ?_, qs, m, hne, hf, ?_, by simp⟩
    · constructor <;> rintro rfl
      · have : Flt.pinf ∈ fs.filter (· ≠ .nan) := List.mem_filter.mpr ⟨hx, by simp⟩
        rw [hf] at this
        simp at this
      · have : Flt.ninf ∈ fs.filter (· ≠ .nan) := List.mem_filter.mpr ⟨hx, by simp⟩
        rw [hf] at this
        simp at this
    · have hl : (qs.length : ℚ) ≠ 0 := by simpa using hne
      rw [meanIs_unique (mean_is fs) (.finite qs hne hf), ← hm, mul_div_cancel_right₀ _ hl]

theorem squares_zero {qs : List ℚ} {m : ℚ} (h : (qs.map fun p => (p - m) * (p - m)).sum = 0) : ∀ p ∈ qs, p = m := by
  induction qs with
  | nil => intro p hp; cases hp
  | cons a qs ih =>
    have hn : ∀ l : List ℚ, 0 ≤ (l.map fun p => (p - m) * (p - m)).sum := fun l =>
      List.sum_nonneg (by simp only [List.mem_map]; rintro _ ⟨p, -, rfl⟩; exact mul_self_nonneg _)
    rw [List.map_cons, List.sum_cons] at h
    have h1 := mul_self_nonneg (a - m)
    have h2 := hn qs
    have h3 : (a - m) * (a - m) = 0 := by linarith
    have h4 : (qs.map fun p => (p - m) * (p - m)).sum = 0 := by linarith
    intro p hp
    rcases List.mem_cons.mp hp with rfl | hp
    · have := mul_self_eq_zero.mp h3
      linarith
    · exact ih h4 p hp

theorem zscore_spread {root : Flt → Flt} {vs : List Val} {q s : ℚ} (h : VarIs 0 (vs.map Val.num) (.fin q)) (hr : root (.fin q) = .fin s)
    (hs : s * s = q) (hq : q ≠ 0) :
    nanmean ((zscoreLine (fun xs => root (varOf 0 xs)) vs).map Val.num) = .fin 0 ∧
    varOf 0 ((zscoreLine (fun xs => root (varOf 0 xs)) vs).map Val.num) = .fin 1 := by
  obtain ⟨hi, qs, m, -, -, hm, -⟩ := mean_of_var h
  have hs0 : s ≠ 0 := by rintro rfl; exact hq (by rw [← hs, mul_zero])
  have hv : varOf 0 (vs.map Val.num) = .fin q := varIs_unique (var_is 0 _) h
  have e1 : (vs.map Val.num).map (fun x => x.sub (.fin m)) = (vs.map Val.num).map (Flt.units 1 (-m)) := by
    rw [funext (units_less m)]
  have e : (zscoreLine (fun xs => root (varOf 0 xs)) vs).map Val.num = (vs.map Val.num).map (Flt.units (1 / s) (-m / s)) := by
    rw [zscore_nums, hm, e1, varOf_units one_ne_zero, hv, units_fin, mul_one, one_mul, add_zero, hr, ← e1, List.map_map]
    exact List.map_congr_left fun x hx => spread_units hs0 m x (hi x hx)
  have h1 : (1 / s : ℚ) ≠ 0 := one_div_ne_zero hs0
  rw [e, nanmean_moves _ _ h1, hm, varOf_units h1, hv, units_fin, units_fin]
  constructor
  · congr 1
    field_simp
    ring
  · congr 1
    rw [← hs]
    field_simp
    ring

theorem zscore_none {root : Flt → Flt} {vs : List Val} (h : (∀ x ∈ vs, x.num = .nan) ∨
    VarIs 0 (vs.map Val.num) (.fin 0) ∧ root (.fin 0) = .fin 0) :
    ∀ f ∈ (zscoreLine (fun xs => root (varOf 0 xs)) vs).map Val.num, f = .nan := by
  intro f hf
  rw [zscore_nums, List.map_map] at hf
  obtain ⟨x, hx, rfl⟩ := List.mem_map.mp hf
  rcases h with h | ⟨h, hr⟩
  · obtain ⟨v, hv, rfl⟩ := List.mem_map.mp hx
    show (v.num.sub _).div _ = .nan
    rw [h v hv]
    rfl
  · obtain ⟨hi, qs, m, hne, hfil, hm, hq⟩ := mean_of_var h
    have hl : (qs.length : ℚ) ≠ 0 := by simpa using hne
    have hz := squares_zero ((div_eq_zero_iff.mp hq.symm).resolve_right hl)
    have hv : varOf 0 (vs.map Val.num) = .fin 0 := varIs_unique (var_is 0 _) h
    have e1 : (vs.map Val.num).map (fun x => x.sub (.fin m)) = (vs.map Val.num).map (Flt.units 1 (-m)) := by
      rw [funext (units_less m)]
    show (x.sub _).div _ = .nan
    rw [hm, e1, varOf_units one_ne_zero, hv, units_fin, mul_zero, add_zero, hr]
    by_cases hn : x = .nan
    · rw [hn]; rfl
    · have : x ∈ (vs.map Val.num).filter (· ≠ .nan) := List.mem_filter.mpr ⟨hx, by simpa using hn⟩
      rw [hfil] at this
      obtain ⟨p, hp, rfl⟩ := List.mem_map.mp this
      rw [hz p hp]
      simp [Flt.sub, Flt.neg, Flt.add, Flt.div, Flt.infOf]

/-- C130. A z-scored larry has mean 0 and variance 1 on every line, except where all numbers are equal. -/
theorem C130_zscore (root : Flt → Flt) {y z : Larry L} (hy : y.Numeric) {axis : Option Int}
    (h : y.zscore (fun xs => root (varOf 0 xs)) axis = .ok z) :
    ForLines y axis (z.mean axis) (Standard root 0) ∧ ForLines y axis (z.var axis 0) (Standard root 1) := by
  have hd : y.dtype.isNumeric = true := by rcases hy.dtype with h | h | h <;> rw [h] <;> rfl
  unfold Larry.zscore at h
  rw [if_neg (by rw [hd]; simp)] at h
  have hl := alongBy_lines hy (f := zscoreLine fun xs => root (varOf 0 xs)) (fun vs => by simp [zscoreLine, demeanLine]) h
  have ht := hl.typed hy.valid (by
    rintro vs ws ⟨rfl, -⟩ w hw
    obtain ⟨v, -, rfl⟩ := List.mem_map.mp hw
    exact ⟨_, rfl⟩)
  refine ⟨hl.stat hy.valid (C91_mean hl.valid ht (hl.elements hy) (.inl hl.dtype)) ?_,
    hl.stat hy.valid (m := fun axis => z.var axis 0) (C91_var 0 hl.valid ht (hl.elements hy) (.inl hl.dtype)) ?_⟩
  · rintro vs ws v ⟨rfl, hh⟩ ⟨m, rfl, hm⟩
    have hm := meanIs_unique hm (mean_is _)
    subst hm
    refine ⟨fun q s h1 h2 h3 h4 => ?_, fun h1 h2 => ?_, fun h1 => ?_⟩
    · rw [(zscore_spread h1 h2 h3 h4).1]
    · rw [meanIs_unique (mean_is _) (.none (zscore_none (.inr ⟨h1, h2⟩)))]
    · rw [meanIs_unique (mean_is _) (.none (zscore_none (.inl h1)))]
  · rintro vs ws v ⟨rfl, hh⟩ ⟨m, rfl, hm⟩
    have hm := varIs_unique hm (var_is 0 _)
    subst hm
    refine ⟨fun q s h1 h2 h3 h4 => ?_, fun h1 h2 => ?_, fun h1 => ?_⟩
    · rw [(zscore_spread h1 h2 h3 h4).2]
    · rw [varIs_unique (var_is 0 _) (.none (zscore_none (.inr ⟨h1, h2⟩)))]
    · rw [varIs_unique (var_is 0 _) (.none (zscore_none (.inl h1)))]

/-! ## group_ranking -/

/-- C130. The group means of a group ranking are zero where the group has anything on the line, NaN elsewhere. -/
theorem C130_group_ranking [LinearOrder L] {sort : List Val → List Val} {y group : Larry L} {axis : Int} {ax : Nat} {l : List L}
    (h : CanGroup sort y group axis ax l) :
    ∃ z w, y.groupRanking sort group axis = .ok z ∧ z.groupMean sort group axis = .ok w ∧ w.Valid ∧ w.label = y.label ∧
      ∀ (b : L) (rest : List L) (v : Val), b ∈ l → w.Has (rest.insertIdx ax b) v → Named (y.label.eraseIdx ax) rest →
        (v = .flt (.fin 0) ∧ ∃ a u, a ∈ l ∧ Grouped group b a ∧ y.Has (rest.insertIdx ax a) u ∧ u.num ≠ .nan) ∨
        (v = .flt .nan ∧ ∀ a u, a ∈ l → Grouped group b a → y.Has (rest.insertIdx ax a) u → u.num = .nan) := by
  obtain ⟨z, e, z1, z2, z3, hz⟩ := group_part (f := rankingLine .pm1) (fun vs => by simp [rankingLine]) h
  have hnd : z.ndim = y.ndim := by rw [← z1.label_length, ← h.valid.label_length, z3]
  have hn : CanGroup sort z group axis ax l :=
    ⟨h.sorts, z1, h.groups, h.one, by rw [z2]; decide, by rw [hnd]; exact h.axis, by rw [z3]; exact h.labels, h.known⟩
  obtain ⟨w, ew, w1, w2, w3, hw⟩ := group_center .mean hn
  refine ⟨z, w, e, ew, w1, w3.trans z3, fun b rest v hb hv hr => ?_⟩
  obtain ⟨g, hg⟩ := h.has hb
  have hr' : Named (z.label.eraseIdx ax) rest := by rw [z3]; exact hr
  by_cases hs : SameGroup g g
  · obtain ⟨-, part, -, hp, vs, -, -, hl, -, -, -⟩ := (hz b g rest hb hg hr).2 hs
    obtain ⟨-, part', ws, hp', hl', hv'⟩ := (hw b g rest hb hg hr').2 hs
    obtain rfl := Holds_unique w1.nodup hv hv'
    -- every element of the group is its rank within the group
    have hws : ws = rankingLine .pm1 vs := by
      have hlt := (List.getElem?_eq_some_iff.mp h.labels).1
      obtain ⟨gl, hgl, hlen, hh⟩ := hl'
      rw [hp'.label_eq, z3, List.getElem?_set_self hlt] at hgl
      cases hgl
      have hvlen : vs.length = (groupLabels group l g).length := by
        obtain ⟨gl, hgl, hlen, -⟩ := hl
        rw [hp.label_eq, List.getElem?_set_self hlt] at hgl
        cases hgl
        exact hlen
      refine List.ext_getElem (by rw [hlen, ← hvlen]; simp [rankingLine]) fun k hk hk' => ?_
      have hkg : k < (groupLabels group l g).length := by omega
      have hzk := ((hp'.has _ _).mp (hh k _ _ (List.getElem?_eq_getElem hkg) (List.getElem?_eq_getElem hk))).2
      generalize ha : (groupLabels group l g)[k] = a at hzk
      have ham : a ∈ groupLabels group l g := ha ▸ List.getElem_mem hkg
      obtain ⟨ha1, g', hg', hs'⟩ := mem_groupLabels.mp ham
      obtain ⟨-, part2, -, hp2, vs2, k2, v2, hl2, q1, q2, q3⟩ :=
        (hz a g' rest ha1 hg' hr).2 (sameGroup_trans hs' (sameGroup_symm hs'))
      rw [groupLabels_congr hs'] at hp2 q1
      have hvs := self_forall₂ (parts_line h.labels rfl hp hp2 (R := (· = ·))
        (fun a _ v u hv hu => Holds_unique h.valid.nodup hv hu) hl hl2)
      have hnd : (groupLabels group l g).Nodup :=
          (h.valid.nodup l (List.mem_of_getElem? h.labels)).sublist List.filter_sublist
      obtain ⟨hk2, q1⟩ := List.getElem?_eq_some_iff.mp q1
      have hkk : k2 = k := (hnd.getElem_inj_iff (hi := hk2) (hj := hkg)).mp (q1.trans ha.symm)
      subst hkk
      rw [Holds_unique z1.nodup hzk q3]
      rw [← hvs, List.getElem?_eq_getElem hk'] at q2
      exact (Option.some.inj q2).symm
    obtain ⟨qs, h1, h2, h3⟩ := ranked_numbers (by norm_num) (rankingLine_pm1 vs)
    rcases level_mean h1 h2 h3 (mean_is _) with ⟨q1, q2⟩ | ⟨q1, x, hx, q2⟩
    · refine .inr ⟨by rw [hws]; exact q1, fun a u ha hga hu => ?_⟩
      exact q2 _ (part_line_has h.valid h.labels hp hl ((grouped_mem h.groups hg).mpr ⟨ha, hga⟩) hu)
    · refine .inl ⟨by rw [hws]; exact q1, ?_⟩
      obtain ⟨a, ha, q3⟩ := part_line_mem h.labels hp hl hx
      obtain ⟨ha1, ha2⟩ := (grouped_mem h.groups hg).mp ha
      exact ⟨a, x, ha1, ha2, q3, q2⟩
  · obtain rfl := Holds_unique w1.nodup hv ((hw b g rest hb hg hr').1 hs)
    refine .inr ⟨rfl, fun a u _ hga _ => ?_⟩
    obtain ⟨g', q1, gv, q2, q3⟩ := hga
    rw [Holds_unique h.groups.nodup q1 hg] at q3
    exact absurd (sameGroup_trans (sameGroup_symm q3) q3) hs

/-! ## Cases -/

/-- Two lines: ties, NaN and an infinity in the first, a single value in the second. -/
def exTied : Larry Nat :=
  ⟨NDArray.ofList [2, 4] [fl 5, fl 5, .flt .nan, .flt .pinf, .flt .nan, fl 3, .flt .nan, .flt .nan], .float, [[0, 1], [0, 1, 2, 3]]⟩

theorem exTied_numeric : exTied.Numeric := ⟨⟨rfl, by decide, by decide⟩, typed_cells (by decide +kernel), .inl rfl, by decide⟩

example : exTied.Numeric ∧ (∃ z, exTied.ranking (some 1) .pm1 = .ok z) ∧ (∃ z, exTied.ranking none .n1 = .ok z) ∧
    rankingLine .pm1 [fl 5, fl 5, .flt .nan, .flt .pinf] = [fl (-1 / 2), fl (-1 / 2), .flt .nan, fl 1] ∧
    rankingLine .n1 [fl 5, fl 5, .flt .nan, .flt .pinf] = [fl (3 / 4), fl (3 / 4), .flt .nan, fl 3] :=
  ⟨exTied_numeric, ⟨_, rfl⟩, ⟨_, rfl⟩, by decide +kernel, by decide +kernel⟩

/-- A line with a spread, one of equal numbers. -/
def exScores : Larry Nat :=
  ⟨NDArray.ofList [2, 3] [fl 1, fl 5, .flt .nan, fl 3, fl 3, .flt .nan], .float, [[0, 1], [0, 1, 2]]⟩

theorem exScores_numeric : exScores.Numeric := ⟨⟨rfl, by decide, by decide⟩, typed_cells (by decide +kernel), .inl rfl, by decide⟩

/-- Square roots of zero and four. -/
def exRoot (x : Flt) : Flt := if x = .fin 4 then .fin 2 else if x = .fin 0 then .fin 0 else .nan

example : exScores.Numeric ∧ exScores.NoInfinities ∧ (∃ z, exScores.demean GroupCenter.median.of (some 1) = .ok z) ∧
    (∃ z, exScores.zscore (fun xs => exRoot (varOf 0 xs)) (some 1) = .ok z) ∧ VarIs 0 [.fin 1, .fin 5, .nan] (.fin 4) ∧
    VarIs 0 [.fin 3, .fin 3, .nan] (.fin 0) ∧
    zscoreLine (fun xs => exRoot (varOf 0 xs)) [fl 1, fl 5, .flt .nan] = [fl (-1), fl 1, .flt .nan] ∧
    zscoreLine (fun xs => exRoot (varOf 0 xs)) [fl 3, fl 3, .flt .nan] = [.flt .nan, .flt .nan, .flt .nan] :=
  ⟨exScores_numeric, noInfinities_cells (by decide +kernel) exScores_numeric.valid, ⟨_, rfl⟩, ⟨_, rfl⟩,
    (show varOf 0 [.fin 1, .fin 5, .nan] = .fin 4 by decide +kernel) ▸ var_is 0 _,
    (show varOf 0 [.fin 3, .fin 3, .nan] = .fin 0 by decide +kernel) ▸ var_is 0 _, by decide +kernel, by decide +kernel⟩

/-- Two groups ranked, and the group means of the ranks. -/
example : groupLine id (rankingLine .pm1) [.str "x", .str "y", .str "x", .str "x", .str "y"] [fl 1, .flt .nan, fl 4, fl 4, .flt .nan] =
      [fl (-1), .flt .nan, fl (1 / 2), fl (1 / 2), .flt .nan] ∧
    groupLine id groupMeanLine [.str "x", .str "y", .str "x", .str "x", .str "y"] [fl (-1), .flt .nan, fl (1 / 2), fl (1 / 2), .flt .nan] =
      [fl 0, .flt .nan, fl 0, fl 0, .flt .nan] := by decide +kernel

/-- An increasing function on `(0, 1)` with `f (1 - p) = - f p`. -/
def exBell (x : Flt) : Flt :=
  match x with
  | .fin p => .fin ((p - 1 / 2) ^ 3)
  | _ => .nan

/-- C130. With norm `'gaussian'` the mean need not be zero where there are ties, symmetric though `ndtri` is. -/
theorem C130_gaussian_ties : IsNdtri exBell ∧ (∀ p : ℚ, exBell (.fin (1 - p)) = (exBell (.fin p)).neg) ∧
    ∃ q : ℚ, nanmean ((rankingLine (.gaussian exBell) [fl 1, fl 1, fl 2]).map Val.num) = .fin q ∧ q ≠ 0 := by
  refine ⟨⟨rfl, fun p q _ h _ => ?_⟩, fun p => ?_, 1 / 256, by decide +kernel, by norm_num⟩
  · show (p - 1 / 2) ^ 3 < (q - 1 / 2) ^ 3
    exact Odd.strictMono_pow (by decide) (by linarith)
  · simp only [exBell, Flt.neg]
    congr 1
    ring

end La
