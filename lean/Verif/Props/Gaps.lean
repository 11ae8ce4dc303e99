import Verif.Props.Param
import Verif.Props.Kinds
import Verif.HeapWrite

/-!
C120: where a result is missing depends on where the larrys are missing, not on the numbers in them.
-/

namespace La
open Larry
variable {L : Type _}

/-- Both are numbers, or both are NaN. -/
def GapF (a b : Flt) : Prop := (∃ p q, a = .fin p ∧ b = .fin q) ∨ (a = .nan ∧ b = .nan)

/-- The same of two elements of float arrays. -/
def Gap (v w : Val) : Prop := ∃ a b, v = .flt a ∧ w = .flt b ∧ GapF a b

/-- Both are numbers. -/
def Fin2 (a b : Flt) : Prop := ∃ p q, a = .fin p ∧ b = .fin q

theorem Fin2.gap {a b : Flt} (h : Fin2 a b) : GapF a b := .inl h
theorem gapF_nan : GapF .nan .nan := .inr ⟨rfl, rfl⟩
theorem gapF_fin (p q : ℚ) : GapF (.fin p) (.fin q) := .inl ⟨p, q, rfl, rfl⟩
theorem GapF.gap {a b : Flt} (h : GapF a b) : Gap (.flt a) (.flt b) := ⟨a, b, rfl, rfl, h⟩
theorem gap_nan : Gap (.flt .nan) (.flt .nan) := gapF_nan.gap

theorem Gap.num {v w : Val} (h : Gap v w) : GapF v.num w.num := by obtain ⟨a, b, rfl, rfl, h⟩ := h; exact h
theorem Gap.flt {v w : Val} (h : Gap v w) : v = .flt v.num ∧ w = .flt w.num := by obtain ⟨a, b, rfl, rfl, h⟩ := h; exact ⟨rfl, rfl⟩
theorem GapF.isNan {a b : Flt} (h : GapF a b) : a.isNan = b.isNan := by
  rcases h with ⟨p, q, rfl, rfl⟩ | ⟨rfl, rfl⟩ <;> rfl
theorem Gap.isNan {v w : Val} (h : Gap v w) : v.isNan = w.isNan := h.num.isNan
theorem GapF.isFinite {a b : Flt} (h : GapF a b) : a.isFinite = b.isFinite := by
  rcases h with ⟨p, q, rfl, rfl⟩ | ⟨rfl, rfl⟩ <;> rfl
theorem Gap.isFin {v w : Val} (h : Gap v w) : v.isFin = w.isFin := by
  obtain ⟨a, b, rfl, rfl, h⟩ := h
  rcases h with ⟨p, q, rfl, rfl⟩ | ⟨rfl, rfl⟩ <;> rfl

theorem GapF.add {a b a' b' : Flt} (h : GapF a b) (h' : GapF a' b') : GapF (a.add a') (b.add b') := by
  rcases h with ⟨p, q, rfl, rfl⟩ | ⟨rfl, rfl⟩ <;> rcases h' with ⟨p', q', rfl, rfl⟩ | ⟨rfl, rfl⟩ <;> simp [GapF, Flt.add]
theorem GapF.neg {a b : Flt} (h : GapF a b) : GapF a.neg b.neg := by
  rcases h with ⟨p, q, rfl, rfl⟩ | ⟨rfl, rfl⟩ <;> simp [GapF, Flt.neg]
theorem GapF.sub {a b a' b' : Flt} (h : GapF a b) (h' : GapF a' b') : GapF (a.sub a') (b.sub b') := h.add h'.neg
theorem GapF.mul {a b a' b' : Flt} (h : GapF a b) (h' : GapF a' b') : GapF (a.mul a') (b.mul b') := by
  rcases h with ⟨p, q, rfl, rfl⟩ | ⟨rfl, rfl⟩ <;> rcases h' with ⟨p', q', rfl, rfl⟩ | ⟨rfl, rfl⟩ <;> simp [GapF, Flt.mul]
theorem GapF.div {a b : Flt} (h : GapF a b) {p : ℚ} (hp : p ≠ 0) : GapF (a.div (.fin p)) (b.div (.fin p)) := by
  rcases h with ⟨p, q, rfl, rfl⟩ | ⟨rfl, rfl⟩ <;> simp [GapF, Flt.div, hp]

/-! ## Lists -/

theorem gaps_num {l l' : List Val} (h : List.Forall₂ Gap l l') : List.Forall₂ GapF (l.map Val.num) (l'.map Val.num) := by
  induction h with
  | nil => exact .nil
  | cons h1 _ ih => exact .cons h1.num ih

theorem gaps_flt {l l' : List Flt} (h : List.Forall₂ GapF l l') : List.Forall₂ Gap (l.map Val.flt) (l'.map Val.flt) := by
  induction h with
  | nil => exact .nil
  | cons h1 _ ih => exact .cons h1.gap ih

theorem forall₂_imp {α β : Type _} {R S : α → β → Prop} (H : ∀ a b, R a b → S a b) {l : List α} {l' : List β}
    (h : List.Forall₂ R l l') : List.Forall₂ S l l' := by
  induction h with
  | nil => exact .nil
  | cons h1 _ ih => exact .cons (H _ _ h1) ih

theorem forall₂_map₂ {α β γ δ : Type _} {R : α → β → Prop} {S : γ → δ → Prop} {f : α → γ} {g : β → δ}
    (H : ∀ a b, R a b → S (f a) (g b)) {l : List α} {l' : List β} (h : List.Forall₂ R l l') :
    List.Forall₂ S (l.map f) (l'.map g) := by
  induction h with
  | nil => exact .nil
  | cons h1 _ ih => exact .cons (H _ _ h1) ih

theorem forall₂_getD {α β : Type _} {R : α → β → Prop} {l : List α} {l' : List β} (h : List.Forall₂ R l l') {i : Nat}
    (hi : i < l.length) (a : α) (b : β) : R (l.getD i a) (l'.getD i b) := by
  induction h generalizing i with
  | nil => simp at hi
  | cons h1 _ ih =>
    cases i with
    | zero => exact h1
    | succ i => exact ih (by simpa using hi)

theorem forall₂_getD' {α β : Type _} {R : α → β → Prop} {l : List α} {l' : List β} (h : List.Forall₂ R l l') (i : Nat)
    {a : α} {b : β} (hab : R a b) : R (l.getD i a) (l'.getD i b) := by
  by_cases hi : i < l.length
  · exact forall₂_getD h hi a b
  · have e : l.length = l'.length := h.length_eq
    rw [List.getD, List.getD, List.getElem?_eq_none (by omega), List.getElem?_eq_none (by omega)]
    exact hab

theorem ok_gaps {l l' : List Flt} (h : List.Forall₂ GapF l l') :
    List.Forall₂ Fin2 (l.filter fun x => !x.isNan) (l'.filter fun x => !x.isNan) := by
  induction h with
  | nil => exact .nil
  | cons h1 _ ih =>
    rcases h1 with ⟨p, q, rfl, rfl⟩ | ⟨rfl, rfl⟩
    · exact .cons ⟨p, q, rfl, rfl⟩ ih
    · exact ih

theorem foldl_rel₂ {α β : Type _} {R : α → β → Prop} {f : α → α → α} {g : β → β → β}
    (H : ∀ a b a' b', R a b → R a' b' → R (f a a') (g b b')) {l : List α} {l' : List β} (h : List.Forall₂ R l l') {a : α} {b : β}
    (hab : R a b) : R (l.foldl f a) (l'.foldl g b) := by
  induction h generalizing a b with
  | nil => exact hab
  | cons h1 _ ih => exact ih (H _ _ _ _ hab h1)

theorem sum_fin2 {l l' : List Flt} (h : List.Forall₂ Fin2 l l') : Fin2 (Flt.sum l) (Flt.sum l') := by
  refine foldl_rel₂ (R := Fin2) ?_ h ⟨0, 0, rfl, rfl⟩
  rintro _ _ _ _ ⟨p, q, rfl, rfl⟩ ⟨p', q', rfl, rfl⟩
  exact ⟨_, _, rfl, rfl⟩

theorem sum_nil : Flt.sum [] = .fin 0 := rfl

/-- The mean. -/
theorem nanmean_gap {l l' : List Flt} (h : List.Forall₂ GapF l l') : GapF (nanmean l) (nanmean l') := by
  have ho := ok_gaps h
  unfold nanmean
  dsimp only
  rw [← ho.length_eq]
  generalize (l.filter fun x => !x.isNan) = s at ho
  generalize (l'.filter fun x => !x.isNan) = s' at ho
  by_cases h0 : s.length = 0
  · have h0' : s'.length = 0 := by rw [← ho.length_eq]; exact h0
    rw [List.length_eq_zero_iff.mp h0, List.length_eq_zero_iff.mp h0']
    exact .inr ⟨by simp [sum_nil, Flt.div, Flt.infOf], by simp [sum_nil, Flt.div, Flt.infOf]⟩
  · exact (sum_fin2 ho).gap.div (by exact_mod_cast h0)

theorem all_fin {l l' : List Flt} (h : List.Forall₂ Fin2 l l') : (∀ x ∈ l, ∃ q, x = .fin q) ∧ ∀ x ∈ l', ∃ q, x = .fin q := by
  induction h with
  | nil => simp
  | cons h1 _ ih =>
    obtain ⟨p, q, rfl, rfl⟩ := h1
    simp only [List.mem_cons, forall_eq_or_imp]
    exact ⟨⟨⟨p, rfl⟩, ih.1⟩, ⟨q, rfl⟩, ih.2⟩

theorem getD_fin {l : List Flt} (h : ∀ x ∈ l, ∃ q, x = .fin q) {i : Nat} (hi : i < l.length) : ∃ q, l.getD i .nan = .fin q := by
  rw [List.getD, List.getElem?_eq_getElem hi]
  exact h _ (List.getElem_mem hi)

/-- The median. -/
theorem median_gap {l l' : List Flt} (h : List.Forall₂ GapF l l') : GapF (medianOf l) (medianOf l') := by
  have ho := ok_gaps h
  obtain ⟨f1, f2⟩ := all_fin ho
  unfold medianOf
  dsimp only
  generalize hs : (l.filter fun x => !x.isNan).insertionSort (fun a b => a.le b = true) = s
  generalize hs' : (l'.filter fun x => !x.isNan).insertionSort (fun a b => a.le b = true) = s'
  have e1 : ∀ x ∈ s, ∃ q, x = .fin q := fun x hx => f1 x (by rw [← hs] at hx; exact (List.mem_insertionSort _).mp hx)
  have e2 : ∀ x ∈ s', ∃ q, x = .fin q := fun x hx => f2 x (by rw [← hs'] at hx; exact (List.mem_insertionSort _).mp hx)
  have el : s.length = s'.length := by rw [← hs, ← hs', List.length_insertionSort, List.length_insertionSort, ho.length_eq]
  rw [← el]
  split
  · exact gapF_nan
  split
  · obtain ⟨q, hq⟩ := getD_fin e1 (i := s.length / 2) (by omega)
    obtain ⟨q', hq'⟩ := getD_fin e2 (i := s.length / 2) (by omega)
    rw [hq, hq']
    exact gapF_fin _ _
  · obtain ⟨q, hq⟩ := getD_fin e1 (i := s.length / 2) (by omega)
    obtain ⟨q', hq'⟩ := getD_fin e2 (i := s.length / 2) (by omega)
    obtain ⟨p, hp⟩ := getD_fin e1 (i := s.length / 2 - 1) (by omega)
    obtain ⟨p', hp'⟩ := getD_fin e2 (i := s.length / 2 - 1) (by omega)
    rw [hq, hq', hp, hp']
    exact gapF_fin _ _

theorem ok_eq {l : List Flt} (h : ∀ x ∈ l, ∃ q, x = .fin q) : ∃ qs : List ℚ, l = qs.map .fin := by
  induction l with
  | nil => exact ⟨[], rfl⟩
  | cons x l ih =>
    obtain ⟨q, rfl⟩ := h x (by simp)
    obtain ⟨qs, rfl⟩ := ih fun y hy => h y (by simp [hy])
    exact ⟨q :: qs, rfl⟩

/-- The variance, and that it is not negative. -/
theorem var_gap {ddof : Int} (hd : ddof ≤ 1) {l l' : List Flt} (h : List.Forall₂ GapF l l') :
    (∃ p q : ℚ, 0 ≤ p ∧ 0 ≤ q ∧ varOf ddof l = .fin p ∧ varOf ddof l' = .fin q) ∨ (varOf ddof l = .nan ∧ varOf ddof l' = .nan) := by
  have ho := ok_gaps h
  obtain ⟨f1, f2⟩ := all_fin ho
  obtain ⟨qs, e⟩ := ok_eq f1
  obtain ⟨qs', e'⟩ := ok_eq f2
  have el := ho.length_eq
  rw [e, e', List.length_map, List.length_map] at el
  have val : ∀ (l : List Flt) (qs : List ℚ), l.filter (fun x => !x.isNan) = qs.map .fin →
      varOf ddof l = if qs.length = 0 then .nan else
        (Flt.fin (qs.map fun q => (q - qs.sum / qs.length) * (q - qs.sum / qs.length)).sum).div (.fin (qs.length - ddof)) := by
    intro l qs e
    unfold varOf
    dsimp only
    rw [e, List.length_map]
    split
    · rfl
    · rename_i h0
      have hl : ((qs.length : Nat) : ℚ) ≠ 0 := by exact_mod_cast h0
      rw [flt_sum_fin]
      simp only [Flt.div, if_neg hl]
      have e2 : (qs.map Flt.fin).map (fun a => (a.sub (.fin (qs.sum / qs.length))).mul (a.sub (.fin (qs.sum / qs.length))))
          = (qs.map fun q => (q - qs.sum / qs.length) * (q - qs.sum / qs.length)).map Flt.fin := by
        rw [List.map_map, List.map_map]
        apply List.map_congr_left
        intro q _
        simp [Flt.sub, Flt.neg, Flt.add, Flt.mul, sub_eq_add_neg]
      rw [e2, flt_sum_fin]
  rw [val l qs e, val l' qs' e', ← el]
  by_cases h0 : qs.length = 0
  · exact .inr ⟨by rw [if_pos h0], by rw [if_pos h0]⟩
  rw [if_neg h0, if_neg h0]
  have hpos : (1 : ℚ) ≤ qs.length := by exact_mod_cast Nat.pos_of_ne_zero h0
  have hdq : (ddof : ℚ) ≤ 1 := by exact_mod_cast hd
  by_cases hz : (qs.length : ℚ) - ddof = 0
  · have h1 : qs.length = 1 := by
      have : (qs.length : ℚ) ≤ 1 := by linarith
      have : qs.length ≤ 1 := by exact_mod_cast this
      omega
    obtain ⟨q, rfl⟩ := List.length_eq_one_iff.mp h1
    obtain ⟨q', rfl⟩ := List.length_eq_one_iff.mp (el ▸ h1)
    right
    constructor <;> simp_all [Flt.div, Flt.infOf]
  · left
    have hn : (0 : ℚ) ≤ qs.length - ddof := by linarith
    refine ⟨_, _, div_nonneg (sq_sum_nonneg qs (qs.sum / qs.length)) hn, div_nonneg (sq_sum_nonneg qs' (qs'.sum / qs.length)) hn, ?_, ?_⟩
    · simp only [Flt.div, if_neg hz]
    · simp only [Flt.div, if_neg hz]

/-- A square root as far as it matters here: of a number that is not negative a number, of NaN NaN. -/
def RootOf (root : Flt → Flt) : Prop := root .nan = .nan ∧ ∀ p : ℚ, 0 ≤ p → ∃ q, root (.fin p) = .fin q

theorem std_gap {root : Flt → Flt} (hr : RootOf root) {ddof : Int} (hd : ddof ≤ 1) {l l' : List Flt} (h : List.Forall₂ GapF l l') :
    GapF (root (varOf ddof l)) (root (varOf ddof l')) := by
  rcases var_gap hd h with ⟨p, q, hp, hq, e, e'⟩ | ⟨e, e'⟩
  · rw [e, e']
    obtain ⟨r, hr1⟩ := hr.2 p hp
    obtain ⟨r', hr2⟩ := hr.2 q hq
    rw [hr1, hr2]
    exact gapF_fin _ _
  · rw [e, e', hr.1]
    exact gapF_nan

theorem nanFold_gap {op : Val → Val → Val} {p : Val → Val} (hp : ∀ f, p (.flt f) = .flt f)
    (ho : ∀ a b, ∃ c, op (.flt (.fin a)) (.flt (.fin b)) = .flt (.fin c)) {l l' : List Val} (h : List.Forall₂ Gap l l') :
    Gap (nanFold op p l) (nanFold op p l') := by
  have key : List.Forall₂ (fun v w => ∃ a b : ℚ, v = .flt (.fin a) ∧ w = .flt (.fin b))
      ((l.map p).filter (fun v => !v.isNan)) ((l'.map p).filter (fun v => !v.isNan)) := by
    induction h with
    | nil => exact .nil
    | cons h1 _ ih =>
      obtain ⟨_, _, rfl, rfl, ⟨a, b, rfl, rfl⟩ | ⟨rfl, rfl⟩⟩ := h1
      · rw [List.map_cons, List.map_cons, hp, hp]
        exact .cons ⟨a, b, rfl, rfl⟩ ih
      · rw [List.map_cons, List.map_cons, hp]
        exact ih
  unfold nanFold
  generalize (l.map p).filter (fun v => !v.isNan) = s at key
  generalize (l'.map p).filter (fun v => !v.isNan) = s' at key
  cases key with
  | nil => exact gap_nan
  | cons h1 h2 =>
    have := foldl_rel₂ (R := fun v w => ∃ a b : ℚ, v = Val.flt (.fin a) ∧ w = Val.flt (.fin b)) (f := op) (g := op) (by
      rintro _ _ _ _ ⟨a, b, rfl, rfl⟩ ⟨a', b', rfl, rfl⟩
      obtain ⟨c, hc⟩ := ho a a'
      obtain ⟨c', hc'⟩ := ho b b'
      exact ⟨c, c', hc, hc'⟩) h2 h1
    obtain ⟨a, b, e, e'⟩ := this
    dsimp only
    rw [e, e']
    exact (gapF_fin _ _).gap

/-- The statistics that depend on the values only through what is there. -/
def Measure.Solid : Measure → Prop
  | .var ddof => ddof ≤ 1
  | .std root ddof => ddof ≤ 1 ∧ RootOf root
  | _ => True

theorem Measure.gap {s : Measure} (hs : s.Solid) {l l' : List Val} (h : List.Forall₂ Gap l l') : Gap (s.func.f l) (s.func.f l') := by
  cases s with
  | sum => exact nanFold_gap (fun _ => rfl) (fun a b => ⟨a + b, rfl⟩) h
  | max => exact nanFold_gap (fun _ => rfl) (fun a b => by unfold maxVal; split <;> exact ⟨_, rfl⟩) h
  | min => exact nanFold_gap (fun _ => rfl) (fun a b => by unfold minVal; split <;> exact ⟨_, rfl⟩) h
  | mean => exact (nanmean_gap (gaps_num h)).gap
  | median => exact (median_gap (gaps_num h)).gap
  | var d =>
    show Gap (.flt _) (.flt _)
    rcases var_gap hs (gaps_num h) with ⟨p, q, -, -, e, e'⟩ | ⟨e, e'⟩
    · rw [e, e']; exact (gapF_fin _ _).gap
    · rw [e, e']; exact gap_nan
  | std root d => exact (std_gap hs.2 hs.1 (gaps_num h)).gap

/-! ## Reductions -/

theorem red_gap {r : Red} (hf : ∀ l l', List.Forall₂ Gap l l' → Gap (r.f l) (r.f l')) (hd : r.dt .float = .ok .float)
    (hl : r.logical = false) (hz : r.default = .flt .nan) : r.Rel Gap OnlyFloat r := by
  refine ⟨hf, fun _ _ => rfl, ?_, rfl, rfl, by rw [hz]; exact gap_nan, ?_⟩
  · rintro d e rfl h
    rw [hd] at h
    exact (Except.ok.inj h).symm
  · rintro d v rfl h
    rw [hl, hz] at h
    obtain rfl : _ = v := Except.ok.inj h
    rw [hl]
    exact ⟨gap_nan, rfl⟩

theorem measure_rel {s : Measure} (hs : s.Solid) : s.func.Rel Gap OnlyFloat s.func := by
  refine red_gap (fun _ _ => Measure.gap hs) ?_ ?_ ?_ <;> cases s <;> rfl

/-- The last element is the only number of the line. -/
theorem lastrank_one {l : List Flt} (h : NoInf l) {a : ℚ} (hl : l.getLast?.getD .nan = .fin a) :
    1 ≤ (l.filter Flt.isFinite).length ∧ ((l.filter Flt.isFinite).length = 1 →
      (l.filter fun x => x.lt (.fin a)).length = 0 ∧ (l.filter fun x => (Flt.fin a).eq x).length = 1) := by
  have hg : l.getLast? = some (.fin a) := by
    cases e : l.getLast? with
    | none => rw [e] at hl; cases hl
    | some x => rw [e] at hl; exact congrArg some hl
  obtain ⟨l0, rfl⟩ : ∃ l0, l = l0 ++ [.fin a] := by
    obtain ⟨ys, e⟩ := List.getLast?_eq_some_iff.mp hg
    exact ⟨ys, e⟩
  simp only [List.filter_append, List.length_append]
  have t1 : ([Flt.fin a].filter Flt.isFinite).length = 1 := rfl
  have t2 : ([Flt.fin a].filter fun x => x.lt (.fin a)).length = 0 := by simp [Flt.lt]
  have t3 : ([Flt.fin a].filter fun x => (Flt.fin a).eq x).length = 1 := by simp [Flt.eq]
  rw [t1, t2, t3]
  refine ⟨by omega, fun h1 => ?_⟩
  have h0 : l0.filter Flt.isFinite = [] := List.length_eq_zero_iff.mp (by omega)
  have hn : ∀ x ∈ l0, x = .nan := by
    intro x hx
    have h2 := h x (by simp [hx])
    have h3 := List.filter_eq_nil_iff.mp h0 x hx
    cases x <;> simp_all [Flt.isFinite]
  have u1 : l0.filter (fun x => x.lt (.fin a)) = [] := List.filter_eq_nil_iff.mpr fun x hx => by rw [hn x hx]; simp [Flt.lt]
  have u2 : l0.filter (fun x => (Flt.fin a).eq x) = [] := List.filter_eq_nil_iff.mpr fun x hx => by rw [hn x hx]; simp [Flt.eq]
  rw [u1, u2]
  exact ⟨rfl, rfl⟩

theorem gaps_noInf {l l' : List Flt} (h : List.Forall₂ GapF l l') : NoInf l ∧ NoInf l' := by
  unfold NoInf
  induction h with
  | nil => simp
  | cons h1 _ ih =>
    simp only [List.mem_cons, forall_eq_or_imp]
    rcases h1 with ⟨p, q, rfl, rfl⟩ | ⟨rfl, rfl⟩ <;> exact ⟨⟨by simp, ih.1⟩, by simp, ih.2⟩

theorem finite_length {l l' : List Flt} (h : List.Forall₂ GapF l l') : (l.filter Flt.isFinite).length = (l'.filter Flt.isFinite).length := by
  induction h with
  | nil => rfl
  | cons h1 _ ih => simp only [List.filter_cons, h1.isFinite]; split <;> simp [ih]

theorem last_gap {l l' : List Flt} (h : List.Forall₂ GapF l l') : GapF (l.getLast?.getD .nan) (l'.getLast?.getD .nan) := by
  induction h with
  | nil => exact gapF_nan
  | cons h1 h2 ih =>
    cases h2 with
    | nil => exact h1
    | cons => simpa [List.getLast?_cons_cons] using ih

theorem lastrank_gap {l l' : List Val} (h : List.Forall₂ Gap l l') : Gap (lastrankLine l) (lastrankLine l') := by
  have hn := gaps_num h
  have hg := last_gap hn
  have hc := finite_length hn
  obtain ⟨n1, n2⟩ := gaps_noInf hn
  unfold lastrankLine
  dsimp only
  rcases hg with ⟨p, q, e, e'⟩ | ⟨e, e'⟩
  · rw [e, e']
    have k1 := lastrank_one n1 e
    have k2 := lastrank_one n2 e'
    rw [← hc] at k2 ⊢
    have t : ∀ p, (Flt.fin p).isFinite = true := fun _ => rfl
    rw [if_pos (t p), if_pos (t q)]
    by_cases h1 : ((l.map Val.num).filter Flt.isFinite).length = 1
    · rw [h1, (k1.2 h1).1, (k1.2 h1).2, (k2.2 h1).1, (k2.2 h1).2]
      have e0 : Flt.div (.fin ((((0 : Nat) : ℚ) + ((0 : Nat) : ℚ) + ((1 : Nat) : ℚ) - 1) / 2)) (.fin (((1 : Nat) : ℚ) - 1)) = .nan := by
        simp [Flt.div, Flt.infOf]
      rw [e0]
      exact gap_nan
    · have hq : (((l.map Val.num).filter Flt.isFinite).length : ℚ) - 1 ≠ 0 := by
        intro hh
        apply h1
        have : (((l.map Val.num).filter Flt.isFinite).length : ℚ) = 1 := by linarith
        exact_mod_cast this
      exact (((gapF_fin 2 2).mul (((gapF_fin _ _).div hq).sub (gapF_fin _ _)))).gap
  · rw [e, e']
    exact gap_nan

theorem lastrank_rel : lastrankRed.Rel Gap OnlyFloat lastrankRed := red_gap (fun _ _ => lastrank_gap) rfl rfl rfl


/-! ## Methods along an axis -/

/-- A function of lines whose outcome on a line of `n` elements has as many, and gaps where the gaps of the line say. -/
def GapLine (n : Nat) (g : List Val → List Val) : Prop :=
  ∀ l l', l.length = n → List.Forall₂ Gap l l' → (g l).length = n ∧ List.Forall₂ Gap (g l) (g l')

theorem line_gap {x x' : NDArray Val} {R : Val → Val → Prop} (h : NDArray.Rel R x x') {ax : Nat} (hax : ax < x.shape.length) {rest : List Nat}
    (hr : InB (x.shape.eraseIdx ax) rest) : List.Forall₂ R (x.line ax rest) (x'.line ax rest) := by
  simp only [NDArray.line]
  rw [← h.1]
  exact NDArray.forall₂_map (fun k hk => h.2 _ (InB_insert hax (by simpa using hk) hr))

theorem inB_at {s idx : List Nat} (h : InB s idx) {ax : Nat} (hax : ax < s.length) : idx.getD ax 0 < s.getD ax 0 := by
  obtain ⟨h1, h2⟩ := InB_iff.mp h
  refine h2 ax _ _ ?_ ?_
  · rw [List.getD, List.getElem?_eq_getElem hax]; rfl
  · rw [List.getD, List.getElem?_eq_getElem (by omega)]; rfl

theorem mapLines_gap {x x' : NDArray Val} (h : NDArray.Rel Gap x x') {ax : Nat} (hax : ax < x.shape.length) {g : List Val → List Val}
    (hg : GapLine (x.shape.getD ax 0) g) : NDArray.Rel Gap (x.mapLines g .none ax) (x'.mapLines g .none ax) := by
  refine ⟨h.1, fun idx hi => ?_⟩
  obtain ⟨h1, h2⟩ := hg _ _ (by simp [NDArray.line]) (line_gap h hax (InB_erase hi hax))
  exact forall₂_getD h2 (by rw [h1]; exact inB_at hi hax) _ _

theorem along_gap {y z : Larry L} (h : y.Rel Gap OnlyFloat z) {ax : Nat} (hax : ax < y.x.shape.length) {g : List Val → List Val}
    (hg : GapLine (y.x.shape.getD ax 0) g) : (y.along g .float ax).Rel Gap OnlyFloat (z.along g .float ax) :=
  ⟨h.label, rfl, rfl, mapLines_gap h.x hax hg⟩

theorem alongAll_gap {y z : Larry L} (h : y.Rel Gap OnlyFloat z) {g : List Val → List Val}
    (hg : GapLine y.x.vals.length g) : (y.alongAll g .float).Rel Gap OnlyFloat (z.alongAll g .float) := by
  refine ⟨h.label, rfl, rfl, h.x.1, fun idx hi => ?_⟩
  show Gap ((g y.x.vals).getD (ravelC y.x.shape idx) _) ((g z.x.vals).getD (ravelC z.x.shape idx) _)
  rw [← h.x.1]
  obtain ⟨h1, h2⟩ := hg _ _ rfl h.x.vals
  refine forall₂_getD h2 ?_ _ _
  rw [h1, ravelC_eq]
  have : rowMajor y.x.shape idx < y.x.shape.prod := rowMajor_lt hi
  simpa [NDArray.vals, length_allIdx] using this

theorem along_cases {y z : Larry L} (h : y.Rel Gap OnlyFloat z) (axis : Option Int) (e : Int → PyErr) {g : List Val → List Val}
    (hg : ∀ n, GapLine n g) :
    Res.Agree (Larry.Rel Gap OnlyFloat)
      (match axis with
        | none => .ok (y.alongAll g .float)
        | some axis => match pyIdx y.ndim axis with
          | none => .error (e axis)
          | some ax => .ok (y.along g .float ax))
      (match axis with
        | none => .ok (z.alongAll g .float)
        | some axis => match pyIdx z.ndim axis with
          | none => .error (e axis)
          | some ax => .ok (z.along g .float ax)) := by
  rw [← h.ndim]
  cases axis with
  | none => exact alongAll_gap h (hg _)
  | some i =>
    dsimp only
    cases hp : pyIdx y.ndim i with
    | none => exact rfl
    | some ax => exact along_gap h (pyIdx_lt' hp) (hg _)

theorem forall₂_of_gaps {α β : Type _} {R : α → β → Prop} : ∀ {l : List α} {l' : List β}, l.length = l'.length →
    (∀ (i : Nat) (a : α) (b : β), l[i]? = some a → l'[i]? = some b → R a b) → List.Forall₂ R l l'
  | [], [], _, _ => .nil
  | [], _ :: _, h, _ => by simp at h
  | _ :: _, [], h, _ => by simp at h
  | _ :: _, _ :: _, h, H => .cons (H 0 _ _ rfl rfl) (forall₂_of_gaps (by simpa using h) fun i a b ha hb => H (i + 1) a b ha hb)

theorem forall₂_get {α β : Type _} {R : α → β → Prop} {l : List α} {l' : List β} (h : List.Forall₂ R l l') {i : Nat} {a : α}
    (ha : l[i]? = some a) : ∃ b, l'[i]? = some b ∧ R a b := by
  induction h generalizing i with
  | nil => simp at ha
  | cons h1 _ ih =>
    cases i with
    | zero => exact ⟨_, rfl, by simp at ha; exact ha ▸ h1⟩
    | succ i => exact ih ha

/-! ### demean -/

theorem demean_line {center : List Flt → Flt} (hc : ∀ l l', List.Forall₂ GapF l l' → GapF (center l) (center l')) (n : Nat) :
    GapLine n (demeanLine center) := by
  intro l l' hn h
  refine ⟨by simp [demeanLine, hn], ?_⟩
  exact forall₂_map₂ (fun a b hab => (hab.num.sub (hc _ _ (gaps_num h))).gap) h

/-! ### ranking -/

/-- A norm that makes a number of every rank. -/
def RankNorm.Solid : RankNorm → Prop
  | .gaussian ndtri => ndtri .nan = .nan ∧ ∀ p : ℚ, 0 < p → p < 1 → ∃ q, ndtri (.fin p) = .fin q
  | _ => True

theorem ranking_nums {norm : RankNorm} (hs : norm.Solid) (hu : norm ≠ .unknown) (vs : List Val) (i : Nat) (x w : Val) (hx : vs[i]? = some x)
    (hw : (rankingLine norm vs)[i]? = some w) : (x.num = .nan → w = .flt .nan) ∧ (x.num ≠ .nan → ∃ q, w = .flt (.fin q)) := by
  cases norm with
  | unknown => exact absurd rfl hu
  | pm1 =>
    obtain ⟨h1, h2, h3⟩ := (rankingLine_pm1 vs).2 i x w hx hw
    refine ⟨h1, fun hn => ?_⟩
    by_cases hc : (present (vs.map Val.num)).length = 1
    · exact ⟨_, h2 hn hc⟩
    · exact ⟨_, h3 hn hc⟩
  | n1 =>
    have hsc : ∀ (n c : Nat) (r : ℚ), c ≠ 1 → RankNorm.n1.scale n c (.fin (r + 1)) =
        .fin (0 + ((n - 1 : ℚ) - 0) * (r / ((c : ℚ) - 1))) := by
      intro n c r hc
      have : (c : ℚ) - 1 ≠ 0 := by
        intro h
        have : (c : ℚ) = 1 := by linarith
        exact hc (by exact_mod_cast this)
      simp only [RankNorm.scale, Flt.sub, Flt.neg, Flt.add, Flt.div, if_neg this, Flt.mul]
      congr 1
      field_simp
      ring
    obtain ⟨h1, h2, h3⟩ := (rankingLine_spec .n1 (fun _ => 0) (fun n => n - 1) (fun n => ((n : ℚ) + 1) / 2 - 1) (fun _ => rfl)
      (fun n c => rfl) hsc vs).2 i x w hx hw
    refine ⟨h1, fun hn => ?_⟩
    by_cases hc : (present (vs.map Val.num)).length = 1
    · exact ⟨_, h2 hn hc⟩
    · exact ⟨_, h3 hn hc⟩
  | gaussian ndtri =>
    have hw' := hw
    simp only [rankingLine, List.map_map, List.getElem?_map, hx, Option.map_some, Option.some.injEq, Function.comp_apply] at hw
    refine ⟨fun hn => ?_, fun hn => ?_⟩
    · rw [← hw, hn]
      simp [Flt.isNan, nanrank, RankNorm.scale, Flt.sub, Flt.add, Flt.mul, Flt.div, hs.1]
    · by_cases hc : (present (vs.map Val.num)).length = 1
      · have hx0 : x.num.isNan = false := by cases h : x.num <;> simp_all [Flt.isNan]
        rw [present_eq] at hw
        rw [if_pos ⟨hc, hx0⟩] at hw
        exact ⟨_, hw.symm⟩
      · obtain ⟨p, p0, p1, hp⟩ := C48_gaussian ndtri vs i x hx hn hc
        obtain ⟨q, hq⟩ := hs.2 p p0 p1
        rw [hw', hq] at hp
        exact ⟨q, Option.some.inj hp⟩

theorem gap_of_cases {x x' w w' : Val} (h : Gap x x') (h1 : (x.num = .nan → w = .flt .nan) ∧ (x.num ≠ .nan → ∃ q, w = .flt (.fin q)))
    (h2 : (x'.num = .nan → w' = .flt .nan) ∧ (x'.num ≠ .nan → ∃ q, w' = .flt (.fin q))) : Gap w w' := by
  obtain ⟨a, b, rfl, rfl, ⟨p, q, rfl, rfl⟩ | ⟨rfl, rfl⟩⟩ := h
  · obtain ⟨r, rfl⟩ := h1.2 (by simp [Val.num])
    obtain ⟨r', rfl⟩ := h2.2 (by simp [Val.num])
    exact (gapF_fin _ _).gap
  · rw [h1.1 rfl, h2.1 rfl]
    exact gap_nan

theorem gapLine_pointwise {n : Nat} {g : List Val → List Val} (hl : ∀ vs, (g vs).length = vs.length)
    (hg : ∀ (vs : List Val) (i : Nat) (x w : Val), NoInf (vs.map Val.num) → vs[i]? = some x → (g vs)[i]? = some w →
      (x.num = .nan → w = .flt .nan) ∧ (x.num ≠ .nan → ∃ q, w = .flt (.fin q))) : GapLine n g := by
  intro l l' hn h
  obtain ⟨n1, n2⟩ := gaps_noInf (gaps_num h)
  refine ⟨by rw [hl, hn], forall₂_of_gaps (by rw [hl, hl, h.length_eq]) fun i w w' hw hw' => ?_⟩
  have hi : i < l.length := by rw [← hl l]; exact (List.getElem?_eq_some_iff.mp hw).1
  obtain ⟨x', hx', hgap⟩ := forall₂_get h (List.getElem?_eq_getElem hi)
  exact gap_of_cases hgap (hg l i _ w n1 (List.getElem?_eq_getElem hi) hw) (hg l' i _ w' n2 hx' hw')

theorem ranking_line {norm : RankNorm} (hs : norm.Solid) (hu : norm ≠ .unknown) (n : Nat) : GapLine n (rankingLine norm) :=
  gapLine_pointwise (rankingLine_length norm) fun vs i x w _ hx hw => ranking_nums hs hu vs i x w hx hw

/-! ### quantile -/

theorem quantile_line {argsort : List ℚ → List Nat} (ha : IsArgsort argsort) {q : Nat} (hq : 2 ≤ q) (n : Nat) :
    GapLine n (quantileLine argsort q) := by
  refine gapLine_pointwise (fun vs => (quantileLine_spec ha hq vs).1) fun vs i x w hi hx hw => ?_
  obtain ⟨-, rank, -, h⟩ := quantileLine_spec ha hq vs
  obtain ⟨h1, h2⟩ := h i x w hx hw
  refine ⟨fun hn => h2 (fun a ha => by rw [hn] at ha; cases ha), fun hn => ?_⟩
  have hm := hi x.num (List.mem_map_of_mem (List.mem_of_getElem? hx))
  cases hxn : x.num with
  | fin a => obtain ⟨-, k, -, e⟩ := h1 a hxn; exact ⟨_, e⟩
  | nan => exact absurd hxn hn
  | pinf => exact absurd hxn hm.1
  | ninf => exact absurd hxn hm.2

/-! ### push -/

theorem pushGo_gap (n : Int) {l l' : List Val} (h : List.Forall₂ Gap l l') (i : Nat) {r r' : Val} (hr : Gap r r') (c : Option Nat) :
    List.Forall₂ Gap (pushGo n i r c l) (pushGo n i r' c l') := by
  induction h generalizing i r r' c with
  | nil => exact .nil
  | cons h1 _ ih =>
    unfold pushGo
    dsimp only
    rw [← h1.isFin]
    have hr2 : Gap (if pushGo.pushStale n i c then .flt .nan else r) (if pushGo.pushStale n i c then .flt .nan else r') := by
      split
      · exact gap_nan
      · exact hr
    split
    · exact .cons h1 (ih _ h1 _)
    · exact .cons hr2 (ih _ hr2 _)

theorem pushGo_len (n : Int) (l : List Val) (i : Nat) (r : Val) (c : Option Nat) : (pushGo n i r c l).length = l.length := by
  induction l generalizing i r c with
  | nil => rfl
  | cons v l ih =>
    unfold pushGo
    dsimp only
    split <;> rw [List.length_cons, ih, List.length_cons]

theorem push_line (w : Int) (n : Nat) : GapLine n (pushLine w) :=
  fun l l' hn h => ⟨by rw [pushLine, pushGo_len, hn], pushGo_gap w h 0 gap_nan none⟩

/-! ### cumsum, cumprod -/

theorem cumGo_rel {α β : Type _} {R : α → β → Prop} {f : α → α → α} {g : β → β → β}
    (H : ∀ a b a' b', R a b → R a' b' → R (f a a') (g b b')) {l : List α} {l' : List β} (h : List.Forall₂ R l l') {a : α} {b : β}
    (hab : R a b) : List.Forall₂ R (cumGo f a l) (cumGo g b l') := by
  induction h generalizing a b with
  | nil => exact .nil
  | cons h1 _ ih => exact .cons (H _ _ _ _ hab h1) (ih (H _ _ _ _ hab h1))

/-! ### movingsum_forward -/

theorem window_gap {l l' : List Val} (h : List.Forall₂ Gap l l') (t skip window : Nat) :
    (finites (windowAt l t skip window) = [] ↔ finites (windowAt l' t skip window) = []) := by
  have hw : List.Forall₂ GapF (windowAt l t skip window) (windowAt l' t skip window) :=
    (List.forall₂_take window (List.forall₂_drop (t + skip) (gaps_num h)))
  generalize windowAt l t skip window = s at hw
  generalize windowAt l' t skip window = s' at hw
  induction hw with
  | nil => exact Iff.rfl
  | cons h1 _ ih =>
    rcases h1 with ⟨p, q, rfl, rfl⟩ | ⟨rfl, rfl⟩
    · simp [finites]
    · simpa [finites] using ih

theorem movingsum_line {window : Nat} (hw : 1 ≤ window) (skip : Nat) (norm : Bool) (n : Nat) :
    GapLine n (movingsumForwardLine .float window skip norm) := by
  intro l l' hn h
  obtain ⟨n1, n2⟩ := gaps_noInf (gaps_num h)
  obtain ⟨k1, s1⟩ := movingsumForwardLine_spec (d := .float) (skip := skip) norm hw n1 (.inl rfl)
  obtain ⟨k2, s2⟩ := movingsumForwardLine_spec (d := .float) (skip := skip) norm hw n2 (.inl rfl)
  refine ⟨by rw [k1, hn], forall₂_of_gaps (by rw [k1, k2, h.length_eq]) fun i w w' hi hi' => ?_⟩
  obtain ⟨a1, a2, a3⟩ := s1 i w hi
  obtain ⟨b1, b2, b3⟩ := s2 i w' hi'
  rw [← h.length_eq] at b1 b2 b3
  rw [← window_gap h] at b2
  by_cases hc : i + skip + window ≤ l.length
  · by_cases hf : finites (windowAt l i skip window) = []
    · rw [a2 hc hf, b2 hc hf]; exact gap_nan
    · rw [a3 hc hf, b3 hc fun k => hf ((window_gap h _ _ _).mpr k)]
      exact (gapF_fin _ _).gap
  · rw [a1 (by omega), b1 (by omega)]; exact gap_nan

/-! ### The moving windows of Bottleneck -/

/-- The running sums are numbers and the counts are the same. -/
def StateGap (s s' : Flt × Nat) : Prop := Fin2 s.1 s'.1 ∧ s.2 = s'.2

theorem addIn_gap {s s' : Flt × Nat} (h : StateGap s s') {x x' : Flt} (hx : GapF x x') : StateGap (addIn s x) (addIn s' x') := by
  obtain ⟨⟨p, q, e, e'⟩, hc⟩ := h
  rcases hx with ⟨a, b, rfl, rfl⟩ | ⟨rfl, rfl⟩
  · exact ⟨⟨p + a, q + b, by simp [addIn, Flt.isNan, e, Flt.add], by simp [addIn, Flt.isNan, e', Flt.add]⟩, by simp [addIn, Flt.isNan, hc]⟩
  · exact ⟨⟨p, q, e, e'⟩, hc⟩

theorem subOut_gap {s s' : Flt × Nat} (h : StateGap s s') {x x' : Flt} (hx : GapF x x') : StateGap (subOut s x) (subOut s' x') := by
  obtain ⟨⟨p, q, e, e'⟩, hc⟩ := h
  rcases hx with ⟨a, b, rfl, rfl⟩ | ⟨rfl, rfl⟩
  · exact ⟨⟨p - a, q - b, by simp [subOut, Flt.isNan, e, Flt.sub, Flt.neg, Flt.add, sub_eq_add_neg],
      by simp [subOut, Flt.isNan, e', Flt.sub, Flt.neg, Flt.add, sub_eq_add_neg]⟩, by simp [subOut, Flt.isNan, hc]⟩
  · exact ⟨⟨p, q, e, e'⟩, hc⟩

theorem runWindow_gap {out : Flt × Nat → Flt} (ho : ∀ s s', StateGap s s' → GapF (out s) (out s')) {l l' : List (Flt × Flt)}
    (h : List.Forall₂ (fun p p' => GapF p.1 p'.1 ∧ GapF p.2 p'.2) l l') {s s' : Flt × Nat} (hs : StateGap s s') :
    List.Forall₂ GapF (runWindow out s l) (runWindow out s' l') := by
  induction h generalizing s s' with
  | nil => exact .nil
  | cons h1 _ ih =>
    have := subOut_gap (addIn_gap hs h1.1) h1.2
    exact .cons (ho _ _ this) (ih this)

theorem runWindow_len (out : Flt × Nat → Flt) (l : List (Flt × Flt)) (s : Flt × Nat) : (runWindow out s l).length = l.length := by
  induction l generalizing s with
  | nil => rfl
  | cons p l ih => simp [runWindow, ih]

theorem bnMove_line {out : Flt × Nat → Flt} (ho : ∀ s s', StateGap s s' → GapF (out s) (out s')) {window n : Nat} (h1 : 1 ≤ window)
    (hw : window ≤ n) : GapLine n (bnMoveLine out window) := by
  intro l l' hn h
  have hx := gaps_num h
  have hlen : (l.map Val.num).length = n := by rw [List.length_map, hn]
  unfold bnMoveLine
  dsimp only
  generalize l.map Val.num = xs at hx hlen
  generalize l'.map Val.num = xs' at hx
  constructor
  · simp only [List.length_map, List.length_append, List.length_replicate, List.length_cons, runWindow_len, List.length_zip,
      List.length_drop]
    omega
  · have hs : StateGap ((xs.take window).foldl addIn (.fin 0, 0)) ((xs'.take window).foldl addIn (.fin 0, 0)) := by
      have ht := List.forall₂_take window hx
      generalize xs.take window = u at ht
      generalize xs'.take window = u' at ht
      have : ∀ s s', StateGap s s' → StateGap (u.foldl addIn s) (u'.foldl addIn s') := by
        induction ht with
        | nil => exact fun _ _ h => h
        | cons h1 _ ih => exact fun s s' h => ih _ _ (addIn_gap h h1)
      exact this _ _ ⟨⟨0, 0, rfl, rfl⟩, rfl⟩
    refine gaps_flt (List.rel_append ?_ (.cons (ho _ _ hs) (runWindow_gap ho ?_ hs)))
    · generalize window - 1 = k
      induction k with
      | zero => exact .nil
      | succ k ih => exact .cons gapF_nan ih
    · have hd := List.forall₂_drop window hx
      generalize xs.drop window = u at hd
      generalize xs'.drop window = u' at hd
      clear hs hlen
      induction hd generalizing xs xs' with
      | nil => exact .nil
      | cons h1 _ ih =>
        cases hx with
        | nil => exact .nil
        | cons h3 h4 => exact .cons ⟨h1, h3⟩ (ih _ _ h4)

theorem sumOut_gap (s s' : Flt × Nat) (h : StateGap s s') : GapF (sumOut s) (sumOut s') := by
  unfold sumOut
  rw [h.2]
  split
  · exact gapF_nan
  · exact h.1.gap

theorem meanOut_gap (s s' : Flt × Nat) (h : StateGap s s') : GapF (meanOut s) (meanOut s') := by
  unfold meanOut
  rw [h.2]
  split
  · exact gapF_nan
  · exact h.1.gap.div (by rename_i k; exact_mod_cast k)

theorem Gap.toFloat {v w : Val} (h : Gap v w) : Gap v.toFloat w.toFloat := by obtain ⟨a, b, rfl, rfl, h⟩ := h; exact h.gap

theorem windows_line {f : List Val → Val} (hf : ∀ l l', List.Forall₂ Gap l l' → Gap (f l) (f l')) (window n : Nat) :
    GapLine n (windowsLine f window) := by
  intro l l' hn h
  refine ⟨by simp [windowsLine, hn], ?_⟩
  unfold windowsLine
  rw [← h.length_eq]
  refine NDArray.forall₂_map fun i _ => ?_
  unfold windowStat
  split
  · exact gap_nan
  · exact (hf _ _ (List.forall₂_take window (List.forall₂_drop _ h))).toFloat

/-- `move_std` with a square root. -/
def MoveKind.Solid : MoveKind → Prop
  | .std root => RootOf root
  | _ => True

theorem move_line {k : MoveKind} (hk : k.Solid) {window n : Nat} (h1 : 1 ≤ window) (hw : window ≤ n) : GapLine n (k.line window) := by
  cases k with
  | sum => exact bnMove_line sumOut_gap h1 hw
  | mean => exact bnMove_line meanOut_gap h1 hw
  | min => exact windows_line (fun l l' h => Measure.gap (s := .min) trivial h) window n
  | max => exact windows_line (fun l l' h => Measure.gap (s := .max) trivial h) window n
  | std root => exact windows_line (fun l l' h => Measure.gap (s := .std root 0) ⟨by decide, hk⟩ h) window n


/-! ## The methods -/

theorem floaty : (DType.float.isNumeric = false) = False := by simp [DType.isNumeric]

theorem floatly {y z : Larry L} (h : y.Rel Gap OnlyFloat z) : y.dtype = .float := h.known

theorem floatly' {y z : Larry L} (h : y.Rel Gap OnlyFloat z) : z.dtype = .float := h.dtype ▸ h.known

theorem npAxis_lt {n : Nat} {a : Int} {k : Nat} (h : npAxis n a = .ok k) : k < n := by
  unfold npAxis at h
  split at h
  · cases h
  · rename_i e
    exact Except.ok.inj h ▸ pyIdx_lt' e

theorem demean_rel {center : List Flt → Flt} (hc : ∀ l l', List.Forall₂ GapF l l' → GapF (center l) (center l')) {y z : Larry L}
    (h : y.Rel Gap OnlyFloat z) (axis : Option Int) : Res.Agree (Larry.Rel Gap OnlyFloat) (y.demean center axis) (z.demean center axis) := by
  unfold Larry.demean
  simp only [floatly h, floatly' h, floaty, if_false, ← h.ndim]
  cases axis with
  | none => exact alongAll_gap h (demean_line hc _)
  | some i =>
    dsimp only
    cases hp : npAxis y.ndim i with
    | error e => exact rfl
    | ok ax => exact along_gap h (npAxis_lt hp) (demean_line hc _)

theorem ranking_rel {norm : RankNorm} (hs : norm.Solid) {y z : Larry L} (h : y.Rel Gap OnlyFloat z) (axis : Option Int) :
    Res.Agree (Larry.Rel Gap OnlyFloat) (y.ranking axis norm) (z.ranking axis norm) := by
  unfold Larry.ranking
  simp only [floatly h, floatly' h, floaty, if_false]
  cases norm with
  | unknown => exact rfl
  | pm1 => exact along_cases h axis _ (fun n => ranking_line hs (by simp) n)
  | n1 => exact along_cases h axis _ (fun n => ranking_line hs (by simp) n)
  | gaussian f => exact along_cases h axis _ (fun n => ranking_line hs (by simp) n)

theorem quantile_rel {argsort : List ℚ → List Nat} (ha : IsArgsort argsort) {y z : Larry L} (h : y.Rel Gap OnlyFloat z) (q : Int)
    (axis : Option Int) : Res.Agree (Larry.Rel Gap OnlyFloat) (y.quantile argsort q axis) (z.quantile argsort q axis) := by
  have hsz : z.size = y.size := by simp only [Larry.size, NDArray.size, h.x.1]
  have hsh : z.shape = y.shape := h.x.1.symm
  unfold Larry.quantile
  simp only [floatly h, floatly' h, floaty, if_false, ← h.ndim, hsz, hsh]
  by_cases h1 : q < 1
  · rw [if_pos h1, if_pos h1]; exact rfl
  rw [if_neg h1, if_neg h1]
  by_cases h2 : q = 1
  · rw [if_pos h2, if_pos h2]
    refine ⟨h.label, rfl, rfl, h.x.map fun v w hvw => ?_⟩
    rw [hvw.isNan]
    split
    · exact gap_nan
    · exact (gapF_fin 0 0).gap
  rw [if_neg h2, if_neg h2]
  have hq : 2 ≤ q.toNat := by omega
  cases axis with
  | none =>
    dsimp only
    split
    · exact rfl
    · exact alongAll_gap h (quantile_line ha hq _)
  | some i =>
    dsimp only
    cases hp : pyIdx y.ndim i with
    | none => exact rfl
    | some ax =>
      dsimp only
      split
      · exact rfl
      · exact along_gap h (pyIdx_lt' hp) (quantile_line ha hq _)

theorem push_rel {y z : Larry L} (h : y.Rel Gap OnlyFloat z) (window axis : Int) :
    Res.Agree (Larry.Rel Gap OnlyFloat) (y.push window axis) (z.push window axis) := by
  unfold Larry.push
  simp only [floatly h, floatly' h, floaty, if_false, ← h.ndim]
  cases hp : npAxis y.ndim axis with
  | error e => exact rfl
  | ok ax => exact along_gap h (npAxis_lt hp) (push_line _ _)

theorem movingsum_rel {y z : Larry L} (h : y.Rel Gap OnlyFloat z) (window : Int) (skip : Nat) (axis : Int) (norm : Bool) :
    Res.Agree (Larry.Rel Gap OnlyFloat) (y.movingsumForward window skip axis norm) (z.movingsumForward window skip axis norm) := by
  have hsh : z.shape = y.shape := h.x.1.symm
  unfold Larry.movingsumForward
  simp only [floatly h, floatly' h, floaty, if_false, ← h.ndim, hsh]
  cases hp : pyIdx y.ndim axis with
  | none => exact rfl
  | some ax =>
    dsimp only
    split
    · exact rfl
    split
    · exact rfl
    split
    · exact rfl
    exact along_gap h (pyIdx_lt' hp) (movingsum_line (by omega) skip norm _)

theorem moveBn_rel {k : MoveKind} (hk : k.Solid) {y z : Larry L} (h : y.Rel Gap OnlyFloat z) (window axis : Int) :
    Res.Agree (Larry.Rel Gap OnlyFloat) (k.run y window axis) (k.run z window axis) := by
  have hsh : z.shape = y.shape := h.x.1.symm
  rw [k.run_eq, k.run_eq]
  unfold Larry.moveBn
  simp only [floatly h, floatly' h, floaty, if_false, ← h.ndim, hsh]
  cases hp : pyIdx y.ndim axis with
  | none => exact rfl
  | some ax =>
    dsimp only
    by_cases hw : window < 1 ∨ (y.shape.getD ax 0 : Int) < window
    · rw [if_pos hw, if_pos hw]; exact rfl
    · rw [if_neg hw, if_neg hw]
      have h2 : window.toNat ≤ y.x.shape.getD ax 0 := by
        have : ¬ (y.shape.getD ax 0 : Int) < window := fun k => hw (.inr k)
        have e : y.shape.getD ax 0 = y.x.shape.getD ax 0 := rfl
        omega
      exact along_gap h (pyIdx_lt' hp) (move_line hk (by omega) h2)

theorem clip_rel {lo hi : ℚ} {y z : Larry L} (h : y.Rel Gap OnlyFloat z) :
    Res.Agree (Larry.Rel Gap OnlyFloat) (y.clip (.fin lo) (.fin hi)) (z.clip (.fin lo) (.fin hi)) := by
  unfold Larry.clip
  simp only [floatly h, floatly' h, floaty, if_false]
  split
  · exact rfl
  · refine ⟨h.label, rfl, rfl, h.x.map fun v w hvw => ?_⟩
    have key : ∀ a b, GapF a b → GapF (clip1 (.fin lo) (.fin hi) a) (clip1 (.fin lo) (.fin hi) b) := by
      have f : ∀ p, ∃ r, clip1 (.fin lo) (.fin hi) (.fin p) = .fin r := by
        intro p
        unfold clip1
        split
        · exact ⟨_, rfl⟩
        split
        · exact ⟨_, rfl⟩
        · exact ⟨_, rfl⟩
      rintro a b (⟨p, q, rfl, rfl⟩ | ⟨rfl, rfl⟩)
      · obtain ⟨r, hr⟩ := f p
        obtain ⟨r', hr'⟩ := f q
        rw [hr, hr']
        exact gapF_fin _ _
      · exact gapF_nan
    exact (key _ _ hvw.num).gap

theorem cum_line {op : Flt → Flt → Flt} (hop : ∀ a b a' b', GapF a b → GapF a' b' → GapF (op a a') (op b b')) (n : Nat) (u : ℚ) :
    GapLine n (cumGo (fun a b => .flt (op a.num b.num)) (.flt (.fin u))) := by
  intro l l' hn h
  refine ⟨by rw [← hn]; clear hn h; generalize Val.flt (.fin u) = a; induction l generalizing a with
    | nil => rfl
    | cons v l ih => simp [cumGo, ih], ?_⟩
  exact cumGo_rel (R := Gap) (fun a b a' b' h h' => (hop _ _ _ _ h.num h'.num).gap) h (gapF_fin u u).gap

theorem cumulate_rel {op : DType → Val → Val → Val} {opF : Flt → Flt → Flt} (ho : op .float = fun a b => .flt (opF a.num b.num))
    (hop : ∀ a b a' b', GapF a b → GapF a' b' → GapF (opF a a') (opF b b')) (u : Int) {y z : Larry L} (h : y.Rel Gap OnlyFloat z)
    (axis : Option Int) : Res.Agree (Larry.Rel Gap OnlyFloat) (y.cumulate op u axis) (z.cumulate op u axis) := by
  cases axis with
  | none => exact rfl
  | some i =>
    unfold Larry.cumulate
    dsimp only
    simp only [floatly h, floatly' h, floaty, if_false, ← h.ndim]
    cases hp : npAxis y.ndim i with
    | error e => exact rfl
    | ok ax =>
      have hx : NDArray.Rel Gap (y.x.map (replaceNan (ofInt .float u))) (z.x.map (replaceNan (ofInt .float u))) :=
        h.x.map fun v w hvw => by
          unfold replaceNan
          rw [hvw.isNan]
          split
          · exact (gapF_fin _ _).gap
          · exact hvw
      have hl : GapLine ((y.x.map (replaceNan (ofInt .float u))).shape.getD ax 0) (cumGo (op .float) (ofInt .float u)) := by
        rw [ho]; exact cum_line hop _ _
      have hm := mapLines_gap hx (ax := ax) (npAxis_lt hp) hl
      refine ⟨h.label, rfl, rfl, hm.1, fun idx hi => ?_⟩
      show Gap (if (y.x.get idx).isNan then _ else _) (if (z.x.get idx).isNan then _ else _)
      rw [(h.x.2 idx hi).isNan]
      split
      · exact gap_nan
      · exact hm.2 idx hi

theorem prod_red : (Larry.prodRed .float).Rel Gap OnlyFloat (Larry.prodRed .float) := by
  refine red_gap (fun l l' h => ?_) rfl rfl rfl
  have hn := gaps_num h
  refine GapF.gap ?_
  exact foldl_rel₂ (fun a b a' b' h h' => h.mul h') hn (gapF_fin 1 1)

theorem nan_lines {x x' : NDArray Val} (h : NDArray.Rel Gap x x') : NDArray.Same (x.map Val.isNan) (x'.map Val.isNan) :=
  ⟨h.1, fun idx hi => (h.2 idx hi).isNan⟩

theorem reduce_erase {y u : Larry L} {r : Red} {i : Int} (h : y.reduce r (some i) = .ok (.larry u)) {ax : Nat}
    (hp : pyIdx y.ndim i = some ax) : u.x.shape = y.x.shape.eraseIdx ax := by
  unfold Larry.reduce at h
  split at h
  · dsimp only at h
    have hpop : pyPop y.shape i = .ok (y.shape.eraseIdx ax) := by
      unfold pyPop
      rw [show y.shape.length = y.ndim from rfl, hp]
    rw [hpop] at h
    dsimp only at h
    split at h
    · cases h
    split at h
    · cases h
    split at h
    · cases h
    cases h
    rfl
  · split at h
    · cases h
    · dsimp only at h
      rw [hp] at h
      dsimp only at h
      split at h
      · cases h
      · split at h
        · cases h
        · cases h; rfl

theorem prod_rel {y z : Larry L} (h : y.Rel Gap OnlyFloat z) (axis : Option Int) :
    Res.Agree (Out.Rel Gap OnlyFloat) (y.prod axis) (z.prod axis) := by
  have hx : NDArray.Rel Gap (y.x.map (fun v => if v.isNan then .flt (.fin 1) else v)) (z.x.map (fun v => if v.isNan then .flt (.fin 1) else v)) :=
    h.x.map fun v w hvw => by
      rw [hvw.isNan]
      split
      · exact (gapF_fin _ _).gap
      · exact hvw
  have h1 : Larry.Rel Gap OnlyFloat ⟨y.x.map (fun v => if v.isNan then .flt (.fin 1) else v), .float, y.label⟩
      ⟨z.x.map (fun v => if v.isNan then .flt (.fin 1) else v), .float, z.label⟩ := ⟨h.label, rfl, rfl, hx⟩
  have hr := reduce_rel prod_red h1 axis
  have hall : (y.x.map Val.isNan).vals = (z.x.map Val.isNan).vals := by
    have := (NDArray.Rel.map (S := Eq) h.x (f := Val.isNan) (f' := Val.isNan) fun v w hvw => hvw.isNan).vals
    exact List.forall₂_eq_eq_eq ▸ this
  have n1 : ¬ (DType.float = .str ∨ DType.float = .object) := by decide
  unfold Larry.prod
  simp only [floatly h, floatly' h, if_neg n1, ← h.ndim]
  rcases hr.cases with ⟨a, b, e1, e2, hab⟩ | ⟨e, e1, e2⟩
  · rw [e1, e2]
    cases a with
    | scalar v =>
      cases b with
      | larry _ => exact hab.elim
      | scalar w =>
        show Gap (if _ then _ else _) (if _ then _ else _)
        rw [hall]
        split
        · exact gap_nan
        · exact hab
    | larry u =>
      cases b with
      | scalar _ => exact hab.elim
      | larry w =>
        cases axis with
        | none => exact hab
        | some i =>
          dsimp only
          cases hp : pyIdx y.ndim i with
          | none => exact rfl
          | some ax =>
            have hab' : Larry.Rel Gap OnlyFloat u w := hab
            have hsh : u.x.shape = y.x.shape.eraseIdx ax := reduce_erase e1 hp
            have hax : ax < y.x.shape.length := pyIdx_lt' hp
            refine ⟨hab'.label, hab'.dtype, hab'.known, hab'.x.1, fun idx hi => ?_⟩
            have hi' : InB (y.x.shape.eraseIdx ax) idx := hsh ▸ hi
            show Gap (if ((y.x.map Val.isNan).line ax idx).all id && _ then _ else _)
              (if ((z.x.map Val.isNan).line ax idx).all id && _ then _ else _)
            have e : (y.x.map Val.isNan).line ax idx = (z.x.map Val.isNan).line ax idx := by
              simp only [NDArray.line, NDArray.map]
              rw [← h.x.1]
              exact List.map_congr_left fun k hk => (h.x.2 _ (InB_insert hax (List.mem_range.mp hk) hi')).isNan
            rw [e, ← hab'.dtype]
            split
            · exact gap_nan
            · exact hab'.x.2 idx hi
  · rw [e1, e2]; exact rfl

/-! ## vacuum, cut_missing -/

theorem fin_same {x x' : NDArray Val} (h : NDArray.Rel Gap x x') : NDArray.Same (x.map Val.isFin) (x'.map Val.isFin) :=
  ⟨h.1, fun idx hi => (h.2 idx hi).isFin⟩

theorem rolled_shape {α : Type _} (f : List α → α) {x : NDArray α} {ax n : Nat} (hn : n = x.ndim) (hax : ax < n) :
    (NDArray.reduceLastN f (n - 1) (x.rollFront ax)).shape = [x.shape.getD ax 0] := by
  subst hn
  have : x.ndim - 1 = (x.shape.eraseIdx ax).length := by
    unfold NDArray.ndim at hax ⊢
    rw [List.length_eraseIdx_of_lt hax]
  rw [this]
  exact reduceLastN_shape _ _ _ _

theorem rolled_same {α : Type _} (f : List α → α) {x x' : NDArray α} (h : x.Same x') {ax n : Nat} (hn : n = x.ndim) (hax : ax < n) :
    (NDArray.reduceLastN f (n - 1) (x.rollFront ax)).Same (NDArray.reduceLastN f (n - 1) (x'.rollFront ax)) := by
  refine NDArray.Same.reduceLastN _ _ (h.rollFront (by omega)) ?_
  subst hn
  unfold NDArray.rollFront NDArray.ndim
  unfold NDArray.ndim at hax
  dsimp only
  rw [List.length_cons, List.length_eraseIdx_of_lt hax]
  omega

theorem vacuumAxis_gap {y z : Larry L} (h : y.Rel Gap OnlyFloat z) {axes : List Nat} {ax : Nat} (hax : ax < y.ndim) :
    y.vacuumAxis axes ax = z.vacuumAxis axes ax := by
  have hsh : z.shape = y.shape := h.x.1.symm
  unfold Larry.vacuumAxis
  rw [hsh, ← h.ndim, floatly h, floatly' h]
  split
  · rfl
  · dsimp only [npIsfinite]
    congr 1
    exact NDArray.Same.nonzero1 (rolled_same _ (fin_same h.x) rfl hax) (rolled_shape _ rfl hax)

theorem cutAxis_gap {y z : Larry L} (h : y.Rel Gap OnlyFloat z) {fraction : ℚ} {axes : List Nat} {ax : Nat} (hax : ax < y.ndim) :
    y.cutAxis fraction axes ax = z.cutAxis fraction axes ax := by
  have hsh : z.shape = y.shape := h.x.1.symm
  unfold Larry.cutAxis
  rw [hsh, ← h.ndim, floatly h, floatly' h]
  split
  · rfl
  · dsimp only [npIsfinite]
    congr 1
    have h1 := (fin_same h.x).map (fun t => if t then (1 : ℚ) else 0)
    have h2 := rolled_same List.sum h1 (ax := ax) (n := y.ndim) rfl hax
    have hs : (((z.x.map Val.isFin).map (fun t => if t then (1 : ℚ) else 0)).rollFront ax).shape =
        (((y.x.map Val.isFin).map (fun t => if t then (1 : ℚ) else 0)).rollFront ax).shape := by
      simp only [NDArray.rollFront, NDArray.map, h.x.1]
    rw [hs]
    have h3 : ∀ v : NDArray ℚ, y.ndim = v.ndim → (NDArray.reduceLastN List.sum (y.ndim - 1) (v.rollFront ax)).shape = [v.shape.getD ax 0] :=
      fun v e => rolled_shape List.sum e hax
    refine NDArray.Same.nonzero1 (n := y.x.shape.getD ax 0) ⟨h2.1, fun idx hi => ?_⟩ (h3 _ rfl)
    simp only [NDArray.zipWith]
    rw [h2.2 idx hi]

theorem kept_grid {y z : Larry L} (h : y.Rel Gap OnlyFloat z) {f : Nat → Res (List Nat)} {ids : List (List Nat)}
    (hr : mapRes f (List.range y.ndim) = .ok ids) (hf : ∀ ax is, ax < y.ndim → f ax = .ok is → ∀ i ∈ is, i < y.shape.getD ax 0) :
    NDArray.Rel Gap (y.x.grid ids) (z.x.grid ids) := by
  refine h.x.grid ?_
  have hm := mapRes_ok.mp hr
  have hlen : y.x.shape.length = ids.length := by have := hm.length_eq; rw [List.length_range] at this; exact this
  rw [List.forall₂_iff_get]
  refine ⟨hlen.symm, fun k h1 h2 => ?_⟩
  have := (List.forall₂_iff_get.mp hm).2 k (by rw [List.length_range]; exact h2) h1
  simp only [List.get_eq_getElem, List.getElem_range] at this ⊢
  have h3 := hf _ _ h2 this
  unfold Larry.shape at h3
  rw [List.getD_eq_getElem?_getD, List.getElem?_eq_getElem h2] at h3
  exact h3

theorem vacuumAxis_kept {y : Larry L} {axes : List Nat} {ax : Nat} (hax : ax < y.ndim) {is : List Nat}
    (his : y.vacuumAxis axes ax = .ok is) : ∀ i ∈ is, i < y.shape.getD ax 0 := by
  unfold Larry.vacuumAxis at his
  split at his
  · cases his
    exact fun i hi => List.mem_range.mp hi
  · split at his
    · cases his
    · rename_i bb hb
      have hbs : bb.shape = y.x.shape := by
        unfold npIsfinite at hb
        split at hb <;> simp at hb
        rw [← hb]; rfl
      cases his
      intro i hi
      unfold NDArray.nonzero1 at hi
      have h1 := List.mem_range.mp (List.mem_filter.mp hi).1
      rw [rolled_shape (fun l => l.any id) (x := bb) (ax := ax) (n := y.ndim) (by simp only [NDArray.ndim, Larry.ndim, hbs]) hax, hbs] at h1
      exact h1

theorem vacuum_rel {y z : Larry L} (h : y.Rel Gap OnlyFloat z) (axis : Option (List Int)) :
    Res.Agree (Larry.Rel Gap OnlyFloat) (y.vacuum axis) (z.vacuum axis) := by
  have hm : mapRes (y.vacuumAxis (vacuumAxes y.ndim axis)) (List.range y.ndim) =
      mapRes (z.vacuumAxis (vacuumAxes z.ndim axis)) (List.range z.ndim) := by
    rw [← h.ndim]
    exact mapRes_congr fun ax hax => vacuumAxis_gap h (List.mem_range.mp hax)
  unfold Larry.vacuum
  rw [← hm]
  cases hr : mapRes (y.vacuumAxis (vacuumAxes y.ndim axis)) (List.range y.ndim) with
  | error e => exact rfl
  | ok ids =>
    refine ⟨?_, h.dtype, h.known, kept_grid h hr fun ax is hax his => vacuumAxis_kept hax his⟩
    dsimp only
    unfold Larry.keptLab
    rw [h.label]

theorem cutAxis_range {y : Larry L} {fraction : ℚ} {axes : List Nat} {ax : Nat} (hax : ax < y.ndim) {is : List Nat}
    (his : y.cutAxis fraction axes ax = .ok is) : ∀ i ∈ is, i < y.shape.getD ax 0 := by
  unfold Larry.cutAxis at his
  split at his
  · cases his
    exact fun i hi => List.mem_range.mp hi
  · split at his
    · cases his
    · rename_i bb hb
      have hbs : bb.shape = y.x.shape := by
        unfold npIsfinite at hb
        split at hb <;> simp at hb
        rw [← hb]; rfl
      cases his
      intro i hi
      unfold NDArray.nonzero1 at hi
      have h1 := List.mem_range.mp (List.mem_filter.mp hi).1
      have h2 := rolled_shape List.sum (x := bb.map (fun t => if t then (1 : ℚ) else 0)) (ax := ax) (n := y.ndim)
        (by simp only [NDArray.ndim, Larry.ndim, NDArray.map, hbs]) hax
      simp only [NDArray.zipWith] at h1
      rw [h2] at h1
      simp only [NDArray.map, hbs] at h1
      exact h1

theorem cutMissing_rel {y z : Larry L} (h : y.Rel Gap OnlyFloat z) (fraction : ℚ) (axis : Option Int) :
    Res.Agree (Larry.Rel Gap OnlyFloat) (y.cutMissing fraction axis) (z.cutMissing fraction axis) := by
  unfold Larry.cutMissing
  rw [← h.ndim]
  cases ha : cutAxes y.ndim axis with
  | error e => exact rfl
  | ok axes =>
    dsimp only
    have hm : mapRes (y.cutAxis fraction axes) (List.range y.ndim) = mapRes (z.cutAxis fraction axes) (List.range y.ndim) :=
      mapRes_congr fun ax hax => cutAxis_gap h (List.mem_range.mp hax)
    rw [← hm]
    cases hr : mapRes (y.cutAxis fraction axes) (List.range y.ndim) with
    | error e => exact rfl
    | ok ids =>
      dsimp only
      have hs : (z.x.grid ids).size = (y.x.grid ids).size := rfl
      rw [hs]
      split
      · refine ⟨rfl, rfl, rfl, rfl, fun idx hi => ?_⟩
        cases idx with
        | nil => exact hi.elim
        | cons i idx => exact absurd hi.1 (Nat.not_lt_zero _)
      · refine ⟨?_, h.dtype, h.known, kept_grid h hr fun ax is hax his => cutAxis_range hax his⟩
        unfold Larry.keptLab
        rw [h.label]

/-! ## Arithmetic, fills, merge -/

theorem gaps_fills : FillsRelated Gap OnlyFloat := by
  rintro d rfl
  refine ⟨fun m hm => ?_, fun h => by simp [missingMarker] at h⟩
  obtain rfl : _ = m := by simpa [missingMarker] using hm
  exact gap_nan

theorem gaps_merges : MergesRelated Gap OnlyFloat := by
  rintro d rfl v w hvw
  refine ⟨?_, ?_⟩
  · obtain ⟨a, b, rfl, rfl, h⟩ := hvw
    exact h.isFinite
  · rintro e rfl -
    exact hvw

/-- `+`, `-` and `*`. -/
def ArithOp.Solid : ArithOp → Prop
  | .add | .sub | .mul => True
  | _ => False

theorem arith_gap {op : ArithOp} (ho : op.Solid) (py3 : Bool) : (op.uf py3).Rel Gap OnlyFloat (op.uf py3) := by
  have dt : ∀ {db di : DType} (d e : DType) (r : DType), OnlyFloat d → OnlyFloat e → Arith.loopDt db di d e = .ok r → OnlyFloat r := by
    rintro db di d e r rfl rfl h
    exact (Except.ok.inj h).symm
  cases op <;> first | exact ho.elim | skip
  all_goals
    refine ⟨?_, fun _ _ _ _ => rfl, fun d e r => dt d e r⟩
    rintro _ _ _ _ ⟨a, b, rfl, rfl, h⟩ ⟨a', b', rfl, rfl, h'⟩
    first
      | exact (h.add h').gap
      | exact (h.sub h').gap
      | exact (h.mul h').gap

/-! ## C120 -/

/-- Same names, floats, and under each combination of names a number in both larrys or NaN in both. -/
structure Larry.SameGaps (y z : Larry L) : Prop where
  label : z.label = y.label
  dtype : y.dtype = .float ∧ z.dtype = .float
  has : ∀ names v w, y.Has names v → z.Has names w →
    (v = .flt .nan ∧ w = .flt .nan) ∨ ∃ p q : ℚ, v = .flt (.fin p) ∧ w = .flt (.fin q)

/-- The same of results that may be single elements. -/
def Out.SameGaps : Out L → Out L → Prop
  | .scalar v, .scalar w => (v = .flt .nan ∧ w = .flt .nan) ∨ ∃ p q : ℚ, v = .flt (.fin p) ∧ w = .flt (.fin q)
  | .larry y, .larry z => y.SameGaps z
  | _, _ => False

theorem gap_iff {v w : Val} : Gap v w ↔ (v = .flt .nan ∧ w = .flt .nan) ∨ ∃ p q : ℚ, v = .flt (.fin p) ∧ w = .flt (.fin q) := by
  constructor
  · rintro ⟨a, b, rfl, rfl, ⟨p, q, rfl, rfl⟩ | ⟨rfl, rfl⟩⟩
    · exact .inr ⟨p, q, rfl, rfl⟩
    · exact .inl ⟨rfl, rfl⟩
  · rintro (⟨rfl, rfl⟩ | ⟨p, q, rfl, rfl⟩)
    · exact gap_nan
    · exact (gapF_fin _ _).gap

theorem Larry.SameGaps.rel {y z : Larry L} (h : y.SameGaps z) (hy : y.Valid) (hz : z.Valid) : y.Rel Gap OnlyFloat z := by
  refine ⟨h.label.symm, h.dtype.1.trans h.dtype.2.symm, h.dtype.1, by rw [hy.shape_eq, hz.shape_eq, h.label], fun idx hi => ?_⟩
  rw [hy.shape_eq] at hi
  obtain ⟨names, hat⟩ := At_of_inB hi
  exact gap_iff.mpr (h.has names _ _ ⟨idx, hat, rfl⟩ ⟨idx, by rw [h.label]; exact hat, rfl⟩)

theorem sameGaps_of {y z : Larry L} (h : y.Rel Gap OnlyFloat z) (hy : y.Valid) : y.SameGaps z := by
  refine ⟨h.label.symm, ⟨floatly h, floatly' h⟩, ?_⟩
  rintro names v w ⟨idx, hat, rfl⟩ ⟨idx', hat', rfl⟩
  rw [← h.label] at hat'
  obtain rfl : idx' = idx := At_unique hy.nodup hat' hat
  exact gap_iff.mp (h.x.2 _ (by rw [hy.shape_eq]; exact At_inB hat))

theorem out_sameGaps {a b : Out L} (h : a.Rel Gap OnlyFloat b) (ha : ∀ u, a = .larry u → u.Valid) : a.SameGaps b := by
  cases a <;> cases b <;> first
    | exact h.elim
    | exact gap_iff.mp h
    | exact sameGaps_of h (ha _ rfl)

variable [LinearOrder L]

/-- A call whose gaps depend on the gaps of its arguments only. Values among the arguments may differ if gaps are in the same places. -/
inductive Cmd.Gaps : Cmd L → Cmd L → Prop
  | new {x x' : NDArray Val} (label) : x.shape = x'.shape → (∀ idx, InB x.shape idx → Gap (x.get idx) (x'.get idx)) →
      Cmd.Gaps (.new x .float label) (.new x' .float label)
  | moves {c} : c.Moves → Cmd.Gaps c c
  | arith {op : ArithOp} (py3 i j) : op.Solid → Cmd.Gaps (.binop (op.uf py3) i j) (.binop (op.uf py3) i j)
  | arithArray {op : ArithOp} {x x' : NDArray Val} (py3 i) : op.Solid → x.shape = x'.shape →
      (∀ idx, InB x.shape idx → Gap (x.get idx) (x'.get idx)) →
      Cmd.Gaps (.binopArray (op.uf py3) i x .float) (.binopArray (op.uf py3) i x' .float)
  | merge (i j update) : Cmd.Gaps (.merge i j update) (.merge i j update)
  | set {v w} (i names) : Gap v w → Cmd.Gaps (.set i names v) (.set i names w)
  | measure {s : Measure} (i axis) : s.Solid → Cmd.Gaps (.reduce s.func i axis) (.reduce s.func i axis)
  | lastrank (i axis) : Cmd.Gaps (.reduce lastrankRed i axis) (.reduce lastrankRed i axis)
  | prod (i axis) : Cmd.Gaps (.prod i axis) (.prod i axis)
  | cumsum (i axis) : Cmd.Gaps (.cumsum i axis) (.cumsum i axis)
  | cumprod (i axis) : Cmd.Gaps (.cumprod i axis) (.cumprod i axis)
  | clip (i) (lo hi : ℚ) : Cmd.Gaps (.clip i (.fin lo) (.fin hi)) (.clip i (.fin lo) (.fin hi))
  | push (i window axis) : Cmd.Gaps (.push i window axis) (.push i window axis)
  | ranking {norm : RankNorm} (i axis) : norm.Solid → Cmd.Gaps (.ranking i axis norm) (.ranking i axis norm)
  | quantile {argsort} (i q axis) : IsArgsort argsort → Cmd.Gaps (.quantile argsort i q axis) (.quantile argsort i q axis)
  | demean (i axis) : Cmd.Gaps (.demean nanmean i axis) (.demean nanmean i axis)
  | demedian (i axis) : Cmd.Gaps (.demean medianOf i axis) (.demean medianOf i axis)
  | movingsumForward (i window skip axis norm) :
      Cmd.Gaps (.movingsumForward i window skip axis norm) (.movingsumForward i window skip axis norm)
  | moveBn {k : MoveKind} (i window axis) : k.Solid → Cmd.Gaps (.moveBn k i window axis) (.moveBn k i window axis)
  | vacuum (i axis) : Cmd.Gaps (.vacuum i axis) (.vacuum i axis)
  | cutMissing (i fraction axis) : Cmd.Gaps (.cutMissing i fraction axis) (.cutMissing i fraction axis)

theorem results_gaps {st st' : Store L} (hv : st.Valid) (h : st.Rel Gap OnlyFloat st') {c c' : Cmd L} (hc : c.Gaps c') :
    Res.Agree (Store.Rel Gap OnlyFloat) (c.results st) (c'.results st') := by
  have old : ∀ {c c' : Cmd L}, c.Rel Gap OnlyFloat c' → Res.Agree (Store.Rel Gap OnlyFloat) (c.results st) (c'.results st') :=
    fun hc => results_rel gaps_fills rfl hv h hc
  cases hc with
  | new label hs hx => exact old (.new label ⟨hs, hx⟩ rfl)
  | moves hm => exact old (moves_rel hm)
  | arith py3 i j ho => exact old (.binop i j (arith_gap ho py3))
  | arithArray py3 i ho hs hx => exact old (.binopArray i (arith_gap ho py3) ⟨hs, hx⟩ rfl)
  | merge i j update => exact old (.merge i j update gaps_merges)
  | set i names hvw => exact old (.set i names hvw)
  | measure i axis hs => exact old (.reduce i axis (measure_rel hs))
  | lastrank i axis => exact old (.reduce i axis lastrank_rel)
  | prod i axis => exact on_rel hv h i fun y z _ hyz => out_rel (prod_rel hyz axis)
  | cumsum i axis => exact on_rel hv h i fun y z _ hyz => one_rel (cumulate_rel (opF := Flt.add) rfl (fun _ _ _ _ h h' => h.add h') 0 hyz axis)
  | cumprod i axis => exact on_rel hv h i fun y z _ hyz => one_rel (cumulate_rel (opF := Flt.mul) rfl (fun _ _ _ _ h h' => h.mul h') 1 hyz axis)
  | clip i lo hi => exact on_rel hv h i fun y z _ hyz => one_rel (clip_rel hyz)
  | push i window axis => exact on_rel hv h i fun y z _ hyz => one_rel (push_rel hyz window axis)
  | ranking i axis hs => exact on_rel hv h i fun y z _ hyz => one_rel (ranking_rel hs hyz axis)
  | quantile i q axis ha => exact on_rel hv h i fun y z _ hyz => one_rel (quantile_rel ha hyz q axis)
  | demean i axis => exact on_rel hv h i fun y z _ hyz => one_rel (demean_rel (fun _ _ => nanmean_gap) hyz axis)
  | demedian i axis => exact on_rel hv h i fun y z _ hyz => one_rel (demean_rel (fun _ _ => median_gap) hyz axis)
  | movingsumForward i window skip axis norm =>
    exact on_rel hv h i fun y z _ hyz => one_rel (movingsum_rel hyz window skip axis norm)
  | moveBn i window axis hk => exact on_rel hv h i fun y z _ hyz => one_rel (moveBn_rel hk hyz window axis)
  | vacuum i axis => exact on_rel hv h i fun y z _ hyz => one_rel (vacuum_rel hyz axis)
  | cutMissing i fraction axis => exact on_rel hv h i fun y z _ hyz => one_rel (cutMissing_rel hyz fraction axis)

omit [LinearOrder L] in
theorem target_gaps {c c' : Cmd L} (hc : c.Gaps c') : c.target = c'.target := by cases hc <;> rfl

theorem step_gaps {st st' : Store L} (hv : st.Valid) (h : st.Rel Gap OnlyFloat st') {c c' : Cmd L} (hc : c.Gaps c') :
    Res.Agree (Store.Rel Gap OnlyFloat) (c.step st) (c'.step st') := by
  unfold Cmd.step
  rw [← target_gaps hc]
  rcases (results_gaps hv h hc).cases with ⟨zs, zs', h1, h2, h3⟩ | ⟨e, h1, h2⟩
  · rw [h1, h2]
    simp only
    cases c.target with
    | none => exact List.rel_append h h3
    | some i => exact foldl_rel h i h3
  · rw [h1, h2]; exact rfl

omit [LinearOrder L] in
theorem store_rel {st st' : Store L} (hv : st.Valid) (hv' : st'.Valid) (h : List.Forall₂ Larry.SameGaps st st') :
    st.Rel Gap OnlyFloat st' := by
  induction h with
  | nil => exact .nil
  | cons h1 _ ih =>
    exact .cons (h1.rel (hv _ (by simp)) (hv' _ (by simp))) (ih (fun y hy => hv y (by simp [hy])) fun y hy => hv' y (by simp [hy]))

omit [LinearOrder L] in
theorem store_gaps {st st' : Store L} (hv : st.Valid) (h : st.Rel Gap OnlyFloat st') : List.Forall₂ Larry.SameGaps st st' := by
  induction h with
  | nil => exact .nil
  | cons h1 _ ih => exact .cons (sameGaps_of h1 (hv _ (by simp))) (ih fun y hy => hv y (by simp [hy]))

/-- C120: one call on larrys that differ in their numbers only, not in where numbers are missing, raises the same exception or gives
larrys that differ in their numbers only. -/
theorem C120_step {st st' : Store L} (hv : st.Valid) (hv' : st'.Valid) (h : List.Forall₂ Larry.SameGaps st st') {c c' : Cmd L}
    (hc : c.Gaps c') (hf : c.Fair st) : Res.Agree (List.Forall₂ Larry.SameGaps) (c.step st) (c'.step st') := by
  rcases (step_gaps hv (store_rel hv hv' h) hc).cases with ⟨zs, zs', h1, h2, h3⟩ | ⟨e, h1, h2⟩
  · rw [h1, h2]; exact store_gaps (C64_step hv hf h1) h3
  · rw [h1, h2]; exact rfl

/-- C120: so does a whole program. -/
theorem C120_program {st st' : Store L} (hv : st.Valid) (hv' : st'.Valid) (h : List.Forall₂ Larry.SameGaps st st')
    {cs cs' : List (Cmd L)} (hc : List.Forall₂ Cmd.Gaps cs cs') (hfair : FairAll st cs) :
    List.Forall₂ Larry.SameGaps (runAll st cs) (runAll st' cs') := by
  have h0 := store_rel hv hv' h
  clear h hv'
  induction hc generalizing st st' with
  | nil => exact store_gaps hv h0
  | @cons c c' cs cs' h1 _ ih =>
    obtain ⟨f1, f2, f3⟩ := hfair
    unfold runAll
    rcases (step_gaps hv h0 h1).cases with ⟨zs, zs', k1, k2, k3⟩ | ⟨e, k1, k2⟩
    · rw [k1, k2]; exact ih (C64_step hv f1 k1) (f2 _ k1) k3
    · rw [k1, k2]; exact ih hv (f3 e k1) h0

/-- A larry that shows where `y` has numbers: zero for a number. -/
def Larry.blank (y : Larry L) : Larry L := y.onValues fun v => if v.isNan then v else .flt (.fin 0)

omit [LinearOrder L] in
theorem blank_gaps {y : Larry L} (hy : y.Valid) (hd : y.dtype = .float)
    (hn : ∀ names v, y.Has names v → v = .flt .nan ∨ ∃ q : ℚ, v = .flt (.fin q)) : y.SameGaps y.blank := by
  refine ⟨rfl, ⟨hd, hd⟩, ?_⟩
  rintro names v w hvh ⟨idx', hat', rfl⟩
  obtain ⟨idx, hat, rfl⟩ := id hvh
  obtain rfl : idx' = idx := At_unique hy.nodup hat' hat
  rcases hn names _ hvh with e | ⟨q, e⟩
  · refine .inl ⟨e, ?_⟩
    show (if (y.x.get idx').isNan then y.x.get idx' else _) = _
    rw [e]
    rfl
  · refine .inr ⟨q, 0, e, ?_⟩
    show (if (y.x.get idx').isNan then y.x.get idx' else _) = _
    rw [e]
    rfl

/-- C120: the gaps in the results of a program can be had without the numbers: run it on zeros. -/
theorem C120_blank {st : Store L} (hv : st.Valid) (hd : ∀ y ∈ st, y.dtype = .float)
    (hn : ∀ y ∈ st, ∀ names v, y.Has names v → v = .flt .nan ∨ ∃ q : ℚ, v = .flt (.fin q))
    {cs : List (Cmd L)} (hc : ∀ c ∈ cs, c.Gaps c) (hfair : FairAll st cs) :
    List.Forall₂ Larry.SameGaps (runAll st cs) (runAll (st.map Larry.blank) cs) := by
  refine C120_program hv ?_ ?_ (List.forall₂_same.mpr hc) hfair
  · intro z hz
    obtain ⟨y, hy, rfl⟩ := List.mem_map.mp hz
    exact ⟨(hv y hy).shape_eq, (hv y hy).nodup, (hv y hy).ndim_pos⟩
  · clear hfair hc cs
    induction st with
    | nil => exact .nil
    | cons y st ih =>
      exact .cons (blank_gaps (hv y (by simp)) (hd y (by simp)) (hn y (by simp)))
        (ih (fun z hz => hv z (by simp [hz])) (fun z hz => hd z (by simp [hz])) fun z hz => hn z (by simp [hz]))

/-- C120: reductions, to an element or to a larry, are missing in the same places. -/
theorem C120_reductions {y z : Larry L} (hy : y.Valid) (hz : z.Valid) (h : y.SameGaps z) {s : Measure} (hs : s.Solid) (axis : Option Int) :
    Res.Agree Out.SameGaps (s.of y axis) (s.of z axis) ∧
    Res.Agree Out.SameGaps (y.reduce lastrankRed axis) (z.reduce lastrankRed axis) ∧
    Res.Agree Out.SameGaps (y.prod axis) (z.prod axis) := by
  have hr := h.rel hy hz
  have key : ∀ {a b : Res (Out L)}, Res.Agree (Out.Rel Gap OnlyFloat) a b → (∀ u, a = .ok (.larry u) → u.Valid) →
      Res.Agree Out.SameGaps a b := by
    intro a b hab hu
    rcases hab.cases with ⟨v, w, rfl, rfl, k⟩ | ⟨e, rfl, rfl⟩
    · exact out_sameGaps k fun u hu' => hu u (by rw [hu'])
    · exact rfl
  refine ⟨?_, key (reduce_rel lastrank_rel hr axis) fun u hu => reduce_valid hy hu, key (prod_rel hr axis) fun u hu => prod_valid hy hu⟩
  rw [(Reduction.measure s).of_eq |> fun e => show s.of y axis = _ from e y axis,
    (Reduction.measure s).of_eq |> fun e => show s.of z axis = _ from e z axis]
  exact key (reduce_rel (measure_rel hs) hr axis) fun u hu => reduce_valid hy hu

omit [LinearOrder L] in
/-- C120: `ismissing` is the same for both. -/
theorem C120_ismissing {y z : Larry L} (hy : y.Valid) (hz : z.Valid) (h : y.SameGaps z) : y.ismissing.Same z.ismissing := by
  have hr := h.rel hy hz
  unfold Larry.ismissing
  rw [floatly hr, floatly' hr]
  refine ⟨h.label.symm, rfl, hr.x.1, fun idx hi => congrArg Val.bool ?_⟩
  have hg : Gap (y.x.get idx) (z.x.get idx) := hr.x.2 idx hi
  simp only [La.ismissing, missingMarker, NDArray.map]
  obtain ⟨a, b, e1, e2, ⟨p, q, rfl, rfl⟩ | ⟨rfl, rfl⟩⟩ := hg <;> rw [e1, e2]

/-- The methods that work element by element and give a number for a number; of the functions of a library, those that do so
(`exp`, not `log` or `sqrt`). -/
def ElemMethod.Solid : ElemMethod → Prop
  | .sign | .power _ | .neg | .pos | .abs => True
  | .nanReplace r => ∃ q : ℚ, r = .fin q
  | .log f => f .nan = .nan ∧ ∀ p : ℚ, ∃ q : ℚ, f (.fin p) = .fin q
  | _ => False

theorem elem_gap {m : ElemMethod} (hm : m.Solid) {v w : Val} (h : Gap v w) : Gap (m.fn v) (m.fn w) := by
  obtain ⟨a, b, rfl, rfl, ⟨p, q, rfl, rfl⟩ | ⟨rfl, rfl⟩⟩ := h
  · have f : ∀ r : ℚ, ∃ t : ℚ, m.fn (.flt (.fin r)) = .flt (.fin t) := by
      intro r
      cases m with
      | sign => simp only [ElemMethod.fn, Elem.sign, Flt.sign]; split <;> exact ⟨_, rfl⟩
      | power q =>
        simp only [ElemMethod.fn, Elem.power, Flt.pow]
        split <;> exact ⟨_, rfl⟩
      | neg => exact ⟨_, rfl⟩
      | pos => exact ⟨_, rfl⟩
      | abs => exact ⟨_, rfl⟩
      | nanReplace _ => exact ⟨_, rfl⟩
      | log g =>
        obtain ⟨t, ht⟩ := hm.2 r
        exact ⟨t, congrArg Val.flt ht⟩
      | _ => exact hm.elim
    obtain ⟨t, ht⟩ := f p
    obtain ⟨t', ht'⟩ := f q
    rw [ht, ht']
    exact (gapF_fin _ _).gap
  · cases m with
    | sign => exact gap_nan
    | power q =>
      simp only [ElemMethod.fn, Elem.power, Flt.pow]
      split
      · exact (gapF_fin _ _).gap
      · exact gap_nan
    | neg => exact gap_nan
    | pos => exact gap_nan
    | abs => exact gap_nan
    | nanReplace r => obtain ⟨q, rfl⟩ := hm; exact (gapF_fin q q).gap
    | log g => exact (show GapF (g .nan) (g .nan) from by rw [hm.1]; exact gapF_nan).gap
    | _ => exact hm.elim

omit [LinearOrder L] in
/-- C120: the methods that work element by element. -/
theorem C120_elementwise {y z : Larry L} (hy : y.Valid) (hz : z.Valid) (h : y.SameGaps z) {m : ElemMethod} (hm : m.Solid) :
    Res.Agree Larry.SameGaps (y.elem m) (z.elem m) := by
  have hr := h.rel hy hz
  have key : (y.mapped m.fn .float).SameGaps (z.mapped m.fn .float) :=
    sameGaps_of ⟨hr.label, rfl, rfl, hr.x.map fun v w => elem_gap hm⟩ hy
  cases m <;> first
    | exact hm.elim
    | (simp only [Larry.elem, floatly hr, floatly' hr, floaty, if_false]; exact key)

/-! ## Where numbers do matter -/

/-- `/`: zero by zero is NaN, one by one is not. -/
theorem C120_division (py3 : Bool) : ¬ Gap ((ArithOp.uf py3 .div).f (fl 0) (fl 0)) ((ArithOp.uf py3 .div).f (fl 1) (fl 1)) ∧
    Gap (fl 0) (fl 1) := by
  refine ⟨?_, (gapF_fin _ _).gap⟩
  rw [gap_iff]
  cases py3 <;> simp [ArithOp.uf, Arith.npDivide, Arith.npTrueDivide, Arith.loop, fl, Val.num, Flt.div, Flt.infOf]

/-- `zscore`: where all numbers are equal the result is NaN. -/
theorem C120_zscore (root : Flt → Flt) (h0 : root (.fin 0) = .fin 0) (h1 : root (.fin 1) = .fin 1) :
    zscoreLine (fun l => root (varOf 0 l)) [fl 1, fl 1] = [.flt .nan, .flt .nan] ∧
    zscoreLine (fun l => root (varOf 0 l)) [fl 0, fl 2] = [fl (-1), fl 1] := by
  constructor
  · simp [zscoreLine, demeanLine, nanmean, varOf, fl, Val.num, Flt.isNan, Flt.sum, Flt.add, Flt.sub, Flt.neg, Flt.mul, Flt.div, Flt.infOf, h0]
  · simp [zscoreLine, demeanLine, nanmean, varOf, fl, Val.num, Flt.isNan, Flt.sum, Flt.add, Flt.sub, Flt.neg, Flt.mul, Flt.div, Flt.infOf]
    norm_num [h1, Flt.div]

/-- `var` with `ddof` 2 of two numbers: NaN if they are equal, else infinite. -/
theorem C120_ddof : (Measure.var 2).func.f [fl 1, fl 1] = .flt .nan ∧ (Measure.var 2).func.f [fl 1, fl 2] = .flt .pinf := by
  constructor
  · simp [Measure.func, bnNanvar, varVals, varOf, fl, Val.num, Flt.isNan, Flt.sum, Flt.add, Flt.sub, Flt.neg, Flt.mul, Flt.div, Flt.infOf]
  · simp [Measure.func, bnNanvar, varVals, varOf, fl, Val.num, Flt.isNan, Flt.sum, Flt.add, Flt.sub, Flt.neg, Flt.mul, Flt.div, Flt.infOf]
    norm_num [Flt.div, Flt.infOf]

/-! ## Examples -/

/-- Prices of two things on three days, one missing. -/
def exGaps : Larry Nat := ⟨NDArray.ofList [2, 3] [fl 1, .flt .nan, fl 3, fl 4, fl 5, fl 6], .float, [[0, 1], [10, 11, 12]]⟩

/-- Other prices. -/
def exGaps' : Larry Nat := ⟨NDArray.ofList [2, 3] [fl 7, .flt .nan, fl 7, fl 7, fl 7, fl 7], .float, [[0, 1], [10, 11, 12]]⟩

theorem exGaps_valid : exGaps.Valid ∧ exGaps'.Valid := ⟨⟨rfl, by decide, by decide⟩, ⟨rfl, by decide, by decide⟩⟩

theorem exGaps_same : exGaps.SameGaps exGaps' := by
  refine sameGaps_of ⟨rfl, rfl, rfl, rfl, fun idx hidx => ?_⟩ exGaps_valid.1
  have hidx := mem_allIdx.mpr hidx
  rw [show allIdx exGaps.x.shape = [[0, 0], [0, 1], [0, 2], [1, 0], [1, 1], [1, 2]] from by decide] at hidx
  simp only [List.mem_cons, List.not_mem_nil, or_false] at hidx
  rcases hidx with rfl | rfl | rfl | rfl | rfl | rfl
  · exact (gapF_fin 1 7).gap
  · exact gap_nan
  · exact (gapF_fin 3 7).gap
  · exact (gapF_fin 4 7).gap
  · exact (gapF_fin 5 7).gap
  · exact (gapF_fin 6 7).gap

/-- Take out the mean of each day, sum up, add the first larry, throw away the days with half or more missing, mean of each row. -/
def exGapProgram : List (Cmd Nat) :=
  [.demean nanmean 0 (some 0), .cumsum 1 (some 1), .binop (ArithOp.uf true .add) 2 0, .cutMissing 3 (1 / 2) (some 0),
    .reduce (Measure.func .mean) 4 (some 1)]

theorem exGapProgram_gaps : ∀ c ∈ exGapProgram, c.Gaps c := by
  simp only [exGapProgram, List.mem_cons, List.not_mem_nil, or_false]
  rintro c (rfl | rfl | rfl | rfl | rfl)
  · exact .demean _ _
  · exact .cumsum _ _
  · exact .arith _ _ _ trivial
  · exact .cutMissing _ _ _
  · exact .measure (s := .mean) _ _ trivial

theorem exGapProgram_fair (st : Store Nat) : FairAll st exGapProgram := by
  unfold exGapProgram
  refine ⟨trivial, fun _ _ => ?_, fun _ _ => ?_⟩
  all_goals refine ⟨trivial, fun _ _ => ?_, fun _ _ => ?_⟩
  all_goals refine ⟨trivial, fun _ _ => ?_, fun _ _ => ?_⟩
  all_goals refine ⟨trivial, fun _ _ => ?_, fun _ _ => ?_⟩
  all_goals exact ⟨trivial, fun _ _ => trivial, fun _ _ => trivial⟩

example : List.Forall₂ Larry.SameGaps (runAll [exGaps] exGapProgram) (runAll [exGaps'] exGapProgram) :=
  C120_program (by simpa [Store.Valid] using exGaps_valid.1) (by simpa [Store.Valid] using exGaps_valid.2) (.cons exGaps_same .nil)
    (List.forall₂_same.mpr exGapProgram_gaps) (exGapProgram_fair _)

/-- All five calls go through. -/
example : (runAll [exGaps] exGapProgram).length = 6 := by decide +kernel

end La
