import Verif.Props.Twice

/-!
# Property C48, continued: the norm `'gaussian'`
-/

namespace La
open Larry
variable {L : Type _}

/-- A line ranked with norm `'gaussian'`: NaN stays NaN, a single value becomes 0, the others are `ndtri` of their rank,
spread over the whole length `n` and moved inside `(0, 1)`. -/
def GaussLine (ndtri : Flt → Flt) (vs ws : List Val) : Prop :=
  ws.length = vs.length ∧ ∀ (i : Nat) (x w : Val), vs[i]? = some x → ws[i]? = some w →
    (x.num = .nan → w = .flt .nan) ∧
    (x.num ≠ .nan → (present (vs.map Val.num)).length = 1 → w = .flt (.fin 0)) ∧
    (x.num ≠ .nan → (present (vs.map Val.num)).length ≠ 1 → w = .flt (ndtri (.fin
      ((rank0 (vs.map Val.num) x.num * (((vs.length : ℚ) - 1) / (((present (vs.map Val.num)).length : ℚ) - 1)) + 1) /
        ((vs.length : ℚ) + 1)))))

theorem rankingLine_gauss {ndtri : Flt → Flt} (h : IsNdtri ndtri) (vs : List Val) :
    GaussLine ndtri vs (rankingLine (.gaussian ndtri) vs) := by
  refine ⟨by simp [rankingLine], fun i x w hx hw => ?_⟩
  simp only [rankingLine, List.map_map, List.getElem?_map, hx, Option.map_some, Option.some.injEq,
    Function.comp_apply] at hw
  rw [present_eq, List.length_map] at hw
  subst hw
  refine ⟨fun hn => ?_, fun hn h1 => ?_, fun hn h1 => ?_⟩
  · rw [hn]
    simp only [Flt.isNan, Bool.true_eq_false, and_false, if_false, nanrank, if_true, RankNorm.scale]
    simp [Flt.sub, Flt.add, Flt.mul, Flt.div, h.nan]
  · have : x.num.isNan = false := by cases hx : x.num <;> simp_all [Flt.isNan]
    simp [h1, this, RankNorm.middle]
  · simp only [h1, false_and, if_false]
    rw [nanrank_eq _ hn]
    have hc0 : ((present (vs.map Val.num)).length : ℚ) - 1 ≠ 0 := by
      intro e
      have : ((present (vs.map Val.num)).length : ℚ) = 1 := by linarith
      exact h1 (by exact_mod_cast this)
    have hn0 : (vs.length : ℚ) + 1 ≠ 0 := by positivity
    simp only [RankNorm.scale, Flt.sub, Flt.neg, Flt.add, Flt.div, if_neg hc0, if_neg hn0, Flt.mul]
    simp

/-- C48. `ranking(axis, norm='gaussian')`. -/
theorem C48_ranking_gaussian {ndtri : Flt → Flt} (h : IsNdtri ndtri) {y : Larry L} (hv : y.Valid)
    (hd : y.dtype ≠ .str ∧ y.dtype ≠ .object) {axis : Int} {ax : Nat} (hax : pyIdx y.ndim axis = some ax) :
    ∃ z, y.ranking (some axis) (.gaussian ndtri) = .ok z ∧ z.dtype = .float ∧ y.AlongLine z ax (GaussLine ndtri) := by
  obtain ⟨l, hl, _⟩ := label_at hv hax
  have hd' : y.dtype.isNumeric = true := by cases h : y.dtype <;> simp_all [DType.isNumeric]
  exact ⟨y.along (rankingLine (.gaussian ndtri)) .float ax, by simp [ranking, hax, hd'], rfl,
    alongLine_mapLines hv hl _ _ (fun vs => by simp [rankingLine]) fun vs => rankingLine_gauss h vs⟩

/-- C48. The same over all elements. -/
theorem C48_ranking_gaussian_all {ndtri : Flt → Flt} (h : IsNdtri ndtri) {y : Larry L} (hv : y.Valid)
    (hd : y.dtype ≠ .str ∧ y.dtype ≠ .object) :
    ∃ z, y.ranking none (.gaussian ndtri) = .ok z ∧ z.dtype = .float ∧ y.AlongAllLine z (GaussLine ndtri) := by
  have hd' : y.dtype.isNumeric = true := by cases h : y.dtype <;> simp_all [DType.isNumeric]
  exact ⟨y.alongAll (rankingLine (.gaussian ndtri)) .float, by simp [ranking, hd'], rfl,
    alongAllLine_spec hv _ _ (fun vs => by simp [rankingLine]) fun vs => rankingLine_gauss h vs⟩

/-- The number handed to `ndtri` is a probability strictly between 0 and 1. -/
theorem gauss_between {xs : List Flt} {x : Flt} (hm : x ∈ xs) (hn : x ≠ .nan) (h1 : (present xs).length ≠ 1) :
    0 < (rank0 xs x * (((xs.length : ℚ) - 1) / (((present xs).length : ℚ) - 1)) + 1) / ((xs.length : ℚ) + 1) ∧
    (rank0 xs x * (((xs.length : ℚ) - 1) / (((present xs).length : ℚ) - 1)) + 1) / ((xs.length : ℚ) + 1) < 1 := by
  have hle := rank_le xs x
  have heq := self_mem_eq hm hn
  have hcN : (present xs).length ≤ xs.length := List.length_filter_le _ _
  have q1 : (2 : ℚ) ≤ ((present xs).length : ℚ) := by exact_mod_cast (by omega : 2 ≤ (present xs).length)
  have q2 : ((present xs).length : ℚ) ≤ (xs.length : ℚ) := by exact_mod_cast hcN
  have a1 : (1 : ℚ) ≤ ((xs.filter (fun y => EqX y x)).length : ℚ) := by exact_mod_cast heq
  have a2 : (((xs.filter (fun y => LtX y x)).length : ℚ) + ((xs.filter (fun y => EqX y x)).length : ℚ)) ≤
      ((present xs).length : ℚ) := by exact_mod_cast hle
  have a3 : (0 : ℚ) ≤ ((xs.filter (fun y => LtX y x)).length : ℚ) := by positivity
  have r0 : 0 ≤ rank0 xs x := by unfold rank0; linarith
  have r1 : rank0 xs x ≤ ((present xs).length : ℚ) - 1 := by unfold rank0; linarith
  have hs : 0 ≤ ((xs.length : ℚ) - 1) / (((present xs).length : ℚ) - 1) := div_nonneg (by linarith) (by linarith)
  have e : (((present xs).length : ℚ) - 1) * (((xs.length : ℚ) - 1) / (((present xs).length : ℚ) - 1)) =
      (xs.length : ℚ) - 1 := mul_div_cancel₀ _ (by linarith)
  have t := mul_le_mul_of_nonneg_right r1 hs
  have t0 := mul_nonneg r0 hs
  rw [e] at t
  exact ⟨div_pos (by linarith) (by linarith), by rw [div_lt_one (by linarith)]; linarith⟩

/-- C48. The order of the values is kept. -/
theorem C48_gaussian_order {ndtri : Flt → Flt} (h : IsNdtri ndtri) {vs ws : List Val} (hg : GaussLine ndtri vs ws)
    {i j : Nat} {x x' w w' : Val} (hx : vs[i]? = some x) (hx' : vs[j]? = some x') (hw : ws[i]? = some w)
    (hw' : ws[j]? = some w') :
    (LtX x.num x'.num → LtX w.num w'.num) ∧ (x.num = x'.num → w = w') := by
  have hm : x.num ∈ vs.map Val.num := List.mem_map_of_mem (List.mem_of_getElem? hx)
  have hm' : x'.num ∈ vs.map Val.num := List.mem_map_of_mem (List.mem_of_getElem? hx')
  obtain ⟨a1, a2, a3⟩ := hg.2 i x w hx hw
  obtain ⟨b1, b2, b3⟩ := hg.2 j x' w' hx' hw'
  constructor
  · intro hlt
    have n1 := hlt.ne_nan.1
    have n2 := hlt.ne_nan.2
    by_cases h1 : (present (vs.map Val.num)).length = 1
    · exfalso
      obtain ⟨a, ha⟩ := List.length_eq_one_iff.mp h1
      have m1 : x.num ∈ present (vs.map Val.num) := by simpa [present, n1] using hm
      have m2 : x'.num ∈ present (vs.map Val.num) := by simpa [present, n2] using hm'
      rw [ha, List.mem_singleton] at m1 m2
      rw [m1, m2] at hlt
      exact LtX.irrefl _ hlt
    · rw [a3 n1 h1, b3 n2 h1]
      obtain ⟨p1, _⟩ := gauss_between hm n1 h1
      obtain ⟨_, p2⟩ := gauss_between hm' n2 h1
      rw [List.length_map] at p1 p2
      refine h.lt _ _ p1 ?_ p2
      have hle := rank_le (vs.map Val.num) x.num
      have heq := self_mem_eq hm n1
      have hcN : (present (vs.map Val.num)).length ≤ vs.length := by
        have := List.length_filter_le (fun x : Flt => decide (x ≠ .nan)) (vs.map Val.num)
        simpa [present] using this
      have q1 : (2 : ℚ) ≤ ((present (vs.map Val.num)).length : ℚ) := by
        exact_mod_cast (by omega : 2 ≤ (present (vs.map Val.num)).length)
      have q2 : ((present (vs.map Val.num)).length : ℚ) ≤ (vs.length : ℚ) := by exact_mod_cast hcN
      have hr := rank_lt hm hm' hlt
      have hs : 0 < ((vs.length : ℚ) - 1) / (((present (vs.map Val.num)).length : ℚ) - 1) :=
        div_pos (by linarith) (by linarith)
      have := mul_lt_mul_of_pos_right hr hs
      exact div_lt_div_of_pos_right (by linarith) (by linarith)
  · intro e
    by_cases hn : x.num = .nan
    · rw [a1 hn, b1 (e ▸ hn)]
    · by_cases h1 : (present (vs.map Val.num)).length = 1
      · rw [a2 hn h1, b2 (e ▸ hn) h1]
      · rw [a3 hn h1, b3 (e ▸ hn) h1, e]

/-- The hypotheses hold: a line of three numbers and NaN, and an order preserving `ndtri`. -/
example : (∃ z, exA.ranking none (.gaussian id) = .ok z) ∧ IsNdtri id ∧
    rankingLine (.gaussian id) [.flt (.fin 7), .flt .nan, .flt (.fin 3), .flt (.fin 5)] =
      [.flt (.fin (4 / 5)), .flt .nan, .flt (.fin (1 / 5)), .flt (.fin (1 / 2))] :=
  ⟨⟨_, rfl⟩, ⟨rfl, fun _ _ _ h _ => h⟩, by decide +kernel⟩

end La
