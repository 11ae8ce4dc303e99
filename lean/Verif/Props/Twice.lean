import Verif.Props.Ranking
import Verif.Props.Order
import Verif.Props.Units
import Verif.Props.Merge
import Verif.Props.Missing
import Verif.Props.Axes

/-!
# Property C86: doing it twice changes nothing

Calls that bring a larry into some shape (`ranking`, `demean`, `keep_x`, `morph_like`, ...) and that have
nothing left to do when called again.
-/

namespace La
open Larry
variable {L : Type _}

/-! ## Along an axis -/

theorem along_line {y : Larry L} {f : List Val → List Val} {d : DType} (hlen : ∀ vs, (f vs).length = vs.length)
    {ax : Nat} {ridx : List Nat} (hr : ax ≤ ridx.length) :
    (y.along f d ax).x.line ax ridx = f (y.x.line ax ridx) := by
  refine List.ext_getElem? fun i => ?_
  by_cases hi : i < y.x.shape.getD ax 0
  · simp only [Larry.along, NDArray.mapLines]
    rw [NDArray.line]
    simp only [List.getElem?_map, List.getElem?_range hi, Option.map_some]
    rw [List.eraseIdx_insertIdx_self]
    simp only [List.getD, List.getElem?_insertIdx_self, hr, if_true, Option.getD_some]
    have : i < (f (y.x.line ax ridx)).length := by rw [hlen, line_length]; exact hi
    rw [List.getElem?_eq_getElem this]
    rfl
  · rw [List.getElem?_eq_none (by rw [line_length]; exact Nat.le_of_not_lt hi),
      List.getElem?_eq_none (by rw [hlen, line_length]; exact Nat.le_of_not_lt hi)]

theorem along_twice {y : Larry L} {f : List Val → List Val} {d : DType} (hlen : ∀ vs, (f vs).length = vs.length)
    {ax : Nat} (hax : ax < y.x.shape.length)
    (h : ∀ r, InB (y.x.shape.eraseIdx ax) r → f (f (y.x.line ax r)) = f (y.x.line ax r)) :
    ((y.along f d ax).along f d ax).Same (y.along f d ax) := by
  refine ⟨rfl, rfl, rfl, fun idx hidx => ?_⟩
  have hidx : InB y.x.shape idx := hidx
  have hr := InB_erase hidx hax
  have hle : ax ≤ (idx.eraseIdx ax).length := by
    have := InB_length hr
    rw [List.length_eraseIdx_of_lt hax] at this; omega
  show (f ((y.along f d ax).x.line ax (idx.eraseIdx ax))).getD _ _ = (f (y.x.line ax (idx.eraseIdx ax))).getD _ _
  rw [along_line hlen hle, h _ hr]

theorem alongAll_vals {y : Larry L} {f : List Val → List Val} {d : DType} (hlen : ∀ vs, (f vs).length = vs.length) :
    (y.alongAll f d).x.vals = f y.x.vals := by
  refine List.ext_getElem ?_ fun i h1 h2 => ?_
  · rw [hlen]; simp [NDArray.vals, Larry.alongAll]
  · have hi : i < (allIdx y.x.shape).length := by simpa [NDArray.vals, Larry.alongAll] using h1
    simp only [NDArray.vals, Larry.alongAll, List.getElem_map]
    have hin : InB y.x.shape (allIdx y.x.shape)[i] := mem_allIdx.mp (List.getElem_mem hi)
    have := allIdx_getElem? hin
    rw [ravelC_eq]
    have hrow : rowMajor y.x.shape (allIdx y.x.shape)[i] = i := by
      obtain ⟨hlt, he⟩ := List.getElem?_eq_some_iff.mp this
      exact (List.Nodup.getElem_inj_iff (nodup_allIdx _)).mp he
    rw [hrow, List.getD_eq_getElem?_getD]
    have h2' : i < (f (List.map y.x.get (allIdx y.x.shape))).length := h2
    rw [List.getElem?_eq_getElem h2']
    rfl

theorem alongAll_twice {y : Larry L} {f : List Val → List Val} {d : DType} (hlen : ∀ vs, (f vs).length = vs.length)
    (h : f (f y.x.vals) = f y.x.vals) : ((y.alongAll f d).alongAll f d).Same (y.alongAll f d) := by
  refine ⟨rfl, rfl, rfl, fun idx _ => ?_⟩
  show (f ((y.alongAll f d).x.vals)).getD _ _ = (f y.x.vals).getD _ _
  rw [alongAll_vals hlen, h]
  rfl

/-! ## ranking -/

theorem nanrank_congr {xs : List Flt} {g : Flt → Flt} (hN : ∀ a ∈ xs, (g a).isNan = a.isNan)
    (hL : ∀ a ∈ xs, ∀ b ∈ xs, (g a).lt (g b) = a.lt b) (hE : ∀ a ∈ xs, ∀ b ∈ xs, (g a).eq (g b) = a.eq b)
    {x : Flt} (hx : x ∈ xs) : nanrank (xs.map g) (g x) = nanrank xs x := by
  unfold nanrank
  rw [hN x hx, List.filter_map, List.filter_map, List.length_map, List.length_map]
  have e1 : xs.filter ((fun y => y.lt (g x)) ∘ g) = xs.filter (fun y => y.lt x) :=
    List.filter_congr fun a ha => hL a ha x hx
  have e2 : xs.filter ((fun y => y.eq (g x)) ∘ g) = xs.filter (fun y => y.eq x) :=
    List.filter_congr fun a ha => hE a ha x hx
  rw [e1, e2]

/-- A norm of `ranking` that keeps NaN, and keeps the order of the ranks. -/
structure KeepsOrder (norm : RankNorm) : Prop where
  nan : ∀ n c, norm.scale n c .nan = .nan
  middle : ∀ n, (norm.middle n).isNan = false
  lt : ∀ (n c : Nat) (r r' : ℚ), 2 ≤ c → c ≤ n → 0 ≤ r → r < r' → r' ≤ (c : ℚ) - 1 →
    (norm.scale n c (.fin (r + 1))).lt (norm.scale n c (.fin (r' + 1))) = true

theorem rank0_bounds {xs : List Flt} {x : Flt} (hx : x ∈ xs) (hn : x ≠ .nan) :
    0 ≤ rank0 xs x ∧ rank0 xs x ≤ ((present xs).length : ℚ) - 1 := by
  have hle := rank_le xs x
  have heq := self_mem_eq hx hn
  have a1 : (1 : ℚ) ≤ ((xs.filter (fun y => EqX y x)).length : ℚ) := by exact_mod_cast heq
  have a2 : (((xs.filter (fun y => LtX y x)).length : ℚ) + ((xs.filter (fun y => EqX y x)).length : ℚ)) ≤
      ((present xs).length : ℚ) := by exact_mod_cast hle
  have a3 : (0 : ℚ) ≤ ((xs.filter (fun y => LtX y x)).length : ℚ) := by positivity
  constructor <;> (unfold rank0; linarith)

theorem lt_not_nan {a b : Flt} (h : a.lt b = true) : a.isNan = false ∧ b.isNan = false := by
  cases a <;> cases b <;> simp_all [Flt.lt, Flt.isNan]

theorem isNan_false_iff {a : Flt} : a.isNan = false ↔ a ≠ .nan := by cases a <;> simp [Flt.isNan]

theorem cmp_nan {a b : Flt} (h : a.isNan = true ∨ b.isNan = true) : a.lt b = false ∧ a.eq b = false := by
  cases a <;> cases b <;> simp_all [Flt.isNan, Flt.lt, Flt.eq]

theorem lt_asym_eq {a b : Flt} (h : a.lt b = true) : b.lt a = false ∧ a.eq b = false := by
  cases a <;> cases b <;> simp_all [Flt.lt, Flt.eq]
  exact ⟨h.le, h.ne⟩

theorem tri_flt {a b : Flt} (ha : a.isNan = false) (hb : b.isNan = false) :
    a.lt b = true ∨ a = b ∨ b.lt a = true := by
  cases a <;> cases b <;> simp_all [Flt.lt, Flt.isNan]
  exact lt_trichotomy _ _

theorem cmp_self {a : Flt} (ha : a.isNan = false) : a.lt a = false ∧ a.eq a = true := by
  cases a <;> simp_all [Flt.isNan, Flt.lt, Flt.eq]

theorem eq_sym_flt (a b : Flt) : a.eq b = b.eq a := by
  cases a <;> cases b <;> simp [Flt.eq, eq_comm]

theorem nan_of_isNan {a : Flt} (h : a.isNan = true) : a = .nan := by
  cases a <;> simp_all [Flt.isNan]

theorem rankingLine_twice {norm : RankNorm} (hk : KeepsOrder norm) (vs : List Val) :
    rankingLine norm (rankingLine norm vs) = rankingLine norm vs := by
  obtain ⟨xs, hxs⟩ : ∃ xs, xs = vs.map Val.num := ⟨_, rfl⟩
  obtain ⟨g, hg⟩ : ∃ g : Flt → Flt, g = fun x => if (present xs).length = 1 ∧ x.isNan = false then norm.middle xs.length
    else norm.scale xs.length (present xs).length (nanrank xs x) := ⟨_, rfl⟩
  have hline : ∀ us : List Val, rankingLine norm us = (us.map Val.num).map (fun x => .flt
      (if (present (us.map Val.num)).length = 1 ∧ x.isNan = false then norm.middle (us.map Val.num).length
        else norm.scale (us.map Val.num).length (present (us.map Val.num)).length (nanrank (us.map Val.num) x))) := by
    intro us
    simp only [rankingLine, present_eq]
  have h1 : rankingLine norm vs = xs.map (fun x => .flt (g x)) := by rw [hline, ← hxs, hg]
  have hcn : (present xs).length ≤ xs.length := by unfold present; exact List.length_filter_le _ _
  -- what `g` keeps
  have hfin : ∀ a ∈ xs, a.isNan = false → (present xs).length ≠ 1 →
      2 ≤ (present xs).length ∧ (g a).isNan = false ∧ g a = norm.scale xs.length (present xs).length (.fin (rank0 xs a + 1)) := by
    intro a ha hna hc
    have hne := isNan_false_iff.mp hna
    have e : g a = norm.scale xs.length (present xs).length (.fin (rank0 xs a + 1)) := by
      rw [hg]; simp only [hc, false_and, if_false]; rw [nanrank_eq xs hne]
    have hpos : 0 < (present xs).length := by
      refine List.length_pos_of_mem (a := a) ?_
      simp [present, ha, hne]
    have h2 : 2 ≤ (present xs).length := by omega
    obtain ⟨b1, b2⟩ := rank0_bounds ha hne
    have q2 : (2 : ℚ) ≤ ((present xs).length : ℚ) := by exact_mod_cast h2
    refine ⟨h2, ?_, e⟩
    rw [e]
    by_cases h0 : rank0 xs a = 0
    · exact (lt_not_nan (hk.lt _ _ (rank0 xs a) 1 h2 hcn b1 (by rw [h0]; norm_num) (by linarith))).1
    · exact (lt_not_nan (hk.lt _ _ 0 (rank0 xs a) h2 hcn le_rfl (lt_of_le_of_ne b1 (Ne.symm h0)) b2)).2
  have hN : ∀ a ∈ xs, (g a).isNan = a.isNan := by
    intro a ha
    cases hna : a.isNan with
    | true =>
      have : a = .nan := nan_of_isNan hna
      rw [hg]; subst this
      simp [Flt.isNan, nanrank, hk.nan]
    | false =>
      by_cases hc : (present xs).length = 1
      · rw [hg]; simp only [hc, hna, and_self, if_true]; exact hk.middle _
      · exact (hfin a ha hna hc).2.1
  have hone : (present xs).length = 1 → ∀ a ∈ xs, ∀ b ∈ xs, a.isNan = false → b.isNan = false → a = b := by
    intro hc a ha b hb hna hnb
    obtain ⟨c, hc⟩ := List.length_eq_one_iff.mp hc
    have m1 : a ∈ present xs := by simp [present, ha, isNan_false_iff.mp hna]
    have m2 : b ∈ present xs := by simp [present, hb, isNan_false_iff.mp hnb]
    rw [hc, List.mem_singleton] at m1 m2
    rw [m1, m2]
  have hlt : ∀ a ∈ xs, ∀ b ∈ xs, a.lt b = true → (g a).lt (g b) = true := by
    intro a ha b hb h
    obtain ⟨na, nb⟩ := lt_not_nan h
    by_cases hc : (present xs).length = 1
    · have := hone hc a ha b hb na nb
      subst this
      exact absurd ((lt_iff a a).mp h) (LtX.irrefl a)
    · obtain ⟨h2, _, ea⟩ := hfin a ha na hc
      obtain ⟨_, _, eb⟩ := hfin b hb nb hc
      rw [ea, eb]
      exact hk.lt _ _ _ _ h2 hcn (rank0_bounds ha (isNan_false_iff.mp na)).1 (rank_lt ha hb ((lt_iff a b).mp h))
        (rank0_bounds hb (isNan_false_iff.mp nb)).2
  have both : ∀ a ∈ xs, ∀ b ∈ xs, (g a).lt (g b) = a.lt b ∧ (g a).eq (g b) = a.eq b := by
    intro a ha b hb
    by_cases hn : a.isNan = true ∨ b.isNan = true
    · have hn' : (g a).isNan = true ∨ (g b).isNan = true := by rw [hN a ha, hN b hb]; exact hn
      rw [(cmp_nan hn).1, (cmp_nan hn).2, (cmp_nan hn').1, (cmp_nan hn').2]
      exact ⟨rfl, rfl⟩
    · have na : a.isNan = false := Bool.eq_false_iff.mpr fun h => hn (Or.inl h)
      have nb : b.isNan = false := Bool.eq_false_iff.mpr fun h => hn (Or.inr h)
      rcases tri_flt na nb with h | rfl | h
      · have h' := hlt a ha b hb h
        rw [h, h', (lt_asym_eq h).2, (lt_asym_eq h').2]; exact ⟨rfl, rfl⟩
      · have na' : (g a).isNan = false := by rw [hN a ha]; exact na
        rw [(cmp_self na).1, (cmp_self na).2, (cmp_self na').1, (cmp_self na').2]; exact ⟨rfl, rfl⟩
      · have h' := hlt b hb a ha h
        have e1 := lt_asym_eq h
        have e2 := lt_asym_eq h'
        rw [e1.1, e2.1, eq_sym_flt a b, eq_sym_flt (g a) (g b), e1.2, e2.2]; exact ⟨rfl, rfl⟩
  -- the second ranking
  have hnums : (rankingLine norm vs).map Val.num = xs.map g := by
    rw [h1, List.map_map]; rfl
  have hpres : (present (xs.map g)).length = (present xs).length := by
    rw [← present_eq, ← present_eq, List.filter_map, List.length_map]
    congr 1
    exact List.filter_congr fun a ha => by simp only [Function.comp_apply, hN a ha]
  rw [hline (rankingLine norm vs), hnums, hpres, List.length_map, h1, List.map_map]
  refine List.map_congr_left fun a ha => ?_
  simp only [Function.comp_apply]
  rw [hN a ha, nanrank_congr hN (fun a ha b hb => (both a ha b hb).1) (fun a ha b hb => (both a ha b hb).2) ha, hg]

theorem rankingLine_length (norm : RankNorm) (vs : List Val) : (rankingLine norm vs).length = vs.length := by
  simp [rankingLine]

theorem demeanLine_length (center : List Flt → Flt) (vs : List Val) : (demeanLine center vs).length = vs.length := by
  simp [demeanLine]

/-- An `ndtri` that deserves the name: increasing between 0 and 1, and NaN for NaN. -/
structure IsNdtri (ndtri : Flt → Flt) : Prop where
  nan : ndtri .nan = .nan
  lt : ∀ p q : ℚ, 0 < p → p < q → q < 1 → LtX (ndtri (.fin p)) (ndtri (.fin q))

theorem keepsOrder_pm1 : KeepsOrder .pm1 := by
  refine ⟨fun _ _ => rfl, fun _ => rfl, fun n c r r' h2 _ _ hlt _ => ?_⟩
  have q2 : (2 : ℚ) ≤ (c : ℚ) := by exact_mod_cast h2
  have hc : (c : ℚ) - 1 ≠ 0 := by linarith
  have hp : (0 : ℚ) < (c : ℚ) - 1 := by linarith
  simp only [RankNorm.scale, Flt.sub, Flt.add, Flt.neg, Flt.div, if_neg hc, Flt.mul, Flt.lt, decide_eq_true_eq]
  have := div_lt_div_of_pos_right hlt hp
  have e1 : r + 1 + -1 = r := by ring
  have e2 : r' + 1 + -1 = r' := by ring
  rw [e1, e2]; linarith

theorem keepsOrder_n1 : KeepsOrder .n1 := by
  refine ⟨fun n c => ?_, fun _ => rfl, fun n c r r' h2 hcn _ hlt _ => ?_⟩
  · simp [RankNorm.scale, Flt.sub, Flt.add, Flt.mul]
  have q2 : (2 : ℚ) ≤ (c : ℚ) := by exact_mod_cast h2
  have qn : (c : ℚ) ≤ (n : ℚ) := by exact_mod_cast hcn
  have hc : (c : ℚ) - 1 ≠ 0 := by linarith
  have hp : (0 : ℚ) < ((n : ℚ) - 1) / ((c : ℚ) - 1) := div_pos (by linarith) (by linarith)
  simp only [RankNorm.scale, Flt.sub, Flt.add, Flt.neg, Flt.div, if_neg hc, Flt.mul, Flt.lt, decide_eq_true_eq]
  exact mul_lt_mul_of_pos_right (by linarith) hp

theorem keepsOrder_gaussian {ndtri : Flt → Flt} (h : IsNdtri ndtri) : KeepsOrder (.gaussian ndtri) := by
  refine ⟨fun n c => ?_, fun _ => rfl, fun n c r r' h2 hcn h0 hlt hr => ?_⟩
  · show ndtri ((Flt.add (Flt.mul .nan _) _).div _) = .nan
    simp [Flt.mul, Flt.add, Flt.div, h.nan]
  have q2 : (2 : ℚ) ≤ (c : ℚ) := by exact_mod_cast h2
  have qn : (c : ℚ) ≤ (n : ℚ) := by exact_mod_cast hcn
  have hc : (c : ℚ) - 1 ≠ 0 := by linarith
  have hn : (n : ℚ) + 1 ≠ 0 := by linarith
  have hpc : (0 : ℚ) < (c : ℚ) - 1 := by linarith
  have hp : (0 : ℚ) < ((n : ℚ) - 1) / ((c : ℚ) - 1) := div_pos (by linarith) hpc
  have hn1 : (0 : ℚ) < (n : ℚ) + 1 := by linarith
  simp only [RankNorm.scale, Flt.sub, Flt.add, Flt.neg, Flt.div, if_neg hc, if_neg hn, Flt.mul]
  have e1 : r + 1 + -1 = r := by ring
  have e2 : r' + 1 + -1 = r' := by ring
  rw [e1, e2]
  have top : r' * (((n : ℚ) - 1) / ((c : ℚ) - 1)) ≤ (n : ℚ) - 1 := by
    calc r' * (((n : ℚ) - 1) / ((c : ℚ) - 1)) ≤ ((c : ℚ) - 1) * (((n : ℚ) - 1) / ((c : ℚ) - 1)) :=
          mul_le_mul_of_nonneg_right hr hp.le
      _ = (n : ℚ) - 1 := by field_simp
  have low : 0 ≤ r * (((n : ℚ) - 1) / ((c : ℚ) - 1)) := mul_nonneg h0 hp.le
  have mid : r * (((n : ℚ) - 1) / ((c : ℚ) - 1)) < r' * (((n : ℚ) - 1) / ((c : ℚ) - 1)) :=
    mul_lt_mul_of_pos_right hlt hp
  refine (lt_iff _ _).mpr (h.lt _ _ (div_pos (by linarith) hn1) (div_lt_div_of_pos_right (by linarith) hn1) ?_)
  rw [div_lt_one hn1]; linarith

theorem ranking_unfold {norm : RankNorm} (hu : norm ≠ .unknown) {u : Larry L} (hn : u.dtype.isNumeric = true)
    (axis : Option Int) : u.ranking axis norm = match axis with
      | none => .ok (u.alongAll (rankingLine norm) .float)
      | some axis => match pyIdx u.ndim axis with
        | none => .error (if axis < 0 then .indexError else .valueError)
        | some ax => .ok (u.along (rankingLine norm) .float ax) := by
  unfold ranking
  rw [hn, if_neg (by decide)]
  cases norm with
  | unknown => exact absurd rfl hu
  | _ => rfl

/-- C86. Ranking a ranked larry changes nothing, along an axis or over all elements, whatever the norm;
for `gaussian`, `ndtri` is to be increasing. -/
theorem C86_ranking {y z : Larry L} {axis : Option Int} {norm : RankNorm}
    (hg : ∀ f, norm = .gaussian f → IsNdtri f) (h : y.ranking axis norm = .ok z) :
    ∃ w, z.ranking axis norm = .ok w ∧ w.Same z := by
  have hk : norm ≠ .unknown → KeepsOrder norm := by
    intro hu
    cases norm with
    | pm1 => exact keepsOrder_pm1
    | n1 => exact keepsOrder_n1
    | gaussian f => exact keepsOrder_gaussian (hg f rfl)
    | unknown => exact absurd rfl hu
  have hnum : y.dtype.isNumeric = true := by
    cases hb : y.dtype.isNumeric with
    | true => rfl
    | false => simp [ranking, hb] at h
  have hu : norm ≠ .unknown := by
    rintro rfl
    simp [ranking, hnum] at h
  rw [ranking_unfold hu hnum] at h
  cases axis with
  | none =>
    simp only [Except.ok.injEq] at h
    subst h
    exact ⟨_, ranking_unfold hu rfl _, alongAll_twice (rankingLine_length norm) (rankingLine_twice (hk hu) _)⟩
  | some a =>
    dsimp only at h
    cases hp : pyIdx y.ndim a with
    | none => rw [hp] at h; simp at h
    | some ax =>
      rw [hp] at h
      simp only [Except.ok.injEq] at h
      subst h
      refine ⟨_, ?_, along_twice (rankingLine_length norm) (pyIdx_lt hp) (fun r _ => rankingLine_twice (hk hu) _)⟩
      rw [ranking_unfold hu rfl _]
      show (match pyIdx y.ndim a with
        | none => _
        | some ax => _) = _
      rw [hp]

example : (∃ z, exA.ranking (some 1) .pm1 = .ok z) ∧ (∃ z, exA.ranking none (.gaussian id) = .ok z) ∧ IsNdtri id :=
  ⟨⟨_, rfl⟩, ⟨_, rfl⟩, rfl, fun _ _ _ h _ => h⟩

/-! ## demean and demedian -/

theorem sub_units (m : ℚ) (x : Flt) : x.sub (.fin m) = x.units 1 (-m) := by
  cases x with
  | nan => rfl
  | fin q => rw [units_fin, one_mul]; rfl
  | pinf => rw [units_pinf one_ne_zero, if_pos one_pos]; rfl
  | ninf => rw [units_ninf one_ne_zero, if_pos one_pos]; rfl

theorem sub_zero_flt (x : Flt) : x.sub (.fin 0) = x := by
  cases x <;> simp [Flt.sub, Flt.neg, Flt.add]

theorem sub_nan (x : Flt) : x.sub .nan = .nan := by
  cases x <;> rfl

theorem demeanLine_twice {center : List Flt → Flt} (hc : MovesAlong center) {vs : List Val}
    (h : center (vs.map Val.num) ≠ .pinf ∧ center (vs.map Val.num) ≠ .ninf) :
    demeanLine center (demeanLine center vs) = demeanLine center vs := by
  have e : ∀ us : List Val, (demeanLine center us).map Val.num =
      (us.map Val.num).map (fun x => x.sub (center (us.map Val.num))) := fun us => by
    simp only [demeanLine, List.map_map]; rfl
  cases hm : center (vs.map Val.num) with
  | pinf => exact absurd hm h.1
  | ninf => exact absurd hm h.2
  | nan =>
    have h1 : demeanLine center vs = vs.map (fun _ => .flt .nan) := by
      unfold demeanLine; rw [hm]; simp only [sub_nan]
    rw [h1]
    unfold demeanLine
    rw [List.map_map]
    refine List.map_congr_left fun v _ => ?_
    simp only [Function.comp_apply, Val.num]
    rfl
  | fin m =>
    have h2 : center ((demeanLine center vs).map Val.num) = .fin 0 := by
      rw [e, hm, show (fun x : Flt => x.sub (.fin m)) = Flt.units 1 (-m) from funext (sub_units m),
        hc 1 (-m) one_ne_zero, hm, units_fin]
      congr 1; ring
    show (demeanLine center vs).map (fun v => Val.flt (v.num.sub (center ((demeanLine center vs).map Val.num)))) = _
    rw [h2]
    simp only [sub_zero_flt]
    refine List.map_congr_left (g := id) (fun v hv => ?_) |>.trans (List.map_id _)
    unfold demeanLine at hv
    obtain ⟨u, _, rfl⟩ := List.mem_map.mp hv
    rfl

/-- The centre of no line of `y` is infinite. -/
def CentredBy (center : List Flt → Flt) (y : Larry L) (axis : Option Int) : Prop :=
  match axis with
  | none => center (y.x.vals.map Val.num) ≠ .pinf ∧ center (y.x.vals.map Val.num) ≠ .ninf
  | some a => ∀ ax r, pyIdx y.ndim a = some ax → InB (y.x.shape.eraseIdx ax) r →
      center ((y.x.line ax r).map Val.num) ≠ .pinf ∧ center ((y.x.line ax r).map Val.num) ≠ .ninf

/-- C86. Taking off the mean, or the median, twice is taking it off once, when it is not infinite. -/
theorem C86_demean {center : List Flt → Flt} (hc : MovesAlong center) {y z : Larry L} {axis : Option Int}
    (hfin : CentredBy center y axis) (h : y.demean center axis = .ok z) :
    ∃ w, z.demean center axis = .ok w ∧ w.Same z := by
  unfold demean at h
  have hnum : y.dtype.isNumeric = true := by
    cases hb : y.dtype.isNumeric with
    | true => rfl
    | false => rw [hb] at h; simp at h
  rw [hnum, if_neg (by decide)] at h
  cases axis with
  | none =>
    simp only [Except.ok.injEq] at h
    subst h
    exact ⟨_, rfl, alongAll_twice (demeanLine_length center) (demeanLine_twice hc hfin)⟩
  | some a =>
    dsimp only [npAxis] at h
    cases hp : pyIdx y.ndim a with
    | none => rw [hp] at h; simp at h
    | some ax =>
      rw [hp] at h
      simp only [Except.ok.injEq] at h
      subst h
      refine ⟨(y.along (demeanLine center) .float ax).along (demeanLine center) .float ax, ?_,
        along_twice (demeanLine_length center) (pyIdx_lt hp) (fun r hr => demeanLine_twice hc (hfin ax r hp hr))⟩
      unfold demean npAxis
      rw [if_neg (show ¬ (y.along (demeanLine center) .float ax).dtype.isNumeric = false from
        (by decide : ¬ DType.float.isNumeric = false))]
      show (match (match pyIdx y.ndim a with
        | none => _
        | some ax => _ : Res Nat) with
        | .error e => _
        | .ok ax => _) = _
      rw [hp]

/-- C86. The mean is such a centre, and it is finite or NaN for lines without infinities. -/
theorem C86_mean : MovesAlong nanmean ∧ ∀ xs, NoInf xs → nanmean xs ≠ .pinf ∧ nanmean xs ≠ .ninf := by
  refine ⟨nanmean_moves, fun xs h => ?_⟩
  by_cases h0 : (finites xs).length = 0
  · have : xs.filter (fun x => !x.isNan) = [] := by
      rw [List.filter_eq_nil_iff]
      intro a ha hna
      have hf : a ≠ .pinf ∧ a ≠ .ninf := h a ha
      cases a with
      | nan => simp [Flt.isNan] at hna
      | pinf => exact hf.1 rfl
      | ninf => exact hf.2 rfl
      | fin q =>
        have : q ∈ finites xs := by simpa [finites] using ⟨_, ha, rfl⟩
        rw [List.length_eq_zero_iff.mp h0] at this
        simp at this
    unfold nanmean
    rw [this]
    have : (Flt.sum []).div (.fin ([] : List Flt).length) = .nan := by decide +kernel
    rw [this]; simp
  · rw [nanmean_fin h h0]; simp

example : (∃ z, exA.demean nanmean (some 1) = .ok z) ∧ CentredBy nanmean exA none :=
  ⟨⟨_, rfl⟩, C86_mean.2 _ (by unfold NoInf; decide +kernel)⟩

/-- 1d larry with an infinity. -/
def exInf : Larry Nat := ⟨NDArray.ofList [2] [.flt .pinf, fl 1], .float, [[5, 7]]⟩

/-- C86. With an infinite mean the second `demean` does change something: -inf becomes NaN. -/
theorem C86_demean_infinite : ∃ z w, exInf.demean nanmean none = .ok z ∧ z.demean nanmean none = .ok w ∧
    z.Has [7] (.flt .ninf) ∧ w.Has [7] (.flt .nan) := by
  refine ⟨_, _, rfl, rfl, ⟨[1], ?_, ?_⟩, ⟨[1], ?_, ?_⟩⟩
  · exact ⟨rfl, trivial⟩
  · decide +kernel
  · exact ⟨rfl, trivial⟩
  · decide +kernel

/-! ## zscore -/

/-- A spread (a standard deviation) in the units of the values that does not depend on their origin. -/
def IsSpread (std : List Flt → Flt) : Prop :=
  ∀ a b : ℚ, a ≠ 0 → ∀ xs, std (xs.map (Flt.units a b)) = (Flt.fin |a|).mul (std xs)

/-- No infinities in the line, and a spread that one can divide by (or NaN). -/
def CanScore (std : List Flt → Flt) (xs : List Flt) : Prop :=
  NoInf xs ∧ (std xs = .nan ∨ ∃ q : ℚ, 0 < q ∧ std xs = .fin q)

theorem nan_div (x : Flt) : Flt.div .nan x = .nan := by cases x <;> rfl
theorem div_nan (x : Flt) : Flt.div x .nan = .nan := by cases x <;> rfl

theorem div_units {q : ℚ} (hq : 0 < q) (x : Flt) : x.div (.fin q) = x.units (1 / q) 0 := by
  have h1 : (0 : ℚ) < 1 / q := one_div_pos.mpr hq
  cases x with
  | nan => rfl
  | fin a => rw [units_fin]; simp only [Flt.div, if_neg hq.ne']; congr 1; ring
  | pinf => rw [units_pinf h1.ne', if_pos h1]; simp [Flt.div, hq.not_gt]
  | ninf => rw [units_ninf h1.ne', if_pos h1]; simp [Flt.div, hq.not_gt]

theorem zscoreLine_nums (std : List Flt → Flt) (vs : List Val) :
    zscoreLine std vs = ((demeanLine nanmean vs).map Val.num).map (fun x => .flt
      (x.div (std ((demeanLine nanmean vs).map Val.num)))) := by
  simp only [zscoreLine, List.map_map]; rfl

theorem demeanLine_nums (center : List Flt → Flt) (vs : List Val) : demeanLine center vs =
    (vs.map Val.num).map (fun x => .flt (x.sub (center (vs.map Val.num)))) := by
  simp only [demeanLine, List.map_map]; rfl

theorem zscoreLine_nan (std : List Flt → Flt) {vs : List Val} (h : ∀ v ∈ vs, v = .flt .nan) :
    zscoreLine std vs = vs := by
  rw [zscoreLine_nums]
  have h1 : (demeanLine nanmean vs).map Val.num = vs.map (fun _ => .nan) := by
    simp only [demeanLine, List.map_map]
    refine List.map_congr_left fun v hv => ?_
    rw [h v hv]; rfl
  rw [h1, List.map_map]
  refine (List.map_congr_left (g := id) fun v hv => ?_).trans (List.map_id _)
  simp only [Function.comp_apply, nan_div, id]
  exact (h v hv).symm

theorem zscoreLine_twice {std : List Flt → Flt} (hs : IsSpread std) {vs : List Val}
    (h : CanScore std (vs.map Val.num)) : zscoreLine std (zscoreLine std vs) = zscoreLine std vs := by
  have num_flt : ∀ (xs : List Flt) (f : Flt → Flt), (xs.map (fun x => Val.flt (f x))).map Val.num = xs.map f := by
    intro xs f; rw [List.map_map]; rfl
  obtain ⟨hinf, hstd⟩ := h
  have hm := C86_mean.2 _ hinf
  cases hc : nanmean (vs.map Val.num) with
  | pinf => exact absurd hc hm.1
  | ninf => exact absurd hc hm.2
  | nan =>
    refine zscoreLine_nan std fun v hv => ?_
    rw [zscoreLine_nums, demeanLine_nums, hc, num_flt] at hv
    simp only [List.mem_map] at hv
    obtain ⟨x, ⟨u, -, rfl⟩, rfl⟩ := hv
    rw [sub_nan, nan_div]
  | fin m =>
    have hd : (demeanLine nanmean vs).map Val.num = (vs.map Val.num).map (Flt.units 1 (-m)) := by
      rw [demeanLine_nums, hc, num_flt]
      exact List.map_congr_left fun x _ => sub_units m x
    have hsd : std ((demeanLine nanmean vs).map Val.num) = std (vs.map Val.num) := by
      rw [hd, hs 1 (-m) one_ne_zero, abs_one]
      rcases hstd with e | ⟨q, -, e⟩ <;> rw [e]
      · rfl
      · simp [Flt.mul]
    rcases hstd with e | ⟨q, hq, e⟩
    · refine zscoreLine_nan std fun v hv => ?_
      rw [zscoreLine_nums, hsd, e] at hv
      simp only [List.mem_map, div_nan] at hv
      obtain ⟨x, -, rfl⟩ := hv
      rfl
    · have hq' : (1 / q : ℚ) ≠ 0 := (one_div_pos.mpr hq).ne'
      have hz : (zscoreLine std vs).map Val.num = (vs.map Val.num).map (Flt.units (1 / q) (-m / q)) := by
        rw [zscoreLine_nums, hsd, e, num_flt, hd, List.map_map]
        refine List.map_congr_left fun x _ => ?_
        simp only [Function.comp_apply]
        rw [div_units hq]
        cases x with
        | nan => rfl
        | fin a => simp only [units_fin]; congr 1; ring
        | pinf => rw [units_pinf one_ne_zero, if_pos one_pos, units_pinf hq', units_pinf hq']
        | ninf => rw [units_ninf one_ne_zero, if_pos one_pos, units_ninf hq', units_ninf hq']
      have hmean : nanmean ((zscoreLine std vs).map Val.num) = .fin 0 := by
        rw [hz, nanmean_moves _ _ hq', hc, units_fin]; congr 1; ring
      have hdem : (demeanLine nanmean (zscoreLine std vs)).map Val.num = (zscoreLine std vs).map Val.num := by
        rw [demeanLine_nums, hmean, num_flt]
        exact (List.map_congr_left fun x _ => sub_zero_flt x).trans (List.map_id _)
      have hone : std ((zscoreLine std vs).map Val.num) = .fin 1 := by
        rw [hz, hs _ _ hq', e, abs_of_pos (one_div_pos.mpr hq)]
        simp only [Flt.mul]; congr 1; field_simp
      rw [zscoreLine_nums std (zscoreLine std vs), hdem, hone, List.map_map]
      refine (List.map_congr_left (g := id) fun v hv => ?_).trans (List.map_id _)
      rw [zscoreLine_nums] at hv
      obtain ⟨x, -, rfl⟩ := List.mem_map.mp hv
      simp only [Function.comp_apply, id, Val.num]
      congr 1
      generalize Flt.div x _ = d
      cases d <;> simp [Flt.div]

/-- Every line of `y` can be scored. -/
def AllScore (std : List Flt → Flt) (y : Larry L) (axis : Option Int) : Prop :=
  match axis with
  | none => CanScore std (y.x.vals.map Val.num)
  | some a => ∀ ax r, pyIdx y.ndim a = some ax → InB (y.x.shape.eraseIdx ax) r →
      CanScore std ((y.x.line ax r).map Val.num)

/-- C86. `zscore` twice is `zscore` once. -/
theorem C86_zscore {std : List Flt → Flt} (hs : IsSpread std) {y z : Larry L} {axis : Option Int}
    (hfin : AllScore std y axis) (h : y.zscore std axis = .ok z) :
    ∃ w, z.zscore std axis = .ok w ∧ w.Same z := by
  have hlen : ∀ vs, (zscoreLine std vs).length = vs.length := fun vs => by simp [zscoreLine, demeanLine]
  unfold zscore at h
  have hnum : y.dtype.isNumeric = true := by
    cases hb : y.dtype.isNumeric with
    | true => rfl
    | false => rw [hb] at h; simp at h
  rw [hnum, if_neg (by decide)] at h
  cases axis with
  | none =>
    simp only [Except.ok.injEq] at h
    subst h
    exact ⟨_, rfl, alongAll_twice hlen (zscoreLine_twice hs hfin)⟩
  | some a =>
    dsimp only [npAxis] at h
    cases hp : pyIdx y.ndim a with
    | none => rw [hp] at h; simp at h
    | some ax =>
      rw [hp] at h
      simp only [Except.ok.injEq] at h
      subst h
      refine ⟨(y.along (zscoreLine std) .float ax).along (zscoreLine std) .float ax, ?_,
        along_twice hlen (pyIdx_lt hp) (fun r hr => zscoreLine_twice hs (hfin ax r hp hr))⟩
      unfold zscore npAxis
      rw [if_neg (show ¬ (y.along (zscoreLine std) .float ax).dtype.isNumeric = false from
        (by decide : ¬ DType.float.isNumeric = false))]
      show (match (match pyIdx y.ndim a with
        | none => _
        | some ax => _ : Res Nat) with
        | .error e => _
        | .ok ax => _) = _
      rw [hp]

/-- The distance between the first and the last value, as a spread. -/
def exReach (xs : List Flt) : Flt :=
  match xs.head?, xs.getLast? with
  | some (.fin a), some (.fin b) => .fin |a - b|
  | _, _ => .nan

theorem exReach_spread : IsSpread exReach := by
  intro a b ha xs
  unfold exReach
  rw [List.head?_map, List.getLast?_map]
  have key : ∀ x y : Option Flt, (match x.map (Flt.units a b), y.map (Flt.units a b) with
      | some (.fin a), some (.fin b) => Flt.fin |a - b|
      | _, _ => .nan) = (Flt.fin |a|).mul (match x, y with
      | some (.fin a), some (.fin b) => .fin |a - b|
      | _, _ => .nan) := by
    intro x y
    have hp : Flt.pinf.units a b = .pinf ∨ Flt.pinf.units a b = .ninf := by
      rw [units_pinf ha]; split <;> simp
    have hm : Flt.ninf.units a b = .pinf ∨ Flt.ninf.units a b = .ninf := by
      rw [units_ninf ha]; split <;> simp
    cases x with
    | none => rfl
    | some x =>
      cases y with
      | none => cases x <;> rcases hp with e | e <;> rcases hm with e' | e' <;>
          simp only [Option.map_some, Option.map_none, units_fin, units_nan, e, e'] <;> rfl
      | some y =>
        cases x <;> cases y <;> rcases hp with e | e <;> rcases hm with e' | e' <;>
          simp only [Option.map_some, units_fin, units_nan, e, e'] <;> first
          | rfl
          | (simp only [Flt.mul]; rw [← abs_mul]; congr 2; ring)
  exact key _ _

example : (∃ z, exA.zscore exReach none = .ok z) ∧ AllScore exReach exA none :=
  ⟨⟨_, rfl⟩, by unfold NoInf; decide +kernel, Or.inr ⟨5, by norm_num, by decide +kernel⟩⟩

/-! ## Labels -/

/-- C86. `morph_like` twice is `morph_like` once. -/
theorem C86_morph_like [LinearOrder L] {y lar z : Larry L} (hv : y.Valid) (hl : lar.Valid)
    (h : y.morphLike lar = .ok z) : ∃ w, z.morphLike lar = .ok w ∧ w.Same z := by
  have hn : y.ndim = lar.ndim := by
    by_contra hne
    rw [C15_morph_like_ndim hne] at h
    simp at h
  obtain ⟨z', h1, zv, zl, -, -, -⟩ := C15_morph_like hv hl hn
  rw [h] at h1
  obtain rfl : z = z' := by simpa using h1
  have hzn : z.ndim = lar.ndim := by rw [← zv.label_length, ← hl.label_length, zl]
  obtain ⟨w, g1, wv, wl, ⟨-, wd⟩, wh, -⟩ := C15_morph_like zv hl hzn
  have hd : w.dtype = z.dtype := by
    refine wd ?_
    rintro ⟨-, p, hp, hne, -⟩
    rw [zl] at hp
    obtain ⟨k, hk, e⟩ := List.getElem_of_mem hp
    rw [List.getElem_zip] at e
    subst e
    exact hne rfl
  refine ⟨w, g1, wv.same_of_has zv (wl.trans zl.symm) hd fun names v hw => ?_⟩
  have hN : Named z.label names := by rw [zl, ← wl]; exact Named_of_Holds hw
  obtain ⟨u, hu⟩ := Holds_of_Named (x := z.x) hN
  have hu : z.Has names u := hu
  have := wh names u hu (zl ▸ hN)
  rw [if_pos hd] at this
  have hw' := (get_ok_iff wv).mp this
  rw [Holds_unique wv.nodup hw hw']
  exact hu

/-- C86. `keep_label` twice is `keep_label` once, if it keeps a label. -/
theorem C86_keep_label [LinearOrder L] {y z : Larry L} (hv : y.Valid) {op : LabelOp L} (hop : op ≠ .unknown)
    {a : Int} {ax : Nat} {l : List L} (hax : pyIdx y.ndim a = some ax) (hl : y.label[ax]? = some l)
    (hsome : ∃ b ∈ l, Wanted op b) (h : y.keepLabel op (some a) = .ok z) :
    ∃ w, z.keepLabel op (some a) = .ok w ∧ w.Same z := by
  obtain ⟨z', lab, h1, hp, hsub, hmem⟩ := (C38_keep_label hv hop hax hl).2 hsome
  rw [h] at h1
  obtain rfl : z = z' := by simpa using h1
  have hlt : ax < y.label.length := (List.getElem?_eq_some_iff.mp hl).1
  have zl : z.label[ax]? = some lab := by rw [hp.label_eq]; simp [hlt]
  have hzn : z.ndim = y.ndim := by
    rw [← hp.valid.label_length, hp.label_eq, List.length_set, hv.label_length]
  have hsome' : ∃ b ∈ lab, Wanted op b := by
    obtain ⟨b, hb, hw⟩ := hsome
    exact ⟨b, (hmem b).mpr ⟨hb, hw⟩, hw⟩
  obtain ⟨w, lab', g1, gp, gsub, gmem⟩ := (C38_keep_label hp.valid hop (hzn ▸ hax) zl).2 hsome'
  have hlab : lab' = lab := by
    refine gsub.eq_of_length_le (List.Nodup.subperm (hp.valid.nodup _ (List.mem_of_getElem? zl)) ?_).length_le
    intro b hb
    exact (gmem b).mpr ⟨hb, ((hmem b).mp hb).2⟩
  have hwl : w.label = z.label := by
    rw [gp.label_eq, hlab]
    refine List.ext_getElem? fun k => ?_
    rw [List.getElem?_set]
    split
    · rename_i e; subst e
      rw [zl, if_pos (by rw [hp.label_eq, List.length_set]; exact hlt)]
    · rfl
  exact ⟨w, g1, gp.valid.same_of_has hp.valid hwl gp.dtype_eq fun names v hh => ((gp.has names v).mp hh).2⟩

theorem unsqueeze_id {shape idx : List Nat} (h : InB (shape.filter (· ≠ 1)) idx) :
    unsqueeze (shape.filter (· ≠ 1)) idx = idx := by
  induction shape generalizing idx with
  | nil => cases idx <;> simp_all [unsqueeze, InB]
  | cons n ns ih =>
    by_cases hn : n = 1
    · simp only [hn, ne_eq, not_true_eq_false, decide_false, Bool.false_eq_true, not_false_eq_true,
        List.filter_cons_of_neg] at h ⊢
      exact ih h
    · rw [List.filter_cons_of_pos (by simpa using hn)] at h ⊢
      cases idx with
      | nil => simp [InB] at h
      | cons i is =>
        simp only [unsqueeze, if_neg hn]
        rw [ih h.2]

/-- C86. `squeeze` twice is `squeeze` once. -/
theorem C86_squeeze {y : Larry L} (hv : y.Valid) : y.squeeze.squeeze.Same y.squeeze := by
  have hs : y.shape = y.label.map List.length := hv.shape_eq
  refine ⟨?_, rfl, ?_, fun idx hidx => ?_⟩
  · have : ∀ ls : List (List L), ((ls.zip (ls.map List.length)).filter (fun p => decide (p.2 ≠ 1))).map Prod.fst =
        ls.filter (fun l => decide (l.length ≠ 1)) := by
      intro ls
      induction ls with
      | nil => rfl
      | cons l ls ih => by_cases h : l.length = 1 <;> simp_all
    have h1 : y.squeeze.label = y.label.filter (fun l => decide (l.length ≠ 1)) := by
      show ((y.label.zip y.shape).filter _).map _ = _
      rw [hs]; exact this _
    have h2 : y.squeeze.shape = y.squeeze.label.map List.length := by
      show y.shape.filter (fun n => decide (n ≠ 1)) = _
      rw [h1, hs, List.filter_map]; rfl
    show ((y.squeeze.label.zip y.squeeze.shape).filter _).map _ = _
    rw [h2, this, h1, List.filter_filter]
    simp
  · show (y.x.shape.filter _).filter _ = y.x.shape.filter _
    rw [List.filter_filter]; simp
  · have hidx : InB ((y.x.shape.filter (· ≠ 1)).filter (· ≠ 1)) idx := hidx
    rw [List.filter_filter] at hidx
    simp only [Bool.and_self] at hidx
    show y.x.get (unsqueeze y.x.shape (unsqueeze (y.x.shape.filter (· ≠ 1)) idx)) = y.x.get (unsqueeze y.x.shape idx)
    rw [unsqueeze_id hidx]

/-! ## keep_x -/

theorem MaskedBy.again {z w : Larry L} {op : CmpOp} {value : Flt} (hz : z.Valid)
    (hall : ∀ names v, z.Has names v → Passes op v.num value ∨ v = .flt .nan) (hw : MaskedBy z op value w) :
    w.Same z := by
  refine hw.valid.same_of_has hz hw.label_eq hw.dtype_eq fun names v hh => ?_
  have hN : Named z.label names := by rw [← hw.label_eq]; exact Named_of_Holds hh
  obtain ⟨u, hu⟩ := Holds_of_Named (x := z.x) hN
  have hu : z.Has names u := hu
  have hwu : w.Has names u := by
    by_cases hp : Passes op u.num value
    · exact hw.keep names u hu hp
    · rcases hall names u hu with h | h
      · exact absurd h hp
      · rw [h]; exact hw.drop names u hu hp
  rw [Holds_unique hw.valid.nodup hh hwu]
  exact hu

theorem MaskedBy.values {y w : Larry L} {op : CmpOp} {value : Flt} (hw : MaskedBy y op value w) :
    ∀ names v, w.Has names v → Passes op v.num value ∨ v = .flt .nan := by
  intro names v hh
  have hN : Named y.label names := by rw [← hw.label_eq]; exact Named_of_Holds hh
  obtain ⟨u, hu⟩ := Holds_of_Named (x := y.x) hN
  have hu : y.Has names u := hu
  by_cases hp : Passes op u.num value
  · rw [Holds_unique hw.valid.nodup hh (hw.keep names u hu hp)]; exact Or.inl hp
  · exact Or.inr (Holds_unique hw.valid.nodup hh (hw.drop names u hu hp))

/-- C86. `keep_x` twice is `keep_x` once, with and without vacuum. -/
theorem C86_keep_x {y z : Larry L} (hv : y.Valid) (hd : y.dtype = .float) {op : CmpOp} {value : Flt} {vac : Bool}
    (h : y.keepX op value vac = .ok z) : ∃ w, z.keepX op value vac = .ok w ∧ w.Same z := by
  have hop : op ≠ .unknown := by
    rintro rfl
    rw [(C38_keep_x_errors y .lt value vac).2.1] at h
    simp at h
  obtain ⟨w, h1, hw, h2⟩ := C38_keep_x hv hd op hop value
  have hvals := hw.values
  cases vac with
  | false =>
    rw [h] at h1
    obtain rfl : z = w := by simpa using h1
    obtain ⟨w', g1, gw, -⟩ := C38_keep_x hw.valid (hw.dtype_eq.trans hd) op hop value
    exact ⟨w', g1, MaskedBy.again hw.valid hvals gw⟩
  | true =>
    have hnd : y.ndim = 2 := by
      by_contra hne
      rw [(C38_keep_x_errors y op value true).1 hne] at h
      simp at h
    obtain ⟨z', g1, gv⟩ := h2 hnd
    rw [h] at g1
    obtain rfl : z = z' := by simpa using g1
    have hzd : z.dtype = .float := (gv.part.dtype_eq.trans hw.dtype_eq).trans hd
    have hzn : z.ndim = 2 := by
      rw [← gv.part.valid.label_length, gv.naxes, hw.label_eq, hv.label_length, hnd]
    have hzvals : ∀ names v, z.Has names v → Passes op v.num value ∨ v = .flt .nan := fun names v hh =>
      hvals names v ((gv.part.has names v).mp hh).2
    obtain ⟨w2, -, hw2, h3⟩ := C38_keep_x gv.part.valid hzd op hop value
    obtain ⟨z2, k1, kv⟩ := h3 hzn
    have hs : w2.Same z := MaskedBy.again gv.part.valid hzvals hw2
    have hlab : z2.label = z.label := by
      refine List.ext_getElem? fun k => ?_
      have hkk : z2.label.length = z.label.length := by rw [kv.naxes, hs.1]
      by_cases hk : k < z.label.length
      · have hk2 : k < z2.label.length := by omega
        have hkw : k < w.label.length := by rw [← gv.naxes]; exact hk
        have ez := List.getElem?_eq_getElem hk
        have ez2 := List.getElem?_eq_getElem hk2
        have hvac : Vacuumed none k := fun _ h => by simp at h
        obtain ⟨s1, s2⟩ := kv.vacuumed k _ _ (by rw [hs.1]; exact ez) ez2 hvac
        obtain ⟨t1, t2⟩ := gv.vacuumed k _ _ (List.getElem?_eq_getElem hkw) ez hvac
        rw [ez, ez2]
        congr 1
        refine s1.eq_of_length_le (List.Nodup.subperm (gv.part.valid.nodup _ (List.getElem_mem hk)) ?_).length_le
        intro b hb
        rw [s2]
        refine ⟨hb, ?_⟩
        obtain ⟨_, names, v, hn, hyv, hf⟩ := (t2 b).mp hb
        exact ⟨names, v, hn, (hs.has hw2.valid).mpr ((gv.part.has names v).mpr ⟨gv.labels_of_finite hyv hf, hyv⟩), hf⟩
      · rw [List.getElem?_eq_none (by omega), List.getElem?_eq_none (by omega)]
    refine ⟨z2, k1, kv.part.valid.same_of_has gv.part.valid hlab (kv.part.dtype_eq.trans hs.2.1) fun names v hh => ?_⟩
    exact (hs.has hw2.valid).mp ((kv.part.has names v).mp hh).2

/-! ## merge -/

theorem outerJoined_again [LinearOrder L] {as bs cs : List (List L)} (h : Joined OuterJoined as bs cs) :
    Joined OuterJoined cs bs cs := by
  induction h with
  | nil => exact .nil
  | cons hr _ ih =>
    refine .cons ⟨fun _ => rfl, fun hne => ?_⟩ ih
    rename_i a b c _ _ _ _
    have hab : a ≠ b := fun e => hne (by rw [hr.1 e, e])
    exact ⟨(hr.2 hab).1, fun x => ⟨Or.inl, fun hx => hx.elim id fun hb => hr.mem.mpr (Or.inr hb)⟩⟩

theorem joined_unique [LinearOrder L] {as bs cs cs' : List (List L)} (h : Joined OuterJoined as bs cs)
    (h' : Joined OuterJoined as bs cs') : cs = cs' := by
  induction h generalizing cs' with
  | nil => cases h'; rfl
  | cons hr _ ih =>
    cases h' with
    | cons hr' h' => rw [hr.unique hr', ih h']

theorem joined_covers [LinearOrder L] {as bs cs : List (List L)} (h : Joined OuterJoined as bs cs) :
    ¬ (∃ p ∈ cs.zip bs, ∃ l ∈ p.2, l ∉ p.1) ∧
    ((∃ p ∈ bs.zip cs, ∃ l ∈ p.2, l ∉ p.1) ↔ ∃ p ∈ bs.zip as, ∃ l ∈ p.2, l ∉ p.1) := by
  induction h with
  | nil => simp
  | cons hr _ ih =>
    rename_i a b c _ _ _ _
    simp only [List.zip_cons_cons, List.mem_cons, exists_eq_or_imp]
    refine ⟨?_, or_congr ?_ ih.2⟩
    · rintro (⟨l, hl, hn⟩ | h)
      · exact hn (hr.mem.mpr (Or.inr hl))
      · exact ih.1 h
    · refine exists_congr fun l => and_congr_left fun hn => ?_
      rw [hr.mem]
      exact ⟨fun h => h.resolve_right hn, Or.inl⟩

theorem asDType_self {d : DType} {v : Val} (h : v.hasDType d = true) : asDType d v = v := by
  cases d <;> cases v <;> simp_all [asDType, Val.hasDType]

theorem floatIf_cases (d : DType) (c : Prop) : floatIf d c = d ∨ (NoMarker d ∧ floatIf d c = .float) := by
  unfold floatIf
  split
  · rename_i h; exact Or.inr ⟨h.1, rfl⟩
  · exact Or.inl rfl

theorem asDType_typed {d d' : DType} {v : Val} (h : v.hasDType d = true) (hd : d' = d ∨ (NoMarker d ∧ d' = .float)) :
    (asDType d' v).hasDType d' = true := by
  rcases hd with rfl | ⟨rfl | rfl, rfl⟩
  · rw [asDType_self h]; exact h
  all_goals cases v <;> simp_all [asDType, Val.hasDType]

theorem asDType_typed_other {a b : Larry L} {d : DType} {v : Val} (h : v.hasDType a.dtype = true)
    (hc : SafeCast (extDType a b) d) : (asDType d v).hasDType d = true := by
  rcases floatIf_cases a.dtype (NewLabels a b) with e | ⟨hm, e⟩
  · unfold extDType at hc
    rw [e] at hc
    rcases hc with rfl | ⟨e1, rfl⟩ | ⟨e1, rfl⟩ | ⟨e1, rfl⟩
    · rw [asDType_self h]; exact h
    all_goals (rw [e1] at h; cases v <;> simp_all [asDType, Val.hasDType])
  · unfold extDType at hc
    rw [e] at hc
    have : d = .float := by
      rcases hc with e1 | ⟨e1, _⟩ | ⟨e1, _⟩ | ⟨e1, _⟩
      · exact e1.symm
      all_goals simp at e1
    subst this
    exact asDType_typed h (Or.inr ⟨hm, rfl⟩)

theorem marker_typed {d : DType} {m : Val} (h : missingMarker d = some m) : m.hasDType d = true := by
  cases d <;> simp_all [missingMarker]
  all_goals (subst h; rfl)

/-- C86. `merge` with `update=True` of the same larry once more changes nothing. -/
theorem C86_merge [LinearOrder L] {y other z : Larry L} (hv : y.Valid) (ho : other.Valid) (ht : y.Typed)
    (hto : other.Typed) (h : merge y other true = .ok z) : ∃ w, merge z other true = .ok w ∧ w.Same z := by
  obtain ⟨e1, e2⟩ := C20_merge_errors (y := y) (other := other) true
  have hn : y.ndim = other.ndim := by
    by_contra hne
    rw [e1 hne] at h; simp at h
  obtain ⟨e3, -, e4⟩ := e2 hv ho ht hto hn
  have hmix : Mixable y.dtype other.dtype := by
    by_contra hne
    rw [e3 hne] at h; simp at h
  have hcast : SafeCast (extDType other y) (extDType y other) ∨ ¬ ∃ names, HasPresent other names := by
    by_contra hne
    push Not at hne
    rw [e4 hmix (Or.inl rfl) hne.1 hne.2] at h; simp at h
  obtain ⟨z', h1, zv, zd, zj, zh⟩ := C20_merge (update := true) hv ho ht hto hn hmix (Or.inl rfl) hcast
  rw [h] at h1
  obtain rfl : z = z' := by simpa using h1
  have zt : z.Typed := by
    refine (typed_iff zv).mpr fun names v hh => ?_
    obtain ⟨k1, k2, k3⟩ := zh names (Named_of_Holds hh)
    by_cases hp : HasPresent other names
    · obtain ⟨u, hu, hpu⟩ := hp
      rw [Holds_unique zv.nodup hh ((get_ok_iff zv).mp (k1 u hu hpu))]
      refine asDType_typed_other (b := y) ((typed_iff ho).mp hto names u hu) ?_
      rw [zd]
      exact hcast.resolve_right fun hne => hne ⟨names, u, hu, hpu⟩
    · by_cases hy : Named y.label names
      · obtain ⟨u, hu⟩ := Holds_of_Named (x := y.x) hy
        have hu : y.Has names u := hu
        rw [Holds_unique zv.nodup hh ((get_ok_iff zv).mp (k2 hp u hu))]
        refine asDType_typed ((typed_iff hv).mp ht names u hu) ?_
        rw [zd]; exact floatIf_cases _ _
      · obtain ⟨m, hm, hmark⟩ := k3 hp hy
        rw [Holds_unique zv.nodup hh ((get_ok_iff zv).mp hm)]
        exact marker_typed hmark
  have hzn : z.ndim = other.ndim := by rw [← zv.label_length, ← ho.label_length, zj.lengths.2]
  have hcov := joined_covers zj
  have hd1 : extDType z other = z.dtype := by
    unfold extDType floatIf NewLabels
    rw [if_neg fun hh => hcov.1 hh.2]
  have hd2 : extDType other z = extDType other y := by
    unfold extDType floatIf NewLabels
    rw [hcov.2]
  have hmix' : Mixable z.dtype other.dtype := by
    rw [zd]
    unfold extDType floatIf
    split
    · rename_i hh
      refine Or.inr ⟨by decide, ?_⟩
      rcases hmix with e | e
      · rw [← e]; rcases hh.1 with e' | e' <;> rw [e'] <;> decide
      · exact e.2
    · exact hmix
  obtain ⟨w, g1, wv, wd, wj, wh⟩ := C20_merge (update := true) zv ho zt hto hzn hmix' (Or.inl rfl)
    (by rw [hd2, hd1, zd]; exact hcast)
  have hwl : w.label = z.label := joined_unique wj (outerJoined_again zj)
  rw [hd1] at wd
  refine ⟨w, g1, wv.same_of_has zv hwl wd fun names v hw => ?_⟩
  have hN : Named w.label names := Named_of_Holds hw
  obtain ⟨k1, k2, -⟩ := wh names hN
  rw [hwl] at hN
  by_cases hp : HasPresent other names
  · obtain ⟨u, hu, hpu⟩ := hp
    have a := (zh names hN).1 u hu hpu
    have b := (get_ok_iff wv).mp (k1 u hu hpu)
    rw [Holds_unique wv.nodup hw b, wd]
    exact (get_ok_iff zv).mp a
  · obtain ⟨u, hu⟩ := Holds_of_Named (x := z.x) hN
    have hu : z.Has names u := hu
    have b := (get_ok_iff wv).mp (k2 hp u hu)
    rw [Holds_unique wv.nodup hw b, wd, asDType_self ((typed_iff zv).mp zt names u hu)]
    exact hu

example : (∃ z, exA.morphLike exB = .ok z) ∧ (∃ z, exA.keepLabel (.gt 10) (some 0) = .ok z) ∧
    (∃ z, exA.keepX .gt (.fin 2) true = .ok z) ∧ exC.squeeze.label = [[1, 2], [9, 8]] :=
  ⟨(C15_morph_like exA_valid exB_valid rfl).imp fun _ h => h.1, ⟨_, rfl⟩,
    ((C38_keep_x exA_valid rfl .gt (by decide) (.fin 2)).elim fun _ h => (h.2.2 rfl).imp fun _ h => h.1), rfl⟩

example : ∃ z, merge exA exB true = .ok z := by
  have typed : ∀ y : Larry Nat, (∀ idx ∈ allIdx y.x.shape, (y.x.get idx).hasDType y.dtype = true) → y.Typed :=
    fun y h idx hi => h idx (mem_allIdx.mpr hi)
  have h1 : extDType exA exB = .float := floatIf_of_marker (m := .flt .nan) rfl
  have h2 : extDType exB exA = .float := by
    unfold extDType floatIf
    rw [if_pos]
    exact ⟨.inl rfl, ([20, 30], [10, 20]), by simp [exA, exB], 10, by simp, by simp⟩
  exact (C20_merge (update := true) exA_valid exB_valid (typed _ (by decide +kernel)) (typed _ (by decide +kernel)) rfl
    (Or.inr (by decide)) (Or.inl rfl) (Or.inl (by rw [h1, h2]; exact .inl rfl))).imp fun _ h => h.1

end La
