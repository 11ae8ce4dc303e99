import Verif.Props.Identities
import Verif.Props.Parts
import Verif.BeforeLines
import Mathlib.Data.List.Perm.Basic

/-!
# Property C128: the statistics of two parts give that of the whole

Data too large to handle at once is cut along an axis, the parts are reduced and their results combined.
-/

namespace La
open Larry
variable {L : Type _}

/-! ## Specification -/

/-- The third is what the first two are together; NaN counts as nothing. -/
inductive Pooled (both : Flt → Flt → Flt → Prop) : Flt → Flt → Flt → Prop
  | left (b : Flt) : Pooled both .nan b b
  | right (a : Flt) : Pooled both a .nan a
  | both {a b s : Flt} : a ≠ .nan → b ≠ .nan → both a b s → Pooled both a b s

/-- The sum of two numbers. -/
def PlusF (a b s : Flt) : Prop := ∃ p q : ℚ, a = .fin p ∧ b = .fin q ∧ s = .fin (p + q)

/-- A weighted average of two numbers, neither of them without weight. -/
def AverageF (a b s : Flt) : Prop :=
  ∃ (p q r : ℚ) (i j : Nat), a = .fin p ∧ b = .fin q ∧ s = .fin r ∧ 0 < i ∧ 0 < j ∧ r * (i + j) = p * i + q * j

/-- The greater of two. -/
def GreaterF (a b s : Flt) : Prop := (s = a ∨ s = b) ∧ LeF a s ∧ LeF b s

/-- The lesser of two. -/
def LesserF (a b s : Flt) : Prop := (s = a ∨ s = b) ∧ LeF s a ∧ LeF s b

/-- Of numbers. -/
def PooledBy (both : Flt → Flt → Flt → Prop) (v w s : Val) : Prop := Pooled both v.num w.num s.num

/-- Of truth values. -/
def Either (v w s : Val) : Prop := ∃ a b : Bool, v = .bool a ∧ w = .bool b ∧ s = .bool (a || b)

def BothTrue (v w s : Val) : Prop := ∃ a b : Bool, v = .bool a ∧ w = .bool b ∧ s = .bool (a && b)

/-! ## The lines of the whole and of its parts -/

theorem prod_ne_zero_of {s : List Nat} (h : ∀ n ∈ s, n ≠ 0) : s.prod ≠ 0 := by
  induction s with
  | nil => simp
  | cons n s ih =>
    rw [List.prod_cons]
    exact Nat.mul_ne_zero (h n List.mem_cons_self) (ih fun m hm => h m (List.mem_cons_of_mem _ hm))

theorem part_numeric {y a : Larry L} (hy : y.Numeric) {ax : Nat} {la : List L} (h : a.PartOf y (y.label.set ax la))
    (hne : la ≠ []) : a.Numeric := by
  refine ⟨h.valid, ?_, by rw [h.dtype_eq]; exact hy.dtype, ?_⟩
  · rw [typed_iff h.valid]
    intro names v hv
    rw [h.dtype_eq]
    exact (typed_iff hy.valid).mp hy.typed names v ((h.has names v).mp hv).2
  · show a.x.shape.prod ≠ 0
    rw [h.valid.shape_eq, h.label_eq]
    apply prod_ne_zero_of
    intro n hn
    obtain ⟨m, hm, rfl⟩ := List.mem_map.mp hn
    rcases List.mem_or_eq_of_mem_set hm with hm | rfl
    · intro h0
      apply hy.elements
      show y.x.shape.prod = 0
      rw [hy.valid.shape_eq]
      exact prod_eq_zero_of_mem (List.mem_map.mpr ⟨m, hm, h0⟩)
    · exact fun h0 => hne (List.length_eq_zero_iff.mp h0)

theorem lineAt_unique {y : Larry L} (hy : y.Valid) {ax : Nat} {rest : List L} {vs ws : List Val} (h : y.LineAt ax rest vs)
    (h' : y.LineAt ax rest ws) : vs = ws := by
  have := under_line rfl (R := fun v w => v = w) (fun names v w h h' => has_unique hy h h') h h'
  clear h h'
  induction this with
  | nil => rfl
  | cons h _ ih => rw [h, ih]

theorem part_line {y a : Larry L} (hy : y.Valid) {ax : Nat} {l la : List L} (hl : y.label[ax]? = some l)
    (h : a.PartOf y (y.label.set ax la)) {rest : List L} (hN : Named (y.label.eraseIdx ax) rest) {us : List Val}
    (hu : a.LineAt ax rest us) : us = la.map fun b => y.valueAt (rest.insertIdx ax b) := by
  have hlt : ax < y.label.length := (List.getElem?_eq_some_iff.mp hl).1
  have hla : a.label[ax]? = some la := by rw [h.label_eq, List.getElem?_set_self hlt]
  have hNa : Named (a.label.eraseIdx ax) rest := by rw [h.label_eq, List.eraseIdx_set_eq]; exact hN
  rw [lineAt_unique h.valid hu (lineAt_of h.valid hla hNa)]
  refine List.map_congr_left fun b hb => ?_
  obtain ⟨v, hv⟩ := Holds_of_Named (x := a.x) (named_put hla hNa hb)
  rw [valueAt_of h.valid hv, valueAt_of hy ((h.has _ _).mp hv).2]

/-- The line of the whole holds what the lines of the parts hold. -/
theorem two_parts_line {y a b : Larry L} (hy : y.Valid) {ax : Nat} {l la lb : List L} (hl : y.label[ax]? = some l)
    (ha : a.PartOf y (y.label.set ax la)) (hb : b.PartOf y (y.label.set ax lb)) (hab : (la ++ lb).Perm l)
    {rest : List L} (hN : Named (y.label.eraseIdx ax) rest) {us ws vs : List Val} (hu : a.LineAt ax rest us)
    (hw : b.LineAt ax rest ws) (hv : y.LineAt ax rest vs) : (us ++ ws).Perm vs := by
  rw [part_line hy hl ha hN hu, part_line hy hl hb hN hw, lineAt_unique hy hv (lineAt_of hy hl hN), ← List.map_append]
  exact hab.map _

/-- So do all their values. -/
theorem parts_vals {y a b : Larry L} (hy : y.Valid) {ax : Nat} {l la lb : List L} (hl : y.label[ax]? = some l)
    (ha : a.PartOf y (y.label.set ax la)) (hb : b.PartOf y (y.label.set ax lb)) (hab : (la ++ lb).Perm l) :
    (a.x.vals ++ b.x.vals).Perm y.x.vals := by
  have hlt : ax < y.label.length := (List.getElem?_eq_some_iff.mp hl).1
  have hla : a.label[ax]? = some la := by rw [ha.label_eq, List.getElem?_set_self hlt]
  have hlb : b.label[ax]? = some lb := by rw [hb.label_eq, List.getElem?_set_self hlt]
  have ea : a.label.eraseIdx ax = y.label.eraseIdx ax := by rw [ha.label_eq, List.eraseIdx_set_eq]
  have eb : b.label.eraseIdx ax = y.label.eraseIdx ax := by rw [hb.label_eq, List.eraseIdx_set_eq]
  have erase_map : ∀ ls : List (List L), (ls.map List.length).eraseIdx ax = (ls.eraseIdx ax).map List.length :=
    fun ls => by rw [List.eraseIdx_map]
  have sa : a.x.shape.eraseIdx ax = y.x.shape.eraseIdx ax := by
    rw [ha.valid.shape_eq, hy.shape_eq, erase_map, erase_map, ea]
  have sb : b.x.shape.eraseIdx ax = y.x.shape.eraseIdx ax := by
    rw [hb.valid.shape_eq, hy.shape_eq, erase_map, erase_map, eb]
  have ky : ax < y.x.shape.length := by rw [hy.shape_eq]; simpa using hlt
  have ka : ax < a.x.shape.length := by rw [ha.valid.shape_eq, ha.label_eq]; simpa using hlt
  have kb : ax < b.x.shape.length := by rw [hb.valid.shape_eq, hb.label_eq]; simpa using hlt
  have pa := vals_perm_lines ka
  have pb := vals_perm_lines kb
  rw [sa] at pa
  rw [sb] at pb
  refine ((pa.append pb).trans ((List.flatMap_append_perm _ _ _).trans ?_)).trans (vals_perm_lines ky).symm
  refine List.Perm.flatMap_left _ fun ridx hr => ?_
  rw [mem_allIdx, hy.shape_eq, erase_map] at hr
  obtain ⟨rest, hat⟩ := At_of_inB hr
  exact two_parts_line hy hl ha hb hab (Named_of_At hat) (line_at ha.valid hla (ea ▸ hat)) (line_at hb.valid hlb (eb ▸ hat))
    (line_at hy hl hat)

/-- The reductions of two parts and of the whole. -/
theorem pool_reduce {Q : Val → Val → Val → Prop} (r : Red) {y a b : Larry L} (hy : y.Numeric) {d : DType}
    (hd : r.dt y.dtype = .ok d) {axis : Int} {ax : Nat} (hax : pyIdx y.ndim axis = some ax) {l la lb : List L}
    (hl : y.label[ax]? = some l) (ha : a.PartOf y (y.label.set ax la)) (hb : b.PartOf y (y.label.set ax lb))
    (hab : (la ++ lb).Perm l) (hna : la ≠ []) (hnb : lb ≠ [])
    (hQ : ∀ us ws vs : List Val, (us ++ ws).Perm vs → us ≠ [] → ws ≠ [] → (∀ v ∈ vs, ∃ names, y.Has names v) →
      Q (r.f us) (r.f ws) (r.f vs)) {o : Option Int} (ho : o = none ∨ o = some axis) :
    Compare3 Q (a.reduce r o) (b.reduce r o) (y.reduce r o) := by
  have na := part_numeric hy ha hna
  have nb := part_numeric hy hb hnb
  have da : r.dt a.dtype = .ok d := by rw [ha.dtype_eq]; exact hd
  have db : r.dt b.dtype = .ok d := by rw [hb.dtype_eq]; exact hd
  have dima : a.ndim = y.ndim := by rw [← ha.valid.label_length, ← hy.valid.label_length, ha.label_eq]; simp
  have dimb : b.ndim = y.ndim := by rw [← hb.valid.label_length, ← hy.valid.label_length, hb.label_eq]; simp
  have ea : a.label.eraseIdx ax = y.label.eraseIdx ax := by rw [ha.label_eq, List.eraseIdx_set_eq]
  have eb : b.label.eraseIdx ax = y.label.eraseIdx ax := by rw [hb.label_eq, List.eraseIdx_set_eq]
  have hlines : ∀ rest us ws vs, Named (y.label.eraseIdx ax) rest → a.LineAt ax rest us → b.LineAt ax rest ws →
      y.LineAt ax rest vs → Q (r.f us) (r.f ws) (r.f vs) := fun rest us ws vs hN h1 h2 h3 =>
    hQ _ _ _ (two_parts_line hy.valid hl ha hb hab hN h1 h2 h3) (line_ne_nil na.valid na.elements h1)
      (line_ne_nil nb.valid nb.elements h2) (fun v hv => line_mem_has h3 hv)
  rcases ho with rfl | rfl
  · rw [reduce_none_eq r da na.elements, reduce_none_eq r db nb.elements, reduce_none_eq r hd hy.elements]
    exact .scalar (hQ _ _ _ (parts_vals hy.valid hl ha hb hab) (numeric_vals na) (numeric_vals nb)
      (fun v hv => mem_vals_has hy.valid hv))
  · have hpos : 1 ≤ y.ndim := by
      have := hy.valid.ndim_pos
      rw [← hy.valid.label_length]
      exact List.length_pos_iff.mpr this
    rcases Nat.lt_or_ge y.ndim 2 with h1 | h2
    · have h1 : y.ndim = 1 := by omega
      have hz : axis = 0 ∨ axis = -1 := by
        rw [h1] at hax
        simp only [pyIdx] at hax
        split_ifs at hax <;> omega
      have hx0 : ax = 0 := by
        have := (pyIdx_some.mp hax).1
        omega
      subst hx0
      obtain ⟨us, k1, e1⟩ := C42_reduce_1d r ha.valid da na.elements (dima.trans h1) hz
      obtain ⟨ws, k2, e2⟩ := C42_reduce_1d r hb.valid db nb.elements (dimb.trans h1) hz
      obtain ⟨vs, k3, e3⟩ := C42_reduce_1d r hy.valid hd hy.elements h1 hz
      rw [e1, e2, e3]
      refine .scalar (hlines [] _ _ _ ?_ k1 k2 k3)
      have hlen : y.label.length = 1 := by rw [hy.valid.label_length]; exact h1
      have : y.label.eraseIdx 0 = [] := by
        rw [← List.length_eq_zero_iff, List.length_eraseIdx_of_lt (by omega)]
        omega
      rw [this]
      trivial
    · obtain ⟨za, e1, v1, -, l1, c1⟩ := C42_reduce_axis r ha.valid da na.elements (dima ▸ hax) (dima ▸ h2)
      obtain ⟨zb, e2, v2, -, l2, c2⟩ := C42_reduce_axis r hb.valid db nb.elements (dimb ▸ hax) (dimb ▸ h2)
      obtain ⟨z, e3, v3, -, l3, c3⟩ := C42_reduce_axis r hy.valid hd hy.elements hax h2
      rw [e1, e2, e3]
      refine .larry v1 v2 v3 (by rw [l1, l2, ea, eb]) (by rw [l1, l3, ea]) fun names u w v hu hw hv => ?_
      obtain ⟨-, us, k1, rfl⟩ := (c1 names u).mp hu
      obtain ⟨-, ws, k2, rfl⟩ := (c2 names w).mp hw
      obtain ⟨hN, vs, k3, rfl⟩ := (c3 names v).mp hv
      exact hlines names _ _ _ (l3 ▸ hN) k1 k2 k3

/-! ## Lists -/

theorem finites_perm {fs gs : List Flt} (h : fs.Perm gs) : (finites fs).Perm (finites gs) := h.filterMap _

theorem finites_append (fs gs : List Flt) : finites (fs ++ gs) = finites fs ++ finites gs := List.filterMap_append

theorem noInf_append {fs gs hs : List Flt} (h : (fs ++ gs).Perm hs) (hi : NoInf hs) : NoInf fs ∧ NoInf gs :=
  ⟨fun f hf => hi f (h.mem_iff.mp (List.mem_append_left _ hf)), fun f hf => hi f (h.mem_iff.mp (List.mem_append_right _ hf))⟩

theorem nums_perm {us ws vs : List Val} (h : (us ++ ws).Perm vs) :
    (us.map Val.num ++ ws.map Val.num).Perm (vs.map Val.num) := by
  rw [← List.map_append]
  exact h.map _

theorem pool_sum {fs gs hs : List Flt} (h : (fs ++ gs).Perm hs) (hi : NoInf hs) {a b s : Flt} (ha : SumIs fs a)
    (hb : SumIs gs b) (hs' : SumIs hs s) : Pooled PlusF a b s := by
  obtain ⟨i1, i2⟩ := noInf_append h hi
  have hp := (finites_perm h)
  rw [finites_append] at hp
  have hsum : (finites hs).sum = (finites fs).sum + (finites gs).sum := by rw [← hp.sum_eq, List.sum_append]
  have hnil : finites hs = [] ↔ finites fs = [] ∧ finites gs = [] := by
    rw [← List.append_eq_nil_iff]
    exact ⟨fun e => by rw [e] at hp; exact hp.eq_nil, fun e => by rw [e] at hp; exact hp.symm.eq_nil⟩
  rcases sum_finites i1 ha with ⟨n1, rfl⟩ | ⟨n1, rfl⟩ <;> rcases sum_finites i2 hb with ⟨n2, rfl⟩ | ⟨n2, rfl⟩ <;>
    rcases sum_finites hi hs' with ⟨n3, rfl⟩ | ⟨n3, rfl⟩
  · exact .left _
  · exact absurd (hnil.mpr ⟨n1, n2⟩) n3
  · exact absurd (hnil.mp n3).2 n2
  · rw [hsum, n1, List.sum_nil, zero_add]; exact .left _
  · exact absurd (hnil.mp n3).1 n1
  · rw [hsum, n2, List.sum_nil, add_zero]; exact .right _
  · exact absurd (hnil.mp n3).1 n1
  · exact .both (by simp) (by simp) ⟨_, _, rfl, rfl, by rw [hsum]⟩

theorem pool_mean {fs gs hs : List Flt} (h : (fs ++ gs).Perm hs) (hi : NoInf hs) {a b s : Flt} (ha : MeanIs fs a)
    (hb : MeanIs gs b) (hs' : MeanIs hs s) : Pooled AverageF a b s := by
  obtain ⟨i1, i2⟩ := noInf_append h hi
  have hp := (finites_perm h)
  rw [finites_append] at hp
  have hsum : (finites hs).sum = (finites fs).sum + (finites gs).sum := by rw [← hp.sum_eq, List.sum_append]
  have hlen : (finites hs).length = (finites fs).length + (finites gs).length := by rw [← hp.length_eq, List.length_append]
  have hnil : finites hs = [] ↔ finites fs = [] ∧ finites gs = [] := by
    rw [← List.append_eq_nil_iff]
    exact ⟨fun e => by rw [e] at hp; exact hp.eq_nil, fun e => by rw [e] at hp; exact hp.symm.eq_nil⟩
  rcases mean_finites i1 ha with ⟨n1, rfl⟩ | ⟨n1, rfl⟩ <;> rcases mean_finites i2 hb with ⟨n2, rfl⟩ | ⟨n2, rfl⟩ <;>
    rcases mean_finites hi hs' with ⟨n3, rfl⟩ | ⟨n3, rfl⟩
  · exact .left _
  · exact absurd (hnil.mpr ⟨n1, n2⟩) n3
  · exact absurd (hnil.mp n3).2 n2
  · rw [hsum, hlen, n1, List.sum_nil, zero_add, List.length_nil, Nat.zero_add]; exact .left _
  · exact absurd (hnil.mp n3).1 n1
  · rw [hsum, hlen, n2, List.sum_nil, add_zero, List.length_nil, Nat.add_zero]; exact .right _
  · exact absurd (hnil.mp n3).1 n1
  · have p1 := List.length_pos_iff.mpr n1
    have p2 := List.length_pos_iff.mpr n2
    refine .both (by simp) (by simp) ⟨_, _, _, _, _, rfl, rfl, rfl, p1, p2, ?_⟩
    have q1 : ((finites fs).length : ℚ) ≠ 0 := by positivity
    have q2 : ((finites gs).length : ℚ) ≠ 0 := by positivity
    have q3 : ((finites fs).length : ℚ) + (finites gs).length ≠ 0 := by positivity
    rw [hsum, hlen]
    push_cast
    rw [div_mul_cancel₀ _ q3, div_mul_cancel₀ _ q1, div_mul_cancel₀ _ q2]

theorem pool_max {fs gs hs : List Flt} (h : (fs ++ gs).Perm hs) {a b s : Flt} (ha : MaxIs fs a) (hb : MaxIs gs b)
    (hs' : MaxIs hs s) : Pooled GreaterF a b s := by
  have hm : ∀ f, f ∈ hs ↔ f ∈ fs ∨ f ∈ gs := fun f => by rw [← h.mem_iff, List.mem_append]
  have anti : ∀ {x z : Flt}, LeF x z → LeF z x → x = z := by
    intro x z h1 h2
    cases x <;> cases z <;> simp_all [LeF]
    exact le_antisymm h1 h2
  rcases hs' with ⟨n, rfl⟩ | ⟨m, n, u⟩
  · rcases ha with ⟨-, rfl⟩ | ⟨m1, n1, -⟩
    · rcases hb with ⟨-, rfl⟩ | ⟨m2, n2, -⟩
      · exact .left _
      · exact absurd (n b ((hm b).mpr (.inr m2))) n2
    · exact absurd (n a ((hm a).mpr (.inl m1))) n1
  · rcases ha with ⟨h1, rfl⟩ | ⟨m1, n1, u1⟩ <;> rcases hb with ⟨h2, rfl⟩ | ⟨m2, n2, u2⟩
    · rcases (hm s).mp m with k | k
      · exact absurd (h1 s k) n
      · exact absurd (h2 s k) n
    · have k : s ∈ gs := ((hm s).mp m).resolve_left fun k => n (h1 s k)
      rw [anti (u2 s k n) (u b ((hm b).mpr (.inr m2)) n2)]
      exact .left _
    · have k : s ∈ fs := ((hm s).mp m).resolve_right fun k => n (h2 s k)
      rw [anti (u1 s k n) (u a ((hm a).mpr (.inl m1)) n1)]
      exact .right _
    · have l1 := u a ((hm a).mpr (.inl m1)) n1
      have l2 := u b ((hm b).mpr (.inr m2)) n2
      refine .both n1 n2 ⟨?_, l1, l2⟩
      rcases (hm s).mp m with k | k
      · exact .inl (anti (u1 s k n) l1)
      · exact .inr (anti (u2 s k n) l2)

theorem pool_min {fs gs hs : List Flt} (h : (fs ++ gs).Perm hs) {a b s : Flt} (ha : MinIs fs a) (hb : MinIs gs b)
    (hs' : MinIs hs s) : Pooled LesserF a b s := by
  have hm : ∀ f, f ∈ hs ↔ f ∈ fs ∨ f ∈ gs := fun f => by rw [← h.mem_iff, List.mem_append]
  have anti : ∀ {x z : Flt}, LeF x z → LeF z x → x = z := by
    intro x z h1 h2
    cases x <;> cases z <;> simp_all [LeF]
    exact le_antisymm h1 h2
  rcases hs' with ⟨n, rfl⟩ | ⟨m, n, u⟩
  · rcases ha with ⟨-, rfl⟩ | ⟨m1, n1, -⟩
    · rcases hb with ⟨-, rfl⟩ | ⟨m2, n2, -⟩
      · exact .left _
      · exact absurd (n b ((hm b).mpr (.inr m2))) n2
    · exact absurd (n a ((hm a).mpr (.inl m1))) n1
  · rcases ha with ⟨h1, rfl⟩ | ⟨m1, n1, u1⟩ <;> rcases hb with ⟨h2, rfl⟩ | ⟨m2, n2, u2⟩
    · rcases (hm s).mp m with k | k
      · exact absurd (h1 s k) n
      · exact absurd (h2 s k) n
    · have k : s ∈ gs := ((hm s).mp m).resolve_left fun k => n (h1 s k)
      rw [anti (u b ((hm b).mpr (.inr m2)) n2) (u2 s k n)]
      exact .left _
    · have k : s ∈ fs := ((hm s).mp m).resolve_right fun k => n (h2 s k)
      rw [anti (u a ((hm a).mpr (.inl m1)) n1) (u1 s k n)]
      exact .right _
    · have l1 := u a ((hm a).mpr (.inl m1)) n1
      have l2 := u b ((hm b).mpr (.inr m2)) n2
      refine .both n1 n2 ⟨?_, l1, l2⟩
      rcases (hm s).mp m with k | k
      · exact .inl (anti l1 (u1 s k n))
      · exact .inr (anti l2 (u2 s k n))

theorem pool_any {us ws vs : List Val} (h : (us ++ ws).Perm vs) : Either (npAny.f us) (npAny.f ws) (npAny.f vs) := by
  obtain ⟨a, ea, ha⟩ := any_vals us
  obtain ⟨b, eb, hb⟩ := any_vals ws
  obtain ⟨c, ec, hc⟩ := any_vals vs
  refine ⟨a, b, ea, eb, ?_⟩
  rw [ec, Val.bool.injEq, Bool.eq_iff_iff, hc, Bool.or_eq_true, ha, hb]
  simp only [← h.mem_iff, List.mem_append]
  constructor
  · rintro ⟨w, h | h, k⟩
    exacts [.inl ⟨w, h, k⟩, .inr ⟨w, h, k⟩]
  · rintro (⟨w, h, k⟩ | ⟨w, h, k⟩)
    exacts [⟨w, .inl h, k⟩, ⟨w, .inr h, k⟩]

theorem pool_all {us ws vs : List Val} (h : (us ++ ws).Perm vs) : BothTrue (npAll.f us) (npAll.f ws) (npAll.f vs) := by
  obtain ⟨a, ea, ha⟩ := all_vals us
  obtain ⟨b, eb, hb⟩ := all_vals ws
  obtain ⟨c, ec, hc⟩ := all_vals vs
  refine ⟨a, b, ea, eb, ?_⟩
  rw [ec, Val.bool.injEq, Bool.eq_iff_iff, hc, Bool.and_eq_true, ha, hb]
  simp only [← h.mem_iff, List.mem_append]
  exact ⟨fun k => ⟨fun w hw => k w (.inl hw), fun w hw => k w (.inr hw)⟩, fun k w hw => hw.elim (k.1 w) (k.2 w)⟩

/-! ## C128 -/

/-- C128. Cut a larry along an axis into two parts that hold each label once: along that axis, or over everything, the
maximum, minimum, any and all of the whole are those of the results for the parts; the sum is the sum and the mean a
weighted average, if no element is infinite.  A NaN of a part counts as nothing. -/
theorem C128_parts [LinearOrder L] {y : Larry L} (hy : y.Numeric) {axis : Int} {ax : Nat}
    (hax : pyIdx y.ndim axis = some ax) {l la lb : List L} (hl : y.label[ax]? = some l) {p q : Pick L}
    (hp : PickLeaves l la p) (hq : PickLeaves l lb q) (hab : (la ++ lb).Perm l) (hna : la ≠ []) (hnb : lb ≠ [])
    {o : Option Int} (ho : o = none ∨ o = some axis) :
    ∃ a b, p.run y axis = .ok a ∧ q.run y axis = .ok b ∧
      Compare3 (PooledBy GreaterF) (a.max o) (b.max o) (y.max o) ∧
      Compare3 (PooledBy LesserF) (a.min o) (b.min o) (y.min o) ∧
      Compare3 Either (a.any o) (b.any o) (y.any o) ∧
      Compare3 BothTrue (a.all o) (b.all o) (y.all o) ∧
      (y.NoInfinities → Compare3 (PooledBy PlusF) (a.sum o) (b.sum o) (y.sum o) ∧
        Compare3 (PooledBy AverageF) (a.mean o) (b.mean o) (y.mean o)) := by
  obtain ⟨a, e1, ha⟩ := pick_run hy.valid hax hl hp
  obtain ⟨b, e2, hb⟩ := pick_run hy.valid hax hl hq
  have pool : ∀ {Q : Val → Val → Val → Prop} (r : Red) {d : DType}, r.dt y.dtype = .ok d →
      (∀ us ws vs : List Val, (us ++ ws).Perm vs → us ≠ [] → ws ≠ [] → (∀ v ∈ vs, ∃ names, y.Has names v) →
        Q (r.f us) (r.f ws) (r.f vs)) → Compare3 Q (a.reduce r o) (b.reduce r o) (y.reduce r o) :=
    fun r _ hd hQ => pool_reduce r hy hd hax hl ha hb hab hna hnb hQ ho
  have sub : ∀ {us ws vs : List Val}, (us ++ ws).Perm vs → us ≠ [] → ws ≠ [] → (∀ v ∈ vs, ∃ names, y.Has names v) →
      ((∀ v ∈ us, v.hasDType y.dtype = true) ∧ (∀ v ∈ ws, v.hasDType y.dtype = true) ∧
        (∀ v ∈ vs, v.hasDType y.dtype = true)) ∧ vs ≠ [] := by
    intro us ws vs h h1 _ hv
    have ht := line_typed' hy hv
    refine ⟨⟨fun v hm => ht v (h.mem_iff.mp (List.mem_append_left _ hm)),
      fun v hm => ht v (h.mem_iff.mp (List.mem_append_right _ hm)), ht⟩, fun e => ?_⟩
    rw [e] at h
    exact h1 (List.append_eq_nil_iff.mp h.eq_nil).1
  refine ⟨a, b, e1, e2, ?_, ?_, ?_, ?_, fun hi => ⟨?_, ?_⟩⟩
  · refine pool bnNanmax (d := y.dtype) (by rcases hy.dtype with h | h | h <;> rw [h] <;> rfl) fun us ws vs h _ _ _ => ?_
    exact pool_max (nums_perm h) (maxIs_of (maxOf_nanmax _)) (maxIs_of (maxOf_nanmax _)) (maxIs_of (maxOf_nanmax _))
  · refine pool bnNanmin (d := y.dtype) (by rcases hy.dtype with h | h | h <;> rw [h] <;> rfl) fun us ws vs h _ _ _ => ?_
    exact pool_min (nums_perm h) (minIs_of (minOf_nanmin _)) (minIs_of (minOf_nanmin _)) (minIs_of (minOf_nanmin _))
  · exact pool npAny (d := .bool) (by rcases hy.dtype with h | h | h <;> rw [h] <;> rfl) fun us ws vs h _ _ _ => pool_any h
  · exact pool npAll (d := .bool) (by rcases hy.dtype with h | h | h <;> rw [h] <;> rfl) fun us ws vs h _ _ _ => pool_all h
  · refine pool bnNansum (d := if y.dtype = .float then .float else .int)
      (by rcases hy.dtype with h | h | h <;> rw [h] <;> rfl) fun us ws vs h h1 h2 hv => ?_
    obtain ⟨⟨t1, t2, t3⟩, h3⟩ := sub h h1 h2 hv
    exact pool_sum (nums_perm h) (line_noInf hi hv) (stat_is .sum hy.dtype h1 t1) (stat_is .sum hy.dtype h2 t2)
      (stat_is .sum hy.dtype h3 t3)
  · exact pool bnNanmean (statDType_ok hy.dtype) fun us ws vs h h1 h2 hv =>
      pool_mean (nums_perm h) (line_noInf hi hv) (mean_is _) (mean_is _) (mean_is _)

/-! ### Cases -/

/-- `larry([1, nan, 5, 2])` -/
def exFour : Larry Nat :=
  ⟨NDArray.ofList [4] [.flt (.fin 1), .flt .nan, .flt (.fin 5), .flt (.fin 2)], .float, [[10, 20, 30, 40]]⟩

example : exFour.Numeric ∧ exFour.NoInfinities := by
  have h : exFour.Valid := ⟨rfl, by decide, by decide⟩
  exact ⟨⟨h, typed_cells (by decide +kernel), .inl rfl, by decide⟩, noInfinities_cells (by decide +kernel) h⟩

/-- The labels below 25 and the others. -/
example : PickLeaves [10, 20, 30, 40] [10, 20] (.keepLabel (.lt 25)) ∧
    PickLeaves [10, 20, 30, 40] [30, 40] (.keepLabel (.ge 25)) ∧ ([10, 20] ++ [30, 40] : List Nat).Perm [10, 20, 30, 40] := by
  refine ⟨⟨by simp, by simp, by decide, fun b => ?_⟩, ⟨by simp, by simp, by decide, fun b => ?_⟩, List.Perm.refl _⟩ <;>
  · simp only [Wanted, List.mem_cons, List.not_mem_nil, or_false]
    omega

/-- The last two, backwards, and the first two. -/
example : PickLeaves [10, 20, 30, 40] [40, 30] (.take [-1, -2]) ∧ PickLeaves [10, 20, 30, 40] [10, 20] (.take [0, 1]) ∧
    ([40, 30] ++ [10, 20] : List Nat).Perm [10, 20, 30, 40] :=
  ⟨⟨[3, 2], by decide, by decide, rfl⟩, ⟨[0, 1], by decide, by decide, rfl⟩, by decide⟩

example : numberOf (exFour.sum none) = some (.flt (.fin 8)) ∧ numberOf (exFour.max none) = some (.flt (.fin 5)) := by
  constructor <;> decide +kernel

end La
