import Verif.Props.Chunks

/-!
# Property C128, continued: counts and medians of two parts
-/

namespace La
open Larry
variable {L : Type _}

/-! ## Specification -/

/-- The third number is not below both of the others and not above both. -/
def BetweenF (a b s : Flt) : Prop :=
  ∃ p q r : ℚ, a = .fin p ∧ b = .fin q ∧ s = .fin r ∧ (p ≤ r ∨ q ≤ r) ∧ (r ≤ p ∨ r ≤ q)

/-- Whole numbers that add up. -/
def PlusInt (v w s : Val) : Prop := ∃ i j : Nat, v = .int i ∧ w = .int j ∧ s = .int ((i + j : Nat) : Int)

/-! ## Sorted lists of numbers -/

theorem sorted_ge {s : List ℚ} (hs : s.Pairwise (· ≤ ·)) {k : Nat} {v : ℚ} (hk : s[k]? = some v) (x : ℚ) :
    x ≤ v ↔ s.countP (fun z => decide (z < x)) ≤ k := by
  induction s generalizing k with
  | nil => simp at hk
  | cons a s ih =>
    obtain ⟨ha, hs⟩ := List.pairwise_cons.mp hs
    have none_of : x ≤ a → s.countP (fun z => decide (z < x)) = 0 := fun h => by
      rw [List.countP_eq_zero]
      intro z hz
      have := ha z hz
      simp only [decide_eq_true_eq, not_lt]
      linarith
    rw [List.countP_cons]
    cases k with
    | zero =>
      simp only [List.getElem?_cons_zero, Option.some.injEq] at hk
      subst hk
      by_cases h : a < x
      · simp [h, not_le.mpr h]
      · simp [h, not_lt.mp h, none_of (not_lt.mp h)]
    | succ k =>
      rw [List.getElem?_cons_succ] at hk
      by_cases h : a < x
      · simp only [h, decide_true, if_true]
        rw [ih hs hk]
        omega
      · have h' := none_of (not_lt.mp h)
        simp only [h, decide_false, h']
        simp only [Bool.false_eq_true, if_false, zero_le, iff_true, add_zero]
        exact (not_lt.mp h).trans (ha v (List.mem_of_getElem? hk))

theorem sorted_le {s : List ℚ} (hs : s.Pairwise (· ≤ ·)) {k : Nat} {v : ℚ} (hk : s[k]? = some v) (x : ℚ) :
    v ≤ x ↔ s.countP (fun z => decide (x < z)) + k + 1 ≤ s.length := by
  induction s generalizing k with
  | nil => simp at hk
  | cons a s ih =>
    obtain ⟨ha, hs⟩ := List.pairwise_cons.mp hs
    have all_of : x < a → s.countP (fun z => decide (x < z)) = s.length := fun h => by
      rw [List.countP_eq_length]
      intro z hz
      have := ha z hz
      simp only [decide_eq_true_eq]
      linarith
    rw [List.countP_cons, List.length_cons]
    cases k with
    | zero =>
      simp only [List.getElem?_cons_zero, Option.some.injEq] at hk
      subst hk
      by_cases h : x < a
      · simp [h, all_of h]
      · have := List.countP_le_length (p := fun z => decide (x < z)) (l := s)
        simp [h, not_lt.mp h, this]
    | succ k =>
      rw [List.getElem?_cons_succ] at hk
      by_cases h : x < a
      · have h' := all_of h
        simp only [h, decide_true, if_true, h']
        constructor
        · intro hv
          have := ha v (List.mem_of_getElem? hk)
          linarith
        · omega
      · simp only [h, decide_false, Bool.false_eq_true, if_false]
        rw [ih hs hk]
        omega

/-- The two numbers in the middle of a sorted list; of a list of odd length, the same one twice. -/
def Middle (s : List ℚ) (l u : ℚ) : Prop := s[(s.length - 1) / 2]? = some l ∧ s[s.length / 2]? = some u

theorem middle_le {s : List ℚ} (hs : s.Pairwise (· ≤ ·)) {l u : ℚ} (h : Middle s l u) : l ≤ u := by
  rw [sorted_le hs h.1]
  have := (sorted_le hs h.2 u).mp le_rfl
  omega

/-- The middle of two lists together is between their middles. -/
theorem middle_between {s t w : List ℚ} (hs : s.Pairwise (· ≤ ·)) (ht : t.Pairwise (· ≤ ·)) (hw : w.Pairwise (· ≤ ·))
    (h : (s ++ t).Perm w) {l1 u1 l2 u2 l u : ℚ} (h1 : Middle s l1 u1) (h2 : Middle t l2 u2) (h3 : Middle w l u) :
    (l1 + u1 ≤ l + u ∨ l2 + u2 ≤ l + u) ∧ (l + u ≤ l1 + u1 ∨ l + u ≤ l2 + u2) := by
  have hlen : s.length + t.length = w.length := by rw [← List.length_append]; exact h.length_eq
  have p1 : 0 < s.length := by
    have := (List.getElem?_eq_some_iff.mp h1.1).1
    omega
  have p2 : 0 < t.length := by
    have := (List.getElem?_eq_some_iff.mp h2.1).1
    omega
  have cnt : ∀ p : ℚ → Bool, w.countP p = s.countP p + t.countP p := fun p => by
    rw [← h.countP_eq, List.countP_append]
  have o1 := middle_le hs h1
  have o2 := middle_le ht h2
  have G : ∀ {s' : List ℚ} (hs' : s'.Pairwise (· ≤ ·)) {k : Nat} {v : ℚ}, s'[k]? = some v → ∀ x, x ≤ v →
      s'.countP (fun z => decide (z < x)) ≤ k := fun hs' _ _ hk x hx => (sorted_ge hs' hk x).mp hx
  have E : ∀ {s' : List ℚ} (hs' : s'.Pairwise (· ≤ ·)) {k : Nat} {v : ℚ}, s'[k]? = some v → ∀ x, v ≤ x →
      s'.countP (fun z => decide (x < z)) + k + 1 ≤ s'.length := fun hs' _ _ hk x hx => (sorted_le hs' hk x).mp hx
  have a1 : ∀ x, x ≤ l1 → x ≤ u2 → x ≤ l := fun x hx hy => by
    rw [sorted_ge hw h3.1, cnt]
    have := G hs h1.1 x hx
    have := G ht h2.2 x hy
    omega
  have a2 : ∀ x, x ≤ u1 → x ≤ l2 → x ≤ l := fun x hx hy => by
    rw [sorted_ge hw h3.1, cnt]
    have := G hs h1.2 x hx
    have := G ht h2.1 x hy
    omega
  have a3 : ∀ x, x ≤ u1 → x ≤ u2 → x ≤ u := fun x hx hy => by
    rw [sorted_ge hw h3.2, cnt]
    have := G hs h1.2 x hx
    have := G ht h2.2 x hy
    omega
  have b1 : ∀ x, u1 ≤ x → l2 ≤ x → u ≤ x := fun x hx hy => by
    rw [sorted_le hw h3.2, cnt]
    have := E hs h1.2 x hx
    have := E ht h2.1 x hy
    omega
  have b2 : ∀ x, l1 ≤ x → u2 ≤ x → u ≤ x := fun x hx hy => by
    rw [sorted_le hw h3.2, cnt]
    have := E hs h1.1 x hx
    have := E ht h2.2 x hy
    omega
  have b3 : ∀ x, l1 ≤ x → l2 ≤ x → l ≤ x := fun x hx hy => by
    rw [sorted_le hw h3.1, cnt]
    have := E hs h1.1 x hx
    have := E ht h2.1 x hy
    omega
  constructor
  · rcases le_total (l1 + u1) (l2 + u2) with hle | hle
    · left
      rcases le_total u1 u2 with hu | hu
      · linarith [a1 l1 le_rfl (o1.trans hu), a3 u1 le_rfl hu]
      · linarith [a2 l2 (o2.trans hu) le_rfl, a3 u2 hu le_rfl]
    · right
      rcases le_total u2 u1 with hu | hu
      · linarith [a2 l2 (o2.trans hu) le_rfl, a3 u2 hu le_rfl]
      · linarith [a1 l1 le_rfl (o1.trans hu), a3 u1 le_rfl hu]
  · rcases le_total (l1 + u1) (l2 + u2) with hle | hle
    · right
      rcases le_total l1 l2 with hl | hl
      · linarith [b2 u2 (hl.trans o2) le_rfl, b3 l2 hl le_rfl]
      · linarith [b1 u1 le_rfl (hl.trans o1), b3 l1 le_rfl hl]
    · left
      rcases le_total l2 l1 with hl | hl
      · linarith [b1 u1 le_rfl (hl.trans o1), b3 l1 le_rfl hl]
      · linarith [b2 u2 (hl.trans o2) le_rfl, b3 l2 hl le_rfl]

/-! ## Medians -/

theorem median_finites {fs : List Flt} (hi : NoInf fs) {m : Flt} (h : MedianIs fs m) :
    (finites fs = [] ∧ m = .nan) ∨ ∃ (s : List ℚ) (l u : ℚ), s.Perm (finites fs) ∧ s.Pairwise (· ≤ ·) ∧ Middle s l u ∧
      m = .fin ((l + u) / 2) := by
  rcases h with ⟨h, rfl⟩ | ⟨s, hp, hs, h⟩
  · exact .inl ⟨finites_nil_of h, rfl⟩
  · rw [noInf_ok hi] at hp
    have hall : ∀ f ∈ s, ∃ q : ℚ, f = .fin q := fun f hf => by
      obtain ⟨q, -, e⟩ := List.mem_map.mp (hp.mem_iff.mp hf)
      exact ⟨q, e.symm⟩
    obtain ⟨t, rfl⟩ : ∃ t : List ℚ, s = t.map Flt.fin := by
      clear * - hall
      induction s with
      | nil => exact ⟨[], rfl⟩
      | cons f s ih =>
        obtain ⟨q, rfl⟩ := hall f List.mem_cons_self
        obtain ⟨t, rfl⟩ := ih fun g hg => hall g (List.mem_cons_of_mem _ hg)
        exact ⟨q :: t, rfl⟩
    have hinj : Function.Injective Flt.fin := fun a b e => by injection e
    have hp' : t.Perm (finites fs) := (List.map_perm_map_iff hinj).mp hp
    have hs' : t.Pairwise (· ≤ ·) := by
      rw [List.pairwise_map] at hs
      exact hs.imp fun h => h
    simp only [List.length_map, List.getElem?_map, Option.map_eq_some_iff] at h
    rcases h with ⟨k, hk, q, hq, rfl⟩ | ⟨k, _, _, hk, ⟨p, hp, rfl⟩, ⟨q, hq, rfl⟩, hh⟩
    · refine .inr ⟨t, q, q, hp', hs', ⟨?_, ?_⟩, ?_⟩
      · rw [show (t.length - 1) / 2 = k by omega]; exact hq
      · rw [show t.length / 2 = k by omega]; exact hq
      · congr 1; ring
    · refine .inr ⟨t, p, q, hp', hs', ⟨?_, ?_⟩, ?_⟩
      · rw [show (t.length - 1) / 2 = k by omega]; exact hp
      · rw [show t.length / 2 = k + 1 by omega]; exact hq
      · cases hh; rfl

theorem middle_unique {s t : List ℚ} (hs : s.Pairwise (· ≤ ·)) (ht : t.Pairwise (· ≤ ·)) (h : s.Perm t) : s = t :=
  h.eq_of_pairwise (fun _ _ _ _ h1 h2 => le_antisymm h1 h2) hs ht

theorem pool_median {fs gs hs : List Flt} (h : (fs ++ gs).Perm hs) (hi : NoInf hs) {a b m : Flt} (ha : MedianIs fs a)
    (hb : MedianIs gs b) (hm : MedianIs hs m) : Pooled BetweenF a b m := by
  obtain ⟨i1, i2⟩ := noInf_append h hi
  have hp := (finites_perm h)
  rw [finites_append] at hp
  have some_of : ∀ {s : List ℚ} {l u : ℚ} {fs : List Flt}, Middle s l u → s.Perm (finites fs) → finites fs ≠ [] :=
    fun hm hp e => by
      rw [e] at hp
      have := hm.1
      rw [hp.eq_nil] at this
      simp at this
  rcases median_finites i1 ha with ⟨n1, rfl⟩ | ⟨s, l1, u1, p1, s1, m1, rfl⟩ <;>
    rcases median_finites i2 hb with ⟨n2, rfl⟩ | ⟨t, l2, u2, p2, s2, m2, rfl⟩ <;>
    rcases median_finites hi hm with ⟨n3, rfl⟩ | ⟨w, l, u, p3, s3, m3, rfl⟩
  · exact .left _
  · rw [n1, n2] at hp
    exact absurd hp.symm.eq_nil (some_of m3 p3)
  · rw [n3] at hp
    exact absurd (List.append_eq_nil_iff.mp hp.eq_nil).2 (some_of m2 p2)
  · rw [n1, List.nil_append] at hp
    have := middle_unique s2 s3 (p2.trans (hp.trans p3.symm))
    subst this
    have e1 := Option.some.inj (m2.1.symm.trans m3.1)
    have e2 := Option.some.inj (m2.2.symm.trans m3.2)
    rw [e1, e2]
    exact .left _
  · rw [n3] at hp
    exact absurd (List.append_eq_nil_iff.mp hp.eq_nil).1 (some_of m1 p1)
  · rw [n2, List.append_nil] at hp
    have := middle_unique s1 s3 (p1.trans (hp.trans p3.symm))
    subst this
    have e1 := Option.some.inj (m1.1.symm.trans m3.1)
    have e2 := Option.some.inj (m1.2.symm.trans m3.2)
    rw [e1, e2]
    exact .right _
  · rw [n3] at hp
    exact absurd (List.append_eq_nil_iff.mp hp.eq_nil).1 (some_of m1 p1)
  · have := middle_between s1 s2 s3 ((p1.append p2).trans (hp.trans p3.symm)) m1 m2 m3
    refine .both (by simp) (by simp) ⟨_, _, _, rfl, rfl, rfl, ?_, ?_⟩
    · exact this.1.imp (fun h => by linarith) (fun h => by linarith)
    · exact this.2.imp (fun h => by linarith) (fun h => by linarith)

/-! ## C128: median and count -/

/-- C128. The median of the whole is between the medians of the parts, if no element is infinite. -/
theorem C128_median [LinearOrder L] {y : Larry L} (hy : y.Numeric) (hi : y.NoInfinities) {axis : Int} {ax : Nat}
    (hax : pyIdx y.ndim axis = some ax) {l la lb : List L} (hl : y.label[ax]? = some l) {p q : Pick L}
    (hp : PickLeaves l la p) (hq : PickLeaves l lb q) (hab : (la ++ lb).Perm l) (hna : la ≠ []) (hnb : lb ≠ [])
    {o : Option Int} (ho : o = none ∨ o = some axis) :
    ∃ a b, p.run y axis = .ok a ∧ q.run y axis = .ok b ∧
      Compare3 (PooledBy BetweenF) (a.median o) (b.median o) (y.median o) := by
  obtain ⟨a, e1, ha⟩ := pick_run hy.valid hax hl hp
  obtain ⟨b, e2, hb⟩ := pick_run hy.valid hax hl hq
  refine ⟨a, b, e1, e2, pool_reduce bnNanmedian hy (statDType_ok hy.dtype) hax hl ha hb hab hna hnb ?_ ho⟩
  exact fun us ws vs h _ _ hv => pool_median (nums_perm h) (line_noInf hi hv) (median_is _) (median_is _) (median_is _)

theorem mapped_part {y a : Larry L} {ls : List (List L)} (h : a.PartOf y ls) (g : Val → Val) (d : DType) :
    (a.mapped g d).PartOf (y.mapped g d) ls := by
  refine ⟨h.label_eq, h.valid, rfl, fun names w => ?_⟩
  rw [mapped_has, mapped_has]
  constructor
  · rintro ⟨v, hv, e⟩
    exact ⟨((h.has _ _).mp hv).1, v, ((h.has _ _).mp hv).2, e⟩
  · rintro ⟨hN, v, hv, e⟩
    exact ⟨v, (h.has _ _).mpr ⟨hN, hv⟩, e⟩

/-- C128. The number of elements that are finite, NaN or infinite is the sum of the numbers for the parts.  With C127
(a sum is the mean times the number of finite elements) these are the weights of the average. -/
theorem C128_count [LinearOrder L] {y : Larry L} (hy : y.Numeric) {axis : Int} {ax : Nat}
    (hax : pyIdx y.ndim axis = some ax) {l la lb : List L} (hl : y.label[ax]? = some l) {p q : Pick L}
    (hp : PickLeaves l la p) (hq : PickLeaves l lb q) (hab : (la ++ lb).Perm l) (hna : la ≠ []) (hnb : lb ≠ [])
    {m : ElemMethod} (hm : m = .isfinite ∨ m = .isnan ∨ m = .isinf) {o : Option Int} (ho : o = none ∨ o = some axis) :
    ∃ a b ca cb cy, p.run y axis = .ok a ∧ q.run y axis = .ok b ∧ a.elem m = .ok ca ∧ b.elem m = .ok cb ∧
      y.elem m = .ok cy ∧ Compare3 PlusInt (ca.sum o) (cb.sum o) (cy.sum o) := by
  obtain ⟨a, e1, ha⟩ := pick_run hy.valid hax hl hp
  obtain ⟨b, e2, hb⟩ := pick_run hy.valid hax hl hq
  have hM : m.Modelled y.dtype := ⟨by have := hy.dtype; tauto, by rcases hm with rfl | rfl | rfl <;> trivial⟩
  have hM' : ∀ {z : Larry L}, z.dtype = y.dtype → m.Modelled z.dtype := fun e => e ▸ hM
  have hI : ∀ {z : Larry L}, m = .invert → z.dtype = .bool := fun e => by rcases hm with rfl | rfl | rfl <;> cases e
  have hB : ∀ d, m.dt d = .bool := fun d => by rcases hm with rfl | rfl | rfl <;> rfl
  obtain ⟨cy, ey, cn, -, -, -⟩ := elem_numeric hy m hM hI (.inr (.inr (hB _)))
  have ey' := elem_ok hM hI
  rw [ey'] at ey
  cases ey
  rw [hB] at ey' cn
  have ea := elem_ok (m := m) (y := a) (hM' ha.dtype_eq) hI
  have eb := elem_ok (m := m) (y := b) (hM' hb.dtype_eq) hI
  rw [hB] at ea eb
  refine ⟨a, b, _, _, _, e1, e2, ea, eb, ey', ?_⟩
  refine pool_reduce bnNansum cn (d := .int) rfl (axis := axis) hax (l := l) hl (mapped_part ha _ _) (mapped_part hb _ _) hab
    hna hnb ?_ ho
  intro us ws vs h h1 h2 hv
  have ht := line_typed' cn hv
  have h3 : vs ≠ [] := fun e => h1 (List.append_eq_nil_iff.mp (e ▸ h).eq_nil).1
  have s1 : SumOf .bool us (bnNansum.f us) :=
    sumOf_nansum (d' := .int) rfl h1 fun v hm => ht v (h.mem_iff.mp (List.mem_append_left _ hm))
  have s2 : SumOf .bool ws (bnNansum.f ws) :=
    sumOf_nansum (d' := .int) rfl h2 fun v hm => ht v (h.mem_iff.mp (List.mem_append_right _ hm))
  have s3 : SumOf .bool vs (bnNansum.f vs) := sumOf_nansum (d' := .int) rfl h3 ht
  obtain ⟨bs, rfl, r1⟩ := s1
  obtain ⟨cs, rfl, r2⟩ := s2
  obtain ⟨ds, rfl, r3⟩ := s3
  refine ⟨_, _, r1, r2, ?_⟩
  rw [r3, ← List.length_append, ← List.filter_append]
  rw [← List.map_append] at h
  have := (List.map_perm_map_iff (f := Val.bool) (fun a b e => by injection e)).mp h
  rw [(this.filter _).length_eq]

/-! ### Cases -/

/-- The medians 1 of `[1, nan]` and 7/2 of `[5, 2]`, and 2 of the whole. -/
example : numberOf (exFour.median none) = some (.flt (.fin 2)) ∧
    numberOf ((exFour.take [0, 1] 0).bind fun a => a.median none) = some (.flt (.fin 1)) ∧
    numberOf ((exFour.take [2, 3] 0).bind fun a => a.median none) = some (.flt (.fin (7 / 2))) := by
  refine ⟨?_, ?_, ?_⟩ <;> decide +kernel

end La
