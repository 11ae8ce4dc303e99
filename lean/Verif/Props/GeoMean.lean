import Verif.Props.RealScore

/-!
# C68, continued: the geometric mean of products, quotients and multiples
-/

namespace La

/-! ## Specification -/

/-- Both are NaN, or both are numbers that are not negative, the second one positive if `strict`. -/
def Amounts2 (strict : Bool) (v w : RFlt) : Prop :=
  (v = .nan ∧ w = .nan) ∨ ∃ a b : ℝ, v = .fin a ∧ w = .fin b ∧ 0 ≤ a ∧ 0 ≤ b ∧ (strict = true → b ≠ 0)

/-! ## Lines -/

theorem walk_pairs {x w : NDArray RFlt} (hs : x.shape = w.shape) (op : RFlt → RFlt → RFlt) (ax : Option Nat) (rest : List Nat) :
    ∃ P : List (RFlt × RFlt), walk x ax rest = P.map Prod.fst ∧ walk w ax rest = P.map Prod.snd ∧
      walk (NDArray.zipWith op x w) ax rest = P.map (fun p => op p.1 p.2) ∧ P = walk (NDArray.zipWith Prod.mk x w) ax rest := by
  refine ⟨_, ?_, ?_, ?_, rfl⟩ <;> cases ax <;> simp [walk, NDArray.zipWith, hs, Function.comp_def]

/-- The numbers of two lines that have NaN in the same places. -/
theorem numbers_pairs {strict : Bool} {P : List (RFlt × RFlt)} (h : ∀ p ∈ P, Amounts2 strict p.1 p.2) {op : RFlt → RFlt → RFlt}
    {f : ℝ → ℝ → ℝ} (hn : op .nan .nan = .nan) (hop : ∀ a b : ℝ, (strict = true → b ≠ 0) → op (.fin a) (.fin b) = .fin (f a b)) :
    ∃ Q : List (ℝ × ℝ), numbers (P.map Prod.fst) = Q.map Prod.fst ∧ numbers (P.map Prod.snd) = Q.map Prod.snd ∧
      numbers (P.map fun p => op p.1 p.2) = Q.map (fun p => f p.1 p.2) ∧
      ∀ p ∈ Q, 0 ≤ p.1 ∧ 0 ≤ p.2 ∧ (strict = true → p.2 ≠ 0) := by
  induction P with
  | nil => exact ⟨[], rfl, rfl, rfl, fun _ h => nomatch h⟩
  | cons p P ih =>
    obtain ⟨Q, h1, h2, h3, h4⟩ := ih fun p hp => h p (List.mem_cons_of_mem _ hp)
    obtain ⟨v, w⟩ := p
    rcases h _ List.mem_cons_self with ⟨hv, hw⟩ | ⟨a, b, hv, hw, ha, hb, hs⟩
    · simp only at hv hw
      subst hv; subst hw
      refine ⟨Q, h1, h2, ?_, h4⟩
      rw [← h3, List.map_cons, hn]
      rfl
    · simp only at hv hw
      subst hv; subst hw
      refine ⟨(a, b) :: Q, ?_, ?_, ?_, ?_⟩
      · rw [List.map_cons, List.map_cons, ← h1]; rfl
      · rw [List.map_cons, List.map_cons, ← h2]; rfl
      · rw [List.map_cons, List.map_cons, ← h3, hop a b hs]; rfl
      · intro p hp
        rcases List.mem_cons.mp hp with rfl | hp
        · exact ⟨ha, hb, hs⟩
        · exact h4 p hp

theorem geoMean_mul {Q : List (ℝ × ℝ)} {v w : RFlt} (hv : IsGeometricMean (Q.map Prod.fst) v)
    (hw : IsGeometricMean (Q.map Prod.snd) w) : IsGeometricMean (Q.map fun p => p.1 * p.2) (v.mul w) := by
  rcases hv with ⟨h, rfl⟩ | ⟨h, g, rfl, hg, he⟩
  · exact .inl ⟨by simpa using h, rfl⟩
  · rcases hw with ⟨h', -⟩ | ⟨-, g', rfl, hg', he'⟩
    · exact absurd (by simpa using h') h
    · refine .inr ⟨by simpa using h, g * g', rfl, mul_nonneg hg hg', ?_⟩
      rw [List.prod_map_mul, mul_pow]
      simp only [List.length_map] at he he' ⊢
      rw [he, he']

theorem geoMean_div {Q : List (ℝ × ℝ)} (hQ : ∀ p ∈ Q, p.2 ≠ 0) {v w : RFlt} (hv : IsGeometricMean (Q.map Prod.fst) v)
    (hw : IsGeometricMean (Q.map Prod.snd) w) : IsGeometricMean (Q.map fun p => p.1 / p.2) (v.div w) := by
  rcases hv with ⟨h, rfl⟩ | ⟨h, g, rfl, hg, he⟩
  · exact .inl ⟨by simpa using h, rfl⟩
  · rcases hw with ⟨h', -⟩ | ⟨-, g', rfl, hg', he'⟩
    · exact absurd (by simpa using h') h
    · have hne : (Q.map Prod.snd).prod ≠ 0 := by
        intro h0
        obtain ⟨p, hp, h1⟩ := List.mem_map.mp (List.prod_eq_zero_iff.mp h0)
        exact hQ p hp h1
      have hg0 : g' ≠ 0 := by
        rintro rfl
        rw [← he', zero_pow (by simpa using h)] at hne
        exact hne rfl
      refine .inr ⟨by simpa using h, g / g', by simp [RFlt.div, hg0], div_nonneg hg hg', ?_⟩
      have : (Q.map fun p => p.1 / p.2).prod = (Q.map Prod.fst).prod / (Q.map Prod.snd).prod := by
        clear * -
        induction Q with
        | nil => simp
        | cons p Q ih => simp only [List.map_cons, List.prod_cons, ih, mul_div_mul_comm]
      rw [this, div_pow]
      simp only [List.length_map] at he he' ⊢
      rw [he, he']

theorem geoMean_nonneg {x : NDArray RFlt} {axis : Option Int} {ax : Option Nat} (hax : Names x.ndim axis ax)
    (h : ∀ idx, InB x.shape idx → (x.get idx = .nan ∨ ∃ a : ℝ, x.get idx = .fin a ∧ 0 ≤ a)) :
    ∃ z, geometricMean x axis false = .ok z ∧ z.shape = shapeWithout x.shape ax ∧
      ∀ rest, InB z.shape rest → IsGeometricMean (numbers (walk x ax rest)) (z.get rest) :=
  C68_geometric_mean x hax (fun idx hi => by
    rcases h idx hi with e | ⟨a, e, -⟩ <;> rw [e] <;> trivial) (fun idx hi r e => by
    rcases h idx hi with e' | ⟨a, e', ha⟩
    · rw [e] at e'; cases e'
    · rw [e] at e'; cases e'; exact ha) (fun h => nomatch h)

theorem geoMean_two {strict : Bool} {op : RFlt → RFlt → RFlt} {f : ℝ → ℝ → ℝ} (hn : op .nan .nan = .nan)
    (hop : ∀ a b : ℝ, (strict = true → b ≠ 0) → op (.fin a) (.fin b) = .fin (f a b)) (hf : ∀ a b : ℝ, 0 ≤ a → 0 ≤ b → 0 ≤ f a b)
    (hg : ∀ (Q : List (ℝ × ℝ)) (v w : RFlt), (∀ p ∈ Q, 0 ≤ p.1 ∧ 0 ≤ p.2 ∧ (strict = true → p.2 ≠ 0)) →
      IsGeometricMean (Q.map Prod.fst) v → IsGeometricMean (Q.map Prod.snd) w →
      IsGeometricMean (Q.map fun p => f p.1 p.2) (op v w))
    (x w : NDArray RFlt) (hs : x.shape = w.shape) {axis : Option Int} {ax : Option Nat} (hax : Names x.ndim axis ax)
    (h : ∀ idx, InB x.shape idx → Amounts2 strict (x.get idx) (w.get idx)) :
    ∃ zx zw z, geometricMean x axis false = .ok zx ∧ geometricMean w axis false = .ok zw ∧
      geometricMean (NDArray.zipWith op x w) axis false = .ok z ∧ z.shape = shapeWithout x.shape ax ∧
      ∀ rest, InB z.shape rest → z.get rest = op (zx.get rest) (zw.get rest) := by
  have hax' : Names w.ndim axis ax := by rw [NDArray.ndim, ← hs]; exact hax
  obtain ⟨zx, x1, x2, x3⟩ := geoMean_nonneg (x := x) hax fun idx hi => by
    rcases h idx hi with ⟨e, -⟩ | ⟨a, b, e, -, ha, -⟩
    · exact .inl e
    · exact .inr ⟨a, e, ha⟩
  obtain ⟨zw, w1, w2, w3⟩ := geoMean_nonneg (x := w) hax' fun idx hi => by
    rcases h idx (hs ▸ hi) with ⟨-, e⟩ | ⟨a, b, -, e, -, hb, -⟩
    · exact .inl e
    · exact .inr ⟨b, e, hb⟩
  obtain ⟨z, z1, z2, z3⟩ := geoMean_nonneg (x := NDArray.zipWith op x w) (axis := axis) (ax := ax) hax fun idx hi => by
    have hget : (NDArray.zipWith op x w).get idx = op (x.get idx) (w.get idx) := rfl
    rcases h idx hi with ⟨e, e'⟩ | ⟨a, b, e, e', ha, hb, hb'⟩
    · exact .inl (by rw [hget, e, e', hn])
    · exact .inr ⟨f a b, by rw [hget, e, e', hop a b hb'], hf a b ha hb⟩
  refine ⟨zx, zw, z, x1, w1, z1, z2, fun rest hr => ?_⟩
  have hz2 : z.shape = shapeWithout x.shape ax := z2
  rw [hz2] at hr
  obtain ⟨P, p1, p2, p3, p4⟩ := walk_pairs hs op ax rest
  obtain ⟨Q, q1, q2, q3, q4⟩ := numbers_pairs (P := P) (strict := strict) (fun p hp => by
    rw [p4] at hp
    obtain ⟨idx, hi, e⟩ := mem_walk (x := NDArray.zipWith Prod.mk x w) hax.lt hr hp
    rw [← e]
    exact h idx hi) hn hop
  have gx := x3 rest (by rw [x2]; exact hr)
  have gw := w3 rest (by rw [w2, ← hs]; exact hr)
  have gz := z3 rest (by rw [hz2]; exact hr)
  rw [p1, q1] at gx
  rw [p2, q2] at gw
  rw [p3, q3] at gz
  exact C68_unique gz (hg Q _ _ q4 gx gw)

/-- C68. The geometric mean of the products of two arrays that have NaN in the same places is the product of their geometric
means. -/
theorem C68_product (x w : NDArray RFlt) (hs : x.shape = w.shape) {axis : Option Int} {ax : Option Nat} (hax : Names x.ndim axis ax)
    (h : ∀ idx, InB x.shape idx → Amounts2 false (x.get idx) (w.get idx)) :
    ∃ zx zw z, geometricMean x axis false = .ok zx ∧ geometricMean w axis false = .ok zw ∧
      geometricMean (NDArray.zipWith RFlt.mul x w) axis false = .ok z ∧ z.shape = shapeWithout x.shape ax ∧
      ∀ rest, InB z.shape rest → z.get rest = (zx.get rest).mul (zw.get rest) :=
  geoMean_two (f := fun a b => a * b) rfl (fun _ _ _ => rfl) (fun _ _ => mul_nonneg) (fun _ _ _ _ => geoMean_mul) x w hs hax h

/-- C68. That of the quotients is the quotient, where nothing is divided by zero. -/
theorem C68_quotient (x w : NDArray RFlt) (hs : x.shape = w.shape) {axis : Option Int} {ax : Option Nat} (hax : Names x.ndim axis ax)
    (h : ∀ idx, InB x.shape idx → Amounts2 true (x.get idx) (w.get idx)) :
    ∃ zx zw z, geometricMean x axis false = .ok zx ∧ geometricMean w axis false = .ok zw ∧
      geometricMean (NDArray.zipWith RFlt.div x w) axis false = .ok z ∧ z.shape = shapeWithout x.shape ax ∧
      ∀ rest, InB z.shape rest → z.get rest = (zx.get rest).div (zw.get rest) :=
  geoMean_two (f := fun a b => a / b) rfl (fun a b hb => by simp [RFlt.div, hb rfl]) (fun _ _ => div_nonneg)
    (fun _ _ _ hQ => geoMean_div fun p hp => (hQ p hp).2.2 rfl) x w hs hax h

/-- C68. The geometric mean of a multiple of the array is that multiple of its geometric mean. -/
theorem C68_units (x : NDArray RFlt) {a : ℝ} (ha : 0 ≤ a) {axis : Option Int} {ax : Option Nat} (hax : Names x.ndim axis ax)
    (h : ∀ idx, InB x.shape idx → (x.get idx = .nan ∨ ∃ r : ℝ, x.get idx = .fin r ∧ 0 ≤ r)) :
    ∃ z z', geometricMean x axis false = .ok z ∧ geometricMean (x.map (RFlt.mul (.fin a))) axis false = .ok z' ∧
      z'.shape = shapeWithout x.shape ax ∧ ∀ rest, InB z'.shape rest → z'.get rest = RFlt.mul (.fin a) (z.get rest) := by
  obtain ⟨z, z1, z2, z3⟩ := geoMean_nonneg hax h
  obtain ⟨z', y1, y2, y3⟩ := geoMean_nonneg (x := x.map (RFlt.mul (.fin a))) (axis := axis) (ax := ax) hax fun idx hi => by
    have hget : (x.map (RFlt.mul (.fin a))).get idx = RFlt.mul (.fin a) (x.get idx) := rfl
    rcases h idx hi with e | ⟨r, e, hr⟩
    · exact .inl (by rw [hget, e]; rfl)
    · exact .inr ⟨a * r, by rw [hget, e]; rfl, mul_nonneg ha hr⟩
  refine ⟨z, z', z1, y1, y2, fun rest hr => ?_⟩
  have hy2 : z'.shape = shapeWithout x.shape ax := y2
  have gy := y3 rest hr
  rw [hy2] at hr
  have gz := z3 rest (by rw [z2]; exact hr)
  have hni : ∀ v ∈ walk x ax rest, v.NoInf := fun v hv => by
    obtain ⟨idx, hi, e⟩ := mem_walk hax.lt hr hv
    rw [← e]
    rcases h idx hi with e | ⟨r, e, -⟩ <;> rw [e] <;> trivial
  have hw : walk (x.map (RFlt.mul (.fin a))) ax rest = (walk x ax rest).map (RFlt.mul (.fin a)) := by
    cases ax <;> simp [walk, NDArray.map]
  rw [hw, numbers_map hni (g := fun r => a * r) rfl (fun _ _ => rfl)] at gy
  refine C68_unique gy ?_
  generalize numbers (walk x ax rest) = l at gz
  rcases gz with ⟨h, e⟩ | ⟨h, g, e, hg, he⟩
  · rw [e]; exact .inl ⟨by simpa using h, rfl⟩
  · rw [e]
    refine .inr ⟨by simpa using h, a * g, rfl, mul_nonneg ha hg, ?_⟩
    rw [List.length_map, mul_pow, he]
    clear * -
    induction l with
    | nil => simp
    | cons r l ih => rw [List.map_cons, List.prod_cons, List.prod_cons, ← ih, List.length_cons, pow_succ]; ring

/-! ## A case -/

/-- Two, NaN and eight. -/
noncomputable def exTwoEight : NDArray RFlt := ⟨[3], fun idx => [RFlt.fin 2, .nan, .fin 8].getD (idx.getD 0 0) .nan⟩

/-- Three, NaN and a third. -/
noncomputable def exThirds : NDArray RFlt := ⟨[3], fun idx => [RFlt.fin 3, .nan, .fin (1 / 3)].getD (idx.getD 0 0) .nan⟩

theorem exTwoEight_amounts (strict : Bool) (idx : List Nat) : Amounts2 strict (exTwoEight.get idx) (exThirds.get idx) := by
  show Amounts2 strict ([RFlt.fin 2, .nan, .fin 8].getD (idx.getD 0 0) .nan) ([RFlt.fin 3, .nan, .fin (1 / 3)].getD (idx.getD 0 0) .nan)
  match idx.getD 0 0 with
  | 0 => exact .inr ⟨2, 3, rfl, rfl, by norm_num, by norm_num, fun _ => by norm_num⟩
  | 1 => exact .inl ⟨rfl, rfl⟩
  | 2 => exact .inr ⟨8, 1 / 3, rfl, rfl, by norm_num, by norm_num, fun _ => by norm_num⟩
  | n + 3 => exact .inl ⟨rfl, rfl⟩

example : ∃ zx zw z, geometricMean exTwoEight (some (-1)) false = .ok zx ∧ geometricMean exThirds (some (-1)) false = .ok zw ∧
    geometricMean (NDArray.zipWith RFlt.div exTwoEight exThirds) (some (-1)) false = .ok z ∧ z.shape = [] ∧
    ∀ rest, InB z.shape rest → z.get rest = (zx.get rest).div (zw.get rest) :=
  C68_quotient exTwoEight exThirds rfl (axis := some (-1)) (ax := some 0) ⟨by decide, .inr rfl⟩ fun idx _ => exTwoEight_amounts true idx

end La
