import Verif.Props.Ranking
import Verif.Props.Numeric
import Mathlib.Data.List.Sort

/-!
# Quantiles, moving sums, demeaning (properties C49, C51, C52)
-/

namespace La

open Larry

/-! ## C49: quantile -/

/-- What `argsort` promises: the positions in an order that sorts the values. -/
def IsArgsort (argsort : List ℚ → List Nat) : Prop :=
  ∀ xs : List ℚ, (argsort xs).Perm (List.range xs.length) ∧
    ∀ (i j a b : Nat) (p q : ℚ), i < j → (argsort xs)[i]? = some a → (argsort xs)[j]? = some b →
      xs[a]? = some p → xs[b]? = some q → p ≤ q

/-- `r` (from 0) is a rank, out of `n`, that falls in the `k`-th of `q` equal bins: `k` is the first bin
that reaches it. -/
def IsBin (n q r k : Nat) : Prop :=
  1 ≤ k ∧ k ≤ q ∧ r * q ≤ k * (n - 1) ∧ ∀ k', 1 ≤ k' → k' < k → k' * (n - 1) < r * q

/-- A line `ws` of `q` quantiles of the line `vs`: every finite value has a rank (each rank once, larger
values later) and gets its bin, spread over `[-1, 1]`; everything else becomes NaN. -/
def QuantLine (q : Nat) (vs ws : List Val) : Prop :=
  ws.length = vs.length ∧ ∃ rank : Nat → Nat,
    (∀ (i j : Nat) x y a b, vs[i]? = some x → vs[j]? = some y → x.num = .fin a → y.num = .fin b →
      (a < b → rank i < rank j) ∧ (rank i = rank j → i = j)) ∧
    (∀ (i : Nat) x w, vs[i]? = some x → ws[i]? = some w →
      (∀ a, x.num = .fin a → rank i < (finites (vs.map Val.num)).length ∧
        ∃ k, IsBin (finites (vs.map Val.num)).length q (rank i) k ∧
          w = .flt (.fin (2 * (((k : ℚ) - 1) / ((q : ℚ) - 1)) - 1))) ∧
      ((∀ a, x.num ≠ .fin a) → w = .flt .nan))

theorem filter_rat (xs : List Flt) : (xs.filter Flt.isFinite).map Flt.rat = finites xs := by
  induction xs with
  | nil => rfl
  | cons x xs ih =>
    cases x <;> simp [finites, Flt.isFinite, Flt.rat, List.filter_cons] at ih ⊢ <;> exact ih

theorem scatter_length (xs ms : List Flt) : (scatter xs ms).length = xs.length := by
  induction xs generalizing ms with
  | nil => rfl
  | cons x xs ih => simp only [scatter]; split <;> simp [ih]

theorem scatter_notfin (xs ms : List Flt) (i : Nat) (x : Flt) (h : xs[i]? = some x) (hx : ∀ a, x ≠ .fin a) :
    (scatter xs ms)[i]? = some .nan := by
  induction xs generalizing ms i with
  | nil => simp at h
  | cons y xs ih =>
    cases i with
    | zero =>
      simp at h; subst h
      cases y <;> simp_all [scatter, Flt.isFinite]
    | succ i =>
      simp at h
      simp only [scatter]
      split <;> simp [ih _ _ h]

theorem scatter_fin (xs ms : List Flt) (i : Nat) (a : ℚ) (h : xs[i]? = some (.fin a)) :
    (finites xs)[(finites (xs.take i)).length]? = some a ∧
    ∀ m, ms[(finites (xs.take i)).length]? = some m → (scatter xs ms)[i]? = some m := by
  induction xs generalizing ms i with
  | nil => simp at h
  | cons y xs ih =>
    cases i with
    | zero =>
      simp at h; subst h
      refine ⟨by simp [finites], fun m hm => ?_⟩
      cases ms with
      | nil => simp [finites] at hm
      | cons m' ms => simp [finites] at hm; simp [scatter, Flt.isFinite, hm]
    | succ i =>
      simp at h
      cases y with
      | fin b =>
        obtain ⟨h1, h2⟩ := ih ms.tail i h
        refine ⟨by simpa [finites_cons_fin] using h1, fun m hm => ?_⟩
        simp only [scatter, Flt.isFinite, if_true, List.getElem?_cons_succ]
        refine h2 m ?_
        rw [List.take_succ_cons, finites_cons_fin, List.length_cons] at hm
        cases ms with
        | nil => simp at hm
        | cons m' ms => simpa using hm
      | _ =>
        obtain ⟨h1, h2⟩ := ih ms i h
        refine ⟨by simpa [finites] using h1, fun m hm => ?_⟩
        simp only [scatter, Flt.isFinite, Bool.false_eq_true, if_false, List.getElem?_cons_succ]
        exact h2 m (by simpa [finites] using hm)

theorem finites_take_inj (xs : List Flt) (i j : Nat) (a b : ℚ) (hi : xs[i]? = some (.fin a))
    (hj : xs[j]? = some (.fin b)) (h : (finites (xs.take i)).length = (finites (xs.take j)).length) : i = j := by
  induction xs generalizing i j with
  | nil => simp at hi
  | cons y xs ih =>
    cases i with
    | zero =>
      cases j with
      | zero => rfl
      | succ j =>
        simp at hi; subst hi
        simp [finites] at h
    | succ i =>
      cases j with
      | zero =>
        simp at hj; subst hj
        simp [finites] at h
      | succ j =>
        simp at hi hj
        have := ih i j hi hj (by cases y <;> simpa [finites] using h)
        omega

/-- Twice `argsort`: position `a` goes to the place of `a` in the sorted order. -/
theorem argsort_argsort {argsort : List ℚ → List Nat} (h : IsArgsort argsort) (fs : List ℚ) :
    let s := argsort ((argsort fs).map (fun i : Nat => (i : ℚ)))
    s.length = fs.length ∧ s.Perm (List.range fs.length) ∧
    ∀ (a b r t : Nat) (p q : ℚ), s[a]? = some r → s[b]? = some t → fs[a]? = some p → fs[b]? = some q →
      (p < q → r < t) ∧ (r = t → a = b) ∧ r < fs.length := by
  intro s
  obtain ⟨hp, hps⟩ := h fs
  obtain ⟨hs, hss⟩ := h ((argsort fs).map (fun i : Nat => (i : ℚ)))
  have hpl : (argsort fs).length = fs.length := by simpa using hp.length_eq
  have hsl : s.length = fs.length := by simpa [hpl] using hs.length_eq
  have hsp : s.Perm (List.range fs.length) := by simpa [hpl] using hs
  have hlt : ∀ (a r : Nat), s[a]? = some r → r < fs.length := fun a r hr =>
    List.mem_range.mp (hsp.mem_iff.mp (List.mem_of_getElem? hr))
  -- `p[s[a]] = a`
  have hinv : ∀ (a r : Nat), s[a]? = some r → (argsort fs)[r]? = some a := by
    have e : s.map (fun r => (argsort fs).getD r 0) = List.range fs.length := by
      refine List.Perm.eq_of_pairwise' (r := (· ≤ ·)) ?_ ?_ ?_
      · rw [List.pairwise_map, List.pairwise_iff_getElem]
        intro i j hi hj hij
        have ri := hlt i s[i] (List.getElem?_eq_getElem hi)
        have rj := hlt j s[j] (List.getElem?_eq_getElem hj)
        have := hss i j s[i] s[j] (((argsort fs).getD s[i] 0 : Nat) : ℚ) (((argsort fs).getD s[j] 0 : Nat) : ℚ) hij
          (List.getElem?_eq_getElem hi) (List.getElem?_eq_getElem hj)
          (by simp [hpl, ri]) (by simp [hpl, rj])
        exact_mod_cast this
      · rw [List.pairwise_iff_getElem]; intro i j hi hj hij; simp; omega
      · refine (hsp.map _).trans ?_
        have : (List.range fs.length).map (fun r => (argsort fs).getD r 0) = argsort fs := by
          apply List.ext_getElem (by simp [hpl])
          intro n h1 h2
          simp [h2]
        rw [this]; exact hp
    intro a r hr
    have ha : a < fs.length := by
      rw [← hsl]; exact (List.getElem?_eq_some_iff.mp hr).1
    have := congrArg (fun l => l[a]?) e
    simp only [List.getElem?_map, hr, Option.map_some, List.getElem?_range ha, Option.some.injEq] at this
    have hr' := hlt a r hr
    rw [List.getElem?_eq_getElem (by rw [hpl]; exact hr')]
    rw [List.getD_eq_getElem?_getD, List.getElem?_eq_getElem (by rw [hpl]; exact hr'), Option.getD_some] at this
    rw [this]
  refine ⟨hsl, hsp, ?_⟩
  intro a b r t p q hr ht hpa hqb
  refine ⟨fun hpq => ?_, fun hrt => ?_, hlt a r hr⟩
  · by_contra hc
    rcases Nat.lt_or_ge t r with h1 | h1
    · exact absurd hpq (not_lt.mpr (hps t r b a q p h1 (hinv b t ht) (hinv a r hr) hqb hpa))
    · have : r = t := by omega
      subst this
      have := (hinv a r hr).symm.trans (hinv b r ht)
      simp at this; subst this
      rw [hpa] at hqb; simp at hqb; subst hqb
      exact lt_irrefl _ hpq
  · subst hrt
    have := (hinv a r hr).symm.trans (hinv b r ht)
    simpa using this

theorem quantEdges_get (n q j : Nat) (hj : j ≤ q) (hq : 1 ≤ q) :
    (quantEdges n q).getD j 0 = if j = 0 then -1 else if j = q then (n : ℚ) else j * (((n : ℚ) - 1) / q) := by
  cases j with
  | zero => simp [quantEdges]
  | succ j =>
    have hl : j < (List.replicate q (((n : ℚ) - 1) / q)).length := by simp; omega
    simp only [quantEdges, List.getD_eq_getElem?_getD, Nat.succ_ne_zero, if_false, List.getElem?_cons_succ]
    by_cases h : j + 1 = q
    · have : q - 1 = j := by omega
      rw [this, List.getElem?_set_self (by rw [cumGo_length]; exact hl), if_pos h]
      rfl
    · rw [List.getElem?_set_ne (by omega), cumGo_getElem? _ _ _ _ hl, if_neg h, List.take_replicate,
        Option.getD_some]
      have key : ∀ (m : Nat) (acc c : ℚ), (List.replicate m c).foldl (· + ·) acc = acc + m * c := by
        intro m
        induction m with
        | zero => simp
        | succ m ih => intro acc c; rw [List.replicate_succ, List.foldl_cons, ih]; push_cast; ring
      rw [key]
      have : min (j + 1) q = j + 1 := by omega
      rw [this]; push_cast; ring

theorem foldl_unique {P : Nat → Prop} [DecidablePred P] (l : List Nat) (k : Nat) (hk : k ∈ l) (hP : P k)
    (hu : ∀ j ∈ l, P j → j = k) (m : Flt) :
    l.foldl (fun m j => if P j then Flt.fin (j : ℚ) else m) m = .fin k := by
  have gen : ∀ (l : List Nat) (m : Flt), (∀ j ∈ l, P j → j = k) → (k ∈ l ∨ m = .fin k) →
      l.foldl (fun m j => if P j then Flt.fin (j : ℚ) else m) m = .fin k := by
    intro l
    induction l with
    | nil => intro m _ h; simpa using h
    | cons j l ih =>
      intro m hu h
      rw [List.foldl_cons]
      refine ih _ (fun i hi => hu i (List.mem_cons_of_mem _ hi)) ?_
      by_cases hj : P j
      · have := hu j List.mem_cons_self hj
        subst this; rw [if_pos hj]; exact Or.inr rfl
      · rw [if_neg hj]
        rcases h with h | h
        · rcases List.mem_cons.mp h with h | h
          · subst h; exact absurd hP hj
          · exact Or.inl h
        · exact Or.inr h
  exact gen l m hu (Or.inl hk)

theorem quantBin_spec (n q r : Nat) (hq : 1 ≤ q) (hr : r < n) :
    ∃ k, IsBin n q r k ∧ quantBin (quantEdges n q) q (r : ℚ) = .fin (k : ℚ) := by
  -- the first bin that reaches the rank
  have hex : ∃ k, 1 ≤ k ∧ r * q ≤ k * (n - 1) := ⟨q, hq, by rw [Nat.mul_comm]; exact Nat.mul_le_mul_left _ (by omega)⟩
  let k := Nat.find hex
  have hk : 1 ≤ k ∧ r * q ≤ k * (n - 1) := Nat.find_spec hex
  have hmin : ∀ k', 1 ≤ k' → k' < k → k' * (n - 1) < r * q := by
    intro k' h1 h2
    have := Nat.find_min hex h2
    rw [not_and, not_le] at this
    exact this h1
  have hkq : k ≤ q := Nat.find_min' hex ⟨hq, by rw [Nat.mul_comm]; exact Nat.mul_le_mul_left _ (by omega)⟩
  refine ⟨k, ⟨hk.1, hkq, hk.2, hmin⟩, ?_⟩
  have hq0 : (0 : ℚ) < q := by exact_mod_cast hq
  have hcast : ((n - 1 : Nat) : ℚ) = (n : ℚ) - 1 := by
    have : 1 ≤ n := by omega
    push_cast [this]; ring
  -- the test of the loop
  have up : ∀ j, 1 ≤ j → j ≤ q → ((r : ℚ) ≤ (quantEdges n q).getD j 0 ↔ r * q ≤ j * (n - 1)) := by
    intro j h1 h2
    rw [quantEdges_get n q j h2 hq, if_neg (by omega)]
    by_cases hjq : j = q
    · rw [if_pos hjq, hjq]
      constructor
      · intro _; rw [Nat.mul_comm]; exact Nat.mul_le_mul_left _ (by omega)
      · intro _; exact_mod_cast hr.le
    · rw [if_neg hjq, ← mul_div_assoc, le_div_iff₀ hq0, ← hcast]
      exact_mod_cast Iff.rfl
  have down : ∀ j, 1 ≤ j → j ≤ q → ((quantEdges n q).getD (j - 1) 0 < (r : ℚ) ↔ j = 1 ∨ (j - 1) * (n - 1) < r * q) := by
    intro j h1 h2
    rw [quantEdges_get n q (j - 1) (by omega) hq]
    by_cases hj1 : j = 1
    · simp [hj1]
      have : (0 : ℚ) ≤ r := by positivity
      linarith
    · rw [if_neg (by omega), if_neg (by omega), ← mul_div_assoc, div_lt_iff₀ hq0, ← hcast]
      simp only [hj1, false_or]
      exact_mod_cast Iff.rfl
  refine foldl_unique (P := fun j => (quantEdges n q).getD (j - 1) 0 < (r : ℚ) ∧ (r : ℚ) ≤ (quantEdges n q).getD j 0)
    (List.range' 1 q) k ?_ ?_ ?_ .nan
  · simp only [List.mem_range'_1]; exact ⟨hk.1, by omega⟩
  · refine ⟨(down k hk.1 hkq).mpr ?_, (up k hk.1 hkq).mpr hk.2⟩
    by_cases h1 : k = 1
    · exact Or.inl h1
    · exact Or.inr (hmin (k - 1) (by omega) (by omega))
  · intro j hj ⟨hd, hu⟩
    simp only [List.mem_range'_1] at hj
    have hu' := (up j hj.1 (by omega)).mp hu
    have hd' := (down j hj.1 (by omega)).mp hd
    have h1 : k ≤ j := Nat.find_min' hex ⟨hj.1, hu'⟩
    rcases hd' with h | h
    · omega
    · by_contra hne
      have : k ≤ j - 1 := by omega
      have := Nat.mul_le_mul_right (n - 1) this
      omega

theorem quantileLine_spec {argsort : List ℚ → List Nat} (h : IsArgsort argsort) {q : Nat} (hq : 2 ≤ q)
    (vs : List Val) : QuantLine q vs (quantileLine argsort q vs) := by
  have hq1 : (q : ℚ) - 1 ≠ 0 := by
    have : (2 : ℚ) ≤ q := by exact_mod_cast hq
    intro h; linarith
  generalize hxs : vs.map Val.num = xs
  have hlen : (quantileLine argsort q vs).length = vs.length := by
    simp [quantileLine, quantileRaw, scatter_length]
  obtain ⟨hsl, _, hrank⟩ := argsort_argsort h (finites xs)
  let s := argsort ((argsort (finites xs)).map (fun i : Nat => (i : ℚ)))
  refine ⟨hlen, fun i => s.getD (finites (xs.take i)).length 0, ?_, ?_⟩
  · intro i j x y a b hi hj hx hy
    have xi : xs[i]? = some (.fin a) := by rw [← hxs, List.getElem?_map, hi]; simp [hx]
    have xj : xs[j]? = some (.fin b) := by rw [← hxs, List.getElem?_map, hj]; simp [hy]
    have f1 := (scatter_fin xs [] i a xi).1
    have f2 := (scatter_fin xs [] j b xj).1
    have l1 : (finites (xs.take i)).length < s.length := by rw [hsl]; exact (List.getElem?_eq_some_iff.mp f1).1
    have l2 : (finites (xs.take j)).length < s.length := by rw [hsl]; exact (List.getElem?_eq_some_iff.mp f2).1
    have := hrank _ _ (s.getD (finites (xs.take i)).length 0) (s.getD (finites (xs.take j)).length 0) a b
      (by simp [s] at l1 ⊢; simp [l1]) (by simp [s] at l2 ⊢; simp [l2]) f1 f2
    exact ⟨this.1, fun hr => finites_take_inj xs i j a b xi xj (this.2.1 hr)⟩
  · intro i x w hi hw
    have xi : xs[i]? = some x.num := by rw [← hxs, List.getElem?_map, hi]; rfl
    simp only [quantileLine, quantileRaw, hxs, filter_rat, List.getElem?_map] at hw
    refine ⟨fun a ha => ?_, fun hx => ?_⟩
    · rw [ha] at xi
      have f1 := (scatter_fin xs [] i a xi).1
      have l1 : (finites (xs.take i)).length < s.length := by rw [hsl]; exact (List.getElem?_eq_some_iff.mp f1).1
      have hs : s[(finites (xs.take i)).length]? = some (s.getD (finites (xs.take i)).length 0) := by simp [l1]
      have hlt := (hrank _ _ _ _ a a hs hs f1 f1).2.2
      obtain ⟨k, hk, hkb⟩ := quantBin_spec (finites xs).length q _ (by omega) hlt
      rw [hxs]
      refine ⟨hlt, k, hk, ?_⟩
      have := (scatter_fin xs (s.map (fun j : Nat => quantBin (quantEdges (finites xs).length q) q (j : ℚ))) i a xi).2
        (.fin (k : ℚ)) (by rw [List.getElem?_map, hs, Option.map_some, hkb])
      rw [this] at hw
      simp only [Option.map_some, Option.some.injEq] at hw
      subst hw
      simp only [Flt.sub, Flt.neg, Flt.add, Flt.div, if_neg hq1, Flt.mul]
      congr 2
      ring
    · rw [scatter_notfin xs _ i x.num xi hx] at hw
      simp only [Option.map_some, Option.some.injEq] at hw
      subst hw
      simp [Flt.sub, Flt.neg, Flt.add, Flt.div, Flt.mul]

/-- C49. `quantile(q, axis)`, `q >= 2`: along the axis every finite value gets its bin, all else NaN. -/
theorem C49_quantile {argsort : List ℚ → List Nat} (h : IsArgsort argsort) {y : Larry L} (hv : y.Valid)
    (hd : y.dtype ≠ .str ∧ y.dtype ≠ .object) {axis : Int} {ax : Nat} (hax : pyIdx y.ndim axis = some ax)
    {q : Nat} (hq : 2 ≤ q) (hqn : ∀ l, y.label[ax]? = some l → q ≤ l.length) :
    ∃ z, y.quantile argsort q (some axis) = .ok z ∧ z.dtype = .float ∧ y.AlongLine z ax (QuantLine q) := by
  obtain ⟨l, hl, _⟩ := label_at hv hax
  have hd' : y.dtype.isNumeric = true := by cases h : y.dtype <;> simp_all [DType.isNumeric]
  have hsh : y.shape.getD ax 0 = l.length := by
    simp [Larry.shape, hv.shape_eq, hl]
  have hqn' := hqn l hl
  refine ⟨y.along (quantileLine argsort q) .float ax, ?_, rfl,
    alongLine_mapLines hv hl _ _ (fun vs => (quantileLine_spec h hq vs).1) fun vs => quantileLine_spec h hq vs⟩
  simp only [quantile, hd', hax, hsh]
  rw [if_neg (by omega), if_neg (by simp), if_neg (by omega), if_neg (by omega)]
  rfl

/-- C49 for `axis=None`: all elements as one sequence. -/
theorem C49_quantile_all {argsort : List ℚ → List Nat} (h : IsArgsort argsort) {y : Larry L} (hv : y.Valid)
    (hd : y.dtype ≠ .str ∧ y.dtype ≠ .object) {q : Nat} (hq : 2 ≤ q) (hqn : q ≤ (y.label.map List.length).prod) :
    ∃ z, y.quantile argsort q none = .ok z ∧ z.dtype = .float ∧ y.AlongAllLine z (QuantLine q) := by
  have hd' : y.dtype.isNumeric = true := by cases h : y.dtype <;> simp_all [DType.isNumeric]
  refine ⟨y.alongAll (quantileLine argsort q) .float, ?_, rfl,
    alongAllLine_spec hv _ _ (fun vs => (quantileLine_spec h hq vs).1) fun vs => quantileLine_spec h hq vs⟩
  have : (y.size : Int) = ((y.label.map List.length).prod : Nat) := by
    simp [Larry.size, NDArray.size, hv.shape_eq]
  simp only [quantile, hd']
  rw [if_neg (by omega), if_neg (by simp), if_neg (by omega), if_neg (by omega)]
  rfl

/-- C49. A line of quantiles is within `[-1, 1]` and monotone. -/
theorem C49_monotone {q : Nat} (hq : 2 ≤ q) {vs ws : List Val} (h : QuantLine q vs ws) :
    (∀ (i : Nat) x w a, vs[i]? = some x → ws[i]? = some w → x.num = .fin a →
      ∃ r, w = .flt (.fin r) ∧ -1 ≤ r ∧ r ≤ 1) ∧
    (∀ (i j : Nat) x x' w w' a b r r', vs[i]? = some x → vs[j]? = some x' → ws[i]? = some w → ws[j]? = some w' →
      x.num = .fin a → x'.num = .fin b → a < b → w = .flt (.fin r) → w' = .flt (.fin r') → r ≤ r') := by
  obtain ⟨hlen, rank, hr, hcell⟩ := h
  have hq1 : (0 : ℚ) < (q : ℚ) - 1 := by
    have : (2 : ℚ) ≤ q := by exact_mod_cast hq
    linarith
  constructor
  · intro i x w a hi hw ha
    obtain ⟨_, k, ⟨k1, k2, _⟩, rfl⟩ := (hcell i x w hi hw).1 a ha
    have c1 : (1 : ℚ) ≤ k := by exact_mod_cast k1
    have c2 : (k : ℚ) ≤ q := by exact_mod_cast k2
    refine ⟨_, rfl, ?_, ?_⟩
    · have : 0 ≤ ((k : ℚ) - 1) / ((q : ℚ) - 1) := div_nonneg (by linarith) hq1.le
      linarith
    · have : ((k : ℚ) - 1) / ((q : ℚ) - 1) ≤ 1 := by rw [div_le_one hq1]; linarith
      linarith
  · intro i j x x' w w' a b r r' hi hj hw hw' ha hb hab er er'
    obtain ⟨_, k, ⟨k1, k2, k3, k4⟩, e⟩ := (hcell i x w hi hw).1 a ha
    obtain ⟨_, k', ⟨k1', k2', k3', k4'⟩, e'⟩ := (hcell j x' w' hj hw').1 b hb
    have hlt := (hr i j x x' a b hi hj ha hb).1 hab
    have hkk : k ≤ k' := by
      by_contra hc
      have h1 := k4 k' k1' (by omega)
      have h2 : rank i * q ≤ rank j * q := Nat.mul_le_mul_right _ hlt.le
      omega
    rw [er] at e; rw [er'] at e'
    simp only [Val.flt.injEq, Flt.fin.injEq] at e e'
    rw [e, e']
    have c : (k : ℚ) ≤ k' := by exact_mod_cast hkk
    have : ((k : ℚ) - 1) / ((q : ℚ) - 1) ≤ ((k' : ℚ) - 1) / ((q : ℚ) - 1) :=
      div_le_div_of_nonneg_right (by linarith) hq1.le
    linarith

/-- C49: `q = 1` gives 0, NaN for NaN. -/
theorem C49_one (argsort : List ℚ → List Nat) {y : Larry L} (hv : y.Valid)
    (hd : y.dtype ≠ .str ∧ y.dtype ≠ .object) (axis : Option Int) :
    ∃ z, y.quantile argsort 1 axis = .ok z ∧ z.Valid ∧ z.label = y.label ∧
      ∀ names v w, y.Has names v → z.Has names w → w = if v.num = .nan then .flt .nan else .flt (.fin 0) := by
  have hd' : y.dtype.isNumeric = true := by cases h : y.dtype <;> simp_all [DType.isNumeric]
  refine ⟨⟨y.x.map (fun v => if v.isNan then .flt .nan else .flt (.fin 0)), .float, y.label⟩,
    by simp [quantile, hd'], ⟨hv.shape_eq, hv.nodup, hv.ndim_pos⟩, rfl, ?_⟩
  rintro names v w ⟨idx, hat, rfl⟩ ⟨idx', hat', rfl⟩
  have := At_unique hv.nodup hat hat'
  subst this
  simp only [NDArray.map]
  by_cases hn : (y.x.get idx).num = .nan
  · have : (y.x.get idx).isNan = true := by simp [Val.isNan, hn, Flt.isNan]
    simp [hn, this]
  · have : (y.x.get idx).isNan = false := by
      cases hx : (y.x.get idx).num <;> simp_all [Val.isNan, Flt.isNan]
    simp [hn, this]

/-- C49: refusals. -/
theorem C49_errors (argsort : List ℚ → List Nat) {y : Larry L} (hv : y.Valid) (hd : y.dtype = .float) (q : Int) :
    (q < 1 → ∀ axis, y.quantile argsort q axis = .error .valueError) ∧
    (∀ axis ax l, pyIdx y.ndim axis = some ax → y.label[ax]? = some l → 1 < q → (l.length : Int) < q →
      y.quantile argsort q (some axis) = .error .valueError) ∧
    (∀ axis, 1 < q → pyIdx y.ndim axis = none → y.quantile argsort q (some axis) = .error .indexError) ∧
    (1 < q → ((y.label.map List.length).prod : Int) < q → y.quantile argsort q none = .error .valueError) := by
  refine ⟨fun h axis => by simp [quantile, h], fun axis ax l hax hl h1 h => ?_, fun axis h1 hax => ?_, fun h1 h => ?_⟩
  · have hsh : y.shape.getD ax 0 = l.length := by simp [Larry.shape, hv.shape_eq, hl]
    simp only [quantile, hd, hax, hsh]
    rw [if_neg (by omega), if_neg (by simp [DType.isNumeric]), if_neg (by omega), if_pos (by omega)]
  · simp only [quantile, hd, hax]
    rw [if_neg (by omega), if_neg (by simp [DType.isNumeric]), if_neg (by omega)]
  · have : (y.size : Int) = ((y.label.map List.length).prod : Nat) := by
      simp [Larry.size, NDArray.size, hv.shape_eq]
    simp only [quantile, hd]
    rw [if_neg (by omega), if_neg (by simp [DType.isNumeric]), if_neg (by omega), if_pos (by omega)]

/-- A function that meets `IsArgsort`. -/
def sortPositions (xs : List ℚ) : List Nat :=
  (List.range xs.length).mergeSort (fun a b => decide (xs.getD a 0 ≤ xs.getD b 0))

theorem isArgsort_sortPositions : IsArgsort sortPositions := by
  intro xs
  refine ⟨List.mergeSort_perm _ _, ?_⟩
  intro i j a b p q hij hi hj ha hb
  have hs : (sortPositions xs).Pairwise (fun a b => decide (xs.getD a 0 ≤ xs.getD b 0)) :=
    List.pairwise_mergeSort
      (fun a b c h1 h2 => by simp at h1 h2 ⊢; exact le_trans h1 h2)
      (fun a b => by simp; exact le_total _ _) _
  obtain ⟨hi', hi2⟩ := List.getElem?_eq_some_iff.mp hi
  obtain ⟨hj', hj2⟩ := List.getElem?_eq_some_iff.mp hj
  have := List.pairwise_iff_getElem.mp hs i j hi' hj' hij
  rw [hi2, hj2] at this
  simpa [ha, hb] using this

example : IsArgsort sortPositions ∧ exA.Valid ∧ exA.dtype ≠ .str ∧ exA.dtype ≠ .object ∧ pyIdx exA.ndim 1 = some 1 ∧
    (∀ l, exA.label[1]? = some l → 2 ≤ l.length) ∧ (exA.label.map List.length).prod = 6 :=
  ⟨isArgsort_sortPositions, exA_valid, by decide, by decide, rfl, by simp [exA], by decide⟩

/-! ## C51: movingsum_forward -/

/-- The window of a forward moving sum at `t`. -/
def windowAt (vs : List Val) (t skip window : Nat) : List Flt := ((vs.map Val.num).drop (t + skip)).take window

/-- A line of forward moving sums: NaN where the window runs past the end or has only NaN, else the sum
of what is not NaN; with `norm` it is scaled up to a full window. -/
def MovingSum (window skip : Nat) (norm : Bool) (vs ws : List Val) : Prop :=
  ws.length = vs.length ∧ ∀ (t : Nat) w, ws[t]? = some w →
    (vs.length < t + skip + window → w = .flt .nan) ∧
    (t + skip + window ≤ vs.length → finites (windowAt vs t skip window) = [] → w = .flt .nan) ∧
    (t + skip + window ≤ vs.length → finites (windowAt vs t skip window) ≠ [] →
      w = .flt (.fin (if norm then (window : ℚ) * (finites (windowAt vs t skip window)).sum /
        (finites (windowAt vs t skip window)).length else (finites (windowAt vs t skip window)).sum)))

theorem windowDiff_length {α : Type _} (sub : α → α → α) (window skip : Nat) (cs : List α) (hw : 1 ≤ window) :
    (windowDiff sub window skip cs).length = cs.length - skip - (window - 1) := by
  simp only [windowDiff, List.length_append, List.length_take, List.length_zipWith, List.length_drop]
  omega

theorem foldl_add (l : List ℚ) (a : ℚ) : l.foldl (· + ·) a = a + l.sum := by
  induction l generalizing a with
  | nil => simp
  | cons b l ih => rw [List.foldl_cons, ih, List.sum_cons]; ring

theorem sum_window (l : List ℚ) (k w : Nat) : ((l.drop k).take w).sum = (l.take (k + w)).sum - (l.take k).sum := by
  have : l.take (k + w) = l.take k ++ (l.drop k).take w := by rw [List.take_add]
  rw [this, List.sum_append]; ring

theorem windowDiff_get (window skip : Nat) (l : List ℚ) (hw : 1 ≤ window) (k : Nat)
    (hk : k + window + skip ≤ l.length) :
    (windowDiff (· - ·) window skip (cumGo (· + ·) 0 l))[k]? = some (((l.drop k).take window).sum) := by
  have hcl : (cumGo (· + ·) 0 l).length = l.length := cumGo_length _ _ _
  have hc : ∀ i, i < l.length → (cumGo (· + ·) 0 l)[i]? = some ((l.take (i + 1)).sum) := by
    intro i hi
    rw [cumGo_getElem? _ _ _ _ hi, foldl_add]; simp
  simp only [windowDiff, hcl]
  cases k with
  | zero =>
    rw [List.getElem?_append_left (by simp [hcl]; omega), List.getElem?_take_of_lt (by omega),
      List.getElem?_drop, List.getElem?_take_of_lt (by omega), hc _ (by omega)]
    simp only [Option.some.injEq]
    rw [List.drop_zero]; congr 2; omega
  | succ k =>
    have h1 : ((((cumGo (· + ·) 0 l).take (l.length - skip)).drop (window - 1)).take 1).length = 1 := by
      simp [hcl]; omega
    rw [List.getElem?_append_right (by rw [h1]; omega), h1, List.getElem?_zipWith, List.getElem?_drop,
      List.getElem?_drop, List.getElem?_take_of_lt (by omega), List.getElem?_take_of_lt (by omega),
      hc _ (by omega), hc _ (by omega), sum_window]
    simp only [Option.some.injEq]
    have e1 : window - 1 + (1 + (k + 1 - 1)) + 1 = k + 1 + window := by omega
    have e2 : k + 1 - 1 + 1 = k + 1 := by omega
    rw [e1, e2]

theorem windowDiff_map (window skip : Nat) (l : List ℚ) :
    windowDiff Flt.sub window skip (l.map Flt.fin) = (windowDiff (· - ·) window skip l).map Flt.fin := by
  simp only [windowDiff, List.map_append, List.map_take, List.map_drop, List.length_map, List.map_zipWith]
  congr 1
  rw [← List.map_take, ← List.map_drop, ← List.map_drop, ← List.map_take, List.zipWith_map]
  congr 1
  funext a b
  simp [Flt.sub, Flt.neg, Flt.add, sub_eq_add_neg]

theorem cumGo_fin (a : ℚ) (l : List ℚ) : cumGo Flt.add (.fin a) (l.map Flt.fin) = (cumGo (· + ·) a l).map Flt.fin := by
  induction l generalizing a with
  | nil => rfl
  | cons b l ih => simp only [List.map_cons, cumGo, Flt.add, ih]

/-- A value with missing taken as 0, and 1 for a value that is there. -/
def orZero (f : Flt) : ℚ := match f with | .fin q => q | _ => 0
def isThere (f : Flt) : ℚ := match f with | .fin _ => 1 | _ => 0

theorem sum_orZero (xs : List Flt) : (xs.map orZero).sum = (finites xs).sum := by
  induction xs with
  | nil => rfl
  | cons x xs ih => cases x <;> simp [orZero, finites] at ih ⊢ <;> exact ih

theorem sum_isThere (xs : List Flt) : (xs.map isThere).sum = (finites xs).length := by
  induction xs with
  | nil => rfl
  | cons x xs ih => cases x <;> simp [isThere, finites] at ih ⊢ <;> linarith

theorem movingsumLine_get {d : DType} {window skip : Nat} (norm : Bool) {vs : List Val} (hw : 1 ≤ window)
    (hinf : NoInf (vs.map Val.num)) (hd : d = .float ∨ ∀ v ∈ vs, v.num ≠ .nan) :
    (movingsumLine d window skip norm vs).length = vs.length ∧
    (∀ t, t < vs.length → t + 1 < skip + window → (movingsumLine d window skip norm vs)[t]? = some (.flt .nan)) ∧
    (∀ k, k + window + skip ≤ vs.length →
      (movingsumLine d window skip norm vs)[k + (window + skip - 1)]? =
        some (.flt (let W := ((vs.map Val.num).drop k).take window
          if norm then (Flt.fin (window * (finites W).sum)).div (.fin (finites W).length)
          else if ((finites W).length : ℚ) = 0 then .nan else .fin (finites W).sum))) := by
  have key : ∀ v ∈ vs, (if (decide (d = .float) && v.isNan) then Flt.fin 0 else v.num) = .fin (orZero v.num) ∧
      (if (decide (d = .float) && v.isNan) then (0 : ℚ) else 1) = isThere v.num := by
    intro v hv
    have hi := hinf v.num (List.mem_map_of_mem hv)
    cases hn : v.num with
    | pinf => exact absurd hn hi.1
    | ninf => exact absurd hn hi.2
    | fin q =>
      have : v.isNan = false := by simp [Val.isNan, hn, Flt.isNan]
      simp [this, orZero, isThere]
    | nan =>
      have : v.isNan = true := by simp [Val.isNan, hn, Flt.isNan]
      rcases hd with h | h
      · simp [this, orZero, isThere, h]
      · exact absurd hn (h v hv)
  have e1 : List.zipWith (fun v (t : Bool) => if t then Flt.fin 0 else v.num) vs
      (vs.map (fun v => decide (d = .float) && v.isNan)) = ((vs.map Val.num).map orZero).map Flt.fin := by
    rw [List.zipWith_map_right, List.zipWith_self, List.map_map, List.map_map]
    exact List.map_congr_left fun v hv => (key v hv).1
  have e2 : (vs.map (fun v => decide (d = .float) && v.isNan)).map (fun t => if t then (0 : ℚ) else 1) =
      (vs.map Val.num).map isThere := by
    rw [List.map_map, List.map_map]
    exact List.map_congr_left fun v hv => (key v hv).2
  simp only [movingsumLine, e1, e2, cumGo_fin, windowDiff_map]
  have l1 : ∀ l : List ℚ, l.length = vs.length → (windowDiff (· - ·) window skip (cumGo (· + ·) 0 l)).length =
      vs.length - skip - (window - 1) := by
    intro l hl; rw [windowDiff_length _ _ _ _ hw, cumGo_length, hl]
  refine ⟨?_, ?_, ?_⟩
  · simp only [List.length_append, List.length_replicate, List.length_map, List.length_zipWith]
    rw [l1 _ (by simp), l1 _ (by simp)]
    omega
  · intro t ht h
    rw [List.getElem?_append_left (by simp; omega), List.getElem?_replicate_of_lt (by omega)]
  · intro k hk
    have hm : min vs.length (skip + window - 1) = window + skip - 1 := by omega
    rw [List.getElem?_append_right (by simp; omega), List.length_replicate, hm, List.getElem?_map, List.getElem?_zipWith,
      List.getElem?_map]
    have : k + (window + skip - 1) - (window + skip - 1) = k := by omega
    rw [this, windowDiff_get _ _ _ hw k (by simpa using hk), windowDiff_get _ _ _ hw k (by simpa using hk)]
    simp only [← List.map_drop, ← List.map_take, sum_orZero, sum_isThere, Option.map_some]
    rfl

theorem finites_reverse (xs : List Flt) : finites xs.reverse = (finites xs).reverse := by
  simp [finites]

theorem movingsumForwardLine_spec {d : DType} {window skip : Nat} (norm : Bool) {vs : List Val} (hw : 1 ≤ window)
    (hinf : NoInf (vs.map Val.num)) (hd : d = .float ∨ ∀ v ∈ vs, v.num ≠ .nan) :
    MovingSum window skip norm vs (movingsumForwardLine d window skip norm vs) := by
  obtain ⟨hl, h1, h2⟩ := movingsumLine_get (d := d) (window := window) (skip := skip) norm (vs := vs.reverse) hw
    (fun x hx => hinf x (by simpa using hx))
    (hd.imp id fun h v hv => h v (by simpa using hv))
  rw [List.length_reverse] at hl
  refine ⟨by simp [movingsumForwardLine, hl], fun t w hw' => ?_⟩
  have ht : t < vs.length := by
    have := (List.getElem?_eq_some_iff.mp hw').1
    simpa [movingsumForwardLine, hl] using this
  rw [movingsumForwardLine, List.getElem?_reverse (by rw [hl]; exact ht), hl] at hw'
  by_cases hc : t + skip + window ≤ vs.length
  · have hk := h2 (vs.length - (t + skip + window)) (by simp; omega)
    have e : vs.length - (t + skip + window) + (window + skip - 1) = vs.length - 1 - t := by omega
    rw [e, hw'] at hk
    have ew : ((vs.reverse.map Val.num).drop (vs.length - (t + skip + window))).take window =
        (windowAt vs t skip window).reverse := by
      rw [List.map_reverse, List.drop_reverse, List.take_reverse, windowAt]
      congr 1
      simp only [List.length_map, List.length_take]
      rw [List.drop_take]
      congr 1 <;> [omega; (congr 1; omega)]
    simp only [ew, finites_reverse, List.length_reverse, List.sum_reverse, Option.some.injEq] at hk
    generalize finites (windowAt vs t skip window) = F at *
    refine ⟨fun h => by omega, fun _ hF => ?_, fun _ hF => ?_⟩
    · rw [hk, hF]
      cases norm <;> simp [Flt.div, Flt.infOf]
    · have hF0 : (F.length : ℚ) ≠ 0 := by
        have := List.length_pos_of_ne_nil hF
        exact_mod_cast this.ne'
      rw [hk]
      cases norm <;> simp [Flt.div, hF0]
  · have := h1 (vs.length - 1 - t) (by simp; omega) (by omega)
    rw [this] at hw'
    simp only [Option.some.injEq] at hw'
    exact ⟨fun _ => hw'.symm, fun h => absurd h hc, fun h => absurd h hc⟩

/-- C51. `movingsum_forward(window, skip, axis, norm)`: along the axis, the result at `t` is about the
elements `t+skip .. t+skip+window-1`. -/
theorem C51_movingsum_forward {y : Larry L} (hv : y.Valid) (hd : y.dtype ≠ .str ∧ y.dtype ≠ .object)
    {axis : Int} {ax : Nat} (hax : pyIdx y.ndim axis = some ax) {window skip : Nat} (norm : Bool) (hw : 1 ≤ window)
    (hn : ∀ l, y.label[ax]? = some l → window ≤ l.length ∧ skip ≤ l.length) :
    ∃ z, y.movingsumForward window skip axis norm = .ok z ∧ z.dtype = .float ∧
      y.AlongLine z ax (fun vs ws => NoInf (vs.map Val.num) → (y.dtype = .float ∨ ∀ v ∈ vs, v.num ≠ .nan) →
        MovingSum window skip norm vs ws) := by
  obtain ⟨l, hl, _⟩ := label_at hv hax
  have hd' : y.dtype.isNumeric = true := by cases h : y.dtype <;> simp_all [DType.isNumeric]
  have hsh : y.shape.getD ax 0 = l.length := by simp [Larry.shape, hv.shape_eq, hl]
  obtain ⟨n1, n2⟩ := hn l hl
  refine ⟨y.along (movingsumForwardLine y.dtype window skip norm) .float ax, ?_, rfl,
    alongLine_mapLines hv hl _ _ (fun vs => ?_) fun vs hinf hnan => movingsumForwardLine_spec norm hw hinf hnan⟩
  · simp only [movingsumForward, hax, hsh, hd']
    rw [if_neg (by omega), if_neg (by omega), if_neg (by omega), if_neg (by simp)]
    rfl
  · simp only [movingsumForwardLine, List.length_reverse, movingsumLine, List.length_append, List.length_replicate,
      List.length_map, List.length_zipWith, windowDiff_length _ _ _ _ hw, cumGo_length]
    omega

/-- C51: refusals. -/
theorem C51_errors {y : Larry L} (hv : y.Valid) {axis : Int} {ax : Nat} (hax : pyIdx y.ndim axis = some ax)
    {l : List L} (hl : y.label[ax]? = some l) (window : Int) (skip : Nat) (norm : Bool) :
    (window < 1 → y.movingsumForward window skip axis norm = .error .valueError) ∧
    ((l.length : Int) < window → y.movingsumForward window skip axis norm = .error .valueError) ∧
    (1 ≤ window → window ≤ l.length → l.length < skip →
      y.movingsumForward window skip axis norm = .error .indexError) := by
  have hsh : y.shape.getD ax 0 = l.length := by simp [Larry.shape, hv.shape_eq, hl]
  simp only [movingsumForward, hax, hsh]
  refine ⟨fun h => by rw [if_pos h], fun h => ?_, fun h1 h2 h3 => ?_⟩
  · by_cases h1 : window < 1
    · rw [if_pos h1]
    · rw [if_neg h1, if_pos (by omega)]
  · rw [if_neg (by omega), if_neg (by omega), if_pos (by omega)]

example : exA.Valid ∧ exA.dtype ≠ .str ∧ exA.dtype ≠ .object ∧ pyIdx exA.ndim 1 = some 1 ∧
    (∀ l, exA.label[1]? = some l → 2 ≤ l.length ∧ 1 ≤ l.length) ∧
    MovingSum 2 1 false [fl 4, .flt .nan, fl 6] [fl 6, .flt .nan, .flt .nan] :=
  ⟨exA_valid, by decide, by decide, rfl, by simp [exA],
    by
      have h := movingsumForwardLine_spec (d := .float) (window := 2) (skip := 1) false
        (vs := [fl 4, .flt .nan, fl 6]) (by decide) (by simp [NoInf, fl, Val.num]) (Or.inl rfl)
      have e : movingsumForwardLine .float 2 1 false [fl 4, .flt .nan, fl 6] = [fl 6, .flt .nan, .flt .nan] := by
        decide +kernel
      rwa [e] at h⟩

/-! ## C52: demean, demedian, zscore -/

/-- A line shifted by `c`; NaN stays NaN. -/
def Shifted (c : ℚ) (vs ws : List Val) : Prop :=
  ws.length = vs.length ∧ ∀ (i : Nat) x w, vs[i]? = some x → ws[i]? = some w →
    (∀ q, x.num = .fin q → w = .flt (.fin (q - c))) ∧ (x.num = .nan → w = .flt .nan)

/-- NaN stays NaN, also in a line of nothing else. -/
def StaysNan (vs ws : List Val) : Prop :=
  ∀ (i : Nat) (x w : Val), vs[i]? = some x → ws[i]? = some w → x.num = .nan → w = .flt .nan

/-- `ws` is `vs` less its mean, and so has mean 0. -/
def Demeaned (vs ws : List Val) : Prop :=
  ws.length = vs.length ∧
  ((finites (vs.map Val.num)).length ≠ 0 →
    Shifted ((finites (vs.map Val.num)).sum / (finites (vs.map Val.num)).length) vs ws) ∧
  (∀ w ∈ ws, w = .flt .nan ∨ ∃ q, w = .flt (.fin q)) ∧
  (finites (ws.map Val.num)).sum = 0 ∧ StaysNan vs ws

theorem nanmean_fin {xs : List Flt} (hinf : NoInf xs) (h : (finites xs).length ≠ 0) :
    nanmean xs = .fin ((finites xs).sum / (finites xs).length) := by
  have key : xs.filter (fun x => !x.isNan) = (finites xs).map Flt.fin := by
    clear h
    induction xs with
    | nil => rfl
    | cons x xs ih =>
      have := ih fun x hx => hinf x (List.mem_cons_of_mem _ hx)
      have hx := hinf x List.mem_cons_self
      cases x with
      | pinf => exact absurd rfl hx.1
      | ninf => exact absurd rfl hx.2
      | nan => simp [Flt.isNan, finites] at this ⊢; exact this
      | fin q => simp [Flt.isNan, finites] at this ⊢; exact this
  have h0 : ((finites xs).length : ℚ) ≠ 0 := by exact_mod_cast h
  simp only [nanmean, key, List.length_map]
  rw [sum_fin]
  simp [Flt.div, h0]

theorem sum_map_sub (F : List ℚ) (c : ℚ) : (F.map (· - c)).sum = F.sum - F.length * c := by
  induction F with
  | nil => simp
  | cons q F ih => simp only [List.map_cons, List.sum_cons, ih, List.length_cons]; push_cast; ring

theorem demeanLine_fin {center : List Flt → Flt} {vs : List Val} {c : ℚ} (hc : center (vs.map Val.num) = .fin c)
    (hinf : NoInf (vs.map Val.num)) :
    Shifted c vs (demeanLine center vs) ∧
    finites ((demeanLine center vs).map Val.num) = (finites (vs.map Val.num)).map (· - c) := by
  constructor
  · refine ⟨by simp [demeanLine], fun i x w hx hw => ?_⟩
    simp only [demeanLine, List.getElem?_map, hx, Option.map_some, Option.some.injEq, hc] at hw
    subst hw
    refine ⟨fun q hq => ?_, fun h => ?_⟩
    · simp [hq, Flt.sub, Flt.neg, Flt.add, sub_eq_add_neg]
    · simp [h, Flt.sub, Flt.neg, Flt.add]
  · simp only [demeanLine, List.map_map, hc]
    clear hc
    induction vs with
    | nil => rfl
    | cons v vs ih =>
      have hx := hinf v.num (by simp)
      have := ih fun x hx => hinf x (by simp at hx ⊢; exact Or.inr hx)
      simp only [List.map_cons, Function.comp_apply] at this ⊢
      cases hv : v.num with
      | pinf => exact absurd hv hx.1
      | ninf => exact absurd hv hx.2
      | nan =>
        have : (Val.flt ((Flt.nan).sub (.fin c))).num = .nan := rfl
        rw [this, finites_cons_nan, finites_cons_nan]; assumption
      | fin q =>
        have : (Val.flt ((Flt.fin q).sub (.fin c))).num = .fin (q - c) := by
          simp [Val.num, Flt.sub, Flt.neg, Flt.add, sub_eq_add_neg]
        rw [this, finites_cons_fin, finites_cons_fin, List.map_cons]; congr 1

theorem demeanLine_stays (center : List Flt → Flt) (vs : List Val) : StaysNan vs (demeanLine center vs) := by
  intro i x w hx hw hn
  rw [demeanLine, List.getElem?_map, hx, Option.map_some, Option.some.injEq] at hw
  rw [← hw, hn]
  simp [Flt.sub, Flt.add]

theorem demeanLine_spec {vs : List Val} (hinf : NoInf (vs.map Val.num)) : Demeaned vs (demeanLine nanmean vs) := by
  have hall : ∀ w ∈ demeanLine nanmean vs, ∃ f : Flt, w = .flt f := by
    intro w hw
    simp only [demeanLine, List.mem_map] at hw
    obtain ⟨v, _, rfl⟩ := hw
    exact ⟨_, rfl⟩
  by_cases h : (finites (vs.map Val.num)).length = 0
  · have hnan : ∀ v ∈ vs, v.num = .nan := by
      intro v hv
      have := hinf v.num (List.mem_map_of_mem hv)
      cases hn : v.num with
      | pinf => exact absurd hn this.1
      | ninf => exact absurd hn this.2
      | nan => rfl
      | fin q =>
        have : q ∈ finites (vs.map Val.num) := by
          simp only [finites, List.mem_filterMap]
          exact ⟨.fin q, by rw [← hn]; exact List.mem_map_of_mem hv, rfl⟩
        rw [List.length_eq_zero_iff.mp h] at this
        simp at this
    have hw : ∀ w ∈ demeanLine nanmean vs, w = .flt .nan := by
      intro w hw
      simp only [demeanLine, List.mem_map] at hw
      obtain ⟨v, hv, rfl⟩ := hw
      rw [hnan v hv]
      simp [Flt.sub, Flt.add]
    refine ⟨by simp [demeanLine], fun h' => absurd h h', fun w hw' => Or.inl (hw w hw'), ?_, demeanLine_stays _ _⟩
    have : finites ((demeanLine nanmean vs).map Val.num) = [] := by
      rw [finites, List.filterMap_eq_nil_iff]
      intro f hf
      obtain ⟨w, hw', rfl⟩ := List.mem_map.mp hf
      rw [hw w hw']; rfl
    rw [this]; rfl
  · obtain ⟨h1, h2⟩ := demeanLine_fin (center := nanmean) (nanmean_fin hinf h) hinf
    refine ⟨h1.1, fun _ => h1, ?_, ?_, demeanLine_stays _ _⟩
    · intro w hw
      obtain ⟨i, hi⟩ := List.mem_iff_getElem?.mp hw
      have hil : i < vs.length := by rw [← h1.1]; exact (List.getElem?_eq_some_iff.mp hi).1
      obtain ⟨c1, c2⟩ := h1.2 i _ w (List.getElem?_eq_getElem hil) hi
      have := hinf vs[i].num (List.mem_map_of_mem (List.getElem_mem hil))
      cases hn : vs[i].num with
      | pinf => exact absurd hn this.1
      | ninf => exact absurd hn this.2
      | nan => exact Or.inl (c2 hn)
      | fin q => exact Or.inr ⟨_, c1 q hn⟩
    · rw [h2, sum_map_sub]
      have h0 : ((finites (vs.map Val.num)).length : ℚ) ≠ 0 := by exact_mod_cast h
      field_simp
      ring

/-- C52. `demean(axis)`: along the axis the mean of what is not NaN is taken off. -/
theorem C52_demean {y : Larry L} (hv : y.Valid) (hd : y.dtype ≠ .str ∧ y.dtype ≠ .object) {axis : Int} {ax : Nat}
    (hax : pyIdx y.ndim axis = some ax) :
    ∃ z, y.demean nanmean (some axis) = .ok z ∧ z.dtype = .float ∧
      y.AlongLine z ax (fun vs ws => NoInf (vs.map Val.num) → Demeaned vs ws) := by
  obtain ⟨l, hl, _⟩ := label_at hv hax
  have hd' : y.dtype.isNumeric = true := by cases h : y.dtype <;> simp_all [DType.isNumeric]
  refine ⟨y.along (demeanLine nanmean) .float ax, by simp [demean, hd', npAxis, hax], rfl,
    alongLine_mapLines hv hl _ _ (fun vs => by simp [demeanLine]) fun vs hinf => demeanLine_spec hinf⟩

/-- C52 for `axis=None`. -/
theorem C52_demean_all {y : Larry L} (hv : y.Valid) (hd : y.dtype ≠ .str ∧ y.dtype ≠ .object) :
    ∃ z, y.demean nanmean none = .ok z ∧ z.dtype = .float ∧
      y.AlongAllLine z (fun vs ws => NoInf (vs.map Val.num) → Demeaned vs ws) := by
  have hd' : y.dtype.isNumeric = true := by cases h : y.dtype <;> simp_all [DType.isNumeric]
  exact ⟨y.alongAll (demeanLine nanmean) .float, by simp [demean, hd'], rfl,
    alongAllLine_spec hv _ _ (fun vs => by simp [demeanLine]) fun vs hinf => demeanLine_spec hinf⟩

/-- `m` is a median: no more than half lie on either side. -/
def IsMedian (F : List ℚ) (m : ℚ) : Prop :=
  2 * (F.filter (fun q => q < m)).length ≤ F.length ∧ 2 * (F.filter (fun q => m < q)).length ≤ F.length

/-- C52. `demedian(axis)`: the median is taken off, so 0 is a median of the result.  `med` is any function
that gives a median of the finite numbers. -/
theorem C52_demedian {med : List Flt → Flt} {y : Larry L} (hv : y.Valid)
    (hd : y.dtype ≠ .str ∧ y.dtype ≠ .object) {axis : Int} {ax : Nat} (hax : pyIdx y.ndim axis = some ax)
    (hmed : ∀ xs : List Flt, NoInf xs → finites xs ≠ [] → ∃ m, med xs = .fin m ∧ IsMedian (finites xs) m) :
    ∃ z, y.demean med (some axis) = .ok z ∧ z.dtype = .float ∧
      y.AlongLine z ax (fun vs ws => StaysNan vs ws ∧ (NoInf (vs.map Val.num) → finites (vs.map Val.num) ≠ [] →
        ∃ m, IsMedian (finites (vs.map Val.num)) m ∧ Shifted m vs ws ∧ IsMedian (finites (ws.map Val.num)) 0)) := by
  obtain ⟨l, hl, _⟩ := label_at hv hax
  have hd' : y.dtype.isNumeric = true := by cases h : y.dtype <;> simp_all [DType.isNumeric]
  refine ⟨y.along (demeanLine med) .float ax, by simp [demean, hd', npAxis, hax], rfl,
    alongLine_mapLines hv hl _ _ (fun vs => by simp [demeanLine]) fun vs => ⟨demeanLine_stays _ _, fun hinf hne => ?_⟩⟩
  obtain ⟨m, hm, hmm⟩ := hmed _ hinf hne
  obtain ⟨h1, h2⟩ := demeanLine_fin hm hinf
  refine ⟨m, hmm, h1, ?_⟩
  rw [h2]
  simp only [IsMedian, List.filter_map, List.length_map] at hmm ⊢
  have e1 : ((fun q : ℚ => decide (q < 0)) ∘ (· - m)) = fun q => decide (q < m) := by
    funext q; simp
  have e2 : ((fun q : ℚ => decide (0 < q)) ∘ (· - m)) = fun q => decide (m < q) := by
    funext q; simp
  rw [e1, e2]; exact hmm

/-- Sum of squares. -/
def sumSq (F : List ℚ) : ℚ := (F.map (fun q => q * q)).sum

/-- `ws` is the demeaned line over its standard deviation (`std` of the demeaned line). -/
def ZScored (std : List Flt → Flt) (vs ws : List Val) : Prop :=
  ws.length = vs.length ∧ StaysNan vs ws ∧ ∃ ms, Demeaned vs ms ∧ ∀ s : ℚ, std (ms.map Val.num) = .fin s → s ≠ 0 →
    (∀ (i : Nat) m w, ms[i]? = some m → ws[i]? = some w →
      (∀ q, m.num = .fin q → w = .flt (.fin (q / s))) ∧ (m.num = .nan → w = .flt .nan)) ∧
    (finites (ws.map Val.num)).length = (finites (vs.map Val.num)).length ∧
    (finites (ws.map Val.num)).sum = 0 ∧
    (s * s * (finites (ms.map Val.num)).length = sumSq (finites (ms.map Val.num)) →
      sumSq (finites (ws.map Val.num)) = (finites (ws.map Val.num)).length)

theorem divLine_finites {ms : List Val} {s : ℚ} (hs : s ≠ 0)
    (h : ∀ m ∈ ms, m = .flt .nan ∨ ∃ q, m = .flt (.fin q)) :
    finites ((ms.map (fun v => Val.flt (v.num.div (.fin s)))).map Val.num) =
      (finites (ms.map Val.num)).map (· / s) := by
  induction ms with
  | nil => rfl
  | cons m ms ih =>
    have := ih fun m hm => h m (List.mem_cons_of_mem _ hm)
    simp only [List.map_cons]
    rcases h m List.mem_cons_self with rfl | ⟨q, rfl⟩
    · have e : (Val.flt ((Val.flt Flt.nan).num.div (.fin s))).num = .nan := rfl
      have e' : (Val.flt Flt.nan).num = .nan := rfl
      rw [e, e', finites_cons_nan, finites_cons_nan, this]
    · have e : (Val.flt ((Val.flt (Flt.fin q)).num.div (.fin s))).num = .fin (q / s) := by
        simp [Val.num, Flt.div, hs]
      have e' : (Val.flt (Flt.fin q)).num = .fin q := rfl
      rw [e, e', finites_cons_fin, finites_cons_fin, this, List.map_cons]

theorem sum_map_div (F : List ℚ) (s : ℚ) : (F.map (· / s)).sum = F.sum / s := by
  induction F with
  | nil => simp
  | cons q F ih => simp only [List.map_cons, List.sum_cons, ih]; ring

theorem sumSq_map_div (F : List ℚ) (s : ℚ) : sumSq (F.map (· / s)) = sumSq F / (s * s) := by
  induction F with
  | nil => simp [sumSq]
  | cons q F ih =>
    simp only [sumSq, List.map_cons, List.sum_cons] at ih ⊢
    rw [ih, add_div, div_mul_div_comm]

theorem zscoreLine_stays (std : List Flt → Flt) (vs : List Val) : StaysNan vs (zscoreLine std vs) := by
  intro i x w hx hw hn
  simp only [zscoreLine, List.getElem?_map] at hw
  obtain ⟨m, hm, rfl⟩ := Option.map_eq_some_iff.mp hw
  rw [demeanLine_stays nanmean vs i x m hx hm hn]
  simp [Val.num, Flt.div]

theorem zscoreLine_spec (std : List Flt → Flt) {vs : List Val} (hinf : NoInf (vs.map Val.num)) :
    ZScored std vs (zscoreLine std vs) := by
  have hd := demeanLine_spec hinf
  refine ⟨by simp [zscoreLine, demeanLine], zscoreLine_stays std vs, demeanLine nanmean vs, hd, fun s hs hs0 => ?_⟩
  have hz : zscoreLine std vs = (demeanLine nanmean vs).map (fun v => Val.flt (v.num.div (.fin s))) := by
    simp only [zscoreLine, hs]
  have hF := divLine_finites hs0 hd.2.2.1
  rw [← hz] at hF
  have hlen : (finites ((demeanLine nanmean vs).map Val.num)).length = (finites (vs.map Val.num)).length := by
    by_cases h : (finites (vs.map Val.num)).length = 0
    · have hnil : finites (vs.map Val.num) = [] := List.length_eq_zero_iff.mp h
      have : finites ((demeanLine nanmean vs).map Val.num) = [] := by
        rw [finites, List.filterMap_eq_nil_iff] at hnil ⊢
        intro f hf
        simp only [demeanLine, List.map_map, List.mem_map, Function.comp_apply] at hf
        obtain ⟨v, hv, rfl⟩ := hf
        have h1 := hnil v.num (List.mem_map_of_mem hv)
        have h2 := hinf v.num (List.mem_map_of_mem hv)
        cases hn : v.num with
        | nan => rfl
        | pinf => exact absurd hn h2.1
        | ninf => exact absurd hn h2.2
        | fin q => simp [hn] at h1
      rw [this, hnil]
    · rw [(demeanLine_fin (center := nanmean) (nanmean_fin hinf h) hinf).2, List.length_map]
  refine ⟨fun i m w hm hw => ?_, ?_, ?_, fun hvar => ?_⟩
  · rw [hz, List.getElem?_map, hm] at hw
    simp only [Option.map_some, Option.some.injEq] at hw
    subst hw
    refine ⟨fun q hq => by simp [hq, Flt.div, hs0], fun hn => by simp [hn, Flt.div]⟩
  · rw [hF, List.length_map, hlen]
  · rw [hF, sum_map_div, hd.2.2.2.1, zero_div]
  · rw [hF, sumSq_map_div, ← hvar, List.length_map]
    field_simp

/-- C52. `zscore(axis)`: along the axis the line is demeaned and divided by its standard deviation; where
that is not zero the result sums to 0 and its mean square is 1. -/
theorem C52_zscore (std : List Flt → Flt) {y : Larry L} (hv : y.Valid) (hd : y.dtype ≠ .str ∧ y.dtype ≠ .object)
    {axis : Int} {ax : Nat} (hax : pyIdx y.ndim axis = some ax) :
    ∃ z, y.zscore std (some axis) = .ok z ∧ z.dtype = .float ∧
      y.AlongLine z ax (fun vs ws => NoInf (vs.map Val.num) → ZScored std vs ws) := by
  obtain ⟨l, hl, _⟩ := label_at hv hax
  have hd' : y.dtype.isNumeric = true := by cases h : y.dtype <;> simp_all [DType.isNumeric]
  exact ⟨y.along (zscoreLine std) .float ax, by simp [zscore, hd', npAxis, hax], rfl,
    alongLine_mapLines hv hl _ _ (fun vs => by simp [zscoreLine, demeanLine]) fun vs hinf => zscoreLine_spec std hinf⟩

/-- C52 for `axis=None`. -/
theorem C52_zscore_all (std : List Flt → Flt) {y : Larry L} (hv : y.Valid)
    (hd : y.dtype ≠ .str ∧ y.dtype ≠ .object) :
    ∃ z, y.zscore std none = .ok z ∧ z.dtype = .float ∧
      y.AlongAllLine z (fun vs ws => NoInf (vs.map Val.num) → ZScored std vs ws) := by
  have hd' : y.dtype.isNumeric = true := by cases h : y.dtype <;> simp_all [DType.isNumeric]
  exact ⟨y.alongAll (zscoreLine std) .float, by simp [zscore, hd'], rfl,
    alongAllLine_spec hv _ _ (fun vs => by simp [zscoreLine, demeanLine]) fun vs hinf => zscoreLine_spec std hinf⟩

/-- C52: refusals. -/
theorem C52_errors (center std : List Flt → Flt) (y : Larry L) :
    (∀ axis, y.dtype = .str → y.demean center axis = .error .typeError ∧ y.zscore std axis = .error .typeError) ∧
    (∀ axis, y.dtype = .float → pyIdx y.ndim axis = none →
      y.demean center (some axis) = .error .valueError ∧ y.zscore std (some axis) = .error .valueError) := by
  refine ⟨fun axis h => by simp [demean, zscore, h, DType.isNumeric], fun axis h hax => ?_⟩
  simp [demean, zscore, h, DType.isNumeric, npAxis, hax]

example : exA.Valid ∧ exA.dtype ≠ .str ∧ exA.dtype ≠ .object ∧ pyIdx exA.ndim 1 = some 1 ∧
    NoInf ([fl 4, .flt .nan, fl 6].map Val.num) ∧
    Demeaned [fl 4, .flt .nan, fl 6] [fl (-1), .flt .nan, fl 1] ∧
    ZScored (fun _ => .fin 1) [fl 4, .flt .nan, fl 6] [fl (-1), .flt .nan, fl 1] ∧
    (1 : ℚ) * 1 * (finites ([fl (-1), .flt .nan, fl 1].map Val.num)).length =
      sumSq (finites ([fl (-1), .flt .nan, fl 1].map Val.num)) ∧ IsMedian [4, 6] 5 := by
  have hi : NoInf ([fl 4, .flt .nan, fl 6].map Val.num) := by simp [NoInf, fl, Val.num]
  refine ⟨exA_valid, by decide, by decide, rfl, hi, ?_, ?_, by decide +kernel, by unfold IsMedian; decide +kernel⟩
  · have h := demeanLine_spec hi
    have e : demeanLine nanmean [fl 4, .flt .nan, fl 6] = [fl (-1), .flt .nan, fl 1] := by decide +kernel
    rwa [e] at h
  · have h := zscoreLine_spec (fun _ => .fin 1) hi
    have e : zscoreLine (fun _ => .fin 1) [fl 4, .flt .nan, fl 6] = [fl (-1), .flt .nan, fl 1] := by decide +kernel
    rwa [e] at h

end La
