import Verif.MethodsFacts
import Verif.Examples

/-!
# Properties C24–C27, C31, C32, C34, C41: methods that rearrange or select by axis
-/

namespace La
open Larry
variable {L : Type _}

/-- The axes an `axis` argument stands for: all of them for `None`; for an integer the axis with that
number, negative numbers counting from the end. -/
def AxesMeant (ndim : Nat) : Option Int → List Nat → Prop
  | none, axes => axes = List.range ndim
  | some a, axes => ∃ k : Nat, axes = [k] ∧ k < ndim ∧ (a = k ∨ a = (k : Int) - ndim)

theorem AxesMeant.forall₂ {ndim : Nat} {axis : Option Int} {axes : List Nat}
    (h : AxesMeant ndim axis axes) :
    List.Forall₂ (fun a k => pyIdx ndim a = some k) (axesOf ndim axis) axes ∧ axes.Nodup := by
  cases axis with
  | none =>
    simp only [AxesMeant] at h
    subst h
    refine ⟨?_, List.nodup_range⟩
    simp only [axesOf, List.forall₂_map_left_iff]
    rw [List.forall₂_same]
    intro k hk
    exact pyIdx_ofNat (by simpa using hk)
  | some a =>
    obtain ⟨k, rfl, hk, ha⟩ := h
    refine ⟨.cons ?_ .nil, by simp⟩
    rw [pyIdx_some]
    omega

theorem AxesMeant.mem_lt {ndim : Nat} {axis : Option Int} {axes : List Nat}
    (h : AxesMeant ndim axis axes) {k : Nat} (hk : k ∈ axes) : k < ndim := by
  cases axis with
  | none => simp only [AxesMeant] at h; subst h; simpa using hk
  | some a => obtain ⟨j, rfl, hj, _⟩ := h; simp at hk; omega

/-! ## C24: sortaxis -/

/-- In increasing order, or decreasing order when `reverse`. -/
def InOrder [LinearOrder L] (reverse : Bool) (l : List L) : Prop :=
  l.Pairwise (fun a b => if reverse then b < a else a < b)

/-- C24. `sortaxis` never fails on an existing axis; the labels of the requested axes are the old ones
in order, other axes keep theirs, every name keeps its value, the dtype is the same. -/
theorem C24_sortaxis [LinearOrder L] {y : Larry L} (hv : y.Valid) (reverse : Bool) {axis : Option Int}
    {axes : List Nat} (hax : AxesMeant y.ndim axis axes) :
    ∃ z, y.sortaxis axis reverse = .ok z ∧ z.Valid ∧ z.dtype = y.dtype ∧
      z.label.length = y.label.length ∧
      (∀ k l l', y.label[k]? = some l → z.label[k]? = some l' →
        (k ∈ axes → l'.Perm l ∧ InOrder reverse l') ∧ (k ∉ axes → l' = l)) ∧
      ∀ names v, z.Has names v ↔ y.Has names v := by
  obtain ⟨hf, hnd⟩ := hax.forall₂
  obtain ⟨z, h1, h2⟩ := sortaxisLoop_spec hv reverse _ axes hf [] y (by simpa using hnd)
    (AxisLoop.init hv _)
  refine ⟨z, h1, h2.part.valid, h2.part.dtype_eq, h2.length, ?_, fun names v =>
    h2.has (sortedLab_perm reverse)⟩
  intro k l l' hl hl'
  rw [h2.labels, hl, Option.map_some, Option.some.injEq] at hl'
  simp only [List.nil_append] at hl'
  have hlnd : l.Nodup := hv.nodup l (List.mem_of_getElem? hl)
  constructor
  · intro hk
    rw [if_pos hk] at hl'
    subst hl'
    refine ⟨sortedLab_perm reverse l, ?_⟩
    have hnd' := ((sortedLab_perm reverse l).nodup_iff).mpr hlnd
    unfold InOrder
    cases reverse with
    | false =>
      simpa [sortedLab] using pySorted_lt hlnd
    | true =>
      have h3 := pySortedRev_pairwise l
      have h4 := pySortedRev_nodup hlnd
      simp only [sortedLab, if_true]
      exact (h3.and h4).imp (fun h => lt_of_le_of_ne h.1 (Ne.symm h.2))
  · intro hk
    rw [if_neg hk] at hl'
    exact hl'.symm

theorem InOrder.unique [LinearOrder L] {reverse : Bool} {l l' : List L} (h : InOrder reverse l)
    (h' : InOrder reverse l') (hp : l.Perm l') : l = l' := by
  unfold InOrder at h h'
  cases reverse with
  | false =>
    simp only [Bool.false_eq_true, if_false] at h h'
    exact eq_of_mem_iff_of_lt h h' (fun a => hp.mem_iff)
  | true =>
    simp only [if_true] at h h'
    exact hp.eq_of_pairwise (fun a b _ _ h1 h2 => absurd (h1.trans h2) (lt_irrefl _)) h h'

/-- C24: sorting twice is sorting once. -/
theorem C24_sortaxis_idempotent [LinearOrder L] {y : Larry L} (hv : y.Valid) (reverse : Bool)
    {axis : Option Int} {axes : List Nat} (hax : AxesMeant y.ndim axis axes) :
    ∃ z w, y.sortaxis axis reverse = .ok z ∧ z.sortaxis axis reverse = .ok w ∧ w.Same z := by
  obtain ⟨z, h1, h2, h3, h4, h5, h6⟩ := C24_sortaxis hv reverse hax
  have hn : z.ndim = y.ndim := by rw [← h2.label_length, ← hv.label_length, h4]
  obtain ⟨w, g1, g2, g3, g4, g5, g6⟩ := C24_sortaxis h2 reverse (hn ▸ hax)
  refine ⟨z, w, h1, g1, g2.same_of_has h2 ?_ g3 (fun names v h => (g6 names v).mp h)⟩
  apply List.ext_getElem?
  intro k
  rcases Nat.lt_or_ge k z.label.length with hk | hk
  · have hkw : k < w.label.length := by omega
    have hky : k < y.label.length := by omega
    have e1 := g5 k _ _ (List.getElem?_eq_getElem hk) (List.getElem?_eq_getElem hkw)
    have e2 := h5 k _ _ (List.getElem?_eq_getElem hky) (List.getElem?_eq_getElem hk)
    rw [List.getElem?_eq_getElem hk, List.getElem?_eq_getElem hkw]
    congr 1
    by_cases hm : k ∈ axes
    · exact (e1.1 hm).2.unique (e2.1 hm).2 (e1.1 hm).1
    · exact e1.2 hm
  · rw [List.getElem?_eq_none hk, List.getElem?_eq_none (by omega)]

/-- C24: an axis that does not exist raises IndexError. -/
theorem C24_sortaxis_axis [LinearOrder L] {y : Larry L} {a : Int} (reverse : Bool)
    (ha : (y.ndim : Int) ≤ a ∨ a < -(y.ndim : Int)) : y.sortaxis (some a) reverse = .error .indexError := by
  have : pyIdx y.shape.length a = none := pyIdx_none.mpr ha
  simp [sortaxis, axesOf, sortaxisLoop, pyGet_error this]

example : exA.Valid ∧ AxesMeant exA.ndim none [0, 1] ∧ AxesMeant exA.ndim (some (-1)) [1] :=
  ⟨exA_valid, rfl, 1, rfl, by decide, .inr (by decide)⟩

/-! ## C25: flipaxis -/

/-- C25. `flipaxis` reverses the labels of the requested axes; every name keeps its value. -/
theorem C25_flipaxis {y : Larry L} (hv : y.Valid) {axis : Option Int}
    {axes : List Nat} (hax : AxesMeant y.ndim axis axes) :
    ∃ z, y.flipaxis axis = .ok z ∧ z.Valid ∧ z.dtype = y.dtype ∧ z.label.length = y.label.length ∧
      (∀ k l l', y.label[k]? = some l → z.label[k]? = some l' →
        (k ∈ axes → l' = l.reverse) ∧ (k ∉ axes → l' = l)) ∧
      ∀ names v, z.Has names v ↔ y.Has names v := by
  obtain ⟨hf, hnd⟩ := hax.forall₂
  obtain ⟨z, h1, h2⟩ := flipaxisLoop_spec hv _ axes hf [] y (by simpa using hnd)
    (AxisLoop.init hv _)
  refine ⟨z, h1, h2.part.valid, h2.part.dtype_eq, h2.length, ?_, fun names v =>
    h2.has List.reverse_perm⟩
  intro k l l' hl hl'
  rw [h2.labels, hl, Option.map_some, Option.some.injEq] at hl'
  simp only [List.nil_append] at hl'
  exact ⟨fun hk => by rw [← hl', if_pos hk], fun hk => by rw [← hl', if_neg hk]⟩

/-- C25: flipping twice restores the larry. -/
theorem C25_flipaxis_involution {y : Larry L} (hv : y.Valid) {axis : Option Int}
    {axes : List Nat} (hax : AxesMeant y.ndim axis axes) :
    ∃ z w, y.flipaxis axis = .ok z ∧ z.flipaxis axis = .ok w ∧ w.Same y := by
  obtain ⟨z, h1, h2, h3, h4, h5, h6⟩ := C25_flipaxis hv hax
  have hn : z.ndim = y.ndim := by rw [← h2.label_length, ← hv.label_length, h4]
  obtain ⟨w, g1, g2, g3, g4, g5, g6⟩ := C25_flipaxis h2 (hn ▸ hax)
  refine ⟨z, w, h1, g1, g2.same_of_has hv ?_ (g3.trans h3) (fun names v h =>
    (h6 names v).mp ((g6 names v).mp h))⟩
  apply List.ext_getElem?
  intro k
  rcases Nat.lt_or_ge k z.label.length with hk | hk
  · have hkw : k < w.label.length := by omega
    have hky : k < y.label.length := by omega
    have e1 := g5 k _ _ (List.getElem?_eq_getElem hk) (List.getElem?_eq_getElem hkw)
    have e2 := h5 k _ _ (List.getElem?_eq_getElem hky) (List.getElem?_eq_getElem hk)
    rw [List.getElem?_eq_getElem hky, List.getElem?_eq_getElem hkw]
    congr 1
    by_cases hm : k ∈ axes
    · rw [e1.1 hm, e2.1 hm, List.reverse_reverse]
    · rw [e1.2 hm, e2.2 hm]
  · rw [List.getElem?_eq_none (by omega : y.label.length ≤ k), List.getElem?_eq_none (by omega)]

/-- C25: an axis that does not exist raises IndexError. -/
theorem C25_flipaxis_axis {y : Larry L} (hv : y.Valid) {a : Int}
    (ha : (y.ndim : Int) ≤ a ∨ a < -(y.ndim : Int)) : y.flipaxis (some a) = .error .indexError := by
  have : pyIdx y.label.length a = none := by rw [hv.label_length]; exact pyIdx_none.mpr ha
  simp [flipaxis, axesOf, flipaxisLoop, this]

example : exC.Valid ∧ AxesMeant exC.ndim (some 2) [2] :=
  ⟨exC_valid, 2, rfl, by decide, .inl (by decide)⟩

/-! ## C26: lag -/

theorem range_map_getElem? {α : Type _} (l : List α) (a m : Nat) (h : a + m ≤ l.length) :
    (List.range' a m).map (fun i => l[i]?) = ((l.drop a).take m).map some := by
  apply List.ext_getElem?
  intro i
  simp only [List.getElem?_map]
  rcases Nat.lt_or_ge i m with hi | hi
  · rw [List.getElem?_range' hi, List.getElem?_take_of_lt hi, List.getElem?_drop]
    have : a + i < l.length := by omega
    simp [this]
  · rw [List.getElem?_eq_none (by simpa using hi), List.getElem?_eq_none]
    · rfl
    · simp only [List.length_take, List.length_drop]; omega

/-- One `lag`: labels `lab`, data from the positions `a, a+1, …`. -/
theorem lag_core {y : Larry L} (hv : y.Valid) {ax a c m : Nat} {l : List L}
    (hl : y.label[ax]? = some l) (ha : a + m ≤ l.length) (hc : c + m ≤ l.length) :
    let z : Larry L := ⟨y.x.gather (List.range' a m) ax, y.dtype,
      y.label.set ax ((l.drop c).take m)⟩
    z.Valid ∧ ∀ (i : Nat) (n n' : L) (names : List L) (v : Val), i < m → l[c + i]? = some n →
      l[a + i]? = some n' → (z.Has (names.set ax n) v ↔ y.Has (names.set ax n') v) := by
  intro z
  have hlnd : l.Nodup := hv.nodup l (List.mem_of_getElem? hl)
  have hax := (List.getElem?_eq_some_iff.mp hl).1
  have hnd : ((l.drop c).take m).Nodup := (hlnd.sublist (List.drop_sublist c l)).sublist
    (List.take_sublist _ _)
  have hzv : z.Valid := by
    refine validLabels_set hv hnd (gather_shape hv.shape_eq ?_)
    simp only [List.length_range', List.length_take, List.length_drop]; omega
  refine ⟨hzv, fun i n n' names v hi hn hn' => ?_⟩
  have hzi : (((l.drop c).take m))[i]? = some n := by
    rw [List.getElem?_take_of_lt hi, List.getElem?_drop]; exact hn
  have key : ∀ idx : List Nat, idx[ax]? = some i → At (y.label.set ax ((l.drop c).take m)) idx (names.set ax n) →
      At y.label (idx.modify ax (fun k => (List.range' a m).getD k 0)) (names.set ax n') := by
    intro idx hidx h
    rw [At_iff] at h ⊢
    simp only [List.length_set, List.length_modify] at h ⊢
    refine ⟨h.1, h.2.1, fun k l' j n0 h1 h2 h3 => ?_⟩
    by_cases hk : k = ax
    · subst hk
      rw [List.getElem?_modify, hidx] at h2
      have : k < names.length := by omega
      rw [List.getElem?_set_self this] at h3
      rw [hl] at h1
      simp only [if_true, Option.map_eq_map, Option.map_some, Option.some.injEq] at h1 h2 h3
      subst h1 h3
      rw [← h2, List.getD, List.getElem?_range' hi]
      simpa using hn'
    · rw [List.getElem?_modify] at h2
      simp only [if_neg (Ne.symm hk)] at h2
      rw [List.getElem?_set_ne (Ne.symm hk)] at h3
      exact h.2.2 k l' j n0 (by rw [List.getElem?_set_ne (Ne.symm hk)]; exact h1) (by simpa using h2)
        (by rw [List.getElem?_set_ne (Ne.symm hk)]; exact h3)
  have hpos : ∀ idx, At (y.label.set ax ((l.drop c).take m)) idx (names.set ax n) →
      idx[ax]? = some i := by
    intro idx h
    rw [At_iff] at h
    simp only [List.length_set] at h
    have hlt : ax < idx.length := by omega
    rw [List.getElem?_eq_getElem hlt]
    congr 1
    have := h.2.2 ax _ _ n (List.getElem?_set_self hax) (List.getElem?_eq_getElem hlt)
      (List.getElem?_set_self (by omega))
    exact nodup_getElem?_inj hnd this hzi
  constructor
  · rintro ⟨idx, hat, rfl⟩
    exact ⟨_, key idx (hpos idx hat) hat, rfl⟩
  · intro h
    have hN : Named z.label (names.set ax n) := by
      have := Named_of_Holds h
      rw [Named_iff_except hl] at this
      have hlen : ax < names.length := by
        obtain ⟨q, hq, _⟩ := this.2
        have := (List.getElem?_eq_some_iff.mp hq).1
        simpa using this
      change Named (y.label.set ax _) _
      rw [Named_set_iff hax]
      refine ⟨?_, n, List.getElem?_set_self hlen, List.mem_of_getElem? hzi⟩
      have e := this.1
      rw [NamedExcept_iff hax] at e ⊢
      simp only [List.length_set] at e ⊢
      refine ⟨e.1, fun k l0 n0 hk h1 h2 => e.2 k l0 n0 hk h1 ?_⟩
      rw [List.getElem?_set_ne (Ne.symm hk)] at h2 ⊢
      exact h2
    obtain ⟨idx, hidx⟩ := At_of_Named hN
    obtain ⟨j, hj, rfl⟩ := h
    refine ⟨idx, hidx, ?_⟩
    have := key idx (hpos idx hidx) hidx
    rw [At_unique hv.nodup hj this]
    rfl

/-- C26. For `nlag > 0` the labels are the last `n - nlag` ones and the label at position `i + nlag`
carries what the label at position `i` carried; for `nlag < 0` the labels are the first `n - |nlag|`
ones and the label at position `i` carries what the one at `i + |nlag|` carried; `nlag = 0` is a copy.
(`l.drop k` is empty when `k ≥ n`.) -/
theorem C26_lag {y : Larry L} (hv : y.Valid) {a : Int} {ax : Nat} {l : List L}
    (hax : pyIdx y.ndim a = some ax) (hl : y.label[ax]? = some l) :
    y.lag 0 (some a) = .ok y ∧
    (∀ k : Nat, 0 < k → ∃ z, y.lag k (some a) = .ok z ∧ z.Valid ∧ z.dtype = y.dtype ∧
      z.label = y.label.set ax (l.drop k) ∧
      ∀ (i : Nat) (n n' : L) (names : List L) (v : Val), l[i + k]? = some n → l[i]? = some n' →
        (z.Has (names.set ax n) v ↔ y.Has (names.set ax n') v)) ∧
    (∀ k : Nat, 0 < k → ∃ z, y.lag (-(k : Int)) (some a) = .ok z ∧ z.Valid ∧ z.dtype = y.dtype ∧
      z.label = y.label.set ax (l.take (l.length - k)) ∧
      ∀ (i : Nat) (n n' : L) (names : List L) (v : Val), l[i]? = some n → l[i + k]? = some n' →
        (z.Has (names.set ax n) v ↔ y.Has (names.set ax n') v)) := by
  have g1 : pyIdx y.label.length a = some ax := by rw [hv.label_length]; exact hax
  have g2 : y.label.getD ax [] = l := by simp [List.getD, hl]
  have hsh : y.x.shape.getD ax 0 = l.length := by rw [hv.shape_eq]; simp [List.getD, hl]
  refine ⟨by simp [lag, copy], fun k hk => ?_, fun k hk => ?_⟩
  · have hk0 : ¬ ((k : Int) = 0) := by omega
    have s : lagSlices (k : Int) = (⟨some (k : Int), none, none⟩, ⟨some 0, some (-(k : Int)), none⟩) := by
      unfold lagSlices; rw [if_pos (by omega)]
    have g3 : pySliceList l ⟨some (k : Int), none, none⟩ = .ok (l.drop k) := by
      rw [pySliceList_ok]
      refine ⟨_, sliceIndices_from _ k, ?_⟩
      rw [range_map_getElem? _ _ _ (by omega)]
      congr 1
      rcases Nat.le_total k l.length with h | h
      · rw [Nat.min_eq_left h, List.take_of_length_le (by simp)]
      · rw [Nat.min_eq_right h, List.drop_of_length_le h, List.drop_of_length_le (le_refl _)]; simp
    have g4 : y.x.sliceAx ⟨some 0, some (-(k : Int)), none⟩ ax =
        .ok (y.x.gather (List.range' 0 (l.length - k)) ax) := by
      have e : sliceIndices (y.x.shape.getD ax 0) ⟨some 0, some (-(k : Int)), none⟩ =
          .ok (List.range' 0 (l.length - k)) := by
        rw [hsh, ← List.range_eq_range']; exact sliceIndices_dropLast _ _ hk
      simp only [NDArray.sliceAx, e]
    refine ⟨⟨y.x.gather (List.range' 0 (l.length - k)) ax, y.dtype, y.label.set ax (l.drop k)⟩,
      ?_, ?_⟩
    · simp only [lag, if_neg hk0, g1, g2, s, g3, g4]
    · have hdrop : (l.drop (min k l.length)).take (l.length - k) = l.drop k := by
        rcases Nat.le_total k l.length with h | h
        · rw [Nat.min_eq_left h, List.take_of_length_le (by simp)]
        · rw [Nat.min_eq_right h, List.drop_of_length_le h, List.drop_of_length_le (le_refl _)]; simp
      have := lag_core hv (a := 0) (c := min k l.length) (m := l.length - k) hl (by omega) (by omega)
      rw [hdrop] at this
      refine ⟨this.1, rfl, rfl, fun i n n' names v hn hn' => ?_⟩
      have hlt := (List.getElem?_eq_some_iff.mp hn).1
      refine this.2 i n n' names v (by omega) ?_ (by simpa using hn')
      rw [Nat.min_eq_left (by omega), Nat.add_comm]; exact hn
  · have hk0 : ¬ (-(k : Int) = 0) := by omega
    have s : lagSlices (-(k : Int)) = (⟨none, some (-(k : Int)), none⟩, ⟨some (k : Int), none, none⟩) := by
      unfold lagSlices; rw [if_neg (by omega)]; simp
    have g3 : pySliceList l ⟨none, some (-(k : Int)), none⟩ = .ok (l.take (l.length - k)) := by
      rw [pySliceList_ok]
      refine ⟨_, sliceIndices_dropLast' _ k hk, ?_⟩
      rw [List.range_eq_range', range_map_getElem? _ _ _ (by omega)]
      simp
    have g4 : y.x.sliceAx ⟨some (k : Int), none, none⟩ ax =
        .ok (y.x.gather (List.range' (min k l.length) (l.length - k)) ax) := by
      have e : sliceIndices (y.x.shape.getD ax 0) ⟨some (k : Int), none, none⟩ =
          .ok (List.range' (min k l.length) (l.length - k)) := by
        rw [hsh]; exact sliceIndices_from _ _
      simp only [NDArray.sliceAx, e]
    refine ⟨⟨y.x.gather (List.range' (min k l.length) (l.length - k)) ax, y.dtype,
      y.label.set ax (l.take (l.length - k))⟩, ?_, ?_⟩
    · simp only [lag, if_neg hk0, g1, g2, s, g3, g4]
    · have := lag_core hv (a := min k l.length) (c := 0) (m := l.length - k) hl (by omega) (by omega)
      rw [List.drop_zero] at this
      refine ⟨this.1, rfl, rfl, fun i n n' names v hn hn' => ?_⟩
      have hlt := (List.getElem?_eq_some_iff.mp hn').1
      refine this.2 i n n' names v (by omega) (by simpa using hn) ?_
      rw [Nat.min_eq_left (by omega), Nat.add_comm]; exact hn'

/-- C26: IndexError for `axis=None`, and for an axis that does not exist unless `nlag` is 0. -/
theorem C26_lag_axis {y : Larry L} (hv : y.Valid) (k : Int) :
    y.lag k none = .error .indexError ∧
    ∀ a : Int, k ≠ 0 → ((y.ndim : Int) ≤ a ∨ a < -(y.ndim : Int)) →
      y.lag k (some a) = .error .indexError := by
  refine ⟨rfl, fun a hk ha => ?_⟩
  have : pyIdx y.label.length a = none := by rw [hv.label_length]; exact pyIdx_none.mpr ha
  simp [lag, hk, this]

example : exA.Valid ∧ pyIdx exA.ndim (-1) = some 1 ∧ exA.label[1]? = some [3, 1, 2] :=
  ⟨exA_valid, by decide, by decide⟩

/-! ## C27: T and swapaxes -/

/-- C27. Transposing reverses the order of the axes: the cell under the reversed names holds the same
value. -/
theorem C27_transpose {y : Larry L} (hv : y.Valid) :
    y.T.Valid ∧ y.T.dtype = y.dtype ∧ y.T.label = y.label.reverse ∧
    (∀ names v, y.T.Has names.reverse v ↔ y.Has names v) ∧ y.T.T.Same y := by
  refine ⟨⟨?_, ?_, ?_⟩, rfl, rfl, ?_, ?_⟩
  · simp [T, NDArray.transpose, hv.shape_eq]
  · intro l hl
    exact hv.nodup l (by simpa [T] using hl)
  · simpa [T] using hv.ndim_pos
  · intro names v
    constructor
    · rintro ⟨idx, hat, rfl⟩
      refine ⟨idx.reverse, ?_, rfl⟩
      have : At y.label.reverse idx.reverse.reverse names.reverse := by simpa [T] using hat
      exact At_reverse.mp this
    · rintro ⟨idx, hat, rfl⟩
      exact ⟨idx.reverse, At_reverse.mpr hat, by simp [T, NDArray.transpose]⟩
  · refine ⟨by simp [T], rfl, by simp [T, NDArray.transpose], fun idx _ => by simp [T, NDArray.transpose]⟩

/-- `names'` is `names` with the entries `i` and `j` exchanged. -/
def Exchanged (i j : Nat) (names names' : List L) : Prop :=
  names'.length = names.length ∧ names'[i]? = names[j]? ∧ names'[j]? = names[i]? ∧
    ∀ k, k ≠ i → k ≠ j → names'[k]? = names[k]?

theorem exchanged_iff {α : Type _} {i j : Nat} {l l' : List α} (hi : i < l.length) (hj : j < l.length) :
    Exchanged i j l l' ↔ l' = swapList l i j := by
  constructor
  · rintro ⟨_, h2, h3, h4⟩
    apply List.ext_getElem?
    intro k
    rw [swapList_getElem? hi hj]
    split
    · subst_vars; exact h2
    · split
      · subst_vars; exact h3
      · exact h4 k (by assumption) (by assumption)
  · rintro rfl
    refine ⟨swapList_length _ _ _, ?_, ?_, ?_⟩
    · rw [swapList_getElem? hi hj, if_pos rfl]
    · rw [swapList_getElem? hi hj]
      by_cases h : j = i
      · rw [if_pos h, h]
      · rw [if_neg h, if_pos rfl]
    · intro k h1 h2
      rw [swapList_getElem? hi hj, if_neg h1, if_neg h2]

/-- C27. `swapaxes(a, b)` exchanges the two label lists; the cell under the names with those two
exchanged holds the same value; swapping again restores the larry. -/
theorem C27_swapaxes {y : Larry L} (hv : y.Valid) {a b : Int} {i j : Nat}
    (ha : pyIdx y.ndim a = some i) (hb : pyIdx y.ndim b = some j) :
    ∃ z, y.swapaxes a b = .ok z ∧ z.Valid ∧ z.dtype = y.dtype ∧ Exchanged i j y.label z.label ∧
      (∀ names names' v, Exchanged i j names names' → names.length = y.ndim →
        (z.Has names' v ↔ y.Has names v)) ∧
      ∃ w, z.swapaxes a b = .ok w ∧ w.Same y := by
  have hl := hv.label_length
  have hi : i < y.label.length := by rw [hl]; exact pyIdx_lt ha
  have hj : j < y.label.length := by rw [hl]; exact pyIdx_lt hb
  have e1 : y.swapaxes a b = .ok ⟨y.x.swapaxes i j, y.dtype, swapList y.label i j⟩ := by
    simp [swapaxes, hl, ha, hb]
  have hzv : Valid (⟨y.x.swapaxes i j, y.dtype, swapList y.label i j⟩ : Larry L) := by
    refine ⟨?_, ?_, ?_⟩
    · simp [NDArray.swapaxes, hv.shape_eq, swapList_map]
    · intro l h; exact hv.nodup l (swapList_mem hi hj h)
    · intro h
      have := congrArg List.length h
      simp only [swapList_length, List.length_nil] at this
      omega
  refine ⟨_, e1, hzv, rfl, (exchanged_iff hi hj).mpr rfl, ?_, ?_⟩
  · intro names names' v hex hlen
    have hin : i < names.length := by omega
    have hjn : j < names.length := by omega
    rw [exchanged_iff hin hjn] at hex
    subst hex
    constructor
    · rintro ⟨idx, hat, rfl⟩
      refine ⟨swapList idx i j, ?_, rfl⟩
      have := At_swap (i := i) (j := j) (by simpa [swapList_length] using hi)
        (by simpa [swapList_length] using hj) hat
      rwa [swapList_swapList hi hj, swapList_swapList hin hjn] at this
    · rintro ⟨idx, hat, rfl⟩
      refine ⟨swapList idx i j, At_swap hi hj hat, ?_⟩
      have h1 := (At_length hat).1
      simp only [NDArray.swapaxes]
      rw [swapList_swapList (by omega) (by omega)]
  · refine ⟨⟨(y.x.swapaxes i j).swapaxes i j, y.dtype, swapList (swapList y.label i j) i j⟩, ?_, ?_⟩
    · simp [swapaxes, swapList_length, hl, ha, hb]
    · have hsi : i < y.x.shape.length := pyIdx_lt ha
      have hsj : j < y.x.shape.length := pyIdx_lt hb
      refine ⟨swapList_swapList hi hj, rfl, ?_, fun idx hidx => ?_⟩
      · exact swapList_swapList hsi hsj
      · have h1 := InB_length hidx
        simp only [NDArray.swapaxes, swapList_length] at h1 ⊢
        rw [swapList_swapList (by omega) (by omega)]

/-- C27: a missing axis raises IndexError. -/
theorem C27_swapaxes_axis {y : Larry L} (hv : y.Valid) {a b : Int}
    (h : pyIdx y.ndim a = none ∨ pyIdx y.ndim b = none) : y.swapaxes a b = .error .indexError := by
  simp only [swapaxes, hv.label_length]
  rcases h with h | h
  · simp [h]
  · rw [h]; cases pyIdx y.ndim a <;> rfl

example : exC.Valid ∧ pyIdx exC.ndim 0 = some 0 ∧ pyIdx exC.ndim (-1) = some 2 ∧
    Exchanged 0 2 [1, 5, 9] [9, 5, 1] := by
  refine ⟨exC_valid, by decide, by decide, rfl, rfl, rfl, ?_⟩
  intro k h0 h2
  match k with
  | 0 => exact absurd rfl h0
  | 1 => rfl
  | 2 => exact absurd rfl h2
  | n + 3 => rfl

end La
