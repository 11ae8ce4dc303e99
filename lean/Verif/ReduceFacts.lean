import Verif.Reduce
import Verif.MethodsFacts
import Verif.Ravel

/-! # Facts about lines, reductions and grids -/

namespace La
variable {L α β : Type _}

/-! ## Enumeration of multi-indices -/

theorem mem_allIdx {s idx : List Nat} : idx ∈ allIdx s ↔ InB s idx := by
  induction s generalizing idx with
  | nil => cases idx <;> simp [allIdx, InB]
  | cons n ns ih =>
    cases idx with
    | nil => simp [allIdx, InB]
    | cons i is =>
      simp only [allIdx, List.mem_flatMap, List.mem_range, List.mem_map, List.cons.injEq, InB]
      constructor
      · rintro ⟨a, ha, b, hb, rfl, rfl⟩; exact ⟨ha, ih.mp hb⟩
      · rintro ⟨ha, hb⟩; exact ⟨i, ha, is, ih.mpr hb, rfl, rfl⟩

theorem nodup_allIdx (s : List Nat) : (allIdx s).Nodup := by
  induction s with
  | nil => simp [allIdx]
  | cons n ns ih =>
    simp only [allIdx]
    rw [List.nodup_flatMap]
    refine ⟨fun i _ => ih.map (fun a b h => by simpa using h), ?_⟩
    rw [List.pairwise_iff_getElem]
    intro i j hi hj hij
    simp only [List.getElem_range, Function.onFun, List.disjoint_left, List.mem_map, not_exists,
      not_and]
    rintro a ⟨b, _, rfl⟩ c _ h
    simp only [List.cons.injEq] at h
    omega

theorem length_allIdx (s : List Nat) : (allIdx s).length = s.prod := by
  induction s with
  | nil => rfl
  | cons n ns ih => simp [allIdx, List.length_flatMap, ih]

/-- The multi-index `idx` stands at its row-major position. -/
theorem allIdx_getElem? {s idx : List Nat} (h : InB s idx) :
    (allIdx s)[rowMajor s idx]? = some idx := by
  induction s generalizing idx with
  | nil => cases idx <;> simp_all [allIdx, InB, rowMajor]
  | cons n ns ih =>
    cases idx with
    | nil => simp [InB] at h
    | cons i is =>
      simp only [InB] at h
      have hlt := rowMajor_lt h.2
      simp only [allIdx, rowMajor]
      have : ∀ (k m : Nat), i < m → ((List.range' k m).flatMap (fun i => (allIdx ns).map (i :: ·)))[i *
          ns.prod + rowMajor ns is]? = some ((k + i) :: is) := by
        intro k m
        have h2 := h.2
        clear h
        induction i generalizing k m with
        | zero =>
          intro hm
          obtain ⟨m, rfl⟩ : ∃ m', m = m' + 1 := ⟨m - 1, by omega⟩
          simp only [List.range'_succ, List.flatMap_cons, Nat.zero_mul, Nat.zero_add, Nat.add_zero]
          rw [List.getElem?_append_left (by simpa [length_allIdx] using hlt), List.getElem?_map, ih h2]
          rfl
        | succ i ihi =>
          intro hm
          obtain ⟨m, rfl⟩ : ∃ m', m = m' + 1 := ⟨m - 1, by omega⟩
          simp only [List.range'_succ, List.flatMap_cons]
          rw [List.getElem?_append_right (by simp [length_allIdx, Nat.add_mul]; omega)]
          have e : (i + 1) * ns.prod + rowMajor ns is - ((allIdx ns).map (k :: ·)).length =
              i * ns.prod + rowMajor ns is := by
            simp [length_allIdx, Nat.add_mul]; omega
          rw [e, ihi (k + 1) m (by omega)]
          congr 2; omega
      have := this 0 n h.1
      rw [← List.range_eq_range'] at this
      simpa using this

theorem allIdx_snoc (s : List Nat) (n : Nat) :
    allIdx (s ++ [n]) = (allIdx s).flatMap (fun t => (List.range n).map (fun i => t ++ [i])) := by
  induction s with
  | nil =>
    simp only [List.nil_append, allIdx, List.map_cons, List.map_nil, List.flatMap_cons,
      List.flatMap_nil, List.append_nil]
    rw [List.map_eq_flatMap]
  | cons m s ih =>
    simp only [List.cons_append, allIdx, ih, List.map_flatMap, List.flatMap_assoc, List.map_map,
      List.flatMap_map]
    rfl

/-! ## Repeated reduction of the last axis -/

theorem line_last (a : NDArray α) {s : List Nat} {n : Nat} (hs : a.shape = s ++ [n]) {t : List Nat}
    (ht : t.length = s.length) :
    a.line (a.ndim - 1) t = (List.range n).map (fun i => a.get (t ++ [i])) := by
  have h1 : a.ndim - 1 = s.length := by simp [NDArray.ndim, hs]
  have h2 : a.shape.getD (a.ndim - 1) 0 = n := by simp [h1, hs, List.getD]
  unfold NDArray.line
  rw [h2]
  refine List.map_congr_left fun i _ => ?_
  rw [h1, ← ht]
  congr 1
  induction t with
  | nil => rfl
  | cons b t ih => simp [List.insertIdx_length_self]

theorem reduceLastN_get (f : List α → α) (hcat : ∀ ls : List (List α), f (ls.map f) = f ls.flatten)
    (hone : ∀ a, f [a] = a) (k : Nat) (a : NDArray α) {s t : List Nat} (hs : a.shape = s ++ t)
    (ht : t.length = k) {idx : List Nat} (hi : idx.length = s.length) :
    (NDArray.reduceLastN f k a).get idx = f ((allIdx t).map (fun j => a.get (idx ++ j))) ∧
      (NDArray.reduceLastN f k a).shape = s := by
  induction k generalizing a t with
  | zero =>
    have : t = [] := List.length_eq_zero_iff.mp ht
    subst this
    simp [NDArray.reduceLastN, allIdx, hone, hs]
  | succ k ih =>
    obtain ⟨t, n, rfl⟩ : ∃ t' n, t = t' ++ [n] := by
      refine ⟨t.dropLast, t.getLast (by intro h; simp [h] at ht), (List.dropLast_append_getLast _).symm⟩
    have ht' : t.length = k := by simpa using ht
    have hs' : a.shape = (s ++ t) ++ [n] := by rw [hs, List.append_assoc]
    have hsh : (a.reduceLast f).shape = s ++ t := by
      simp only [NDArray.reduceLast, NDArray.reduceAx, NDArray.ndim, hs']
      simp [List.eraseIdx_append_of_length_le]
    obtain ⟨h1, h2⟩ := ih (a.reduceLast f) hsh ht'
    simp only [NDArray.reduceLastN]
    refine ⟨?_, h2⟩
    rw [h1, allIdx_snoc]
    have : (allIdx t).map (fun j => (a.reduceLast f).get (idx ++ j)) =
        ((allIdx t).map (fun j => (List.range n).map (fun i => a.get (idx ++ (j ++ [i]))))).map f := by
      rw [List.map_map]
      refine List.map_congr_left fun j hj => ?_
      have hjl := InB_length (mem_allIdx.mp hj)
      simp only [NDArray.reduceLast, NDArray.reduceAx, Function.comp]
      rw [line_last a hs' (by simp [hi, hjl])]
      simp only [List.append_assoc]
    rw [this, hcat, List.map_flatMap]
    congr 1
    rw [List.flatMap_def]
    simp only [List.map_map, Function.comp_def]

theorem any_flatten (ls : List (List Bool)) : (ls.map (fun l => l.any id)).any id = ls.flatten.any id := by
  induction ls with
  | nil => rfl
  | cons l ls ih =>
    rw [List.map_cons, List.any_cons, ih, List.flatten_cons, List.any_append]; rfl

theorem sum_flatten' (ls : List (List ℚ)) : (ls.map List.sum).sum = ls.flatten.sum := by
  induction ls with
  | nil => rfl
  | cons l ls ih => rw [List.map_cons, List.sum_cons, ih, List.flatten_cons, List.sum_append]

/-! ## Lines -/

/-- `vs` are the values of `y` along axis `ax`, in the order of the labels of that axis, the other
labels being `rest`. -/
def Larry.LineAt (y : Larry L) (ax : Nat) (rest : List L) (vs : List Val) : Prop :=
  ∃ l, y.label[ax]? = some l ∧ vs.length = l.length ∧
    ∀ (i : Nat) b w, l[i]? = some b → vs[i]? = some w → y.Has (rest.insertIdx ax b) w

theorem eraseIdx_insertIdx_label {label : List (List L)} {ax : Nat} {l : List L}
    (hl : label[ax]? = some l) : (label.eraseIdx ax).insertIdx ax l = label ∧
      (label.eraseIdx ax).length + 1 = label.length := by
  obtain ⟨hax, h⟩ := List.getElem?_eq_some_iff.mp hl
  refine ⟨by rw [← h]; exact List.insertIdx_eraseIdx_getElem hax, ?_⟩
  rw [List.length_eraseIdx_of_lt hax]; omega

theorem line_at {y : Larry L} (hv : y.Valid) {ax : Nat} {l : List L} (hl : y.label[ax]? = some l)
    {ridx : List Nat} {rest : List L} (h : At (y.label.eraseIdx ax) ridx rest) :
    y.LineAt ax rest (y.x.line ax ridx) := by
  obtain ⟨e1, e2⟩ := eraseIdx_insertIdx_label hl
  have hsh : y.x.shape.getD ax 0 = l.length := by
    rw [hv.shape_eq]; simp [List.getD, hl]
  refine ⟨l, hl, by simp only [NDArray.line, hsh, List.length_map, List.length_range], fun i b w hb hw => ?_⟩
  have hil := (List.getElem?_eq_some_iff.mp hb).1
  simp only [NDArray.line, hsh, List.getElem?_map, List.getElem?_range hil, Option.map_some,
    Option.some.injEq] at hw
  obtain ⟨h1, h2⟩ := At_length h
  refine ⟨ridx.insertIdx ax i, ?_, hw⟩
  rw [← e1, At_insertIdx (by
    have := (List.getElem?_eq_some_iff.mp hl).1; omega) h1 h2]
  exact ⟨h, hb⟩

theorem Larry.LineAt.unique {y : Larry L} (hv : y.Valid) {ax : Nat} {rest : List L} {vs vs' : List Val}
    (h : y.LineAt ax rest vs) (h' : y.LineAt ax rest vs') : vs = vs' := by
  obtain ⟨l, hl, hlen, hh⟩ := h
  obtain ⟨l', hl', hlen', hh'⟩ := h'
  rw [hl] at hl'
  simp only [Option.some.injEq] at hl'
  subst hl'
  refine List.ext_getElem (by omega) fun i h1 h2 => ?_
  exact Holds_unique hv.nodup (hh i _ _ (List.getElem?_eq_getElem (by omega)) (List.getElem?_eq_getElem h1))
    (hh' i _ _ (List.getElem?_eq_getElem (by omega)) (List.getElem?_eq_getElem h2))

theorem validLabels_erase {label : List (List L)} {shape : List Nat} {ax : Nat}
    (hv : ValidLabels label shape) (hax : ax < label.length) (h2 : 2 ≤ label.length) :
    ValidLabels (label.eraseIdx ax) (shape.eraseIdx ax) := by
  refine ⟨?_, fun l hl => hv.nodup l (List.mem_of_mem_eraseIdx hl), ?_⟩
  · rw [hv.shape_eq]; simp [List.eraseIdx_map]
  · intro h
    have := congrArg List.length h
    rw [List.length_eraseIdx_of_lt hax] at this
    simp at this; omega

/-- What a reduction along one axis leaves under the remaining names. -/
theorem holds_reduceAx {y : Larry L} (hv : y.Valid) {ax : Nat} {l : List L} (hl : y.label[ax]? = some l)
    (f : List Val → β) (rest : List L) (v : β) :
    Holds (y.label.eraseIdx ax) (y.x.reduceAx f ax) rest v ↔
      Named (y.label.eraseIdx ax) rest ∧ ∃ vs, y.LineAt ax rest vs ∧ v = f vs := by
  constructor
  · rintro ⟨ridx, hat, rfl⟩
    exact ⟨Named_of_At hat, _, line_at hv hl hat, rfl⟩
  · rintro ⟨hN, vs, hline, rfl⟩
    obtain ⟨ridx, hat⟩ := At_of_Named hN
    refine ⟨ridx, hat, ?_⟩
    change f (y.x.line ax ridx) = _
    rw [Larry.LineAt.unique hv (line_at hv hl hat) hline]

/-- What a function along one axis leaves in each cell. -/
theorem holds_mapLines {y : Larry L} (hv : y.Valid) {ax : Nat} {l : List L} (hl : y.label[ax]? = some l)
    (f : List Val → List β) (dflt : β) (hf : ∀ vs, (f vs).length = vs.length) (names : List L) (v : β) :
    Holds y.label (y.x.mapLines f dflt ax) names v ↔
      ∃ (vs : List Val) (i : Nat) (b : L), y.LineAt ax (names.eraseIdx ax) vs ∧ Named y.label names ∧ names[ax]? = some b ∧
        l[i]? = some b ∧ (f vs)[i]? = some v := by
  obtain ⟨e1, e2⟩ := eraseIdx_insertIdx_label hl
  have hax := (List.getElem?_eq_some_iff.mp hl).1
  have hsh : y.x.shape.getD ax 0 = l.length := by rw [hv.shape_eq]; simp [List.getD, hl]
  have key : ∀ idx, At y.label idx names → ∃ i b, names[ax]? = some b ∧ idx.getD ax 0 = i ∧
      l[i]? = some b ∧ At (y.label.eraseIdx ax) (idx.eraseIdx ax) (names.eraseIdx ax) := by
    intro idx hat
    obtain ⟨h1, h2⟩ := At_length hat
    obtain ⟨i, idx', hi, hi', hi''⟩ := exists_insertIdx (l := idx) (k := ax) (by omega)
    obtain ⟨b, names', hb, hb', hb''⟩ := exists_insertIdx (l := names) (k := ax) (by omega)
    rw [hi, hb, ← e1, At_insertIdx (by omega)
      (by rw [hi', List.length_eraseIdx_of_lt (by omega)]; omega)
      (by rw [hb', List.length_eraseIdx_of_lt (by omega)]; omega)] at hat
    refine ⟨i, b, hb'', by simp [List.getD, hi''], hat.2, ?_⟩
    rw [← hi', ← hb']
    exact hat.1
  constructor
  · rintro ⟨idx, hat, rfl⟩
    obtain ⟨i, b, h1, h2, h3, h4⟩ := key idx hat
    refine ⟨_, i, b, line_at hv hl h4, Named_of_At hat, h1, h3, ?_⟩
    simp only [NDArray.mapLines, h2]
    have hil := (List.getElem?_eq_some_iff.mp h3).1
    have : i < (f (y.x.line ax (idx.eraseIdx ax))).length := by
      rw [hf]; simp only [NDArray.line, hsh, List.length_map, List.length_range]; exact hil
    simp [List.getD, List.getElem?_eq_getElem this]
  · rintro ⟨vs, i, b, hline, hN, hb, hi, hv'⟩
    obtain ⟨idx, hat⟩ := At_of_Named hN
    obtain ⟨i', b', h1, h2, h3, h4⟩ := key idx hat
    rw [h1] at hb
    simp only [Option.some.injEq] at hb
    subst hb
    have hii : i' = i := nodup_getElem?_inj (hv.nodup l (List.mem_of_getElem? hl)) h3 hi
    subst hii
    refine ⟨idx, hat, ?_⟩
    simp only [NDArray.mapLines, h2, Larry.LineAt.unique hv (line_at hv hl h4) hline]
    simp [List.getD, hv']

/-! ## Grids -/

/-- The labels at the positions `ids`, axis by axis. -/
def pickAll (label : List (List L)) (ids : List (List Nat)) : List (List L) :=
  List.zipWith (fun l is => is.filterMap (fun i => l[i]?)) label ids

theorem At_pickAll {label : List (List L)} {ids : List (List Nat)}
    (h : List.Forall₂ (fun l is => ∀ i ∈ is, i < l.length) label ids) {idx : List Nat} {names : List L} :
    At (pickAll label ids) idx names ↔ InB (ids.map List.length) idx ∧
      At label (List.zipWith (fun l i => l.getD i 0) ids idx) names := by
  induction h generalizing idx names with
  | nil =>
    cases idx <;> cases names <;> simp [pickAll, At, InB]
  | @cons l is ls iss h0 _ ih =>
    cases idx with
    | nil => cases names <;> simp [pickAll, At, InB]
    | cons i idx =>
      cases names with
      | nil => simp [pickAll, At]
      | cons n ns =>
        have hp : pickAll (l :: ls) (is :: iss) = is.filterMap (fun i => l[i]?) :: pickAll ls iss := rfl
        have hmap := filterMap_getElem? h0
        have hlen : (is.filterMap (fun i => l[i]?)).length = is.length := by
          have := congrArg List.length hmap; simpa using this.symm
        have hget : ∀ k, k < is.length → (is.filterMap (fun i => l[i]?))[k]? = l[is.getD k 0]? := by
          intro k hk
          have : (is.map (fun i => l[i]?))[k]? = ((is.filterMap (fun i => l[i]?)).map some)[k]? := by
            rw [hmap]
          rw [List.getElem?_map, List.getElem?_map, List.getElem?_eq_getElem hk,
            List.getElem?_eq_getElem (by omega : k < (is.filterMap (fun i => l[i]?)).length)] at this
          simp only [Option.map_some, Option.some.injEq] at this
          rw [List.getElem?_eq_getElem (by omega : k < (is.filterMap (fun i => l[i]?)).length), ← this]
          simp [List.getD, List.getElem?_eq_getElem hk]
        rw [hp]
        simp only [At, List.map_cons, InB, List.zipWith_cons_cons, ih]
        constructor
        · rintro ⟨h1, h2, h3⟩
          have hk : i < is.length := by rw [← hlen]; exact (List.getElem?_eq_some_iff.mp h1).1
          exact ⟨⟨hk, h2⟩, by rw [← hget i hk]; exact h1, h3⟩
        · rintro ⟨⟨hk, h2⟩, h1, h3⟩
          exact ⟨by rw [hget i hk]; exact h1, h2, h3⟩

theorem pickAll_lengths {label : List (List L)} {ids : List (List Nat)}
    (h : List.Forall₂ (fun l is => ∀ i ∈ is, i < l.length) label ids) :
    ids.map List.length = (pickAll label ids).map List.length := by
  induction h with
  | nil => rfl
  | @cons l is ls iss h0 _ ih =>
    have hp : pickAll (l :: ls) (is :: iss) = is.filterMap (fun i => l[i]?) :: pickAll ls iss := rfl
    have := congrArg List.length (filterMap_getElem? h0)
    simp only [List.length_map] at this
    rw [hp, List.map_cons, List.map_cons, ih, this]

theorem pickAll_getElem? {label : List (List L)} {ids : List (List Nat)} {k : Nat} {l' : List L}
    (h : (pickAll label ids)[k]? = some l') :
    ∃ l is, label[k]? = some l ∧ ids[k]? = some is ∧ l' = is.filterMap (fun i => l[i]?) := by
  rw [pickAll, List.getElem?_zipWith] at h
  cases h1 : label[k]? with
  | none => simp [h1] at h
  | some l => cases h2 : ids[k]? with
    | none => simp [h1, h2] at h
    | some is =>
      simp only [h1, h2, Option.some.injEq] at h
      exact ⟨l, is, rfl, rfl, h.symm⟩

theorem Larry.partOf_grid {y : Larry L} (hv : y.Valid) {ids : List (List Nat)}
    (h : List.Forall₂ (fun l is => ∀ i ∈ is, i < l.length) y.label ids) (hnd : ∀ is ∈ ids, is.Nodup) :
    Larry.PartOf ⟨y.x.grid ids, y.dtype, pickAll y.label ids⟩ y (pickAll y.label ids) := by
  have hval : ValidLabels (pickAll y.label ids) (ids.map List.length) := by
    refine ⟨pickAll_lengths h, fun l' hl' => ?_, ?_⟩
    · obtain ⟨k, hk⟩ := List.mem_iff_getElem?.mp hl'
      obtain ⟨l, is, h1, h2, rfl⟩ := pickAll_getElem? hk
      have hr : ∀ i ∈ is, i < l.length := by
        have := (List.forall₂_iff_get.mp h).2 k (List.getElem?_eq_some_iff.mp h1).1
          (List.getElem?_eq_some_iff.mp h2).1
        obtain ⟨a1, a2⟩ := List.getElem?_eq_some_iff.mp h1
        obtain ⟨b1, b2⟩ := List.getElem?_eq_some_iff.mp h2
        simp only [List.get_eq_getElem, a2, b2] at this
        exact this
      exact nodup_of_positions (hv.nodup l (List.mem_of_getElem? h1)) (filterMap_getElem? hr)
        (hnd is (List.mem_of_getElem? h2))
    · intro h0
      have h1 := congrArg List.length h0
      have h2 := h.length_eq
      simp only [pickAll, List.length_zipWith, List.length_nil] at h1
      have := hv.ndim_pos
      have h3 : y.label.length ≠ 0 := by simpa using this
      omega
  refine ⟨rfl, hval, rfl, fun names v => ?_⟩
  constructor
  · rintro ⟨idx, hat, rfl⟩
    exact ⟨Named_of_At hat, _, ((At_pickAll h).mp hat).2, rfl⟩
  · rintro ⟨hN, idx, hat, rfl⟩
    obtain ⟨idx', hat'⟩ := At_of_Named hN
    have := (At_pickAll h).mp hat'
    refine ⟨idx', hat', ?_⟩
    change y.x.get _ = _
    rw [At_unique hv.nodup this.2 hat]

end La
