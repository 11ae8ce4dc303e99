import Verif.FlattenFacts
import Verif.Props.Labels
import Verif.Props.Core

/-!
# Properties C28–C30: flatten, conversions to and from lists of labelled values, panel
-/

namespace La
open Larry
variable {L : Type _}

/-! ## C28: flatten -/

/-- C28. `flatten(order)` is a well-formed 1d larry with one cell per cell of `y`; the cell labelled by
the tuple `t` holds what `y` holds under the names `t`; positions follow the row-major (order 'C') or
column-major (order 'F') enumeration of `y`; any other order raises ValueError. -/
theorem C28_flatten {y : Larry L} (hv : y.Valid) (order : String) :
    ((order = "C" ∨ order = "F") → ∃ z ts, y.flatten order = .ok z ∧ z.Valid ∧ z.dtype = y.dtype ∧
      z.label = [ts] ∧ ts.length = y.shape.prod ∧
      (∀ t v, z.Has [t] v ↔ y.Has t v) ∧
      (∀ idx t, At y.label idx t →
        ts[if order = "C" then rowMajor y.shape idx else colMajor y.shape idx]? = some t)) ∧
    (order ≠ "C" → order ≠ "F" → y.flatten order = .error .valueError) := by
  have hs : y.shape = y.label.map List.length := hv.shape_eq
  have hsize : y.x.size = (y.label.map List.length).prod := by rw [← hs]; rfl
  have core : ∀ ts : List (List L), flattenlabel y.label order = .ok [ts] →
      ∀ pos : List Nat → Nat, (∀ idx, InB y.shape idx → (y.x.flatten order).get [pos idx] = y.x.get idx) →
      (∀ idx idx', InB y.shape idx → InB y.shape idx' → pos idx = pos idx' → idx = idx') →
      ts.length = (y.label.map List.length).prod →
      (∀ (p : Nat) names, ts[p]? = some names ↔ ∃ idx, At y.label idx names ∧ pos idx = p) →
      ∃ z ts, y.flatten order = .ok z ∧ z.Valid ∧ z.dtype = y.dtype ∧
      z.label = [ts] ∧ ts.length = y.shape.prod ∧ (∀ t v, z.Has [t] v ↔ y.Has t v) ∧
      (∀ idx t, At y.label idx t → ts[pos idx]? = some t) := by
    intro ts hf pos hget hinj hlen hts
    refine ⟨⟨y.x.flatten order, y.dtype, [ts]⟩, ts, ?_, ⟨?_, ?_, by simp⟩, rfl, rfl, ?_, ?_, ?_⟩
    · simp only [Larry.flatten, hf]
    · simp [NDArray.flatten, hsize, hlen]
    · intro l hl
      simp only [List.mem_singleton] at hl
      subst hl
      rw [List.nodup_iff_injective_getElem]
      intro ⟨p, hp⟩ ⟨q, hq⟩ heq
      simp only at heq
      obtain ⟨i, hi, hip⟩ := (hts p _).mp (List.getElem?_eq_getElem hp)
      obtain ⟨j, hj, hjq⟩ := (hts q _).mp (List.getElem?_eq_getElem hq)
      rw [heq] at hi
      have := At_unique hv.nodup hi hj
      simp only [Fin.mk.injEq]
      rw [← hip, ← hjq, this]
    · rw [hlen, ← hs]
    · intro t v
      constructor
      · rintro ⟨idx, hat, rfl⟩
        match idx, hat with
        | [p], hat =>
          simp only [At, and_true] at hat
          obtain ⟨i, hi, hip⟩ := (hts p t).mp hat
          refine ⟨i, hi, ?_⟩
          rw [← hip]
          exact (hget i (by rw [hs]; exact At_inB hi)).symm
      · rintro ⟨idx, hat, rfl⟩
        refine ⟨[pos idx], ⟨(hts _ t).mpr ⟨idx, hat, rfl⟩, trivial⟩, ?_⟩
        exact hget idx (by rw [hs]; exact At_inB hat)
    · intro idx t hat
      exact (hts _ t).mpr ⟨idx, hat, rfl⟩
  constructor
  · intro horder
    by_cases hC : order = "C"
    · subst hC
      obtain ⟨ts, h1, h2, h3⟩ := C04_flattenlabel_C y.label
      refine core ts h1 (rowMajor y.shape) (fun idx hi => ?_) (fun _ _ => rowMajor_inj) h2 ?_
      · simp only [NDArray.flatten, List.getD_cons_zero, if_true]
        change y.x.get (unravelC y.shape _) = _
        rw [unravelC_rowMajor hi]
      · intro p names
        rw [h3, ← hs]
    · have hF : order = "F" := horder.resolve_left hC
      subst hF
      obtain ⟨ts, h1, h2, h3⟩ := C04_flattenlabel_F y.label
      refine core ts h1 (colMajor y.shape) (fun idx hi => ?_) (fun _ _ => colMajor_inj) h2 ?_
      · simp only [NDArray.flatten, List.getD_cons_zero, if_neg hC]
        change y.x.get (unravelF y.shape _) = _
        rw [unravelF_colMajor hi]
      · intro p names
        rw [h3, ← hs]
  · intro h1 h2
    simp only [Larry.flatten, C04_flattenlabel_bad _ _ h1 h2]

example : exA.Valid ∧ (("F" : String) = "C" ∨ "F" = "F") := ⟨exA_valid, .inr rfl⟩

/-! ## C29: from and to lists of labelled values -/

/-- `v` is the value of the last row labelled `names`. -/
def LastRow (rows : List (List L × Val)) (names : List L) (v : Val) : Prop :=
  ∃ pre post, rows = pre ++ (names, v) :: post ∧ ∀ r ∈ post, r.1 ≠ names

/-- `z` is the table made from the labelled values `rows`, each row having `m` labels: axis `k` carries
the distinct `k`-th labels in increasing order; a cell holds the value of the last row with its names,
as a float, and NaN if there is no such row. -/
structure TableOf [LinearOrder L] (rows : List (List L × Val)) (m : Nat) (z : Larry L) : Prop where
  valid : z.Valid
  dtype_eq : z.dtype = .float
  naxes : z.label.length = m
  sorted : ∀ l ∈ z.label, l.Pairwise (· < ·)
  labels : ∀ (k : Nat) l b, z.label[k]? = some l → (b ∈ l ↔ ∃ r ∈ rows, r.1[k]? = some b)
  listed : ∀ names v, LastRow rows names v → z.Has names v.toFloat
  unlisted : ∀ names, Named z.label names → (∀ r ∈ rows, r.1 ≠ names) → z.Has names (.flt .nan)

theorem rowOf_get {α : Type _} {cols : List (List α)} {r : Nat} (h : ∀ c ∈ cols, r < c.length) :
    (rowOf cols r).length = cols.length ∧
      ∀ (k : Nat) c, cols[k]? = some c → (rowOf cols r)[k]? = c[r]? := by
  induction cols with
  | nil => exact ⟨rfl, fun k c h => by simp at h⟩
  | cons c0 cs ih =>
    have h0 := h c0 (by simp)
    obtain ⟨h1, h2⟩ := ih (fun c hc => h c (by simp [hc]))
    have e : rowOf (c0 :: cs) r = c0[r] :: rowOf cs r := by
      simp [rowOf, List.getElem?_eq_getElem h0]
    rw [e]
    refine ⟨by simp [h1], fun k c hk => ?_⟩
    cases k with
    | zero =>
      simp only [List.getElem?_cons_zero, Option.some.injEq] at hk
      subst hk; simp [h0]
    | succ k => simpa using h2 k c (by simpa using hk)

theorem ofLists_spec [LinearOrder L] {ts : List (List L)} {xs : List Val} {m : Nat} (hm : 0 < m)
    (hne : ts ≠ []) (hlen : ∀ t ∈ ts, t.length = m) (hx : xs.length = ts.length)
    (hnum : ∀ v ∈ xs, v.isNumber = true) :
    ∃ z, ofLists xs (zipStar ts) = .ok z ∧ TableOf (ts.zip xs) m z := by
  obtain ⟨hz1, hz2⟩ := zipStar_eq hne hlen
  -- the indices and label lists of all axes
  have htot : ∃ il, mapRes list2index (zipStar ts) = .ok il := by
    cases h : mapRes list2index (zipStar ts) with
    | ok il => exact ⟨il, rfl⟩
    | error e =>
      obtain ⟨a, _, he⟩ := mapRes_error h
      obtain ⟨i, u, h1, _⟩ := C05_list2index a
      rw [h1] at he; simp at he
  obtain ⟨il, hil⟩ := htot
  have hf := mapRes_ok.mp hil
  have hill : il.length = m := by rw [← hf.length_eq, hz1]
  have hcol : ∀ (k : Nat) ix u, il[k]? = some (ix, u) → u.Pairwise (· < ·) ∧
      (∀ b, b ∈ u ↔ ∃ t ∈ ts, t[k]? = some b) ∧ ix.length = ts.length ∧
      ∀ (r : Nat) t, ts[r]? = some t → ∃ i n, ix[r]? = some i ∧ t[k]? = some n ∧ u[i]? = some n := by
    intro k ix u hk
    have hkm : k < m := by rw [← hill]; exact (List.getElem?_eq_some_iff.mp hk).1
    obtain ⟨col, hc1, hc2⟩ := hz2 k hkm
    have hl2i : list2index col = .ok (ix, u) := by
      have := (List.forall₂_iff_get.mp hf).2 k (by omega) (by omega)
      obtain ⟨p1, p2⟩ := List.getElem?_eq_some_iff.mp hc1
      obtain ⟨q1, q2⟩ := List.getElem?_eq_some_iff.mp hk
      simp only [List.get_eq_getElem, p2, q2] at this
      exact this
    obtain ⟨ix', u', h1, h2, h3, h4⟩ := C05_list2index col
    rw [hl2i] at h1
    simp only [Except.ok.injEq, Prod.mk.injEq] at h1
    obtain ⟨rfl, rfl⟩ := h1
    have hcl : col.length = ts.length := by simpa using congrArg List.length hc2
    refine ⟨h2, fun b => ?_, by have := congrArg List.length h4; simp at this; omega, ?_⟩
    · rw [h3]
      constructor
      · intro hb
        have : some b ∈ col.map some := List.mem_map.mpr ⟨b, hb, rfl⟩
        rw [hc2] at this
        obtain ⟨t, ht, e⟩ := List.mem_map.mp this
        exact ⟨t, ht, e⟩
      · rintro ⟨t, ht, e⟩
        have : some b ∈ ts.map (fun t => t[k]?) := List.mem_map.mpr ⟨t, ht, e⟩
        rw [← hc2] at this
        obtain ⟨b', hb', e'⟩ := List.mem_map.mp this
        simp only [Option.some.injEq] at e'
        exact e' ▸ hb'
    · intro r t hr
      have hrc : r < col.length := by rw [hcl]; exact (List.getElem?_eq_some_iff.mp hr).1
      obtain ⟨i, hi1, hi2⟩ := (getElem?_of_map h4).2 r _ (List.getElem?_eq_getElem hrc)
      have e : (col.map some)[r]? = (ts.map (fun t => t[k]?))[r]? := by rw [hc2]
      simp only [List.getElem?_map, hr, List.getElem?_eq_getElem hrc, Option.map_some,
        Option.some.injEq] at e
      exact ⟨i, col[r], hi1, e.symm, hi2⟩
  set label := il.map Prod.snd with hlabel
  set index := il.map Prod.fst with hindex
  have hllen : label.length = m := by simp [hlabel, hill]
  have hlab : ∀ (k : Nat) l, label[k]? = some l → ∃ ix, il[k]? = some (ix, l) := by
    intro k l h
    rw [hlabel, List.getElem?_map] at h
    cases hh : il[k]? with
    | none => rw [hh] at h; simp at h
    | some p =>
      rw [hh] at h
      simp only [Option.map_some, Option.some.injEq] at h
      exact ⟨p.1, by rw [← h]⟩
  have hixlen : ∀ c ∈ index, c.length = ts.length := by
    intro c hc
    obtain ⟨p, hp, rfl⟩ := List.mem_map.mp hc
    obtain ⟨k, hk⟩ := List.mem_iff_getElem?.mp hp
    exact (hcol k p.1 p.2 hk).2.2.1
  have hrow : ∀ (r : Nat) t, ts[r]? = some t → At label (rowOf index r) t := by
    intro r t hr
    have hrl := (List.getElem?_eq_some_iff.mp hr).1
    obtain ⟨h1, h2⟩ := rowOf_get (cols := index) (r := r) (fun c hc => by rw [hixlen c hc]; exact hrl)
    refine At_of_columns (by rw [h1, hllen]; simp [hindex, hill])
      (by rw [hllen]; exact hlen t (List.mem_of_getElem? hr)) (fun k l hl => ?_)
    obtain ⟨ix, hix⟩ := hlab k l hl
    obtain ⟨_, _, _, h6⟩ := hcol k ix l hix
    obtain ⟨i, n, e1, e2, e3⟩ := h6 r t hr
    refine ⟨i, n, ?_, e2, e3⟩
    rw [h2 k ix (by simp [hindex, hix]), e1]
  have hpos : 0 < ts.length := by
    rcases Nat.eq_zero_or_pos ts.length with h | h
    · exact absurd (List.length_eq_zero_iff.mp h) hne
    · exact h
  have hnrow : (index.getD 0 []).length = ts.length := by
    have h0 : 0 < index.length := by simp [hindex, hill, hm]
    have : index.getD 0 [] = index[0] := by simp [List.getD, List.getElem?_eq_getElem h0]
    rw [this]; exact hixlen _ (List.getElem_mem h0)
  have hsorted : ∀ l ∈ label, l.Pairwise (· < ·) := by
    intro l hl
    obtain ⟨k, hk⟩ := List.mem_iff_getElem?.mp hl
    obtain ⟨ix, hix⟩ := hlab k l hk
    exact (hcol k ix l hix).1
  have hndl : ∀ l ∈ label, l.Nodup := fun l hl => (hsorted l hl).imp (fun h => ne_of_lt h)
  have hany : xs.any (fun v => !v.isNumber) = false := by
    rw [List.any_eq_false]; intro v hv; simp [hnum v hv]
  set rows := (List.range ts.length).map (fun r => (rowOf index r, broadcastRow xs r)) with hrows
  have hrowsget : ∀ (r : Nat) t v, ts[r]? = some t → xs[r]? = some v →
      rows[r]? = some (rowOf index r, v.toFloat) := by
    intro r t v hr hv
    have hrl := (List.getElem?_eq_some_iff.mp hr).1
    rw [hrows, List.getElem?_map, List.getElem?_range hrl, Option.map_some]
    have : broadcastRow xs r = v.toFloat := by
      unfold broadcastRow
      congr 1
      split
      · rename_i h1
        have : r = 0 := by omega
        subst this
        simp [List.getD, hv]
      · simp [List.getD, hv]
    rw [this]
  have hlists : fromlists xs (zipStar ts) =
      .ok ((NDArray.full (label.map List.length) (Val.flt .nan)).assignRows rows, label) := by
    unfold fromlists
    rw [if_neg (by omega), hil]
    simp only
    rw [← hindex, hnrow, if_neg (by omega), hany]
    rfl
  have hval : ValidLabels label
      ((NDArray.full (label.map List.length) (Val.flt .nan)).assignRows rows).shape :=
    ⟨by rw [NDArray.assignRows_shape]; rfl, hndl, by
      intro h; rw [h] at hllen; simp at hllen; omega⟩
  refine ⟨⟨(NDArray.full (label.map List.length) (Val.flt .nan)).assignRows rows, .float, label⟩, ?_, ?_⟩
  · simp only [ofLists, hlists]
    exact (C06_constructor _ _ _).1 hval
  have hzipget : ∀ (r : Nat) p, (ts.zip xs)[r]? = some p ↔ ts[r]? = some p.1 ∧ xs[r]? = some p.2 := by
    intro r p
    rw [List.getElem?_zip_eq_some]
  refine ⟨hval, rfl, hllen, hsorted, ?_, ?_, ?_⟩
  · intro k l b hl
    obtain ⟨ix, hix⟩ := hlab k l hl
    rw [(hcol k ix l hix).2.1]
    constructor
    · rintro ⟨t, ht, e⟩
      obtain ⟨r, hr⟩ := List.mem_iff_getElem?.mp ht
      have hrl := (List.getElem?_eq_some_iff.mp hr).1
      exact ⟨(t, xs[r]), List.mem_of_getElem? ((hzipget r _).mpr
        ⟨hr, List.getElem?_eq_getElem (by omega)⟩), e⟩
    · rintro ⟨p, hp, e⟩
      exact ⟨p.1, (List.of_mem_zip hp).1, e⟩
  · rintro names v ⟨pre, post, hsplit, hlast⟩
    -- the row at position pre.length
    have hr : (ts.zip xs)[pre.length]? = some (names, v) := by rw [hsplit]; simp
    obtain ⟨hr1, hr2⟩ := (hzipget _ _).mp hr
    have hat := hrow _ _ hr1
    have hrlt := (List.getElem?_eq_some_iff.mp hr1).1
    refine ⟨rowOf index pre.length, hat, ?_⟩
    have hrl : pre.length < rows.length := by simp [hrows, hrlt]
    have hget := hrowsget _ _ _ hr1 hr2
    obtain ⟨_, hget'⟩ := List.getElem?_eq_some_iff.mp hget
    have hdecomp : rows = rows.take pre.length ++ (rowOf index pre.length, v.toFloat) ::
        rows.drop (pre.length + 1) := by
      rw [← hget', List.getElem_cons_drop, List.take_append_drop]
    rw [hdecomp]
    apply NDArray.assignRows_last
    intro p hp heq
    obtain ⟨j, hj⟩ := List.mem_iff_getElem?.mp hp
    rw [List.getElem?_drop] at hj
    have hjl := (List.getElem?_eq_some_iff.mp hj).1
    have hjl' : pre.length + 1 + j < ts.length := by simpa [hrows] using hjl
    have h1 := hrowsget _ _ _ (List.getElem?_eq_getElem hjl')
      (List.getElem?_eq_getElem (by omega : pre.length + 1 + j < xs.length))
    rw [hj] at h1
    simp only [Option.some.injEq] at h1
    have hat2 := hrow _ _ (List.getElem?_eq_getElem hjl')
    have e : rowOf index (pre.length + 1 + j) = rowOf index pre.length := by
      rw [← heq, h1]
    rw [e] at hat2
    have hnames := At_names_unique hat2 hat
    have hpost : post[j]? = some (ts[pre.length + 1 + j], xs[pre.length + 1 + j]'(by omega)) := by
      have : (ts.zip xs)[pre.length + 1 + j]? =
          some (ts[pre.length + 1 + j], xs[pre.length + 1 + j]'(by omega)) :=
        (hzipget _ _).mpr ⟨List.getElem?_eq_getElem hjl', List.getElem?_eq_getElem (by omega)⟩
      rw [hsplit, List.getElem?_append_right (by omega)] at this
      have e2 : pre.length + 1 + j - pre.length = j + 1 := by omega
      rw [e2, List.getElem?_cons_succ] at this
      exact this
    exact hlast _ (List.mem_of_getElem? hpost) hnames
  · intro names hN hno
    obtain ⟨idx, hat⟩ := At_of_Named hN
    refine ⟨idx, hat, ?_⟩
    change (NDArray.assignRows _ _).get idx = _
    rw [NDArray.assignRows_none]
    · rfl
    · intro p hp heq
      obtain ⟨r, hr⟩ := List.mem_iff_getElem?.mp hp
      have hrl : r < ts.length := by
        have := (List.getElem?_eq_some_iff.mp hr).1
        simpa [hrows] using this
      have h1 := hrowsget _ _ _ (List.getElem?_eq_getElem hrl)
        (List.getElem?_eq_getElem (by omega : r < xs.length))
      rw [hr] at h1
      simp only [Option.some.injEq] at h1
      have hat2 := hrow _ _ (List.getElem?_eq_getElem hrl)
      have e : rowOf index r = idx := by rw [← heq, h1]
      rw [e] at hat2
      have hnames := At_names_unique hat2 hat
      exact hno _ (List.mem_of_getElem? ((hzipget r (ts[r], xs[r]'(by omega))).mpr
        ⟨List.getElem?_eq_getElem hrl, List.getElem?_eq_getElem (by omega)⟩)) hnames

/-- C29. `fromlist` on any nonempty list of labelled numbers (all label tuples of one length) builds
their table; a repeated cell keeps the last value. -/
theorem C29_fromlist [LinearOrder L] {ts : List (List L)} {xs : List Val} {m : Nat} (hm : 0 < m)
    (hne : ts ≠ []) (hlen : ∀ t ∈ ts, t.length = m) (hx : xs.length = ts.length)
    (hnum : ∀ v ∈ xs, v.isNumber = true) :
    ∃ z, fromlist (xs, ts) = .ok z ∧ TableOf (ts.zip xs) m z :=
  ofLists_spec hm hne hlen hx hnum

/-- C29. `fromlist` with one value and any number of label tuples: every named cell holds that value. -/
theorem C29_fromlist_one [LinearOrder L] {ts : List (List L)} {v : Val} {m : Nat} (hm : 0 < m)
    (hne : ts ≠ []) (hlen : ∀ t ∈ ts, t.length = m) (hnum : v.isNumber = true) :
    ∃ z, fromlist ([v], ts) = .ok z ∧ TableOf (ts.map (fun t => (t, v))) m z := by
  obtain ⟨z, h1, h2⟩ := ofLists_spec (xs := List.replicate ts.length v) hm hne hlen (by simp)
    (fun w hw => by rw [List.eq_of_mem_replicate hw]; exact hnum)
  refine ⟨z, ?_, ?_⟩
  · rw [← h1]
    unfold fromlist ofLists
    have : fromlists [v] (zipStar ts) = fromlists (List.replicate ts.length v) (zipStar ts) := by
      obtain ⟨w, hw⟩ : ∃ w, fromlists (List.replicate ts.length v) (zipStar ts) = .ok w := by
        unfold ofLists at h1
        split at h1
        · cases h1
        · exact ⟨_, by assumption⟩
      have hpos : ts.length ≠ 0 := by simpa using hne
      unfold fromlists at hw ⊢
      rw [if_neg (by simp)]
      rw [if_neg (by simp only [List.length_replicate]; omega)] at hw ⊢
      split at hw
      · cases hw
      rename_i il hil
      simp only [hil]
      simp only at hw
      split_ifs at hw with c1 c2
      rw [if_neg (by simp), if_neg c1, if_neg (by simp [hnum]), if_neg c2]
      congr 3
      refine List.map_congr_left fun r hr => ?_
      rw [List.mem_range] at hr
      congr 1
      unfold broadcastRow
      rw [List.length_replicate] at c1
      congr 1
      rw [if_pos (by rfl : [v].length = 1)]
      by_cases h1 : (List.replicate ts.length v).length = 1
      · rw [if_pos h1]
        simp only [List.length_replicate] at h1
        simp [h1]
      · rw [if_neg h1]
        simp only [List.length_replicate] at h1
        have : r < ts.length := by omega
        simp [List.getD, List.getElem?_replicate, this]
    rw [this]
  · have : ts.zip (List.replicate ts.length v) = ts.map (fun t => (t, v)) := by
      clear h1 h2 hlen hne
      induction ts with
      | nil => rfl
      | cons t ts ih => simp [List.replicate_succ, ih]
    rwa [this] at h2

/-- C29. `fromlist` with two or more values refuses another number of label tuples. -/
theorem C29_fromlist_lengths [LinearOrder L] {ts : List (List L)} {xs : List Val} {m : Nat} (hm : 0 < m)
    (hne : ts ≠ []) (hlen : ∀ t ∈ ts, t.length = m) (hx : xs.length ≠ ts.length) (h1 : xs.length ≠ 1) :
    fromlist (xs, ts) = .error .valueError := by
  obtain ⟨z, hz, -⟩ := ofLists_spec (xs := List.replicate ts.length (.int 0)) hm hne hlen (by simp)
    (fun w hw => by rw [List.eq_of_mem_replicate hw]; rfl)
  obtain ⟨w, hw⟩ : ∃ w, fromlists (List.replicate ts.length (.int 0)) (zipStar ts) = .ok w := by
    unfold ofLists at hz
    split at hz
    · cases hz
    · exact ⟨_, by assumption⟩
  have hz0 : (zipStar ts).length ≠ 0 := by
    have hmin : (ts.map List.length).min? = some m := by
      match ts, hne with
      | t :: ts, _ =>
        rw [List.min?_eq_some_iff]
        refine ⟨List.mem_map.mpr ⟨t, by simp, hlen t (by simp)⟩, fun b hb => ?_⟩
        obtain ⟨t', ht', rfl⟩ := List.mem_map.mp hb
        exact (hlen t' ht').ge
    unfold zipStar
    rw [hmin]
    simp; omega
  unfold fromlist ofLists
  have : fromlists xs (zipStar ts) = .error .valueError := by
    unfold fromlists at hw ⊢
    rw [if_neg (fun h => hz0 h.2)] at hw ⊢
    split at hw
    · cases hw
    rename_i il hil
    simp only [hil]
    simp only at hw
    split_ifs at hw with c1 c2
    have hn : ((il.map Prod.fst).getD 0 []).length = ts.length := by
      obtain ⟨col, hcol⟩ : ∃ col, (zipStar ts)[0]? = some col := by
        exact ⟨_, List.getElem?_eq_getElem (by omega)⟩
      have hf := mapRes_ok.mp hil
      have hil0 : 0 < il.length := by rw [← hf.length_eq]; omega
      have h0 := List.forall₂_iff_get.mp hf |>.2 0 (by omega) hil0
      obtain ⟨ix, u, e1, -, -, e4⟩ := C05_list2index ((zipStar ts).get ⟨0, by omega⟩)
      rw [e1] at h0
      simp only [Except.ok.injEq] at h0
      have e5 : (il.map Prod.fst).getD 0 [] = ix := by
        rw [List.getD_eq_getElem?_getD, List.getElem?_map, List.getElem?_eq_getElem hil0]
        simp only [List.get_eq_getElem] at h0
        rw [← h0]; rfl
      rw [e5]
      have e6 := congrArg List.length e4
      simp only [List.length_map] at e6
      have e7 : ((zipStar ts).get ⟨0, by omega⟩).length = ts.length := by
        simp only [List.get_eq_getElem, zipStar, List.getElem_map, List.getElem_range]
        clear * - hlen hm
        induction ts with
        | nil => rfl
        | cons t ts ih =>
          have ht : t.length = m := hlen t (by simp)
          have : t[0]? = some t[0] := List.getElem?_eq_getElem (by omega)
          rw [List.filterMap_cons, this]
          simp [ih (fun t' ht' => hlen t' (by simp [ht']))]
      omega
    rw [if_pos ⟨by rw [hn]; exact hx, h1⟩]
  rw [this]

example : (0 < 2) ∧ [["a", "x"], ["b", "y"]] ≠ [] ∧ (∀ t ∈ [["a", "x"], ["b", "y"]], t.length = 2) ∧
    (Val.int 7).isNumber = true := ⟨by decide, by simp, by simp, rfl⟩

/-- C29. `fromtuples` does the same for rows. -/
theorem C29_fromtuples [LinearOrder L] {rows : List (List L × Val)} {m : Nat} (hm : 0 < m)
    (hne : rows ≠ []) (hlen : ∀ r ∈ rows, r.1.length = m) (hnum : ∀ r ∈ rows, r.2.isNumber = true) :
    ∃ z, fromtuples rows = .ok z ∧ TableOf rows m z := by
  obtain ⟨z, h1, h2⟩ := ofLists_spec (ts := rows.map Prod.fst) (xs := rows.map Prod.snd) hm
    (by simpa using hne) (by intro t ht; obtain ⟨r, hr, rfl⟩ := List.mem_map.mp ht; exact hlen r hr)
    (by simp) (by intro t ht; obtain ⟨r, hr, rfl⟩ := List.mem_map.mp ht; exact hnum r hr)
  refine ⟨z, ?_, ?_⟩
  · have hl : rows.length ≠ 0 := by simpa using hne
    have hany : rows.any (fun r => decide (r.1.length ≠ (rows.map (fun r => r.1.length)).getD 0 0)) =
        false := by
      rw [List.any_eq_false]
      intro r hr
      match rows, hne with
      | r0 :: rs, _ =>
        have e1 := hlen r hr
        have e2 := hlen r0 (by simp)
        simp [e1, e2]
    simp only [fromtuples, if_neg hl, hany]
    exact h1
  · have : (rows.map Prod.fst).zip (rows.map Prod.snd) = rows := by
      rw [List.zip_map']; simp
    rwa [this] at h2

/-- C29: no rows give the empty 1d larry. -/
theorem C29_fromtuples_empty [LinearOrder L] :
    ∃ z : Larry L, fromtuples ([] : List (List L × Val)) = .ok z ∧ z.label = [[]] ∧ z.shape = [0] :=
  ⟨_, rfl, rfl, rfl⟩

example : (0 < 2) ∧ ([(["a", "x"], .int 1), (["b", "y"], fl 2), (["a", "x"], fl 3)] :
    List (List String × Val)) ≠ [] ∧
    LastRow [(["a", "x"], .int 1), (["b", "y"], fl 2), (["a", "x"], fl 3)] ["a", "x"] (fl 3) :=
  ⟨by decide, by simp, [(["a", "x"], .int 1), (["b", "y"], fl 2)], [], rfl, by simp⟩

/-- `z` is `y` with the labels of every axis in increasing order and float values. -/
structure SortedFloat [LinearOrder L] (y z : Larry L) : Prop where
  valid : z.Valid
  dtype_eq : z.dtype = .float
  naxes : z.label.length = y.label.length
  labels : ∀ (k : Nat) l l', y.label[k]? = some l → z.label[k]? = some l' →
    l'.Perm l ∧ l'.Pairwise (· < ·)
  has : ∀ names v, z.Has names v ↔ ∃ w, y.Has names w ∧ v = w.toFloat

theorem prod_zero_of_mem {s : List Nat} (h : 0 ∈ s) : s.prod = 0 := by
  induction s with
  | nil => simp at h
  | cons n s ih =>
    rcases List.mem_cons.mp h with h | h
    · simp [← h]
    · simp [ih h]

/-- The table of all cells of `y`, in whatever order they are listed. -/
theorem sortedFloat_of_table [LinearOrder L] {y z : Larry L} {rows : List (List L × Val)} {m : Nat}
    (hv : y.Valid) (hsz : 0 < y.shape.prod) (hm : y.label.length = m) (ht : TableOf rows m z)
    (hrows : ∀ names v, (names, v) ∈ rows ↔ y.Has names v) : SortedFloat y z := by
  have hfun : ∀ names v w, (names, v) ∈ rows → (names, w) ∈ rows → v = w := by
    intro names v w h1 h2
    exact Holds_unique hv.nodup ((hrows _ _).mp h1) ((hrows _ _).mp h2)
  have hlast : ∀ names v, (names, v) ∈ rows → LastRow rows names v := by
    intro names v hmem
    have : ∀ rs : List (List L × Val), (∀ r ∈ rs, r ∈ rows) → (names, v) ∈ rs → LastRow rs names v := by
      intro rs
      induction rs with
      | nil => intro _ h; simp at h
      | cons r rs ih =>
        intro hsub h
        by_cases hin : (names, v) ∈ rs
        · obtain ⟨pre, post, e1, e2⟩ := ih (fun r hr => hsub r (by simp [hr])) hin
          exact ⟨r :: pre, post, by simp [e1], e2⟩
        · have hr : r = (names, v) := by
            rcases List.mem_cons.mp h with h | h
            · exact h.symm
            · exact absurd h hin
          subst hr
          refine ⟨[], rs, rfl, fun r hr heq => hin ?_⟩
          have h1 : (names, r.2) ∈ rows := by
            rw [← heq]; exact hsub r (by simp [hr])
          have := hfun names r.2 v h1 hmem
          rw [← this, ← heq]; exact hr
    exact this rows (fun _ h => h) hmem
  -- every label of every axis occurs in some cell
  have hcell : ∀ (k : Nat) l b, y.label[k]? = some l → b ∈ l → ∃ names v, y.Has names v ∧ names[k]? = some b := by
    intro k l b hl hb
    have hpos : ∀ l ∈ y.label, l ≠ [] := by
      intro l' hl' h0
      subst h0
      have : y.shape.prod = 0 := by
        have hs : y.shape = y.label.map List.length := hv.shape_eq
        rw [hs]
        exact prod_zero_of_mem (List.mem_map.mpr ⟨[], hl', rfl⟩)
      omega
    have : ∀ (label : List (List L)) (k : Nat), (∀ l ∈ label, l ≠ []) → label[k]? = some l →
        ∃ names, Named label names ∧ names[k]? = some b := by
      intro label
      induction label with
      | nil => intro k _ h; simp at h
      | cons l0 ls ih =>
        intro k hne hk
        cases k with
        | zero =>
          simp only [List.getElem?_cons_zero, Option.some.injEq] at hk
          subst hk
          have hls : ∃ ns, Named ls ns := by
            clear ih
            have hne' : ∀ l ∈ ls, l ≠ [] := fun l h => hne l (by simp [h])
            clear hne
            induction ls with
            | nil => exact ⟨[], trivial⟩
            | cons l1 ls ih =>
              obtain ⟨ns, hns⟩ := ih (fun l h => hne' l (by simp [h]))
              obtain ⟨c, hc⟩ := List.exists_mem_of_ne_nil l1 (hne' l1 (by simp))
              exact ⟨c :: ns, hc, hns⟩
          obtain ⟨ns, hns⟩ := hls
          exact ⟨b :: ns, ⟨hb, hns⟩, rfl⟩
        | succ k =>
          obtain ⟨ns, h1, h2⟩ := ih k (fun l h => hne l (by simp [h])) (by simpa using hk)
          obtain ⟨c, hc⟩ := List.exists_mem_of_ne_nil l0 (hne l0 (by simp))
          exact ⟨c :: ns, ⟨hc, h1⟩, by simpa using h2⟩
    obtain ⟨names, h1, h2⟩ := this y.label k hpos hl
    obtain ⟨v, hv'⟩ := Holds_of_Named (x := y.x) h1
    exact ⟨names, v, hv', h2⟩
  have hlabmem : ∀ (k : Nat) l l', y.label[k]? = some l → z.label[k]? = some l' → ∀ b, b ∈ l' ↔ b ∈ l := by
    intro k l l' hl hl' b
    rw [ht.labels k l' b hl']
    constructor
    · rintro ⟨r, hr, e⟩
      have := Named_of_Holds ((hrows r.1 r.2).mp hr)
      exact (Named_iff.mp this).2 k l b hl e
    · intro hb
      obtain ⟨names, v, h1, h2⟩ := hcell k l b hl hb
      exact ⟨(names, v), (hrows _ _).mpr h1, h2⟩
  have hnamed : ∀ names, Named z.label names ↔ Named y.label names := by
    intro names
    rw [Named_iff, Named_iff, ht.naxes, hm]
    refine and_congr_right fun _ => ?_
    constructor
    · intro hh k l n hl hn
      have hk : k < z.label.length := by
        rw [ht.naxes, ← hm]; exact (List.getElem?_eq_some_iff.mp hl).1
      exact (hlabmem k l _ hl (List.getElem?_eq_getElem hk) n).mp (hh k _ n (List.getElem?_eq_getElem hk) hn)
    · intro hh k l' n hl' hn
      have hk : k < y.label.length := by
        rw [hm, ← ht.naxes]; exact (List.getElem?_eq_some_iff.mp hl').1
      exact (hlabmem k _ l' (List.getElem?_eq_getElem hk) hl' n).mpr (hh k _ n (List.getElem?_eq_getElem hk) hn)
  refine ⟨ht.valid, ht.dtype_eq, ht.naxes.trans hm.symm, ?_, ?_⟩
  · intro k l l' hl hl'
    have hs := ht.sorted l' (List.mem_of_getElem? hl')
    refine ⟨?_, hs⟩
    rw [List.perm_ext_iff_of_nodup (hs.imp (fun h => ne_of_lt h)) (hv.nodup l (List.mem_of_getElem? hl))]
    exact hlabmem k l l' hl hl'
  · intro names v
    constructor
    · intro h
      obtain ⟨w, hw⟩ := Holds_of_Named (x := y.x) ((hnamed names).mp (Named_of_Holds h))
      refine ⟨w, hw, ?_⟩
      exact Holds_unique ht.valid.nodup h (ht.listed names w (hlast names w ((hrows _ _).mpr hw)))
    · rintro ⟨w, hw, rfl⟩
      exact ht.listed names w (hlast names w ((hrows _ _).mpr hw))

theorem isNumber_of_dtype {v : Val} {d : DType} (hd : d = .float ∨ d = .int ∨ d = .bool)
    (h : v.hasDType d = true) : v.isNumber = true := by
  rcases hd with rfl | rfl | rfl <;> cases v <;> simp_all [Val.hasDType, Val.isNumber]

/-- The cells listed by a flattened larry. -/
theorem flatten_rows {yf : Larry (List L)} {ts : List (List L)} (hf : yf.Valid)
    (hl : yf.label = [ts]) :
    yf.x.tolist1.length = ts.length ∧
    ∀ t v, (t, v) ∈ ts.zip yf.x.tolist1 ↔ yf.Has [t] v := by
  have hshape : yf.x.shape = [ts.length] := by
    have := hf.shape_eq; rw [hl] at this; simpa using this
  have hsize : yf.x.size = ts.length := by simp [NDArray.size, hshape]
  refine ⟨by simp [NDArray.tolist1, hsize], fun t v => ?_⟩
  rw [List.mem_iff_getElem?]
  constructor
  · rintro ⟨p, hp⟩
    rw [List.getElem?_zip_eq_some] at hp
    obtain ⟨h1, h2⟩ := hp
    have hpl := (List.getElem?_eq_some_iff.mp h1).1
    refine ⟨[p], ?_, ?_⟩
    · rw [hl]; exact ⟨h1, trivial⟩
    · simp only [NDArray.tolist1, hsize, List.getElem?_map, List.getElem?_range hpl,
        Option.map_some, Option.some.injEq] at h2
      exact h2
  · rintro ⟨idx, hat, rfl⟩
    rw [hl] at hat
    match idx, hat with
    | [p], hat =>
      simp only [At, and_true] at hat
      have hpl := (List.getElem?_eq_some_iff.mp hat).1
      refine ⟨p, ?_⟩
      rw [List.getElem?_zip_eq_some]
      refine ⟨hat, ?_⟩
      simp [NDArray.tolist1, hsize, hpl]

/-- What every round trip starts from: the list of all (labels, value) pairs of `y`. -/
theorem cells_of_flatten {y : Larry L} (hv : y.Valid) (htyped : y.Typed)
    (hd : y.dtype = .float ∨ y.dtype = .int ∨ y.dtype = .bool) {order : String}
    (ho : order = "C" ∨ order = "F") (hsz : 0 < y.shape.prod) :
    ∃ z ts, y.flatten order = .ok z ∧ z.label = [ts] ∧ z.shape = [ts.length] ∧ z.dtype = y.dtype ∧
      ts ≠ [] ∧ (∀ t ∈ ts, t.length = y.label.length) ∧ z.x.tolist1.length = ts.length ∧
      (∀ v ∈ z.x.tolist1, v.isNumber = true) ∧ ts.Nodup ∧
      ∀ names v, (names, v) ∈ ts.zip z.x.tolist1 ↔ y.Has names v := by
  obtain ⟨z, ts, h1, h2, h3, h4, h5, h6, h7⟩ := (C28_flatten hv order).1 ho
  obtain ⟨g1, g2⟩ := flatten_rows h2 h4
  have hcells : ∀ names v, (names, v) ∈ ts.zip z.x.tolist1 ↔ y.Has names v :=
    fun names v => (g2 names v).trans (h6 names v)
  have htlen : ∀ t ∈ ts, ∃ v, (t, v) ∈ ts.zip z.x.tolist1 := by
    intro t ht
    obtain ⟨p, hp⟩ := List.mem_iff_getElem?.mp ht
    have hpl := (List.getElem?_eq_some_iff.mp hp).1
    exact ⟨z.x.tolist1[p], List.mem_iff_getElem?.mpr ⟨p, List.getElem?_zip_eq_some.mpr
      ⟨hp, List.getElem?_eq_getElem (by omega)⟩⟩⟩
  refine ⟨z, ts, h1, h4, ?_, h3, ?_, ?_, g1, ?_, ?_, hcells⟩
  · have := h2.shape_eq; rw [h4] at this; simpa [Larry.shape] using this
  · intro h; rw [h] at h5; simp at h5; omega
  · intro t ht
    obtain ⟨v, hv'⟩ := htlen t ht
    have := Named_of_Holds ((hcells t v).mp hv')
    exact (Named_iff.mp this).1
  · intro v hvm
    obtain ⟨p, hp⟩ := List.mem_iff_getElem?.mp hvm
    have hpl := (List.getElem?_eq_some_iff.mp hp).1
    have : (ts[p]'(by omega), v) ∈ ts.zip z.x.tolist1 := List.mem_iff_getElem?.mpr
      ⟨p, List.getElem?_zip_eq_some.mpr ⟨List.getElem?_eq_getElem (by omega), hp⟩⟩
    exact isNumber_of_dtype hd ((typed_iff hv).mp htyped _ _ ((hcells _ _).mp this))
  · exact h2.nodup ts (by rw [h4]; simp)

theorem label_pos {y : Larry L} (hv : y.Valid) : 0 < y.label.length := by
  rcases Nat.eq_zero_or_pos y.label.length with h | h
  · exact absurd (List.length_eq_zero_iff.mp h) hv.ndim_pos
  · exact h

/-- C29. `flatten(order)` followed by `unflatten()` gives the larry with sorted axes, float values, and
every labelled value unchanged (for a nonempty int or float larry). -/
theorem C29_unflatten [LinearOrder L] {y : Larry L} (hv : y.Valid) (ht : y.Typed)
    (hd : y.dtype = .float ∨ y.dtype = .int) {order : String} (ho : order = "C" ∨ order = "F")
    (hsz : 0 < y.shape.prod) :
    ∃ f z, y.flatten order = .ok f ∧ f.unflatten = .ok z ∧ SortedFloat y z := by
  obtain ⟨f, ts, h1, h2, h3, h4, h5, h6, h7, h8, _, h9⟩ :=
    cells_of_flatten hv ht (hd.imp id Or.inl) ho hsz
  obtain ⟨z, e1, e2⟩ := ofLists_spec (label_pos hv) h5 h6 h7 h8
  refine ⟨f, z, h1, ?_, sortedFloat_of_table hv hsz rfl e2 h9⟩
  have hn : f.ndim = 1 := by
    have : f.x.shape = [ts.length] := h3
    simp [Larry.ndim, NDArray.ndim, this]
  have hl0 : ts.length ≠ 0 := by simpa using h5
  simp only [unflatten, hn, h3, h4, h2, List.getD_cons_zero]
  rw [if_neg (by simp), if_neg (by simpa using h5), if_neg (by rcases hd with h | h <;> simp [h])]
  exact e1

/-- C29: what `unflatten` refuses. -/
theorem C29_unflatten_errors [LinearOrder L] (f : Larry (List L)) :
    (f.ndim ≠ 1 → f.unflatten = .error .valueError) ∧
    (f.shape = [0] → ∃ z, f.unflatten = .ok z ∧ z.label = [[]] ∧ z.shape = [0]) ∧
    (f.ndim = 1 → f.shape ≠ [0] → f.dtype ≠ .float → f.dtype ≠ .int →
      f.unflatten = .error .notImplementedError) := by
  refine ⟨fun h => by simp [unflatten, h], fun h => ?_, fun h1 h2 h3 h4 => ?_⟩
  · have : f.ndim = 1 := by
      have : f.x.shape = [0] := h
      simp [Larry.ndim, NDArray.ndim, this]
    refine ⟨emptyLarry, by simp [unflatten, this, h], rfl, rfl⟩
  · simp [unflatten, h1, h2, h3, h4]

/-- C29. `fromtuples(totuples())` gives the larry with sorted axes and float values. -/
theorem C29_tuples [LinearOrder L] {y : Larry L} (hv : y.Valid) (ht : y.Typed)
    (hd : y.dtype = .float ∨ y.dtype = .int ∨ y.dtype = .bool) (hsz : 0 < y.shape.prod) :
    ∃ rows z, y.totuples = .ok rows ∧ (∀ names v, (names, v) ∈ rows ↔ y.Has names v) ∧
      fromtuples rows = .ok z ∧ SortedFloat y z := by
  obtain ⟨f, ts, h1, h2, h3, h4, h5, h6, h7, h8, _, h9⟩ :=
    cells_of_flatten hv ht hd (order := "C") (.inl rfl) hsz
  have hne : ts.zip f.x.tolist1 ≠ [] := by
    intro h
    have := congrArg List.length h
    simp only [List.length_zip, h7, Nat.min_self, List.length_nil, List.length_eq_zero_iff] at this
    exact h5 this
  obtain ⟨z, e1, e2⟩ := C29_fromtuples (rows := ts.zip f.x.tolist1) (label_pos hv) hne
    (fun r hr => h6 r.1 (List.of_mem_zip hr).1) (fun r hr => h8 r.2 (List.of_mem_zip hr).2)
  refine ⟨ts.zip f.x.tolist1, z, ?_, h9, e1, sortedFloat_of_table hv hsz rfl e2 h9⟩
  simp [totuples, h1, h2]

/-- C29. `fromlist(tolist())` likewise. -/
theorem C29_list [LinearOrder L] {y : Larry L} (hv : y.Valid) (ht : y.Typed)
    (hd : y.dtype = .float ∨ y.dtype = .int ∨ y.dtype = .bool) (hsz : 0 < y.shape.prod) :
    ∃ d z, y.tolist = .ok d ∧ fromlist d = .ok z ∧ SortedFloat y z := by
  obtain ⟨f, ts, h1, h2, h3, h4, h5, h6, h7, h8, _, h9⟩ :=
    cells_of_flatten hv ht hd (order := "C") (.inl rfl) hsz
  obtain ⟨z, e1, e2⟩ := C29_fromlist (label_pos hv) h5 h6 h7 h8
  refine ⟨(f.x.tolist1, ts), z, ?_, e1, sortedFloat_of_table hv hsz rfl e2 h9⟩
  simp [tolist, h1, h2]

theorem dict_fold {K : Type _} [DecidableEq K] (rows : List (K × Val)) (d : PyDict K Val) :
    (rows.map Prod.fst).Nodup → ∀ k v, (∀ r ∈ rows, d r.1 = none) →
    ((rows.foldl (fun d p => d.insert p.1 p.2) d) k = some v ↔ (k, v) ∈ rows ∨ d k = some v) := by
  induction rows generalizing d with
  | nil => intro _ k v _; simp
  | cons r rows ih =>
    intro hnd k v hdn
    simp only [List.map_cons, List.nodup_cons] at hnd
    simp only [List.foldl_cons]
    rw [ih _ hnd.2]
    · simp only [PyDict.insert, List.mem_cons]
      by_cases hk : k = r.1
      · subst hk
        have hd0 := hdn r (by simp)
        have hnot : ∀ v, (r.1, v) ∉ rows := fun v h => hnd.1 (List.mem_map.mpr ⟨_, h, rfl⟩)
        simp only [hnot, false_or, if_true, Option.some.injEq, hd0, reduceCtorEq, or_false]
        constructor
        · intro h; rw [← h]
        · intro h; rw [← h]
      · have : (k, v) ≠ r := fun h => hk (by rw [← h])
        simp [hk, this]
    · intro r' hr'
      have : r'.1 ≠ r.1 := fun h => hnd.1 (List.mem_map.mpr ⟨r', hr', h⟩)
      simp [PyDict.insert, this, hdn r' (by simp [hr'])]

/-- C29. `todict()` maps the label tuple of every cell to its value, and `fromdict` on these items, in
whatever order Python iterates over the dict, gives the larry with sorted axes and float values. -/
theorem C29_dict [LinearOrder L] {y : Larry L} (hv : y.Valid) (ht : y.Typed)
    (hd : y.dtype = .float ∨ y.dtype = .int ∨ y.dtype = .bool) (hsz : 0 < y.shape.prod) :
    ∃ d, y.todict = .ok d ∧ (∀ names v, d names = some v ↔ y.Has names v) ∧
      ∀ items : List (List L × Val), (∀ names v, (names, v) ∈ items ↔ d names = some v) →
        ∃ z, fromdict items = .ok z ∧ SortedFloat y z := by
  obtain ⟨f, ts, h1, h2, h3, h4, h5, h6, h7, h8, hnd, h9⟩ :=
    cells_of_flatten hv ht hd (order := "C") (.inl rfl) hsz
  have hdict : ∀ names v, ((ts.zip f.x.tolist1).foldl (fun d p => PyDict.insert d p.1 p.2)
      (fun _ => none)) names = some v ↔ y.Has names v := by
    intro names v
    rw [dict_fold _ _ (by rw [List.map_fst_zip (by omega)]; exact hnd) names v (fun _ _ => rfl), h9]
    simp
  refine ⟨_, by simp only [todict, tolist, h1, h2]; rfl, hdict, fun items hitems => ?_⟩
  have hcells : ∀ names v, (names, v) ∈ items ↔ y.Has names v := fun names v =>
    (hitems names v).trans (hdict names v)
  have hne : items ≠ [] := by
    intro h
    obtain ⟨t, ht⟩ := List.exists_mem_of_ne_nil ts h5
    obtain ⟨p, hp⟩ := List.mem_iff_getElem?.mp ht
    have hpl := (List.getElem?_eq_some_iff.mp hp).1
    have : (t, f.x.tolist1[p]) ∈ ts.zip f.x.tolist1 := List.mem_iff_getElem?.mpr
      ⟨p, List.getElem?_zip_eq_some.mpr ⟨hp, List.getElem?_eq_getElem (by omega)⟩⟩
    have := (hcells _ _).mpr ((h9 _ _).mp this)
    rw [h] at this; simp at this
  obtain ⟨z, e1, e2⟩ := C29_fromlist (ts := items.map Prod.fst) (xs := items.map Prod.snd)
    (label_pos hv) (by simpa using hne)
    (by
      intro t ht
      obtain ⟨r, hr, rfl⟩ := List.mem_map.mp ht
      exact (Named_iff.mp (Named_of_Holds ((hcells r.1 r.2).mp hr))).1)
    (by simp)
    (by
      intro v hv'
      obtain ⟨r, hr, rfl⟩ := List.mem_map.mp hv'
      exact isNumber_of_dtype hd ((typed_iff hv).mp ht _ _ ((hcells r.1 r.2).mp hr)))
  have : (items.map Prod.fst).zip (items.map Prod.snd) = items := by rw [List.zip_map']; simp
  rw [this] at e2
  exact ⟨z, e1, sortedFloat_of_table hv hsz rfl e2 hcells⟩

example : exA.Valid ∧ exA.Typed ∧ exA.dtype = .float ∧ 0 < exA.shape.prod := by
  refine ⟨exA_valid, ?_, rfl, by decide⟩
  rw [typed_iff exA_valid]
  rintro names v ⟨idx, hat, rfl⟩
  have hin := At_inB hat
  match idx, hin with
  | [0, 0], _ => rfl
  | [0, 1], _ => rfl
  | [0, 2], _ => rfl
  | [1, 0], _ => rfl
  | [1, 1], _ => rfl
  | [1, 2], _ => rfl
  | [0, n + 3], h => simp [InB, exA] at h
  | [1, n + 3], h => simp [InB, exA] at h
  | [n + 2, _], h => simp [InB, exA] at h
  | [], h => simp [InB, exA] at h
  | [_], h => simp [InB, exA] at h
  | _ :: _ :: _ :: _, h => simp [InB, exA] at h

/-! ## C30: panel -/

/-- C30. `panel` of a 3d larry with labels `la`, `lb`, `lc` (and a nonempty first axis): the rows are the
pairs of `lb` and `lc`, the columns are `la`, and the cell ((b, c), a) holds what `y` holds at
(a, b, c). -/
theorem C30_panel {y : Larry L} (hv : y.Valid) {la lb lc : List L} (hl : y.label = [la, lb, lc])
    (hne : la ≠ []) :
    ∃ (z : Larry (L ⊕ List L)) (ts : List (List L)), panel y = .ok z ∧ z.dtype = y.dtype ∧ z.Valid ∧
      z.label = [ts.map Sum.inr, la.map Sum.inl] ∧
      (∀ t, t ∈ ts ↔ ∃ b c, t = [b, c] ∧ b ∈ lb ∧ c ∈ lc) ∧
      ∀ a b c v, z.Has [Sum.inr [b, c], Sum.inl a] v ↔ y.Has [a, b, c] v := by
  have hs : y.x.shape = [la.length, lb.length, lc.length] := by rw [hv.shape_eq, hl]; rfl
  have hla : 0 < la.length := List.length_pos_iff.mpr hne
  obtain ⟨ts, h1, h2, h3⟩ := C04_flattenlabel_C [lb, lc]
  have hsize : y.x.transpose.size = lc.length * lb.length * la.length := by
    simp [NDArray.size, NDArray.transpose, hs]; ring
  have htsl : ts.length = lb.length * lc.length := by rw [h2]; simp
  have hdiv : y.x.transpose.size / la.length = lc.length * lb.length := by
    rw [hsize, Nat.mul_div_cancel _ hla]
  have htp : y.x.transpose.shape = [lc.length, lb.length, la.length] := by
    simp [NDArray.transpose, hs]
  set z : Larry (L ⊕ List L) := ⟨⟨[lc.length * lb.length, la.length], fun idx =>
    y.x.transpose.get (unravelF y.x.transpose.shape (ravelF [lc.length * lb.length, la.length] idx))⟩,
    y.dtype, [ts.map Sum.inr, la.map Sum.inl]⟩ with hz
  have hp : panel y = .ok z := by
    have hn : ¬ (y.ndim ≠ 3) := by simp [Larry.ndim, NDArray.ndim, hs]
    have hr : y.x.transpose.reshapeF2 la.length = .ok z.x := by
      unfold NDArray.reshapeF2
      rw [if_neg, hdiv]
      rw [hsize]
      simp
      omega
    have hsh : y.shape.getD 0 0 = la.length := by
      have : y.shape = y.x.shape := rfl
      rw [this, hs]; rfl
    simp only [panel, if_neg hn, hl, List.getD_cons_zero, List.getD_cons_succ, h1, hsh, hr]
    rfl
  have htsnd : ts.Nodup := by
    rw [List.nodup_iff_injective_getElem]
    intro ⟨p, hp⟩ ⟨q, hq⟩ heq
    simp only at heq
    obtain ⟨i, hi, hip⟩ := (h3 p _).mp (List.getElem?_eq_getElem hp)
    obtain ⟨j, hj, hjq⟩ := (h3 q _).mp (List.getElem?_eq_getElem hq)
    rw [heq] at hi
    have := At_unique (fun l hl' => hv.nodup l (by rw [hl]; simp at hl' ⊢; tauto)) hi hj
    simp only [Fin.mk.injEq]
    rw [← hip, ← hjq, this]
  refine ⟨z, ts, hp, rfl, ⟨?_, ?_, by simp [hz]⟩, rfl, ?_, ?_⟩
  · simp [hz, htsl, Nat.mul_comm]
  · intro l hl'
    simp only [hz, List.mem_cons, List.not_mem_nil, or_false] at hl'
    rcases hl' with rfl | rfl
    · exact htsnd.map Sum.inr_injective
    · exact (hv.nodup la (by rw [hl]; simp)).map Sum.inl_injective
  · intro t
    rw [List.mem_iff_getElem?]
    constructor
    · rintro ⟨p, hp⟩
      obtain ⟨idx, hat, _⟩ := (h3 p t).mp hp
      have := Named_of_At hat
      match t, this with
      | [b, c], h => exact ⟨b, c, rfl, h.1, h.2.1⟩
    · rintro ⟨b, c, rfl, hb, hc⟩
      obtain ⟨idx, hidx⟩ := At_of_Named (label := [lb, lc]) (names := [b, c]) ⟨hb, hc, trivial⟩
      exact ⟨_, (h3 _ _).mpr ⟨idx, hidx, rfl⟩⟩
  · intro a b c v
    -- position of the pair and of the cell
    have hget : ∀ i j k, i < la.length → j < lb.length → k < lc.length →
        z.x.get [j * lc.length + k, i] = y.x.get [i, j, k] := by
      intro i j k hi hj hk
      have hin : InB y.x.transpose.shape [k, j, i] := by rw [htp]; exact ⟨hk, hj, hi, trivial⟩
      have : ravelF [lc.length * lb.length, la.length] [j * lc.length + k, i] =
          colMajor y.x.transpose.shape [k, j, i] := by
        rw [htp, ravelF_eq]
        simp only [colMajor]
        ring
      simp only [hz]
      rw [this, unravelF_colMajor hin]
      rfl
    constructor
    · rintro ⟨idx, hat, rfl⟩
      match idx, hat with
      | [r, i], hat =>
        simp only [At, hz, List.getElem?_map, and_true] at hat
        obtain ⟨hr, hi⟩ := hat
        have hr' : ts[r]? = some [b, c] := by
          cases h : ts[r]? with
          | none => rw [h] at hr; simp at hr
          | some t => rw [h] at hr; simpa using hr
        have hi' : la[i]? = some a := by
          cases h : la[i]? with
          | none => rw [h] at hi; simp at hi
          | some t => rw [h] at hi; simpa using hi
        obtain ⟨jk, hjk, hpos⟩ := (h3 r _).mp hr'
        match jk, hjk with
        | [j, k], hjk =>
          simp only [At, and_true] at hjk
          have e : r = j * lc.length + k := by rw [← hpos]; simp [rowMajor]
          subst e
          refine ⟨[i, j, k], ?_, ?_⟩
          · rw [hl]; exact ⟨hi', hjk.1, hjk.2, trivial⟩
          · exact (hget i j k (List.getElem?_eq_some_iff.mp hi').1
              (List.getElem?_eq_some_iff.mp hjk.1).1 (List.getElem?_eq_some_iff.mp hjk.2).1).symm
    · rintro ⟨idx, hat, rfl⟩
      rw [hl] at hat
      match idx, hat with
      | [i, j, k], hat =>
        simp only [At, and_true] at hat
        obtain ⟨h5, h6, h7⟩ := hat
        refine ⟨[j * lc.length + k, i], ?_, ?_⟩
        · simp only [At, hz, List.getElem?_map, and_true]
          have : ts[j * lc.length + k]? = some [b, c] :=
            (h3 _ _).mpr ⟨[j, k], ⟨h6, h7, trivial⟩, by simp [rowMajor]⟩
          rw [this, h5]
          exact ⟨rfl, rfl⟩
        · exact hget i j k (List.getElem?_eq_some_iff.mp h5).1
            (List.getElem?_eq_some_iff.mp h6).1 (List.getElem?_eq_some_iff.mp h7).1

/-- C30: anything but a 3d larry, and a 3d larry whose first axis is empty, raises ValueError. -/
theorem C30_panel_errors {y : Larry L} (hv : y.Valid) :
    (y.ndim ≠ 3 → panel y = .error .valueError) ∧
    (∀ lb lc, y.label = [[], lb, lc] → panel y = .error .valueError) := by
  refine ⟨fun h => by simp [panel, h], fun lb lc hl => ?_⟩
  have hs : y.x.shape = [0, lb.length, lc.length] := by rw [hv.shape_eq, hl]; rfl
  have hn : ¬ (y.ndim ≠ 3) := by simp [Larry.ndim, NDArray.ndim, hs]
  obtain ⟨ts, h1, _, _⟩ := C04_flattenlabel_C [lb, lc]
  have hsh : y.shape.getD 0 0 = 0 := by
    have : y.shape = y.x.shape := rfl
    rw [this, hs]; rfl
  simp only [panel, if_neg hn, hl, List.getD_cons_zero, List.getD_cons_succ, h1, hsh]
  simp [NDArray.reshapeF2]

example : exC.Valid ∧ exC.label = [[1, 2], [5], [9, 8]] ∧ ([1, 2] : List Nat) ≠ [] :=
  ⟨exC_valid, rfl, by decide⟩

end La
