import Verif.Kernel
import Verif.ReduceFacts
import Mathlib.Tactic.Linarith
import Mathlib.Tactic.Ring
import Mathlib.Tactic.FieldSimp
import Mathlib.Tactic.Positivity
import Mathlib.Algebra.Order.Field.Basic
import Mathlib.Algebra.Order.Field.Rat

/-!
# Facts about functions along an axis
-/

namespace La
variable {L : Type _}

/-- Specification of a method that works along axis `ax` and keeps the labels: in the cell with label
`b` (at position `i` of the axis) it leaves a value related by `R` to the values `vs` along the axis
and to the position. -/
structure Larry.Along (y z : Larry L) (ax : Nat) (R : List Val → Nat → Val → Prop) : Prop where
  valid : z.Valid
  label_eq : z.label = y.label
  cell : ∀ (rest : List L) (vs : List Val) (l : List L) (i : Nat) (b : L) (v : Val),
    y.LineAt ax rest vs → y.label[ax]? = some l → l[i]? = some b →
    z.Has (rest.insertIdx ax b) v → R vs i v

/-- The same for a method that treats all elements, in row-major order, as one line. -/
structure Larry.AlongAll (y z : Larry L) (R : List Val → Nat → Val → Prop) : Prop where
  valid : z.Valid
  label_eq : z.label = y.label
  cell : ∃ vs : List Val, vs.length = y.shape.prod ∧
    (∀ idx names v, At y.label idx names → y.Has names v → vs[rowMajor y.shape idx]? = some v) ∧
    ∀ idx names v, At y.label idx names → z.Has names v → R vs (rowMajor y.shape idx) v

theorem line_length (a : NDArray α) (ax : Nat) (rest : List Nat) :
    (a.line ax rest).length = a.shape.getD ax 0 := by simp [NDArray.line]

theorem along_of_getB {y z : Larry L} (hv : y.Valid) {ax : Nat} {l : List L} (hl : y.label[ax]? = some l)
    (hlab : z.label = y.label) (hsh : z.x.shape = y.x.shape) {R : List Val → Nat → Val → Prop}
    (h : ∀ (ridx : List Nat) (i : Nat), ax ≤ ridx.length → i < (y.x.line ax ridx).length →
      InB y.x.shape (ridx.insertIdx ax i) → R (y.x.line ax ridx) i (z.x.get (ridx.insertIdx ax i))) :
    y.Along z ax R := by
  refine ⟨⟨by rw [hsh, hlab]; exact hv.shape_eq, by rw [hlab]; exact hv.nodup,
    by rw [hlab]; exact hv.ndim_pos⟩, hlab, ?_⟩
  intro rest vs l' i b v hline hl' hb hz
  rw [hl] at hl'
  simp only [Option.some.injEq] at hl'
  subst hl'
  obtain ⟨e1, e2⟩ := eraseIdx_insertIdx_label hl
  have hax := (List.getElem?_eq_some_iff.mp hl).1
  obtain ⟨idx, hat, hget⟩ := hz
  rw [hlab] at hat
  obtain ⟨h1, h2⟩ := At_length hat
  obtain ⟨j, ridx, hj, hj', hj''⟩ := exists_insertIdx (l := idx) (k := ax) (by omega)
  have hr1 : ridx.length = (y.label.eraseIdx ax).length := by
    rw [hj', List.length_eraseIdx_of_lt (by omega)]; omega
  have hr2 : rest.length = (y.label.eraseIdx ax).length := by
    have := List.length_insertIdx (as := rest) (i := ax) (a := b)
    by_cases hc : ax ≤ rest.length
    · rw [if_pos hc] at this; omega
    · rw [if_neg hc] at this; omega
  have hin : InB y.x.shape (ridx.insertIdx ax j) := by rw [← hj, hv.shape_eq]; exact At_inB hat
  rw [hj, ← e1, At_insertIdx (by omega) hr1 hr2] at hat
  have hji := nodup_getElem?_inj (hv.nodup l (List.mem_of_getElem? hl)) hat.2 hb
  subst hji
  have := line_at hv hl hat.1
  have hu := Larry.LineAt.unique hv this hline
  have hlen : j < (y.x.line ax ridx).length := by
    rw [line_length, hv.shape_eq]
    simp only [List.getD, List.getElem?_map, hl, Option.map_some, Option.getD_some]
    exact (List.getElem?_eq_some_iff.mp hb).1
  have hh := h ridx j (by omega) hlen hin
  rw [hu, ← hj, hget] at hh
  exact hh

theorem along_of_get {y z : Larry L} (hv : y.Valid) {ax : Nat} {l : List L} (hl : y.label[ax]? = some l)
    (hlab : z.label = y.label) (hsh : z.x.shape = y.x.shape) {R : List Val → Nat → Val → Prop}
    (h : ∀ (ridx : List Nat) (i : Nat), ax ≤ ridx.length → i < (y.x.line ax ridx).length →
      R (y.x.line ax ridx) i (z.x.get (ridx.insertIdx ax i))) :
    y.Along z ax R :=
  along_of_getB hv hl hlab hsh fun ridx i h1 h2 _ => h ridx i h1 h2

theorem along_mapLines {y : Larry L} (hv : y.Valid) {ax : Nat} {l : List L} (hl : y.label[ax]? = some l)
    (f : List Val → List Val) (d : DType) {R : List Val → Nat → Val → Prop}
    (h : ∀ (vs : List Val) (i : Nat), i < vs.length → ∃ v, (f vs)[i]? = some v ∧ R vs i v) :
    y.Along (y.along f d ax) ax R := by
  refine along_of_get (z := y.along f d ax) hv hl rfl rfl (fun ridx i hr hi => ?_)
  obtain ⟨v, h1, h2⟩ := h _ i hi
  have : ((y.along f d ax).x.get (ridx.insertIdx ax i)) = v := by
    simp only [Larry.along, NDArray.mapLines]
    rw [List.eraseIdx_insertIdx_self]
    simp only [List.getD, List.getElem?_insertIdx_self, hr, if_true, Option.getD_some]
    simp [h1]
  rw [this]
  exact h2

theorem ravelC_eq (shape idx : List Nat) : ravelC shape idx = rowMajor shape idx := by
  induction shape generalizing idx with
  | nil => cases idx <;> rfl
  | cons n ns ih =>
    cases idx with
    | nil => rfl
    | cons i is => simp only [ravelC, rowMajor, ih]

theorem alongAll_spec {y : Larry L} (hv : y.Valid) (f : List Val → List Val) (d : DType)
    {R : List Val → Nat → Val → Prop}
    (h : ∀ (vs : List Val) (i : Nat), i < vs.length → ∃ v, (f vs)[i]? = some v ∧ R vs i v) :
    y.AlongAll (y.alongAll f d) R := by
  refine ⟨⟨hv.shape_eq, hv.nodup, hv.ndim_pos⟩, rfl, y.x.vals,
    by simp [NDArray.vals, length_allIdx, Larry.shape], ?_, ?_⟩
  · rintro idx names v hat ⟨idx', hat', rfl⟩
    have := At_unique hv.nodup hat hat'
    subst this
    have hin : InB y.x.shape idx := by rw [hv.shape_eq]; exact At_inB hat
    simp only [NDArray.vals, List.getElem?_map, Larry.shape, allIdx_getElem? hin, Option.map_some]
  · rintro idx names v hat ⟨idx', hat', rfl⟩
    have := At_unique hv.nodup hat hat'
    subst this
    have hin : InB y.x.shape idx := by rw [hv.shape_eq]; exact At_inB hat
    have hlt : rowMajor y.x.shape idx < y.x.vals.length := by
      have := allIdx_getElem? hin
      have := (List.getElem?_eq_some_iff.mp this).1
      simpa [NDArray.vals] using this
    obtain ⟨v, h1, h2⟩ := h _ _ hlt
    simp only [Larry.alongAll, ravelC_eq, List.getD, h1, Option.getD_some]
    exact h2

theorem prod_eq_zero_of_mem {l : List Nat} (h : 0 ∈ l) : l.prod = 0 := by
  induction l with
  | nil => simp at h
  | cons a l ih =>
    rw [List.prod_cons]
    rcases List.mem_cons.mp h with h | h
    · rw [← h]; simp
    · rw [ih h]; simp

/-! ## Running sums -/

theorem cumGo_length {α : Type _} (op : α → α → α) (acc : α) (l : List α) : (cumGo op acc l).length = l.length := by
  induction l generalizing acc with
  | nil => rfl
  | cons a l ih => simp [cumGo, ih]

theorem cumGo_getElem? {α : Type _} (op : α → α → α) (acc : α) (l : List α) (i : Nat) (h : i < l.length) :
    (cumGo op acc l)[i]? = some ((l.take (i + 1)).foldl op acc) := by
  induction l generalizing acc i with
  | nil => simp at h
  | cons a l ih =>
    cases i with
    | zero => simp [cumGo]
    | succ i => simp [cumGo, ih (op acc a) i (by simpa using h)]

end La

namespace La
variable {L : Type _}

/-- Specification of a method along axis `ax` in terms of whole lines: the values `ws` it leaves along the
axis are related by `S` to the values `vs` that were there. -/
structure Larry.AlongLine (y z : Larry L) (ax : Nat) (S : List Val → List Val → Prop) : Prop where
  valid : z.Valid
  label_eq : z.label = y.label
  line : ∀ (rest : List L) (vs ws : List Val), Named (y.label.eraseIdx ax) rest →
    y.LineAt ax rest vs → z.LineAt ax rest ws → S vs ws

theorem alongLine_mapLines {y : Larry L} (hv : y.Valid) {ax : Nat} {l : List L} (hl : y.label[ax]? = some l)
    (f : List Val → List Val) (d : DType) {S : List Val → List Val → Prop}
    (hlen : ∀ vs, (f vs).length = vs.length) (h : ∀ vs, S vs (f vs)) :
    y.AlongLine (y.along f d ax) ax S := by
  have hz : (y.along f d ax).Valid := ⟨hv.shape_eq, hv.nodup, hv.ndim_pos⟩
  refine ⟨hz, rfl, ?_⟩
  intro rest vs ws hN hy hzl
  obtain ⟨ridx, hat⟩ := At_of_Named hN
  have e1 := Larry.LineAt.unique hv (line_at hv hl hat) hy
  have e2 := Larry.LineAt.unique hz (line_at (y := y.along f d ax) hz hl hat) hzl
  have : (y.along f d ax).x.line ax ridx = f (y.x.line ax ridx) := by
    refine List.ext_getElem? fun i => ?_
    have hr : ax ≤ ridx.length := by
      have := (At_length hat).1
      have := (List.getElem?_eq_some_iff.mp hl).1
      obtain ⟨_, e2⟩ := eraseIdx_insertIdx_label hl
      omega
    by_cases hi : i < y.x.shape.getD ax 0
    · simp only [Larry.along, NDArray.mapLines]
      rw [NDArray.line]
      simp only [List.getElem?_map, List.getElem?_range hi, Option.map_some]
      rw [List.eraseIdx_insertIdx_self]
      simp only [List.getD, List.getElem?_insertIdx_self, hr, if_true, Option.getD_some]
      have : i < (f (y.x.line ax ridx)).length := by rw [hlen, line_length]; exact hi
      rw [List.getElem?_eq_getElem this]
      rfl
    · rw [List.getElem?_eq_none (by rw [line_length]; exact Nat.le_of_not_lt hi),
        List.getElem?_eq_none (by rw [hlen, line_length]; exact Nat.le_of_not_lt hi)]
  rw [← e1, ← e2, this]
  exact h _

/-- The same for the elements of the whole array in row-major order. -/
structure Larry.AlongAllLine (y z : Larry L) (S : List Val → List Val → Prop) : Prop where
  valid : z.Valid
  label_eq : z.label = y.label
  line : ∃ vs ws : List Val, S vs ws ∧ vs.length = y.shape.prod ∧ ws.length = y.shape.prod ∧
    (∀ idx names v, At y.label idx names → y.Has names v → vs[rowMajor y.shape idx]? = some v) ∧
    (∀ idx names v, At y.label idx names → z.Has names v → ws[rowMajor y.shape idx]? = some v)

theorem alongAllLine_spec {y : Larry L} (hv : y.Valid) (f : List Val → List Val) (d : DType)
    {S : List Val → List Val → Prop} (hlen : ∀ vs, (f vs).length = vs.length) (h : ∀ vs, S vs (f vs)) :
    y.AlongAllLine (y.alongAll f d) S := by
  have hL : y.x.vals.length = y.shape.prod := by simp [NDArray.vals, length_allIdx, Larry.shape]
  refine ⟨⟨hv.shape_eq, hv.nodup, hv.ndim_pos⟩, rfl, y.x.vals, f y.x.vals, h _, hL, by rw [hlen, hL], ?_, ?_⟩
  · rintro idx names v hat ⟨idx', hat', rfl⟩
    have := At_unique hv.nodup hat hat'
    subst this
    have hin : InB y.x.shape idx := by rw [hv.shape_eq]; exact At_inB hat
    simp only [NDArray.vals, List.getElem?_map, Larry.shape, allIdx_getElem? hin, Option.map_some]
  · rintro idx names v hat ⟨idx', hat', rfl⟩
    have := At_unique hv.nodup hat hat'
    subst this
    have hin : InB y.x.shape idx := by rw [hv.shape_eq]; exact At_inB hat
    have hlt : rowMajor y.x.shape idx < (f y.x.vals).length := by
      have := allIdx_getElem? hin
      have := (List.getElem?_eq_some_iff.mp this).1
      rw [hlen]
      simpa [NDArray.vals] using this
    simp only [Larry.alongAll, ravelC_eq, List.getD]
    change (f y.x.vals)[rowMajor y.x.shape idx]? = _
    rw [List.getElem?_eq_getElem hlt]
    rfl

end La
