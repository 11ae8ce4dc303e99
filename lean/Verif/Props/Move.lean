import Verif.Move
import Verif.KernelFacts
import Verif.MethodsFacts
import Verif.Examples
import Mathlib.Tactic.IntervalCases

/-!
# Moving window functions (property C50)
-/

namespace La

open Larry

/-- Position `i` of a line of moving values: NaN before the first full window, else `f` of the window
that ends at `i`, as a float. -/
def Moved (f : List Val → Val) (window : Nat) (vs : List Val) (i : Nat) (v : Val) : Prop :=
  (i + 1 < window → v = .flt .nan) ∧
  (window ≤ i + 1 → v = (f ((vs.drop (i + 1 - window)).take window)).toFloat)

/-- The value of a moving function at a position. -/
def movedAt (f : List Val → Val) (arr : NDArray Val) (window ax : Nat) (idx : List Nat) : Val :=
  if idx.getD ax 0 + 1 < window then .flt .nan
  else (f ((List.range window).map (fun j =>
    arr.get ((idx.eraseIdx ax).insertIdx ax (idx.getD ax 0 + 1 - window + j))))).toFloat

theorem window_eq (arr : NDArray Val) (ax : Nat) (rest : List Nat) (k w n : Nat) (hn : arr.shape.getD ax 0 = n)
    (h : k + w ≤ n) : ((arr.line ax rest).drop k).take w =
      (List.range w).map (fun j => arr.get (rest.insertIdx ax (k + j))) := by
  apply List.ext_getElem
  · simp [NDArray.line]; simp at hn; omega
  · intro i h1 h2
    simp [NDArray.line]

theorem modify_insertIdx (l : List Nat) (ax j : Nat) (g : Nat → Nat) (h : ax ≤ l.length) :
    (l.insertIdx ax j).modify ax g = l.insertIdx ax (g j) := by
  induction l generalizing ax with
  | nil => obtain rfl : ax = 0 := by simpa using h
           rfl
  | cons a l ih =>
    cases ax with
    | zero => rfl
    | succ ax => simp [ih ax (by simpa using h)]

theorem moveLoop_fold (f : List Val → Val) (arr : NDArray Val) (w ax : Nat) (hax : ax < arr.ndim) (is : List Nat)
    (hnd : is.Nodup) (y : NDArray Val) (idx : List Nat) (hidx : idx.length = arr.ndim) :
    (is.foldl (moveStep f arr w ax) y).shape = y.shape ∧
    (is.foldl (moveStep f arr w ax) y).get idx =
      if idx.getD ax 0 ∈ is then (f ((List.range w).map (fun j =>
        arr.get ((idx.eraseIdx ax).insertIdx ax (idx.getD ax 0 + 1 - w + j))))).toFloat else y.get idx := by
  induction is generalizing y with
  | nil => simp
  | cons i is ih =>
    rw [List.nodup_cons] at hnd
    obtain ⟨h1, h2⟩ := ih hnd.2 (moveStep f arr w ax y i)
    rw [List.foldl_cons]
    refine ⟨by rw [h1]; rfl, ?_⟩
    rw [h2]
    by_cases hm : idx.getD ax 0 ∈ is
    · rw [if_pos hm, if_pos (List.mem_cons_of_mem _ hm)]
    · rw [if_neg hm]
      by_cases hi : idx.getD ax 0 = i
      · rw [if_pos (by rw [hi]; exact List.mem_cons_self)]
        simp only [moveStep, NDArray.putAx, if_pos hi, NDArray.map, NDArray.reduceAx]
        congr 2
        simp only [NDArray.line, NDArray.gather, List.length_range']
        have : (arr.shape.set ax w).getD ax 0 = w := by
          rw [List.getD_eq_getElem?_getD, List.getElem?_set_self hax]; rfl
        rw [this]
        apply List.map_congr_left
        intro j hj
        rw [List.mem_range] at hj
        congr 1
        have hle : ax ≤ (idx.eraseIdx ax).length := by
          rw [List.length_eraseIdx_of_lt (by rw [hidx]; exact hax), hidx]; omega
        rw [modify_insertIdx _ _ _ _ hle, hi]
        simp [hj]
      · rw [if_neg (by rw [List.mem_cons]; exact fun h => h.elim hi hm)]
        simp only [moveStep, NDArray.putAx, if_neg hi]


theorem moveLoop_spec (f : List Val → Val) (arr : NDArray Val) {window : Nat} (hw : 1 ≤ window) {axis : Int} {ax : Nat}
    (hax : pyIdx arr.ndim axis = some ax) (hn : window ≤ arr.shape.getD ax 0) :
    ∃ z, moveLoop f arr window (some axis) = .ok z ∧ z.shape = arr.shape ∧
      ∀ idx, InB arr.shape idx → z.get idx = movedAt f arr window ax idx := by
  have haxlt := pyIdx_lt hax
  refine ⟨(List.range' (window - 1) (arr.shape.getD ax 0 - (window - 1))).foldl
          (moveStep f arr window ax) (NDArray.full arr.shape (.flt .nan)), ?_, ?_, ?_⟩
  · simp only [moveLoop, hax]
    rw [if_neg (by omega), if_neg (by omega)]
    rfl
  · have : ∀ (is : List Nat) (y : NDArray Val), (is.foldl (moveStep f arr window ax) y).shape = y.shape := by
      intro is
      induction is with
      | nil => intro y; rfl
      | cons i is ih => intro y; rw [List.foldl_cons, ih]; rfl
    rw [this]; rfl
  · intro idx hidx
    rw [(moveLoop_fold f arr window ax haxlt _ List.nodup_range' _ idx (InB_length hidx)).2]
    have hlt : idx.getD ax 0 < arr.shape.getD ax 0 := by
      have hl : ax < idx.length := by rw [InB_length hidx]; exact haxlt
      have := (InB_iff.mp hidx).2 ax _ _ (List.getElem?_eq_getElem haxlt) (List.getElem?_eq_getElem hl)
      rw [List.getD_eq_getElem?_getD, List.getD_eq_getElem?_getD, List.getElem?_eq_getElem haxlt,
        List.getElem?_eq_getElem hl]
      exact this
    unfold movedAt
    simp only [List.mem_range'_1]
    by_cases h : idx.getD ax 0 + 1 < window
    · rw [if_neg (by omega), if_pos h]; rfl
    · rw [if_pos (by omega), if_neg h]

theorem moveStrides_shape (f : List Val → Val) (buf : Int → Val) (arr : Strided) (h3 : arr.shape.length ≤ 3) {window : Nat}
    (hw : 1 ≤ window) {ax : Nat} (hax : ax < arr.shape.length) (hn : window ≤ arr.shape.getD ax 0) :
    (moveBack arr.shape.length ax (((((arr.front ax).windows window).nd buf).reduceAx f 1).map Val.toFloat)).shape =
      arr.shape.set ax (arr.shape.getD ax 0 - (window - 1)) := by
  obtain ⟨shape, strides, off⟩ := arr
  match shape, h3 with
  | [n], _ =>
    obtain rfl : ax = 0 := by simpa using hax
    simp [moveBack, NDArray.map, NDArray.reduceAx, Strided.nd, Strided.windows, Strided.front] at hn ⊢
    omega
  | [n, m], _ =>
    match ax, hax with
    | 0, _ =>
      simp [moveBack, NDArray.map, NDArray.reduceAx, Strided.nd, Strided.windows, Strided.front] at hn ⊢
      omega
    | 1, _ =>
      simp [moveBack, NDArray.map, NDArray.reduceAx, Strided.nd, Strided.windows, Strided.front, NDArray.transpose,
        Strided.T] at hn ⊢
      omega
  | [n, m, p], _ =>
    match ax, hax with
    | 0, _ =>
      simp [moveBack, NDArray.map, NDArray.reduceAx, Strided.nd, Strided.windows, Strided.front] at hn ⊢
      omega
    | 1, _ =>
      simp [moveBack, NDArray.map, NDArray.reduceAx, Strided.nd, Strided.windows, Strided.front, NDArray.swapaxes,
        Strided.swap0, swapList] at hn ⊢
      omega
    | 2, _ =>
      simp [moveBack, NDArray.map, NDArray.reduceAx, Strided.nd, Strided.windows, Strided.front, NDArray.swapaxes,
        Strided.swap0, swapList] at hn ⊢
      omega

theorem moveStrides_spec (f : List Val → Val) (buf : Int → Val) (arr : Strided)
    (hs : arr.strides.length = arr.shape.length) (h3 : arr.shape.length ≤ 3) {window : Nat} (hw : 1 ≤ window)
    {axis : Int} {ax : Nat} (hax : pyIdx arr.shape.length axis = some ax) (hn : window ≤ arr.shape.getD ax 0) :
    ∃ z, moveStrides f buf arr window (some axis) = .ok z ∧ z.shape = arr.shape ∧
      ∀ idx, InB arr.shape idx → z.get idx = movedAt f (arr.nd buf) window ax idx := by
  have haxlt := pyIdx_lt hax
  refine ⟨_, by
    simp only [moveStrides, hax]
    rw [if_neg (by omega), if_neg (by omega), if_neg (by omega)]
    unfold NDArray.storeTail
    rw [if_pos (by
      simp only [Int.toNat_natCast, NDArray.full]
      exact moveStrides_shape f buf arr h3 hw haxlt hn)], rfl, ?_⟩
  intro idx hidx
  obtain ⟨shape, strides, off⟩ := arr
  simp only [Int.toNat_natCast] at *
  unfold movedAt
  simp only [NDArray.putTail, NDArray.full]
  by_cases hlo : idx.getD ax 0 + 1 < window
  · rw [if_pos hlo, if_neg (by omega)]
  rw [if_neg hlo, if_pos (by omega)]
  match shape, strides, hs, h3 with
  | [n], [s], _, _ =>
    obtain rfl : ax = 0 := by simpa using haxlt
    match idx, hidx with
    | [i], _ =>
      simp [moveBack, NDArray.map, NDArray.reduceAx, NDArray.line, Strided.nd, Strided.windows, Strided.front,
        Strided.addr] at hlo ⊢
      have e : i - (window - 1) = i + 1 - window := by omega
      rw [e]
      congr 2
      apply List.map_congr_left
      intro j hj
      congr 1
      push_cast
      ring
  | [n, m], [s, t], _, _ =>
    match idx, hidx with
    | [i, k], _ =>
      match ax, haxlt with
      | 0, _ =>
        simp [moveBack, NDArray.map, NDArray.reduceAx, NDArray.line, Strided.nd, Strided.windows, Strided.front,
          Strided.addr] at hlo ⊢
        have e : i - (window - 1) = i + 1 - window := by omega
        rw [e]
        congr 2
        apply List.map_congr_left
        intro j hj
        congr 1
        push_cast
        ring
      | 1, _ =>
        simp [moveBack, NDArray.map, NDArray.reduceAx, NDArray.line, Strided.nd, Strided.windows, Strided.front,
          Strided.addr, NDArray.transpose, Strided.T] at hlo ⊢
        have e : k - (window - 1) = k + 1 - window := by omega
        rw [e]
        congr 2
        apply List.map_congr_left
        intro j hj
        congr 1
        push_cast
        ring
  | [n, m, p], [s, t, u], _, _ =>
    match idx, hidx with
    | [i, k, l], _ =>
      match ax, haxlt with
      | 0, _ =>
        simp [moveBack, NDArray.map, NDArray.reduceAx, NDArray.line, Strided.nd, Strided.windows, Strided.front,
          Strided.addr] at hlo ⊢
        have e : i - (window - 1) = i + 1 - window := by omega
        rw [e]
        congr 2
        apply List.map_congr_left
        intro j hj
        congr 1
        push_cast
        ring
      | 1, _ =>
        simp [moveBack, NDArray.map, NDArray.reduceAx, NDArray.line, Strided.nd, Strided.windows, Strided.front,
          Strided.addr, NDArray.swapaxes, Strided.swap0, swapList] at hlo ⊢
        have e : k - (window - 1) = k + 1 - window := by omega
        rw [e]
        congr 2
        apply List.map_congr_left
        intro j hj
        congr 1
        push_cast
        ring
      | 2, _ =>
        simp [moveBack, NDArray.map, NDArray.reduceAx, NDArray.line, Strided.nd, Strided.windows, Strided.front,
          Strided.addr, NDArray.swapaxes, Strided.swap0, swapList] at hlo ⊢
        have e : l - (window - 1) = l + 1 - window := by omega
        rw [e]
        congr 2
        apply List.map_congr_left
        intro j hj
        congr 1
        push_cast
        ring

/-- C50. The two methods give the same array. -/
theorem C50_agree (f : List Val → Val) (buf : Int → Val) (arr : Strided)
    (hs : arr.strides.length = arr.shape.length) (h3 : arr.shape.length ≤ 3) {window : Nat} (hw : 1 ≤ window)
    {axis : Int} {ax : Nat} (hax : pyIdx arr.shape.length axis = some ax) (hn : window ≤ arr.shape.getD ax 0) :
    ∃ z z', moveFunc f buf arr window (some axis) .loop = .ok z ∧
      moveFunc f buf arr window (some axis) .strides = .ok z' ∧ z.Same z' ∧ z.shape = arr.shape := by
  obtain ⟨z, h1, h2, hc⟩ := moveLoop_spec f (arr.nd buf) hw hax hn
  obtain ⟨z', g1, g2, g3⟩ := moveStrides_spec f buf arr hs h3 hw hax hn
  refine ⟨z, z', h1, g1, ⟨by rw [h2, g2]; rfl, fun idx hidx => ?_⟩, h2⟩
  rw [h2] at hidx
  rw [hc idx hidx, g3 idx hidx]

/-- The distance in memory from the first element to the one at an index: a stride per step along each
axis. -/
def steps : List Int → List Nat → Int
  | a :: as, i :: is => i * a + steps as is
  | _, _ => 0

theorem addr_eq (arr : Strided) (idx : List Nat) : arr.addr idx = arr.offset + steps arr.strides idx := by
  unfold Strided.addr
  congr 1
  generalize arr.strides = st
  induction st generalizing idx with
  | nil => cases idx <;> rfl
  | cons a as ih => cases idx with
    | nil => rfl
    | cons i is => simp only [List.zipWith_cons_cons, List.sum_cons, ih, steps]; ring

/-- The values of a larry lie in memory as `arr` says: from its offset on, `strides` apart. -/
def StoredAs (y : Larry L) (buf : Int → Val) (arr : Strided) : Prop :=
  arr.shape = y.x.shape ∧ arr.strides.length = arr.shape.length ∧
  ∀ idx, InB arr.shape idx → buf (arr.offset + steps arr.strides idx) = y.x.get idx

/-- C50. `move_func(func, window, axis, method)`: NaN at the first `window-1` positions along the axis, then
`func` of the window that ends at each position; labels unchanged.  With method 'loop' any number of
dimensions, with 'strides' up to 3. -/
theorem C50_move_func {f : List Val → Val} {buf : Int → Val} {arr : Strided} {y : Larry L} (hv : y.Valid)
    (hst : StoredAs y buf arr) {m : MoveMethod} (hm : m = .loop ∨ m = .strides ∧ y.ndim ≤ 3) {window : Nat}
    (hw : 1 ≤ window) {axis : Int} {ax : Nat} (hax : pyIdx y.ndim axis = some ax) {l : List L}
    (hl : y.label[ax]? = some l) (hn : window ≤ l.length) :
    ∃ z, y.moveFunc f buf arr window (some axis) m = .ok z ∧ z.dtype = .float ∧ y.Along z ax (Moved f window) := by
  obtain ⟨hsh, hstl, hval⟩ := hst
  simp only [← addr_eq] at hval
  have hax' : pyIdx arr.shape.length axis = some ax := by rw [hsh]; exact hax
  have hlen : arr.shape.getD ax 0 = l.length := by rw [hsh]; simp [hv.shape_eq, hl]
  have hn' : window ≤ arr.shape.getD ax 0 := by rw [hlen]; exact hn
  have key : ∃ x, moveFunc f buf arr window (some axis) m = .ok x ∧ x.shape = arr.shape ∧
      ∀ idx, InB arr.shape idx → x.get idx = movedAt f (arr.nd buf) window ax idx := by
    rcases hm with rfl | ⟨rfl, h3⟩
    · exact moveLoop_spec f (arr.nd buf) hw hax' hn'
    · exact moveStrides_spec f buf arr hstl (by rw [hsh]; exact h3) hw hax' hn'
  obtain ⟨x, h1, h2, h3⟩ := key
  refine ⟨⟨x, .float, y.label⟩, by simp [Larry.moveFunc, h1], rfl, ?_⟩
  have haxlt := pyIdx_lt hax
  refine along_of_getB (z := ⟨x, .float, y.label⟩) hv hl rfl (by rw [← hsh]; exact h2) fun ridx i hr hi hin => ?_
  have hlc : (y.x.line ax ridx).length = l.length := by rw [line_length, ← hsh, hlen]
  change Moved f window _ i (x.get (ridx.insertIdx ax i))
  rw [h3 _ (by rw [hsh]; exact hin)]
  have e : (ridx.insertIdx ax i).getD ax 0 = i := by
    rw [List.getD_eq_getElem?_getD, List.getElem?_insertIdx_self, if_pos hr]; rfl
  simp only [movedAt, e, List.eraseIdx_insertIdx_self]
  refine ⟨fun h => by rw [if_pos h], fun h => ?_⟩
  rw [if_neg (by omega), window_eq y.x ax ridx (i + 1 - window) window l.length (by rw [← hsh]; exact hlen) (by omega)]
  congr 2
  apply List.map_congr_left
  intro j hj
  rw [List.mem_range] at hj
  refine hval _ ?_
  rw [hsh]
  rw [InB_iff] at hin ⊢
  refine ⟨by rw [← hin.1]; simp [List.length_insertIdx], fun k n c hk hc => ?_⟩
  by_cases hka : k = ax
  · subst hka
    rw [List.getElem?_insertIdx_self, if_pos hr] at hc
    rw [hv.shape_eq, List.getElem?_map, hl] at hk
    simp at hc hk
    omega
  · have := hin.2 k n c hk
    rcases Nat.lt_or_gt_of_ne hka with h' | h'
    · rw [List.getElem?_insertIdx_of_lt h'] at hc this; exact this hc
    · rw [List.getElem?_insertIdx_of_gt h'] at hc this; exact this hc

theorem windows_addr (arr : Strided) (hs : arr.strides.length = arr.shape.length) (h3 : arr.shape.length ≤ 3)
    {window ax : Nat} (hax : ax < arr.shape.length) (hn : window ≤ arr.shape.getD ax 0)
    (idx : List Nat) (hidx : InB ((arr.front ax).windows window).shape idx) :
    ∃ idx', InB arr.shape idx' ∧ ((arr.front ax).windows window).addr idx = arr.addr idx' := by
  obtain ⟨shape, strides, off⟩ := arr
  match shape, strides, hs, h3 with
  | [n], [s], _, _ =>
    obtain rfl : ax = 0 := by simpa using hax
    match idx, hidx with
    | [i, j], h =>
      simp [Strided.front, Strided.windows, InB] at h hn
      exact ⟨[i + j], by simp [InB]; omega, by simp [Strided.front, Strided.windows, Strided.addr]; ring⟩
  | [n, m], [s, t], _, _ =>
    match ax, hax with
    | 0, _ =>
      match idx, hidx with
      | [i, j, k], h =>
        simp [Strided.front, Strided.windows, InB] at h hn
        exact ⟨[i + j, k], by simp [InB]; omega, by simp [Strided.front, Strided.windows, Strided.addr]; ring⟩
    | 1, _ =>
      match idx, hidx with
      | [i, j, k], h =>
        simp [Strided.front, Strided.windows, InB, Strided.T] at h hn
        exact ⟨[k, i + j], by simp [InB]; omega, by simp [Strided.front, Strided.windows, Strided.addr, Strided.T]; ring⟩
  | [n, m, p], [s, t, u], _, _ =>
    match ax, hax with
    | 0, _ =>
      match idx, hidx with
      | [i, j, k, l], h =>
        simp [Strided.front, Strided.windows, InB] at h hn
        exact ⟨[i + j, k, l], by simp [InB]; omega, by simp [Strided.front, Strided.windows, Strided.addr]; ring⟩
    | 1, _ =>
      match idx, hidx with
      | [i, j, k, l], h =>
        simp [Strided.front, Strided.windows, InB, Strided.swap0, swapList] at h hn
        exact ⟨[k, i + j, l], by simp [InB]; omega,
          by simp [Strided.front, Strided.windows, Strided.addr, Strided.swap0, swapList]; ring⟩
    | 2, _ =>
      match idx, hidx with
      | [i, j, k, l], h =>
        simp [Strided.front, Strided.windows, InB, Strided.swap0, swapList] at h hn
        exact ⟨[l, k, i + j], by simp [InB]; omega,
          by simp [Strided.front, Strided.windows, Strided.addr, Strided.swap0, swapList]; ring⟩

/-- C50. The strided view only addresses memory of the input array. -/
theorem C50_in_bounds (arr : Strided) (hs : arr.strides.length = arr.shape.length) (h3 : arr.shape.length ≤ 3)
    {window ax : Nat} (hax : ax < arr.shape.length) (hn : window ≤ arr.shape.getD ax 0)
    (idx : List Nat) (hidx : InB ((arr.front ax).windows window).shape idx) :
    ∃ idx', InB arr.shape idx' ∧ ((arr.front ax).windows window).offset +
      steps ((arr.front ax).windows window).strides idx = arr.offset + steps arr.strides idx' := by
  obtain ⟨idx', h1, h2⟩ := windows_addr arr hs h3 hax hn idx hidx
  rw [addr_eq, addr_eq] at h2
  exact ⟨idx', h1, h2⟩

/-- C50: refusals. -/
theorem C50_errors (f : List Val → Val) (buf : Int → Val) (arr : Strided) (window : Int) (m : MoveMethod) :
    (∀ axis, window < 1 → moveFunc f buf arr window axis m = .error .valueError) ∧
    (moveFunc f buf arr window none m = .error .valueError) ∧
    (∀ axis ax, pyIdx arr.shape.length axis = some ax → (arr.shape.getD ax 0 : Int) < window →
      moveFunc f buf arr window (some axis) m = .error .valueError) ∧
    (∀ axis, m ≠ .unknown → 1 ≤ window → pyIdx arr.shape.length axis = none →
      moveFunc f buf arr window (some axis) m = .error .indexError) ∧
    (∀ axis ax, pyIdx arr.shape.length axis = some ax → 3 < arr.shape.length →
      moveFunc f buf arr window (some axis) .strides = .error .valueError) := by
  refine ⟨?_, ?_, ?_, ?_, ?_⟩
  · intro axis h
    cases m <;> cases axis <;> simp [moveFunc, moveLoop, moveStrides, h]
  · cases m <;> simp [moveFunc, moveLoop, moveStrides]
  · intro axis ax hax h
    have hax' : pyIdx (arr.nd buf).ndim axis = some ax := hax
    have h' : ((arr.nd buf).shape.getD ax 0 : Int) < window := h
    by_cases h1 : window < 1
    · cases m <;> simp [moveFunc, moveLoop, moveStrides, h1]
    · cases m
      · simp only [moveFunc, moveStrides, hax]; rw [if_neg h1, if_pos h]
      · simp only [moveFunc, moveLoop, hax']; rw [if_neg h1, if_pos h']
      · rfl
  · intro axis hm h1 hax
    have hax' : pyIdx (arr.nd buf).ndim axis = none := hax
    cases m
    · simp only [moveFunc, moveStrides, hax]; rw [if_neg (by omega)]
    · simp only [moveFunc, moveLoop, hax']; rw [if_neg (by omega)]
    · exact absurd rfl hm
  · intro axis ax hax h3
    simp only [moveFunc, moveStrides, hax]
    split_ifs <;> rfl

/-- `exA` in memory in Fortran order with 8-byte elements, from address 100. -/
def exStrided : Strided := ⟨[2, 3], [8, 16], 100⟩

def exBuf (a : Int) : Val :=
  if a = 100 then exA.x.get [0, 0] else if a = 108 then exA.x.get [1, 0] else if a = 116 then exA.x.get [0, 1]
  else if a = 124 then exA.x.get [1, 1] else if a = 132 then exA.x.get [0, 2] else exA.x.get [1, 2]

example : exA.Valid ∧ StoredAs exA exBuf exStrided ∧ pyIdx exA.ndim 1 = some 1 ∧ exA.ndim ≤ 3 ∧
    exA.label[1]? = some [3, 1, 2] ∧ 2 ≤ [3, 1, 2].length := by
  refine ⟨exA_valid, ⟨rfl, rfl, ?_⟩, rfl, by decide, rfl, by decide⟩
  intro idx h
  match idx, h with
  | [i, j], h =>
    simp [exStrided, InB] at h
    obtain ⟨h1, h2⟩ := h
    interval_cases i <;> interval_cases j <;> rfl

end La
