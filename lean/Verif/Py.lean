import Mathlib.Data.List.Nodup
import Mathlib.Data.List.Basic
import Mathlib.Data.List.Dedup
import Mathlib.Data.List.Sort
import Mathlib.Order.Defs.LinearOrder

/-!
# Python primitives used by the model

Exceptions are values (`Res`).  Each definition models a builtin of the Python language that the
`la` sources call; the places in /repo that use it are cited.
-/

namespace La

/-- Exception classes raised by the modelled code (the message is not modelled). -/
inductive PyErr
  | valueError | indexError | typeError | keyError | runtimeError | notImplementedError
  | attributeError | csvError | stopIteration | zeroDivisionError
  deriving DecidableEq, Repr

/-- Outcome of a Python call: a value or a raised exception. -/
abbrev Res (α : Type _) := Except PyErr α

/-- Python index normalisation: the position in a sequence of length `n` denoted by the (possibly
negative) integer `i`; `none` when Python raises IndexError.  Used for `label[axis]`
(la/deflarry.py:1953, 3333, ...), numpy `take` indices, `range(ndim)[axis]`
(la/deflarry.py:3958). -/
def pyIdx (n : Nat) (i : Int) : Option Nat :=
  if 0 ≤ i then (if i < n then some i.toNat else none)
  else (if -(n : Int) ≤ i then some (i + n).toNat else none)

/-- Index normalisation that raises IndexError (numpy integer indexing and `take`). -/
def pyIdxE (n : Nat) (i : Int) : Res Nat :=
  match pyIdx n i with
  | some k => .ok k
  | none => .error .indexError

/-- Python `l[i]` on a list: IndexError when out of range. -/
def pyGet {α : Type _} (l : List α) (i : Int) : Res α :=
  match pyIdx l.length i with
  | none => .error .indexError
  | some k => match l[k]? with
    | none => .error .indexError
    | some a => .ok a

/-- A Python `slice(start, stop, step)` object. -/
structure PySlice where
  start : Option Int := none
  stop  : Option Int := none
  step  : Option Int := none
  deriving DecidableEq, Repr

/-- One bound of `slice.indices(n)` (CPython `PySlice_AdjustIndices`): add `n` to a negative bound,
then clamp to `[lo, hi]`. -/
def clampBound (n : Nat) (lo hi : Int) (b : Int) : Int :=
  let b' := if b < 0 then b + n else b
  if b' < lo then lo else if hi < b' then hi else b'

/-- The positions `a, a+d, a+2d, …` of an arithmetic progression, `len` of them. -/
def arith (a d : Int) : Nat → List Nat
  | 0 => []
  | len + 1 => a.toNat :: arith (a + d) d len

/-- `list(range(start, stop, step))` for `step > 0` or `step < 0`; only called with bounds that make
every element a legal position. -/
def pyRange (start stop step : Int) : List Nat :=
  if 0 < step then
    arith start step ((stop - start + step - 1) / step).toNat
  else
    arith start step ((start - stop + (-step) - 1) / (-step)).toNat

/-- `list(range(*s.indices(n)))`: the positions of an axis of length `n` selected by the slice `s`,
in order.  A zero step raises ValueError.  Used wherever the code slices a label list or an axis
(la/deflarry.py:1803, 1834, 3597-3605, 3770-3775, 5056). -/
def sliceIndices (n : Nat) (s : PySlice) : Res (List Nat) :=
  match s.step.getD 1 with
  | .ofNat 0 => .error .valueError
  | .ofNat (k + 1) =>
    let start := match s.start with | none => 0 | some b => clampBound n 0 n b
    let stop  := match s.stop  with | none => (n : Int) | some b => clampBound n 0 n b
    .ok (pyRange start stop (k + 1 : Nat))
  | .negSucc k =>
    let start := match s.start with | none => (n : Int) - 1 | some b => clampBound n (-1) (n - 1) b
    let stop  := match s.stop  with | none => (-1 : Int) | some b => clampBound n (-1) (n - 1) b
    .ok (pyRange start stop (.negSucc k))

section order
variable {L : Type _} [LinearOrder L]

/-- `sorted(l)` / `l.sort()` (a stable sort; insertion sort computes the same list) for labels of a totally ordered type (la/flabel.py:189,
la/deflarry.py:1059, 3471, la/flarry.py:288, 300, 512, 608, 650). -/
def pySorted (l : List L) : List L := l.insertionSort (· ≤ ·)

/-- `sorted(l, reverse=True)` (la/deflarry.py:3696). -/
def pySortedRev (l : List L) : List L := l.insertionSort (fun a b => b ≤ a)

/-- `list(set(l1).intersection(l2))` in *some* enumeration order; every caller sorts the result
immediately, and `pySorted_perm` below shows the order is then irrelevant. -/
def setInter (l1 l2 : List L) : List L := l1.dedup.filter (· ∈ l2)

/-- `list(set(l1).union(l2))` in some enumeration order (see `setInter`). -/
def setUnion (l1 l2 : List L) : List L := (l1 ++ l2).dedup

end order

/-- Python `l.index(name)`: first position, `none` for ValueError (la/deflarry.py:2635, 5169). -/
def pyIndex {α : Type _} [DecidableEq α] (l : List α) (a : α) : Option Nat := l.idxOf? a

/-- `len(set(l)) != len(l)` is how the code tests for duplicates (la/deflarry.py:112, 1840, 1863,
1955, 3358); the size of a set of hashables is the number of distinct elements. -/
def hasDup {α : Type _} [DecidableEq α] (l : List α) : Bool := l.dedup.length != l.length

/-! ## Facts about the primitives -/

theorem pyIdx_lt {n : Nat} {i : Int} {k : Nat} (h : pyIdx n i = some k) : k < n := by
  unfold pyIdx at h
  split at h <;> split at h <;> simp at h <;> omega

theorem pyIdx_ofNat {n k : Nat} (h : k < n) : pyIdx n (k : Int) = some k := by
  unfold pyIdx; simp [h]

theorem pyIdx_neg {n k : Nat} (h0 : 0 < k) (h : k ≤ n) : pyIdx n (-(k : Int)) = some (n - k) := by
  unfold pyIdx
  rw [if_neg (by omega), if_pos (by omega)]
  congr 1; omega

theorem pyIdx_none {n : Nat} {i : Int} : pyIdx n i = none ↔ (n : Int) ≤ i ∨ i < -(n : Int) := by
  unfold pyIdx
  split <;> split <;> simp <;> omega

theorem pyIdx_some {n : Nat} {i : Int} {k : Nat} :
    pyIdx n i = some k ↔ (k < n ∧ ((k : Int) = i ∨ (k : Int) = i + n)) := by
  unfold pyIdx
  split <;> split <;> simp <;> omega

theorem pyIdxE_ok {n : Nat} {i : Int} {k : Nat} : pyIdxE n i = .ok k ↔ pyIdx n i = some k := by
  unfold pyIdxE; cases pyIdx n i <;> simp

theorem pyIdxE_error {n : Nat} {i : Int} {e : PyErr} :
    pyIdxE n i = .error e ↔ pyIdx n i = none ∧ e = .indexError := by
  unfold pyIdxE; cases pyIdx n i <;> simp [eq_comm]

theorem pyGet_ok {α : Type _} {l : List α} {i : Int} {a : α} :
    pyGet l i = .ok a ↔ ∃ k, pyIdx l.length i = some k ∧ l[k]? = some a := by
  unfold pyGet
  cases h : pyIdx l.length i with
  | none => simp
  | some k =>
    have := pyIdx_lt h
    simp [this]

theorem pyGet_of {α : Type _} {l : List α} {i : Int} {k : Nat} (h : pyIdx l.length i = some k) :
    pyGet l i = .ok (l[k]'(pyIdx_lt h)) := by
  rw [pyGet_ok]; exact ⟨k, h, by simp⟩

theorem pyGet_error {α : Type _} {l : List α} {i : Int} (h : pyIdx l.length i = none) :
    pyGet l i = .error .indexError := by
  unfold pyGet; simp [h]

section order
variable {L : Type _} [LinearOrder L]

theorem pySorted_perm_self (l : List L) : (pySorted l).Perm l := List.perm_insertionSort _ _

theorem mem_pySorted {l : List L} {a : L} : a ∈ pySorted l ↔ a ∈ l :=
  (pySorted_perm_self l).mem_iff

theorem pySorted_nodup {l : List L} (h : l.Nodup) : (pySorted l).Nodup :=
  (pySorted_perm_self l).nodup_iff.mpr h

theorem pySorted_pairwise (l : List L) : (pySorted l).Pairwise (· ≤ ·) :=
  List.pairwise_insertionSort (· ≤ ·) l

theorem pySortedRev_perm_self (l : List L) : (pySortedRev l).Perm l := List.perm_insertionSort _ _

theorem mem_pySortedRev {l : List L} {a : L} : a ∈ pySortedRev l ↔ a ∈ l :=
  (pySortedRev_perm_self l).mem_iff

theorem pySortedRev_nodup {l : List L} (h : l.Nodup) : (pySortedRev l).Nodup :=
  (pySortedRev_perm_self l).nodup_iff.mpr h

theorem pySortedRev_pairwise (l : List L) : (pySortedRev l).Pairwise (fun a b => b ≤ a) := by
  have : Std.Total (fun a b : L => b ≤ a) := ⟨fun a b => le_total b a⟩
  have : IsTrans L (fun a b : L => b ≤ a) := ⟨fun a b c h1 h2 => le_trans h2 h1⟩
  exact List.pairwise_insertionSort (fun a b : L => b ≤ a) l

/-- Two ascending lists with the same elements (with multiplicity) are equal. -/
theorem eq_of_perm_of_sorted {l1 l2 : List L} (hp : l1.Perm l2)
    (h1 : l1.Pairwise (· ≤ ·)) (h2 : l2.Pairwise (· ≤ ·)) : l1 = l2 :=
  List.Perm.eq_of_pairwise (fun _ _ _ _ => le_antisymm) h1 h2 hp

/-- Sorting forgets the enumeration order: this is why the iteration order of Python sets cannot be
observed through the modelled functions. -/
theorem pySorted_perm {l1 l2 : List L} (hp : l1.Perm l2) : pySorted l1 = pySorted l2 :=
  eq_of_perm_of_sorted ((pySorted_perm_self l1).trans (hp.trans (pySorted_perm_self l2).symm))
    (pySorted_pairwise l1) (pySorted_pairwise l2)

/-- Strictly increasing lists with the same members are equal. -/
theorem eq_of_mem_iff_of_lt {l1 l2 : List L} (h1 : l1.Pairwise (· < ·)) (h2 : l2.Pairwise (· < ·))
    (h : ∀ a, a ∈ l1 ↔ a ∈ l2) : l1 = l2 := by
  have n1 : l1.Nodup := h1.imp (fun h => ne_of_lt h)
  have n2 : l2.Nodup := h2.imp (fun h => ne_of_lt h)
  exact eq_of_perm_of_sorted ((List.perm_ext_iff_of_nodup n1 n2).mpr h)
    (h1.imp le_of_lt) (h2.imp le_of_lt)

theorem pySorted_lt {l : List L} (h : l.Nodup) : (pySorted l).Pairwise (· < ·) := by
  have h1 := pySorted_pairwise l
  have h2 : (pySorted l).Pairwise (· ≠ ·) := pySorted_nodup h
  exact (h1.and h2).imp (fun h => lt_of_le_of_ne h.1 h.2)

theorem pySorted_of_sorted {l : List L} (h : l.Pairwise (· ≤ ·)) : pySorted l = l :=
  eq_of_perm_of_sorted (pySorted_perm_self l) (pySorted_pairwise l) h

theorem mem_setInter {l1 l2 : List L} {a : L} : a ∈ setInter l1 l2 ↔ a ∈ l1 ∧ a ∈ l2 := by
  simp [setInter]

theorem nodup_setInter {l1 l2 : List L} : (setInter l1 l2).Nodup :=
  (List.nodup_dedup l1).filter _

theorem mem_setUnion {l1 l2 : List L} {a : L} : a ∈ setUnion l1 l2 ↔ a ∈ l1 ∨ a ∈ l2 := by
  simp [setUnion]

theorem nodup_setUnion {l1 l2 : List L} : (setUnion l1 l2).Nodup := List.nodup_dedup _

end order

theorem hasDup_false {α : Type _} [DecidableEq α] {l : List α} : hasDup l = false ↔ l.Nodup := by
  unfold hasDup
  constructor
  · intro h
    have hl : l.dedup.length = l.length := by simpa using h
    have := (List.dedup_sublist l).eq_of_length hl
    exact List.dedup_eq_self.mp this
  · intro h; simp [List.dedup_eq_self.mpr h]

theorem hasDup_true {α : Type _} [DecidableEq α] {l : List α} : hasDup l = true ↔ ¬ l.Nodup := by
  rw [← hasDup_false]; simp

theorem pyIndex_some {α : Type _} [DecidableEq α] {l : List α} {a : α} {i : Nat}
    (h : pyIndex l a = some i) : l[i]? = some a := by
  unfold pyIndex at h
  rw [List.idxOf?_eq_some_iff] at h
  obtain ⟨h1, h2, _⟩ := h
  simp [h1, h2]

theorem pyIndex_none {α : Type _} [DecidableEq α] {l : List α} {a : α} :
    pyIndex l a = none ↔ a ∉ l := by
  unfold pyIndex; simp

theorem nodup_getElem?_inj {α : Type _} {l : List α} (h : l.Nodup) {i j : Nat} {a : α}
    (hi : l[i]? = some a) (hj : l[j]? = some a) : i = j := by
  obtain ⟨hi', hi2⟩ := List.getElem?_eq_some_iff.mp hi
  obtain ⟨hj', hj2⟩ := List.getElem?_eq_some_iff.mp hj
  exact (List.Nodup.getElem_inj_iff h).mp (hi2.trans hj2.symm)

theorem pyIndex_of_nodup {α : Type _} [DecidableEq α] {l : List α} (h : l.Nodup) {a : α} {i : Nat}
    (hi : l[i]? = some a) : pyIndex l a = some i := by
  cases hp : pyIndex l a with
  | none =>
    rw [pyIndex_none] at hp
    exact absurd (List.mem_of_getElem? hi) hp
  | some j => rw [nodup_getElem?_inj h (pyIndex_some hp) hi]

/-! ### Slices -/

theorem arith_length (a d : Int) (n : Nat) : (arith a d n).length = n := by
  induction n generalizing a with
  | zero => rfl
  | succ n ih => simp [arith, ih]

theorem arith_getElem? (a d : Int) (n k : Nat) :
    (arith a d n)[k]? = if k < n then some (a + k * d).toNat else none := by
  induction n generalizing a k with
  | zero => simp [arith]
  | succ n ih =>
    cases k with
    | zero => simp [arith]
    | succ k =>
      simp only [arith, List.getElem?_cons_succ, ih]
      have : a + d + (k : Int) * d = a + ((k + 1 : Nat) : Int) * d := by
        push_cast; rw [Int.add_mul]; omega
      simp [this]

theorem mem_arith {a d : Int} {n i : Nat} (h : i ∈ arith a d n) :
    ∃ k : Nat, k < n ∧ i = (a + k * d).toNat := by
  obtain ⟨k, hk⟩ := List.mem_iff_getElem?.mp h
  rw [arith_getElem?] at hk
  split at hk
  · exact ⟨k, by assumption, by simpa using hk.symm⟩
  · simp at hk

/-- Elements of a positive-step range lie in `[start, stop)`. -/
theorem pyRange_pos_bound {start stop step : Int} (hs : 0 < step) (k : Nat)
    (hk : k < ((stop - start + step - 1) / step).toNat) :
    start + k * step < stop := by
  have h1 : ((k : Int) + 1) ≤ (stop - start + step - 1) / step := by omega
  have h2 := (Int.le_ediv_iff_mul_le hs).mp h1
  have h3 : ((k : Int) + 1) * step = k * step + step := by rw [Int.add_mul]; omega
  omega

theorem pyRange_neg_bound {start stop step : Int} (hs : step < 0) (k : Nat)
    (hk : k < ((start - stop + (-step) - 1) / (-step)).toNat) :
    stop < start + k * step := by
  have hs' : 0 < -step := by omega
  have h1 : ((k : Int) + 1) ≤ (start - stop + (-step) - 1) / (-step) := by omega
  have h2 := (Int.le_ediv_iff_mul_le hs').mp h1
  have h3 : ((k : Int) + 1) * -step = -(k * step) - step := by
    rw [Int.add_mul, Int.mul_neg]; omega
  omega

theorem clampBound_bounds {n : Nat} {lo hi b : Int} (h : lo ≤ hi) :
    lo ≤ clampBound n lo hi b ∧ clampBound n lo hi b ≤ hi := by
  unfold clampBound
  simp only
  split <;> split <;> (try split) <;> omega

theorem pyRange_pos_mem {n : Nat} {start stop step : Int} (hs : 0 < step) (h0 : 0 ≤ start)
    (h1 : stop ≤ n) {i : Nat} (h : i ∈ pyRange start stop step) : i < n := by
  unfold pyRange at h
  rw [if_pos hs] at h
  obtain ⟨k, hk, rfl⟩ := mem_arith h
  have := pyRange_pos_bound hs k hk
  have : 0 ≤ (k : Int) * step := Int.mul_nonneg (by omega) (by omega)
  omega

theorem pyRange_neg_mem {n : Nat} {start stop step : Int} (hs : step < 0) (h0 : start < n)
    (h1 : -1 ≤ stop) {i : Nat} (h : i ∈ pyRange start stop step) : i < n := by
  unfold pyRange at h
  rw [if_neg (by omega)] at h
  obtain ⟨k, hk, rfl⟩ := mem_arith h
  have := pyRange_neg_bound hs k hk
  have : (k : Int) * step ≤ 0 := Int.mul_nonpos_of_nonneg_of_nonpos (by omega) (by omega)
  omega

theorem arith_nodup {a d : Int} {n : Nat} (hd : d ≠ 0) (hpos : ∀ k : Nat, k < n → 0 ≤ a + k * d) :
    (arith a d n).Nodup := by
  rw [List.nodup_iff_getElem?_ne_getElem?]
  intro i j hij hj
  rw [arith_length] at hj
  rw [arith_getElem?, arith_getElem?, if_pos (by omega), if_pos hj]
  intro h
  have h' : (a + i * d).toNat = (a + j * d).toNat := by simpa using h
  have h1 := hpos i (by omega)
  have h2 := hpos j hj
  have h3 : (i : Int) * d = j * d := by omega
  have := Int.eq_of_mul_eq_mul_right hd h3
  omega

/-- A slice only selects existing positions, each at most once. -/
theorem sliceIndices_spec {n : Nat} {s : PySlice} {ids : List Nat} (h : sliceIndices n s = .ok ids) :
    (∀ i ∈ ids, i < n) ∧ ids.Nodup := by
  unfold sliceIndices at h
  split at h
  · simp at h
  · rename_i k _
    simp only [Except.ok.injEq] at h
    subst h
    have hst : 0 ≤ (match s.start with | none => (0 : Int) | some b => clampBound n 0 n b) := by
      split
      · omega
      · exact (clampBound_bounds (by omega)).1
    have hsp : (match s.stop with | none => (n : Int) | some b => clampBound n 0 n b) ≤ (n : Int) := by
      split
      · omega
      · exact (clampBound_bounds (by omega)).2
    refine ⟨fun i hi => pyRange_pos_mem (by omega) hst hsp hi, ?_⟩
    unfold pyRange
    rw [if_pos (by omega)]
    refine arith_nodup (by omega) (fun j _ => ?_)
    have : 0 ≤ (j : Int) * ((k + 1 : Nat) : Int) := Int.mul_nonneg (by omega) (by omega)
    omega
  · rename_i k _
    simp only [Except.ok.injEq] at h
    subst h
    have hst : (match s.start with
        | none => (n : Int) - 1 | some b => clampBound n (-1) (n - 1) b) < (n : Int) := by
      split
      · omega
      · have := (clampBound_bounds (n := n) (lo := -1) (hi := n - 1) (b := by assumption)
          (by omega)).2
        omega
    have hsp : -1 ≤ (match s.stop with
        | none => (-1 : Int) | some b => clampBound n (-1) (n - 1) b) := by
      split
      · omega
      · exact (clampBound_bounds (by omega)).1
    have hneg : Int.negSucc k < 0 := Int.negSucc_lt_zero k
    refine ⟨fun i hi => pyRange_neg_mem hneg hst hsp hi, ?_⟩
    unfold pyRange
    rw [if_neg (by omega)]
    refine arith_nodup (by omega) (fun j hj => ?_)
    have := pyRange_neg_bound hneg j hj
    omega

theorem arith_one (a : Nat) (n : Nat) : arith (a : Int) 1 n = List.range' a n := by
  induction n generalizing a with
  | zero => rfl
  | succ n ih =>
    have := ih (a + 1)
    push_cast at this
    simp [arith, List.range'_succ, this]

/-- `slice(None)`: every position in order. -/
theorem sliceIndices_all (n : Nat) : sliceIndices n {} = .ok (List.range n) := by
  have := arith_one 0 n
  simp only [sliceIndices, Option.getD_none, pyRange]
  simp only [Int.natCast_zero] at this
  simp [List.range_eq_range', ← this]

/-- `slice(None, None, -1)`: every position in reverse order (la/deflarry.py:3770). -/
theorem sliceIndices_flip (n : Nat) :
    sliceIndices n { step := some (-1) } = .ok (List.range n).reverse := by
  have key : ∀ m : Nat, arith ((m : Int) - 1) (-1) m = (List.range m).reverse := by
    intro m
    induction m with
    | zero => rfl
    | succ m ih =>
      rw [List.range_succ, List.reverse_append]
      simp only [List.reverse_cons, List.reverse_nil, List.nil_append, List.singleton_append, arith]
      have h1 : (((m + 1 : Nat) : Int) - 1).toNat = m := by omega
      have h2 : ((m + 1 : Nat) : Int) - 1 + -1 = (m : Int) - 1 := by omega
      rw [h1, h2, ih]
  simp only [sliceIndices, Option.getD_some]
  show Except.ok (pyRange _ _ (Int.negSucc 0)) = _
  unfold pyRange
  rw [if_neg (by decide)]
  have : (((n : Int) - 1 - -1 + -Int.negSucc 0 - 1) / -Int.negSucc 0).toNat = n := by
    have : -Int.negSucc 0 = 1 := rfl
    rw [this]; omega
  rw [this]
  exact congrArg _ (key n)

/-- `slice(a, None)` with `a ≥ 0` (la/deflarry.py:3597, 3605). -/
theorem sliceIndices_from (n a : Nat) :
    sliceIndices n { start := some (a : Int) } = .ok (List.range' (min a n) (n - a)) := by
  simp only [sliceIndices, Option.getD_none]
  have h : clampBound n 0 n (a : Int) = ((min a n : Nat) : Int) := by
    unfold clampBound
    simp only
    split <;> split <;> (try split) <;> omega
  show Except.ok (pyRange _ _ 1) = _
  unfold pyRange
  rw [if_pos (by omega), h, arith_one]
  congr 2
  omega

/-- `slice(0, -a)` / `slice(None, -a)` with `a > 0` (la/deflarry.py:3599, 3603). -/
theorem sliceIndices_dropLast (n a : Nat) (ha : 0 < a) :
    sliceIndices n { start := some 0, stop := some (-(a : Int)) } = .ok (List.range (n - a)) := by
  simp only [sliceIndices, Option.getD_none]
  have h : clampBound n 0 n (-(a : Int)) = ((n - a : Nat) : Int) := by
    unfold clampBound
    simp only
    split <;> split <;> (try split) <;> omega
  have h0 : clampBound n 0 n 0 = 0 := by
    unfold clampBound
    simp only
    split <;> split <;> (try split) <;> omega
  show Except.ok (pyRange _ _ 1) = _
  unfold pyRange
  have := arith_one 0 (n - a)
  simp only [Int.natCast_zero] at this
  rw [if_pos (by omega), h, h0, List.range_eq_range', ← this]
  congr 2
  omega

theorem sliceIndices_dropLast' (n a : Nat) (ha : 0 < a) :
    sliceIndices n { stop := some (-(a : Int)) } = .ok (List.range (n - a)) := by
  rw [← sliceIndices_dropLast n a ha]
  simp only [sliceIndices, Option.getD_none]
  have h0 : clampBound n 0 n 0 = 0 := by
    unfold clampBound
    simp only
    split <;> split <;> (try split) <;> omega
  rw [h0]

end La
