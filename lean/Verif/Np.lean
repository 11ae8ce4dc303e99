import Verif.Py
import Mathlib.Data.Rat.Defs
import Mathlib.Algebra.Order.Ring.Rat
import Mathlib.Data.List.Forall2

/-!
# Numpy arrays and dtypes

`NDArray α` is a shape together with a total function from multi-indices to values; only in-bounds
multi-indices mean anything.  Primitives that numpy bounds-checks are bounds-checked here.
-/

namespace La

/-- Run `f` on each element left to right, stopping at the first exception (a Python `for` loop that
appends to a list). -/
def mapRes {α β : Type _} (f : α → Res β) : List α → Res (List β)
  | [] => .ok []
  | a :: l => match f a with
    | .error e => .error e
    | .ok b => match mapRes f l with
      | .error e => .error e
      | .ok bs => .ok (b :: bs)

theorem mapRes_ok {α β : Type _} {f : α → Res β} {l : List α} {r : List β} :
    mapRes f l = .ok r ↔ List.Forall₂ (fun a b => f a = .ok b) l r := by
  induction l generalizing r with
  | nil => simp [mapRes, eq_comm]
  | cons a l ih =>
    simp only [mapRes]
    cases hfa : f a with
    | error e => simp [List.forall₂_cons_left_iff, hfa]
    | ok b =>
      cases hr : mapRes f l with
      | error e =>
        simp only [List.forall₂_cons_left_iff, hfa, reduceCtorEq, false_iff]
        rintro ⟨b', u', _, h, _⟩
        rw [hr] at ih
        exact absurd (ih.mpr h) (by simp)
      | ok bs =>
        rw [hr] at ih
        simp only [Except.ok.injEq, List.forall₂_cons_left_iff, hfa]
        constructor
        · rintro rfl; exact ⟨b, bs, rfl, ih.mp rfl, rfl⟩
        · rintro ⟨b', u', rfl, h, rfl⟩
          rw [Except.ok.inj (ih.mpr h)]

/-- The exception of a failing `mapRes` is the one raised at the first failing element. -/
theorem mapRes_error {α β : Type _} {f : α → Res β} {l : List α} {e : PyErr}
    (h : mapRes f l = .error e) : ∃ a ∈ l, f a = .error e := by
  induction l with
  | nil => simp [mapRes] at h
  | cons a l ih =>
    simp only [mapRes] at h
    cases hfa : f a with
    | error e' =>
      simp [hfa] at h; subst h
      exact ⟨a, by simp, hfa⟩
    | ok b =>
      cases hr : mapRes f l with
      | error e' =>
        simp [hfa, hr] at h; subst h
        obtain ⟨a', h1, h2⟩ := ih hr
        exact ⟨a', by simp [h1], h2⟩
      | ok bs => simp [hfa, hr] at h

theorem mapRes_error_of {α β : Type _} {f : α → Res β} {l : List α} {e : PyErr} {a : α}
    (ha : a ∈ l) (h : f a = .error e) : ∃ e', mapRes f l = .error e' := by
  cases hr : mapRes f l with
  | error e' => exact ⟨e', rfl⟩
  | ok bs =>
    rw [mapRes_ok] at hr
    obtain ⟨b, hb⟩ : ∃ b, f a = .ok b := by
      clear h
      induction hr with
      | nil => simp at ha
      | cons hab _ ih =>
        rcases List.mem_cons.mp ha with rfl | h
        · exact ⟨_, hab⟩
        · exact ih h
    rw [h] at hb; simp at hb

/-! ## Values and dtypes -/

/-- A numpy float, with exact rationals in place of the finite doubles (rounding and signed zero are
not modelled). -/
inductive Flt
  | nan | ninf | pinf
  | fin (q : ℚ)
  deriving DecidableEq

/-- `np.isnan`. -/
def Flt.isNan : Flt → Bool
  | .nan => true
  | _ => false

/-- `np.isfinite`. -/
def Flt.isFinite : Flt → Bool
  | .fin _ => true
  | _ => false

/-- An array element: Python bool / int / float / str, `None`, or some other Python object
(only possible in object arrays). -/
inductive Val
  | bool (b : Bool) | int (n : Int) | flt (f : Flt) | str (s : String) | none | obj (id : Nat)
  deriving DecidableEq

/-- The dtypes distinguished by la/missing.py: inexact (float), str, bool, object, and the rest
(represented by int). -/
inductive DType
  | bool | int | float | str | object
  deriving DecidableEq, Repr

/-- An element of an array of the given dtype.  Object arrays can hold anything. -/
def Val.hasDType : Val → DType → Bool
  | .bool _, .bool => true
  | .int _, .int => true
  | .flt _, .float => true
  | .str _, .str => true
  | _, .object => true
  | _, _ => false

/-- `x.astype(float)` elementwise for the dtypes without a missing marker (bool, int); a float is
unchanged.  (la/deflarry.py:3343, 3354, la/flarry.py:310, 322, 345, 363 only cast those.) -/
def Val.toFloat : Val → Val
  | .bool b => .flt (.fin (if b then 1 else 0))
  | .int n => .flt (.fin n)
  | v => v

/-! ## Arrays -/

/-- An n-dimensional array. -/
structure NDArray (α : Type _) where
  shape : List Nat
  get : List Nat → α

/-- `idx` is a full in-bounds multi-index for `shape`. -/
def InB : List Nat → List Nat → Prop
  | [], [] => True
  | n :: shape, i :: idx => i < n ∧ InB shape idx
  | _, _ => False

instance decInB : (shape idx : List Nat) → Decidable (InB shape idx)
  | [], [] => isTrue trivial
  | n :: shape, i :: idx =>
    have := decInB shape idx
    inferInstanceAs (Decidable (i < n ∧ InB shape idx))
  | [], _ :: _ => isFalse id
  | _ :: _, [] => isFalse id

namespace NDArray
variable {α β γ : Type _}

/-- Same shape and same element at every in-bounds position. -/
def Same (a b : NDArray α) : Prop := a.shape = b.shape ∧ ∀ idx, InB a.shape idx → a.get idx = b.get idx

/-- `a.ndim` -/
def ndim (a : NDArray α) : Nat := a.shape.length

/-- `a.size` -/
def size (a : NDArray α) : Nat := a.shape.prod

/-- `a[tuple(idx)]` with one nonnegative integer per axis; IndexError if out of bounds. -/
def item (a : NDArray α) (idx : List Nat) : Res α :=
  if InB a.shape idx then .ok (a.get idx) else .error .indexError

/-- The array that keeps, along axis `ax`, the positions `ids` in that order. -/
def gather (a : NDArray α) (ids : List Nat) (ax : Nat) : NDArray α :=
  ⟨a.shape.set ax ids.length, fun i => a.get (i.modify ax (fun k => ids.getD k 0))⟩

/-- `a.take(ids, axis)`: indices may be negative; IndexError on an out-of-range index, ValueError on
an out-of-range axis (numpy 1.6/1.7). (Numpy does not look at the indices when the remaining axes
have size 0; the model checks them always.) -/
def take (a : NDArray α) (ids : List Int) (axis : Int) : Res (NDArray α) :=
  match pyIdx a.ndim axis with
  | none => .error .valueError
  | some ax =>
    match mapRes (pyIdxE (a.shape.getD ax 0)) ids with
    | .error e => .error e
    | .ok ks => .ok (a.gather ks ax)

/-- Basic slicing along one axis, `a[:, …, s, …, :]`. -/
def sliceAx (a : NDArray α) (s : PySlice) (ax : Nat) : Res (NDArray α) :=
  match sliceIndices (a.shape.getD ax 0) s with
  | .error e => .error e
  | .ok ids => .ok (a.gather ids ax)

/-- `a[:, …, positions, …, :] = v` (scalar `v`, positions along axis `ax`), as a new array. -/
def assignAx (a : NDArray α) (positions : List Nat) (ax : Nat) (v : α) : NDArray α :=
  ⟨a.shape, fun i => if i.getD ax 0 ∈ positions then v else a.get i⟩

/-- `a[tuple(idx)] = v` as a new array. -/
def setItem (a : NDArray α) (idx : List Nat) (v : α) : NDArray α :=
  ⟨a.shape, fun i => if i = idx then v else a.get i⟩

/-- Elementwise unary function. -/
def map (f : α → β) (a : NDArray α) : NDArray β := ⟨a.shape, fun i => f (a.get i)⟩

/-- Elementwise binary function on two arrays of the same shape. -/
def zipWith (f : α → β → γ) (a : NDArray α) (b : NDArray β) : NDArray γ :=
  ⟨a.shape, fun i => f (a.get i) (b.get i)⟩

/-- `np.empty(shape); .fill(v)`. -/
def full (shape : List Nat) (v : α) : NDArray α := ⟨shape, fun _ => v⟩

/-- `a.T` -/
def transpose (a : NDArray α) : NDArray α := ⟨a.shape.reverse, fun i => a.get i.reverse⟩

end NDArray

/-! ## `la/missing.py` -/

/-- `missing_marker(data)` (la/missing.py:65-106) as a function of the dtype; `none` stands for the
returned `NotImplemented`. -/
def missingMarker : DType → Option Val
  | .float => some (.flt .nan)        -- 95-96: issubclass(dtype.type, np.inexact)
  | .str => some (.str "")            -- 98-99
  | .bool => none                     -- 100-101
  | .object => some .none             -- 102-103
  | .int => none                      -- 104-105

/-- `nans(shape, dtype)` (la/missing.py:7-62): an array filled with the missing marker; TypeError for
bool and int. -/
def nans (shape : List Nat) : DType → Res (NDArray Val)
  | .float => .ok (NDArray.full shape (.flt .nan))
  | .str => .ok (NDArray.full shape (.str ""))
  | .bool => .error .typeError
  | .object => .ok (NDArray.full shape .none)
  | .int => .error .typeError

/-- `ismissing(data)` (la/missing.py:108-157): elementwise comparison with the marker (`np.isnan` when
the marker is NaN, line 153-154; `x == [mm]` otherwise, line 156); all False when there is no
marker (line 143-146). -/
def ismissing (dtype : DType) (x : NDArray Val) : NDArray Bool :=
  match missingMarker dtype with
  | none => NDArray.full x.shape false
  | some mm => x.map (fun v => match mm with
    | .flt .nan => (match v with | .flt .nan => true | _ => false)
    | m => decide (v = m))

/-! ## Facts -/

theorem InB_length {shape idx : List Nat} (h : InB shape idx) : idx.length = shape.length := by
  induction shape generalizing idx with
  | nil => cases idx <;> simp_all [InB]
  | cons n shape ih =>
    cases idx with
    | nil => simp [InB] at h
    | cons i idx => simp [InB] at h; simp [ih h.2]

theorem InB_iff {shape idx : List Nat} :
    InB shape idx ↔ idx.length = shape.length ∧
      ∀ (k n i : Nat), shape[k]? = some n → idx[k]? = some i → i < n := by
  induction shape generalizing idx with
  | nil => cases idx <;> simp [InB]
  | cons n shape ih =>
    cases idx with
    | nil => simp [InB]
    | cons i idx =>
      simp only [InB, ih, List.length_cons, Nat.add_right_cancel_iff]
      constructor
      · rintro ⟨h1, h2, h3⟩
        refine ⟨h2, ?_⟩
        intro k n' i' hn hi
        cases k with
        | zero => simp at hn hi; omega
        | succ k => exact h3 k n' i' (by simpa using hn) (by simpa using hi)
      · rintro ⟨h1, h2⟩
        refine ⟨h2 0 n i (by simp) (by simp), h1, fun k n' i' hn hi => ?_⟩
        exact h2 (k + 1) n' i' (by simpa using hn) (by simpa using hi)

namespace NDArray
variable {α β : Type _}

theorem Same.refl (a : NDArray α) : Same a a := ⟨rfl, fun _ _ => rfl⟩

theorem Same.symm {a b : NDArray α} (h : Same a b) : Same b a :=
  ⟨h.1.symm, fun idx hi => (h.2 idx (h.1 ▸ hi)).symm⟩

theorem Same.trans {a b c : NDArray α} (h : Same a b) (h' : Same b c) : Same a c :=
  ⟨h.1.trans h'.1, fun idx hi => (h.2 idx hi).trans (h'.2 idx (h.1 ▸ hi))⟩

end NDArray

end La
