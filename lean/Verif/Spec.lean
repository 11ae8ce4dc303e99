import Verif.Np

/-!
# Specification vocabulary

These few definitions are what the property theorems are stated with.  None of them mentions a
function of the model of `la`.
-/

namespace La
variable {L α : Type _}

/-- `At label idx names`: in an array whose axes carry the label lists `label`, the position with
multi-index `idx` is the one labelled `names` (one label per axis). -/
def At : List (List L) → List Nat → List L → Prop
  | [], [], [] => True
  | l :: ls, i :: is, n :: ns => l[i]? = some n ∧ At ls is ns
  | _, _, _ => False

/-- The labelled array (`label`, `x`) has value `v` in the cell labelled `names`. -/
def Holds (label : List (List L)) (x : NDArray α) (names : List L) (v : α) : Prop :=
  ∃ idx, At label idx names ∧ x.get idx = v

/-- `names` are labels of their respective axes: there is one name per axis and it occurs in that
axis' label list. -/
def Named : List (List L) → List L → Prop
  | [], [] => True
  | l :: ls, n :: ns => n ∈ l ∧ Named ls ns
  | _, _ => False

/-- Like `Named`, but nothing is required of the name along axis `ax`. -/
def NamedExcept : List (List L) → Nat → List L → Prop
  | _ :: ls, 0, _ :: ns => Named ls ns
  | l :: ls, ax + 1, n :: ns => n ∈ l ∧ NamedExcept ls ax ns
  | _, _, _ => False

/-- Labels and data belong together: as many labels on each axis as positions, no label twice on an
axis, at least one axis. -/
structure ValidLabels (label : List (List L)) (shape : List Nat) : Prop where
  shape_eq : shape = label.map List.length
  nodup : ∀ l ∈ label, l.Nodup
  ndim_pos : label ≠ []

/-- Position of the multi-index `idx` when an array of this shape is listed in row-major ('C') order:
the last axis varies fastest. -/
def rowMajor : List Nat → List Nat → Nat
  | _ :: ns, i :: is => i * ns.prod + rowMajor ns is
  | _, _ => 0

/-- Position of the multi-index `idx` in column-major ('F') order: the first axis varies fastest. -/
def colMajor : List Nat → List Nat → Nat
  | n :: ns, i :: is => i + n * colMajor ns is
  | _, _ => 0

/-! ## Basic facts -/

theorem At_length {label : List (List L)} {idx : List Nat} {names : List L}
    (h : At label idx names) : idx.length = label.length ∧ names.length = label.length := by
  induction label generalizing idx names with
  | nil => cases idx <;> cases names <;> simp_all [At]
  | cons l ls ih =>
    cases idx with
    | nil => simp [At] at h
    | cons i is =>
      cases names with
      | nil => simp [At] at h
      | cons n ns =>
        simp only [At] at h
        have := ih h.2
        simp [this]

theorem At_iff {label : List (List L)} {idx : List Nat} {names : List L} :
    At label idx names ↔ idx.length = label.length ∧ names.length = label.length ∧
      ∀ (k : Nat) (l : List L) (i : Nat) (n : L), label[k]? = some l → idx[k]? = some i → names[k]? = some n → l[i]? = some n := by
  induction label generalizing idx names with
  | nil => cases idx <;> cases names <;> simp [At]
  | cons l ls ih =>
    cases idx with
    | nil => simp [At]
    | cons i is =>
      cases names with
      | nil => simp [At]
      | cons n ns =>
        simp only [At, ih, List.length_cons, Nat.add_right_cancel_iff]
        constructor
        · rintro ⟨h1, h2, h3, h4⟩
          refine ⟨h2, h3, ?_⟩
          intro k l' i' n' hl hi hn
          cases k with
          | zero => simp at hl hi hn; subst hl hi hn; exact h1
          | succ k => exact h4 k l' i' n' (by simpa using hl) (by simpa using hi) (by simpa using hn)
        · rintro ⟨h1, h2, h3⟩
          refine ⟨h3 0 l i n (by simp) (by simp) (by simp), h1, h2, ?_⟩
          intro k l' i' n' hl hi hn
          exact h3 (k + 1) l' i' n' (by simpa using hl) (by simpa using hi) (by simpa using hn)

theorem At_inB {label : List (List L)} {idx : List Nat} {names : List L}
    (h : At label idx names) : InB (label.map List.length) idx := by
  induction label generalizing idx names with
  | nil => cases idx <;> cases names <;> simp_all [At, InB]
  | cons l ls ih =>
    cases idx with
    | nil => simp [At] at h
    | cons i is =>
      cases names with
      | nil => simp [At] at h
      | cons n ns =>
        simp only [At] at h
        exact ⟨(List.getElem?_eq_some_iff.mp h.1).1, ih h.2⟩

/-- Every in-bounds position has names. -/
theorem At_of_inB {label : List (List L)} {idx : List Nat}
    (h : InB (label.map List.length) idx) : ∃ names, At label idx names := by
  induction label generalizing idx with
  | nil => cases idx <;> simp_all [InB]; exact ⟨[], trivial⟩
  | cons l ls ih =>
    cases idx with
    | nil => simp [InB] at h
    | cons i is =>
      simp only [List.map_cons, InB] at h
      obtain ⟨ns, hns⟩ := ih h.2
      exact ⟨l[i] :: ns, by simp [h.1], hns⟩

theorem Named_of_At {label : List (List L)} {idx : List Nat} {names : List L}
    (h : At label idx names) : Named label names := by
  induction label generalizing idx names with
  | nil => cases idx <;> cases names <;> simp_all [At, Named]
  | cons l ls ih =>
    cases idx with
    | nil => simp [At] at h
    | cons i is =>
      cases names with
      | nil => simp [At] at h
      | cons n ns =>
        simp only [At] at h
        exact ⟨List.mem_of_getElem? h.1, ih h.2⟩

theorem At_of_Named {label : List (List L)} {names : List L}
    (h : Named label names) : ∃ idx, At label idx names := by
  induction label generalizing names with
  | nil => cases names <;> simp_all [Named]; exact ⟨[], trivial⟩
  | cons l ls ih =>
    cases names with
    | nil => simp [Named] at h
    | cons n ns =>
      simp only [Named] at h
      obtain ⟨is, his⟩ := ih h.2
      obtain ⟨i, hi⟩ := List.mem_iff_getElem?.mp h.1
      exact ⟨i :: is, hi, his⟩

theorem Named_iff {label : List (List L)} {names : List L} :
    Named label names ↔ names.length = label.length ∧
      ∀ (k : Nat) l n, label[k]? = some l → names[k]? = some n → n ∈ l := by
  induction label generalizing names with
  | nil => cases names <;> simp [Named]
  | cons l ls ih =>
    cases names with
    | nil => simp [Named]
    | cons n ns =>
      simp only [Named, ih, List.length_cons, Nat.add_right_cancel_iff]
      constructor
      · rintro ⟨h1, h2, h3⟩
        refine ⟨h2, ?_⟩
        intro k l' n' hl hn
        cases k with
        | zero => simp at hl hn; subst hl hn; exact h1
        | succ k => exact h3 k l' n' (by simpa using hl) (by simpa using hn)
      · rintro ⟨h1, h2⟩
        refine ⟨h2 0 l n (by simp) (by simp), h1, ?_⟩
        intro k l' n' hl hn
        exact h2 (k + 1) l' n' (by simpa using hl) (by simpa using hn)

theorem NamedExcept_iff {label : List (List L)} {ax : Nat} {names : List L} (hax : ax < label.length) :
    NamedExcept label ax names ↔ names.length = label.length ∧
      ∀ (k : Nat) l n, k ≠ ax → label[k]? = some l → names[k]? = some n → n ∈ l := by
  induction label generalizing names ax with
  | nil => simp at hax
  | cons l ls ih =>
    cases names with
    | nil => cases ax <;> simp [NamedExcept]
    | cons n ns =>
      cases ax with
      | zero =>
        simp only [NamedExcept, Named_iff, List.length_cons, Nat.add_right_cancel_iff]
        constructor
        · rintro ⟨h1, h2⟩
          refine ⟨h1, ?_⟩
          intro k l' n' hk hl hn
          cases k with
          | zero => exact absurd rfl hk
          | succ k => exact h2 k l' n' (by simpa using hl) (by simpa using hn)
        · rintro ⟨h1, h2⟩
          exact ⟨h1, fun k l' n' hl hn => h2 (k + 1) l' n' (by omega) (by simpa using hl)
            (by simpa using hn)⟩
      | succ ax =>
        simp only [NamedExcept, ih (by simpa using hax), List.length_cons, Nat.add_right_cancel_iff]
        constructor
        · rintro ⟨h0, h1, h2⟩
          refine ⟨h1, ?_⟩
          intro k l' n' hk hl hn
          cases k with
          | zero => simp at hl hn; subst hl hn; exact h0
          | succ k => exact h2 k l' n' (by omega) (by simpa using hl) (by simpa using hn)
        · rintro ⟨h1, h2⟩
          exact ⟨h2 0 l n (by omega) (by simp) (by simp), h1, fun k l' n' hk hl hn =>
            h2 (k + 1) l' n' (by omega) (by simpa using hl) (by simpa using hn)⟩

/-- With unique labels a cell has one position. -/
theorem At_unique {label : List (List L)} (hnd : ∀ l ∈ label, l.Nodup) {idx idx' : List Nat}
    {names : List L} (h : At label idx names) (h' : At label idx' names) : idx = idx' := by
  induction label generalizing idx idx' names with
  | nil => cases idx <;> cases idx' <;> cases names <;> simp_all [At]
  | cons l ls ih =>
    cases idx with
    | nil => simp [At] at h
    | cons i is =>
      cases idx' with
      | nil => simp [At] at h'
      | cons i' is' =>
        cases names with
        | nil => simp [At] at h
        | cons n ns =>
          simp only [At] at h h'
          rw [nodup_getElem?_inj (hnd l (by simp)) h.1 h'.1,
            ih (fun l hl => hnd l (by simp [hl])) h.2 h'.2]

/-- A position has one name list. -/
theorem At_names_unique {label : List (List L)} {idx : List Nat} {names names' : List L}
    (h : At label idx names) (h' : At label idx names') : names = names' := by
  induction label generalizing idx names names' with
  | nil => cases idx <;> cases names <;> cases names' <;> simp_all [At]
  | cons l ls ih =>
    cases idx with
    | nil => simp [At] at h
    | cons i is =>
      cases names' with
      | nil => simp [At] at h'
      | cons n' ns' =>
        cases names with
        | nil => simp [At] at h
        | cons n ns =>
          simp only [At] at h h'
          have h1 : n = n' := by have := h.1.symm.trans h'.1; simpa using this
          rw [h1, ih h.2 h'.2]

theorem Holds_unique {label : List (List L)} (hnd : ∀ l ∈ label, l.Nodup) {x : NDArray α}
    {names : List L} {v v' : α} (h : Holds label x names v) (h' : Holds label x names v') :
    v = v' := by
  obtain ⟨i, hi, rfl⟩ := h
  obtain ⟨j, hj, rfl⟩ := h'
  rw [At_unique hnd hi hj]

theorem Holds_of_Named {label : List (List L)} {x : NDArray α} {names : List L}
    (h : Named label names) : ∃ v, Holds label x names v := by
  obtain ⟨idx, hidx⟩ := At_of_Named h
  exact ⟨_, idx, hidx, rfl⟩

theorem Named_of_Holds {label : List (List L)} {x : NDArray α} {names : List L} {v : α}
    (h : Holds label x names v) : Named label names := by
  obtain ⟨_, h, _⟩ := h
  exact Named_of_At h

/-- Two arrays with the same labels and the same labelled values are the same array. -/
theorem same_of_holds {label : List (List L)} {x y : NDArray α}
    (hx : x.shape = label.map List.length) (hy : y.shape = label.map List.length)
    (hnd : ∀ l ∈ label, l.Nodup) (h : ∀ names v, Holds label x names v → Holds label y names v) :
    x.Same y := by
  refine ⟨hx.trans hy.symm, fun idx hidx => ?_⟩
  rw [hx] at hidx
  obtain ⟨names, hn⟩ := At_of_inB hidx
  obtain ⟨idx', h1, h2⟩ := h names _ ⟨idx, hn, rfl⟩
  rw [← At_unique hnd hn h1] at h2
  exact h2.symm

theorem holds_of_same {label : List (List L)} {x y : NDArray α}
    (hx : x.shape = label.map List.length) (h : x.Same y) {names : List L} {v : α} :
    Holds label x names v ↔ Holds label y names v := by
  constructor
  · rintro ⟨idx, h1, rfl⟩
    exact ⟨idx, h1, (h.2 idx (hx ▸ At_inB h1)).symm⟩
  · rintro ⟨idx, h1, rfl⟩
    exact ⟨idx, h1, h.2 idx (hx ▸ At_inB h1)⟩

end La
