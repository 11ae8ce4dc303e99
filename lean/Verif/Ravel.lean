import Verif.Spec
import Verif.Flabel
import Mathlib.Data.List.Induction
import Mathlib.Algebra.BigOperators.Group.List.Basic
import Mathlib.Tactic.Ring

/-! # Row-major and column-major enumeration; facts about `flattenlabel` -/

namespace La
variable {L α : Type _}

theorem At_append {l1 l2 : List (List L)} {i1 i2 : List Nat} {n1 n2 : List L}
    (h1 : i1.length = l1.length) (h2 : n1.length = l1.length) :
    At (l1 ++ l2) (i1 ++ i2) (n1 ++ n2) ↔ At l1 i1 n1 ∧ At l2 i2 n2 := by
  induction l1 generalizing i1 n1 with
  | nil =>
    have : i1 = [] := by simpa using h1
    have : n1 = [] := by simpa using h2
    subst_vars; simp [At]
  | cons l ls ih =>
    cases i1 with
    | nil => simp at h1
    | cons i is =>
      cases n1 with
      | nil => simp at h2
      | cons n ns =>
        simp only [List.cons_append, At, ih (by simpa using h1) (by simpa using h2), and_assoc]

theorem At_reverse {label : List (List L)} {idx : List Nat} {names : List L} :
    At label.reverse idx.reverse names.reverse ↔ At label idx names := by
  have key : ∀ {label : List (List L)} {idx : List Nat} {names : List L},
      At label idx names → At label.reverse idx.reverse names.reverse := by
    intro label
    induction label with
    | nil => intro idx names h; cases idx <;> cases names <;> simp_all [At]
    | cons l ls ih =>
      intro idx names h
      cases idx with
      | nil => simp [At] at h
      | cons i is =>
        cases names with
        | nil => simp [At] at h
        | cons n ns =>
          simp only [At] at h
          have := ih h.2
          have hl := At_length h.2
          simp only [List.reverse_cons]
          rw [At_append (by simp [hl]) (by simp [hl])]
          exact ⟨this, h.1, trivial⟩
  exact ⟨fun h => by simpa using key h, key⟩

theorem InB_reverse {shape idx : List Nat} : InB shape.reverse idx.reverse ↔ InB shape idx := by
  have key : ∀ {shape idx : List Nat}, InB shape idx → InB shape.reverse idx.reverse := by
    intro shape idx h
    rw [InB_iff] at h ⊢
    refine ⟨by simp [h.1], ?_⟩
    intro k n i hn hi
    have hk : k < shape.length := by
      have := (List.getElem?_eq_some_iff.mp hn).1; simpa using this
    rw [List.getElem?_reverse (by simpa using hk)] at hn
    rw [List.getElem?_reverse (by rw [h.1]; simpa using hk), h.1] at hi
    exact h.2 _ n i hn hi
  exact ⟨fun h => by simpa using key h, key⟩

theorem InB_append {s1 s2 i1 i2 : List Nat} (h : i1.length = s1.length) :
    InB (s1 ++ s2) (i1 ++ i2) ↔ InB s1 i1 ∧ InB s2 i2 := by
  induction s1 generalizing i1 with
  | nil =>
    have : i1 = [] := by simpa using h
    subst_vars; simp [InB]
  | cons s ss ih =>
    cases i1 with
    | nil => simp at h
    | cons i is => simp only [List.cons_append, InB, ih (by simpa using h), and_assoc]

theorem colMajor_append {s1 s2 i1 i2 : List Nat} (h : i1.length = s1.length) :
    colMajor (s1 ++ s2) (i1 ++ i2) = colMajor s1 i1 + s1.prod * colMajor s2 i2 := by
  induction s1 generalizing i1 with
  | nil =>
    have : i1 = [] := by simpa using h
    subst_vars; simp [colMajor]
  | cons s ss ih =>
    cases i1 with
    | nil => simp at h
    | cons i is =>
      simp only [List.cons_append, colMajor, ih (by simpa using h), List.prod_cons]
      ring

theorem rowMajor_eq {shape idx : List Nat} (h : idx.length = shape.length) :
    rowMajor shape idx = colMajor shape.reverse idx.reverse := by
  induction shape generalizing idx with
  | nil =>
    have : idx = [] := by simpa using h
    subst_vars; simp [colMajor, rowMajor]
  | cons s ss ih =>
    cases idx with
    | nil => simp at h
    | cons i is =>
      have h' : is.length = ss.length := by simpa using h
      simp only [List.reverse_cons]
      rw [colMajor_append (by simp [h'])]
      simp only [rowMajor, ih h', List.prod_reverse, colMajor]
      ring

theorem colMajor_lt {shape idx : List Nat} (h : InB shape idx) : colMajor shape idx < shape.prod := by
  induction shape generalizing idx with
  | nil => cases idx <;> simp_all [InB, colMajor]
  | cons n ns ih =>
    cases idx with
    | nil => simp [InB] at h
    | cons i is =>
      simp only [InB] at h
      have := ih h.2
      simp only [colMajor, List.prod_cons]
      have h3 : n * (colMajor ns is + 1) ≤ n * ns.prod := Nat.mul_le_mul_left _ this
      rw [Nat.mul_add] at h3
      omega

theorem colMajor_surj {shape : List Nat} {p : Nat} (h : p < shape.prod) :
    ∃ idx, InB shape idx ∧ colMajor shape idx = p := by
  induction shape generalizing p with
  | nil => exact ⟨[], trivial, by simp at h; simp [colMajor, h]⟩
  | cons n ns ih =>
    simp only [List.prod_cons] at h
    have hn : 0 < n := by
      rcases Nat.eq_zero_or_pos n with rfl | h' <;> simp_all
    obtain ⟨is, h1, h2⟩ := ih (p := p / n) ((Nat.div_lt_iff_lt_mul hn).mpr (by rwa [Nat.mul_comm]))
    refine ⟨p % n :: is, ⟨Nat.mod_lt _ hn, h1⟩, ?_⟩
    simp only [colMajor, h2]
    exact Nat.mod_add_div p n

theorem colMajor_inj {shape idx idx' : List Nat} (h : InB shape idx) (h' : InB shape idx')
    (he : colMajor shape idx = colMajor shape idx') : idx = idx' := by
  induction shape generalizing idx idx' with
  | nil => cases idx <;> cases idx' <;> simp_all [InB]
  | cons n ns ih =>
    cases idx with
    | nil => simp [InB] at h
    | cons i is =>
      cases idx' with
      | nil => simp [InB] at h'
      | cons j js =>
        simp only [InB] at h h'
        simp only [colMajor] at he
        have h1 : (i + n * colMajor ns is) % n = i := by
          rw [Nat.add_mul_mod_self_left, Nat.mod_eq_of_lt h.1]
        have h2 : (j + n * colMajor ns js) % n = j := by
          rw [Nat.add_mul_mod_self_left, Nat.mod_eq_of_lt h'.1]
        have hij : i = j := by rw [← h1, ← h2, he]
        subst hij
        have : n * colMajor ns is = n * colMajor ns js := by omega
        rw [ih h.2 h'.2 (Nat.eq_of_mul_eq_mul_left (by omega) this)]

theorem rowMajor_lt {shape idx : List Nat} (h : InB shape idx) : rowMajor shape idx < shape.prod := by
  rw [rowMajor_eq (InB_length h), ← List.prod_reverse]
  exact colMajor_lt (InB_reverse.mpr h)

theorem rowMajor_surj {shape : List Nat} {p : Nat} (h : p < shape.prod) :
    ∃ idx, InB shape idx ∧ rowMajor shape idx = p := by
  rw [← List.prod_reverse] at h
  obtain ⟨idx, h1, h2⟩ := colMajor_surj h
  refine ⟨idx.reverse, by rw [← InB_reverse]; simpa using h1, ?_⟩
  rw [rowMajor_eq (by have := InB_length h1; simpa using this)]
  simpa using h2

theorem rowMajor_inj {shape idx idx' : List Nat} (h : InB shape idx) (h' : InB shape idx')
    (he : rowMajor shape idx = rowMajor shape idx') : idx = idx' := by
  rw [rowMajor_eq (InB_length h), rowMajor_eq (InB_length h')] at he
  exact List.reverse_injective (colMajor_inj (InB_reverse.mpr h) (InB_reverse.mpr h') he)

/-- The loop of `flattenlabel` (la/flabel.py:170-175). -/
abbrev flatLoop (label : List (List L)) : List (List L) :=
  label.foldl (fun idx x => x.flatMap (fun y => idx.map (fun i => i ++ [y]))) [[]]

theorem flatMap_block_length {β : Type _} (x : List L) (f : L → List β) (m : Nat)
    (hf : ∀ y, (f y).length = m) : (x.flatMap f).length = m * x.length := by
  induction x with
  | nil => simp
  | cons a x ih => simp [List.flatMap_cons, ih, hf, Nat.mul_add]; omega

theorem flatMap_block_getElem? {β : Type _} (x : List L) (f : L → List β) (m : Nat)
    (hf : ∀ y, (f y).length = m) {i p : Nat} {y : L} (hi : x[i]? = some y) (hp : p < m) :
    (x.flatMap f)[p + m * i]? = (f y)[p]? := by
  induction x generalizing i with
  | nil => simp at hi
  | cons a x ih =>
    rw [List.flatMap_cons]
    cases i with
    | zero =>
      simp at hi; subst hi
      rw [Nat.mul_zero, Nat.add_zero, List.getElem?_append_left (by rw [hf]; exact hp)]
    | succ i =>
      rw [List.getElem?_append_right (by rw [hf, Nat.mul_add]; omega), hf]
      have : p + m * (i + 1) - m = p + m * i := by rw [Nat.mul_add]; omega
      rw [this]
      exact ih (by simpa using hi)

theorem flatLoop_length (label : List (List L)) :
    (flatLoop label).length = (label.map List.length).prod := by
  induction label using List.reverseRecOn with
  | nil => simp [flatLoop]
  | append_singleton l a ih =>
    simp only [flatLoop, List.foldl_append, List.foldl_cons, List.foldl_nil]
    rw [flatMap_block_length _ _ (l.map List.length).prod]
    · simp
    · intro y; simpa using ih

theorem flatLoop_at {label : List (List L)} {idx : List Nat} {names : List L}
    (h : At label idx names) :
    (flatLoop label)[colMajor (label.map List.length) idx]? = some names := by
  induction label using List.reverseRecOn generalizing idx names with
  | nil => cases idx <;> cases names <;> simp_all [At, flatLoop, colMajor]
  | append_singleton l a ih =>
    have hl := At_length h
    rcases List.eq_nil_or_concat idx with rfl | ⟨is, i, rfl⟩
    · simp at hl
    rcases List.eq_nil_or_concat names with rfl | ⟨ns, n, rfl⟩
    · simp at hl
    simp only [List.concat_eq_append, List.length_append, List.length_singleton,
      Nat.add_right_cancel_iff] at h hl ⊢
    rw [At_append hl.1 hl.2] at h
    obtain ⟨h1, h2, _⟩ := h
    simp only [List.map_append, List.map_cons, List.map_nil]
    rw [colMajor_append (by simpa using hl.1)]
    simp only [flatLoop, List.foldl_append, List.foldl_cons, List.foldl_nil]
    have hlt := colMajor_lt (At_inB h1)
    have hlen := flatLoop_length l
    simp only [colMajor, Nat.mul_zero, Nat.add_zero]
    rw [flatMap_block_getElem? a _ (l.map List.length).prod (by intro y; simpa using hlen) h2 hlt]
    rw [List.getElem?_map]
    have := ih h1
    simp only [flatLoop] at this
    rw [this]
    rfl

end La
