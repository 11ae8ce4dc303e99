import Verif.Flatten
import Verif.MethodsFacts

/-! # Facts about flatten, unflatten and the conversions -/

namespace La
variable {L : Type _}

theorem ravelF_eq (shape idx : List Nat) : ravelF shape idx = colMajor shape idx := by
  induction shape generalizing idx with
  | nil => cases idx <;> rfl
  | cons n ns ih =>
    cases idx with
    | nil => rfl
    | cons i is => simp only [ravelF, colMajor, ih]; rw [Nat.mul_comm]; omega

theorem unravelF_spec {shape : List Nat} {p : Nat} (h : p < shape.prod) :
    InB shape (unravelF shape p) ∧ colMajor shape (unravelF shape p) = p := by
  induction shape generalizing p with
  | nil => simp at h; simp [unravelF, InB, colMajor, h]
  | cons n ns ih =>
    simp only [List.prod_cons] at h
    have hn : 0 < n := by
      rcases Nat.eq_zero_or_pos n with rfl | h' <;> simp_all
    obtain ⟨h1, h2⟩ := ih (p := p / n) ((Nat.div_lt_iff_lt_mul hn).mpr (by rwa [Nat.mul_comm]))
    simp only [unravelF, InB, colMajor, h2]
    exact ⟨⟨Nat.mod_lt _ hn, h1⟩, Nat.mod_add_div p n⟩

theorem unravelF_colMajor {shape idx : List Nat} (h : InB shape idx) :
    unravelF shape (colMajor shape idx) = idx := by
  obtain ⟨h1, h2⟩ := unravelF_spec (colMajor_lt h)
  exact colMajor_inj h1 h h2

theorem unravelC_rowMajor {shape idx : List Nat} (h : InB shape idx) :
    unravelC shape (rowMajor shape idx) = idx := by
  unfold unravelC
  rw [rowMajor_eq (InB_length h), unravelF_colMajor (InB_reverse.mpr h), List.reverse_reverse]

namespace NDArray

theorem assignRows_shape {α : Type _} (a : NDArray α) (rows : List (List Nat × α)) :
    (a.assignRows rows).shape = a.shape := by
  induction rows generalizing a with
  | nil => rfl
  | cons r rest ih => simp only [assignRows, ih]; rfl

theorem assignRows_append {α : Type _} (a : NDArray α) (r1 r2 : List (List Nat × α)) :
    a.assignRows (r1 ++ r2) = (a.assignRows r1).assignRows r2 := by
  induction r1 generalizing a with
  | nil => rfl
  | cons r rest ih => simp only [List.cons_append, assignRows, ih]

theorem assignRows_none {α : Type _} {a : NDArray α} {rows : List (List Nat × α)} {idx : List Nat}
    (h : ∀ r ∈ rows, r.1 ≠ idx) : (a.assignRows rows).get idx = a.get idx := by
  induction rows generalizing a with
  | nil => rfl
  | cons r rest ih =>
    simp only [assignRows]
    rw [ih (fun r hr => h r (by simp [hr]))]
    have := h r (by simp)
    simp [setItem, Ne.symm this]

theorem assignRows_last {α : Type _} {a : NDArray α} {pre post : List (List Nat × α)} {idx : List Nat}
    {v : α} (h : ∀ r ∈ post, r.1 ≠ idx) : (a.assignRows (pre ++ (idx, v) :: post)).get idx = v := by
  rw [assignRows_append]
  simp only [assignRows]
  rw [assignRows_none h]
  simp [setItem]

end NDArray

/-- The columns of a nonempty list of tuples of one length. -/
theorem zipStar_eq {α : Type _} {ts : List (List α)} {m : Nat} (hne : ts ≠ [])
    (hm : ∀ t ∈ ts, t.length = m) :
    (zipStar ts).length = m ∧ ∀ k, k < m →
      ∃ col, (zipStar ts)[k]? = some col ∧ col.map some = ts.map (fun t => t[k]?) := by
  have hmin : (ts.map List.length).min?.getD 0 = m := by
    have : ts.map List.length = List.replicate ts.length m := by
      rw [List.eq_replicate_iff]
      refine ⟨by simp, ?_⟩
      intro b hb
      obtain ⟨t, ht, rfl⟩ := List.mem_map.mp hb
      exact hm t ht
    rw [this, List.min?_replicate]
    have : ts.length ≠ 0 := by simpa using hne
    simp [this]
  have hcol : ∀ k, k < m → ∀ (us : List (List α)), (∀ t ∈ us, t.length = m) →
      (us.filterMap (fun t => t[k]?)).map some = us.map (fun t => t[k]?) := by
    intro k hk us hus
    induction us with
    | nil => rfl
    | cons t us ih =>
      have ht := hus t (by simp)
      have hk' : k < t.length := by omega
      have := ih (fun t h => hus t (by simp [h]))
      simp [List.getElem?_eq_getElem hk', this]
  unfold zipStar
  rw [hmin]
  refine ⟨by simp, fun k hk => ⟨_, ?_, hcol k hk ts hm⟩⟩
  simp [hk]

theorem At_of_columns {label : List (List L)} {idx : List Nat} {names : List L}
    (h1 : idx.length = label.length) (h2 : names.length = label.length)
    (h : ∀ (k : Nat) l, label[k]? = some l → ∃ i n, idx[k]? = some i ∧ names[k]? = some n ∧ l[i]? = some n) :
    At label idx names := by
  rw [At_iff]
  refine ⟨h1, h2, fun k l i n hl hi hn => ?_⟩
  obtain ⟨i', n', e1, e2, e3⟩ := h k l hl
  rw [hi] at e1; rw [hn] at e2
  simp only [Option.some.injEq] at e1 e2
  subst e1 e2; exact e3

end La
