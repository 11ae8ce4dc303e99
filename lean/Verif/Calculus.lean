import Verif.FlabelFacts

/-! # Calculus of labelled values under changes along one axis -/

namespace La
variable {L α β : Type _}

/-- Specification of re-indexing by label.  The array (`label'`, `x'`) carries, in every cell of its own
labels, the value (transformed by `f`) that (`label`, `x`) carries under the same names, and the
missing value in the cells whose names (`label`, `x`) does not have. -/
def Reindexed (label : List (List L)) (x : NDArray α) (label' : List (List L)) (x' : NDArray β)
    (f : α → β) (miss : Option β) : Prop :=
  ∀ names v, Holds label' x' names v ↔ Named label' names ∧
    ((∃ w, Holds label x names w ∧ v = f w) ∨ (¬ Named label names ∧ miss = some v))

theorem Reindexed.trans {γ : Type _} {l l' l'' : List (List L)} {x : NDArray α} {x' : NDArray β}
    {x'' : NDArray γ} {f : α → β} {g : β → γ} {m : Option β} {m' : Option γ}
    (h : Reindexed l x l' x' f m) (h' : Reindexed l' x' l'' x'' g m')
    (hm : (∃ names, Named l' names ∧ ¬ Named l names) → m.map g = m')
    (hmid : ∀ names, Named l'' names → Named l names → Named l' names) :
    Reindexed l x l'' x'' (g ∘ f) m' := by
  intro names v
  rw [h' names v]
  constructor
  · rintro ⟨hn, ⟨w, hw, rfl⟩ | ⟨hnn, hv⟩⟩
    · refine ⟨hn, ?_⟩
      obtain ⟨h1, ⟨u, hu, rfl⟩ | ⟨hu, hmw⟩⟩ := (h names w).mp hw
      · exact .inl ⟨u, hu, rfl⟩
      · exact .inr ⟨hu, by rw [← hm ⟨names, h1, hu⟩, hmw]; rfl⟩
    · exact ⟨hn, .inr ⟨fun h => hnn (hmid names hn h), hv⟩⟩
  · rintro ⟨hn, ⟨w, hw, rfl⟩ | ⟨hnn, hv⟩⟩
    · refine ⟨hn, .inl ⟨f w, (h names (f w)).mpr ⟨?_, .inl ⟨w, hw, rfl⟩⟩, rfl⟩⟩
      exact hmid names hn (Named_of_Holds hw)
    · refine ⟨hn, ?_⟩
      by_cases h1 : Named l' names
      · left
        obtain ⟨w, hw⟩ := Holds_of_Named (x := x') h1
        refine ⟨w, hw, ?_⟩
        rcases ((h names w).mp hw).2 with ⟨u, hu, _⟩ | ⟨_, hmw⟩
        · exact absurd (Named_of_Holds hu) hnn
        · have := hm ⟨names, h1, hnn⟩
          rw [hmw, hv] at this
          simpa using this.symm
      · exact .inr ⟨h1, hv⟩

theorem Reindexed.refl (l : List (List L)) (x : NDArray α) (m : Option α) :
    Reindexed l x l x id m := by
  intro names v
  constructor
  · intro h; exact ⟨Named_of_Holds h, .inl ⟨v, h, rfl⟩⟩
  · rintro ⟨h1, ⟨w, hw, rfl⟩ | ⟨h2, _⟩⟩
    · exact hw
    · exact absurd h1 h2

/-- When no name is new the missing value plays no role. -/
theorem Reindexed.of_subset {l l' : List (List L)} {x : NDArray α} {x' : NDArray β} {f : α → β}
    {m : Option β} (m' : Option β) (hs : ∀ names, Named l' names → Named l names)
    (h : Reindexed l x l' x' f m) : Reindexed l x l' x' f m' := by
  intro names v
  rw [h names v]
  constructor
  · rintro ⟨h1, h2 | ⟨h2, _⟩⟩
    · exact ⟨h1, .inl h2⟩
    · exact absurd (hs _ h1) h2
  · rintro ⟨h1, h2 | ⟨h2, _⟩⟩
    · exact ⟨h1, .inl h2⟩
    · exact absurd (hs _ h1) h2

theorem Reindexed.congr_f {l l' : List (List L)} {x : NDArray α} {x' : NDArray β} {f g : α → β}
    {m : Option β} (hfg : ∀ names v, Holds l x names v → f v = g v) (h : Reindexed l x l' x' f m) :
    Reindexed l x l' x' g m := by
  intro names v
  rw [h names v]
  constructor
  · rintro ⟨h1, ⟨w, hw, rfl⟩ | h2⟩
    · exact ⟨h1, .inl ⟨w, hw, hfg _ _ hw⟩⟩
    · exact ⟨h1, .inr h2⟩
  · rintro ⟨h1, ⟨w, hw, rfl⟩ | h2⟩
    · exact ⟨h1, .inl ⟨w, hw, (hfg _ _ hw).symm⟩⟩
    · exact ⟨h1, .inr h2⟩

theorem Reindexed.congr_right {l l' : List (List L)} {x : NDArray α} {x' x'' : NDArray β} {f : α → β}
    {m : Option β} (hs : x'.shape = l'.map List.length) (hsame : x'.Same x'')
    (h : Reindexed l x l' x' f m) : Reindexed l x l' x'' f m := by
  intro names v
  rw [← holds_of_same hs hsame, h names v]

theorem holds_map {l : List (List L)} {x : NDArray α} {f : α → β} {names : List L} {v : β} :
    Holds l (x.map f) names v ↔ ∃ w, Holds l x names w ∧ v = f w := by
  constructor
  · rintro ⟨idx, h, rfl⟩; exact ⟨_, ⟨idx, h, rfl⟩, rfl⟩
  · rintro ⟨w, ⟨idx, h, rfl⟩, rfl⟩; exact ⟨idx, h, rfl⟩

theorem Reindexed.map {γ : Type _} {l l' : List (List L)} {x : NDArray α} {x' : NDArray β} {f : α → β}
    {m : Option β} (g : β → γ) (h : Reindexed l x l' x' f m) :
    Reindexed l x l' (x'.map g) (g ∘ f) (m.map g) := by
  intro names v
  rw [holds_map]
  constructor
  · rintro ⟨w, hw, rfl⟩
    obtain ⟨h1, ⟨u, hu, rfl⟩ | ⟨h2, hm⟩⟩ := (h names w).mp hw
    · exact ⟨h1, .inl ⟨u, hu, rfl⟩⟩
    · exact ⟨h1, .inr ⟨h2, by rw [hm]; rfl⟩⟩
  · rintro ⟨h1, ⟨u, hu, rfl⟩ | ⟨h2, hm⟩⟩
    · exact ⟨f u, (h names _).mpr ⟨h1, .inl ⟨u, hu, rfl⟩⟩, rfl⟩
    · obtain ⟨w, hw, rfl⟩ := Option.map_eq_some_iff.mp hm
      exact ⟨w, (h names _).mpr ⟨h1, .inr ⟨h2, hw⟩⟩, rfl⟩

/-! ## Names and one axis -/

theorem Named_set_iff {label : List (List L)} {ax : Nat} {lab : List L} {names : List L}
    (hax : ax < label.length) :
    Named (label.set ax lab) names ↔
      NamedExcept label ax names ∧ ∃ n, names[ax]? = some n ∧ n ∈ lab := by
  induction label generalizing ax names with
  | nil => simp at hax
  | cons l ls ih =>
    cases names with
    | nil => cases ax <;> simp [Named, NamedExcept]
    | cons n ns =>
      cases ax with
      | zero => simp [Named, NamedExcept, and_comm]
      | succ ax =>
        simp only [List.set_cons_succ, Named, NamedExcept, ih (by simpa using hax),
          List.getElem?_cons_succ, and_assoc]

theorem Named_iff_except {label : List (List L)} {ax : Nat} {l : List L} {names : List L}
    (hl : label[ax]? = some l) :
    Named label names ↔ NamedExcept label ax names ∧ ∃ n, names[ax]? = some n ∧ n ∈ l := by
  have hax := (List.getElem?_eq_some_iff.mp hl).1
  rw [← Named_set_iff hax]
  obtain ⟨_, hl'⟩ := List.getElem?_eq_some_iff.mp hl
  rw [← hl', List.set_getElem_self]

theorem NamedExcept_set {label : List (List L)} {ax : Nat} {lab : List L} {names : List L} :
    NamedExcept (label.set ax lab) ax names ↔ NamedExcept label ax names := by
  induction label generalizing ax names with
  | nil => simp
  | cons l ls ih =>
    cases names with
    | nil => cases ax <;> simp [NamedExcept]
    | cons n ns =>
      cases ax with
      | zero => simp [NamedExcept]
      | succ ax => simp only [List.set_cons_succ, NamedExcept, ih]

/-! ## Gathering along one axis -/

theorem At_gather {label : List (List L)} {ax : Nat} {l lab : List L} {ids : List Nat}
    (hl : label[ax]? = some l) (hids : ids.map (fun i => l[i]?) = lab.map some)
    {idx : List Nat} {names : List L} (h : At (label.set ax lab) idx names) :
    At label (idx.modify ax (fun k => ids.getD k 0)) names := by
  induction label generalizing ax idx names with
  | nil => simp at hl
  | cons l0 ls ih =>
    cases idx with
    | nil => cases ax <;> simp [At] at h
    | cons i is =>
      cases names with
      | nil => cases ax <;> simp [At] at h
      | cons n ns =>
        cases ax with
        | zero =>
          simp only [List.getElem?_cons_zero, Option.some.injEq] at hl
          subst hl
          simp only [List.set_cons_zero, At] at h
          simp only [List.modify_zero_cons, At]
          refine ⟨?_, h.2⟩
          obtain ⟨_, h2⟩ := getElem?_of_map hids
          obtain ⟨k, hk, hk'⟩ := h2 i n h.1
          simp [List.getD, hk, hk']
        | succ ax =>
          simp only [List.set_cons_succ, At] at h
          simp only [List.modify_succ_cons, At]
          exact ⟨h.1, ih (by simpa using hl) h.2⟩

/-- `x.take` on the labels and on the data: every kept name keeps its value. -/
theorem reindexed_gather {label : List (List L)} {x : NDArray α} {ax : Nat} {l lab : List L}
    {ids : List Nat} (hl : label[ax]? = some l) (hnd : ∀ l ∈ label, l.Nodup)
    (hids : ids.map (fun i => l[i]?) = lab.map some) (m : Option α) :
    Reindexed label x (label.set ax lab) (x.gather ids ax) id m := by
  have hax := (List.getElem?_eq_some_iff.mp hl).1
  have hsub : ∀ b ∈ lab, b ∈ l := by
    intro b hb
    obtain ⟨k, hk⟩ := List.mem_iff_getElem?.mp hb
    obtain ⟨i, _, hi⟩ := (getElem?_of_map hids).2 k b hk
    exact List.mem_of_getElem? hi
  have hfwd : ∀ names v, Holds (label.set ax lab) (x.gather ids ax) names v →
      Holds label x names v := by
    rintro names v ⟨idx, h, rfl⟩
    exact ⟨_, At_gather hl hids h, rfl⟩
  intro names v
  constructor
  · intro h
    exact ⟨Named_of_Holds h, .inl ⟨v, hfwd _ _ h, rfl⟩⟩
  · rintro ⟨h1, ⟨w, hw, rfl⟩ | ⟨h2, _⟩⟩
    · obtain ⟨v', hv'⟩ := Holds_of_Named (x := x.gather ids ax) h1
      rw [Holds_unique hnd hw (hfwd _ _ hv')]
      exact hv'
    · exfalso
      apply h2
      rw [Named_set_iff hax] at h1
      rw [Named_iff_except hl]
      obtain ⟨h3, n, h4, h5⟩ := h1
      exact ⟨h3, n, h4, hsub n h5⟩

/-- Overwriting, along one axis, the positions of the labels in `bad` with `m`. -/
theorem holds_assignAx {label : List (List L)} {x : NDArray α} {ax : Nat} {lab : List L}
    {pos : List Nat} {bad : L → Prop} (hl : label[ax]? = some lab)
    (hpos : ∀ (k : Nat) b, lab[k]? = some b → (k ∈ pos ↔ bad b)) {m : α} {names : List L} {v : α} :
    Holds label (x.assignAx pos ax m) names v ↔
      Named label names ∧ ∃ n, names[ax]? = some n ∧
        ((bad n ∧ v = m) ∨ (¬ bad n ∧ Holds label x names v)) := by
  have key : ∀ idx, At label idx names → ∃ n k, names[ax]? = some n ∧ idx[ax]? = some k ∧
      lab[k]? = some n := by
    intro idx h
    have hlen := At_length h
    have hax := (List.getElem?_eq_some_iff.mp hl).1
    have h1 : names[ax]? = some (names[ax]'(by omega)) := List.getElem?_eq_getElem _
    have h2 : idx[ax]? = some (idx[ax]'(by omega)) := List.getElem?_eq_getElem _
    exact ⟨_, _, h1, h2, (At_iff.mp h).2.2 ax lab _ _ hl h2 h1⟩
  constructor
  · rintro ⟨idx, h, rfl⟩
    refine ⟨Named_of_At h, ?_⟩
    obtain ⟨n, k, h1, h2, h3⟩ := key idx h
    refine ⟨n, h1, ?_⟩
    have hk : idx.getD ax 0 = k := by simp [List.getD, h2]
    simp only [NDArray.assignAx, hk]
    by_cases hb : bad n
    · left; exact ⟨hb, by rw [if_pos ((hpos k n h3).mpr hb)]⟩
    · right
      refine ⟨hb, idx, h, ?_⟩
      rw [if_neg (fun hh => hb ((hpos k n h3).mp hh))]
  · rintro ⟨hN, n, hn, ⟨hb, rfl⟩ | ⟨hb, idx, h, rfl⟩⟩
    · obtain ⟨idx, h⟩ := At_of_Named hN
      obtain ⟨n', k, h1, h2, h3⟩ := key idx h
      rw [hn] at h1; cases h1
      refine ⟨idx, h, ?_⟩
      have hk : idx.getD ax 0 = k := by simp [List.getD, h2]
      simp only [NDArray.assignAx, hk]
      rw [if_pos ((hpos k n h3).mpr hb)]
    · obtain ⟨n', k, h1, h2, h3⟩ := key idx h
      rw [hn] at h1; cases h1
      refine ⟨idx, h, ?_⟩
      have hk : idx.getD ax 0 = k := by simp [List.getD, h2]
      simp only [NDArray.assignAx, hk]
      rw [if_neg (fun hh => hb ((hpos k n h3).mp hh))]

/-- Like `reindexed_gather` when some labels are new: those positions read position `fill` of the axis
(any legal one) and are then overwritten with `m`. -/
theorem reindexed_gather_fill {label : List (List L)} {x : NDArray α} {ax : Nat} {l lab : List L}
    {ids pos : List Nat} (hl : label[ax]? = some l) (hnd : ∀ l ∈ label, l.Nodup)
    (hlen : ids.length = lab.length)
    (hids : ∀ (k : Nat) b, lab[k]? = some b → b ∈ l → ∃ i, ids[k]? = some i ∧ l[i]? = some b)
    (hpos : ∀ (k : Nat) b, lab[k]? = some b → (k ∈ pos ↔ b ∉ l)) (m : α) :
    Reindexed label x (label.set ax lab) ((x.gather ids ax).assignAx pos ax m) id (some m) := by
  have hax := (List.getElem?_eq_some_iff.mp hl).1
  have hl' : (label.set ax lab)[ax]? = some lab := by simp [hax]
  have hAt : ∀ (names : List L) (n : L) (idx : List Nat), At (label.set ax lab) idx names →
      names[ax]? = some n → n ∈ l → At label (idx.modify ax (fun k => ids.getD k 0)) names := by
    intro names n idx h hn hmem
    have hlen' := At_length h
    rw [At_iff] at h ⊢
    simp only [List.length_set] at h hlen'
    refine ⟨by simpa using h.1, h.2.1, ?_⟩
    intro k lk i nk hlk hi hnk
    by_cases hk : k = ax
    · subst hk
      rw [hl] at hlk; cases hlk
      rw [hn] at hnk; cases hnk
      rw [List.getElem?_modify_eq] at hi
      have hidx : idx[k]? = some (idx[k]'(by omega)) := List.getElem?_eq_getElem _
      rw [hidx] at hi
      simp only [Option.map_eq_map, Option.map_some, Option.some.injEq] at hi
      have h1 := h.2.2 k lab _ _ hl' hidx hn
      obtain ⟨j, hj1, hj2⟩ := hids _ _ h1 hmem
      rw [List.getD, hj1] at hi
      simp at hi; subst hi
      exact hj2
    · rw [List.getElem?_modify] at hi
      simp only [if_neg (Ne.symm hk), Option.map_eq_map, Option.map_id'] at hi
      exact h.2.2 k lk i nk (by rw [List.getElem?_set_ne (Ne.symm hk)]; exact hlk) hi hnk
  intro names v
  rw [holds_assignAx (bad := fun b => b ∉ l) hl' hpos]
  constructor
  · rintro ⟨hN, n, hn, ⟨hb, rfl⟩ | ⟨hb, idx, h, rfl⟩⟩
    · refine ⟨hN, .inr ⟨fun hh => ?_, rfl⟩⟩
      rw [Named_iff_except hl] at hh
      obtain ⟨_, n', hn', hm⟩ := hh
      rw [hn] at hn'; cases hn'
      exact hb hm
    · refine ⟨hN, .inl ⟨_, ⟨_, hAt names n idx h hn (not_not.mp hb), rfl⟩, rfl⟩⟩
  · rintro ⟨hN, ⟨w, hw, rfl⟩ | ⟨hh, hmv⟩⟩
    · refine ⟨hN, ?_⟩
      obtain ⟨_, n, hn, hmem⟩ := (Named_iff_except hl).mp (Named_of_Holds hw)
      refine ⟨n, hn, .inr ⟨not_not.mpr hmem, ?_⟩⟩
      obtain ⟨idx, h⟩ := At_of_Named hN
      refine ⟨idx, h, ?_⟩
      exact Holds_unique hnd ⟨_, hAt names n idx h hn hmem, rfl⟩ hw
    · refine ⟨hN, ?_⟩
      obtain ⟨h3, n, hn, hmem⟩ := (Named_set_iff hax).mp hN
      refine ⟨n, hn, .inl ⟨fun hml => hh ?_, (Option.some.inj hmv).symm⟩⟩
      rw [Named_iff_except hl]
      exact ⟨h3, n, hn, hml⟩

/-- A new array full of `m`, when none of the requested labels exists. -/
theorem reindexed_full {label : List (List L)} {x : NDArray α} {ax : Nat} {l lab : List L}
    (hl : label[ax]? = some l) (hnew : ∀ b ∈ lab, b ∉ l) (shape : List Nat) (f : α → β) (m : β) :
    Reindexed label x (label.set ax lab) (NDArray.full shape m) f (some m) := by
  have hax := (List.getElem?_eq_some_iff.mp hl).1
  have hno : ∀ names, Named (label.set ax lab) names → ¬ Named label names := by
    intro names h h'
    obtain ⟨_, n, hn, hm⟩ := (Named_set_iff hax).mp h
    obtain ⟨_, n', hn', hm'⟩ := (Named_iff_except hl).mp h'
    rw [hn] at hn'; cases hn'
    exact hnew n hm hm'
  intro names v
  constructor
  · rintro ⟨idx, h, rfl⟩
    exact ⟨Named_of_At h, .inr ⟨hno _ (Named_of_At h), rfl⟩⟩
  · rintro ⟨h1, ⟨w, hw, rfl⟩ | ⟨h2, h2'⟩⟩
    · exact absurd (Named_of_Holds hw) (hno _ h1)
    · obtain ⟨idx, h⟩ := At_of_Named h1
      exact ⟨idx, h, Option.some.inj h2'⟩

/-! ## Shapes -/

theorem gather_shape {label : List (List L)} {x : NDArray α} {ax : Nat} {lab : List L} {ids : List Nat}
    (hs : x.shape = label.map List.length) (hlen : ids.length = lab.length) :
    (x.gather ids ax).shape = (label.set ax lab).map List.length := by
  simp [NDArray.gather, hs, hlen, List.map_set]

theorem validLabels_set {label : List (List L)} {shape shape' : List Nat} {ax : Nat} {lab : List L}
    (h : ValidLabels label shape) (hnd : lab.Nodup)
    (hs : shape' = (label.set ax lab).map List.length) : ValidLabels (label.set ax lab) shape' where
  shape_eq := hs
  nodup := by
    intro l hl
    rcases List.mem_or_eq_of_mem_set hl with h1 | h1
    · exact h.nodup l h1
    · exact h1 ▸ hnd
  ndim_pos := by
    have := h.ndim_pos
    intro h'
    apply this
    have := congrArg List.length h'
    simpa using this

end La
