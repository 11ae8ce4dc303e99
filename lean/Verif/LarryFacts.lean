import Verif.Larry
import Verif.Calculus

/-! # Specification predicates on larrys and facts about the core methods -/

namespace La
variable {L : Type _}

/-- The larry `y` carries value `v` in the cell labelled `names`. -/
def Larry.Has (y : Larry L) (names : List L) (v : Val) : Prop := Holds y.label y.x names v

/-- A well-formed larry: one label list per axis, of the length of that axis, without duplicates, and
at least one axis. -/
def Larry.Valid (y : Larry L) : Prop := ValidLabels y.label y.x.shape

/-- Every element fits the dtype. -/
def Larry.Typed (y : Larry L) : Prop :=
  ∀ idx, InB y.x.shape idx → (y.x.get idx).hasDType y.dtype = true

/-- Same labels, dtype, shape and elements: the two larrys are indistinguishable by value. -/
def Larry.Same (y z : Larry L) : Prop := y.label = z.label ∧ y.dtype = z.dtype ∧ y.x.Same z.x

/-- Conversion of one element from dtype `d` to dtype `d'` when the code casts (only to float). -/
def castVal (d d' : DType) (v : Val) : Val := if d = d' then v else v.toFloat

namespace Larry

theorem Valid.label_length {y : Larry L} (h : y.Valid) : y.label.length = y.ndim := by
  have := congrArg List.length h.shape_eq
  simpa [ndim, NDArray.ndim] using this.symm

theorem Valid.same_of_has {y z : Larry L} (hy : y.Valid) (hz : z.Valid) (hl : y.label = z.label)
    (hd : y.dtype = z.dtype) (h : ∀ names v, y.Has names v → z.Has names v) : y.Same z := by
  refine ⟨hl, hd, same_of_holds (label := z.label) (hl ▸ hy.shape_eq) hz.shape_eq hz.nodup ?_⟩
  intro names v hv
  exact h names v (by unfold Has; rw [hl]; exact hv)

theorem Same.refl (y : Larry L) : y.Same y := ⟨rfl, rfl, NDArray.Same.refl _⟩

theorem Same.has {y z : Larry L} (hy : y.Valid) (h : y.Same z) {names : List L} {v : Val} :
    y.Has names v ↔ z.Has names v := by
  unfold Has
  rw [← h.1]
  exact holds_of_same hy.shape_eq h.2.2

theorem typed_iff {y : Larry L} (hy : y.Valid) :
    y.Typed ↔ ∀ names v, y.Has names v → v.hasDType y.dtype = true := by
  constructor
  · rintro h names v ⟨idx, hi, rfl⟩
    exact h idx (hy.shape_eq ▸ At_inB hi)
  · intro h idx hi
    rw [hy.shape_eq] at hi
    obtain ⟨names, hn⟩ := At_of_inB hi
    exact h names _ ⟨idx, hn, rfl⟩

section order
variable [LinearOrder L]

/-! ## Lookup -/

theorem labelindex_exact {y : Larry L} (hv : y.Valid) {name : L} {k : Nat} {l : List L}
    (hl : y.label[k]? = some l) :
    y.labelindex name (some (k : Int)) =
      match pyIndex l name with | some i => .ok i | none => .error .indexError := by
  have hk := (List.getElem?_eq_some_iff.mp hl).1
  have hk' : ¬ ((k : Int) ≥ (y.ndim : Int)) := by rw [← hv.label_length]; omega
  have hp : pyGet y.label (k : Int) = .ok l := by
    rw [pyGet_ok]; exact ⟨k, pyIdx_ofNat hk, hl⟩
  simp only [labelindex, if_neg hk', hp]
  cases pyIndex l name <;> simp

/-- The loop over names and axes, from axis `k` on. -/
theorem labelIdx_go {y : Larry L} (hv : y.Valid) (ls : List (List L)) (names : List L) :
    ∀ k, (∀ (j : Nat) l, ls[j]? = some l → y.label[k + j]? = some l) →
    names.length = ls.length → (∀ l ∈ ls, l.Nodup) →
    (∀ idx, mapRes (fun p : L × Nat => y.labelindex p.1 (some (p.2 : Int))) (names.zipIdx k) = .ok idx ↔
      At ls idx names) ∧
    (∀ e, mapRes (fun p : L × Nat => y.labelindex p.1 (some (p.2 : Int))) (names.zipIdx k) = .error e →
      e = .indexError ∧ ¬ Named ls names) := by
  induction ls generalizing names with
  | nil =>
    intro k _ hlen _
    have : names = [] := by simpa using hlen
    subst this
    constructor
    · intro idx
      cases idx <;> simp [mapRes, At]
    · intro e; simp [mapRes]
  | cons l ls ih =>
    intro k hk hlen hnd
    cases names with
    | nil => simp at hlen
    | cons n ns =>
      have hl := hk 0 l (by simp)
      obtain ⟨ih1, ih2⟩ := ih ns (k + 1) (fun j l' h => by
        have := hk (j + 1) l' (by simpa using h)
        rwa [Nat.add_right_comm, Nat.add_assoc]) (by simpa using hlen) (fun l h => hnd l (by simp [h]))
      simp only [List.zipIdx_cons, mapRes]
      rw [labelindex_exact hv (by simpa using hl)]
      cases hp : pyIndex l n with
      | none =>
        have hnm := pyIndex_none.mp hp
        constructor
        · intro idx
          cases idx with
          | nil => simp [At]
          | cons i is =>
            simp only [At, reduceCtorEq, false_iff]
            rintro ⟨h, _⟩
            exact hnm (List.mem_of_getElem? h)
        · intro e h
          simp only [Except.error.injEq] at h
          exact ⟨h.symm, fun hh => hnm hh.1⟩
      | some i =>
        simp only
        cases hr : mapRes (fun p : L × Nat => y.labelindex p.1 (some (p.2 : Int)))
            (ns.zipIdx (k + 1)) with
        | error e =>
          constructor
          · intro idx
            cases idx with
            | nil => simp [At]
            | cons j js =>
              simp only [At, reduceCtorEq, false_iff]
              rintro ⟨_, h⟩
              exact (ih2 e hr).2 (Named_of_At h)
          · intro e' h
            simp only [Except.error.injEq] at h
            subst h
            exact ⟨(ih2 e hr).1, fun hh => (ih2 e hr).2 hh.2⟩
        | ok is =>
          constructor
          · intro idx
            have hat := (ih1 is).mp hr
            have hi := pyIndex_some hp
            constructor
            · intro h
              simp only [Except.ok.injEq] at h
              subst h
              exact ⟨hi, hat⟩
            · intro h
              cases idx with
              | nil => simp [At] at h
              | cons j js =>
                simp only [At] at h
                rw [At_unique (fun l hl => hnd l (by simp [hl])) h.2 hat,
                  nodup_getElem?_inj (hnd l (by simp)) h.1 hi]
          · intro e h; simp at h

theorem labelIdx_ok {y : Larry L} (hv : y.Valid) {names : List L} {idx : List Nat} :
    y.labelIdx names = .ok idx ↔ At y.label idx names := by
  unfold labelIdx
  split
  · rename_i h
    simp only [reduceCtorEq, false_iff]
    intro hat
    exact h ((At_length hat).2.trans hv.label_length)
  · rename_i h
    exact (labelIdx_go hv y.label names 0 (fun j l h => by simpa using h)
      (by rw [hv.label_length]; omega) hv.nodup).1 idx

theorem labelIdx_error {y : Larry L} (hv : y.Valid) {names : List L} {e : PyErr}
    (h : y.labelIdx names = .error e) :
    (names.length ≠ y.ndim ∧ e = .valueError) ∨
      (names.length = y.ndim ∧ ¬ Named y.label names ∧ e = .indexError) := by
  unfold labelIdx at h
  split at h
  · rename_i h'
    left; exact ⟨h', by simpa using h.symm⟩
  · rename_i h'
    have h'' : names.length = y.ndim := by omega
    right
    have := (labelIdx_go hv y.label names 0 (fun j l h => by simpa using h)
      (by rw [hv.label_length]; omega) hv.nodup).2 e h
    exact ⟨h'', this.2, this.1⟩

theorem get_ok_iff {y : Larry L} (hv : y.Valid) {names : List L} {v : Val} :
    y.get names = .ok v ↔ y.Has names v := by
  unfold get Has Holds
  cases h : y.labelIdx names with
  | error e =>
    simp only [reduceCtorEq, false_iff]
    rintro ⟨idx, hat, _⟩
    rw [(labelIdx_ok hv).mpr hat] at h
    simp at h
  | ok index =>
    have hat := (labelIdx_ok hv).mp h
    have hb : InB y.x.shape index := hv.shape_eq ▸ At_inB hat
    simp only [NDArray.item, if_pos hb, Except.ok.injEq]
    constructor
    · intro h; exact ⟨index, hat, h⟩
    · rintro ⟨idx, hat', h⟩
      rw [At_unique hv.nodup hat hat']; exact h

theorem get_error_iff {y : Larry L} (hv : y.Valid) {names : List L} {e : PyErr} :
    y.get names = .error e ↔ (names.length ≠ y.ndim ∧ e = .valueError) ∨
      (names.length = y.ndim ∧ ¬ Named y.label names ∧ e = .indexError) := by
  constructor
  · unfold get
    cases h : y.labelIdx names with
    | error e' =>
      intro h'
      simp only [Except.error.injEq] at h'
      subst h'
      exact labelIdx_error hv h
    | ok index =>
      have hat := (labelIdx_ok hv).mp h
      have hb : InB y.x.shape index := hv.shape_eq ▸ At_inB hat
      simp [NDArray.item, if_pos hb]
  · intro h
    have hno : ∀ v, y.get names ≠ .ok v := by
      intro v hv'
      rw [get_ok_iff hv] at hv'
      have hN := Named_of_Holds hv'
      rcases h with ⟨h1, _⟩ | ⟨_, h1, _⟩
      · exact h1 ((Named_iff.mp hN).1.trans hv.label_length)
      · exact h1 hN
    cases hg : y.get names with
    | ok v => exact absurd hg (hno v)
    | error e' =>
      have : (names.length ≠ y.ndim ∧ e' = .valueError) ∨
          (names.length = y.ndim ∧ ¬ Named y.label names ∧ e' = .indexError) := by
        unfold get at hg
        cases h : y.labelIdx names with
        | error e'' =>
          rw [h] at hg
          simp only [Except.error.injEq] at hg
          subst hg
          exact labelIdx_error hv h
        | ok index =>
          rw [h] at hg
          have hat := (labelIdx_ok hv).mp h
          have hb : InB y.x.shape index := hv.shape_eq ▸ At_inB hat
          simp [NDArray.item, if_pos hb] at hg
      rcases h with ⟨h1, h2⟩ | ⟨h1, h2, h3⟩ <;> rcases this with ⟨h4, h5⟩ | ⟨h4, h5, h6⟩ <;>
        simp_all

/-! ## take -/

omit [LinearOrder L] in
theorem listmap_bounds {l lab : List L} {ids : List Nat}
    (h : ids.map (fun i => l[i]?) = lab.map some) : ∀ i ∈ ids, i < l.length := by
  intro i hi
  obtain ⟨k, hk⟩ := List.mem_iff_getElem?.mp hi
  have hlen := (getElem?_of_map h).1
  have hk' : k < lab.length := by
    rw [← hlen]; exact (List.getElem?_eq_some_iff.mp hk).1
  obtain ⟨j, hj, hj'⟩ := (getElem?_of_map h).2 k lab[k] (by simp)
  rw [hk] at hj; cases hj
  exact (List.getElem?_eq_some_iff.mp hj').1

theorem take_nat {x : NDArray Val} {ids : List Nat} {ax n : Nat} (hn : x.shape[ax]? = some n)
    (hids : ∀ i ∈ ids, i < n) : x.take (ids.map Int.ofNat) ax = .ok (x.gather ids ax) := by
  have hax := (List.getElem?_eq_some_iff.mp hn).1
  have h1 : pyIdx x.ndim (ax : Int) = some ax := pyIdx_ofNat (by simpa [NDArray.ndim] using hax)
  simp only [NDArray.take, h1]
  have h2 : x.shape.getD ax 0 = n := by simp [List.getD, hn]
  have h3 : mapRes (pyIdxE (x.shape.getD ax 0)) (ids.map Int.ofNat) = .ok ids := by
    rw [mapRes_ok, List.forall₂_map_left_iff]
    rw [List.forall₂_same]
    intro i hi
    rw [h2, Int.ofNat_eq_natCast, pyIdxE_ok, pyIdx_ofNat (hids i hi)]
  rw [h3]

end order
end Larry
end La
