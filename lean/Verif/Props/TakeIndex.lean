import Verif.Props.AnyOrder

/-! # C34: `take` and indexing -/

namespace La
variable {L : Type _} [LinearOrder L]

/-- C34. `y.take(indices, axis)` and `y[:, ..., indices]` are the same larry. -/
theorem C34_take_getitem {y : Larry L} (hv : y.Valid) {a : Int} {ax : Nat} {l : List L}
    (hax : pyIdx y.ndim a = some ax) (hl : y.label[ax]? = some l) {indices : List Int} {ids : List Nat}
    (hids : List.Forall₂ (fun i k => pyIdx l.length i = some k) indices ids) (hnd : ids.Nodup) :
    ∃ z w, y.take indices a = .ok z ∧
      y.getitem (.tuple (List.replicate ax (.slice {}) ++ [.seq indices])) = .ok (.larry w) ∧ z.Same w := by
  obtain ⟨z, lab, h1, h2, h3⟩ := C34_take hv hax hl hids hnd
  have hp : List.Forall₂ (PyAt l) indices lab := by
    clear hnd h1 h3
    induction hids generalizing lab with
    | nil =>
      simp only [List.map_nil, List.map_eq_nil_iff] at h2
      subst h2
      exact .nil
    | cons hi _ ih =>
      cases lab with
      | nil => simp at h2
      | cons b lab =>
        simp only [List.map_cons, List.cons.injEq] at h2
        exact .cons (pyAt_iff.mpr ⟨_, hi, h2.1.symm⟩) (ih lab h2.2)
  have hln : lab.Nodup := by
    have := h3.valid.nodup lab
    rw [h3.label_eq] at this
    exact this (List.mem_set (by rw [hv.label_length]; exact (pyIdx_some.mp hax).1) _)
  obtain ⟨w, k1, k2⟩ := moved_item hv hax hl (it := .seq indices) hln (fun m e => nomatch e) hp
  have k3 := moved_of_part (m := AxisMove.item (.seq indices)) hl (fun _ _ => Iff.rfl) (by simp [Widens]) h3
  refine ⟨z, w, h1, ?_, ?_⟩
  · simp only [AxisMove.run, hax] at k1
    cases hr : y.getitem (.tuple (List.replicate ax (.slice {}) ++ [.seq indices])) with
    | error e => rw [hr] at k1; cases k1
    | ok r =>
      rw [hr] at k1
      cases r with
      | larry w' => cases k1; rfl
      | scalar v => cases k1
      | array x => cases k1
  · have d1 := k2.kept (fun h => by simp [Widens] at h)
    have d2 := k3.kept (fun h => by simp [Widens] at h)
    refine h3.valid.same_of_has k2.valid (h3.label_eq.trans k2.label_eq.symm) (d2.trans d1.symm) fun names v hh => ?_
    have hk := (k3.has names v).mp hh
    rw [d2, k3.label_eq] at hk
    rw [k2.has, d1, k2.label_eq]
    exact hk

/-- C34. For every list of indices: one returns exactly when the other does, and then they return the same. -/
theorem C34_take_iff {y : Larry L} (hv : y.Valid) {a : Int} {ax : Nat} (hax : pyIdx y.ndim a = some ax) (indices : List Int) :
    (∀ z, y.take indices a = .ok z →
      ∃ w, y.getitem (.tuple (List.replicate ax (.slice {}) ++ [.seq indices])) = .ok (.larry w) ∧ z.Same w) ∧
    (∀ w, y.getitem (.tuple (List.replicate ax (.slice {}) ++ [.seq indices])) = .ok (.larry w) →
      ∃ z, y.take indices a = .ok z ∧ z.Same w) := by
  have hlt : ax < y.label.length := by rw [hv.label_length]; exact (pyIdx_some.mp hax).1
  have hl : y.label[ax]? = some y.label[ax] := List.getElem?_eq_getElem hlt
  constructor
  · intro z hz
    obtain ⟨lab, ids, h1, h2, -⟩ := (C100_returns hv hax hl (m := .pick (.take indices)) trivial).mp ⟨z, hz⟩
    obtain ⟨z', w, k1, k2, k3⟩ := C34_take_getitem hv hax hl h1 h2
    rw [hz] at k1
    cases k1
    exact ⟨w, k2, k3⟩
  · intro w hw
    obtain ⟨lab, h1, -, h3⟩ := (C100_returns hv hax hl (m := .item (.seq indices))
      ⟨(fun ⟨i, e⟩ => nomatch e), fun m e => nomatch e⟩).mp ⟨w, by simp only [AxisMove.run, hax, hw, GetOut.larry?]⟩
    obtain ⟨ids, h4, h5⟩ : ∃ ids : List Nat, List.Forall₂ (fun i k => pyIdx y.label[ax].length i = some k) indices ids ∧
        lab.map some = ids.map (fun k => y.label[ax][k]?) := by
      clear h1 hw
      change List.Forall₂ (PyAt y.label[ax]) indices lab at h3
      induction h3 with
      | nil => exact ⟨[], .nil, rfl⟩
      | cons hi _ ih =>
        obtain ⟨k, hk, hk'⟩ := pyAt_iff.mp hi
        obtain ⟨ids, e1, e2⟩ := ih
        exact ⟨k :: ids, .cons hk e1, by simp only [List.map_cons, hk', e2]⟩
    have h6 : ids.Nodup := by
      have hs : (lab.map some).Nodup := h1.map (Option.some_injective L)
      rw [h5] at hs
      exact hs.of_map _
    obtain ⟨z, w', k1, k2, k3⟩ := C34_take_getitem hv hax hl h4 h6
    rw [hw] at k2
    cases k2
    exact ⟨z, k1, k3⟩

example : exA.Valid ∧ (∃ z, exA.take [2, -3] 1 = .ok z ∧ z.label = [[10, 20], [2, 3]]) ∧
    exA.take [0, -3] 1 = .error .indexError := by
  refine ⟨exA_valid, ?_, ?_⟩
  · exact ⟨_, rfl, by decide⟩
  · rfl

end La
