import Verif.MorphFacts

/-! # Facts about broadcasting and binary operators -/

namespace La
variable {L : Type _}

theorem bdim_self (n : Nat) : bdim n n = .ok n := by simp [bdim]

theorem broadcastShape_self (s : List Nat) : broadcastShape s s = .ok s := by
  simp only [broadcastShape, Nat.max_self, Nat.sub_self, List.replicate_zero, List.nil_append]
  rw [mapRes_ok]
  induction s with
  | nil => simp
  | cons n s ih => simp [List.zip_cons_cons, bdim_self, ih]

theorem zipWith_inB {shape idx : List Nat} (h : InB shape idx) :
    List.zipWith (fun n i => if n = 1 then 0 else i) shape idx = idx := by
  induction shape generalizing idx with
  | nil => cases idx <;> simp_all [InB]
  | cons n ns ih =>
    cases idx with
    | nil => simp [InB] at h
    | cons i is =>
      simp only [InB] at h
      simp only [List.zipWith_cons_cons, ih h.2]
      by_cases hn : n = 1
      · simp [hn]; omega
      · simp [hn]

theorem bget_inB {α : Type _} (a : NDArray α) {idx : List Nat} (h : InB a.shape idx) :
    a.bget idx = a.get idx := by
  have := InB_length h
  simp only [NDArray.bget, this, Nat.sub_self, List.drop_zero]
  rw [zipWith_inB h]

theorem npBinop_same {uf : UFunc2} {a b : NDArray Val} {da db d : DType} (hs : a.shape = b.shape)
    (hd : uf.dt da db = .ok d) :
    ∃ x, npBinop uf a da b db = .ok (x, d) ∧ x.shape = a.shape ∧
      ∀ idx, InB a.shape idx → x.get idx = uf.f (a.get idx) (b.get idx) := by
  refine ⟨⟨a.shape, fun i => uf.f (a.bget i) (b.bget i)⟩, ?_, rfl, ?_⟩
  · simp [npBinop, hd, ← hs, broadcastShape_self]
  · intro idx h
    simp only [bget_inB a h, bget_inB b (hs ▸ h)]

theorem npBinop_dtError {uf : UFunc2} {a b : NDArray Val} {da db : DType} {e : PyErr}
    (hd : uf.dt da db = .error e) : npBinop uf a da b db = .error e := by
  simp [npBinop, hd]

variable [LinearOrder L]

theorem Larry.align_spec {a b : Larry L} (ha : a.Valid) (hb : b.Valid) (hn : a.ndim = b.ndim) :
    ∃ x y r, Larry.align a b = .ok (x, y, r) ∧ Joined InnerJoined a.label b.label r ∧
      x.shape = r.map List.length ∧ y.shape = r.map List.length ∧
      Reindexed a.label a.x r x id none ∧ Reindexed b.label b.x r y id none := by
  have h := alignLoop_spec a.label b.label [] a.x b.x
    (by rw [ha.label_length, hb.label_length, hn]) (by simpa using ha.shape_eq)
    (by simpa using hb.shape_eq) (by simpa using ha.nodup) (by simpa using hb.nodup)
  simp only [List.length_nil, List.nil_append] at h
  obtain ⟨x, y, r, h1, h2⟩ := h
  exact ⟨x, y, r, by simp [Larry.align, hn, h1], h2⟩

theorem Joined.refl_inner (l : List (List L)) : Joined InnerJoined l l l := by
  induction l with
  | nil => exact .nil
  | cons a l ih => exact .cons ⟨fun _ => rfl, fun h => absurd rfl h⟩ ih

/-- Elementwise application after alignment. -/
theorem aligned_apply {a b : Larry L} (ha : a.Valid) {uf : UFunc2} {d : DType}
    (hd : uf.dt a.dtype b.dtype = .ok d) {x y : NDArray Val} {r : List (List L)}
    (hj : Joined InnerJoined a.label b.label r)
    (hx : x.shape = r.map List.length) (hy : y.shape = r.map List.length)
    (hrx : Reindexed a.label a.x r x id none) (hry : Reindexed b.label b.x r y id none) :
    ∃ z, npBinop uf x a.dtype y b.dtype = .ok (z, d) ∧ ValidLabels r z.shape ∧
      ∀ names v, Holds r z names v ↔ ∃ u w, a.Has names u ∧ b.Has names w ∧ v = uf.f u w := by
  obtain ⟨z, h1, h2, h3⟩ := npBinop_same (uf := uf) (da := a.dtype) (db := b.dtype)
    (hx.trans hy.symm) hd
  have hnd : ∀ l ∈ r, l.Nodup := by
    intro c hc
    obtain ⟨k, hk⟩ := List.mem_iff_getElem?.mp hc
    have hlen := hj.lengths
    have hk' := (List.getElem?_eq_some_iff.mp hk).1
    obtain ⟨c', hc', hR⟩ := hj.get k (a.label[k]'(by omega)) (b.label[k]'(by omega)) (by simp)
      (by simp)
    rw [hk] at hc'; cases hc'
    exact hR.nodup (ha.nodup _ (List.getElem_mem _))
  refine ⟨z, h1, ⟨h2.trans hx, hnd, ?_⟩, ?_⟩
  · intro h
    subst h
    apply ha.ndim_pos
    have := hj.lengths.1
    exact List.length_eq_zero_iff.mp (by simpa using this.symm)
  · intro names v
    constructor
    · rintro ⟨idx, hat, rfl⟩
      have hb := At_inB hat
      rw [← hx] at hb
      refine ⟨x.get idx, y.get idx, ?_, ?_, h3 idx hb⟩
      · obtain ⟨_, ⟨w, hw, he⟩ | ⟨_, hm⟩⟩ := (hrx names (x.get idx)).mp ⟨idx, hat, rfl⟩
        · rw [he]; exact hw
        · simp at hm
      · obtain ⟨_, ⟨w, hw, he⟩ | ⟨_, hm⟩⟩ := (hry names (y.get idx)).mp ⟨idx, hat, rfl⟩
        · rw [he]; exact hw
        · simp at hm
    · rintro ⟨u, w, hu, hw, rfl⟩
      have hN : Named r names := hj.named_inner.mpr ⟨Named_of_Holds hu, Named_of_Holds hw⟩
      obtain ⟨i, hi, rfl⟩ := (hrx names u).mpr ⟨hN, .inl ⟨u, hu, rfl⟩⟩
      obtain ⟨j, hj', rfl⟩ := (hry names w).mpr ⟨hN, .inl ⟨w, hw, rfl⟩⟩
      have hij := At_unique hnd hi hj'
      subst hij
      exact ⟨i, hi, h3 i (hx ▸ At_inB hi)⟩

end La
