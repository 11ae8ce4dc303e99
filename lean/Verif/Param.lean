import Verif.SetitemFacts
import Verif.HeapWrite
import Verif.Reorder
import Verif.Lix

/-!
# Arrays and larrys that correspond value by value

Methods that only move values about treat two corresponding larrys alike.
-/

namespace La
variable {L : Type _}

/-- Two arrays of the same shape with related elements at every position. -/
def NDArray.Rel {α β : Type _} (R : α → β → Prop) (a : NDArray α) (b : NDArray β) : Prop :=
  a.shape = b.shape ∧ ∀ idx, InB a.shape idx → R (a.get idx) (b.get idx)

/-- Two larrys with the same labels and dtype, the dtype being one of `D`, and related elements. -/
structure Larry.Rel (R : Val → Val → Prop) (D : DType → Prop) (y z : Larry L) : Prop where
  label : y.label = z.label
  dtype : y.dtype = z.dtype
  known : D y.dtype
  x : NDArray.Rel R y.x z.x

/-- For methods that return an element or a larry. -/
def Out.Rel (R : Val → Val → Prop) (D : DType → Prop) : Out L → Out L → Prop
  | .scalar v, .scalar w => R v w
  | .larry y, .larry z => y.Rel R D z
  | _, _ => False

/-- For methods that return an element, a bare array or a larry. -/
def GetOut.Rel (R : Val → Val → Prop) (D : DType → Prop) : GetOut L → GetOut L → Prop
  | .scalar v, .scalar w => R v w
  | .array x, .array x' => NDArray.Rel R x x'
  | .larry y, .larry z => y.Rel R D z
  | _, _ => False

/-! ## Arrays -/

namespace NDArray
variable {α β : Type _} {R : α → β → Prop} {a : NDArray α} {b : NDArray β}

theorem Rel.reindex (h : Rel R a b) (shape : List Nat) (f : List Nat → List Nat)
    (hf : ∀ idx, InB shape idx → InB a.shape (f idx)) :
    Rel R ⟨shape, fun idx => a.get (f idx)⟩ ⟨shape, fun idx => b.get (f idx)⟩ :=
  ⟨rfl, fun idx hi => h.2 _ (hf idx hi)⟩

theorem InB_gather {shape : List Nat} {ids : List Nat} {ax : Nat} (hids : ∀ k ∈ ids, k < shape.getD ax 0)
    {idx : List Nat} (hi : InB (shape.set ax ids.length) idx) : InB shape (idx.modify ax (fun k => ids.getD k 0)) := by
  rw [InB_iff] at hi ⊢
  obtain ⟨h1, h2⟩ := hi
  refine ⟨by simpa using h1, fun k n i hn hik => ?_⟩
  have hk := (List.getElem?_eq_some_iff.mp hn).1
  by_cases hax : k = ax
  · subst hax
    rw [List.getElem?_modify_eq] at hik
    obtain ⟨j, hj, rfl⟩ := Option.map_eq_some_iff.mp hik
    have hlt := h2 k ids.length j (by rw [List.getElem?_set_self hk]) hj
    have := hids _ (getD_of_lt hlt)
    simpa [List.getD, hn] using this
  · have hne : ax ≠ k := fun h => hax h.symm
    simp only [List.getElem?_modify, hne, if_false, id_map'] at hik
    exact h2 k n i (by rw [List.getElem?_set_ne (fun h => hax h.symm)]; exact hn) hik

theorem Rel.gather (h : Rel R a b) {ids : List Nat} {ax : Nat} (hids : ∀ k ∈ ids, k < a.shape.getD ax 0) :
    Rel R (a.gather ids ax) (b.gather ids ax) := by
  refine ⟨by simp [NDArray.gather, h.1], fun idx hi => h.2 _ (InB_gather hids hi)⟩

theorem forall₂_mem_right {γ δ : Type _} {S : γ → δ → Prop} {l : List γ} {m : List δ} (h : List.Forall₂ S l m) {d : δ}
    (hd : d ∈ m) : ∃ c ∈ l, S c d := by
  induction h with
  | nil => simp at hd
  | cons h1 _ ih =>
    rcases List.mem_cons.mp hd with rfl | hd
    · exact ⟨_, by simp, h1⟩
    · obtain ⟨c, hc, hs⟩ := ih hd
      exact ⟨c, by simp [hc], hs⟩

theorem mapRes_pyIdxE_lt {n : Nat} {is : List Int} {ks : List Nat} (h : mapRes (pyIdxE n) is = .ok ks) :
    ∀ k ∈ ks, k < n := by
  intro k hk
  rw [mapRes_ok] at h
  obtain ⟨i, -, h2⟩ := forall₂_mem_right h hk
  exact pyIdx_lt (pyIdxE_ok.mp h2)

theorem Rel.take (h : Rel R a b) (ids : List Int) (axis : Int) :
    Res.Agree (Rel R) (a.take ids axis) (b.take ids axis) := by
  unfold NDArray.take NDArray.ndim
  rw [← h.1]
  cases pyIdx a.shape.length axis with
  | none => exact rfl
  | some ax =>
    cases hm : mapRes (pyIdxE (a.shape.getD ax 0)) ids with
    | error e => simp only [hm]; exact rfl
    | ok ks => simp only [hm]; exact h.gather (mapRes_pyIdxE_lt hm)

theorem sliceIndices_lt {n : Nat} {s : PySlice} {ids : List Nat} (h : sliceIndices n s = .ok ids) :
    ∀ k ∈ ids, k < n := (sliceIndices_spec h).1

theorem Rel.sliceAx (h : Rel R a b) (s : PySlice) (ax : Nat) :
    Res.Agree (Rel R) (a.sliceAx s ax) (b.sliceAx s ax) := by
  unfold NDArray.sliceAx
  rw [← h.1]
  cases hm : sliceIndices (a.shape.getD ax 0) s with
  | error e => simp only; exact rfl
  | ok ks => simp only; exact h.gather (sliceIndices_lt hm)

theorem Rel.transpose (h : Rel R a b) : Rel R a.transpose b.transpose :=
  ⟨by simp [NDArray.transpose, h.1], fun idx hi => h.2 _ (by
    rw [← InB_reverse, List.reverse_reverse]; exact hi)⟩

theorem InB_swap {s idx : List Nat} {i j : Nat} (hi : i < s.length) (hj : j < s.length) (h : InB (swapList s i j) idx) :
    InB s (swapList idx i j) := by
  rw [InB_iff] at h ⊢
  obtain ⟨h1, h2⟩ := h
  rw [swapList_length] at h1
  refine ⟨by rw [swapList_length, h1], fun k n m hn hm => ?_⟩
  rw [swapList_getElem? (by omega) (by omega)] at hm
  split_ifs at hm with e1 e2
  · subst e1
    refine h2 j n m ?_ hm
    rw [swapList_getElem? hi hj]
    split_ifs with e <;> simp_all
  · subst e2
    refine h2 i n m ?_ hm
    rw [swapList_getElem? hi hj]
    simp [hn]
  · refine h2 k n m ?_ hm
    rw [swapList_getElem? hi hj, if_neg e1, if_neg e2, hn]

theorem Rel.swapaxes (h : Rel R a b) {i j : Nat} (hi : i < a.shape.length) (hj : j < a.shape.length) :
    Rel R (a.swapaxes i j) (b.swapaxes i j) :=
  ⟨by simp [NDArray.swapaxes, h.1], fun idx hidx => h.2 _ (InB_swap hi hj hidx)⟩

theorem InB_unsqueeze {s idx : List Nat} (h : InB (s.filter (· ≠ 1)) idx) : InB s (unsqueeze s idx) := by
  induction s generalizing idx with
  | nil => cases idx <;> simp_all [unsqueeze, InB]
  | cons n s ih =>
    by_cases hn : n = 1
    · simp only [hn, ne_eq, not_true_eq_false, decide_false, Bool.false_eq_true, not_false_eq_true,
        List.filter_cons_of_neg] at h
      simp only [unsqueeze, hn, if_true]
      exact ⟨by omega, ih h⟩
    · rw [List.filter_cons_of_pos (by simpa using hn)] at h
      cases idx with
      | nil => simp [InB] at h
      | cons i idx =>
        simp only [unsqueeze, if_neg hn]
        exact ⟨h.1, ih h.2⟩

theorem Rel.squeeze (h : Rel R a b) : Rel R a.squeeze b.squeeze :=
  ⟨by simp [NDArray.squeeze, h.1], fun idx hi => by
    have := h.2 _ (InB_unsqueeze hi)
    simpa [NDArray.squeeze, h.1] using this⟩

theorem insertIdx_eq_take_drop' {l : List Nat} {p n : Nat} (hp : p ≤ l.length) :
    l.insertIdx p n = l.take p ++ n :: l.drop p := by
  induction p generalizing l with
  | zero => simp
  | succ p ih =>
    cases l with
    | nil => simp at hp
    | cons a l => simp [ih (by simpa using hp)]

theorem Rel.expandDims (h : Rel R a b) (axis : Int) : Rel R (a.expandDims axis) (b.expandDims axis) := by
  have hs := h.1
  refine ⟨by simp [NDArray.expandDims, NDArray.ndim, hs], fun idx hi => ?_⟩
  simp only [NDArray.expandDims, NDArray.ndim] at hi ⊢
  rw [← hs]
  refine h.2 _ ?_
  have hp : expandPos a.shape.length axis ≤ a.shape.length := by unfold expandPos; simp only; split_ifs <;> omega
  generalize expandPos a.shape.length axis = p at hi hp
  rw [← insertIdx_eq_take_drop' hp] at hi
  exact ((InB_insertIdx hp).mp hi).2.2

theorem Rel.pick (h : Rel R a b) {i ax : Nat} (hax : ax < a.shape.length) (hi : i < a.shape.getD ax 0) :
    Rel R (a.pick i ax) (b.pick i ax) :=
  ⟨by simp [NDArray.pick, h.1], fun _ hidx => h.2 _ (InB_insert hax hi hidx)⟩

theorem forall₂_map {γ : Type _} {l : List γ} {f : γ → α} {g : γ → β} (h : ∀ c ∈ l, R (f c) (g c)) :
    List.Forall₂ R (l.map f) (l.map g) := by
  induction l with
  | nil => exact .nil
  | cons c l ih => exact .cons (h c (by simp)) (ih (fun d hd => h d (by simp [hd])))

theorem Rel.vals (h : Rel R a b) : List.Forall₂ R a.vals b.vals := by
  unfold NDArray.vals
  rw [← h.1]
  exact forall₂_map (fun idx hi => h.2 idx (mem_allIdx.mp hi))

theorem Rel.grid (h : Rel R a b) {ids : List (List Nat)} (hids : List.Forall₂ (fun l n => ∀ k ∈ l, k < n) ids a.shape) :
    Rel R (a.grid ids) (b.grid ids) := by
  refine ⟨rfl, fun idx hi => h.2 _ ?_⟩
  simp only [NDArray.grid] at hi
  generalize a.shape = s at hids
  clear h
  induction hids generalizing idx with
  | nil => cases idx <;> simp_all [InB]
  | cons h1 _ ih =>
    cases idx with
    | nil => simp [InB] at hi
    | cons i idx => exact ⟨h1 _ (getD_of_lt hi.1), ih _ hi.2⟩

theorem bdim_ok {m n k : Nat} (h : bdim m n = .ok k) : (m = 1 ∨ m = k) ∧ (n = 1 ∨ n = k) := by
  unfold bdim at h
  split_ifs at h <;> simp_all

theorem bcastLens_ok {ns : List Nat} {k : Nat} (h : bcastLens ns = .ok k) : ∀ n ∈ ns, n = 1 ∨ n = k := by
  induction ns generalizing k with
  | nil => simp
  | cons m ns ih =>
    unfold bcastLens at h
    split at h
    · simp at h
    · rename_i j hj
      obtain ⟨h1, h2⟩ := bdim_ok h
      intro n hn
      rcases List.mem_cons.mp hn with rfl | hn
      · exact h1
      · rcases ih hj n hn with h3 | h3 <;> omega

/-- The entry stays below the length of its axis. -/
def SelIn : NpSel → Nat → Prop
  | .int k, n => k < n
  | .slice ids, n => ∀ k ∈ ids, k < n
  | .fancy ids, n => ∀ k ∈ ids, k < n

theorem place_inB {ss : List NpSel} {s : List Nat} (hs : List.Forall₂ SelIn ss s) {b : Nat}
    (hb : ∀ n ∈ fancyLens ss, (n = 1 ∨ b < n)) {rest : List Nat}
    (h : InB (sliceLens ss) rest) : InB s (place b ss rest) := by
  induction hs generalizing rest with
  | nil => simp [place, InB]
  | @cons t n ss s h1 _ ih =>
    cases t with
    | int k => exact ⟨h1, ih hb h⟩
    | slice ids =>
      cases rest with
      | nil => simp [sliceLens, InB] at h
      | cons i rest => exact ⟨h1 _ (getD_of_lt h.1), ih hb h.2⟩
    | fancy ids =>
      have h2 := hb ids.length (by simp [fancyLens])
      refine ⟨h1 _ ?_, ih (fun n hn => hb n (by simp [fancyLens, hn])) h⟩
      split
      · exact getD_of_lt (by omega)
      · exact getD_of_lt (by omega)

theorem resolve_in {n : Nat} {it : NpItem} {t : NpSel} (h : it.resolve n = .ok t) : SelIn t n := by
  cases it with
  | int i =>
    simp only [NpItem.resolve] at h
    split at h
    · simp at h
    · rename_i k hk
      obtain rfl : _ = t := by simpa using h
      exact pyIdx_lt hk
  | slice sl =>
    simp only [NpItem.resolve] at h
    split at h
    · simp at h
    · rename_i ids hk
      obtain rfl : _ = t := by simpa using h
      exact sliceIndices_lt hk
  | seq is =>
    simp only [NpItem.resolve] at h
    split at h
    · simp at h
    · rename_i ids hk
      obtain rfl : _ = t := by simpa using h
      exact mapRes_pyIdxE_lt hk
  | mask bs =>
    simp only [NpItem.resolve] at h
    split at h
    · simp at h
    · rename_i hk
      obtain rfl : _ = t := by simpa using h
      intro k hk'
      simp only [List.any_eq_true, decide_eq_true_eq, not_exists, not_and] at hk
      have := hk k hk'
      omega

theorem npSelect_inB {shape : List Nat} {its : List NpItem} {g : NDArray (List Nat)} (h : npSelect shape its = .ok g)
    {idx : List Nat} (hi : InB g.shape idx) : InB shape (g.get idx) := by
  unfold npSelect at h
  split at h
  · simp at h
  · rename_i ss hss
    have hs : List.Forall₂ SelIn ss shape := by
      unfold npResolve at hss
      split_ifs at hss with hl
      rw [mapRes_ok] at hss
      generalize hits : its ++ List.replicate (shape.length - its.length) (NpItem.slice {}) = its' at hss
      have hlen : its'.length = shape.length := by subst hits; simp; omega
      clear hits hl h
      induction shape generalizing its' ss with
      | nil => simp at hss; subst hss; exact .nil
      | cons n shape ih =>
        cases its' with
        | nil => simp at hlen
        | cons it its' =>
          rw [List.zip_cons_cons] at hss
          cases hss with
          | cons h1 h2 => exact .cons (resolve_in h1) (ih _ _ h2 (by simpa using hlen))
    unfold npGrid at h
    split at h
    · rename_i hf
      obtain rfl : _ = g := by simpa using h
      exact place_inB hs (by simp [hf]) hi
    · rename_i n ns hf
      split at h
      · simp at h
      · rename_i m hm
        obtain rfl : _ = g := by simpa using h
        obtain ⟨h2, -, h3⟩ := (InB_insertIdx (advPos_le ss)).mp hi
        exact place_inB hs (by rw [hf]; intro n hn; rcases bcastLens_ok hm n hn with h4 | h4; exacts [.inl h4, .inr (h4 ▸ h2)]) h3

theorem Rel.index (h : Rel R a b) (its : List NpItem) : Res.Agree (Rel R) (a.index its) (b.index its) := by
  unfold NDArray.index
  rw [← h.1]
  cases hs : npSelect a.shape its with
  | error e => exact rfl
  | ok g => exact ⟨rfl, fun idx hi => h.2 _ (npSelect_inB hs hi)⟩

theorem Rel.map {γ δ : Type _} {S : γ → δ → Prop} (h : Rel R a b) {f : α → γ} {f' : β → δ} (hf : ∀ v w, R v w → S (f v) (f' w)) :
    Rel S (a.map f) (b.map f') := ⟨h.1, fun idx hi => hf _ _ (h.2 idx hi)⟩

theorem Rel.assignAx (h : Rel R a b) {v : α} {w : β} (hv : R v w) (ps : List Nat) (ax : Nat) :
    Rel R (a.assignAx ps ax v) (b.assignAx ps ax w) := by
  refine ⟨h.1, fun idx hi => ?_⟩
  simp only [NDArray.assignAx]
  split_ifs
  · exact hv
  · exact h.2 idx hi

theorem Rel.setItem [DecidableEq (List Nat)] (h : Rel R a b) {v : α} {w : β} (hv : R v w) (i : List Nat) :
    Rel R (a.setItem i v) (b.setItem i w) := by
  refine ⟨h.1, fun idx hi => ?_⟩
  simp only [NDArray.setItem]
  split_ifs
  · exact hv
  · exact h.2 idx hi

theorem Rel.full {v : α} {w : β} (hv : R v w) (s : List Nat) : Rel R (NDArray.full s v) (NDArray.full s w) :=
  ⟨rfl, fun _ _ => hv⟩

theorem bcast_sides {P Q u : List Nat} (hl : P.length = Q.length)
    (h : mapRes (fun p : Nat × Nat => bdim p.1 p.2) (P.zip Q) = .ok u) :
    List.Forall₂ (fun m c => m = 1 ∨ m = c) P u ∧ List.Forall₂ (fun m c => m = 1 ∨ m = c) Q u := by
  rw [mapRes_ok] at h
  induction P generalizing Q u with
  | nil =>
    cases Q with
    | nil => simp at h; subst h; exact ⟨.nil, .nil⟩
    | cons => simp at hl
  | cons m P ih =>
    cases Q with
    | nil => simp at hl
    | cons n Q =>
      rw [List.zip_cons_cons] at h
      cases h with
      | cons h1 h2 =>
        obtain ⟨h3, h4⟩ := ih (by simpa using hl) h2
        exact ⟨.cons (bdim_ok h1).1 h3, .cons (bdim_ok h1).2 h4⟩

theorem InB_bget_side {r : Nat} {s u idx : List Nat} (h : List.Forall₂ (fun m c => m = 1 ∨ m = c) (List.replicate r 1 ++ s) u)
    (hi : InB u idx) : InB s (List.zipWith (fun n i => if n = 1 then 0 else i) s (idx.drop (idx.length - s.length))) := by
  have h0 : idx.length - s.length = r := by
    rw [InB_length hi, ← h.length_eq]; simp
  rw [h0]
  clear h0
  induction r generalizing u idx with
  | zero =>
    simp only [List.replicate_zero, List.nil_append] at h
    simp only [List.drop_zero]
    induction h generalizing idx with
    | nil => cases idx <;> simp_all [InB]
    | cons h1 _ ih =>
      cases idx with
      | nil => simp [InB] at hi
      | cons i idx =>
        refine ⟨?_, ih hi.2⟩
        have := hi.1
        show (if _ then _ else _) < _
        split_ifs <;> omega
  | succ r ih =>
    rw [List.replicate_succ, List.cons_append] at h
    cases h with
    | cons h1 h2 =>
      cases idx with
      | nil => simp [InB] at hi
      | cons i idx => exact ih h2 hi.2

theorem InB_bget {s t u idx : List Nat} (h : broadcastShape s t = .ok u) (hi : InB u idx) :
    InB s (List.zipWith (fun n i => if n = 1 then 0 else i) s (idx.drop (idx.length - s.length))) ∧
    InB t (List.zipWith (fun n i => if n = 1 then 0 else i) t (idx.drop (idx.length - t.length))) := by
  obtain ⟨h1, h2⟩ := bcast_sides (by simp only [List.length_append, List.length_replicate]; omega) h
  exact ⟨InB_bget_side h1 hi, InB_bget_side h2 hi⟩

theorem Rel.reduceAx {γ δ : Type _} {S : γ → δ → Prop} (h : Rel R a b) {f : List α → γ} {f' : List β → δ}
    (hf : ∀ l l', List.Forall₂ R l l' → S (f l) (f' l')) {ax : Nat} (hax : ax < a.shape.length) :
    Rel S (a.reduceAx f ax) (b.reduceAx f' ax) := by
  refine ⟨by simp [NDArray.reduceAx, h.1], fun idx hi => hf _ _ ?_⟩
  simp only [NDArray.line]
  rw [← h.1]
  exact forall₂_map (fun k hk => h.2 _ (InB_insert hax (by simpa using hk) hi))

end NDArray
end La
