import Verif.HeapView
import Verif.Param

/-!
# Arrays without overlap

`Heap.Ok h`: every array of a larry shows each cell of its buffer at most once, and no list of labels
serves two axes of one larry.  `Good n m Q`: run in such a memory in which the addresses below `n` are
given out, `m` leaves such a memory, and what it returns satisfies `Q` together with the first address
not given out.
-/

namespace La
variable {L : Type} {α β : Type}

/-! ## Positions -/

/-- No two positions show the same cell. -/
def NDArray.Once (g : NDArray (List Nat)) : Prop :=
  ∀ i j, InB g.shape i → InB g.shape j → g.get i = g.get j → i = j

theorem NDArray.Once.reindex {g : NDArray (List Nat)} (hg : g.Once) {shape : List Nat} {f : List Nat → List Nat}
    (hf : ∀ i, InB shape i → InB g.shape (f i)) (hi : ∀ i j, InB shape i → InB shape j → f i = f j → i = j) :
    NDArray.Once ⟨shape, fun i => g.get (f i)⟩ :=
  fun i j h1 h2 he => hi i j h1 h2 (hg _ _ (hf i h1) (hf j h2) he)

theorem NDArray.Once.id (shape : List Nat) : NDArray.Once ⟨shape, _root_.id⟩ := fun _ _ _ _ h => h

theorem NDArray.Once.transpose {g : NDArray (List Nat)} (hg : g.Once) : g.transpose.Once :=
  hg.reindex (fun i hi => by rw [← InB_reverse, List.reverse_reverse]; exact hi)
    (fun i j _ _ h => List.reverse_injective h)

theorem swapList_out {γ : Type} {l : List γ} {i j : Nat} (h : ¬ (i < l.length ∧ j < l.length)) : swapList l i j = l := by
  unfold swapList
  split
  · rename_i h1 h2
    exact absurd ⟨(List.getElem?_eq_some_iff.mp h1).1, (List.getElem?_eq_some_iff.mp h2).1⟩ h
  · rfl

theorem swapList_invol {γ : Type} (l : List γ) (i j : Nat) : swapList (swapList l i j) i j = l := by
  by_cases h : i < l.length ∧ j < l.length
  · exact swapList_swapList h.1 h.2
  · rw [swapList_out h, swapList_out h]

theorem NDArray.Once.swapaxes {g : NDArray (List Nat)} (hg : g.Once) (i j : Nat) : (g.swapaxes i j).Once := by
  refine hg.reindex (fun k hk => ?_) (fun a b _ _ h => ?_)
  · by_cases h : i < g.shape.length ∧ j < g.shape.length
    · exact NDArray.InB_swap h.1 h.2 hk
    · have hl := InB_length hk
      rw [swapList_out h] at hk hl
      rw [swapList_out (by rw [hl]; exact h)]
      exact hk
  · rw [← swapList_invol a i j, h, swapList_invol]

theorem getD_inj {ids : List Nat} (h : ids.Nodup) {i j : Nat} (hi : i < ids.length) (hj : j < ids.length)
    (he : ids.getD i 0 = ids.getD j 0) : i = j := by
  simp only [List.getD_eq_getElem?_getD, List.getElem?_eq_getElem hi, List.getElem?_eq_getElem hj, Option.getD_some] at he
  exact (List.Nodup.getElem_inj_iff h).mp he

theorem modify_inj {f : Nat → Nat} : ∀ {shape : List Nat} {ax n : Nat} {a b : List Nat}, InB (shape.set ax n) a →
    InB (shape.set ax n) b → (∀ i j, i < n → j < n → f i = f j → i = j) → a.modify ax f = b.modify ax f → a = b
  | [], _, _, a, b, ha, hb, _, _ => by
    simp only [List.set_nil] at ha hb
    cases a <;> cases b <;> simp_all [InB]
  | _ :: _, _, _, [], _, ha, _, _, _ => by
    cases ‹Nat› <;> simp [InB] at ha
  | _ :: _, _, _, _ :: _, [], _, hb, _, _ => by
    cases ‹Nat› <;> simp [InB] at hb
  | s :: shape, 0, n, a :: as, b :: bs, ha, hb, hf, h => by
    simp only [List.set_cons_zero, InB] at ha hb
    simp only [List.modify_zero_cons, List.cons.injEq] at h
    rw [hf a b ha.1 hb.1 h.1, h.2]
  | s :: shape, ax + 1, n, a :: as, b :: bs, ha, hb, hf, h => by
    simp only [List.set_cons_succ, InB] at ha hb
    simp only [List.modify_succ_cons, List.cons.injEq] at h
    rw [h.1, modify_inj ha.2 hb.2 hf h.2]

theorem NDArray.Once.gather {g : NDArray (List Nat)} (hg : g.Once) {ids : List Nat} {ax : Nat}
    (h1 : ∀ k ∈ ids, k < g.shape.getD ax 0) (h2 : ids.Nodup) : (g.gather ids ax).Once :=
  hg.reindex (fun _ hk => NDArray.InB_gather h1 hk)
    (fun _ _ ha hb h => modify_inj ha hb (fun _ _ hi hj he => getD_inj h2 hi hj he) h)

theorem NDArray.Once.sliceAx {g g' : NDArray (List Nat)} (hg : g.Once) {s : PySlice} {ax : Nat}
    (h : g.sliceAx s ax = .ok g') : g'.Once := by
  unfold NDArray.sliceAx at h
  cases hs : sliceIndices (g.shape.getD ax 0) s with
  | error e => rw [hs] at h; cases h
  | ok ids =>
    rw [hs] at h
    simp only [Except.ok.injEq] at h
    rw [← h]
    exact hg.gather (sliceIndices_spec hs).1 (sliceIndices_spec hs).2

theorem expandPos_le (n : Nat) (axis : Int) : NDArray.expandPos n axis ≤ n := by
  unfold NDArray.expandPos
  simp only
  split_ifs <;> omega

theorem eraseIdx_inj {p : Nat} : ∀ {a b : List Nat}, p < a.length → p < b.length → a.getD p 0 = b.getD p 0 →
    a.eraseIdx p = b.eraseIdx p → a = b := by
  induction p with
  | zero =>
    intro a b ha hb h1 h2
    cases a <;> cases b <;> simp_all
  | succ p ih =>
    intro a b ha hb h1 h2
    cases a with
    | nil => simp at ha
    | cons x a =>
      cases b with
      | nil => simp at hb
      | cons y b =>
        simp only [List.eraseIdx_cons_succ, List.cons.injEq] at h2
        rw [h2.1, ih (by simpa using ha) (by simpa using hb) (by simpa using h1) h2.2]

theorem NDArray.Once.expandDims {g : NDArray (List Nat)} (hg : g.Once) (axis : Int) : (g.expandDims axis).Once := by
  have hp := expandPos_le g.ndim axis
  unfold NDArray.expandDims
  generalize NDArray.expandPos g.ndim axis = p at hp
  simp only
  have hp' : p ≤ g.shape.length := hp
  rw [← insertIdx_eq_take_drop' hp']
  refine hg.reindex (fun i hi => ((InB_insertIdx hp').mp hi).2.2) (fun i j hi hj h => ?_)
  obtain ⟨a1, a2, -⟩ := (InB_insertIdx hp').mp hi
  obtain ⟨b1, b2, -⟩ := (InB_insertIdx hp').mp hj
  exact eraseIdx_inj a2 b2 (by omega) h

theorem NDArray.Once.pick {g : NDArray (List Nat)} (hg : g.Once) {i ax : Nat} (hax : ax < g.shape.length)
    (hi : i < g.shape.getD ax 0) : (g.pick i ax).Once := by
  refine hg.reindex (fun idx hidx => InB_insert hax hi hidx) (fun a b ha hb h => ?_)
  have := congrArg (fun l => l.eraseIdx ax) h
  simpa only [List.eraseIdx_insertIdx_self] using this

theorem unsqueeze_inj : ∀ {s a b : List Nat}, InB (s.filter (· ≠ 1)) a → InB (s.filter (· ≠ 1)) b →
    unsqueeze s a = unsqueeze s b → a = b
  | [], a, b, ha, hb, _ => by cases a <;> cases b <;> simp_all [InB]
  | n :: s, a, b, ha, hb, h => by
    by_cases hn : n = 1
    · subst hn
      simp only [unsqueeze, if_true, List.cons.injEq, true_and] at h
      exact unsqueeze_inj (by simpa using ha) (by simpa using hb) h
    · rw [List.filter_cons_of_pos (by simpa using hn)] at ha hb
      cases a with
      | nil => simp [InB] at ha
      | cons i a =>
        cases b with
        | nil => simp [InB] at hb
        | cons j b =>
          simp only [unsqueeze, if_neg hn, List.cons.injEq] at h
          rw [h.1, unsqueeze_inj ha.2 hb.2 h.2]

theorem NDArray.Once.squeeze {g : NDArray (List Nat)} (hg : g.Once) : g.squeeze.Once :=
  hg.reindex (fun _ hi => InB_unsqueeze hi) (fun _ _ ha hb h => unsqueeze_inj ha hb h)

theorem place_inj : ∀ {ss : List NpSel} {a b : List Nat}, (∀ ids, NpSel.slice ids ∈ ss → ids.Nodup) →
    InB (sliceLens ss) a → InB (sliceLens ss) b → place 0 ss a = place 0 ss b → a = b
  | [], a, b, _, ha, hb, _ => by cases a <;> cases b <;> simp_all [InB, sliceLens]
  | .int k :: ss, a, b, hs, ha, hb, h => by
    simp only [place, List.cons.injEq, true_and] at h
    exact place_inj (fun ids hm => hs ids (List.mem_cons_of_mem _ hm)) ha hb h
  | .fancy ids :: ss, a, b, hs, ha, hb, h => by
    simp only [place, List.cons.injEq, true_and] at h
    exact place_inj (fun ids hm => hs ids (List.mem_cons_of_mem _ hm)) ha hb h
  | .slice ids :: ss, a, b, hs, ha, hb, h => by
    cases a with
    | nil => simp [InB, sliceLens] at ha
    | cons i a =>
      cases b with
      | nil => simp [InB, sliceLens] at hb
      | cons j b =>
        simp only [sliceLens, InB] at ha hb
        simp only [place, List.headD_cons, List.tail_cons, List.cons.injEq] at h
        rw [getD_inj (hs ids (by simp)) ha.1 hb.1 h.1,
          place_inj (fun ids hm => hs ids (List.mem_cons_of_mem _ hm)) ha.2 hb.2 h.2]

theorem fancyLens_nil : ∀ {ss : List NpSel}, (∀ ids, NpSel.fancy ids ∉ ss) → fancyLens ss = []
  | [], _ => rfl
  | .int _ :: ss, h => fancyLens_nil (ss := ss) (fun ids hm => h ids (List.mem_cons_of_mem _ hm))
  | .slice _ :: ss, h => fancyLens_nil (ss := ss) (fun ids hm => h ids (List.mem_cons_of_mem _ hm))
  | .fancy ids :: _, h => absurd (by simp) (h ids)

theorem resolve_plain {n : Nat} {it : NpItem} {t : NpSel} (h : it.resolve n = .ok t) :
    (∀ ids, t = .slice ids → ids.Nodup) ∧ (it.copies = false → ∀ ids, t ≠ .fancy ids) := by
  cases it with
  | int i =>
    simp only [NpItem.resolve] at h
    split at h
    · cases h
    · cases h
      exact ⟨by rintro _ ⟨⟩, by rintro - _ ⟨⟩⟩
  | slice sl =>
    simp only [NpItem.resolve] at h
    split at h
    · cases h
    · rename_i ids hk
      cases h
      exact ⟨by rintro _ ⟨⟩; exact (sliceIndices_spec hk).2, by rintro - _ ⟨⟩⟩
  | seq is =>
    simp only [NpItem.resolve] at h
    split at h
    · cases h
    · cases h
      exact ⟨by rintro _ ⟨⟩, by rintro ⟨⟩⟩
  | mask bs =>
    simp only [NpItem.resolve] at h
    split at h
    · cases h
    · cases h
      exact ⟨by rintro _ ⟨⟩, by rintro ⟨⟩⟩

theorem npResolve_plain {shape : List Nat} {its : List NpItem} {ss : List NpSel} (h : npResolve shape its = .ok ss) :
    (∀ ids, NpSel.slice ids ∈ ss → ids.Nodup) ∧ (its.any NpItem.copies = false → ∀ ids, NpSel.fancy ids ∉ ss) := by
  unfold npResolve at h
  split_ifs at h with hl
  rw [mapRes_ok] at h
  have key : ∀ t ∈ ss, ∃ c ∈ (its ++ List.replicate (shape.length - its.length) (NpItem.slice {})).zip shape,
      c.1.resolve c.2 = .ok t := by
    intro t ht
    obtain ⟨k, hk, rfl⟩ := List.mem_iff_getElem.mp ht
    obtain ⟨hlen, hall⟩ := List.forall₂_iff_get.mp h
    exact ⟨_, List.getElem_mem (by omega), hall k (by omega) hk⟩
  refine ⟨fun ids hm => ?_, fun hc ids hm => ?_⟩
  · obtain ⟨c, -, hc⟩ := key _ hm
    exact (resolve_plain hc).1 ids rfl
  · obtain ⟨c, hmem, hr⟩ := key _ hm
    refine (resolve_plain hr).2 ?_ ids rfl
    rcases List.mem_append.mp (List.of_mem_zip hmem).1 with h1 | h1
    · simpa using List.any_eq_false.mp hc _ h1
    · rw [List.eq_of_mem_replicate h1]
      rfl

theorem NDArray.Once.index {g g' : NDArray (List Nat)} (hg : g.Once) {its : List NpItem}
    (hc : its.any NpItem.copies = false) (h : g.index its = .ok g') : g'.Once := by
  unfold NDArray.index at h
  cases hs : npSelect g.shape its with
  | error e => rw [hs] at h; cases h
  | ok s =>
    rw [hs] at h
    cases h
    refine hg.reindex (f := s.get) (fun i hi => npSelect_inB hs hi) (fun a b ha hb he => ?_)
    unfold npSelect at hs
    cases hr : npResolve g.shape its with
    | error e => rw [hr] at hs; cases hs
    | ok ss =>
      rw [hr] at hs
      obtain ⟨k1, k2⟩ := npResolve_plain hr
      simp only [npGrid] at hs
      rw [fancyLens_nil (k2 hc)] at hs
      cases hs
      exact place_inj k1 ha hb he

/-! ## The invariant -/

/-- An array shows each cell once; a list of lists names each list once. -/
def HCell.Nice : HCell L → Prop
  | .buf _ => True
  | .lst _ => True
  | .out as => as.Nodup
  | .obj o => o.x.Inj

/-- See the head of this file. -/
def Heap.Ok (h : Heap L) : Prop := ∀ a c, h.cell a = some c → a < h.next ∧ c.Refs (· < h.next) ∧ c.Nice

@[inherit_doc Heap.Ok]
def Good (n : Nat) (m : HM L α) (Q : α → Nat → Prop) : Prop :=
  ∀ h, n ≤ h.next → h.Ok → (m.after h).Ok ∧ ∀ v, m.out h = .ok v → Q v (m.after h).next

theorem HCell.Refs.lt {n n' : Nat} (hn : n ≤ n') : ∀ {c : HCell L}, c.Refs (· < n) → c.Refs (· < n')
  | .buf _, _ => trivial
  | .lst _, _ => trivial
  | .out _, h => fun a ha => lt_of_lt_of_le (h a ha) hn
  | .obj _, h => ⟨lt_of_lt_of_le h.1 hn, lt_of_lt_of_le h.2 hn⟩

section rules
variable {n : Nat}

theorem Good.read {m : HM L α} {Q : α → Nat → Prop} (hm : ∀ h, m.after h = h)
    (hq : ∀ h, n ≤ h.next → h.Ok → ∀ v, m.out h = .ok v → Q v h.next) : Good n m Q := by
  intro h hn hk
  rw [hm h]
  exact ⟨hk, hq h hn hk⟩

theorem Good.pure {v : α} {Q : α → Nat → Prop} (hq : ∀ n', n ≤ n' → Q v n') : Good n (Pure.pure v : HM L α) Q :=
  Good.read (fun _ => rfl) (fun h hn _ w hw => by cases hw; exact hq _ hn)

theorem Good.bind {m : HM L α} {f : α → HM L β} {Q : α → Nat → Prop} {Q' : β → Nat → Prop} (h1 : Good n m Q)
    (h2 : ∀ v n', n ≤ n' → Q v n' → Good n' (f v) Q') : Good n (m >>= f) Q' := by
  intro h hn hk
  cases hm : m.out h with
  | error e =>
    obtain ⟨e1, e2⟩ := HM.bind_error (f := f) hm
    rw [e2, e1]
    exact ⟨(h1 h hn hk).1, by simp⟩
  | ok v =>
    obtain ⟨e1, e2⟩ := HM.bind_ok (f := f) hm
    rw [e2, e1]
    obtain ⟨g1, g2⟩ := h1 h hn hk
    exact h2 v _ (hn.trans (HM.next_le m h)) (g2 v hm) _ (le_refl _) g1

theorem Good.mono {m : HM L α} {Q Q' : α → Nat → Prop} (h : Good n m Q) (hq : ∀ v n', n ≤ n' → Q v n' → Q' v n') :
    Good n m Q' := fun hp hn hk =>
  ⟨(h hp hn hk).1, fun v hv => hq v _ (hn.trans (HM.next_le m hp)) ((h hp hn hk).2 v hv)⟩

theorem Good.lift (r : Res α) : Good n (HM.lift r : HM L α) (fun v _ => r = .ok v) :=
  Good.read (fun _ => rfl) (fun _ _ _ _ hv => hv)

theorem Good.look (f : Heap L → α) : Good n (HM.look f) (fun _ _ => True) :=
  Good.read (fun _ => rfl) (fun _ _ _ _ _ => trivial)

theorem Good.lookOut (a : Nat) : Good n (HM.look (fun h : Heap L => h.out a)) (fun as n' => as.Nodup ∧ ∀ b ∈ as, b < n') :=
  Good.read (fun _ => rfl) (fun h _ hk v hv => by
    cases hv
    change (h.out a).Nodup ∧ ∀ b ∈ h.out a, b < h.next
    unfold Heap.out
    split
    · rename_i as has
      exact ⟨(hk a _ has).2.2, (hk a _ has).2.1⟩
    · exact ⟨List.nodup_nil, by simp⟩)

theorem Good.getObj (p : Nat) : Good n (La.getObj p : HM L Obj)
    (fun o n' => p < n' ∧ o.x.Inj ∧ o.x.buf < n' ∧ o.label < n') :=
  Good.read (getObj_after p) (fun h _ hk o ho => by
    obtain ⟨k1, k2, k3⟩ := hk p _ (getObj_ok.mp ho)
    exact ⟨k1, k3, k2⟩)

theorem Good.alloc {c : HCell L} (hr : c.Refs (· < n)) (hc : c.Nice) :
    Good n (La.alloc c) (fun a n' => n ≤ a ∧ a < n') := by
  intro h hn hk
  refine ⟨fun a d ha => ?_, fun v hv => ?_⟩
  · change (if a = h.next then some c else h.cell a) = some d at ha
    change a < h.next + 1 ∧ d.Refs (· < h.next + 1) ∧ d.Nice
    split_ifs at ha with e
    · cases ha
      exact ⟨by omega, hr.lt (by omega), hc⟩
    · obtain ⟨k1, k2, k3⟩ := hk a d ha
      exact ⟨by omega, k2.lt (by omega), k3⟩
  · cases hv
    exact ⟨hn, Nat.lt_succ_self _⟩

theorem Good.put {a : Nat} (ha : a < n) {c : HCell L} (hr : c.Refs (· < n)) (hc : c.Nice) :
    Good n (La.put a c) (fun _ _ => True) := by
  intro h hn hk
  refine ⟨fun b d hb => ?_, fun _ _ => trivial⟩
  change (if b = a then some c else h.cell b) = some d at hb
  change b < h.next ∧ d.Refs (· < h.next) ∧ d.Nice
  split_ifs at hb with e
  · cases hb
    exact ⟨by omega, hr.lt hn, hc⟩
  · exact hk b d hb

theorem Good.ite {c : Prop} [Decidable c] {m m' : HM L α} {Q : α → Nat → Prop} (h1 : c → Good n m Q)
    (h2 : ¬ c → Good n m' Q) : Good n (if c then m else m') Q := by
  split_ifs with h
  · exact h1 h
  · exact h2 h

theorem Good.fail (e : PyErr) {Q : α → Nat → Prop} : Good n (HM.lift (.error e) : HM L α) Q :=
  Good.read (fun _ => rfl) (fun _ _ _ _ hv => by cases hv)

theorem Good.valueOf (p : Nat) : Good n (La.valueOf p : HM L (Larry L)) (fun _ n' => p < n') :=
  Good.bind (Good.getObj p) (fun _ _ _ ho => Good.mono (Good.look _) (fun _ _ hn _ => lt_of_lt_of_le ho.1 hn))

theorem Good.newArray (x : NDArray Val) (d : DType) :
    Good n (La.newArray x d : HM L View) (fun v n' => v.Inj ∧ n ≤ v.buf ∧ v.buf < n') :=
  Good.bind (Good.alloc trivial trivial) (fun _ _ _ ha => Good.pure fun _ hn =>
    ⟨NDArray.Once.id _, ha.1, lt_of_lt_of_le ha.2 hn⟩)

theorem Good.newLists : ∀ (ls : List (List L)) {n : Nat},
    Good n (La.newLists ls) (fun as n' => as.Nodup ∧ ∀ a ∈ as, n ≤ a ∧ a < n')
  | [], _ => Good.pure fun _ _ => ⟨List.nodup_nil, by simp⟩
  | l :: ls, n => by
    refine Good.bind (Good.alloc trivial trivial) (fun a n1 hn1 ha => ?_)
    refine Good.bind (Good.newLists ls) (fun as n2 hn2 has => ?_)
    refine Good.pure fun n3 hn3 => ⟨List.nodup_cons.mpr ⟨fun hm => ?_, has.1⟩, fun b hb => ?_⟩
    · have := (has.2 a hm).1
      omega
    · rcases List.mem_cons.mp hb with rfl | hb
      · exact ⟨ha.1, by omega⟩
      · obtain ⟨k1, k2⟩ := has.2 b hb
        exact ⟨by omega, by omega⟩

theorem Good.newLarry {v : View} {label : Nat} (hv : v.Inj) (hb : v.buf < n) (hl : label < n) :
    Good n (La.newLarry v label : HM L Nat) (fun q n' => n ≤ q ∧ q < n') :=
  Good.alloc (c := .obj ⟨v, label⟩) ⟨hb, hl⟩ hv

theorem Good.setX {p : Nat} {v : View} (hv : v.Inj) (hb : v.buf < n) : Good n (La.setX p v : HM L Unit) (fun _ _ => True) :=
  Good.bind (Good.getObj p) (fun _ _ hn ho => Good.put ho.1 ⟨lt_of_lt_of_le hb hn, ho.2.2.2⟩ hv)

theorem Good.setLabel {p label : Nat} (hl : label < n) : Good n (La.setLabel p label : HM L Unit) (fun _ _ => True) :=
  Good.bind (Good.getObj p) (fun _ _ hn ho => Good.put ho.1 ⟨ho.2.2.1, lt_of_lt_of_le hl hn⟩ ho.2.1)

theorem nodup_set {as : List Nat} {ax a : Nat} (h : as.Nodup) (ha : a ∉ as) : (as.set ax a).Nodup := by
  induction as generalizing ax with
  | nil => simp
  | cons b as ih =>
    obtain ⟨h1, h2⟩ := List.nodup_cons.mp h
    rw [List.mem_cons, not_or] at ha
    cases ax with
    | zero => exact List.nodup_cons.mpr ⟨ha.2, h2⟩
    | succ ax =>
      refine List.nodup_cons.mpr ⟨fun hm => ?_, ih h2 ha.2⟩
      rcases List.mem_or_eq_of_mem_set hm with hm | rfl
      · exact h1 hm
      · exact ha.1 rfl

theorem Good.setLab {label : Nat} (hl : label < n) (ax : Nat) (l : List L) :
    Good n (La.setLab label ax l) (fun _ _ => True) := by
  intro h hn hk
  refine ⟨?_, fun _ _ => trivial⟩
  have hp : (h.push (.lst l)).Ok := (Good.alloc (n := n) (c := .lst l) trivial trivial h hn hk).1
  have hout : (h.push (.lst l)).out label = h.out label := by
    have hne : label ≠ h.next := by omega
    simp [Heap.out, Heap.push, hne]
  obtain ⟨k1, k2⟩ : (h.out label).Nodup ∧ ∀ b ∈ h.out label, b < h.next := (Good.lookOut (L := L) label h hn hk).2 _ rfl
  change ((La.put label (.out (((h.push (.lst l)).out label).set ax h.next))).after (h.push (.lst l))).Ok
  rw [hout]
  refine (Good.put (n := h.next + 1) (a := label) (c := .out ((h.out label).set ax h.next)) (by omega) (fun b hb => ?_) ?_ _
    (le_refl _) hp).1
  · rcases List.mem_or_eq_of_mem_set hb with hb | rfl
    · exact Nat.lt_succ_of_lt (k2 b hb)
    · exact Nat.lt_succ_self _
  · exact nodup_set k1 (fun hm => absurd (k2 _ hm) (Nat.lt_irrefl _))

theorem Good.writeWhere {v : View} (hv : v.buf < n) (sel : List Nat → Bool) (val : List Nat → Val) :
    Good n (La.writeWhere v sel val : HM L Unit) (fun _ _ => True) :=
  Good.bind (Good.look _) (fun _ _ hn _ => Good.put (lt_of_lt_of_le hv hn) trivial trivial)

theorem Good.writeX {v : View} (hv : v.buf < n) (x : NDArray Val) :
    Good n (La.writeX v x : HM L Unit) (fun _ _ => True) := Good.writeWhere hv _ _

/-! ## Copies -/

theorem Good.copylabel (o : Obj) : Good n (La.copylabel o : HM L Nat) (fun a n' => n ≤ a ∧ a < n') := by
  refine Good.bind (Good.look _) (fun ls n1 h1 _ => ?_)
  refine Good.bind (Good.newLists ls) (fun as n2 h2 has => ?_)
  exact Good.mono (Good.alloc (fun a ha => (has.2 a ha).2) has.1) (fun a n3 h3 ha => ⟨by omega, ha.2⟩)

theorem Good.hCopy (p : Nat) : Good n (La.hCopy p : HM L Nat) (fun _ _ => True) := by
  refine Good.bind (Good.getObj p) (fun o n1 h1 _ => ?_)
  refine Good.bind (Good.copylabel o) (fun label n2 h2 hl => ?_)
  refine Good.bind (Good.look _) (fun x n3 h3 _ => ?_)
  refine Good.bind (Good.newArray x _) (fun v n4 h4 hv => ?_)
  exact Good.mono (Good.newLarry hv.1 hv.2.2 (by omega)) (fun _ _ _ _ => trivial)

/-- The last lines of most methods. -/
theorem Good.finish {label : Nat} (hl : label < n) (x : NDArray Val) (d : DType) :
    Good n (do let v ← La.newArray x d; La.newLarry v label : HM L Nat) (fun _ _ => True) :=
  Good.bind (Good.newArray x d) (fun _ _ _ hv => Good.mono (Good.newLarry hv.1 hv.2.2 (by omega)) (fun _ _ _ _ => trivial))

theorem Good.hUnary (f : Larry L → Res (NDArray Val × DType)) (p : Nat) : Good n (La.hUnary f p) (fun _ _ => True) := by
  refine Good.bind (Good.getObj p) (fun o n1 h1 _ => ?_)
  refine Good.bind (Good.look _) (fun y n2 h2 _ => ?_)
  refine Good.bind (Good.lift _) (fun r n3 h3 _ => ?_)
  exact Good.bind (Good.copylabel o) (fun label n4 h4 hl => Good.finish hl.2 _ _)

theorem Good.hCopyAssign (f : Larry L → Res (NDArray Val × DType)) (p : Nat) :
    Good n (La.hCopyAssign f p) (fun _ _ => True) := by
  refine Good.bind (Good.hCopy p) (fun q n1 h1 _ => ?_)
  refine Good.bind (Good.valueOf q) (fun y n2 h2 _ => ?_)
  refine Good.bind (Good.lift _) (fun r n3 h3 _ => ?_)
  refine Good.bind (Good.newArray _ _) (fun v n4 h4 hv => ?_)
  exact Good.bind (Good.setX hv.1 hv.2.2) (fun _ _ _ _ => Good.pure fun _ _ => trivial)

theorem Good.hCopyWrite (f : Larry L → Res (NDArray Val)) (p : Nat) : Good n (La.hCopyWrite f p) (fun _ _ => True) := by
  refine Good.bind (Good.hCopy p) (fun q n1 h1 _ => ?_)
  refine Good.bind (Good.getObj q) (fun o n2 h2 ho => ?_)
  refine Good.bind (Good.look _) (fun y n3 h3 _ => ?_)
  refine Good.bind (Good.lift _) (fun r n4 h4 _ => ?_)
  exact Good.bind (Good.writeX (by omega) _) (fun _ _ _ _ => Good.pure fun _ _ => trivial)

theorem pyPop_nodup {as bs : List Nat} {i : Int} (h : pyPop as i = .ok bs) (ha : as.Nodup) : bs.Nodup := by
  unfold pyPop at h
  split at h
  · simp at h
  · simp only [Except.ok.injEq] at h
    subst h
    exact ha.sublist (List.eraseIdx_sublist ..)

theorem Good.hReduce (f : Larry L → Res (NDArray Val × DType)) (axis : Int) (p : Nat) :
    Good n (La.hReduce f axis p) (fun _ _ => True) := by
  refine Good.bind (Good.getObj p) (fun o n1 h1 _ => ?_)
  refine Good.bind (Good.look _) (fun y n2 h2 _ => ?_)
  refine Good.bind (Good.lift _) (fun r n3 h3 _ => ?_)
  refine Good.bind (Good.copylabel o) (fun label n4 h4 hl => ?_)
  refine Good.bind (Good.lookOut label) (fun as n5 h5 has => ?_)
  refine Good.bind (Good.lift _) (fun bs n6 h6 hbs => ?_)
  refine Good.bind (Good.put (by omega) (fun b hb => lt_of_lt_of_le (has.2 b (pyPop_mem hbs hb)) h6)
    (pyPop_nodup hbs has.1)) (fun _ n7 h7 _ => ?_)
  exact Good.finish (by omega) _ _

theorem Good.hEmpty : Good n (La.hEmpty : HM L Nat) (fun _ _ => True) := by
  refine Good.bind (Good.alloc (c := .lst []) trivial trivial) (fun a n1 h1 ha => ?_)
  refine Good.bind (Good.alloc (c := .out [a]) (by simpa [HCell.Refs] using ha.2) (List.nodup_singleton a))
    (fun label n2 h2 hl => ?_)
  exact Good.finish hl.2 _ _

theorem Good.hLag (nlag : Int) (axis : Option Int) (p : Nat) : Good n (La.hLag nlag axis p : HM L Nat) (fun _ _ => True) := by
  unfold La.hLag
  split
  · exact Good.fail _
  refine Good.bind (Good.hCopy p) (fun q n1 h1 _ => ?_)
  refine Good.ite (fun _ => Good.pure fun _ _ => trivial) (fun _ => ?_)
  refine Good.bind (Good.getObj q) (fun o n2 h2 ho => ?_)
  refine Good.bind (Good.look _) (fun y n3 h3 _ => ?_)
  refine Good.bind (Good.lift _) (fun ax n4 h4 _ => ?_)
  refine Good.bind (Good.lift _) (fun lab n5 h5 _ => ?_)
  refine Good.bind (Good.setLab (by omega) ax lab) (fun _ n6 h6 _ => ?_)
  refine Good.bind (Good.lift _) (fun ix n7 h7 hix => ?_)
  refine Good.bind (Good.setX (v := ⟨o.x.buf, ix, o.x.dtype⟩) (NDArray.Once.sliceAx ho.2.1 hix) ?_)
    (fun _ _ _ _ => Good.pure fun _ _ => trivial)
  show o.x.buf < n7
  omega

theorem Good.hT (p : Nat) : Good n (La.hT p : HM L Nat) (fun _ _ => True) := by
  refine Good.bind (Good.hCopy p) (fun q n1 h1 _ => ?_)
  refine Good.bind (Good.getObj q) (fun o n2 h2 ho => ?_)
  refine Good.bind (Good.setX (v := ⟨o.x.buf, o.x.ix.transpose, o.x.dtype⟩) (NDArray.Once.transpose ho.2.1) ho.2.2.1)
    (fun _ n3 h3 _ => ?_)
  refine Good.bind (Good.lookOut _) (fun as n4 h4 has => ?_)
  refine Good.bind (Good.alloc (c := .out as.reverse) (fun b hb => has.2 b (by simpa using hb))
    (List.nodup_reverse.mpr has.1)) (fun label n5 h5 hl => ?_)
  exact Good.bind (Good.setLabel hl.2) (fun _ _ _ _ => Good.pure fun _ _ => trivial)

theorem swapList_nodup {as : List Nat} {i j : Nat} (h : as.Nodup) : (swapList as i j).Nodup := by
  by_cases hij : i < as.length ∧ j < as.length
  · unfold swapList
    rw [List.getElem?_eq_getElem hij.1, List.getElem?_eq_getElem hij.2]
    exact (List.set_set_perm hij.1 hij.2).nodup_iff.mpr h
  · rwa [swapList_out hij]

theorem Good.hSwapaxes (a1 a2 : Int) (p : Nat) : Good n (La.hSwapaxes a1 a2 p : HM L Nat) (fun _ _ => True) := by
  refine Good.bind (Good.hCopy p) (fun q n1 h1 _ => ?_)
  refine Good.bind (Good.getObj q) (fun o n2 h2 ho => ?_)
  refine Good.bind (Good.lookOut _) (fun as n3 h3 has => ?_)
  refine Good.bind (Good.lift _) (fun i n4 h4 _ => ?_)
  refine Good.bind (Good.lift _) (fun j n5 h5 _ => ?_)
  refine Good.bind (Good.put (c := .out (swapList as i j)) (by omega)
    (fun b hb => lt_of_lt_of_le (has.2 b (mem_of_swapList hb)) (by omega)) (swapList_nodup has.1)) (fun _ n6 h6 _ => ?_)
  refine Good.bind (Good.setX (v := ⟨o.x.buf, o.x.ix.swapaxes i j, o.x.dtype⟩) (NDArray.Once.swapaxes ho.2.1 i j) ?_)
    (fun _ _ _ _ => Good.pure fun _ _ => trivial)
  show o.x.buf < n6
  omega

theorem Good.hFlipLoop (q : Nat) : ∀ (axs : List Int) {n : Nat}, Good n (La.hFlipLoop axs q : HM L Unit) (fun _ _ => True)
  | [], _ => Good.pure fun _ _ => trivial
  | axis :: axs, n => by
    refine Good.bind (Good.getObj q) (fun o n2 h2 ho => ?_)
    refine Good.bind (Good.look _) (fun y n3 h3 _ => ?_)
    refine Good.bind (Good.lift _) (fun ax n4 h4 _ => ?_)
    refine Good.bind (Good.lift _) (fun lab n5 h5 _ => ?_)
    refine Good.bind (Good.setLab (by omega) ax lab) (fun _ n6 h6 _ => ?_)
    refine Good.bind (Good.lift _) (fun ix n7 h7 hix => ?_)
    refine Good.bind (Good.setX (v := ⟨o.x.buf, ix, o.x.dtype⟩) (NDArray.Once.sliceAx ho.2.1 hix) ?_)
      (fun _ _ _ _ => Good.hFlipLoop q axs)
    show o.x.buf < n7
    omega

theorem Good.hCopyIf (copy : Bool) (p : Nat) : Good n (La.hCopyIf copy p : HM L Nat) (fun _ _ => True) :=
  Good.ite (fun _ => Good.hCopy p) (fun _ => Good.pure fun _ _ => trivial)

theorem Good.hFlipaxis (axis : Option Int) (copy : Bool) (p : Nat) :
    Good n (La.hFlipaxis axis copy p : HM L Nat) (fun _ _ => True) := by
  refine Good.bind (Good.hCopyIf copy p) (fun q _ _ _ => ?_)
  refine Good.bind (Good.valueOf q) (fun y _ _ _ => ?_)
  exact Good.bind (Good.hFlipLoop q _) (fun _ _ _ _ => Good.pure fun _ _ => trivial)

theorem Good.hMapLoop (f : L → L) {label : Nat} : ∀ (axs : List Nat) {n : Nat}, label < n →
    Good n (La.hMapLoop f label axs) (fun _ _ => True)
  | [], _, _ => Good.pure fun _ _ => trivial
  | ax :: axs, n, hl => by
    refine Good.bind (Good.look _) (fun ls n1 h1 _ => ?_)
    exact Good.bind (Good.setLab (by omega) ax _) (fun _ n2 h2 _ => Good.hMapLoop f axs (by omega))

theorem Good.hMaplabel (f : L → L) (axis : Option Int) (copy : Bool) (p : Nat) :
    Good n (La.hMaplabel f axis copy p) (fun _ _ => True) := by
  refine Good.bind (Good.hCopyIf copy p) (fun q n1 h1 _ => ?_)
  refine Good.bind (Good.getObj q) (fun o n2 h2 ho => ?_)
  refine Good.bind (Good.look _) (fun as n3 h3 _ => ?_)
  cases axis with
  | none => exact Good.bind (Good.hMapLoop f _ (by omega)) (fun _ _ _ _ => Good.pure fun _ _ => trivial)
  | some axis =>
    refine Good.bind (Good.lift _) (fun ax n4 h4 _ => ?_)
    exact Good.bind (Good.hMapLoop f _ (by omega)) (fun _ _ _ _ => Good.pure fun _ _ => trivial)

theorem Good.listIf {new : Bool} {lab : List L} {a : Nat} (ha : a < n) :
    Good n (La.listIf new lab a) (fun b n' => b < n' ∧ (b = a ∨ n ≤ b)) := by
  unfold La.listIf
  refine Good.ite (fun _ => ?_) (fun _ => Good.pure fun n' hn => ⟨by omega, Or.inl rfl⟩)
  exact Good.mono (Good.alloc trivial trivial) (fun b n' hn hb => ⟨hb.2, Or.inr hb.1⟩)

theorem own_cons {γ : Type} {cs : List (Nat × γ)} {a b : Nat} {bs : List Nat} {n n1 n2 n3 : Nat} (hnd : a ∉ cs.map Prod.fst)
    (hlt : ∀ c ∈ cs, c.1 < n) (hn1 : n ≤ n1) (hn2 : n1 ≤ n2) (hn3 : n2 ≤ n3) (hb : b < n1 ∧ (b = a ∨ n ≤ b))
    (hbs : bs.Nodup ∧ ∀ c ∈ bs, c < n2 ∧ (c ∈ cs.map Prod.fst ∨ n1 ≤ c)) :
    (b :: bs).Nodup ∧ ∀ c ∈ b :: bs, c < n3 ∧ (c ∈ a :: cs.map Prod.fst ∨ n ≤ c) := by
  refine ⟨List.nodup_cons.mpr ⟨fun hm => ?_, hbs.1⟩, fun c hc => ?_⟩
  · obtain ⟨k1, k2⟩ := hbs.2 b hm
    rcases k2 with k2 | k2
    · rcases hb.2 with rfl | hb2
      · exact hnd k2
      · obtain ⟨c, hc, rfl⟩ := List.mem_map.mp k2
        have := hlt c hc
        omega
    · omega
  · rw [List.mem_cons]
    rcases List.mem_cons.mp hc with rfl | hc
    · refine ⟨by omega, ?_⟩
      rcases hb.2 with rfl | hb2
      · exact Or.inl (Or.inl rfl)
      · exact Or.inr hb2
    · obtain ⟨k1, k2⟩ := hbs.2 c hc
      refine ⟨by omega, ?_⟩
      rcases k2 with k2 | k2
      · exact Or.inl (Or.inr k2)
      · exact Or.inr (by omega)

/-- Each list is a new one or the one of its axis. -/
theorem Good.hKeepLists (y : Larry L) (alone : Nat → Bool) : ∀ (cs : List (Nat × List Nat × Nat)) {n : Nat},
    (cs.map Prod.fst).Nodup → (∀ c ∈ cs, c.1 < n) →
    Good n (La.hKeepLists y alone cs) (fun bs n' => bs.Nodup ∧ ∀ b ∈ bs, b < n' ∧ (b ∈ cs.map Prod.fst ∨ n ≤ b))
  | [], _, _, _ => Good.pure fun _ _ => ⟨List.nodup_nil, by simp⟩
  | (a, ids, ax) :: cs, n, hnd, hlt => by
    have ha : a < n := hlt _ (List.mem_cons_self ..)
    simp only [List.map_cons, List.nodup_cons] at hnd
    refine Good.bind (Good.listIf ha) (fun b n1 hn1 hb => ?_)
    refine Good.bind (Good.hKeepLists y alone cs hnd.2 (fun c hc => lt_of_lt_of_le (hlt c (List.mem_cons_of_mem _ hc)) hn1))
      (fun bs n2 hn2 hbs => ?_)
    exact Good.pure fun n3 hn3 => own_cons hnd.1 (fun c hc => hlt c (List.mem_cons_of_mem _ hc)) hn1 hn2 hn3 hb hbs

theorem zip_fst_sublist {γ δ : Type} : ∀ (as : List γ) (bs : List δ), List.Sublist ((as.zip bs).map Prod.fst) as
  | [], _ => by simp
  | _ :: _, [] => by simp
  | _ :: as, _ :: bs => by simpa using zip_fst_sublist as bs

theorem Good.hKeepRows (alone : Nat → Bool) (ids : List (List Nat)) (q : Nat) :
    Good n (La.hKeepRows alone ids q : HM L Unit) (fun _ _ => True) := by
  refine Good.bind (Good.getObj q) (fun o n1 h1 ho => ?_)
  refine Good.bind (Good.look _) (fun y n2 h2 _ => ?_)
  refine Good.bind (Good.lookOut _) (fun as n3 h3 has => ?_)
  refine Good.bind (Good.hKeepLists y alone _ (has.1.sublist (zip_fst_sublist ..))
    (fun c hc => has.2 _ (List.of_mem_zip hc).1)) (fun bs n4 h4 hbs => ?_)
  refine Good.bind (Good.newArray _ _) (fun v n5 h5 hv => ?_)
  refine Good.bind (Good.setX hv.1 hv.2.2) (fun _ n6 h6 _ => ?_)
  refine Good.bind (Good.alloc (c := .out bs) (fun b hb => lt_of_lt_of_le (hbs.2 b hb).1 (by omega)) hbs.1)
    (fun label n7 h7 hl => ?_)
  exact Good.setLabel hl.2

theorem Good.hVacuum (axis : Option (List Int)) (p : Nat) : Good n (La.hVacuum axis p : HM L Nat) (fun _ _ => True) := by
  refine Good.bind (Good.hCopy p) (fun q _ _ _ => ?_)
  refine Good.bind (Good.valueOf q) (fun y _ _ _ => ?_)
  refine Good.bind (Good.lift _) (fun ids _ _ _ => ?_)
  exact Good.bind (Good.hKeepRows _ _ q) (fun _ _ _ _ => Good.pure fun _ _ => trivial)

theorem Good.hCutMissing (fraction : ℚ) (axis : Option Int) (p : Nat) :
    Good n (La.hCutMissing fraction axis p : HM L Nat) (fun _ _ => True) := by
  refine Good.bind (Good.hCopy p) (fun q _ _ _ => ?_)
  refine Good.bind (Good.valueOf q) (fun y _ _ _ => ?_)
  refine Good.bind (Good.lift _) (fun axes _ _ _ => ?_)
  refine Good.bind (Good.lift _) (fun ids _ _ _ => ?_)
  refine Good.bind (Good.hKeepRows _ _ q) (fun _ _ _ _ => ?_)
  exact Good.ite (fun _ => Good.hEmpty) (fun _ => Good.pure fun _ _ => trivial)

theorem Good.hKeepX (op : CmpOp) (value : Flt) (vac : Bool) (p : Nat) :
    Good n (La.hKeepX op value vac p : HM L Nat) (fun _ _ => True) := by
  refine Good.bind (Good.valueOf p) (fun y _ _ _ => ?_)
  refine Good.bind (Good.lift _) (fun w _ _ _ => ?_)
  refine Good.bind (Good.hCopyWrite _ p) (fun q _ _ _ => ?_)
  exact Good.ite (fun _ => Good.hVacuum none q) (fun _ => Good.pure fun _ _ => trivial)

theorem pyInsert_nodup {as : List Nat} {i : Int} {a : Nat} (h : as.Nodup) (ha : a ∉ as) : (pyInsert as i a).Nodup := by
  unfold pyInsert
  simp only
  rw [List.nodup_middle, List.take_append_drop]
  exact List.nodup_cons.mpr ⟨ha, h⟩

theorem Good.hInsertaxis [DecidableEq L] (axis : Option Int) (name : L) (p : Nat) :
    Good n (La.hInsertaxis axis name p) (fun _ _ => True) := by
  unfold La.hInsertaxis
  split
  · exact Good.fail _
  rename_i axis
  refine Good.bind (Good.getObj p) (fun o n1 h1 _ => ?_)
  refine Good.bind (Good.look _) (fun y n2 h2 _ => ?_)
  refine Good.bind (Good.newArray _ _) (fun v n3 h3 hv => ?_)
  refine Good.bind (Good.copylabel o) (fun label n4 h4 hl => ?_)
  refine Good.bind (Good.lookOut label) (fun as n5 h5 has => ?_)
  refine Good.bind (Good.alloc (c := .lst [name]) trivial trivial) (fun a n6 h6 ha => ?_)
  refine Good.bind (Good.put (c := .out (pyInsert as _ a)) (by omega) (fun b hb => ?_)
    (pyInsert_nodup has.1 (fun hm => absurd (has.2 a hm) (by omega)))) (fun _ n7 h7 _ => ?_)
  · rcases pyInsert_mem hb with rfl | hb
    · exact ha.2
    · exact lt_of_lt_of_le (has.2 b hb) h6
  refine Good.bind (Good.look _) (fun z n8 h8 _ => ?_)
  refine Good.bind (Good.lift _) (fun _ n9 h9 _ => ?_)
  refine Good.mono (Good.newLarry (v := ⟨v.buf, v.ix.expandDims axis, v.dtype⟩) (NDArray.Once.expandDims hv.1 axis) ?_
    (by omega)) (fun _ _ _ _ => trivial)
  show v.buf < n9
  omega

section order
variable [LinearOrder L]

theorem Good.hMorph (lab : List L) (axis : Int) (p : Nat) : Good n (La.hMorph lab axis p) (fun _ _ => True) := by
  refine Good.bind (Good.getObj p) (fun o n1 h1 _ => ?_)
  refine Good.bind (Good.look _) (fun y n2 h2 _ => ?_)
  refine Good.bind (Good.lift _) (fun z n3 h3 _ => ?_)
  extract_lets ax
  refine Good.ite (fun _ => Good.hCopy p) (fun _ => ?_)
  refine Good.bind (Good.newArray _ _) (fun v n4 h4 hv => ?_)
  refine Good.bind (Good.copylabel o) (fun label n5 h5 hl => ?_)
  refine Good.bind (Good.setLab hl.2 ax lab) (fun _ n6 h6 _ => ?_)
  exact Good.mono (Good.newLarry hv.1 (by omega) (by omega)) (fun _ _ _ _ => trivial)

theorem Good.hMorphLoop (lar : Larry L) : ∀ (l : List Nat) (p : Nat) {n : Nat},
    Good n (La.hMorphLoop lar l p) (fun _ _ => True)
  | [], _, _ => Good.pure fun _ _ => trivial
  | i :: is, p, _ => Good.bind (Good.lift _) (fun l _ _ _ => Good.bind (Good.hMorph l i p)
      (fun q _ _ _ => Good.hMorphLoop lar is q))

theorem Good.hMorphLike (p r : Nat) : Good n (La.hMorphLike p r : HM L Nat) (fun _ _ => True) := by
  refine Good.bind (Good.valueOf p) (fun y _ _ _ => ?_)
  refine Good.bind (Good.valueOf r) (fun lar _ _ _ => ?_)
  refine Good.ite (fun _ => Good.fail _) (fun _ => ?_)
  exact Good.ite (fun _ => Good.hCopy p) (fun _ => Good.hMorphLoop lar _ p)

theorem Good.hSortaxisLoop (self : Larry L) (reverse : Bool) : ∀ (axs : List Int) (p : Nat) {n : Nat},
    Good n (La.hSortaxisLoop self reverse axs p) (fun _ _ => True)
  | [], _, _ => Good.pure fun _ _ => trivial
  | ax :: axs, p, _ => by
    refine Good.bind (Good.lift _) (fun n _ _ _ => ?_)
    refine Good.ite (fun _ => ?_) (fun _ => ?_)
    · refine Good.bind (Good.lift _) (fun l _ _ _ => ?_)
      exact Good.bind (Good.hMorph _ _ _) (fun q _ _ _ => Good.hSortaxisLoop self reverse axs q)
    · exact Good.bind (Good.hCopy _) (fun q _ _ _ => Good.hSortaxisLoop self reverse axs q)

theorem Good.hSortaxis (axis : Option Int) (reverse : Bool) (p : Nat) :
    Good n (La.hSortaxis axis reverse p : HM L Nat) (fun _ _ => True) :=
  Good.bind (Good.valueOf p) (fun y _ _ _ => Good.hSortaxisLoop y reverse _ p)

theorem Good.hTake (indices : List Int) (axis : Int) (p : Nat) : Good n (La.hTake indices axis p : HM L Nat) (fun _ _ => True) := by
  refine Good.bind (Good.getObj p) (fun o _ _ _ => ?_)
  refine Good.bind (Good.look _) (fun y _ _ _ => ?_)
  refine Good.bind (Good.lift _) (fun z n1 h1 _ => ?_)
  refine Good.bind (Good.copylabel o) (fun label n2 h2 hl => ?_)
  exact Good.bind (Good.setLab hl.2 _ _) (fun _ n3 h3 _ => Good.finish (by omega) _ _)

theorem Good.hKeepLabel (op : LabelOp L) (axis : Option Int) (p : Nat) : Good n (La.hKeepLabel op axis p) (fun _ _ => True) := by
  refine Good.bind (Good.valueOf p) (fun y _ _ _ => ?_)
  refine Good.bind (Good.lift _) (fun z _ _ _ => ?_)
  refine Good.bind (Good.hCopy p) (fun q _ _ _ => ?_)
  extract_lets ax
  refine Good.ite (fun _ => Good.hEmpty) (fun _ => ?_)
  refine Good.bind (Good.getObj q) (fun o n1 h1 ho => ?_)
  refine Good.bind (Good.setLab (by omega) _ _) (fun _ n2 h2 _ => ?_)
  refine Good.bind (Good.newArray _ _) (fun v n3 h3 hv => ?_)
  exact Good.bind (Good.setX hv.1 hv.2.2) (fun _ _ _ _ => Good.pure fun _ _ => trivial)

omit [LinearOrder L] in
/-- New labels. -/
theorem Good.labels {α : Type} {Q : α → Nat → Prop} {f : Nat → HM L α} (ls : List (List L))
    (hf : ∀ label n', n ≤ n' → n ≤ label → label < n' → Good n' (f label) Q) :
    Good n (do let as ← La.newLists ls; let label ← La.alloc (.out as); f label : HM L α) Q := by
  refine Good.bind (Good.newLists ls) (fun as n1 h1 has => ?_)
  refine Good.bind (Good.alloc (c := .out as) (fun b hb => (has.2 b hb).2) has.1) (fun label n2 h2 hl => ?_)
  exact hf label n2 (by omega) (by omega) hl.2

theorem Good.hBinop (uf : UFunc2) (always : Bool) (p r : Nat) : Good n (La.hBinop uf always p r : HM L Nat) (fun _ _ => True) := by
  refine Good.bind (Good.getObj p) (fun o _ _ _ => ?_)
  refine Good.bind (Good.look _) (fun y _ _ _ => ?_)
  refine Good.bind (Good.valueOf r) (fun lar _ _ _ => ?_)
  refine Good.ite (fun _ => ?_) (fun _ => ?_)
  · refine Good.bind (Good.lift _) (fun x _ _ _ => ?_)
    exact Good.bind (Good.copylabel o) (fun label _ _ hl => Good.finish hl.2 _ _)
  · refine Good.bind (Good.lift _) (fun s _ _ _ => ?_)
    refine Good.labels _ (fun label n1 h1 _ hl => ?_)
    exact Good.bind (Good.lift _) (fun x n2 h2 _ => Good.finish (by omega) _ _)

omit [LinearOrder L] in
theorem Good.arrayIf {new : Bool} {x : NDArray Val} {d : DType} {v : View} (hv : v.Inj) (hb : v.buf < n) :
    Good n (La.arrayIf new x d v : HM L View) (fun w n' => w.Inj ∧ w.buf < n' ∧ (new = true → n ≤ w.buf) ∧ (new = false → w = v)) := by
  unfold La.arrayIf
  refine Good.ite (fun h => ?_) (fun h => Good.pure fun n' hn => ⟨hv, by omega, fun h' => absurd h' h, fun _ => rfl⟩)
  exact Good.mono (Good.newArray x d) (fun w n' hn hw => ⟨hw.1, hw.2.2, fun _ => hw.2.1, fun h' => by rw [h] at h'; cases h'⟩)

/-- The arrays of `align_raw` whose flags are cleared are different ones. -/
theorem Good.hAlignLoop (cast : Bool) : ∀ (l : List (Join × List L × List L)) (ax : Nat) (x1 x2 : View) (f1 f2 : Bool) {n : Nat},
    x1.Inj → x2.Inj → x1.buf < n → x2.buf < n → (f1 = false → f2 = false → x1.buf ≠ x2.buf) →
    Good n (La.hAlignLoop cast l ax x1 x2 f1 f2)
      (fun t n' => t.1.Inj ∧ t.2.1.Inj ∧ t.1.buf < n' ∧ t.2.1.buf < n' ∧
        (t.2.2.1 = false → t.2.2.2.1 = false → t.1.buf ≠ t.2.1.buf))
  | [], ax, x1, x2, f1, f2, n, i1, i2, b1, b2, hf =>
    Good.pure fun n' hn => ⟨i1, i2, lt_of_lt_of_le b1 hn, lt_of_lt_of_le b2 hn, hf⟩
  | (j, l1, l2) :: rest, ax, x1, x2, f1, f2, n, i1, i2, b1, b2, hf => by
    refine Good.bind (Good.look _) (fun a1 n1 h1 _ => ?_)
    refine Good.bind (Good.look _) (fun a2 n2 h2 _ => ?_)
    refine Good.bind (Good.lift _) (fun r n3 h3 hr => ?_)
    obtain ⟨k1, k2⟩ := alignRawAxis_flags hr
    refine Good.bind (Good.arrayIf i1 (by omega)) (fun y1 n4 h4 hy1 => ?_)
    refine Good.bind (Good.arrayIf i2 (by omega)) (fun y2 n5 h5 hy2 => ?_)
    refine Good.bind (Good.hAlignLoop cast rest (ax + 1) y1 y2 _ _ hy1.1 hy2.1 (by omega) hy2.2.1 (fun e1 e2 => ?_))
      (fun t n6 h6 ht => Good.pure fun n7 h7 => ⟨ht.1, ht.2.1, lt_of_lt_of_le ht.2.2.1 h7, lt_of_lt_of_le ht.2.2.2.1 h7, ht.2.2.2.2⟩)
    rw [k1] at e1
    rw [k2] at e2
    cases hn2 : (decide (l1 ≠ l2) && j.takes2) with
    | true =>
      have := hy2.2.2.1 hn2
      omega
    | false =>
      rw [hy2.2.2.2 hn2]
      cases hn1 : (decide (l1 ≠ l2) && j.takes1) with
      | true =>
        have := hy1.2.2.1 hn1
        omega
      | false =>
        rw [hy1.2.2.2 hn1]
        rw [hn1] at e1
        rw [hn2] at e2
        exact hf (by simpa using e1) (by simpa using e2)

theorem Good.hAlignRaw (join : JoinArg) (cast : Bool) (p r : Nat) : Good n (La.hAlignRaw join cast p r : HM L _)
    (fun t n' => t.1.Inj ∧ t.2.1.Inj ∧ t.1.buf < n' ∧ t.2.1.buf < n' ∧
      (t.2.2.1 = false → t.2.2.2.1 = false → t.1.buf ≠ t.2.1.buf)) := by
  refine Good.bind (Good.getObj p) (fun o1 n1 h1 ho1 => ?_)
  refine Good.bind (Good.getObj r) (fun o2 n2 h2 ho2 => ?_)
  refine Good.bind (Good.look _) (fun lar1 n3 h3 _ => ?_)
  refine Good.bind (Good.look _) (fun lar2 n4 h4 _ => ?_)
  refine Good.ite (fun _ => Good.fail _) (fun _ => ?_)
  refine Good.bind (Good.lift _) (fun js n5 h5 _ => ?_)
  exact Good.hAlignLoop cast _ 0 _ _ true true ho1.2.1 ho2.2.1 (by omega) (by omega) (by simp)

omit [LinearOrder L] in
theorem Good.hAlignOut (own : List (List L)) (labs : List (Option (List L))) {v : View} (isview : Bool) (hi : v.Inj)
    (hv : v.buf < n) : Good n (La.hAlignOut own labs v isview) (fun _ _ => True) := by
  refine Good.labels _ (fun label n1 h1 _ hl => ?_)
  refine Good.ite (fun _ => ?_) (fun _ => ?_)
  · exact Good.bind (Good.look _) (fun x n2 h2 _ => Good.finish (by omega) _ _)
  · exact Good.mono (Good.newLarry hi (by omega) hl) (fun _ _ _ _ => trivial)

theorem Good.hAlign (join : JoinArg) (cast : Bool) (p r : Nat) : Good n (La.hAlign join cast p r : HM L _) (fun _ _ => True) := by
  refine Good.bind (Good.hAlignRaw join cast p r) (fun t n1 h1 ht => ?_)
  refine Good.bind (Good.valueOf p) (fun lar1 n2 h2 _ => ?_)
  refine Good.bind (Good.valueOf r) (fun lar2 n3 h3 _ => ?_)
  refine Good.bind (Good.hAlignOut _ _ _ ht.1 (by omega)) (fun q1 n4 h4 _ => ?_)
  exact Good.bind (Good.hAlignOut _ _ _ ht.2.1 (by omega)) (fun q2 n5 h5 _ => Good.pure fun _ _ => trivial)

omit [LinearOrder L] in
theorem Good.hFillOne (cv : DType → Val → Val) (miss : Option Val) {x1 x2 : View} (h1 : x1.buf < n) (h2 : x2.buf < n)
    (s1 s2 : List Nat → Bool) : Good n (La.hFillOne cv miss x1 x2 s1 s2 : HM L Unit) (fun _ _ => True) := by
  unfold La.hFillOne
  split
  · exact Good.pure fun _ _ => trivial
  · exact Good.bind (Good.writeWhere h1 _ _) (fun _ n1 hn _ => Good.writeWhere (by omega) _ _)

omit [LinearOrder L] in
theorem Good.hFill (cv : DType → Val → Val) (missone misstwo : Option Val) {x1 x2 : View} (h1 : x1.buf < n)
    (h2 : x2.buf < n) : Good n (La.hFill cv missone misstwo x1 x2 : HM L Unit) (fun _ _ => True) := by
  refine Good.bind (Good.look _) (fun a1 n1 k1 _ => ?_)
  refine Good.bind (Good.look _) (fun a2 n2 k2 _ => ?_)
  exact Good.bind (Good.hFillOne cv missone (by omega) (by omega) _ _)
    (fun _ n3 k3 _ => Good.hFillOne cv misstwo (by omega) (by omega) _ _)

theorem Good.hBinaryop (cv : DType → Val → Val) (uf : UFunc2) (join : JoinArg) (cast : Bool) (missone misstwo : Option Val)
    (p r : Nat) : Good n (La.hBinaryop cv uf join cast missone misstwo p r : HM L Nat) (fun _ _ => True) := by
  refine Good.bind (Good.hAlignRaw join cast p r) (fun t n1 h1 ht => ?_)
  refine Good.ite (fun _ => Good.fail _) (fun _ => ?_)
  refine Good.bind (Good.hFill cv missone misstwo ht.2.2.1 ht.2.2.2.1) (fun _ n2 h2 _ => ?_)
  refine Good.bind (Good.look _) (fun a1 n3 h3 _ => ?_)
  refine Good.bind (Good.look _) (fun a2 n4 h4 _ => ?_)
  refine Good.bind (Good.lift _) (fun x n5 h5 _ => ?_)
  refine Good.bind (Good.newArray _ _) (fun v n6 h6 hv => ?_)
  refine Good.labels _ (fun label n7 h7 _ hl => ?_)
  exact Good.mono (Good.newLarry hv.1 (by omega) hl) (fun _ _ _ _ => trivial)

theorem Good.hMergeLoop : ∀ (axs : List Nat) (q1 q2 : Nat) {n : Nat}, Good n (La.hMergeLoop axs q1 q2 : HM L _) (fun _ _ => True)
  | [], _, _, _ => Good.pure fun _ _ => trivial
  | ax :: rest, q1, q2, _ => by
    refine Good.bind (Good.valueOf q1) (fun y1 _ _ _ => ?_)
    refine Good.bind (Good.valueOf q2) (fun y2 _ _ _ => ?_)
    refine Good.ite (fun _ => Good.hMergeLoop rest q1 q2) (fun _ => ?_)
    refine Good.bind (Good.hMorph _ _ _) (fun q1' _ _ _ => ?_)
    exact Good.bind (Good.hMorph _ _ _) (fun q2' _ _ _ => Good.hMergeLoop rest q1' q2')

theorem Good.hMerge (update : Bool) (p r : Nat) : Good n (La.hMerge update p r : HM L Nat) (fun _ _ => True) := by
  refine Good.bind (Good.valueOf p) (fun y _ _ _ => ?_)
  refine Good.bind (Good.valueOf r) (fun other _ _ _ => ?_)
  refine Good.ite (fun _ => Good.fail _) (fun _ => ?_)
  refine Good.bind (Good.hMergeLoop _ p r) (fun qs _ _ _ => ?_)
  refine Good.bind (Good.getObj qs.1) (fun o1 n1 h1 ho1 => ?_)
  refine Good.bind (Good.look _) (fun lar1 n2 h2 _ => ?_)
  refine Good.bind (Good.valueOf qs.2) (fun lar2 n3 h3 _ => ?_)
  refine Good.ite (fun _ => Good.fail _) (fun _ => ?_)
  extract_lets mask1 mask2
  refine Good.ite (fun _ => Good.fail _) (fun _ => ?_)
  refine Good.ite (fun _ => ?_) (fun _ => Good.pure fun _ _ => trivial)
  refine Good.ite (fun _ => ?_) (fun _ => Good.fail _)
  exact Good.bind (Good.writeWhere (by omega) _ _) (fun _ _ _ _ => Good.pure fun _ _ => trivial)

end order

/-! ## Views -/

/-- A reference leads to something there is; an array shows each cell once. -/
def Ref.Fine (n : Nat) : Ref → Prop
  | .larry p => p < n
  | .array v => v.Inj ∧ v.buf < n
  | .lst a => a < n
  | .out a => a < n
  | .scalar => True

theorem Ref.Fine.lt {n n' : Nat} (hn : n ≤ n') : ∀ {r : Ref}, r.Fine n → r.Fine n'
  | .larry _, h => lt_of_lt_of_le h hn
  | .array _, h => ⟨h.1, lt_of_lt_of_le h.2 hn⟩
  | .lst _, h => lt_of_lt_of_le h hn
  | .out _, h => lt_of_lt_of_le h hn
  | .scalar, _ => trivial

/-- Hand back a larry. -/
theorem Good.larry {m : HM L Nat} {P : Nat → Nat → Prop} (h : Good n m P) (hp : ∀ q n', P q n' → q < n') :
    Good n (do let q ← m; return Ref.larry q : HM L Ref) (fun r n' => r.Fine n') :=
  Good.bind h (fun q n1 _ hq => Good.pure fun _ hn => lt_of_lt_of_le (hp q n1 hq) hn)

theorem Good.hSqueeze (p : Nat) : Good n (La.hSqueeze p : HM L Nat) (fun _ _ => True) := by
  refine Good.bind (Good.getObj p) (fun o n1 h1 ho => ?_)
  refine Good.bind (Good.lookOut _) (fun as n2 h2 has => ?_)
  refine Good.bind (Good.alloc (c := .out _) (fun b hb => ?_) ?_) (fun label n3 h3 hl => ?_)
  · obtain ⟨c, hc, rfl⟩ := List.mem_map.mp hb
    exact has.2 _ (List.of_mem_zip (List.mem_of_mem_filter hc)).1
  · exact has.1.sublist ((List.filter_sublist.map Prod.fst).trans (zip_fst_sublist ..))
  · refine Good.mono (Good.newLarry (v := ⟨o.x.buf, o.x.ix.squeeze, o.x.dtype⟩) (NDArray.Once.squeeze ho.2.1) ?_ hl.2)
      (fun _ _ _ _ => trivial)
    show o.x.buf < n3
    omega

theorem Good.hInit [DecidableEq L] {v : View} {label : Nat} (hi : v.Inj) (hv : v.buf < n) (hl : label < n) :
    Good n (La.hInit v label : HM L Nat) (fun q n' => q < n') := by
  refine Good.bind (Good.look _) (fun z n1 h1 _ => ?_)
  refine Good.bind (Good.lift _) (fun _ n2 h2 _ => ?_)
  exact Good.mono (Good.newLarry hi (by omega) (by omega)) (fun _ _ _ h => h.2)

theorem Good.hPull [LinearOrder L] (name : L) (axis : Option Int) (p : Nat) :
    Good n (La.hPull name axis p) (fun r n' => r.Fine n') := by
  unfold La.hPull
  split
  · exact Good.fail _
  refine Good.bind (Good.getObj p) (fun o n1 h1 ho => ?_)
  refine Good.bind (Good.look _) (fun y n2 h2 _ => ?_)
  refine Good.bind (Good.lookOut _) (fun as n3 h3 has => ?_)
  refine Good.bind (Good.lift _) (fun bs n4 h4 hbs => ?_)
  refine Good.bind (Good.lift _) (fun idx n5 h5 _ => ?_)
  refine Good.bind (Good.lift _) (fun ax n6 h6 hax => ?_)
  refine Good.ite (fun _ => Good.fail _) (fun hlt => ?_)
  extract_lets v
  refine Good.ite (fun _ => Good.pure fun _ _ => trivial) (fun _ => ?_)
  refine Good.bind (Good.alloc (c := .out bs) (fun b hb => lt_of_lt_of_le (has.2 b (pyPop_mem hbs hb)) (by omega))
    (pyPop_nodup hbs has.1)) (fun label n7 h7 hl => ?_)
  refine Good.larry (Good.hInit (v := v) (NDArray.Once.pick ho.2.1 ?_ (by omega)) ?_ hl.2) (fun _ _ h => h)
  · have : o.x.ix.shape.getD ax 0 ≠ 0 := by omega
    by_contra hge
    exact this (by rw [List.getD_eq_getElem?_getD, List.getElem?_eq_none (by omega)]; rfl)
  · show o.x.buf < n7
    omega

theorem Good.hIndex {v : View} (its : List NpItem) (hi : v.Inj) (hv : v.buf < n) :
    Good n (La.hIndex v its : HM L View) (fun w n' => w.Inj ∧ w.buf < n') := by
  refine Good.bind (Good.lift _) (fun ix n1 h1 hix => ?_)
  refine Good.ite (fun _ => ?_) (fun h => Good.pure fun n2 h2 => ⟨NDArray.Once.index hi (by simpa using h) hix, ?_⟩)
  · exact Good.bind (Good.look _) (fun x _ _ _ => Good.mono (Good.newArray _ _) (fun _ _ _ hw => ⟨hw.1, hw.2.2⟩))
  · show v.buf < n2
    omega

theorem Good.hPart {v : View} (np : NpItem) (hi : v.Inj) (hv : v.buf < n) :
    Good n (La.hPart np v : HM L View) (fun w n' => w.Inj ∧ w.buf < n') := by
  unfold La.hPart
  split
  · refine Good.bind (Good.look _) (fun x _ _ _ => ?_)
    exact Good.bind (Good.lift _) (fun x _ _ _ => Good.mono (Good.newArray _ _) (fun _ _ _ hw => ⟨hw.1, hw.2.2⟩))
  · exact Good.hIndex _ hi hv

/-- Each list is a new one or the one of its axis. -/
theorem Good.hTupleLabels : ∀ (cs : List (Nat × Option (List L))) (k : Nat) {n : Nat},
    (cs.map Prod.fst).Nodup → (∀ c ∈ cs, c.1 < n) →
    Good n (La.hTupleLabels cs k) (fun bs n' => bs.Nodup ∧ ∀ b ∈ bs, b < n' ∧ (b ∈ cs.map Prod.fst ∨ n ≤ b))
  | [], _, _, _, _ => Good.pure fun _ _ => ⟨List.nodup_nil, by simp⟩
  | (a, none) :: cs, k, n, hnd, hlt => by
    simp only [List.map_cons, List.nodup_cons] at hnd
    refine Good.mono (Good.hTupleLabels cs (k - 1) hnd.2 (fun c hc => hlt c (List.mem_cons_of_mem _ hc)))
      (fun bs n' _ hbs => ⟨hbs.1, fun b hb => ⟨(hbs.2 b hb).1, ?_⟩⟩)
    rw [List.map_cons, List.mem_cons]
    rcases (hbs.2 b hb).2 with h | h
    · exact Or.inl (Or.inr h)
    · exact Or.inr h
  | (a, some lab) :: cs, k, n, hnd, hlt => by
    have ha : a < n := hlt _ (List.mem_cons_self ..)
    simp only [List.map_cons, List.nodup_cons] at hnd
    refine Good.bind (Good.listIf ha) (fun b n1 hn1 hb => ?_)
    refine Good.bind (Good.hTupleLabels cs (k - 1) hnd.2 (fun c hc => lt_of_lt_of_le (hlt c (List.mem_cons_of_mem _ hc)) hn1))
      (fun bs n2 hn2 hbs => ?_)
    exact Good.pure fun n3 hn3 => own_cons hnd.1 (fun c hc => hlt c (List.mem_cons_of_mem _ hc)) hn1 hn2 hn3 hb hbs

section dec
variable [DecidableEq L]

theorem Good.hMake {v : View} {label : Nat} (hi : v.Inj) (hv : v.buf < n) (hl : label < n) (validate : Bool) :
    Good n (La.hMake v label validate : HM L Nat) (fun q n' => q < n') :=
  Good.ite (fun _ => Good.hInit hi hv hl) (fun _ => Good.mono (Good.newLarry hi hv hl) (fun _ _ _ h => h.2))

theorem Good.hGetTuple (its : List (Item L)) (p : Nat) : Good n (La.hGetTuple its p) (fun r n' => r.Fine n') := by
  refine Good.bind (Good.getObj p) (fun o n1 h1 ho => ?_)
  refine Good.bind (Good.look _) (fun y n2 h2 _ => ?_)
  refine Good.bind (Good.lookOut _) (fun as n3 h3 has => ?_)
  refine Good.bind (Good.lift _) (fun labs n4 h4 _ => ?_)
  refine Good.bind (Good.hTupleLabels _ _ (has.1.sublist (zip_fst_sublist ..))
    (fun c hc => lt_of_lt_of_le (has.2 _ (List.of_mem_zip hc).1) h4)) (fun bs n5 h5 hbs => ?_)
  refine Good.bind (Good.hIndex _ ho.2.1 (by omega)) (fun v n6 h6 hv => ?_)
  refine Good.ite (fun _ => Good.pure fun n7 h7 => ?_) (fun _ => ?_)
  · split
    · trivial
    · exact ⟨hv.1, by omega⟩
  · refine Good.bind (Good.alloc (c := .out bs) (fun b hb => lt_of_lt_of_le (hbs.2 b hb).1 h6) hbs.1) (fun label n7 h7 hl => ?_)
    exact Good.larry (Good.hMake hv.1 (by omega) hl.2 _) (fun _ _ h => h)

theorem Good.hGetOne (np : NpItem) (lab : List L) (shallow validate : Bool) (p : Nat) :
    Good n (La.hGetOne np lab shallow validate p) (fun r n' => r.Fine n') := by
  refine Good.bind (Good.getObj p) (fun o n1 h1 ho => ?_)
  refine Good.bind (Good.lookOut _) (fun as n2 h2 has => ?_)
  have hlab : Good n2 (shallowIf shallow as o : HM L Nat) (fun a n' => a < n') := by
    unfold shallowIf
    refine Good.ite (fun _ => ?_) (fun _ => ?_)
    · exact Good.mono (Good.alloc (c := .out as) has.2 has.1) (fun _ _ _ h => h.2)
    · exact Good.mono (Good.copylabel o) (fun _ _ _ h => h.2)
  refine Good.bind hlab (fun label n3 h3 hl => ?_)
  refine Good.bind (Good.setLab hl _ _) (fun _ n4 h4 _ => ?_)
  refine Good.bind (Good.hPart np ho.2.1 (by omega)) (fun v n5 h5 hv => ?_)
  exact Good.larry (Good.hMake hv.1 hv.2 (by omega) _) (fun _ _ h => h)

theorem Good.hGetitem (isList : Bool) (idx : Index L) (p : Nat) : Good n (La.hGetitem isList idx p) (fun r n' => r.Fine n') := by
  cases idx with
  | tuple its => exact Good.hGetTuple its p
  | one it =>
    cases it with
    | int i =>
      refine Good.bind (Good.getObj p) (fun o n1 h1 ho => ?_)
      refine Good.bind (Good.look _) (fun y n2 h2 _ => ?_)
      refine Good.bind (Good.lookOut _) (fun as n3 h3 has => ?_)
      refine Good.ite (fun _ => Good.fail _) (fun _ => ?_)
      refine Good.bind (Good.hIndex _ ho.2.1 (by omega)) (fun v n4 h4 hv => ?_)
      refine Good.ite (fun _ => Good.pure fun n5 h5 => ?_) (fun _ => ?_)
      · split
        · trivial
        · exact ⟨hv.1, by omega⟩
      · refine Good.bind (Good.alloc (c := .out (as.drop 1)) (fun b hb => lt_of_lt_of_le (has.2 b (List.mem_of_mem_drop hb)) h4)
          (has.1.sublist (List.drop_sublist ..))) (fun label n5 h5 hl => ?_)
        exact Good.larry (Good.newLarry hv.1 (by omega) hl.2) (fun _ _ h => h.2)
    | slice s =>
      refine Good.bind (Good.valueOf p) (fun y _ _ _ => ?_)
      exact Good.bind (Good.lift _) (fun lab _ _ _ => Good.hGetOne _ _ _ _ p)
    | seq is =>
      refine Good.bind (Good.valueOf p) (fun y _ _ _ => ?_)
      refine Good.bind (Good.lift _) (fun _ _ _ _ => ?_)
      exact Good.bind (Good.lift _) (fun lab _ _ _ => Good.hGetOne _ _ _ _ p)
    | mask bs =>
      refine Good.bind (Good.valueOf p) (fun y _ _ _ => ?_)
      exact Good.bind (Good.lift _) (fun lab _ _ _ => Good.hGetOne _ _ _ _ p)
    | lar m =>
      refine Good.bind (Good.valueOf p) (fun y _ _ _ => ?_)
      refine Good.bind (Good.lift _) (fun _ _ _ _ => ?_)
      exact Good.bind (Good.lift _) (fun lab _ _ _ => Good.hGetOne _ _ _ _ p)
    | nd => exact Good.fail _
    | other => exact Good.fail _

end dec

/-! ## In place -/

theorem Good.hInPlace (f : Larry L → Res (Larry L)) (p : Nat) : Good n (La.hInPlace f p) (fun _ _ => True) := by
  refine Good.bind (Good.getObj p) (fun o n1 h1 ho => ?_)
  refine Good.bind (Good.look _) (fun y n2 h2 _ => ?_)
  exact Good.bind (Good.lift _) (fun z n3 h3 _ => Good.writeX (by omega) _)

theorem Good.hShuffleLabel (perm : List L → List L) (ax : Int) (p : Nat) :
    Good n (La.hShuffleLabel perm ax p) (fun _ _ => True) := by
  refine Good.bind (Good.getObj p) (fun o n1 h1 ho => ?_)
  refine Good.bind (Good.lookOut _) (fun as n2 h2 has => ?_)
  refine Good.bind (Good.lift _) (fun a n3 h3 ha => ?_)
  refine Good.bind (Good.look _) (fun l n4 h4 _ => ?_)
  obtain ⟨k, _, hk⟩ := pyGet_ok.mp ha
  have := has.2 a (List.mem_of_getElem? hk)
  exact Good.put (c := .lst (perm l)) (by omega) trivial trivial

/-! ## Steps -/

variable {env : List Ref}

theorem Good.asLarry (i : Nat) : Good n (La.asLarry env i : HM L Nat) (fun p _ => env[i]? = some (.larry p)) := by
  unfold La.asLarry
  split
  · rename_i p h
    exact Good.pure fun _ _ => h
  · exact Good.fail _

theorem Good.asArray (i : Nat) : Good n (La.asArray env i : HM L View) (fun v _ => env[i]? = some (.array v)) := by
  unfold La.asArray
  split
  · rename_i p h
    exact Good.pure fun _ _ => h
  · exact Good.fail _

theorem Good.asList (i : Nat) : Good n (La.asList env i : HM L Nat) (fun a _ => env[i]? = some (.lst a)) := by
  unfold La.asList
  split
  · rename_i p h
    exact Good.pure fun _ _ => h
  · exact Good.fail _

theorem Good.asOut (i : Nat) : Good n (La.asOut env i : HM L Nat) (fun a _ => env[i]? = some (.out a)) := by
  unfold La.asOut
  split
  · rename_i p h
    exact Good.pure fun _ _ => h
  · exact Good.fail _

theorem Good.asLists : ∀ (is : List Nat) {n : Nat}, Good n (La.asLists env is : HM L (List Nat))
    (fun as _ => List.Forall₂ (fun i a => env[i]? = some (.lst a)) is as)
  | [], _ => Good.pure fun _ _ => List.Forall₂.nil
  | i :: is, _ => by
    refine Good.bind (Good.asList i) (fun a n1 h1 ha => ?_)
    refine Good.bind (Good.asLists is) (fun as n2 h2 has => Good.pure fun _ _ => List.Forall₂.cons ha has)

theorem Good.give {m : HM L Nat} (h : Good n m (fun _ _ => True)) : Good n (giveLarry m) (fun _ _ => True) :=
  Good.bind h (fun _ _ _ _ => Good.pure fun _ _ => trivial)

end rules
end La
