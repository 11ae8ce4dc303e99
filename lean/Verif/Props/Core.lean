import Verif.BinopFacts
import Verif.Examples
import Verif.MorphLike

/-!
# Properties C06–C15: construction, access by label, binary operators, morph

`y.Has names v` (LarryFacts.lean) says: the cell of `y` labelled `names` holds `v`.  It is defined
from the label lists and the array alone; `C07_get` shows that it is what the API call `get` returns.
-/

namespace La
open Larry
variable {L : Type _}

/-! ## C06 -/

/-- C06. The constructor succeeds exactly on well-formed input, then stores its arguments, and raises
ValueError otherwise. -/
theorem C06_constructor [DecidableEq L] (x : NDArray Val) (d : DType) (label : List (List L)) :
    (ValidLabels label x.shape → Larry.mk' x d label = .ok ⟨x, d, label⟩) ∧
    (¬ ValidLabels label x.shape → Larry.mk' x d label = .error .valueError) := by
  have key : ValidLabels label x.shape ↔ x.ndim = label.length ∧ x.ndim ≠ 0 ∧
      (label.zip x.shape).any (fun p => p.2 != p.1.length || hasDup p.1) = false := by
    have hany : ∀ (label : List (List L)) (shape : List Nat), shape.length = label.length →
        ((label.zip shape).any (fun p => p.2 != p.1.length || hasDup p.1) = false ↔
          shape = label.map List.length ∧ ∀ l ∈ label, l.Nodup) := by
      intro label
      induction label with
      | nil => intro shape h; cases shape <;> simp_all
      | cons l ls ih =>
        intro shape h
        cases shape with
        | nil => simp at h
        | cons n ns =>
          have := ih ns (by simpa using h)
          rw [List.zip_cons_cons, List.any_cons, Bool.or_eq_false_iff, this, Bool.or_eq_false_iff,
            hasDup_false]
          simp only [bne_eq_false_iff_eq, List.map_cons, List.cons.injEq, List.mem_cons,
            forall_eq_or_imp]
          tauto
    constructor
    · intro h
      have hlen : x.shape.length = label.length := by simpa using congrArg List.length h.shape_eq
      refine ⟨hlen, ?_, (hany label x.shape hlen).mpr ⟨h.shape_eq, h.nodup⟩⟩
      intro h0
      apply h.ndim_pos
      simp only [NDArray.ndim] at h0
      exact List.length_eq_zero_iff.mp (by omega)
    · rintro ⟨h1, h2, h3⟩
      have h4 := (hany label x.shape h1).mp h3
      refine ⟨h4.1, h4.2, ?_⟩
      rintro rfl
      exact h2 (by simpa [NDArray.ndim] using h1)
  constructor
  · intro h
    obtain ⟨h1, h2, h3⟩ := key.mp h
    simp [Larry.mk', h1.symm ▸ h2, h1, h3]
  · intro h
    unfold Larry.mk'
    split
    · rfl
    · split
      · rfl
      · split
        · rfl
        · rename_i h1 h2 h3
          exact absurd (key.mpr ⟨by omega, h2, by simpa using h3⟩) h

/-- C06, `label=None`: labels are 0, 1, … on every axis; only a 0d array is refused. -/
theorem C06_default_labels (x : NDArray Val) (d : DType) :
    (x.shape ≠ [] → Larry.ofArray x d =
      .ok ⟨x, d, x.shape.map (fun n => (List.range n).map (fun i : Nat => (i : Int)))⟩) ∧
    (x.shape = [] → Larry.ofArray x d = .error .valueError) := by
  constructor
  · intro h
    refine (C06_constructor x d _).1 ⟨?_, ?_, by simpa using h⟩
    · rw [List.map_map]
      symm
      conv_rhs => rw [← List.map_id x.shape]
      apply List.map_congr_left
      intro n _
      simp
    · intro l hl
      obtain ⟨n, _, rfl⟩ := List.mem_map.mp hl
      exact List.Nodup.map (f := fun i : Nat => (i : Int)) (fun a b h => Int.ofNat_inj.mp h)
        List.nodup_range
  · intro h
    refine (C06_constructor x d _).2 (fun hv => hv.ndim_pos ?_)
    simp [h]

example : ValidLabels [[10, 20], [3, 1, 2]] exA.x.shape := exA_valid
example : ¬ ValidLabels [[10, 10], [3, 1, 2]] exA.x.shape := fun h => by
  have := h.nodup [10, 10] (by simp); simp at this

/-! ## C07, C08 -/

/-- C07. `get` returns the value of the one cell carrying the names; it raises ValueError iff the
number of names is wrong, otherwise IndexError iff some name is not a label of its axis. -/
theorem C07_get [LinearOrder L] {y : Larry L} (hv : y.Valid) (names : List L) :
    (∀ v, y.get names = .ok v ↔ y.Has names v) ∧
    (∀ v v', y.Has names v → y.Has names v' → v = v') ∧
    ((∃ v, y.get names = .ok v) ↔ Named y.label names) ∧
    (∀ e, y.get names = .error e ↔ (names.length ≠ y.ndim ∧ e = .valueError) ∨
      (names.length = y.ndim ∧ ¬ Named y.label names ∧ e = .indexError)) := by
  refine ⟨fun v => get_ok_iff hv, fun v v' h h' => Holds_unique hv.nodup h h', ?_,
    fun e => get_error_iff hv⟩
  constructor
  · rintro ⟨v, h⟩; exact Named_of_Holds ((get_ok_iff hv).mp h)
  · intro h
    obtain ⟨v, hv'⟩ := Holds_of_Named (x := y.x) h
    exact ⟨v, (get_ok_iff hv).mpr hv'⟩

example : exA.Has [20, 3] (fl 4) := ⟨[1, 0], by simp [At, exA], rfl⟩
example : exA.get [20, 3] = .ok (fl 4) ∧ exA.get [3, 20] = .error .indexError ∧
    exA.get [20] = .error .valueError := by decide

/-- C08. `set` then `get`: the written cell holds the new value, every other cell, the labels, the
shape and the dtype are unchanged, and `set` fails exactly when `get` does, in the same way. -/
theorem C08_set [LinearOrder L] {y : Larry L} (hv : y.Valid) (names : List L) (v : Val) :
    (Named y.label names → ∃ z, y.set names v = .ok z ∧ z.Valid ∧ z.label = y.label ∧
      z.shape = y.shape ∧ z.dtype = y.dtype ∧ z.get names = .ok v ∧
      ∀ other, other ≠ names → z.get other = y.get other) ∧
    (∀ e, y.set names v = .error e ↔ y.get names = .error e) := by
  constructor
  · intro hN
    obtain ⟨idx, hat⟩ := At_of_Named hN
    have hb : InB y.x.shape idx := hv.shape_eq ▸ At_inB hat
    refine ⟨{ y with x := y.x.setItem idx v }, ?_, hv, rfl, rfl, rfl, ?_, ?_⟩
    · simp only [Larry.set, (labelIdx_ok hv).mpr hat, if_pos hb]
    · rw [get_ok_iff (show Larry.Valid { y with x := y.x.setItem idx v } from hv)]
      exact ⟨idx, hat, by simp [NDArray.setItem]⟩
    · intro other hne
      cases hr : y.labelIdx other with
      | error e =>
        have : Larry.labelIdx { y with x := y.x.setItem idx v } other = .error e := hr
        simp only [Larry.get, hr, this]
      | ok j =>
        have hj := (labelIdx_ok hv).mp hr
        have : Larry.labelIdx { y with x := y.x.setItem idx v } other = .ok j := hr
        have hne' : j ≠ idx := fun h => hne (At_names_unique (h ▸ hj) hat)
        simp only [Larry.get, hr, this, NDArray.item]
        simp only [NDArray.setItem, if_neg hne']
  · intro e
    unfold Larry.set Larry.get
    cases hr : y.labelIdx names with
    | error e' => simp
    | ok idx =>
      have hb : InB y.x.shape idx := hv.shape_eq ▸ At_inB ((labelIdx_ok hv).mp hr)
      simp [NDArray.item, if_pos hb]

/-- Run a list of `set` calls. -/
def setAll [LinearOrder L] (y : Larry L) : List (List L × Val) → Res (Larry L)
  | [] => .ok y
  | (names, v) :: ops => match y.set names v with
    | .error e => .error e
    | .ok z => setAll z ops

/-- C08, histories: after any sequence of writes to existing cells, every cell holds the last value
written to it, or its original value if it was never written. -/
theorem C08_set_history [LinearOrder L] {y : Larry L} (hv : y.Valid) (ops : List (List L × Val))
    (hops : ∀ p ∈ ops, Named y.label p.1) :
    ∃ z, setAll y ops = .ok z ∧ z.Valid ∧ z.label = y.label ∧ ∀ names,
      z.get names = match (ops.reverse.find? (fun p => p.1 = names)) with
        | some p => .ok p.2
        | none => y.get names := by
  induction ops generalizing y with
  | nil => exact ⟨y, rfl, hv, rfl, fun names => by simp⟩
  | cons p ops ih =>
    obtain ⟨ns, v⟩ := p
    obtain ⟨z, h1, h2, h3, _, _, h4, h5⟩ := (C08_set hv ns v).1 (hops (ns, v) (by simp))
    obtain ⟨w, h6, h7, h8, h9⟩ := ih h2 (fun p hp => by rw [h3]; exact hops p (by simp [hp]))
    refine ⟨w, by simp [setAll, h1, h6], h7, h8.trans h3, fun names => ?_⟩
    rw [h9 names, List.reverse_cons, List.find?_append]
    cases hf : List.find? (fun p => decide (p.1 = names)) ops.reverse with
    | some q => simp
    | none =>
      by_cases hn : ns = names
      · subst hn; simp [h4]
      · simp [hn, h5 names (Ne.symm hn)]

example : Named exA.label [20, 1] := by simp [Named, exA]

/-! ## C09, C10, C11: binary operators -/

/-- C09. `a op b`: on each axis the labels are the common list if identical, else the sorted
intersection; every cell holds `op` of the two values under the same names; cells not in both are
absent.  For every elementwise operation and its dtype rule. -/
theorem C09_binop [LinearOrder L] {a b : Larry L} (ha : a.Valid) (hb : b.Valid)
    (hn : a.ndim = b.ndim) (uf : UFunc2) {d : DType} (hd : uf.dt a.dtype b.dtype = .ok d) :
    ∃ z, Larry.binop uf a b = .ok z ∧ z.Valid ∧ z.dtype = d ∧
      Joined InnerJoined a.label b.label z.label ∧
      ∀ names v, z.get names = .ok v ↔
        ∃ u w, a.get names = .ok u ∧ b.get names = .ok w ∧ v = uf.f u w := by
  have finish : ∀ z : Larry L, z.Valid → (∀ names v, Holds z.label z.x names v ↔
      ∃ u w, a.Has names u ∧ b.Has names w ∧ v = uf.f u w) → ∀ names v, z.get names = .ok v ↔
        ∃ u w, a.get names = .ok u ∧ b.get names = .ok w ∧ v = uf.f u w := by
    intro z hz h names v
    rw [get_ok_iff hz]
    simp only [get_ok_iff ha, get_ok_iff hb]
    exact h names v
  by_cases hl : a.label = b.label
  · obtain ⟨z, h1, h2, h3⟩ := aligned_apply (a := a) (b := b) ha hd
      (hl ▸ Joined.refl_inner a.label) ha.shape_eq (hl ▸ hb.shape_eq) (Reindexed.refl _ _ _)
      (hl ▸ Reindexed.refl _ _ _)
    exact ⟨⟨z, d, a.label⟩, by simp [Larry.binop, hl, h1], h2, rfl,
      hl ▸ Joined.refl_inner a.label, finish _ h2 h3⟩
  · obtain ⟨x, y, r, h1, h2, h3, h4, h5, h6⟩ := align_spec ha hb hn
    obtain ⟨z, h7, h8, h9⟩ := aligned_apply (a := a) (b := b) ha hd h2 h3 h4 h5 h6
    exact ⟨⟨z, d, r⟩, by simp [Larry.binop, hl, h1, h7], h8, rfl, h2, finish _ h8 h9⟩

/-- C09: a different number of dimensions raises IndexError. -/
theorem C09_binop_ndim [LinearOrder L] {a b : Larry L} (ha : a.Valid) (hb : b.Valid)
    (hn : a.ndim ≠ b.ndim) (uf : UFunc2) : Larry.binop uf a b = .error .indexError := by
  have hl : a.label ≠ b.label := fun h => hn (by
    rw [← ha.label_length, ← hb.label_length, h])
  simp [Larry.binop, hl, Larry.align, hn]

/-- C09: if numpy refuses the pair of dtypes, that exception is what the caller sees. -/
theorem C09_binop_dtype_error [LinearOrder L] {a b : Larry L} (ha : a.Valid) (hb : b.Valid)
    (hn : a.ndim = b.ndim) (uf : UFunc2) {e : PyErr} (hd : uf.dt a.dtype b.dtype = .error e) :
    Larry.binop uf a b = .error e := by
  by_cases hl : a.label = b.label
  · simp [Larry.binop, hl, npBinop_dtError hd]
  · obtain ⟨x, y, r, h1, _⟩ := align_spec ha hb hn
    simp [Larry.binop, hl, h1, npBinop_dtError hd]

example : exA.ndim = exB.ndim ∧ exA.label ≠ exB.label := by decide

/-- C10. Swapping the operands gives the same labels and the swapped operation's value everywhere. -/
theorem C10_binop_swap [LinearOrder L] {a b : Larry L} (ha : a.Valid) (hb : b.Valid)
    (hn : a.ndim = b.ndim) (uf uf' : UFunc2) {d : DType} (hd : uf.dt a.dtype b.dtype = .ok d)
    (hsf : ∀ u w, uf'.f w u = uf.f u w) (hsd : uf'.dt b.dtype a.dtype = .ok d) :
    ∃ z z', Larry.binop uf a b = .ok z ∧ Larry.binop uf' b a = .ok z' ∧ z.Same z' := by
  obtain ⟨z, h1, h2, h3, h4, h5⟩ := C09_binop ha hb hn uf hd
  obtain ⟨z', h1', h2', h3', h4', h5'⟩ := C09_binop hb ha hn.symm uf' hsd
  refine ⟨z, z', h1, h1', h2.same_of_has h2' ?_ (h3.trans h3'.symm) ?_⟩
  · exact h4.unique (fun _ _ _ _ h h' => h.unique h') h4'.symm_inner
  · intro names v h
    rw [← get_ok_iff h2, h5] at h
    obtain ⟨u, w, hu, hw, rfl⟩ := h
    rw [← get_ok_iff h2', h5']
    exact ⟨w, u, hw, hu, (hsf u w).symm⟩

/-- C10. The labels of `a op b` are determined by the join rule: there is only one list per axis that
satisfies it. -/
theorem C10_labels_unique [LinearOrder L] {a b : Larry L} {r r' : List (List L)}
    (h : Joined InnerJoined a.label b.label r) (h' : Joined InnerJoined a.label b.label r') :
    r = r' := h.unique (fun _ _ _ _ h h' => h.unique h') h'

/-- C10: the code sorts a set; any enumeration of that set gives the same list. -/
theorem C10_set_order_irrelevant [LinearOrder L] (l1 l2 enum : List L)
    (h : ∀ a, a ∈ enum ↔ a ∈ l1 ∧ a ∈ l2) (hnd : enum.Nodup) :
    pySorted enum = pySorted (setInter l1 l2) :=
  pySorted_perm ((List.perm_ext_iff_of_nodup hnd nodup_setInter).mpr (fun a => by
    rw [h, mem_setInter]))

/-- C11. Comparisons of two larrys: same join rule, elementwise comparison. -/
theorem C11_compare [LinearOrder L] {a b : Larry L} (ha : a.Valid) (hb : b.Valid)
    (hn : a.ndim = b.ndim) (uf : UFunc2) {d : DType} (hd : uf.dt a.dtype b.dtype = .ok d) :
    ∃ z, Larry.compare uf a b = .ok z ∧ z.Valid ∧ z.dtype = d ∧
      Joined InnerJoined a.label b.label z.label ∧
      ∀ names v, z.get names = .ok v ↔
        ∃ u w, a.get names = .ok u ∧ b.get names = .ok w ∧ v = uf.f u w := by
  obtain ⟨x, y, r, h1, h2, h3, h4, h5, h6⟩ := align_spec ha hb hn
  obtain ⟨z, h7, h8, h9⟩ := aligned_apply (a := a) (b := b) ha hd h2 h3 h4 h5 h6
  refine ⟨⟨z, d, r⟩, by simp [Larry.compare, h1, h7], h8, rfl, h2, ?_⟩
  intro names v
  have h8' : Larry.Valid ⟨z, d, r⟩ := h8
  rw [get_ok_iff h8']
  simp only [get_ok_iff ha, get_ok_iff hb]
  exact h9 names v

/-- C11: a different number of dimensions raises IndexError. -/
theorem C11_compare_ndim [LinearOrder L] {a b : Larry L} (hn : a.ndim ≠ b.ndim) (uf : UFunc2) :
    Larry.compare uf a b = .error .indexError := by
  simp [Larry.compare, Larry.align, hn]

/-! ## C12: broadcasting -/

/-- `BReads shape idx idx'`: numpy broadcasting reads element `idx'` of an array of this shape when it
computes element `idx` of the result: axes are matched from the last one, a length-1 axis is read
at 0, extra leading axes of the result are ignored. -/
def BReads (shape idx idx' : List Nat) : Prop :=
  ∃ pre post, idx = pre ++ post ∧ post.length = shape.length ∧ idx'.length = shape.length ∧
    ∀ (k n i i' : Nat), shape[k]? = some n → post[k]? = some i → idx'[k]? = some i' →
      i' = if n = 1 then 0 else i

theorem bget_reads {α : Type _} (a : NDArray α) {idx : List Nat} (h : a.shape.length ≤ idx.length) :
    ∃ idx', BReads a.shape idx idx' ∧ a.bget idx = a.get idx' := by
  refine ⟨_, ⟨idx.take (idx.length - a.shape.length), idx.drop (idx.length - a.shape.length),
    (List.take_append_drop _ _).symm, by simp; omega, by simp; omega, ?_⟩, rfl⟩
  intro k n i i' hn hi hi'
  rw [List.getElem?_zipWith, hn, hi] at hi'
  simpa using hi'.symm

theorem BReads_unique {shape idx i1 i2 : List Nat} (h1 : BReads shape idx i1)
    (h2 : BReads shape idx i2) : i1 = i2 := by
  obtain ⟨p1, q1, e1, l1, m1, f1⟩ := h1
  obtain ⟨p2, q2, e2, l2, m2, f2⟩ := h2
  have : q1 = q2 := by
    rw [e1] at e2
    exact (List.append_inj' e2 (by omega)).2
  subst this
  apply List.ext_getElem (by omega)
  intro k hk1 hk2
  have := f1 k shape[k] q1[k] i1[k] (by simp) (by simp) (by simp)
  have := f2 k shape[k] q1[k] i2[k] (by simp) (by simp) (by simp)
  omega

/-- An array of shape `t` broadcasts to shape `s` without changing it: matched from the last axis, every
axis of `t` has length 1 or the length of the axis of `s`. -/
def BFits (s t : List Nat) : Prop :=
  ∃ pre post, s = pre ++ post ∧ List.Forall₂ (fun m n => n = m ∨ n = 1) post t

theorem bdim_fits {m n : Nat} (h : n = m ∨ n = 1) : bdim m n = .ok m := by
  unfold bdim
  split
  · rfl
  · split
    · rcases h with h | h <;> simp_all
    · rcases h with h | h
      · rename_i h1 _; exact absurd h.symm h1
      · rw [if_pos h]

theorem broadcastShape_fits {s t : List Nat} (h : BFits s t) : broadcastShape s t = .ok s := by
  obtain ⟨pre, post, rfl, h⟩ := h
  have hlen := h.length_eq
  unfold broadcastShape
  simp only
  have h1 : max (pre ++ post).length t.length = (pre ++ post).length := by
    rw [List.length_append]; omega
  rw [h1, Nat.sub_self, List.replicate_zero, List.nil_append, mapRes_ok]
  have h2 : (pre ++ post).length - t.length = pre.length := by simp; omega
  rw [h2]
  clear h1 h2
  induction pre with
  | nil =>
    simp only [List.nil_append, List.length_nil, List.replicate_zero]
    clear hlen
    induction h with
    | nil => simp
    | cons hh _ ih =>
      simp only [List.zip_cons_cons]
      exact List.Forall₂.cons (bdim_fits hh) ih
  | cons m pre ih =>
    simp only [List.cons_append, List.length_cons, List.replicate_succ, List.zip_cons_cons]
    exact List.Forall₂.cons (bdim_fits (.inr rfl)) ih

/-- C12. `larry op array` (or `op` scalar: shape `[]`), when broadcasting keeps the larry's shape: a
valid larry with the same labels; each cell is `op` of the larry's value and the array element that
numpy broadcasts to that position. -/
theorem C12_broadcast [LinearOrder L] {a : Larry L} (ha : a.Valid) (other : NDArray Val) (od : DType)
    (uf : UFunc2) {d : DType} (hd : uf.dt a.dtype od = .ok d)
    (hfit : BFits a.x.shape other.shape) :
    ∃ z, Larry.binopArray uf a other od = .ok z ∧ z.Valid ∧ z.dtype = d ∧ z.label = a.label ∧
      ∀ names v, z.Has names v ↔ ∃ idx idx', At a.label idx names ∧ BReads other.shape idx idx' ∧
        v = uf.f (a.x.get idx) (other.get idx') := by
  have hs := broadcastShape_fits hfit
  have hlen : other.shape.length ≤ a.x.shape.length := by
    obtain ⟨pre, post, h1, h2⟩ := hfit
    have := h2.length_eq
    rw [h1, List.length_append]; omega
  refine ⟨⟨⟨a.x.shape, fun i => uf.f (a.x.bget i) (other.bget i)⟩, d, a.label⟩, ?_, ha, rfl, rfl, ?_⟩
  · simp [Larry.binopArray, npBinop, hd, hs]
  · intro names v
    constructor
    · rintro ⟨idx, hat, rfl⟩
      have hb : InB a.x.shape idx := ha.shape_eq ▸ At_inB hat
      obtain ⟨idx', h1, h2⟩ := bget_reads other (idx := idx) (by rw [InB_length hb]; exact hlen)
      exact ⟨idx, idx', hat, h1, by simp only [bget_inB a.x hb, h2]⟩
    · rintro ⟨idx, idx', hat, h1, rfl⟩
      have hb : InB a.x.shape idx := ha.shape_eq ▸ At_inB hat
      obtain ⟨idx'', h1', h2⟩ := bget_reads other (idx := idx) (by rw [InB_length hb]; exact hlen)
      rw [BReads_unique h1 h1']
      exact ⟨idx, hat, by simp only [bget_inB a.x hb, h2]⟩

/-- C12, scalar operand: always keeps the shape. -/
theorem C12_scalar [LinearOrder L] {a : Larry L} (ha : a.Valid) (s : Val) (od : DType)
    (uf : UFunc2) {d : DType} (hd : uf.dt a.dtype od = .ok d) :
    ∃ z, Larry.binopArray uf a ⟨[], fun _ => s⟩ od = .ok z ∧ z.Valid ∧ z.dtype = d ∧
      z.label = a.label ∧ ∀ names v, z.Has names v ↔ ∃ u, a.Has names u ∧ v = uf.f u s := by
  have hs : BFits a.x.shape [] := ⟨a.x.shape, [], by simp, .nil⟩
  obtain ⟨z, h1, h2, h3, h4, h5⟩ := C12_broadcast ha ⟨[], fun _ => s⟩ od uf hd hs
  refine ⟨z, h1, h2, h3, h4, fun names v => ?_⟩
  rw [h5]
  constructor
  · rintro ⟨idx, _, hat, _, rfl⟩; exact ⟨_, ⟨idx, hat, rfl⟩, rfl⟩
  · rintro ⟨_, ⟨idx, hat, rfl⟩, rfl⟩
    exact ⟨idx, [], hat, ⟨idx, [], by simp, rfl, rfl, by simp⟩, rfl⟩

/-- C12, the unchecked case: broadcasting to a larger shape returns, without any exception, a larry
whose labels do not fit its data. -/
theorem C12_broadcast_breaks : ∃ (a : Larry Nat) (other : NDArray Val) (uf : UFunc2) (z : Larry Nat),
    a.Valid ∧ Larry.binopArray uf a other .float = .ok z ∧ ¬ z.Valid := by
  refine ⟨exV, ⟨[2, 3], fun _ => fl 1⟩, ⟨fun u _ => u, fun _ _ => .ok .float⟩,
    ⟨⟨[2, 3], _⟩, .float, [[5, 7, 6]]⟩, exV_valid, rfl, ?_⟩
  intro h
  have := h.shape_eq
  simp at this

example : BFits exA.x.shape [3] ∧ BFits exA.x.shape [2, 1] :=
  ⟨⟨[2], [3], rfl, by simp⟩, ⟨[], [2, 3], rfl, by simp⟩⟩

/-! ## C13, C14, C15: morph -/

/-- C13. `morph(label, axis)`: the new labels on that axis, all else unchanged; a cell holds the old
value (converted if the dtype changed) if its names existed, and the missing marker of the result's
dtype otherwise.  The dtype becomes float exactly when it has no missing marker (int, bool) and the
requested list differs from the current one and contains a new label or is empty. -/
theorem C13_morph [LinearOrder L] {y : Larry L} (hv : y.Valid) {lab : List L} (hnd : lab.Nodup)
    {axis : Int} {ax : Nat} (hax : pyIdx y.ndim axis = some ax) {l : List L}
    (hl : y.label[ax]? = some l) :
    ∃ z, y.morph lab axis = .ok z ∧ z.Valid ∧ z.label = y.label.set ax lab ∧
      z.dtype = (if (y.dtype = .int ∨ y.dtype = .bool) ∧ l ≠ lab ∧
        (lab = [] ∨ ∃ b ∈ lab, b ∉ l) then .float else y.dtype) ∧
      (∀ names v, y.Has names v → Named z.label names →
        z.get names = .ok (if z.dtype = y.dtype then v else v.toFloat)) ∧
      (∀ names, Named z.label names → ¬ Named y.label names →
        ∃ m, z.get names = .ok m ∧ missingMarker z.dtype = some m) := by
  obtain ⟨z, h1, h2, h3, h4, h5⟩ := morph_spec hv hnd hax hl
  refine ⟨z, h1, h3, h2, h4, ?_, ?_⟩
  · intro names v hh hN
    rw [get_ok_iff h3]
    refine (h5 names _).mpr ⟨hN, .inl ⟨v, hh, ?_⟩⟩
    simp [castVal, eq_comm]
  · intro names hN hno
    obtain ⟨m, hm⟩ := Holds_of_Named (x := z.x) hN
    refine ⟨m, (get_ok_iff h3).mpr hm, ?_⟩
    rcases ((h5 names m).mp hm).2 with ⟨w, hw, _⟩ | ⟨_, h⟩
    · exact absurd (Named_of_Holds hw) hno
    · exact h

/-- C13: duplicated labels or an axis out of range raise IndexError. -/
theorem C13_morph_error [LinearOrder L] {y : Larry L} (hv : y.Valid) {lab : List L} {axis : Int}
    (h : ¬ lab.Nodup ∨ pyIdx y.ndim axis = none) : y.morph lab axis = .error .indexError := by
  rcases h with h | h
  · exact morph_dup hv h
  · exact pyIdx_none_morph hv h

/-- C13: negative axes count from the end. -/
theorem C13_morph_negative_axis [LinearOrder L] {y : Larry L} (hv : y.Valid) (lab : List L)
    {k : Nat} (h0 : 0 < k) (hk : k ≤ y.ndim) :
    y.morph lab (-(k : Int)) = y.morph lab ((y.ndim - k : Nat) : Int) := by
  have h1 : pyIdx y.label.length (-(k : Int)) = some (y.ndim - k) := by
    rw [hv.label_length]; exact pyIdx_neg h0 hk
  have h2 : pyIdx y.label.length ((y.ndim - k : Nat) : Int) = some (y.ndim - k) := by
    rw [hv.label_length]; exact pyIdx_ofNat (by omega)
  have h1' : pyIdx y.x.ndim (-(k : Int)) = some (y.ndim - k) := pyIdx_neg h0 hk
  have h2' : pyIdx y.x.ndim ((y.ndim - k : Nat) : Int) = some (y.ndim - k) := pyIdx_ofNat
    (show _ < y.ndim by omega)
  unfold Larry.morph
  rw [if_neg (by omega), if_neg (by omega), h1, h2]
  simp only [NDArray.take, h1', h2']

example : pyIdx exA.ndim (-1) = some 1 ∧ exA.label[1]? = some [3, 1, 2] ∧ [2, 9, 3].Nodup := by
  decide
example : pyIdx exB.ndim 0 = some 0 ∧ exB.label[0]? = some [20, 30] := by decide

/-- C14. Morphing an axis to a permutation of its labels and back restores the larry. -/
theorem C14_morph_inverse [LinearOrder L] {y : Larry L} (hv : y.Valid) {lab l : List L}
    {axis : Int} {ax : Nat} (hax : pyIdx y.ndim axis = some ax) (hl : y.label[ax]? = some l)
    (hperm : lab.Perm l) :
    ∃ z w, y.morph lab axis = .ok z ∧ z.morph l axis = .ok w ∧ w.Same y := by
  have hlnd : l.Nodup := hv.nodup l (List.mem_of_getElem? hl)
  have hlt := (List.getElem?_eq_some_iff.mp hl).1
  have hnd : lab.Nodup := hperm.nodup_iff.mpr hlnd
  obtain ⟨z, h1, h2, h3, h4, h5⟩ := morph_spec hv hnd hax hl
  have hzn : z.ndim = y.ndim := by rw [← h3.label_length, ← hv.label_length, h2]; simp
  have hzl : z.label[ax]? = some lab := by rw [h2]; simp [hlt]
  obtain ⟨w, g1, g2, g3, g4, g5⟩ := morph_spec h3 hlnd (by rw [hzn]; exact hax) hzl
  have hlabel : w.label = y.label := by
    rw [g2, h2, List.set_set]
    obtain ⟨_, hl'⟩ := List.getElem?_eq_some_iff.mp hl
    rw [← hl', List.set_getElem_self]
  have hd1 : z.dtype = y.dtype := by
    rw [h4, morphDType, if_neg]
    rintro ⟨_, hne, h | ⟨b, hb, hbl⟩⟩
    · subst h
      exact hne (List.Perm.nil_eq hperm).symm
    · exact hbl (hperm.mem_iff.mp hb)
  have hd2 : w.dtype = z.dtype := by
    rw [g4, morphDType, if_neg]
    rintro ⟨_, hne, h | ⟨b, hb, hbl⟩⟩
    · subst h
      exact hne (hperm.eq_nil)
    · exact hbl (hperm.mem_iff.mpr hb)
  refine ⟨z, w, h1, g1, g3.same_of_has hv hlabel (hd2.trans hd1) ?_⟩
  intro names v hwv
  have hN : Named y.label names := hlabel ▸ Named_of_Holds hwv
  obtain ⟨_, ⟨u, hu, rfl⟩ | ⟨hno, _⟩⟩ := (g5 names v).mp hwv
  · obtain ⟨_, ⟨u', hu', rfl⟩ | ⟨hno, _⟩⟩ := (h5 names u).mp hu
    · rw [hd2, hd1]
      simp only [castVal_self, id]
      exact hu'
    · exact absurd hN hno
  · exfalso
    apply hno
    rw [h2, Named_set_iff hlt]
    rw [Named_iff_except hl] at hN
    obtain ⟨h6, n, hn, hnl⟩ := hN
    exact ⟨h6, n, hn, hperm.mem_iff.mpr hnl⟩

/-- C14. Morphing to `lab` and then to `lab'` (no new labels in either step) is morphing to `lab'`. -/
theorem C14_morph_compose [LinearOrder L] {y : Larry L} (hv : y.Valid) {lab lab' l : List L}
    {axis : Int} {ax : Nat} (hax : pyIdx y.ndim axis = some ax) (hl : y.label[ax]? = some l)
    (hnd : lab.Nodup) (hnd' : lab'.Nodup) (hsub : ∀ b ∈ lab, b ∈ l) (hsub' : ∀ b ∈ lab', b ∈ lab) :
    ∃ z w w', y.morph lab axis = .ok z ∧ z.morph lab' axis = .ok w ∧ y.morph lab' axis = .ok w' ∧
      w.Same w' := by
  have hlt := (List.getElem?_eq_some_iff.mp hl).1
  obtain ⟨z, h1, h2, h3, h4, h5⟩ := morph_spec hv hnd hax hl
  have hzn : z.ndim = y.ndim := by rw [← h3.label_length, ← hv.label_length, h2]; simp
  have hzl : z.label[ax]? = some lab := by rw [h2]; simp [hlt]
  obtain ⟨w, g1, g2, g3, g4, g5⟩ := morph_spec h3 hnd' (by rw [hzn]; exact hax) hzl
  obtain ⟨w', k1, k2, k3, k4, k5⟩ := morph_spec hv hnd' hax hl
  have hlabel : w.label = w'.label := by rw [g2, h2, k2, List.set_set]
  have hno1 : ¬ ∃ b ∈ lab, b ∉ l := fun ⟨b, hb, h⟩ => h (hsub b hb)
  have hno2 : ¬ ∃ b ∈ lab', b ∉ lab := fun ⟨b, hb, h⟩ => h (hsub' b hb)
  have hno3 : ¬ ∃ b ∈ lab', b ∉ l := fun ⟨b, hb, h⟩ => h (hsub b (hsub' b hb))
  have hdt : w.dtype = w'.dtype := by
    rw [g4, k4, h4]
    unfold morphDType
    simp only [hno1, hno2, hno3, or_false]
    have e0 : lab = [] → lab' = [] := fun h =>
      List.eq_nil_iff_forall_not_mem.mpr (fun b hb => by have := hsub' b hb; simp [h] at this)
    have e4 : l = [] → lab = [] := fun h =>
      List.eq_nil_iff_forall_not_mem.mpr (fun b hb => by have := hsub b hb; simp [h] at this)
    clear * - e0 e4
    by_cases e2 : lab' = []
    · subst e2
      by_cases e1 : lab = []
      · subst e1; cases y.dtype <;> by_cases e3 : l = [] <;> simp [e3]
      · have e3 : l ≠ [] := fun h => e1 (e4 h)
        cases y.dtype <;> simp [e1, e3]
    · have e1 : lab ≠ [] := fun h => e2 (e0 h)
      simp [e1, e2]
  refine ⟨z, w, w', h1, g1, k1, g3.same_of_has k3 hlabel hdt ?_⟩
  intro names v hwv
  have hNw : Named w'.label names := hlabel ▸ Named_of_Holds hwv
  have hlab'ne : lab' ≠ [] := by
    rintro rfl
    rw [k2, Named_set_iff hlt] at hNw
    obtain ⟨_, n, _, hn⟩ := hNw
    simp at hn
  have hlabne : lab ≠ [] := by
    obtain ⟨b, hb⟩ := List.exists_mem_of_ne_nil _ hlab'ne
    exact List.ne_nil_of_mem (hsub' b hb)
  have hd1 : z.dtype = y.dtype := by
    rw [h4, morphDType, if_neg]
    rintro ⟨_, _, h | h⟩
    · exact hlabne h
    · exact hno1 h
  have hd2 : w.dtype = z.dtype := by
    rw [g4, morphDType, if_neg]
    rintro ⟨_, _, h | h⟩
    · exact hlab'ne h
    · exact hno2 h
  refine (k5 names v).mpr ⟨hNw, .inl ⟨v, ?_, by rw [← hdt, hd2, hd1]; simp [castVal_self]⟩⟩
  have hNz : Named z.label names := by
    rw [k2, Named_set_iff hlt] at hNw
    rw [h2, Named_set_iff hlt]
    obtain ⟨h6, n, hn, hnl⟩ := hNw
    exact ⟨h6, n, hn, hsub' n hnl⟩
  have hNy : Named y.label names := by
    rw [h2, Named_set_iff hlt] at hNz
    rw [Named_iff_except hl]
    obtain ⟨h6, n, hn, hnl⟩ := hNz
    exact ⟨h6, n, hn, hsub n hnl⟩
  obtain ⟨_, ⟨u, hu, rfl⟩ | ⟨hno, _⟩⟩ := (g5 names v).mp hwv
  · obtain ⟨_, ⟨u', hu', rfl⟩ | ⟨hno, _⟩⟩ := (h5 names u).mp hu
    · rw [hd2, hd1]
      simp only [castVal_self, id]
      exact hu'
    · exact absurd hNy hno
  · exact absurd hNz hno

example : [2, 3, 1].Perm [3, 1, 2] := by decide

/-- C15. `y.morph_like(z)`: exactly `z`'s labels; `y`'s values where `y` has the names, the missing
marker elsewhere; float exactly when `y` is int or bool and some axis' label list differs and is
empty or contains a new label. -/
theorem C15_morph_like [LinearOrder L] {y lar : Larry L} (hv : y.Valid) (hl : lar.Valid)
    (hn : y.ndim = lar.ndim) :
    ∃ z, y.morphLike lar = .ok z ∧ z.Valid ∧ z.label = lar.label ∧
      (((y.dtype = .int ∨ y.dtype = .bool) ∧ (∃ p ∈ y.label.zip lar.label,
        p.1 ≠ p.2 ∧ (p.2 = [] ∨ ∃ b ∈ p.2, b ∉ p.1)) → z.dtype = .float) ∧
       (¬ ((y.dtype = .int ∨ y.dtype = .bool) ∧ (∃ p ∈ y.label.zip lar.label,
        p.1 ≠ p.2 ∧ (p.2 = [] ∨ ∃ b ∈ p.2, b ∉ p.1))) → z.dtype = y.dtype)) ∧
      (∀ names v, y.Has names v → Named lar.label names →
        z.get names = .ok (if z.dtype = y.dtype then v else v.toFloat)) ∧
      (∀ names, Named lar.label names → ¬ Named y.label names →
        ∃ m, z.get names = .ok m ∧ missingMarker z.dtype = some m) := by
  obtain ⟨z, h1, h2⟩ := morphLikeLoop_spec hv hl hn y.ndim 0 (by omega) (MorphedTo.zero hv _)
  have hll : lar.label.length = y.ndim := by rw [hl.label_length, hn]
  have hlabel : z.label = lar.label := by
    rw [h2.label_eq, ← hll, List.take_length, hll, ← hv.label_length, List.drop_length,
      List.append_nil]
  have hd := h2.dtype_eq
  rw [List.take_of_length_le (by simp [hll])] at hd
  refine ⟨z, ?_, h2.valid, hlabel, ⟨fun h => ?_, fun h => ?_⟩, ?_, ?_⟩
  · simp only [Larry.morphLike, hn, ne_eq, not_true_eq_false, if_false]
    rw [← hn, List.range_eq_range']; exact h1
  · rw [hd, likeDType]; exact if_pos h
  · rw [hd, likeDType]; exact if_neg h
  · intro names v hh hN
    rw [get_ok_iff h2.valid]
    refine (h2.re names _).mpr ⟨hlabel ▸ hN, .inl ⟨v, hh, ?_⟩⟩
    simp [castVal, eq_comm]
  · intro names hN hno
    obtain ⟨m, hm⟩ := Holds_of_Named (x := z.x) (label := z.label) (hlabel ▸ hN)
    refine ⟨m, (get_ok_iff h2.valid).mpr hm, ?_⟩
    rcases ((h2.re names m).mp hm).2 with ⟨w, hw, _⟩ | ⟨_, h⟩
    · exact absurd (Named_of_Holds hw) hno
    · exact h

/-- C15: IndexError when the number of dimensions differs. -/
theorem C15_morph_like_ndim [LinearOrder L] {y lar : Larry L} (hn : y.ndim ≠ lar.ndim) :
    y.morphLike lar = .error .indexError := by
  simp [Larry.morphLike, hn]

example : exA.Valid ∧ exB.Valid ∧ exB.ndim = exA.ndim := ⟨exA_valid, exB_valid, by decide⟩

end La
