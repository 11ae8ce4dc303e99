import Verif.Reorder

/-! # Order of labels: the methods that rearrange, select or rename (property C66) -/

namespace La
namespace Larry
variable {L : Type _}

theorem forall₂_of_get {a b : List (List L)} (hlen : a.length = b.length)
    (h : ∀ (k : Nat) l l', a[k]? = some l → b[k]? = some l' → l.Perm l') : List.Forall₂ List.Perm a b :=
  List.forall₂_iff_get.mpr ⟨hlen, fun k h1 h2 => h k _ _ (List.getElem?_eq_getElem h1) (List.getElem?_eq_getElem h2)⟩

section
variable [LinearOrder L]

theorem sortaxis_reordered {y z : Larry L} (hv : y.Valid) {axis : Option Int} {reverse : Bool}
    (h : y.sortaxis axis reverse = .ok z) : z.Reordered y := by
  have key : ∀ axes, AxesMeant y.ndim axis axes → z.Reordered y := by
    intro axes hm
    obtain ⟨z', h1, -, h3, h4, h5, h6⟩ := C24_sortaxis hv reverse hm
    rw [h1] at h
    obtain rfl : z' = z := by simpa using h
    refine ⟨h3, forall₂_of_get h4 fun k l l' hl hl' => ?_, h6⟩
    by_cases hk : k ∈ axes
    · exact ((h5 k l' l hl' hl).1 hk).1
    · rw [(h5 k l' l hl' hl).2 hk]
  cases axis with
  | none => exact key _ rfl
  | some a =>
    cases ha : pyIdx y.ndim a with
    | none => rw [C24_sortaxis_axis reverse (pyIdx_none.mp ha)] at h; simp at h
    | some ax => exact key _ (axesMeant_of ha)

omit [LinearOrder L] in
theorem flipaxis_reordered {y z : Larry L} (hv : y.Valid) {axis : Option Int} (h : y.flipaxis axis = .ok z) :
    z.Reordered y := by
  have key : ∀ axes, AxesMeant y.ndim axis axes → z.Reordered y := by
    intro axes hm
    obtain ⟨z', h1, -, h3, h4, h5, h6⟩ := C25_flipaxis hv hm
    rw [h1] at h
    obtain rfl : z' = z := by simpa using h
    refine ⟨h3, forall₂_of_get h4 fun k l l' hl hl' => ?_, h6⟩
    by_cases hk : k ∈ axes
    · rw [(h5 k l' l hl' hl).1 hk]; exact List.reverse_perm _
    · rw [(h5 k l' l hl' hl).2 hk]
  cases axis with
  | none => exact key _ rfl
  | some a =>
    cases ha : pyIdx y.ndim a with
    | none => rw [C25_flipaxis_axis hv (pyIdx_none.mp ha)] at h; simp at h
    | some ax => exact key _ (axesMeant_of ha)

theorem sortaxis_agree {y y' : Larry L} (hy : y.Valid) (hy' : y'.Valid) (h : y.Reordered y') (axis : Option Int)
    (reverse : Bool) : Res.Agree Reordered (y.sortaxis axis reverse) (y'.sortaxis axis reverse) := by
  have hn := h.ndim_eq hy hy'
  have key : ∀ axes, AxesMeant y.ndim axis axes →
      Res.Agree Reordered (y.sortaxis axis reverse) (y'.sortaxis axis reverse) := by
    intro axes hm
    obtain ⟨z, h1, -⟩ := C24_sortaxis hy reverse hm
    obtain ⟨z', h1', -⟩ := C24_sortaxis hy' reverse (hn ▸ hm)
    exact .ok h1 h1' ((sortaxis_reordered hy h1).trans (h.trans (sortaxis_reordered hy' h1').symm))
  cases axis with
  | none => exact key _ rfl
  | some a =>
    cases ha : pyIdx y.ndim a with
    | none =>
      exact .error (C24_sortaxis_axis reverse (pyIdx_none.mp ha))
        (C24_sortaxis_axis reverse (pyIdx_none.mp (hn ▸ ha)))
    | some ax => exact key _ (axesMeant_of ha)

omit [LinearOrder L] in
theorem flipaxis_agree {y y' : Larry L} (hy : y.Valid) (hy' : y'.Valid) (h : y.Reordered y') (axis : Option Int) :
    Res.Agree Reordered (y.flipaxis axis) (y'.flipaxis axis) := by
  have hn := h.ndim_eq hy hy'
  have key : ∀ axes, AxesMeant y.ndim axis axes → Res.Agree Reordered (y.flipaxis axis) (y'.flipaxis axis) := by
    intro axes hm
    obtain ⟨z, h1, -⟩ := C25_flipaxis hy hm
    obtain ⟨z', h1', -⟩ := C25_flipaxis hy' (hn ▸ hm)
    exact .ok h1 h1' ((flipaxis_reordered hy h1).trans (h.trans (flipaxis_reordered hy' h1').symm))
  cases axis with
  | none => exact key _ rfl
  | some a =>
    cases ha : pyIdx y.ndim a with
    | none =>
      exact .error (C25_flipaxis_axis hy (pyIdx_none.mp ha))
        (C25_flipaxis_axis hy' (pyIdx_none.mp (hn ▸ ha)))
    | some ax => exact key _ (axesMeant_of ha)

omit [LinearOrder L] in
theorem wanted_congr {l l' lab lab' : List L} {P : L → Prop} (hp : l.Perm l') (hn : l.Nodup) (hn' : l'.Nodup)
    (s1 : lab.Sublist l) (s1' : lab'.Sublist l') (m : ∀ b, b ∈ lab ↔ b ∈ l ∧ P b)
    (m' : ∀ b, b ∈ lab' ↔ b ∈ l' ∧ P b) : lab.Perm lab' := by
  rw [List.perm_ext_iff_of_nodup (hn.sublist s1) (hn'.sublist s1')]
  intro b
  rw [m, m', hp.mem_iff]

omit [LinearOrder L] in
theorem PartOf.reordered {y y' z z' : Larry L} (h : y.Reordered y') {lab lab' : List (List L)}
    (hl : List.Forall₂ List.Perm lab lab') (hz : z.PartOf y lab) (hz' : z'.PartOf y' lab') : z.Reordered z' :=
  ⟨by rw [hz.dtype_eq, hz'.dtype_eq, h.dtype_eq], by rw [hz.label_eq, hz'.label_eq]; exact hl,
    fun names v => by rw [hz.has, hz'.has, h.has, named_congr hl]⟩

theorem keepLabel_agree {y y' : Larry L} (hy : y.Valid) (hy' : y'.Valid) (h : y.Reordered y') (op : LabelOp L)
    (axis : Option Int) : Res.Agree Reordered (y.keepLabel op axis) (y'.keepLabel op axis) := by
  have hn := h.ndim_eq hy hy'
  by_cases hop : op = .unknown
  · subst hop
    exact .error ((C38_keep_label_errors hy .unknown).1 axis) ((C38_keep_label_errors hy' .unknown).1 axis)
  cases axis with
  | none => exact .error (C38_keep_label_errors hy op).2.1 (C38_keep_label_errors hy' op).2.1
  | some a =>
    cases ha : pyIdx y.ndim a with
    | none =>
      exact .error ((C38_keep_label_errors hy op).2.2 a hop ha)
        ((C38_keep_label_errors hy' op).2.2 a hop (hn ▸ ha))
    | some ax =>
      obtain ⟨l, hl⟩ := axis_label hy ha
      obtain ⟨l', hl', hp⟩ := h.get? hl
      have k := C38_keep_label hy hop ha hl
      have k' := C38_keep_label hy' hop (hn ▸ ha) hl'
      have hnd := hy.nodup l (List.mem_of_getElem? hl)
      have hnd' := hy'.nodup l' (List.mem_of_getElem? hl')
      by_cases hw : ∃ b ∈ l, Wanted op b
      · have hw' : ∃ b ∈ l', Wanted op b := by simpa only [hp.mem_iff] using hw
        obtain ⟨z, lab, e1, e2, e3, e4⟩ := k.2 hw
        obtain ⟨z', lab', e1', e2', e3', e4'⟩ := k'.2 hw'
        exact .ok e1 e1' (PartOf.reordered h
          (forall₂_set h.label ax (wanted_congr hp hnd hnd' e3 e3' e4 e4')) e2 e2')
      · have hw0 : ∀ b ∈ l, ¬ Wanted op b := fun b hb hb' => hw ⟨b, hb, hb'⟩
        have hw0' : ∀ b ∈ l', ¬ Wanted op b := fun b hb => hw0 b (hp.mem_iff.mpr hb)
        obtain ⟨z, e1, e2, e3, e4⟩ := k.1 hw0
        obtain ⟨z', e1', e2', e3', e4'⟩ := k'.1 hw0'
        refine .ok e1 e1' ⟨e4.trans e4'.symm, by rw [e2, e2']; exact .cons (.refl _) .nil, fun names v => ?_⟩
        have : ∀ (w : Larry L), w.label = [[]] → ¬ w.Has names v := by
          rintro w hw ⟨idx, hat, -⟩
          rw [hw] at hat
          cases idx with
          | nil => exact hat
          | cons i is => cases names with
            | nil => exact hat
            | cons n ns => simp [At] at hat
        simp [this z e2, this z' e2']

theorem pull_agree {y y' : Larry L} (hy : y.Valid) (hy' : y'.Valid) (h : y.Reordered y') (name : L)
    (axis : Option Int) : Res.Agree Out.Reordered (y.pull name axis) (y'.pull name axis) := by
  have hn := h.ndim_eq hy hy'
  cases axis with
  | none => exact .error (C31_pull_errors hy name).1 (C31_pull_errors hy' name).1
  | some a =>
    cases ha : pyIdx y.ndim a with
    | none => exact .error ((C31_pull_errors hy name).2.1 a ha) ((C31_pull_errors hy' name).2.1 a (hn ▸ ha))
    | some ax =>
      obtain ⟨l, hl⟩ := axis_label hy ha
      obtain ⟨l', hl', hp⟩ := h.get? hl
      by_cases hm : name ∈ l
      · have k := C31_pull hy ha hl hm
        have k' := C31_pull hy' (hn ▸ ha) hl' (hp.mem_iff.mp hm)
        by_cases h1 : y.ndim = 1
        · exact .error (k.1 h1) (k'.1 (hn ▸ h1))
        · have hE := forall₂_eraseIdx h.label ax
          by_cases hs : ∃ m, y.label.eraseIdx ax = [[m]]
          · obtain ⟨m, hs⟩ := hs
            have hs' : y'.label.eraseIdx ax = [[m]] := by
              rw [hs] at hE
              generalize y'.label.eraseIdx ax = e at hE
              cases hE with
              | cons p q => cases q; rw [List.perm_singleton.mp p.symm]
            obtain ⟨v, e1, e2⟩ := k.2.1 m hs
            obtain ⟨v', e1', e2'⟩ := k'.2.1 m hs'
            exact .ok e1 e1' (Holds_unique hy'.nodup ((h.has _ _).mp e2) e2')
          · have hs1 : ∀ m, y.label.eraseIdx ax ≠ [[m]] := fun m hm => hs ⟨m, hm⟩
            have hs1' : ∀ m, y'.label.eraseIdx ax ≠ [[m]] := by
              intro m hm
              rw [hm] at hE
              generalize y.label.eraseIdx ax = e at hE hs1
              cases hE with
              | cons p q => cases q; exact hs1 m (by rw [List.perm_singleton.mp p])
            obtain ⟨z, e1, e2, e3, e4, e5⟩ := k.2.2 h1 hs1
            obtain ⟨z', e1', e2', e3', e4', e5'⟩ := k'.2.2 (hn ▸ h1) hs1'
            refine .ok e1 e1' ⟨by rw [e3, e3', h.dtype_eq], by rw [e4, e4']; exact hE, fun names v => ?_⟩
            rw [e5, e5', hn, h.has]
      · exact .error ((C31_pull_errors hy name).2.2 a ax l ha hl hm)
          ((C31_pull_errors hy' name).2.2 a ax l' (hn ▸ ha) hl' (fun h' => hm (hp.mem_iff.mpr h')))

omit [LinearOrder L] in
theorem forall₂_reverse {a b : List (List L)} (h : List.Forall₂ List.Perm a b) :
    List.Forall₂ List.Perm a.reverse b.reverse := List.rel_reverse h

omit [LinearOrder L] in
theorem T_reordered {y y' : Larry L} (hy : y.Valid) (hy' : y'.Valid) (h : y.Reordered y') : y.T.Reordered y'.T := by
  obtain ⟨-, d, l, k, -⟩ := C27_transpose hy
  obtain ⟨-, d', l', k', -⟩ := C27_transpose hy'
  refine ⟨by rw [d, d', h.dtype_eq], by rw [l, l']; exact forall₂_reverse h.label, fun names v => ?_⟩
  have e := k names.reverse v
  have e' := k' names.reverse v
  rw [List.reverse_reverse] at e e'
  rw [e, e', h.has]

omit [LinearOrder L] in
theorem swapaxes_agree {y y' : Larry L} (hy : y.Valid) (hy' : y'.Valid) (h : y.Reordered y') (a b : Int) :
    Res.Agree Reordered (y.swapaxes a b) (y'.swapaxes a b) := by
  have hn := h.ndim_eq hy hy'
  have hlen := hy.label_length
  have hlen' := hy'.label_length
  by_cases hE : pyIdx y.ndim a = none ∨ pyIdx y.ndim b = none
  · exact .error (C27_swapaxes_axis hy hE) (C27_swapaxes_axis hy' (hn ▸ hE))
  · push Not at hE
    obtain ⟨i, hi⟩ := Option.ne_none_iff_exists'.mp hE.1
    obtain ⟨j, hj⟩ := Option.ne_none_iff_exists'.mp hE.2
    have li := pyIdx_lt hi
    have lj := pyIdx_lt hj
    obtain ⟨z, e1, e2, e3, e4, e5, -⟩ := C27_swapaxes hy hi hj
    obtain ⟨z', e1', e2', e3', e4', e5', -⟩ := C27_swapaxes hy' (hn ▸ hi) (hn ▸ hj)
    have f4 := e4
    have f4' := e4'
    rw [exchanged_iff (by omega) (by omega)] at f4 f4'
    refine .ok e1 e1' ⟨by rw [e3, e3', h.dtype_eq], ?_, ?_⟩
    · refine forall₂_of_get (by rw [e4.1, e4'.1, h.label.length_eq]) fun k l l' hl hl' => ?_
      have get : ∀ {m : Nat}, y.label[m]? = some l → y'.label[m]? = some l' → l.Perm l' := by
        intro m h1 h2
        obtain ⟨l2, g1, g2⟩ := h.get? h1
        rw [g1] at h2; simp only [Option.some.injEq] at h2; exact h2 ▸ g2
      by_cases k1 : k = i
      · subst k1; rw [e4.2.1] at hl; rw [e4'.2.1] at hl'; exact get hl hl'
      · by_cases k2 : k = j
        · subst k2; rw [e4.2.2.1] at hl; rw [e4'.2.2.1] at hl'; exact get hl hl'
        · rw [e4.2.2.2 k k1 k2] at hl; rw [e4'.2.2.2 k k1 k2] at hl'; exact get hl hl'
    · intro names v
      by_cases hl : names.length = y.ndim
      · have hX : Exchanged i j (swapList names i j) names := by
          rw [exchanged_iff (by rw [swapList_length]; omega) (by rw [swapList_length]; omega)]
          refine List.ext_getElem? fun k => ?_
          rw [swapList_getElem? (by rw [swapList_length]; omega) (by rw [swapList_length]; omega)]
          simp only [swapList_getElem? (show i < names.length by omega) (show j < names.length by omega)]
          by_cases k1 : k = i <;> by_cases k2 : k = j <;> simp_all
        have hs : (swapList names i j).length = y.ndim := by rw [swapList_length]; exact hl
        rw [e5 _ names v hX hs, e5' _ names v hX (hn ▸ hs), h.has]
      · have : ∀ {w : Larry L}, w.label.length = y.ndim → ¬ w.Has names v := by
          rintro w hw ⟨idx, hat, -⟩
          exact hl ((At_length hat).2.trans hw)
        simp [this (w := z) (by rw [e4.1, hlen]), this (w := z') (by rw [e4'.1, hlen', hn])]

omit [LinearOrder L] in
theorem dropUnit_perm {shape : List Nat} {a b : List (List L)} (h : List.Forall₂ List.Perm a b) :
    List.Forall₂ List.Perm (dropUnit shape a) (dropUnit shape b) := by
  induction h generalizing shape with
  | nil => cases shape <;> exact .nil
  | cons h1 _ ih => cases shape with
    | nil => exact .nil
    | cons n ns =>
      simp only [dropUnit]
      split
      · exact ih
      · exact .cons h1 ih

omit [LinearOrder L] in
theorem squeeze_reordered {y y' : Larry L} (hy : y.Valid) (hy' : y'.Valid) (h : y.Reordered y') :
    y.squeeze.Reordered y'.squeeze := by
  have hs : y.shape = y'.shape := h.shape_eq hy hy'
  obtain ⟨l, d, k1, k2, -⟩ := C32_squeeze hy
  obtain ⟨l', d', k1', k2', -⟩ := C32_squeeze hy'
  refine ⟨by rw [d, d', h.dtype_eq], by rw [l, l', hs]; exact dropUnit_perm h.label, fun names v => ?_⟩
  constructor
  · intro hh
    obtain ⟨n, rfl, hn⟩ := k2 _ _ hh
    rw [hs]; exact k1' n v ((h.has _ _).mp hn)
  · intro hh
    obtain ⟨n, rfl, hn⟩ := k2' _ _ hh
    rw [← hs]; exact k1 n v ((h.has _ _).mpr hn)

omit [LinearOrder L] in
theorem forall₂_insertIdx {a b : List (List L)} (h : List.Forall₂ List.Perm a b) (k : Nat) (l : List L) :
    List.Forall₂ List.Perm (a.insertIdx k l) (b.insertIdx k l) := by
  induction h generalizing k with
  | nil => cases k with
    | zero => exact .cons (.refl _) .nil
    | succ k => exact .nil
  | cons h1 h2 ih => cases k with
    | zero => exact .cons (.refl _) (.cons h1 h2)
    | succ k => exact .cons h1 (ih k)

omit [LinearOrder L] in
theorem valid_congr {lab lab' : List (List L)} {shape : List Nat} (h : List.Forall₂ List.Perm lab lab') :
    ValidLabels lab shape → ValidLabels lab' shape := by
  intro hv
  refine ⟨by rw [hv.shape_eq, Reordered.lengths h], ?_, fun h0 => ?_⟩
  · have := hv.nodup
    clear hv
    induction h with
    | nil => simp
    | cons h1 _ ih =>
      simp only [List.mem_cons, forall_eq_or_imp] at this ⊢
      exact ⟨h1.nodup_iff.mp this.1, ih this.2⟩
  · exact hv.ndim_pos (List.length_eq_zero_iff.mp (by rw [h.length_eq, h0]; rfl))

theorem insertaxis_agree {y y' : Larry L} (hy : y.Valid) (hy' : y'.Valid) (h : y.Reordered y') (axis : Option Int)
    (name : L) : Res.Agree Reordered (y.insertaxis axis name) (y'.insertaxis axis name) := by
  have hn := h.ndim_eq hy hy'
  have hlen := hy.label_length
  have hlen' := hy'.label_length
  cases axis with
  | none => exact .error (e := .valueError) rfl rfl
  | some a =>
    by_cases ha : a < -(y.ndim + 1 : Int)
    · have ha' : a < -(y'.ndim + 1 : Int) := by omega
      -- far to the left: the two calls are the same up to the labels
      have hsh := h.shape_eq hy hy'
      have hins : ∀ (w : Larry L), w.label.length = y.ndim → pyInsert w.label
          (if a = -1 then (w.label.length : Int) else if a < -1 then a + 1 else a) [name] = [name] :: w.label := by
        intro w hw
        rw [if_neg (by omega), if_pos (by omega)]
        unfold pyInsert
        rw [if_pos (by omega)]
        have : (Max.max 0 (a + 1 + (w.label.length : Int))).toNat = 0 := by omega
        simp [this]
      have e : y.insertaxis (some a) name = mk' (y.x.expandDims a) y.dtype ([name] :: y.label) := by
        show mk' _ _ (pyInsert _ _ _) = _
        rw [hins y hlen]
      have e' : y'.insertaxis (some a) name = mk' (y'.x.expandDims a) y'.dtype ([name] :: y'.label) := by
        show mk' _ _ (pyInsert _ _ _) = _
        rw [hins y' (by omega)]
      have hp : List.Forall₂ List.Perm ([name] :: y.label) ([name] :: y'.label) := .cons (.refl _) h.label
      have hs : (y.x.expandDims a).shape = (y'.x.expandDims a).shape := by
        simp [NDArray.expandDims, NDArray.ndim, hsh]
      by_cases hv : ValidLabels ([name] :: y.label) (y.x.expandDims a).shape
      · have hv' : ValidLabels ([name] :: y'.label) (y'.x.expandDims a).shape := hs ▸ valid_congr hp hv
        have f := (C06_constructor (y.x.expandDims a) y.dtype ([name] :: y.label)).1 hv
        have f' := (C06_constructor (y'.x.expandDims a) y'.dtype ([name] :: y'.label)).1 hv'
        rcases C31_insertaxis_far hy name ha with k | ⟨z, k1, k2, k3, k4, k5⟩
        · rw [e, f] at k; simp at k
        rcases C31_insertaxis_far hy' name ha' with k' | ⟨z', k1', k2', k3', k4', k5'⟩
        · rw [e', f'] at k'; simp at k'
        refine .ok k1 k1' ⟨by rw [k3, k3', h.dtype_eq], by rw [k4, k4']; exact hp, fun names v => ?_⟩
        cases names with
        | nil =>
          constructor
          · rintro ⟨idx, hat, -⟩
            rw [k4] at hat; cases idx <;> simp [At] at hat
          · rintro ⟨idx, hat, -⟩
            rw [k4'] at hat; cases idx <;> simp [At] at hat
        | cons n ns =>
          by_cases hnn : n = name
          · subst hnn; rw [k5, k5', h.has]
          · constructor
            · intro hh
              have := Named_of_Holds hh
              rw [k4] at this; simp [Named, hnn] at this
            · intro hh
              have := Named_of_Holds hh
              rw [k4'] at this; simp [Named, hnn] at this
      · have hv' : ¬ ValidLabels ([name] :: y'.label) (y'.x.expandDims a).shape := fun hh =>
          hv (hs ▸ valid_congr (List.Forall₂.flip (hp.imp fun _ _ p => p.symm)) hh)
        rw [e, e']
        exact .error ((C06_constructor _ _ _).2 hv) ((C06_constructor _ _ _).2 hv')
    · obtain ⟨p, hp⟩ : ∃ p, NewAxisAt y.ndim a p := by
        by_cases h0 : 0 ≤ a
        · exact ⟨(Min.min a y.ndim).toNat, .inl ⟨h0, by omega⟩⟩
        · exact ⟨(a + y.ndim + 1).toNat, .inr ⟨by omega, by omega, by omega⟩⟩
      have hple : p ≤ y.ndim := by rcases hp with ⟨-, h1⟩ | ⟨h0, -, h1⟩ <;> omega
      obtain ⟨z, k1, k2, k3, k4, k5⟩ := C31_insertaxis hy name hp
      obtain ⟨z', k1', k2', k3', k4', k5'⟩ := C31_insertaxis hy' name (hn ▸ hp)
      refine .ok k1 k1' ⟨by rw [k3, k3', h.dtype_eq], by rw [k4, k4']; exact forall₂_insertIdx h.label p _,
        fun names v => ?_⟩
      have key : ∀ {w w' : Larry L} {u u' : Larry L}, u.Valid → u.ndim = y.ndim → w.label = u.label.insertIdx p [name] →
          w.Has names v → ∃ ns : List L, names = ns.insertIdx p name ∧ ns.length = y.ndim := by
        intro w w' u u' hu hun hw hh
        have hN := Named_iff.mp (Named_of_Holds hh)
        have hul := hu.label_length
        rw [hw, List.length_insertIdx_of_le_length (by omega)] at hN
        obtain ⟨n, ns, rfl, h4, -⟩ := exists_insertIdx (l := names) (k := p) (by omega)
        have hnl : ns.length = y.ndim := by
          rw [h4, List.length_eraseIdx_of_lt (by omega)]; omega
        have : n ∈ [name] := hN.2 p [name] n (by exact List.getElem?_insertIdx_self .. |>.trans (if_pos (by omega)))
          (List.getElem?_insertIdx_self .. |>.trans (if_pos (by omega)))
        obtain rfl := List.mem_singleton.mp this
        exact ⟨ns, rfl, hnl⟩
      constructor
      · intro hh
        obtain ⟨ns, rfl, hns⟩ := key (w' := z) (u' := y) hy rfl k4 hh
        rw [k5' _ _ (by omega), ← h.has, ← k5 _ _ hns]; exact hh
      · intro hh
        obtain ⟨ns, rfl, hns⟩ := key (w' := z) (u' := y) hy' hn.symm k4' hh
        rw [k5 _ _ hns, h.has, ← k5' _ _ (by omega)]; exact hh

theorem set_agree {y y' : Larry L} (hy : y.Valid) (hy' : y'.Valid) (h : y.Reordered y') (names : List L) (v : Val) :
    Res.Agree Reordered (y.set names v) (y'.set names v) := by
  have hn := h.ndim_eq hy hy'
  have k := C08_set hy names v
  have k' := C08_set hy' names v
  by_cases hN : Named y.label names
  · obtain ⟨z, e1, e2, e3, -, e4, e5, e6⟩ := k.1 hN
    obtain ⟨z', e1', e2', e3', -, e4', e5', e6'⟩ := k'.1 ((named_congr h.label names).mp hN)
    refine .ok e1 e1' ⟨by rw [e4, e4', h.dtype_eq], by rw [e3, e3']; exact h.label, fun ns w => ?_⟩
    rw [← get_ok_iff e2, ← get_ok_iff e2']
    by_cases hns : ns = names
    · subst hns; rw [e5, e5']
    · rw [e6 ns hns, e6' ns hns, get_ok_iff hy, get_ok_iff hy', h.has]
  · have hN' : ¬ Named y'.label names := fun hh => hN ((named_congr h.label names).mpr hh)
    have g := (C07_get hy names).2.2.2
    have g' := (C07_get hy' names).2.2.2
    by_cases hl : names.length = y.ndim
    · exact .error ((k.2 .indexError).mpr ((g _).mpr (.inr ⟨hl, hN, rfl⟩)))
        ((k'.2 .indexError).mpr ((g' _).mpr (.inr ⟨by omega, hN', rfl⟩)))
    · exact .error ((k.2 .valueError).mpr ((g _).mpr (.inl ⟨hl, rfl⟩)))
        ((k'.2 .valueError).mpr ((g' _).mpr (.inl ⟨by omega, rfl⟩)))

theorem get_agree {y y' : Larry L} (hy : y.Valid) (hy' : y'.Valid) (h : y.Reordered y') (names : List L) :
    y.get names = y'.get names := by
  have hn := h.ndim_eq hy hy'
  by_cases hN : Named y.label names
  · obtain ⟨v, hv⟩ := Holds_of_Named (x := y.x) hN
    rw [(get_ok_iff hy).mpr hv, (get_ok_iff hy').mpr ((h.has _ _).mp hv)]
  · have hN' : ¬ Named y'.label names := fun hh => hN ((named_congr h.label names).mpr hh)
    have g := (C07_get hy names).2.2.2
    have g' := (C07_get hy' names).2.2.2
    by_cases hl : names.length = y.ndim
    · rw [(g _).mpr (.inr ⟨hl, hN, rfl⟩), (g' _).mpr (.inr ⟨by omega, hN', rfl⟩)]
    · rw [(g _).mpr (.inl ⟨hl, rfl⟩), (g' _).mpr (.inl ⟨by omega, rfl⟩)]

end

end Larry
end La
