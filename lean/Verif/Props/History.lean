import Verif.History
import Verif.Props.Core
import Verif.Props.Merge
import Verif.Props.Axes
import Verif.Props.Structure
import Verif.Props.Reduce
import Verif.Props.Missing
import Verif.Props.Index
import Verif.SetitemFacts
import Verif.Props.Move

/-!
# Property C64: histories keep larrys well-formed
-/

namespace La
open Larry
variable {L : Type _} [LinearOrder L]

/-! ## Specification -/

/-- The join skips no axis. -/
def JoinArg.NoSkip : JoinArg → Prop
  | .one j => j ≠ .skip
  | .many js => ∀ j ∈ js, j ≠ .skip

/-- What the documentation leaves to the caller.  Every other call needs nothing.
- arithmetic with an array: the array broadcasts to the shape of the larry, not beyond;
- `squeeze`: some axis has a length other than 1;
- `maplabel`: the function keeps the labels of an axis apart;
- `binaryop`: no axis is skipped. -/
def Cmd.Fair (st : Store L) : Cmd L → Prop
  | .binopArray _ i x _ => ∀ y, st[i]? = some y → BFits y.shape x.shape
  | .squeeze i => ∀ y, st[i]? = some y → ∃ n ∈ y.shape, n ≠ 1
  | .maplabel i f none => ∀ y, st[i]? = some y → ∀ l ∈ y.label, (l.map f).Nodup
  | .maplabel i f (some axis) => ∀ y, st[i]? = some y → ∀ (k : Nat) l, y.label[k]? = some l →
      (axis = k ∨ axis = (k : Int) - y.ndim) → (l.map f).Nodup
  | .binaryop _ _ _ _ join _ _ _ => join.NoSkip
  | _ => True

/-- Every call of the history is fair when its turn comes. -/
def FairAll : Store L → List (Cmd L) → Prop
  | _, [] => True
  | st, c :: cs => c.Fair st ∧ (∀ st', c.step st = .ok st' → FairAll st' cs) ∧
      (∀ e, c.step st = .error e → FairAll st cs)

/-- All larrys of the program are well-formed. -/
def Store.Valid (st : Store L) : Prop := ∀ y ∈ st, y.Valid

/-! ## One method at a time -/

namespace Larry

theorem valid_shape {y : Larry L} (hv : y.Valid) {x : NDArray Val} {d : DType} (h : x.shape = y.x.shape) :
    Larry.Valid ⟨x, d, y.label⟩ := by
  refine ⟨?_, hv.nodup, hv.ndim_pos⟩
  rw [h]; exact hv.shape_eq

theorem axis_label {y : Larry L} (hv : y.Valid) {axis : Int} {ax : Nat} (h : pyIdx y.ndim axis = some ax) :
    ∃ l, y.label[ax]? = some l :=
  ⟨_, List.getElem?_eq_getElem (by rw [hv.label_length]; exact pyIdx_lt h)⟩

theorem mk'_valid {x : NDArray Val} {d : DType} {label : List (List L)} {z : Larry L}
    (h : mk' x d label = .ok z) : z.Valid := by
  obtain ⟨rfl, hv⟩ := mk'_ok.mp h
  exact hv

theorem morph_valid {y z : Larry L} (hv : y.Valid) {lab : List L} {axis : Int} (h : y.morph lab axis = .ok z) :
    z.Valid := by
  by_cases hnd : lab.Nodup
  · cases hax : pyIdx y.ndim axis with
    | none => rw [C13_morph_error hv (.inr hax)] at h; simp at h
    | some ax =>
      obtain ⟨l, hl⟩ := axis_label hv hax
      obtain ⟨z', h1, h2, -⟩ := C13_morph hv hnd hax hl
      rw [h1] at h
      obtain rfl : z' = z := by simpa using h
      exact h2
  · rw [C13_morph_error hv (.inl hnd)] at h; simp at h

theorem morphLikeLoop_valid {lar : Larry L} : ∀ (is : List Nat) {y z : Larry L}, y.Valid →
    morphLikeLoop lar is y = .ok z → z.Valid
  | [], y, z, hv, h => by
    obtain rfl : y = z := by simpa [morphLikeLoop] using h
    exact hv
  | i :: is, y, z, hv, h => by
    unfold morphLikeLoop at h
    split at h
    · simp at h
    · split at h
      · simp at h
      · rename_i hm; exact morphLikeLoop_valid is (morph_valid hv hm) h

theorem morphLike_valid {y lar z : Larry L} (hv : y.Valid) (h : y.morphLike lar = .ok z) : z.Valid := by
  unfold morphLike at h
  split at h
  · simp at h
  · exact morphLikeLoop_valid _ hv h

theorem binop_valid {uf : UFunc2} {a b z : Larry L} (ha : a.Valid) (hb : b.Valid) (h : binop uf a b = .ok z) :
    z.Valid := by
  by_cases hn : a.ndim = b.ndim
  · cases hd : uf.dt a.dtype b.dtype with
    | error e => rw [C09_binop_dtype_error ha hb hn uf hd] at h; simp at h
    | ok d =>
      obtain ⟨z', h1, h2, -⟩ := C09_binop ha hb hn uf hd
      rw [h1] at h
      obtain rfl : z' = z := by simpa using h
      exact h2
  · rw [C09_binop_ndim ha hb hn uf] at h; simp at h

theorem compare_valid {uf : UFunc2} {a b z : Larry L} (ha : a.Valid) (hb : b.Valid)
    (h : compare uf a b = .ok z) : z.Valid := by
  by_cases hn : a.ndim = b.ndim
  · cases hd : uf.dt a.dtype b.dtype with
    | error e =>
      obtain ⟨x, y, r, h1, _⟩ := align_spec ha hb hn
      simp [compare, h1, npBinop_dtError hd] at h
    | ok d =>
      obtain ⟨z', h1, h2, -⟩ := C11_compare ha hb hn uf hd
      rw [h1] at h
      obtain rfl : z' = z := by simpa using h
      exact h2
  · rw [C11_compare_ndim hn uf] at h; simp at h

theorem npBinop_shape {uf : UFunc2} {a b x : NDArray Val} {da db d : DType}
    (h : npBinop uf a da b db = .ok (x, d)) : broadcastShape a.shape b.shape = .ok x.shape := by
  unfold npBinop at h
  split at h
  · simp at h
  · split at h
    · simp at h
    · rename_i h1
      simp only [Except.ok.injEq, Prod.mk.injEq] at h
      rw [h1, ← h.1]

theorem binopArray_valid {uf : UFunc2} {a z : Larry L} (ha : a.Valid) {x : NDArray Val} {d : DType}
    (hf : BFits a.shape x.shape) (h : binopArray uf a x d = .ok z) : z.Valid := by
  unfold binopArray at h
  split at h
  · simp at h
  · rename_i x' d' h1
    obtain rfl : _ = z := by simpa using h
    refine valid_shape ha ?_
    have := npBinop_shape h1
    rw [broadcastShape_fits (show BFits a.x.shape x.shape from hf)] at this
    simpa using this.symm

theorem mergeLoop_valid : ∀ (axs : List Nat) {y1 y2 z1 z2 : Larry L}, y1.Valid → y2.Valid →
    mergeLoop axs y1 y2 = .ok (z1, z2) → z1.Valid
  | [], y1, y2, z1, z2, h1, _, h => by
    simp only [mergeLoop, Except.ok.injEq, Prod.mk.injEq] at h
    rw [← h.1]; exact h1
  | ax :: axs, y1, y2, z1, z2, h1, h2, h => by
    simp only [mergeLoop] at h
    split at h
    · exact mergeLoop_valid axs h1 h2 h
    · split at h
      · simp at h
      · split at h
        · simp at h
        · rename_i g1 _ _ g2
          exact mergeLoop_valid axs (morph_valid h1 g1) (morph_valid h2 g2) h

theorem merge_valid {y other z : Larry L} (hv : y.Valid) (ho : other.Valid) {update : Bool}
    (h : merge y other update = .ok z) : z.Valid := by
  unfold merge at h
  split at h
  · simp at h
  · split at h
    · simp at h
    · rename_i lar1 lar2 hl
      have h1 := mergeLoop_valid _ hv ho hl
      split at h
      · simp at h
      · dsimp only at h
        split at h
        · simp at h
        · split at h
          · split at h
            · obtain rfl : _ = z := by simpa using h
              exact valid_shape h1 rfl
            · simp at h
          · obtain rfl : _ = z := by simpa using h
            exact h1

theorem noSkip_of {n : Nat} {join : JoinArg} {js : List Join} (h : JoinsFor n join js) (hn : join.NoSkip) :
    ∀ j ∈ js, j ≠ .skip := by
  cases join with
  | one j =>
    simp only [JoinsFor] at h
    intro j' hj'
    rw [h] at hj'
    rw [List.eq_of_mem_replicate hj']; exact hn
  | many js' => obtain ⟨rfl, -⟩ := h; exact hn

theorem joinsFor_of {y z : Larry L} {join : JoinArg} {cast : Bool} {r : Larry L × Larry L}
    (h : La.align y z join cast = .ok r) : y.ndim = z.ndim ∧ ∃ js, JoinsFor z.ndim join js := by
  have hns : ¬ (y.ndim ≠ z.ndim ∨ ∃ js, join = .many js ∧ js.length ≠ z.ndim) := by
    intro hh
    rw [C16_align_shape hh] at h; simp at h
  push Not at hns
  refine ⟨hns.1, ?_⟩
  cases join with
  | one j => exact ⟨_, rfl⟩
  | many js => exact ⟨js, rfl, hns.2 js rfl⟩

theorem align_valid {y z z1 z2 : Larry L} (hy : y.Valid) (hz : z.Valid) {join : JoinArg} {cast : Bool}
    (h : La.align y z join cast = .ok (z1, z2)) : z1.Valid ∧ z2.Valid := by
  obtain ⟨hn, js, hj⟩ := joinsFor_of h
  by_cases hok : ∃ e, FailsAt y z js cast e
  · obtain ⟨e, he, -⟩ := C16_align_fails hy hz hn hj hok
    rw [he] at h; simp at h
  · push Not at hok
    obtain ⟨w1, w2, h1, h2, h3, -⟩ := C16_align hy hz hn hj hok
    rw [h1] at h
    simp only [Except.ok.injEq, Prod.mk.injEq] at h
    exact ⟨h.1 ▸ h2, h.2 ▸ h3⟩

theorem binaryop_valid {cv : DType → Val → Val} {uf : UFunc2} {y z : Larry L} (hy : y.Valid) (hz : z.Valid)
    {join : JoinArg} (hs : join.NoSkip) {cast : Bool} {m1 m2 : Option Val} {x : NDArray Val} {d : DType}
    {labs : List (Option (List L))} (h : La.binaryop cv uf y z join cast m1 m2 = .ok (x, d, labs)) :
    Larry.Valid ⟨x, d, labs.map (fun l => l.getD [])⟩ := by
  cases ha : La.align y z join cast with
  | error e => rw [C22_binaryop_align_error cv uf m1 m2 ha] at h; simp at h
  | ok r =>
    obtain ⟨z1, z2⟩ := r
    obtain ⟨hn, js, hj⟩ := joinsFor_of ha
    cases hd : uf.dt z1.dtype z2.dtype with
    | ok d' =>
      obtain ⟨x', h1, -, h3, -⟩ := C22_binaryop hy hz hn hj (noSkip_of hj hs) cv uf m1 m2 ha hd
      rw [h1] at h
      simp only [Except.ok.injEq, Prod.mk.injEq] at h
      obtain ⟨rfl, rfl, rfl⟩ := h
      simpa [Larry.Valid, Function.comp_def] using h3
    | error e =>
      exfalso
      unfold La.align at ha
      split at ha
      · simp at ha
      · rename_i s labs' hraw
        simp only [Except.ok.injEq, Prod.mk.injEq] at ha
        obtain ⟨rfl, rfl⟩ := ha
        simp only [La.binaryop, hraw] at h
        split at h
        · simp at h
        · have e1 : (fillMiss cv m1 m2 s).d1 = s.d1 := by
            unfold fillMiss; cases m1 <;> cases m2 <;> rfl
          have e2 : (fillMiss cv m1 m2 s).d2 = s.d2 := by
            unfold fillMiss; cases m1 <;> cases m2 <;> rfl
          rw [npBinop_dtError (by rw [e1, e2]; exact hd)] at h
          simp at h

theorem alignAxisN_valid {ys zs : List (Larry L)} (hv : ∀ y ∈ ys, y.Valid) {axis : List Int} {join : Join}
    (h : alignAxisN ys axis join = .ok zs) : ∀ z ∈ zs, z.Valid := by
  unfold alignAxisN at h
  split at h
  · simp at h
  · split at h
    · simp at h
    · split at h
      · simp at h
      · split at h
        · simp at h
        · have hf := mapRes_ok.mp h
          intro z hz
          obtain ⟨k, hk, rfl⟩ := List.getElem_of_mem hz
          have hlen := hf.length_eq
          have := (List.forall₂_iff_get.mp hf).2 k (by omega) hk
          simp only [List.get_eq_getElem] at this
          exact morph_valid (hv _ (List.of_mem_zip (List.getElem_mem (by omega))).1) this

theorem stack_valid {mode : Option Bool} {kw : List (L × Larry L)} {z : Larry L} (h : stack mode kw = .ok z) :
    z.Valid := by
  unfold stack at h
  split at h
  · simp at h
  · split at h
    · simp at h
    · split at h
      · simp at h
      · split at h
        · simp at h
        · dsimp only at h
          split at h
          · simp at h
          · exact mk'_valid h

theorem getTuple_valid {y z : Larry L} (hv : y.Valid) {its : List (Item L)}
    (h : y.getTuple its = .ok (.larry z)) : z.Valid := by
  by_cases hseq : its.any Item.isSeq = true
  · unfold getTuple at h
    split at h
    · simp at h
    · split at h
      · simp at h
      · split at h
        · unfold GetOut.ofArray at h; split at h <;> simp at h
        · split at h
          · simp at h
          · rename_i hm
            obtain rfl : _ = z := by simpa using h
            simp only [make, hseq, if_true] at hm
            exact mk'_valid hm
  · have hno : ∀ it ∈ its, it.isSeq = false := by simpa using hseq
    have hm : ∀ m, Item.lar m ∈ its → m.Valid := fun m hmem => by simpa [Item.isSeq] using hno _ hmem
    by_cases hs : Scrambled its
    · obtain ⟨⟨s, p, a, b, -, -, hb, -, hlist⟩, -⟩ := hs
      have hb' := hno b (List.mem_of_getElem? hb)
      exfalso
      have hbad : b = .nd ∨ b = .other := by
        cases b with
        | int i => exact absurd ⟨i, rfl⟩ hlist.1
        | slice s => exact absurd ⟨s, rfl⟩ hlist.2
        | seq is => simp [Item.isSeq] at hb'
        | mask bs => simp [Item.isSeq] at hb'
        | lar m => simp [Item.isSeq] at hb'
        | nd => exact .inl rfl
        | other => exact .inr rfl
      unfold getTuple at h
      split at h
      · simp at h
      · rename_i labs hk
        split at h
        · simp at h
        · rename_i x hx
          have hlen : its.length ≤ y.x.shape.length := by
            unfold NDArray.index npSelect npResolve at hx
            by_contra hgt
            rw [if_pos (by simpa using hgt)] at hx
            simp at hx
          have hp := (List.getElem?_eq_some_iff.mp hb).1
          have hll := hv.label_length
          have hsl : y.shape.length = y.ndim := rfl
          have hs2 : y.x.shape.length = y.ndim := rfl
          have hz : ((y.label.zip y.shape).zip (its ++ List.replicate (y.ndim - its.length) (Item.slice {})))[p]? =
              some ((y.label[p]'(by omega), y.shape[p]'(by omega)), b) := by
            rw [List.getElem?_zip_eq_some]
            refine ⟨?_, by rw [List.getElem?_append_left hp]; exact hb⟩
            rw [List.getElem?_zip_eq_some]
            exact ⟨List.getElem?_eq_getElem _, List.getElem?_eq_getElem _⟩
          have hf := mapRes_ok.mp hk
          obtain ⟨hq, hqe⟩ := List.getElem?_eq_some_iff.mp hz
          have := (List.forall₂_iff_get.mp hf).2 p hq (by rw [← hf.length_eq]; exact hq)
          simp only [List.get_eq_getElem, hqe] at this
          rcases hbad with rfl | rfl <;> simp [Item.keep] at this
    · obtain ⟨parts, -, -, -, -, h2, -, -⟩ := getTuple_spec hv hm hs h
      exact h2.2.2.1

theorem getitem_valid {y z : Larry L} (hv : y.Valid) {idx : Index L} (h : y.getitem idx = .ok (.larry z)) :
    z.Valid := by
  cases idx with
  | tuple its => exact getTuple_valid hv h
  | one it =>
    by_cases hl : ∃ m, it = .lar m
    · obtain ⟨m, rfl⟩ := hl
      simp only [getitem] at h
      split at h
      · simp at h
      · split at h
        · simp at h
        · split at h
          · simp at h
          · split at h
            · simp at h
            · rename_i hm
              obtain rfl : _ = z := by simpa using h
              exact mk'_valid hm
    · obtain ⟨parts, -, h2⟩ := C33_getitem hv (idx := .one it)
        (fun m hm => absurd ⟨m, (List.mem_singleton.mp hm).symm⟩ hl) (not_scrambled_one it) h
      exact h2.2.2.1

theorem sortby_valid {argsort : List Val → List Nat} {y z : Larry L} (hv : y.Valid) {e : L} {axis : Int}
    {reverse : Bool} (h : sortby argsort y e axis reverse = .ok (.larry z)) : z.Valid := by
  unfold sortby at h
  extract_lets ax tail at h
  have key : tail = .ok (.larry z) → z.Valid := by
    intro ht
    dsimp only [tail] at ht
    split at ht
    · simp at ht
    · split at ht
      · simp at ht
      · split at ht
        · exact getitem_valid hv ht
        · exact getitem_valid hv ht
  split at h
  · simp at h
  · split at h
    · split at h
      · simp at h
      · split at h
        · obtain rfl : y = z := by simpa using h
          exact hv
        · exact key h
    · exact key h

theorem sortaxisLoop_valid {self : Larry L} {reverse : Bool} : ∀ (axs : List Int) {y z : Larry L}, y.Valid →
    sortaxisLoop self reverse axs y = .ok z → z.Valid
  | [], y, z, hv, h => by
    obtain rfl : y = z := by simpa [sortaxisLoop] using h
    exact hv
  | ax :: axs, y, z, hv, h => by
    unfold sortaxisLoop at h
    split at h
    · simp at h
    · split at h
      · split at h
        · simp at h
        · split at h
          · simp at h
          · rename_i hm; exact sortaxisLoop_valid axs (morph_valid hv hm) h
      · exact sortaxisLoop_valid axs hv h

theorem emptyLarry_valid : (emptyLarry : Larry L).Valid := ⟨rfl, by simp [emptyLarry], by simp [emptyLarry]⟩

theorem keepLabel_valid {y z : Larry L} (hv : y.Valid) {op : LabelOp L} {axis : Option Int}
    (h : y.keepLabel op axis = .ok z) : z.Valid := by
  by_cases hop : op = .unknown
  · subst hop; simp [keepLabel] at h
  · cases axis with
    | none => cases op <;> simp_all [keepLabel]
    | some a =>
      cases hax : pyIdx y.ndim a with
      | none =>
        have := hv.label_length
        cases op <;> simp only [keepLabel, this, hax] at h <;> first | (split at h <;> simp at h) | simp at h
      | some ax =>
        obtain ⟨l, hl⟩ := axis_label hv hax
        obtain ⟨h1, h2⟩ := C38_keep_label hv hop hax hl
        by_cases hw : ∃ b ∈ l, Wanted op b
        · obtain ⟨z', lab, h3, h4, -⟩ := h2 hw
          rw [h3] at h
          obtain rfl : z' = z := by simpa using h
          exact h4.valid
        · push Not at hw
          obtain ⟨z', h3, h4, h5, -⟩ := h1 hw
          rw [h3] at h
          obtain rfl : z' = z := by simpa using h
          exact ⟨by rw [h4]; exact h5, by simp [h4], by simp [h4]⟩

theorem pull_valid {y z : Larry L} {name : L} {axis : Option Int} (h : y.pull name axis = .ok (.larry z)) :
    z.Valid := by
  unfold pull at h
  split at h
  · simp at h
  · split at h
    · simp at h
    · split at h
      · simp at h
      · split at h
        · simp at h
        · split at h
          · simp at h
          · dsimp only at h
            split at h
            · simp at h
            · split at h
              · simp at h
              · rename_i hm
                obtain rfl : _ = z := by simpa using h
                exact mk'_valid hm

/-- Taking positions along an axis, with the labels at these positions. -/
theorem gather_valid {y : Larry L} (hv : y.Valid) {ax : Nat} {l lab : List L} {ids : List Nat} {d : DType}
    (hids : ids.map (fun i => l[i]?) = lab.map some) (hnd : lab.Nodup) :
    Larry.Valid ⟨y.x.gather ids ax, d, y.label.set ax lab⟩ :=
  validLabels_set hv hnd (gather_shape hv.shape_eq (getElem?_of_map hids).1)

theorem take_valid {y z : Larry L} (hv : y.Valid) {indices : List Int} {axis : Int}
    (h : y.take indices axis = .ok z) : z.Valid := by
  unfold take at h
  split at h
  · simp at h
  · rename_i ax hax
    have hax' : pyIdx y.x.ndim axis = some ax := by rw [hv.label_length] at hax; exact hax
    obtain ⟨l, hl⟩ := axis_label hv hax'
    have hd : y.label.getD ax [] = l := by simp [hl]
    have hsh : y.x.shape.getD ax 0 = l.length := by simp [hv.shape_eq, hl]
    rw [hd] at h
    split at h
    · simp at h
    · rename_i lab hlab
      obtain ⟨ids, h1, h2⟩ := pyItems_ok.mp hlab
      split at h
      · simp at h
      · rename_i hdup
        simp only [NDArray.take, hax', hsh, h1] at h
        obtain rfl : _ = z := by simpa using h
        exact gather_valid hv h2 (hasDup_false.mp (by simpa using hdup))

theorem axesMeant_of {n : Nat} {a : Int} {ax : Nat} (h : pyIdx n a = some ax) : AxesMeant n (some a) [ax] := by
  have := pyIdx_some.mp h
  exact ⟨ax, rfl, this.1, by omega⟩

theorem flipaxis_valid {y z : Larry L} (hv : y.Valid) {axis : Option Int} (h : y.flipaxis axis = .ok z) :
    z.Valid := by
  have key : ∀ axes, AxesMeant y.ndim axis axes → z.Valid := by
    intro axes hm
    obtain ⟨z', h1, h2, -⟩ := C25_flipaxis hv hm
    rw [h1] at h
    obtain rfl : z' = z := by simpa using h
    exact h2
  cases axis with
  | none => exact key _ rfl
  | some a =>
    cases ha : pyIdx y.ndim a with
    | none => rw [C25_flipaxis_axis hv (pyIdx_none.mp ha)] at h; simp at h
    | some ax => exact key _ (axesMeant_of ha)

theorem lag_valid {y z : Larry L} (hv : y.Valid) {k : Int} {axis : Option Int} (h : y.lag k axis = .ok z) :
    z.Valid := by
  cases axis with
  | none => rw [(C26_lag_axis hv k).1] at h; simp at h
  | some a =>
    by_cases hk : k = 0
    · subst hk
      obtain rfl : y = z := by simpa [lag, copy] using h
      exact hv
    · cases ha : pyIdx y.ndim a with
      | none => rw [(C26_lag_axis hv k).2 a hk (pyIdx_none.mp ha)] at h; simp at h
      | some ax =>
        obtain ⟨l, hl⟩ := axis_label hv ha
        obtain ⟨-, h1, h2⟩ := C26_lag hv ha hl
        rcases lt_or_gt_of_ne hk with hneg | hpos
        · obtain ⟨z', e, e2, -⟩ := h2 k.natAbs (by omega)
          rw [show -((k.natAbs : Nat) : Int) = k by omega, h] at e
          obtain rfl : z = z' := by simpa using e
          exact e2
        · obtain ⟨z', e, e2, -⟩ := h1 k.natAbs (by omega)
          rw [show ((k.natAbs : Nat) : Int) = k by omega, h] at e
          obtain rfl : z = z' := by simpa using e
          exact e2

theorem swapaxes_valid {y z : Larry L} (hv : y.Valid) {a b : Int} (h : y.swapaxes a b = .ok z) : z.Valid := by
  cases ha : pyIdx y.ndim a with
  | none => rw [C27_swapaxes_axis hv (.inl ha)] at h; simp at h
  | some i =>
    cases hb : pyIdx y.ndim b with
    | none => rw [C27_swapaxes_axis hv (.inr hb)] at h; simp at h
    | some j =>
      obtain ⟨z', h1, h2, -⟩ := C27_swapaxes hv ha hb
      rw [h1] at h
      obtain rfl : z' = z := by simpa using h
      exact h2

theorem insertaxis_valid {y z : Larry L} {axis : Option Int} {name : L} (h : y.insertaxis axis name = .ok z) :
    z.Valid := by
  unfold insertaxis at h
  split at h
  · simp at h
  · exact mk'_valid h

theorem maplabel_valid {y z : Larry L} (hv : y.Valid) {f : L → L} {axis : Option Int}
    (h0 : axis = none → ∀ l ∈ y.label, (l.map f).Nodup)
    (h1 : ∀ a, axis = some a → ∀ (k : Nat) l, y.label[k]? = some l → (a = k ∨ a = (k : Int) - y.ndim) → (l.map f).Nodup)
    (h : y.maplabel f axis = .ok z) : z.Valid := by
  unfold maplabel at h
  cases axis with
  | none =>
    obtain rfl : _ = z := by simpa using h
    refine ⟨?_, ?_, by simpa using hv.ndim_pos⟩
    · have := hv.shape_eq
      simpa [Function.comp_def] using this
    · intro l hl
      obtain ⟨l', hl', rfl⟩ := List.mem_map.mp hl
      exact h0 rfl l' hl'
  | some a =>
    simp only at h
    split at h
    · simp at h
    · rename_i ax hax
      obtain rfl : _ = z := by simpa using h
      rw [hv.label_length] at hax
      obtain ⟨l, hl⟩ := axis_label hv hax
      have hd : y.label.getD ax [] = l := by simp [hl]
      have hax' := pyIdx_some.mp hax
      have hnd := h1 a rfl ax l hl (by omega)
      rw [← List.getD_eq_getElem?_getD, hd]
      refine validLabels_set hv hnd ?_
      rw [hv.shape_eq, List.map_set, List.length_map]
      refine List.ext_getElem? fun k => ?_
      by_cases hk : k = ax
      · subst hk
        obtain ⟨hlt, -⟩ := List.getElem?_eq_some_iff.mp hl
        have : y.label[k] = l := by rw [List.getElem?_eq_getElem hlt] at hl; simpa using hl
        simp [hlt, this]
      · simp [List.getElem?_set_ne (Ne.symm hk)]

theorem lixGet_valid {y z : Larry L} (hv : y.Valid) {idx : LIndex L} (h : y.lixGet idx = .ok (.larry z)) :
    z.Valid := by
  unfold lixGet at h
  split at h
  · obtain rfl : y = z := by simpa using h
    exact hv
  · split at h
    · simp at h
    · split at h
      · split at h
        · simp at h
        · exact getitem_valid hv h
      · split at h
        · simp at h
        · split at h
          · simp at h
          · dsimp only at h
            split at h
            · simp at h
            · split at h
              · simp at h
              · rename_i hm
                obtain rfl : _ = z := by simpa using h
                exact mk'_valid hm

theorem eraseIdx_valid {y : Larry L} (hv : y.Valid) {ax : Nat} (hne : (y.x.shape.eraseIdx ax).length ≠ 0)
    {x : NDArray Val} {d : DType} (hx : x.shape = y.x.shape.eraseIdx ax) :
    Larry.Valid ⟨x, d, y.label.eraseIdx ax⟩ := by
  have hs := hv.shape_eq
  refine ⟨?_, fun l hl => hv.nodup l (List.mem_of_mem_eraseIdx hl), ?_⟩
  · simp only [hx, hs]
    refine List.ext_getElem? fun k => ?_
    simp [List.getElem?_eraseIdx]
    split <;> rfl
  · intro h0
    apply hne
    have h1 : (y.label.eraseIdx ax).length = 0 := by rw [show y.label.eraseIdx ax = [] from h0]; rfl
    rw [hs]
    rw [List.length_eraseIdx] at h1 ⊢
    simpa using h1

theorem reduce_valid {r : Red} {y z : Larry L} (hv : y.Valid) {axis : Option Int}
    (h : y.reduce r axis = .ok (.larry z)) : z.Valid := by
  have hpop : ∀ {a ax}, pyIdx y.ndim a = some ax → pyPop y.label a = .ok (y.label.eraseIdx ax) := by
    intro a ax ha
    simp only [pyPop, hv.label_length, ha]
  unfold reduce at h
  split at h
  · split at h
    · simp at h
    · rename_i a
      split at h
      · simp at h
      · rename_i shape hsh
        unfold pyPop at hsh
        split at hsh
        · simp at hsh
        · rename_i ax hax
          have hax' : pyIdx y.ndim a = some ax := hax
          obtain rfl : _ = shape := by simpa using hsh
          split at h
          · simp at h
          · dsimp only at h
            split at h
            · simp at h
            · simp only [hpop hax'] at h
              obtain rfl : _ = z := by simpa using h
              rename_i hlen _ _ _
              exact eraseIdx_valid hv hlen rfl
  · split at h
    · simp at h
    · split at h
      · simp at h
      · split at h
        · simp at h
        · rename_i ax hax
          dsimp only at h
          split at h
          · simp at h
          · rename_i hlen
            simp only [hpop hax] at h
            obtain rfl : _ = z := by simpa using h
            exact eraseIdx_valid hv hlen rfl

theorem prod_valid {y z : Larry L} (hv : y.Valid) {axis : Option Int} (h : y.prod axis = .ok (.larry z)) :
    z.Valid := by
  unfold prod at h
  split at h
  · simp at h
  · dsimp only at h
    split at h
    · simp at h
    · simp at h
    · rename_i w hw
      have hwv : w.Valid := reduce_valid (y := { y with x := y.x.map _ }) (valid_shape hv rfl) hw
      split at h
      · obtain rfl : _ = z := by simpa using h
        exact hwv
      · split at h
        · simp at h
        · obtain rfl : _ = z := by simpa using h
          exact valid_shape hwv rfl

theorem cumulate_valid {op : DType → Val → Val → Val} {unit : Int} {y z : Larry L} (hv : y.Valid)
    {axis : Option Int} (h : y.cumulate op unit axis = .ok z) : z.Valid := by
  unfold cumulate at h
  split at h
  · simp at h
  · split at h
    · simp at h
    · split at h
      · simp at h
      · obtain rfl : _ = z := by simpa using h
        exact valid_shape hv rfl

theorem clip_valid {y z : Larry L} (hv : y.Valid) {lo hi : Flt} (h : y.clip lo hi = .ok z) : z.Valid := by
  unfold clip at h
  split at h
  · simp at h
  · split at h
    · simp at h
    · obtain rfl : _ = z := by simpa using h
      exact valid_shape hv rfl

theorem along_valid {f : List Val → List Val} {d : DType} {y : Larry L} (hv : y.Valid) (ax : Nat) :
    (y.along f d ax).Valid := valid_shape hv rfl

theorem alongAll_valid {f : List Val → List Val} {d : DType} {y : Larry L} (hv : y.Valid) :
    (y.alongAll f d).Valid := valid_shape hv rfl

theorem push_valid {y z : Larry L} (hv : y.Valid) {window axis : Int} (h : y.push window axis = .ok z) :
    z.Valid := by
  unfold push at h
  split at h
  · simp at h
  · split at h
    · simp at h
    · obtain rfl : _ = z := by simpa using h
      exact along_valid hv _

theorem ranking_valid {y z : Larry L} (hv : y.Valid) {axis : Option Int} {norm : RankNorm}
    (h : y.ranking axis norm = .ok z) : z.Valid := by
  unfold ranking at h
  split at h
  · simp at h
  · split at h
    · simp at h
    · split at h
      · obtain rfl : _ = z := by simpa using h
        exact alongAll_valid hv
      · split at h
        · simp at h
        · obtain rfl : _ = z := by simpa using h
          exact along_valid hv _

theorem quantile_valid {argsort : List ℚ → List Nat} {y z : Larry L} (hv : y.Valid) {q : Int} {axis : Option Int}
    (h : y.quantile argsort q axis = .ok z) : z.Valid := by
  unfold quantile at h
  split at h
  · simp at h
  · split at h
    · simp at h
    · split at h
      · obtain rfl : _ = z := by simpa using h
        exact valid_shape hv rfl
      · split at h
        · split at h
          · simp at h
          · obtain rfl : _ = z := by simpa using h
            exact alongAll_valid hv
        · split at h
          · simp at h
          · split at h
            · simp at h
            · obtain rfl : _ = z := by simpa using h
              exact along_valid hv _

theorem demean_valid {center : List Flt → Flt} {y z : Larry L} (hv : y.Valid) {axis : Option Int}
    (h : y.demean center axis = .ok z) : z.Valid := by
  unfold demean at h
  split at h
  · simp at h
  · split at h
    · obtain rfl : _ = z := by simpa using h
      exact alongAll_valid hv
    · split at h
      · simp at h
      · obtain rfl : _ = z := by simpa using h
        exact along_valid hv _

theorem zscore_valid {std : List Flt → Flt} {y z : Larry L} (hv : y.Valid) {axis : Option Int}
    (h : y.zscore std axis = .ok z) : z.Valid := by
  unfold zscore at h
  split at h
  · simp at h
  · split at h
    · obtain rfl : _ = z := by simpa using h
      exact alongAll_valid hv
    · split at h
      · simp at h
      · obtain rfl : _ = z := by simpa using h
        exact along_valid hv _

theorem movingsumForward_valid {y z : Larry L} (hv : y.Valid) {window : Int} {skip : Nat} {axis : Int} {norm : Bool}
    (h : y.movingsumForward window skip axis norm = .ok z) : z.Valid := by
  unfold movingsumForward at h
  split at h
  · simp at h
  · split at h
    · simp at h
    · split at h
      · simp at h
      · split at h
        · simp at h
        · split at h
          · simp at h
          · obtain rfl : _ = z := by simpa using h
            exact along_valid hv _

theorem moveLoop_shape {f : List Val → Val} {arr x : NDArray Val} {window : Int} {axis : Option Int}
    (h : moveLoop f arr window axis = .ok x) : x.shape = arr.shape := by
  have key : ∀ (is : List Nat) (w ax : Nat) (a : NDArray Val), a.shape = arr.shape →
      (is.foldl (moveStep f arr w ax) a).shape = arr.shape := by
    intro is w ax
    induction is with
    | nil => intro a ha; exact ha
    | cons i is ih => intro a ha; exact ih _ ha
  unfold moveLoop at h
  split at h
  · simp at h
  · split at h
    · simp at h
    · split at h
      · simp at h
      · dsimp only at h
        split at h
        · simp at h
        · obtain rfl : _ = x := by simpa using h
          exact key _ _ _ _ rfl

theorem moveStrides_shape {f : List Val → Val} {buf : Int → Val} {arr : Strided} {x : NDArray Val} {window : Int}
    {axis : Option Int} (h : moveStrides f buf arr window axis = .ok x) : x.shape = arr.shape := by
  unfold moveStrides at h
  split at h
  · simp at h
  · split at h
    · simp at h
    · split at h
      · simp at h
      · split at h
        · simp at h
        · split at h
          · simp at h
          · dsimp only at h
            unfold NDArray.storeTail at h
            split at h
            · obtain rfl : _ = x := by simpa using h
              rfl
            · simp at h

theorem moveBn_valid {f : Nat → List Val → List Val} {y z : Larry L} (hv : y.Valid) {window axis : Int}
    (h : y.moveBn f window axis = .ok z) : z.Valid := by
  unfold moveBn at h
  repeat' split at h
  all_goals first
    | (simp at h; done)
    | (obtain rfl : _ = z := by simpa using h
       exact along_valid hv _)

theorem moveFunc_valid {f : List Val → Val} {buf : Int → Val} {arr : Strided} {y z : Larry L} (hv : y.Valid)
    (hs : arr.shape = y.x.shape) {window : Int} {axis : Option Int} {m : MoveMethod}
    (h : y.moveFunc f buf arr window axis m = .ok z) : z.Valid := by
  unfold Larry.moveFunc at h
  split at h
  · simp at h
  · rename_i x hx
    obtain rfl : _ = z := by simpa using h
    refine valid_shape hv ?_
    cases m with
    | strides => exact (moveStrides_shape hx).trans hs
    | loop => exact (moveLoop_shape hx).trans hs
    | unknown => simp [La.moveFunc] at hx

theorem groupBy_valid {sort f : List Val → List Val} {y g z : Larry L} (hv : y.Valid) {axis : Int}
    (h : y.groupBy sort f g axis = .ok z) : z.Valid := by
  unfold groupBy at h
  split at h
  · simp at h
  · split at h
    · simp at h
    · split at h
      · simp at h
      · obtain rfl : _ = z := by simpa using h
        exact along_valid hv _

/-- The labels kept by `vacuum` and `cut_missing` fit the grid kept. -/
theorem kept_valid {y : Larry L} (hv : y.Valid) {g : Nat → Res (List Nat)} {ids : List (List Nat)}
    (h : mapRes g (List.range y.ndim) = .ok ids)
    (hg : ∀ (k : Nat) l is, y.label[k]? = some l → g k = .ok is → ∃ p, is = (List.range l.length).filter p) :
    Larry.Valid ⟨y.x.grid ids, y.dtype, ids.zipIdx.map (fun p => y.keptLab p.2 p.1)⟩ := by
  obtain ⟨h1, h2, -⟩ := partOf_kept hv h hg
  rw [h1]
  exact h2.valid

theorem filter_all {n : Nat} : List.range n = (List.range n).filter (fun _ => true) := by simp

theorem vacuum_valid {y z : Larry L} (hv : y.Valid) {axis : Option (List Int)} (h : y.vacuum axis = .ok z) :
    z.Valid := by
  unfold vacuum at h
  split at h
  · simp at h
  · rename_i ids hids
    obtain rfl : _ = z := by simpa using h
    refine kept_valid hv hids fun k l is hl hk => ?_
    have hsh : y.shape.getD k 0 = l.length := by simp [shape, hv.shape_eq, hl]
    by_cases hd : y.dtype = .str ∨ y.dtype = .object
    · unfold vacuumAxis at hk
      split at hk
      · obtain rfl : _ = is := by simpa using hk
        rw [← List.getD_eq_getElem?_getD, hsh]
        exact ⟨_, filter_all⟩
      · rcases hd with hd | hd <;> simp [npIsfinite, hd] at hk
    · push Not at hd
      obtain ⟨p, h1, -⟩ := vacuumAxis_eq hv (vacuumAxes y.ndim axis) (fun _ => hd) hl
      rw [h1] at hk
      exact ⟨p, by simpa using hk.symm⟩

theorem cutMissing_valid {y z : Larry L} (hv : y.Valid) {fraction : ℚ} {axis : Option Int}
    (h : y.cutMissing fraction axis = .ok z) : z.Valid := by
  unfold cutMissing at h
  split at h
  · simp at h
  · rename_i axes haxes
    split at h
    · simp at h
    · rename_i ids hids
      dsimp only at h
      split at h
      · obtain rfl : _ = z := by simpa using h
        exact emptyLarry_valid
      · obtain rfl : _ = z := by simpa using h
        refine kept_valid hv hids fun k l is hl hk => ?_
        have hsh : y.shape.getD k 0 = l.length := by simp [shape, hv.shape_eq, hl]
        by_cases hd : y.dtype = .str ∨ y.dtype = .object
        · unfold cutAxis at hk
          split at hk
          · obtain rfl : _ = is := by simpa using hk
            rw [← List.getD_eq_getElem?_getD, hsh]
            exact ⟨_, filter_all⟩
          · rcases hd with hd | hd <;> simp [npIsfinite, hd] at hk
        · push Not at hd
          obtain ⟨p, h1, -⟩ := cutAxis_eq hv fraction axes (fun _ => hd) hl
          rw [h1] at hk
          exact ⟨p, by simpa using hk.symm⟩

theorem keepX_valid {y z : Larry L} (hv : y.Valid) {op : CmpOp} {value : Flt} {vac : Bool}
    (h : y.keepX op value vac = .ok z) : z.Valid := by
  unfold keepX at h
  split at h
  · simp at h
  · split at h
    · simp at h
    · split at h
      · simp at h
      · dsimp only at h
        split at h
        · refine vacuum_valid ?_ h
          exact valid_shape hv rfl
        · obtain rfl : _ = z := by simpa using h
          exact valid_shape hv rfl

theorem set_valid {y z : Larry L} (hv : y.Valid) {names : List L} {v : Val} (h : y.set names v = .ok z) :
    z.Valid := by
  unfold Larry.set at h
  split at h
  · simp at h
  · split at h
    · obtain rfl : _ = z := by simpa using h
      exact valid_shape hv rfl
    · simp at h

theorem putAt_valid {y z : Larry L} (hv : y.Valid) {its : List NpItem} {v : List Nat → Val}
    (h : y.putAt its v = .ok z) : z.Valid := by
  unfold putAt at h
  split at h
  · simp at h
  · obtain rfl : _ = z := by simpa using h
    exact valid_shape hv (NDArray.assignGrid_shape _ _ _)

theorem setAt_valid {conv : Val → Val} {y z : Larry L} (hv : y.Valid) {idx : NpIndex} {v : SetVal L}
    (h : y.setAt conv idx v = .ok z) : z.Valid := by
  unfold setAt at h
  split at h
  · exact putAt_valid hv h
  · split at h
    · simp at h
    · simp at h
    · simp at h
    · split at h
      · exact putAt_valid hv h
      · simp at h

theorem setMask_valid {y m z : Larry L} (hv : y.Valid) {v : Val} (h : y.setMask m v = .ok z) : z.Valid := by
  unfold setMask at h
  split at h
  · split at h
    · obtain rfl : _ = z := by simpa using h
      exact valid_shape hv rfl
    · split at h
      · simp at h
      · obtain rfl : _ = z := by simpa using h
        exact valid_shape hv rfl
    · simp at h
  · simp at h

theorem lixSet_valid {conv : Val → Val} {y z : Larry L} (hv : y.Valid) {idx : LIndex L} {v : SetVal L}
    (h : y.lixSet conv idx v = .ok z) : z.Valid := by
  unfold lixSet at h
  split at h
  · simp at h
  · split at h
    · simp at h
    · split at h
      · split at h
        · simp at h
        · exact setAt_valid hv h
      · split at h
        · simp at h
        · split at h
          · split at h
            · simp at h
            · split at h
              · simp at h
              · split at h
                · simp at h
                · split at h
                  · simp at h
                  · obtain rfl : _ = z := by simpa using h
                    exact valid_shape hv (NDArray.assignGrid_shape _ _ _)
          · split at h
            · simp at h
            · obtain rfl : _ = z := by simpa using h
              exact valid_shape hv (NDArray.assignGrid_shape _ _ _)

end Larry

/-! ## One call -/

theorem on_ok {α : Type _} {st : Store L} {i : Nat} {f : Larry L → Res α} {a : α} (h : st.on i f = .ok a) :
    ∃ y, st[i]? = some y ∧ f y = .ok a := by
  unfold Store.on Store.var at h
  cases hs : st[i]? with
  | none => simp [hs] at h
  | some y => exact ⟨y, rfl, by simpa [hs] using h⟩

theorem one_ok {r : Res (Larry L)} {zs : List (Larry L)} (h : Res.one r = .ok zs) : ∃ z, r = .ok z ∧ zs = [z] := by
  cases r with
  | error e => simp [Res.one] at h
  | ok z => exact ⟨z, rfl, by simpa [Res.one] using h.symm⟩

theorem one_valid {r : Res (Larry L)} {zs : List (Larry L)} (h : Res.one r = .ok zs)
    (hr : ∀ z, r = .ok z → z.Valid) : ∀ z ∈ zs, z.Valid := by
  obtain ⟨z, h1, rfl⟩ := one_ok h
  simpa using hr z h1

theorem out_valid {r : Res (Out L)} {zs : List (Larry L)} (h : Res.out r = .ok zs)
    (hr : ∀ z, r = .ok (.larry z) → z.Valid) : ∀ z ∈ zs, z.Valid := by
  unfold Res.out at h
  split at h
  · simp at h
  · obtain rfl : zs = [] := by simpa using h
    simp
  · obtain rfl : _ = zs := by simpa using h
    simpa using hr _ rfl

theorem getOut_valid {r : Res (GetOut L)} {zs : List (Larry L)} (h : Res.getOut r = .ok zs)
    (hr : ∀ z, r = .ok (.larry z) → z.Valid) : ∀ z ∈ zs, z.Valid := by
  unfold Res.getOut at h
  split at h
  · simp at h
  · obtain rfl : zs = [] := by simpa using h
    simp
  · obtain rfl : zs = [] := by simpa using h
    simp
  · obtain rfl : _ = zs := by simpa using h
    simpa using hr _ rfl

theorem vars_valid {st : Store L} (hv : st.Valid) {is : List Nat} {ys : List (Larry L)}
    (h : mapRes st.var is = .ok ys) : ∀ y ∈ ys, y.Valid := by
  have hf := mapRes_ok.mp h
  intro y hy
  obtain ⟨k, hk, rfl⟩ := List.getElem_of_mem hy
  have := (List.forall₂_iff_get.mp hf).2 k (by rw [hf.length_eq]; exact hk) hk
  unfold Store.var at this
  split at this
  · rename_i y' hy'
    simp only [List.get_eq_getElem, Except.ok.injEq] at this
    rw [← this]
    exact hv _ (List.mem_of_getElem? hy')
  · simp at this

theorem results_valid {st : Store L} (hv : st.Valid) {c : Cmd L} (hf : c.Fair st) {zs : List (Larry L)}
    (h : c.results st = .ok zs) : ∀ z ∈ zs, z.Valid := by
  have mem : ∀ {i : Nat} {y : Larry L}, st[i]? = some y → y.Valid := fun hi => hv _ (List.mem_of_getElem? hi)
  cases c <;> simp only [Cmd.results] at h
  case new => exact one_valid h fun z hz => mk'_valid hz
  case morph => obtain ⟨y, hy, h⟩ := on_ok h; exact one_valid h fun z hz => morph_valid (mem hy) hz
  case morphLike =>
    obtain ⟨y, hy, h⟩ := on_ok h; obtain ⟨w, hw, h⟩ := on_ok h
    exact one_valid h fun z hz => morphLike_valid (mem hy) hz
  case binop =>
    obtain ⟨y, hy, h⟩ := on_ok h; obtain ⟨w, hw, h⟩ := on_ok h
    exact one_valid h fun z hz => binop_valid (mem hy) (mem hw) hz
  case binopArray =>
    obtain ⟨y, hy, h⟩ := on_ok h
    exact one_valid h fun z hz => binopArray_valid (mem hy) (hf y hy) hz
  case compare =>
    obtain ⟨y, hy, h⟩ := on_ok h; obtain ⟨w, hw, h⟩ := on_ok h
    exact one_valid h fun z hz => compare_valid (mem hy) (mem hw) hz
  case merge =>
    obtain ⟨y, hy, h⟩ := on_ok h; obtain ⟨w, hw, h⟩ := on_ok h
    exact one_valid h fun z hz => merge_valid (mem hy) (mem hw) hz
  case align =>
    obtain ⟨y, hy, h⟩ := on_ok h; obtain ⟨w, hw, h⟩ := on_ok h
    unfold Res.both at h
    split at h
    · simp at h
    · rename_i hz
      obtain rfl : _ = zs := by simpa using h
      simpa using align_valid (mem hy) (mem hw) hz
  case alignAxis =>
    split at h
    · simp at h
    · rename_i hys; exact alignAxisN_valid (vars_valid hv hys) h
  case binaryop =>
    obtain ⟨y, hy, h⟩ := on_ok h; obtain ⟨w, hw, h⟩ := on_ok h
    unfold Res.raw at h
    split at h
    · simp at h
    · rename_i hz
      obtain rfl : _ = zs := by simpa using h
      simpa using binaryop_valid (mem hy) (mem hw) hf hz
  case stack =>
    split at h
    · simp at h
    · exact one_valid h fun z hz => stack_valid hz
  case sortby => obtain ⟨y, hy, h⟩ := on_ok h; exact getOut_valid h fun z hz => sortby_valid (mem hy) hz
  case sortaxis => obtain ⟨y, hy, h⟩ := on_ok h; exact one_valid h fun z hz => sortaxisLoop_valid _ (mem hy) hz
  case keepLabel => obtain ⟨y, hy, h⟩ := on_ok h; exact one_valid h fun z hz => keepLabel_valid (mem hy) hz
  case pull => obtain ⟨y, hy, h⟩ := on_ok h; exact out_valid h fun z hz => pull_valid hz
  case take => obtain ⟨y, hy, h⟩ := on_ok h; exact one_valid h fun z hz => take_valid (mem hy) hz
  case flipaxis => obtain ⟨y, hy, h⟩ := on_ok h; exact one_valid h fun z hz => flipaxis_valid (mem hy) hz
  case lag => obtain ⟨y, hy, h⟩ := on_ok h; exact one_valid h fun z hz => lag_valid (mem hy) hz
  case transpose =>
    obtain ⟨y, hy, h⟩ := on_ok h
    obtain rfl : _ = zs := by simpa using h
    simpa using (C27_transpose (mem hy)).1
  case swapaxes => obtain ⟨y, hy, h⟩ := on_ok h; exact one_valid h fun z hz => swapaxes_valid (mem hy) hz
  case squeeze =>
    obtain ⟨y, hy, h⟩ := on_ok h
    obtain rfl : _ = zs := by simpa using h
    simpa using (C32_squeeze (mem hy)).2.2.2.2.mpr (hf y hy)
  case insertaxis => obtain ⟨y, hy, h⟩ := on_ok h; exact one_valid h fun z hz => insertaxis_valid hz
  case maplabel i f axis =>
    obtain ⟨y, hy, h⟩ := on_ok h
    refine one_valid h fun z hz => maplabel_valid (mem hy) ?_ ?_ hz
    · rintro rfl; exact hf y hy
    · rintro a rfl; exact hf y hy
  case getitem => obtain ⟨y, hy, h⟩ := on_ok h; exact getOut_valid h fun z hz => getitem_valid (mem hy) hz
  case lix => obtain ⟨y, hy, h⟩ := on_ok h; exact getOut_valid h fun z hz => lixGet_valid (mem hy) hz
  case reduce => obtain ⟨y, hy, h⟩ := on_ok h; exact out_valid h fun z hz => reduce_valid (mem hy) hz
  case prod => obtain ⟨y, hy, h⟩ := on_ok h; exact out_valid h fun z hz => prod_valid (mem hy) hz
  case cumsum => obtain ⟨y, hy, h⟩ := on_ok h; exact one_valid h fun z hz => cumulate_valid (mem hy) hz
  case cumprod => obtain ⟨y, hy, h⟩ := on_ok h; exact one_valid h fun z hz => cumulate_valid (mem hy) hz
  case clip => obtain ⟨y, hy, h⟩ := on_ok h; exact one_valid h fun z hz => clip_valid (mem hy) hz
  case push => obtain ⟨y, hy, h⟩ := on_ok h; exact one_valid h fun z hz => push_valid (mem hy) hz
  case ranking => obtain ⟨y, hy, h⟩ := on_ok h; exact one_valid h fun z hz => ranking_valid (mem hy) hz
  case quantile => obtain ⟨y, hy, h⟩ := on_ok h; exact one_valid h fun z hz => quantile_valid (mem hy) hz
  case demean => obtain ⟨y, hy, h⟩ := on_ok h; exact one_valid h fun z hz => demean_valid (mem hy) hz
  case zscore => obtain ⟨y, hy, h⟩ := on_ok h; exact one_valid h fun z hz => zscore_valid (mem hy) hz
  case movingsumForward =>
    obtain ⟨y, hy, h⟩ := on_ok h; exact one_valid h fun z hz => movingsumForward_valid (mem hy) hz
  case moveFunc => obtain ⟨y, hy, h⟩ := on_ok h; exact one_valid h fun z hz => moveFunc_valid (mem hy) rfl hz
  case moveBn k i w a =>
    obtain ⟨y, hy, h⟩ := on_ok h
    exact one_valid h fun z hz => moveBn_valid (mem hy) (k.run_eq y w a ▸ hz)
  case group =>
    obtain ⟨y, hy, h⟩ := on_ok h; obtain ⟨w, hw, h⟩ := on_ok h
    exact one_valid h fun z hz => groupBy_valid (mem hy) hz
  case ismissing =>
    obtain ⟨y, hy, h⟩ := on_ok h
    obtain rfl : _ = zs := by simpa using h
    simpa using (C61_ismissing (mem hy)).1
  case vacuum => obtain ⟨y, hy, h⟩ := on_ok h; exact one_valid h fun z hz => vacuum_valid (mem hy) hz
  case cutMissing => obtain ⟨y, hy, h⟩ := on_ok h; exact one_valid h fun z hz => cutMissing_valid (mem hy) hz
  case keepX => obtain ⟨y, hy, h⟩ := on_ok h; exact one_valid h fun z hz => keepX_valid (mem hy) hz
  case set => obtain ⟨y, hy, h⟩ := on_ok h; exact one_valid h fun z hz => set_valid (mem hy) hz
  case setAt => obtain ⟨y, hy, h⟩ := on_ok h; exact one_valid h fun z hz => setAt_valid (mem hy) hz
  case setMask =>
    obtain ⟨y, hy, h⟩ := on_ok h; obtain ⟨w, hw, h⟩ := on_ok h
    exact one_valid h fun z hz => setMask_valid (mem hy) hz
  case lixSet => obtain ⟨y, hy, h⟩ := on_ok h; exact one_valid h fun z hz => lixSet_valid (mem hy) hz

/-! ## C64 -/

/-- C64. A fair call that returns leaves every larry of the program well-formed: the ones it returns, the
one it changes in place, and the others. -/
theorem C64_step {st st' : Store L} (hv : st.Valid) {c : Cmd L} (hf : c.Fair st) (h : c.step st = .ok st') :
    st'.Valid := by
  unfold Cmd.step at h
  split at h
  · simp at h
  · rename_i zs hzs
    have hz := results_valid hv hf hzs
    split at h
    · obtain rfl : _ = st' := by simpa using h
      intro y hy
      rcases List.mem_append.mp hy with hy | hy
      · exact hv y hy
      · exact hz y hy
    · rename_i i _
      obtain rfl : _ = st' := by simpa using h
      clear h hzs hf
      induction zs generalizing st with
      | nil => exact hv
      | cons z zs ih =>
        refine ih (st := st.set i z) ?_ (fun y hy => hz y (List.mem_cons_of_mem _ hy))
        intro y hy
        rcases List.mem_or_eq_of_mem_set hy with hy | rfl
        · exact hv y hy
        · exact hz _ List.mem_cons_self

/-- C64. Every history of fair calls, of any length, with exceptions caught or not, keeps all larrys
well-formed: one label list per axis, as long as the axis, without duplicates. -/
theorem C64_history {st : Store L} (hv : st.Valid) {cs : List (Cmd L)} (hf : FairAll st cs) :
    (runAll st cs).Valid := by
  induction cs generalizing st with
  | nil => exact hv
  | cons c cs ih =>
    obtain ⟨h1, h2, h3⟩ := hf
    unfold runAll
    cases h : c.step st with
    | error e => exact ih hv (h3 e h)
    | ok st' => exact ih (C64_step hv h1 h) (h2 st' h)

/-- A history that starts from nothing. -/
theorem C64_program {cs : List (Cmd L)} (hf : FairAll [] cs) : (runAll [] cs).Valid :=
  C64_history (fun y hy => absurd hy List.not_mem_nil) hf

theorem bdim_eq {m n : Nat} (h : bdim m n = .ok m) : n = m ∨ n = 1 := by
  unfold bdim at h
  split at h
  · rename_i h1; exact .inl h1.symm
  · split at h
    · simp only [Except.ok.injEq] at h; exact .inl h
    · split at h
      · rename_i h1; exact .inr h1
      · simp at h

/-- C64. The conditions are needed: a call that is not fair, other than `binaryop` with a skipped axis,
and that still returns puts a broken larry into the program. -/
theorem C64_unfair {st st' : Store L} (hv : st.Valid) {c : Cmd L} (hf : ¬ c.Fair st)
    (hb : ∀ cv uf i j join cast m1 m2, c ≠ .binaryop cv uf i j join cast m1 m2) (h : c.step st = .ok st') :
    ¬ st'.Valid := by
  have app : ∀ {zs z}, c.target = none → c.results st = .ok zs → z ∈ zs → ¬ z.Valid → ¬ st'.Valid := by
    intro zs z ht hr hz hn hst
    simp only [Cmd.step, hr, ht, Except.ok.injEq] at h
    exact hn (hst z (by rw [← h]; exact List.mem_append.mpr (.inr hz)))
  have res : ∃ zs, c.results st = .ok zs := by
    unfold Cmd.step at h
    split at h
    · simp at h
    · rename_i zs hzs; exact ⟨zs, hzs⟩
  obtain ⟨zs, hzs⟩ := res
  have mem : ∀ {i : Nat} {y : Larry L}, st[i]? = some y → y.Valid := fun hi => hv _ (List.mem_of_getElem? hi)
  cases c <;> simp only [Cmd.Fair, not_true_eq_false] at hf
  case binopArray uf i x d =>
    push Not at hf
    obtain ⟨y, hy, hfit⟩ := hf
    have hzs' := hzs
    simp only [Cmd.results] at hzs'
    obtain ⟨y', hy', hzs'⟩ := on_ok hzs'
    obtain rfl : y = y' := by simpa [hy] using hy'
    obtain ⟨z, hz, rfl⟩ := one_ok hzs'
    refine app rfl hzs List.mem_cons_self fun hzv => hfit ?_
    unfold Larry.binopArray at hz
    split at hz
    · simp at hz
    · rename_i x' d' hx'
      obtain rfl : _ = z := by simpa using hz
      have hs := npBinop_shape hx'
      have e : x'.shape = y.x.shape := hzv.shape_eq.trans (mem hy).shape_eq.symm
      rw [e] at hs
      unfold broadcastShape at hs
      have hl := mapRes_ok.mp hs
      have hlen := hl.length_eq
      simp only [List.length_zip, List.length_append, List.length_replicate] at hlen
      have hle : x.shape.length ≤ y.x.shape.length := by omega
      have e0 : max y.x.shape.length x.shape.length - y.x.shape.length = 0 := by omega
      have e1 : max y.x.shape.length x.shape.length - x.shape.length = y.x.shape.length - x.shape.length := by omega
      rw [e0, e1, List.replicate_zero, List.nil_append] at hl
      refine ⟨y.x.shape.take (y.x.shape.length - x.shape.length), y.x.shape.drop (y.x.shape.length - x.shape.length),
        (List.take_append_drop _ _).symm, ?_⟩
      rw [List.forall₂_iff_get]
      refine ⟨by simp; omega, fun k h1 h2 => ?_⟩
      have hk : k < x.shape.length := h2
      have := (List.forall₂_iff_get.mp hl).2 (y.x.shape.length - x.shape.length + k) (by simp; omega) (by omega)
      simp only [List.get_eq_getElem, List.getElem_zip, List.getElem_drop] at this ⊢
      rw [List.getElem_append_right (by simp)] at this
      simp only [List.length_replicate, Nat.add_sub_cancel_left] at this
      exact bdim_eq this
  case squeeze i =>
    push Not at hf
    obtain ⟨y, hy, hone⟩ := hf
    have hzs' := hzs
    simp only [Cmd.results] at hzs'
    obtain ⟨y', hy', hzs'⟩ := on_ok hzs'
    obtain rfl : y = y' := by simpa [hy] using hy'
    obtain rfl : _ = zs := by simpa using hzs'
    refine app rfl hzs List.mem_cons_self fun hzv => ?_
    obtain ⟨n, hn, hne⟩ := (C32_squeeze (mem hy)).2.2.2.2.mp hzv
    exact hne (hone n hn)
  case maplabel i f axis =>
    have hzs' := hzs
    simp only [Cmd.results] at hzs'
    obtain ⟨y, hy, hzs'⟩ := on_ok hzs'
    obtain ⟨z, hz, rfl⟩ := one_ok hzs'
    refine app rfl hzs List.mem_cons_self fun hzv => hf ?_
    cases axis with
    | none =>
      intro y' hy'
      obtain rfl : y = y' := by simpa [hy] using hy'
      obtain rfl : _ = z := by simpa [Larry.maplabel] using hz
      intro l hl
      exact hzv.nodup _ (List.mem_map_of_mem hl)
    | some a =>
      intro y' hy'
      obtain rfl : y = y' := by simpa [hy] using hy'
      intro k l hl ha
      have hk : k < y.ndim := by rw [← (mem hy).label_length]; exact (List.getElem?_eq_some_iff.mp hl).1
      have hax : pyIdx y.label.length a = some k := by
        rw [(mem hy).label_length]; exact pyIdx_some.mpr ⟨hk, by omega⟩
      simp only [Larry.maplabel, hax, Except.ok.injEq] at hz
      subst hz
      refine hzv.nodup _ ?_
      rw [List.getD_eq_getElem?_getD, hl]
      exact List.mem_of_getElem? (i := k) (by
        simp [(List.getElem?_eq_some_iff.mp hl).1])
  case binaryop => exact absurd rfl (hb _ _ _ _ _ _ _ _)

/-- A fair history from nothing: build a larry, sort it, squeeze the sorted one, rename its labels, take a
position out of bounds (raises), change an element of the first larry in place. -/
def exHistory : List (Cmd Nat) :=
  [.new exA.x .float exA.label, .sortaxis 0 none false, .squeeze 1, .maplabel 1 (· + 100) none, .take 0 [7] 0,
    .set 0 [20, 1] (fl 9)]

example : FairAll [] exHistory := by
  have e1 : (Cmd.new exA.x .float exA.label).step [] = .ok [exA] := rfl
  obtain ⟨z, e2, hz⟩ : ∃ z, (Cmd.sortaxis 0 none false).step [exA] = .ok [exA, z] ∧ z.x.shape = [2, 3] ∧
      z.label = [[10, 20], [1, 2, 3]] := ⟨_, rfl, rfl, by decide⟩
  have e3 : (Cmd.squeeze 1).step [exA, z] = .ok [exA, z, z.squeeze] := rfl
  have e4 : (Cmd.maplabel 1 (· + 100) none).step [exA, z, z.squeeze] =
      .ok [exA, z, z.squeeze, { z with label := z.label.map (List.map (· + 100)) }] := rfl
  refine ⟨trivial, fun _ h => ?_, fun _ h => by simp [e1] at h⟩
  rw [e1] at h; obtain rfl := Except.ok.inj h
  refine ⟨trivial, fun _ h => ?_, fun _ h => by simp [e2] at h⟩
  rw [e2] at h; obtain rfl := Except.ok.inj h
  refine ⟨?_, fun _ h => ?_, fun _ h => by simp [e3] at h⟩
  · intro y hy
    obtain rfl : z = y := by simpa using hy
    exact ⟨2, by simp [Larry.shape, hz.1], by decide⟩
  rw [e3] at h; obtain rfl := Except.ok.inj h
  refine ⟨?_, fun _ h => ?_, fun _ h => by simp [e4] at h⟩
  · intro y hy
    obtain rfl : z = y := by simpa using hy
    rw [hz.2]; decide
  rw [e4] at h; obtain rfl := Except.ok.inj h
  exact ⟨trivial, fun _ _ => ⟨trivial, fun _ _ => trivial, fun _ _ => trivial⟩,
    fun _ _ => ⟨trivial, fun _ _ => trivial, fun _ _ => trivial⟩⟩

/-- It really runs: four larrys, the first one changed in place. -/
example : (runAll [] exHistory).length = 4 ∧ ((runAll [] exHistory).map Larry.label).getLast? =
    some [[110, 120], [101, 102, 103]] ∧
    ((runAll [] exHistory)[0]?.map (fun y => y.x.get [1, 1])) = some (fl 9) := by
  decide +kernel

/-- An unfair call that returns: squeezing a larry of shape (1,). -/
example : ¬ (Cmd.squeeze 0 : Cmd Nat).Fair [⟨⟨[1], fun _ => fl 1⟩, .float, [[5]]⟩] ∧
    ∃ st', (Cmd.squeeze 0 : Cmd Nat).step [⟨⟨[1], fun _ => fl 1⟩, .float, [[5]]⟩] = .ok st' := by
  refine ⟨fun h => ?_, _, rfl⟩
  obtain ⟨n, hn, hne⟩ := h _ rfl
  simp [Larry.shape] at hn
  exact hne hn

end La
