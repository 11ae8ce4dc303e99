import Verif.HeapMoreFacts
import Verif.HeapWrite

/-!
# The functions of Verif/HeapMore.lean return what the functions on values return
-/

namespace La
variable {L : Type} {α β γ : Type}

/-- `m` run in `h` raises what `r` raises; else it leaves alone all that was there, and what it returns stands in the
relation `R` to what `r` returns. -/
def Yields (h : Heap L) (m : HM L α) (r : Res β) (R : α → Heap L → β → Prop) : Prop :=
  match r with
  | .error e => m.out h = .error e
  | .ok z => ∃ v h', Run h m v h' ∧ Ext h.next h h' ∧ R v h' z

section
variable {h : Heap L}

theorem Yields.pure {v : α} {z : β} {R : α → Heap L → β → Prop} (hr : R v h z) :
    Yields h (Pure.pure v : HM L α) (.ok z) R := ⟨v, h, Run.pure, Ext.refl, hr⟩

theorem Yields.fail {e : PyErr} {R : α → Heap L → β → Prop} : Yields h (HM.lift (.error e) : HM L α) (.error e : Res β) R := rfl

/-- A first part that returns for sure. -/
theorem Yields.act {δ : Type} {m : HM L δ} {v : δ} {h1 : Heap L} {f : δ → HM L α} {r : Res β} {R : α → Heap L → β → Prop}
    (hm : Run h m v h1) (e : Ext h.next h h1) (hf : Yields h1 (f v) r R) : Yields h (m >>= f) r R := by
  cases r with
  | error e => exact Run.raises hm hf
  | ok z =>
    obtain ⟨w, h2, r2, e2, hr⟩ := hf
    exact ⟨w, h2, Run.bind hm r2, e.trans e2 e.le, hr⟩

theorem Yields.read {δ : Type} {m : HM L δ} {v : δ} {f : δ → HM L α} {r : Res β} {R : α → Heap L → β → Prop}
    (hm : Run h m v h) (hf : Yields h (f v) r R) : Yields h (m >>= f) r R := Yields.act hm Ext.refl hf

theorem Yields.lift {δ : Type} {m : Res δ} {f : δ → HM L α} {g : δ → Res β} {R : α → Heap L → β → Prop}
    (hf : ∀ v, m = .ok v → Yields h (f v) (g v) R) :
    Yields h (HM.lift m >>= f) (match m with | .error e => .error e | .ok v => g v) R := by
  cases m with
  | error e => exact HM.raises_left rfl
  | ok v => exact Yields.read (Run.lift rfl) (hf v rfl)

theorem Yields.bind {δ : Type} {m : HM L δ} {f : δ → HM L α} {r : Res γ} {g : γ → Res β} {S : δ → Heap L → γ → Prop}
    {R : α → Heap L → β → Prop} (hm : Yields h m r S)
    (hf : ∀ v h' z, r = .ok z → Ext h.next h h' → S v h' z → Yields h' (f v) (g z) R) :
    Yields h (m >>= f) (match r with | .error e => .error e | .ok z => g z) R := by
  cases r with
  | error e => exact HM.raises_left hm
  | ok z =>
    obtain ⟨v, h', r1, e1, hs⟩ := hm
    exact Yields.act r1 e1 (hf v h' z rfl e1 hs)

theorem Yields.mono {m : HM L α} {r : Res β} {R S : α → Heap L → β → Prop} (hm : Yields h m r R)
    (hs : ∀ v h' z, Ext h.next h h' → R v h' z → S v h' z) : Yields h m r S := by
  cases r with
  | error e => exact hm
  | ok z =>
    obtain ⟨v, h', r1, e1, hr⟩ := hm
    exact ⟨v, h', r1, e1, hs v h' z e1 hr⟩

/-- The larry at the address, all of it at addresses from `b` on. -/
def NewAt (b : Nat) (q : Nat) (h : Heap L) (z : Larry L) : Prop := ∃ o, ObjAt h b q o z

theorem Refines.yields {m : HM L Nat} {r : Res (Larry L)} (hm : Refines h m r) : Yields h m r (NewAt h.next) := by
  cases r with
  | error e => exact hm
  | ok z => exact hm

theorem Yields.refines {m : HM L Nat} {r : Res (Larry L)} (hm : Yields h m r (NewAt h.next)) : Refines h m r := by
  cases r with
  | error e => exact hm
  | ok z => exact hm

/-- A new list of lists. -/
theorem Yields.newLabel {ls : List (List L)} {f : Nat → HM L α} {r : Res β} {R : α → Heap L → β → Prop}
    (hf : ∀ a h', Ext h.next h h' → LabelAt h' h.next a ls → Yields h' (f a) r R) :
    Yields h (newLists ls >>= fun as => La.alloc (.out as) >>= f) r R := by
  obtain ⟨as, h1, a, h2, r1, r2, e, hl⟩ := newLabel_run (h := h) ls
  have := hf a h2 e hl
  cases r with
  | error e => exact Run.raises r1 (Run.raises r2 this)
  | ok z =>
    obtain ⟨w, h3, r3, e3, hr⟩ := this
    exact ⟨w, h3, Run.bind r1 (Run.bind r2 r3), e.trans e3 e.le, hr⟩

theorem Yields.newArray {x : NDArray Val} {d : DType} {f : View → HM L α} {r : Res β} {R : α → Heap L → β → Prop}
    (hf : ∀ v h', Run h (La.newArray x d) v h' → Ext h.next h h' → ArrayAt h' h.next v x d → Yields h' (f v) r R) :
    Yields h (La.newArray x d >>= f) r R := by
  obtain ⟨v, h1, r1, e1, ha⟩ := newArray_run (h := h) x d
  exact Yields.act r1 e1 (hf v h1 r1 e1 ha)

theorem Yields.build {b : Nat} {v : View} {label : Nat} {x : NDArray Val} {d : DType} {ls : List (List L)}
    (ha : ArrayAt h b v x d) (hl : LabelAt h b label ls) :
    Yields h (newLarry v label) (.ok ⟨x, d, ls⟩) (NewAt b) := by
  obtain ⟨q, h', r, e, ho⟩ := newLarry_run ha hl (ha.lo.trans (Nat.le_of_lt ha.hi))
  exact ⟨q, h', r, e, _, ho⟩

theorem Yields.init [DecidableEq L] {b : Nat} {v : View} {label : Nat} {x : NDArray Val} {d : DType} {ls : List (List L)}
    (ha : ArrayAt h b v x d) (hl : LabelAt h b label ls) :
    Yields h (hInit v label) (Larry.mk' x d ls)
      (fun q h' z => ObjAt h' b q ⟨v, label⟩ z ∧ h'.out label = h.out label ∧ q = h.next) := by
  have hv : h.value ⟨v, label⟩ = ⟨x, d, ls⟩ := by
    unfold Heap.value
    rw [ha.get, hl.get, ha.dtype]
  cases hm : Larry.mk' x d ls with
  | error e =>
    refine Run.raises Run.look (HM.raises_left ?_)
    rw [hv]
    exact hm
  | ok z =>
    obtain rfl := mk'_eq hm
    refine ⟨h.next, h.push (.obj ⟨v, label⟩), Run.bind Run.look (Run.bind (v := ⟨x, d, ls⟩) (Run.lift ?_) Run.alloc),
      Ext.push, ⟨ha.lo.trans (Nat.le_of_lt ha.hi), Nat.lt_succ_self _, by simp [Heap.push], ha.ext Ext.push, hl.ext Ext.push⟩,
      Ext.out Ext.push hl.hi, rfl⟩
    rw [hv]
    exact hm

/-! ## The functions -/

variable {p b : Nat} {o : Obj} {y : Larry L}

theorem hGetx_yields (copy : Bool) (ho : ObjAt h b p o y) :
    Yields h (hGetx copy p) (.ok y.x) (fun v h' x => ArrayAt h' (if copy then h.next else b) v x y.dtype ∧
      (copy = false → v = o.x)) := by
  refine Yields.read (Run.getObj ho.cell) (Yields.read Run.look ?_)
  cases copy with
  | true =>
    simp only [if_true]
    obtain ⟨v, h1, r1, e1, ha⟩ := newArray_run (h := h) (h.array o.x) o.x.dtype
    rw [ho.array.get, ho.array.dtype] at ha
    exact ⟨v, h1, r1, e1, ha, by simp⟩
  | false => exact Yields.pure ⟨ho.array, fun _ => rfl⟩

theorem hCopylabel_yields (ho : ObjAt h b p o y) :
    Yields h (hCopylabel p) (.ok y.label) (fun a h' ls => LabelAt h' h.next a ls) := by
  refine Yields.read (Run.getObj ho.cell) ?_
  obtain ⟨a, h1, r1, e1, hl⟩ := copylabel_run (h := h) ho.label
  exact ⟨a, h1, r1, e1, hl⟩

theorem hCov_refines (ho : ObjAt h b p o y) : Refines h (hCov p) (cov y) := by
  refine Yields.refines (Yields.read (Run.value ho) ?_)
  unfold cov
  by_cases hn : y.ndim ≠ 2
  · rw [if_pos hn, if_pos hn]
    exact Yields.fail
  rw [if_neg hn, if_neg hn]
  refine Yields.newLabel (fun a h1 e1 hl => ?_)
  cases hx : covMissing y.x y.dtype with
  | error e => exact HM.raises_left rfl
  | ok x =>
    refine Yields.read (Run.lift rfl) (Yields.newArray (fun v h2 _ e2 ha => ?_))
    exact Yields.build (ha.ext Ext.refl e1.le) (hl.ext e2)

theorem hFlatten_refines (tup : List L → L) (order : String) (ho : ObjAt h b p o y) :
    Refines h (hFlatten tup order p) (Res.map (Larry.rename tup) (y.flatten order)) := by
  refine Yields.refines (Yields.read (Run.value ho) ?_)
  unfold Larry.flatten
  cases hfl : flattenlabel y.label order with
  | error e => exact HM.raises_left rfl
  | ok fl =>
    refine Yields.read (Run.lift rfl) (Yields.newLabel (fun a h1 e1 hl => ?_))
    refine Yields.newArray (fun v h2 _ e2 ha => ?_)
    exact Yields.build (ha.ext Ext.refl e1.le) (hl.ext e2)

theorem hGetlabel_yields (axis : Int) (copy : Bool) (ho : ObjAt h b p o y) :
    Yields h (hGetlabel axis copy p) (y.getlabel axis) (fun a h' l => h'.cell a = some (.lst l) ∧
      (copy = true → h.next ≤ a) ∧ (copy = false → a ∈ h.out o.label)) := by
  refine Yields.read (Run.getObj ho.cell) (Yields.read Run.look (Yields.read Run.look ?_))
  rw [ho.value]
  unfold Larry.getlabel
  by_cases hn : axis ≥ (y.ndim : Int)
  · rw [if_pos hn, if_pos hn]
    exact Yields.fail
  rw [if_neg hn, if_neg hn]
  have hlen := ho.label.out.1.length
  cases hi : pyIdx y.label.length axis with
  | none =>
    rw [pyGet_error hi]
    refine HM.raises_left ?_
    exact pyGet_error (by rw [hlen]; exact hi)
  | some k =>
    have hk := pyIdx_lt hi
    rcases ho.label.out.1.getElem? k with ⟨h1, h2⟩ | ⟨a, l, h1, h2, -, -, h3⟩
    · rw [List.getElem?_eq_none_iff] at h2
      omega
    rw [pyGet_ok.mpr ⟨k, hi, h2⟩]
    refine Yields.read (Run.lift (pyGet_ok.mpr ⟨k, by rw [hlen]; exact hi, h1⟩)) (Yields.read Run.look ?_)
    have hl : h.lst a = l := by unfold Heap.lst; rw [h3]
    cases copy with
    | true => exact ⟨h.next, h.push (.lst (h.lst a)), Run.alloc, Ext.push, by simp [Heap.push, hl], by simp, by simp⟩
    | false => exact Yields.pure ⟨h3, by simp, fun _ => List.mem_of_getElem? h1⟩

theorem hPanel_refines (tup : List L → L) (ho : ObjAt h b p o y) (hf : y.Fits) :
    Refines h (hPanel tup p) (Res.map (Larry.rename (Sum.elim id tup)) (panel y)) := by
  refine Yields.refines (Yields.read (Run.value ho) ?_)
  unfold panel
  by_cases hn : y.ndim ≠ 3
  · rw [if_pos hn, if_pos hn]
    exact Yields.fail
  rw [if_neg hn, if_neg hn]
  obtain ⟨q, h1, r1, e1, o1, ho1⟩ := hCopy_makes ho
  have g1 : Run h1 (getObj q) o1 h1 := Run.getObj ho1.cell
  have g2 : Run h1 (HM.look (fun h => h.value o1)) y h1 := by
    have := Run.look (h := h1) (f := fun h => h.value o1)
    rwa [ho1.value] at this
  have g3 : Run h1 (HM.look (fun h => h.out o1.label)) (h1.out o1.label) h1 := Run.look
  cases hfl : flattenlabel [y.label.getD 1 [], y.label.getD 2 []] "C" with
  | error e => exact Run.raises r1 (Run.raises g1 (Run.raises g2 (Run.raises g3 (HM.raises_left hfl))))
  | ok fl =>
    have hlen : y.label.length = 3 := by
      have h3 : y.shape.length = 3 := by
        have : y.ndim = 3 := by omega
        exact this
      rw [← hf] at h3
      simpa using h3
    obtain ⟨l0, ls, hls⟩ : ∃ l0 ls, y.label = l0 :: ls := by
      cases hyl : y.label with
      | nil => rw [hyl] at hlen; simp at hlen
      | cons l0 ls => exact ⟨l0, ls, rfl⟩
    rcases ho1.label.out.1.getElem? 0 with ⟨_, h2⟩ | ⟨a0, l, h0, h2, hlo, hhi, h3⟩
    · simp [hls] at h2
    have hl0 : l = l0 := by simpa [hls] using h2.symm
    subst hl0
    set hp := h1.push (.lst ((fl.getD 0 []).map tup)) with hhp
    have ep : Ext h1.next h1 hp := Ext.push
    have g4 : Run h1 (alloc (.lst ((fl.getD 0 []).map tup))) h1.next hp := Run.alloc
    have g5 : Run hp (HM.lift (pyGet (h1.out o1.label) 0)) a0 hp :=
      Run.lift (pyGet_ok.mpr ⟨0, pyIdx_ofNat (List.getElem?_eq_some_iff.mp h0).1, h0⟩)
    have hL : ListsAt hp h.next [h1.next, a0] [(fl.getD 0 []).map tup, l] := by
      refine List.Forall₂.cons ⟨e1.le, Nat.lt_succ_self _, by simp [hhp, Heap.push]⟩
        (List.Forall₂.cons ⟨hlo, lt_of_lt_of_le hhi ep.le, ?_⟩ List.Forall₂.nil)
      rw [ep.same _ hhi, h3]
    have e1p := e1.trans ep e1.le
    obtain ⟨r2, e2, hl2⟩ := allocOut_run hL e1p.le
    have e12 := e1p.trans e2 e1p.le
    obtain ⟨h3', r3, e3, ho3⟩ := setLabel_run ((ho1.ext ep).ext e2) hl2
    have e13 := e12.trans (e3.ext ho1.lo e12.le) (le_refl _)
    cases hx : y.x.transpose.reshapeF2 (y.shape.getD 0 0) with
    | error e =>
      exact Run.raises r1 (Run.raises g1 (Run.raises g2 (Run.raises g3 (Run.raises (Run.lift hfl) (Run.raises g4
        (Run.raises g5 (Run.raises r2 (Run.raises r3 (HM.raises_left hx)))))))))
    | ok x =>
      obtain ⟨v, h4, h5, r4, r5, e5, ho5⟩ := newX_run ho3 e13.le x y.dtype
      refine ⟨q, h5, Run.bind r1 (Run.bind g1 (Run.bind g2 (Run.bind g3 (Run.bind (Run.lift hfl) (Run.bind g4 (Run.bind g5
        (Run.bind r2 (Run.bind r3 (Run.bind (Run.lift hx) (Run.bind r4 (Run.bind r5 Run.pure))))))))))),
        e13.trans (e5.ext ho3.lo e13.le) (le_refl _), ?_⟩
      have hz : (Larry.rename (Sum.elim id tup) ⟨x, y.dtype, [(fl.getD 0 []).map Sum.inr, (y.label.getD 0 []).map Sum.inl]⟩ :
          Larry L) = ⟨x, y.dtype, [(fl.getD 0 []).map tup, l]⟩ := by
        simp [Larry.rename, hls, Function.comp_def]
      have hnew : NewAt h.next q h5 ⟨x, y.dtype, [(fl.getD 0 []).map tup, l]⟩ := ⟨_, ho5⟩
      rw [← hz] at hnew
      exact hnew

/-! ### Several larrys -/

/-- There are these larrys. -/
def AllAt (h : Heap L) (b : Nat) (ps : List Nat) (ys : List (Larry L)) : Prop :=
  List.Forall₂ (fun p y => NewAt b p h y) ps ys

theorem AllAt.ext {h' : Heap L} {ps : List Nat} {ys : List (Larry L)} (hp : AllAt h b ps ys) (e : Ext h.next h h')
    {b' : Nat} (hb : b' ≤ b := by exact le_refl _) : AllAt h' b' ps ys :=
  List.Forall₂.imp (fun _ _ ⟨o, ho⟩ => ⟨o, ho.ext e hb⟩) hp

theorem hValues_run {ps : List Nat} {ys : List (Larry L)} (hp : AllAt h b ps ys) : Run h (hValues ps) ys h := by
  unfold AllAt at hp
  induction hp with
  | nil => exact Run.pure
  | cons h1 _ ih =>
    obtain ⟨o, ho⟩ := h1
    exact Run.bind (Run.value ho) (Run.bind ih Run.pure)

section order
variable [LinearOrder L]

theorem hMorphEach_yields (label : List L) {b : Nat} : ∀ {h : Heap L} {l : List (Nat × Int)} {ys : List (Larry L × Int)},
    List.Forall₂ (fun c d => NewAt b c.1 h d.1 ∧ c.2 = d.2) l ys →
    Yields h (hMorphEach label l) (alignAxisMorph label ys) (fun qs h' zs => AllAt h' h.next qs zs)
  | h, [], [], _ => Yields.pure List.Forall₂.nil
  | h, (p, a) :: l, (y, a') :: ys, hl => by
    obtain ⟨⟨⟨o, ho⟩, rfl⟩, hrest⟩ := List.forall₂_cons.mp hl
    dsimp only at ho
    have hm := (hMorph_refines label a ho).yields
    unfold alignAxisMorph mapRes
    dsimp only
    cases hz : y.morph label a with
    | error e =>
      rw [hz] at hm
      exact HM.raises_left hm
    | ok z =>
      rw [hz] at hm
      obtain ⟨q, h1, r1, e1, hq⟩ := hm
      have ih := hMorphEach_yields label (h := h1) (l := l) (ys := ys)
        (List.Forall₂.imp (fun _ _ ⟨⟨o, ho⟩, hc⟩ => ⟨⟨o, ho.ext e1⟩, hc⟩) hrest)
      unfold alignAxisMorph at ih
      refine Yields.act r1 e1 ?_
      cases hzs : mapRes (fun p : Larry L × Int => p.1.morph label p.2) ys with
      | error e =>
        rw [hzs] at ih
        exact HM.raises_left ih
      | ok zs =>
        rw [hzs] at ih
        obtain ⟨qs, h2, r2, e2, hqs⟩ := ih
        refine Yields.act r2 e2 (Yields.pure (List.Forall₂.cons ?_ (hqs.ext Ext.refl e1.le)))
        obtain ⟨oq, hq⟩ := hq
        exact ⟨oq, hq.ext e2⟩

theorem hAlignAxis_yields (axis : List Int) (join : Join) {ps : List Nat} {ys : List (Larry L)} (hp : AllAt h b ps ys) :
    Yields h (hAlignAxis axis join ps) (alignAxisN ys axis join) (fun qs h' zs => AllAt h' h.next qs zs) := by
  refine Yields.read (hValues_run hp) ?_
  unfold alignAxisN
  split
  · exact Yields.fail
  split
  · exact Yields.fail
  split
  · exact Yields.fail
  cases hl : alignAxisLabel ys axis join with
  | error e => exact HM.raises_left rfl
  | ok label =>
    refine Yields.read (Run.lift rfl) (hMorphEach_yields (b := b) label ?_)
    unfold AllAt at hp
    clear * - hp
    induction hp generalizing axis with
    | nil => simp
    | cons h1 _ ih =>
      cases axis with
      | nil => simp
      | cons a axis => exact List.Forall₂.cons ⟨h1, rfl⟩ (ih axis)

theorem hStackPages_yields {b : Nat} (row col : List L) : ∀ {h : Heap L} {kwargs : List (L × Nat)} {ys : List (L × Larry L)} (keys : List L),
    List.Forall₂ (fun c d => c.1 = d.1 ∧ NewAt b c.2 h d.2) kwargs ys →
    Yields h (hStackPages kwargs row col keys) (mapRes (stackKey ys row col) keys) (fun pages _ zs => pages = zs)
  | h, kwargs, ys, [], _ => Yields.pure rfl
  | h, kwargs, ys, key :: keys, hl => by
    unfold mapRes
    have hkw : (∃ e, kwAt kwargs key = .error e ∧ kwGet ys key = .error e) ∨
        ∃ p y, kwAt kwargs key = .ok p ∧ kwGet ys key = .ok y ∧ NewAt b p h y := by
      clear keys
      induction hl with
      | nil => exact Or.inl ⟨.keyError, rfl, rfl⟩
      | @cons c d l l' h1 _ ih =>
        by_cases hk : c.1 = key
        · refine Or.inr ⟨c.2, d.2, ?_, ?_, h1.2⟩
          · simp [kwAt, hk]
          · simp [kwGet, ← h1.1, hk]
        · have e1 : kwAt (c :: l) key = kwAt l key := by simp [kwAt, hk]
          have e2 : kwGet (d :: l') key = kwGet l' key := by simp [kwGet, ← h1.1, hk]
          rw [e1, e2]
          exact ih
    have hk : stackKey ys row col key = match kwGet ys key with
        | .error e => .error e
        | .ok y => match y.morph row 0 with
          | .error e => .error e
          | .ok y => match y.morph col 1 with
            | .error e => .error e
            | .ok y => stackPage row col y := rfl
    rw [hk]
    clear hk
    rcases hkw with ⟨e, h1, h2⟩ | ⟨p, y, h1, h2, o, ho⟩
    · rw [h2]
      exact HM.raises_left h1
    rw [h2]
    refine Yields.read (Run.lift h1) ?_
    dsimp only
    have hm := (hMorph_refines row 0 ho).yields
    cases hz : y.morph row 0 with
    | error e => rw [hz] at hm; exact HM.raises_left hm
    | ok z =>
      rw [hz] at hm
      obtain ⟨q, h1, r1, e1, oq, hq⟩ := hm
      refine Yields.act r1 e1 ?_
      dsimp only
      have hm := (hMorph_refines col 1 hq).yields
      cases hw : z.morph col 1 with
      | error e => rw [hw] at hm; exact HM.raises_left hm
      | ok w =>
        rw [hw] at hm
        obtain ⟨q2, h2, r2, e2, oq2, hq2⟩ := hm
        refine Yields.act r2 e2 (Yields.read (Run.value hq2) ?_)
        dsimp only
        cases hp : stackPage row col w with
        | error e => exact HM.raises_left rfl
        | ok page =>
          refine Yields.read (Run.lift rfl) ?_
          dsimp only
          have e12 := e1.trans e2 e1.le
          have ih := hStackPages_yields row col (h := h2) (kwargs := kwargs) (ys := ys) keys
            (List.Forall₂.imp (fun _ _ ⟨hc, o, ho⟩ => ⟨hc, o, ho.ext e12⟩) hl)
          cases hzs : mapRes (stackKey ys row col) keys with
          | error e => rw [hzs] at ih; exact HM.raises_left ih
          | ok zs =>
            rw [hzs] at ih
            obtain ⟨pages, h3, r3, e3, rfl⟩ := ih
            exact Yields.act r3 e3 (Yields.pure rfl)

theorem hStack_refines (mode : Option Bool) {kwargs : List (L × Nat)} {ys : List (L × Larry L)}
    (hl : List.Forall₂ (fun c d => c.1 = d.1 ∧ NewAt b c.2 h d.2) kwargs ys) :
    Refines h (hStack mode kwargs) (stack mode ys) := by
  have hall : AllAt h b (kwargs.map Prod.snd) (ys.map Prod.snd) := by
    unfold AllAt
    rw [List.forall₂_map_left_iff, List.forall₂_map_right_iff]
    exact List.Forall₂.imp (fun _ _ hc => hc.2) hl
  have hkeys : kwargs.map Prod.fst = ys.map Prod.fst := by
    rw [← List.forall₂_eq_eq_eq]
    rw [List.forall₂_map_left_iff, List.forall₂_map_right_iff]
    exact List.Forall₂.imp (fun _ _ hc => hc.1) hl
  refine Yields.refines (Yields.read (hValues_run hall) ?_)
  unfold stack
  have hcond : (∀ y ∈ ys.map Prod.snd, y.ndim = 2) ↔ ∀ p ∈ ys, p.2.ndim = 2 := by simp only [List.forall_mem_map]
  by_cases hn : ∀ p ∈ ys, p.2.ndim = 2
  swap
  · rw [if_pos hn, if_pos (fun hc => hn (hcond.mp hc))]
    exact Yields.fail
  rw [if_neg (not_not_intro hn), if_neg (not_not_intro (hcond.mpr hn))]
  cases mode with
  | none => exact Yields.fail
  | some m =>
    dsimp only
    cases hrow : (if m then union 0 (ys.map Prod.snd) else intersection 0 (ys.map Prod.snd)) with
    | error e => exact HM.raises_left rfl
    | ok row =>
      refine Yields.read (Run.lift rfl) ?_
      dsimp only
      cases hcol : (if m then union 1 (ys.map Prod.snd) else intersection 1 (ys.map Prod.snd)) with
      | error e => exact HM.raises_left rfl
      | ok col =>
        refine Yields.read (Run.lift rfl) ?_
        dsimp only
        rw [hkeys]
        have ih := hStackPages_yields row col (pySorted (ys.map Prod.fst)) hl
        cases hzs : mapRes (stackKey ys row col) (pySorted (ys.map Prod.fst)) with
        | error e => rw [hzs] at ih; exact HM.raises_left ih
        | ok zs =>
          rw [hzs] at ih
          obtain ⟨pages, h1, r1, e1, rfl⟩ := ih
          refine Yields.act r1 e1 (Yields.newLabel (fun a h2 e2 hl2 => Yields.newArray (fun v h3 _ e3 ha => ?_)))
          exact Yields.mono (Yields.init (ha.ext Ext.refl (e1.le.trans e2.le)) (hl2.ext e3 e1.le))
            (fun q h' z _ hq => ⟨_, hq.1⟩)


/-- What a reference is to, given what the function on values returns. -/
def GotAt (b : Nat) (d : DType) (r : Ref) (h : Heap L) : GetOut L → Prop
  | .scalar _ => r = .scalar
  | .array x => ∃ v, r = .array v ∧ ArrayAt h b v x d
  | .larry z => ∃ q, r = .larry q ∧ NewAt b q h z

omit [LinearOrder L] in
theorem GetRun.yields {d : DType} {m : HM L Ref} {its : List (Item L)} {shallow : Bool} {r : Res (GetOut L)}
    (hm : GetRun h o d m its shallow r) : Yields h m r (fun r h' t => GotAt 0 d r h' t) := by
  cases r with
  | error e => exact hm
  | ok t =>
    cases t with
    | scalar v =>
      obtain ⟨h', r1, e⟩ := hm
      exact ⟨_, h', r1, e, rfl⟩
    | array x =>
      obtain ⟨v, h', r1, e, ha, -⟩ := hm
      exact ⟨_, h', r1, e, v, rfl, ha⟩
    | larry z =>
      obtain ⟨q, h', oq, r1, e, ho, -⟩ := hm
      exact ⟨_, h', r1, e, q, rfl, oq, ho⟩

theorem hSortby_yields (argsort : List Val → List Nat) (element : L) (axis : Int) (reverse : Bool) (ho : ObjAt h 0 p o y)
    (hf : y.Fits) :
    Yields h (hSortby argsort element axis reverse p) (sortby argsort y element axis reverse)
      (fun r h' t => GotAt 0 y.dtype r h' t) := by
  have tail : Yields h (hSortbyTail argsort element axis reverse p)
      (let axis := if axis < 0 then axis + y.ndim else axis
      if ¬ (axis = 0 ∨ axis = 1) then .error .valueError
      else match y.labelindex element (some axis) with
        | .error e => .error e
        | .ok k =>
          if axis = 0 then
            let idx := revIf reverse (argsort ((List.range (y.shape.getD 1 0)).map (fun j => y.x.get [k, j])))
            y.getitem (.tuple [.slice {}, .seq (idx.map (fun i : Nat => (i : Int)))])
          else
            let idx := revIf reverse (argsort ((List.range (y.shape.getD 0 0)).map (fun j => y.x.get [j, k])))
            y.getitem (.tuple [.seq (idx.map (fun i : Nat => (i : Int))), .slice {}]))
      (fun r h' t => GotAt 0 y.dtype r h' t) := by
    refine Yields.read (Run.value ho) ?_
    dsimp only
    generalize (if axis < 0 then axis + (y.ndim : Int) else axis) = ax
    split
    · exact Yields.fail
    cases hk : y.labelindex element (some ax) with
    | error e => exact HM.raises_left rfl
    | ok k =>
      refine Yields.read (Run.lift rfl) ?_
      dsimp only
      split
      · exact (hGetitem_run false _ ho hf).yields
      · exact (hGetitem_run false _ ho hf).yields
  refine Yields.read (Run.value ho) ?_
  unfold sortby
  split
  · exact Yields.fail
  split
  · cases hl : pyGet y.label axis with
    | error e => exact HM.raises_left rfl
    | ok l =>
      refine Yields.read (Run.lift rfl) ?_
      dsimp only
      split
      · obtain ⟨q, h1, r1, e1, o1, ho1⟩ := hCopy_makes ho
        exact Yields.act r1 e1 (Yields.pure ⟨q, rfl, o1, ho1.weaken (Nat.zero_le _)⟩)
      · exact tail
  · exact tail

/-! ### `lix` -/

omit [LinearOrder L] in
theorem hLixLabels_new {it : HItem L} {lab : List L} {l : List (HItem L × Option (List L))} (hit : ∀ a, it ≠ .list a)
    (hrun : hLixLabels ((it, some lab) :: l) = (do
      let a ← La.alloc (.lst lab)
      let bs ← hLixLabels l
      return a :: bs))
    (hl : ∀ a ns, (HItem.list a, some ns) ∈ (it, some lab) :: l → a < h.next ∧ h.cell a = some (.lst ns))
    (ih : (∀ a ns, (HItem.list a, some ns) ∈ l → a < (h.push (.lst lab)).next ∧ (h.push (.lst lab)).cell a = some (.lst ns)) →
      ∃ as h', Run (h.push (.lst lab)) (hLixLabels l) as h' ∧ Ext (h.push (.lst lab)).next (h.push (.lst lab)) h' ∧
        ListsAt h' 0 as (l.filterMap Prod.snd) ∧ (∀ a ns, (HItem.list a, some ns) ∈ l → a ∈ as) ∧
        ∀ a ∈ as, (h.push (.lst lab)).next ≤ a ∨ ∃ ns, (HItem.list a, some ns) ∈ l) :
    ∃ as h', Run h (hLixLabels ((it, some lab) :: l)) as h' ∧ Ext h.next h h' ∧
      ListsAt h' 0 as (((it, some lab) :: l).filterMap Prod.snd) ∧
      (∀ a ns, (HItem.list a, some ns) ∈ (it, some lab) :: l → a ∈ as) ∧
      ∀ a ∈ as, h.next ≤ a ∨ ∃ ns, (HItem.list a, some ns) ∈ (it, some lab) :: l := by
  have e0 : Ext h.next h (h.push (.lst lab)) := Ext.push
  obtain ⟨as, h', r, e, hs, hin, hout⟩ := ih (fun a ns ha => by
    obtain ⟨h1, h2⟩ := hl a ns (List.mem_cons_of_mem _ ha)
    exact ⟨lt_of_lt_of_le h1 e0.le, by rw [e0.same _ h1, h2]⟩)
  refine ⟨h.next :: as, h', ?_, e0.trans e e0.le, ?_, ?_, ?_⟩
  · rw [hrun]
    exact Run.bind Run.alloc (Run.bind r Run.pure)
  · refine List.Forall₂.cons ⟨Nat.zero_le _, lt_of_lt_of_le (Nat.lt_succ_self _) e.le, ?_⟩ hs
    rw [e.same _ (Nat.lt_succ_self _)]
    simp [Heap.push]
  · intro a ns ha
    rcases List.mem_cons.mp ha with ha | ha
    · simp only [Prod.mk.injEq] at ha
      exact absurd ha.1.symm (hit a)
    · exact List.mem_cons_of_mem _ (hin a ns ha)
  · intro a ha
    rcases List.mem_cons.mp ha with rfl | ha
    · exact Or.inl (le_refl _)
    · rcases hout a ha with h1 | ⟨ns, h1⟩
      · exact Or.inl (e0.le.trans h1)
      · exact Or.inr ⟨ns, List.mem_cons_of_mem _ h1⟩

omit [LinearOrder L] in
/-- The lists collected: those between the brackets, and new ones. -/
theorem hLixLabels_run : ∀ (l : List (HItem L × Option (List L))) (h : Heap L),
    (∀ a ns, (HItem.list a, some ns) ∈ l → a < h.next ∧ h.cell a = some (.lst ns)) →
    ∃ as h', Run h (hLixLabels l) as h' ∧ Ext h.next h h' ∧ ListsAt h' 0 as (l.filterMap Prod.snd) ∧
      (∀ a ns, (HItem.list a, some ns) ∈ l → a ∈ as) ∧ ∀ a ∈ as, h.next ≤ a ∨ ∃ ns, (HItem.list a, some ns) ∈ l
  | [], h, _ => ⟨[], h, Run.pure, Ext.refl, List.Forall₂.nil, by simp, by simp⟩
  | (it, none) :: l, h, hl => by
    obtain ⟨as, h', r, e, hs, hin, hout⟩ := hLixLabels_run l h (fun a ns ha => hl a ns (List.mem_cons_of_mem _ ha))
    refine ⟨as, h', ?_, e, ?_, ?_, ?_⟩
    · cases it <;> exact r
    · simpa using hs
    · intro a ns ha
      rcases List.mem_cons.mp ha with ha | ha
      · simp at ha
      · exact hin a ns ha
    · intro a ha
      rcases hout a ha with h1 | ⟨ns, h1⟩
      · exact Or.inl h1
      · exact Or.inr ⟨ns, List.mem_cons_of_mem _ h1⟩
  | (.list a, some ns) :: l, h, hl => by
    obtain ⟨as, h', r, e, hs, hin, hout⟩ := hLixLabels_run l h (fun a ns ha => hl a ns (List.mem_cons_of_mem _ ha))
    obtain ⟨h1, h2⟩ := hl a ns List.mem_cons_self
    refine ⟨a :: as, h', Run.bind r Run.pure, e, ?_, ?_, ?_⟩
    · exact List.Forall₂.cons ⟨Nat.zero_le _, lt_of_lt_of_le h1 e.le, by rw [e.same _ h1, h2]⟩ hs
    · intro a' ns' ha
      rcases List.mem_cons.mp ha with ha | ha
      · simp only [Prod.mk.injEq, HItem.list.injEq] at ha
        rw [ha.1]
        exact List.mem_cons_self
      · exact List.mem_cons_of_mem _ (hin a' ns' ha)
    · intro a' ha
      rcases List.mem_cons.mp ha with rfl | ha
      · exact Or.inr ⟨ns, List.mem_cons_self⟩
      · rcases hout a' ha with h1 | ⟨ns, h1⟩
        · exact Or.inl h1
        · exact Or.inr ⟨ns, List.mem_cons_of_mem _ h1⟩
  | (.slice s, some lab) :: l, h, hl => hLixLabels_new (it := .slice s) (by simp) rfl hl
      (fun hl' => hLixLabels_run l (h.push (.lst lab)) hl')
  | (.int i, some lab) :: l, h, hl => hLixLabels_new (it := .int i) (by simp) rfl hl
      (fun hl' => hLixLabels_run l (h.push (.lst lab)) hl')
  | (.other, some lab) :: l, h, hl => hLixLabels_new (it := .other) (by simp) rfl hl
      (fun hl' => hLixLabels_run l (h.push (.lst lab)) hl')

/-- The labels collected, entry by entry. -/
theorem sels_zip {l : List (HItem L)} : ∀ {k : Nat} {sels : List (List Int × Option (List L))},
    List.Forall₂ (fun (p : LItem L × Nat) s => p.1.sel y p.2 = .ok s) ((l.map (HItem.value h)).zipIdx k) sels →
    (l.zip (sels.map Prod.snd)).filterMap Prod.snd = sels.filterMap Prod.snd ∧
    (∀ a ns, (HItem.list a, some ns) ∈ l.zip (sels.map Prod.snd) → HItem.list a ∈ l ∧ ns = h.lst a) ∧
    ∀ a, HItem.list a ∈ l → 1 < (h.lst a).length → (HItem.list a, some (h.lst a)) ∈ l.zip (sels.map Prod.snd) := by
  induction l with
  | nil =>
    intro k sels hs
    cases hs
    simp
  | cons it l ih =>
    intro k sels hs
    rw [List.map_cons, List.zipIdx_cons] at hs
    cases hs with
    | @cons _ s _ sels h1 h2 =>
      obtain ⟨i1, i2, i3⟩ := ih h2
      have hsel : ∀ a, it = .list a → s.2 = if (h.lst a).length > 1 then some (h.lst a) else none := by
        rintro a rfl
        simp only [HItem.value, LItem.sel] at h1
        split at h1
        · simp at h1
        · simp only [Except.ok.injEq] at h1
          rw [← h1]
      refine ⟨?_, ?_, ?_⟩
      · simp only [List.map_cons, List.zip_cons_cons, List.filterMap_cons]
        cases s.2 with
        | none => exact i1
        | some lab => simp only [i1]
      · intro a ns ha
        simp only [List.map_cons, List.zip_cons_cons, List.mem_cons, Prod.mk.injEq] at ha
        rcases ha with ⟨rfl, ha⟩ | ha
        · refine ⟨List.mem_cons_self, ?_⟩
          rw [hsel a rfl] at ha
          split at ha
          · simpa using ha
          · simp at ha
        · exact ⟨List.mem_cons_of_mem _ (i2 a ns ha).1, (i2 a ns ha).2⟩
      · intro a ha hlen
        simp only [List.map_cons, List.zip_cons_cons, List.mem_cons, Prod.mk.injEq]
        rcases List.mem_cons.mp ha with rfl | ha
        · refine Or.inl ⟨rfl, ?_⟩
          rw [hsel a rfl, if_pos hlen]
        · exact Or.inr (i3 a ha hlen)

/-- `y.lix[...]` with a tuple. -/
theorem hLixTuple_yields {its : List (HItem L)} (ho : ObjAt h b p o y) (hs : y.shape ≠ [0])
    (hits : ∀ a, HItem.list a ∈ its → a < h.next ∧ h.cell a = some (.lst (h.lst a))) :
    Yields h (hLix (.tuple its) p) (y.lixGet ((HIndex.tuple its).value h)) (fun r h' t => GotAt 0 y.dtype r h' t ∧
      ∀ q, r = .larry q → ∃ oq, h'.cell q = some (.obj oq) ∧ h.next ≤ q ∧ h.next ≤ oq.x.buf ∧ h.next ≤ oq.label ∧
        (∀ a, HItem.list a ∈ its → 1 < (h.lst a).length → a ∈ h'.out oq.label) ∧
        ∀ a ∈ h'.out oq.label, h.next ≤ a ∨ HItem.list a ∈ its) := by
  refine Yields.read (Run.value ho) ?_
  unfold Larry.lixGet
  rw [if_neg hs, if_neg hs]
  by_cases h0 : 0 ∈ y.shape
  · rw [if_pos h0, if_pos h0]
    exact Yields.fail
  rw [if_neg h0, if_neg h0]
  refine Yields.read Run.look ?_
  simp only [HIndex.value]
  cases hsel : lixSel y (its.map (HItem.value h)) with
  | error e => exact HM.raises_left rfl
  | ok sels =>
    refine Yields.read (Run.lift rfl) ?_
    dsimp only
    have hfor : List.Forall₂ (fun (p : LItem L × Nat) s => p.1.sel y p.2 = .ok s)
        (((its ++ List.replicate (y.ndim - its.length) (HItem.slice {})).map (HItem.value h)).zipIdx 0) sels := by
      unfold lixSel at hsel
      split at hsel
      · simp at hsel
      rw [List.length_map] at hsel
      rw [List.map_append, List.map_replicate]
      exact mapRes_ok.mp hsel
    obtain ⟨z1, z2, z3⟩ := sels_zip hfor
    have hpad : ∀ a, HItem.list a ∈ its ++ List.replicate (y.ndim - its.length) (HItem.slice (L := L) {}) → HItem.list a ∈ its := by
      intro a ha
      rcases List.mem_append.mp ha with ha | ha
      · exact ha
      · simp [List.mem_replicate] at ha
    obtain ⟨as, h1, r1, e1, hl1, hin, hout⟩ := hLixLabels_run _ h (fun a ns ha => by
      obtain ⟨i1, rfl⟩ := z2 a ns ha
      exact hits a (hpad a i1))
    refine Yields.act r1 e1 ?_
    cases hids : ixIds y.shape (sels.map Prod.fst) with
    | error e => exact HM.raises_left rfl
    | ok ids =>
      refine Yields.read (Run.lift rfl) (Yields.newArray (fun v h2 _ e2 ha => ?_))
      dsimp only
      by_cases hsh : (y.x.grid ids).squeeze.shape = []
      · rw [if_pos (ha.shape.trans hsh), if_pos hsh]
        exact Yields.pure ⟨rfl, fun q hq => by simp at hq⟩
      · rw [if_neg (fun hc => hsh (ha.shape.symm.trans hc)), if_neg hsh]
        rw [z1] at hl1
        obtain ⟨r3, e3, hl3⟩ := allocOut_run (hl1.ext e2) (Nat.zero_le _)
        refine Yields.act r3 e3 ?_
        have hi := Yields.init (ha.ext e3 (Nat.zero_le _)) hl3
        cases hmk : Larry.mk' (y.x.grid ids).squeeze y.dtype (sels.filterMap Prod.snd) with
        | error e =>
          rw [hmk] at hi
          exact HM.raises_left hi
        | ok z =>
          rw [hmk] at hi
          obtain ⟨q, h4, r4, e4, ho4, ho4', hqe⟩ := hi
          refine Yields.act r4 e4 (Yields.pure ⟨⟨q, rfl, _, ho4⟩, ?_⟩)
          have hq : h.next ≤ q := by
            rw [hqe]
            exact e1.le.trans (e2.le.trans e3.le)
          rintro q' hq'
          cases hq'
          have h4out : h4.out h2.next = as := by
            rw [ho4']
            simp [Heap.out, Heap.push]
          refine ⟨_, ho4.cell, hq, e1.le.trans ha.lo, e1.le.trans e2.le, ?_, ?_⟩
          · intro a hmem hlen
            rw [h4out]
            exact hin a _ (z3 a (List.mem_append_left _ hmem) hlen)
          · intro a hmem
            rw [h4out] at hmem
            rcases hout a hmem with hn | ⟨ns, hn⟩
            · exact Or.inl hn
            · exact Or.inr (hpad a (z2 a ns hn).1)


theorem hLixOne_yields (it : HItem L) (ho : ObjAt h 0 p o y) (hf : y.Fits) :
    Yields h (hLix (.one it) p) (y.lixGet ((HIndex.one it).value h)) (fun r h' t => GotAt 0 y.dtype r h' t) := by
  refine Yields.read (Run.value ho) ?_
  unfold Larry.lixGet
  split
  · exact Yields.pure ⟨p, rfl, o, ho⟩
  split
  · exact Yields.fail
  refine Yields.read Run.look ?_
  simp only [HIndex.value]
  cases hone : y.lixOne (it.value h) with
  | error e => exact HM.raises_left rfl
  | ok np => exact Yields.read (Run.lift rfl) (hGetitem_run true _ ho hf).yields

theorem hLix_yields {idx : HIndex L} (ho : ObjAt h 0 p o y) (hf : y.Fits)
    (hits : ∀ its, idx = .tuple its → ∀ a, HItem.list a ∈ its → a < h.next ∧ h.cell a = some (.lst (h.lst a))) :
    Yields h (hLix idx p) (y.lixGet (idx.value h)) (fun r h' t => GotAt 0 y.dtype r h' t) := by
  cases idx with
  | one it => exact hLixOne_yields it ho hf
  | tuple its =>
    by_cases hs : y.shape = [0]
    · refine Yields.read (Run.value ho) ?_
      unfold Larry.lixGet
      rw [if_pos hs, if_pos hs]
      exact Yields.pure ⟨p, rfl, o, ho⟩
    · exact (hLixTuple_yields ho hs (hits its rfl)).mono (fun _ _ _ _ hr => hr.1)

end order

/-! ### Creating -/

section create
variable [DecidableEq L]

/-- The list of lists given, if one is given. -/
def GivenAt (h : Heap L) : Option Nat → Option (List (List L)) → Prop
  | none, none => True
  | some a, some ls => LabelAt h 0 a ls
  | _, _ => False

/-- A new larry with a new array of its own; its list of lists is the one given, or new. -/
def CreatedAt (b : Nat) (label : Option Nat) (q : Nat) (h : Heap L) (z : Larry L) : Prop :=
  ∃ o, ObjAt h 0 q o z ∧ b ≤ q ∧ b ≤ o.x.buf ∧ o.x.Inj ∧ (∀ a, label = some a → o.label = a) ∧
    (label = none → ObjAt h b q o z)

theorem hLarryOf_yields (num : Nat → L) (x : NDArray Val) (d : DType) {label : Option Nat} {ls : Option (List (List L))}
    (hl : GivenAt h label ls) :
    Yields h (hLarryOf num x d label) (larryOf num x d ls) (CreatedAt h.next label) := by
  refine Yields.newArray (fun v h1 r1 e1 ha => ?_)
  cases label with
  | some a =>
    cases ls with
    | none => exact absurd hl id
    | some ls =>
      refine Yields.mono (Yields.init (ha.ext Ext.refl (Nat.zero_le _)) (LabelAt.ext hl e1)) (fun q h' z e ⟨ho, _, hq⟩ => ?_)
      exact ⟨_, ho, by rw [hq]; exact e1.le, ha.lo, newArray_inj r1, fun a' ha' => by simpa using ha', by simp⟩
  | none =>
    cases ls with
    | some ls => exact absurd hl id
    | none =>
      refine Yields.newLabel (fun a h2 e2 hl2 => ?_)
      refine Yields.mono (Yields.init (ha.ext e2) (hl2.ext Ext.refl e1.le)) (fun q h' z e ⟨ho, _, hq⟩ => ?_)
      exact ⟨_, ho.weaken (Nat.zero_le _), ho.lo, ha.lo, newArray_inj r1, by simp, fun _ => ho⟩

omit [DecidableEq L] in
theorem hLabels_run {label : Option Nat} {ls : Option (List (List L))} (hl : GivenAt h label ls) :
    Run h (hLabels label) ls h := by
  cases label with
  | none =>
    cases ls with
    | none => exact Run.pure
    | some ls => exact absurd hl id
  | some a =>
    cases ls with
    | none => exact absurd hl id
    | some ls =>
      have := Run.bind (Run.look (h := h) (f := fun h => (h.out a).map h.lst)) (f := fun ls => (pure (some ls) : HM L _)) Run.pure
      rw [LabelAt.get hl] at this
      exact this

theorem hLrange_yields (num : Nat → L) (shape : Option (List Nat)) {label : Option Nat} {ls : Option (List (List L))}
    (hl : GivenAt h label ls) (start step : Int) (dtype : Option DType) :
    Yields h (hLrange num shape label start step dtype) (lrange num shape ls start step dtype) (CreatedAt h.next label) := by
  refine Yields.read (hLabels_run hl) ?_
  unfold lrange
  cases hs : askedShape shape ls with
  | error e => exact HM.raises_left rfl
  | ok sh =>
    refine Yields.read (Run.lift rfl) ?_
    dsimp only
    split
    · exact Yields.fail
    split
    · exact Yields.fail
    split
    · exact Yields.fail
    · exact hLarryOf_yields num _ _ hl

theorem hEmptyLike_yields (mem : List Nat → Val) (num : Nat → L) (shape : Option (List Nat)) {label : Option Nat}
    {ls : Option (List (List L))} (hl : GivenAt h label ls) (dtype : Option DType) :
    Yields h (hEmptyLike mem num shape label dtype) (emptyLike mem num shape ls dtype) (CreatedAt h.next label) := by
  refine Yields.read (hLabels_run hl) ?_
  unfold emptyLike
  cases hs : askedShape shape ls with
  | error e => exact HM.raises_left rfl
  | ok sh => exact Yields.read (Run.lift rfl) (hLarryOf_yields num _ _ hl)

theorem hFilled_yields (mem : List Nat → Val) (num : Nat → L) (n : Int) (shape : Option (List Nat)) {label : Option Nat}
    {ls : Option (List (List L))} (hl : GivenAt h label ls) (dtype : Option DType) :
    Yields h (hFilled mem num n shape label dtype) (filled mem num n shape ls dtype)
      (fun q h' z => ∃ z', CreatedAt h.next label q h' z' ∧ z'.Same z) := by
  have he := hEmptyLike_yields mem num shape hl dtype
  unfold filled
  cases hm : emptyLike mem num shape ls dtype with
  | error e =>
    rw [hm] at he
    exact HM.raises_left he
  | ok w =>
    rw [hm] at he
    obtain ⟨q, h1, r1, e1, o, ho, hq, hb, hinj, hlab, hnew⟩ := he
    obtain ⟨h2, r2, e2, x', ha', hx1, hx2⟩ := writeWhere_run ho.array (fun _ => true)
      (fun _ => intAs o.x.dtype n)
    refine ⟨q, h2, Run.bind r1 (Run.bind (Run.getObj ho.cell) (Run.bind r2 Run.pure)), ?_, ⟨x', w.dtype, w.label⟩,
      ⟨o, ho.rewrite e2 ha', hq, hb, hinj, hlab, ?_⟩, ?_⟩
    · exact e1.trans (e2.ext hb e1.le) (le_refl _)
    · intro hn
      exact (hnew hn).rewrite e2 ⟨hb, ha'.hi, ha'.dtype, ha'.data⟩
    · refine ⟨rfl, rfl, ?_⟩
      have := hx2 hinj
      have hd : o.x.dtype = w.dtype := ho.array.dtype
      rw [hd] at this
      refine ⟨hx1, fun i hi => ?_⟩
      exact this.2 i hi

end create
end
end La
