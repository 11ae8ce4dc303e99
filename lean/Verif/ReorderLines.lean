import Verif.ReorderJoin
import Verif.Props.Group

/-! # Order of labels: reductions, functions along an axis, missing values (property C66) -/

namespace La
open Larry
variable {L : Type _}

/-- A function of a list that does not look at the order. -/
def Unordered {α β : Type _} (f : List α → β) : Prop := ∀ vs ws : List α, vs.Perm ws → f vs = f ws

/-- Each element goes to a value that depends on the element and, regardless of their order, on all of them. -/
def Pointwise (f : List Val → List Val) : Prop :=
  ∃ g : List Val → Val → Val, (∀ vs, f vs = vs.map (g vs)) ∧ Unordered g

open Classical in
/-- A value with a property. -/
noncomputable def someVal (P : Val → Prop) : Val := if h : ∃ v, P v then h.choose else .none

/-- The value under `names`. -/
noncomputable def Larry.valueAt (y : Larry L) (names : List L) : Val := someVal (y.Has names)

theorem valueAt_of {y : Larry L} (hy : y.Valid) {names : List L} {v : Val} (h : y.Has names v) :
    y.valueAt names = v := by
  have h' : ∃ v, y.Has names v := ⟨v, h⟩
  unfold Larry.valueAt someVal
  rw [dif_pos h']
  exact Holds_unique hy.nodup h'.choose_spec h

theorem Larry.Reordered.valueAt_eq {y y' : Larry L} (h : y.Reordered y') : y.valueAt = y'.valueAt := by
  funext names
  exact congrArg someVal (funext fun v => propext (h.has names v))

theorem reordered_of {z z' : Larry L} (hd : z.dtype = z'.dtype)
    (hl : List.Forall₂ List.Perm z.label z'.label)
    (h : ∀ names v v', z.Has names v → z'.Has names v' → v = v') : z.Reordered z' := by
  refine ⟨hd, hl, fun names v => ⟨fun hv => ?_, fun hv => ?_⟩⟩
  · obtain ⟨v', hv'⟩ := Holds_of_Named (x := z'.x) ((named_congr hl names).mp (Named_of_Holds hv))
    rw [h names v v' hv hv']; exact hv'
  · obtain ⟨v', hv'⟩ := Holds_of_Named (x := z.x) ((named_congr hl names).mpr (Named_of_Holds hv))
    rw [← h names v' v hv' hv]; exact hv'

/-! ## All elements -/

theorem vals_eq {y : Larry L} (hy : y.Valid) :
    y.x.vals = ((allIdx y.x.shape).map (namesOf y.label)).map y.valueAt := by
  rw [List.map_map]
  refine List.map_congr_left fun idx hidx => ?_
  have : InB (y.label.map List.length) idx := by rw [← hy.shape_eq]; exact mem_allIdx.mp hidx
  obtain ⟨names, hn⟩ := At_of_inB this
  simp only [Function.comp, namesOf_at hn]
  exact (valueAt_of hy ⟨idx, hn, rfl⟩).symm

theorem names_perm {y y' : Larry L} (hy : y.Valid) (hy' : y'.Valid) (h : y.Reordered y') :
    ((allIdx y.x.shape).map (namesOf y.label)).Perm ((allIdx y'.x.shape).map (namesOf y'.label)) := by
  have nd : ∀ z : Larry L, z.Valid → ((allIdx z.x.shape).map (namesOf z.label)).Nodup := by
    intro z hz
    refine List.Nodup.map_on ?_ (nodup_allIdx _)
    intro i hi j hj he
    rw [mem_allIdx, hz.shape_eq] at hi hj
    obtain ⟨n, hn⟩ := At_of_inB hi
    obtain ⟨m, hm⟩ := At_of_inB hj
    rw [namesOf_at hn, namesOf_at hm] at he
    subst he
    exact At_unique hz.nodup hn hm
  have mem : ∀ z : Larry L, z.Valid → ∀ names, names ∈ (allIdx z.x.shape).map (namesOf z.label) ↔ Named z.label names := by
    intro z hz names
    rw [List.mem_map]
    constructor
    · rintro ⟨i, hi, rfl⟩
      rw [mem_allIdx, hz.shape_eq] at hi
      obtain ⟨n, hn⟩ := At_of_inB hi
      rw [namesOf_at hn]
      exact Named_of_At hn
    · intro hN
      obtain ⟨i, hi⟩ := At_of_Named hN
      exact ⟨i, by rw [mem_allIdx, hz.shape_eq]; exact At_inB hi, namesOf_at hi⟩
  rw [List.perm_ext_iff_of_nodup (nd y hy) (nd y' hy')]
  intro names
  rw [mem y hy, mem y' hy', named_congr h.label]

theorem vals_perm {y y' : Larry L} (hy : y.Valid) (hy' : y'.Valid) (h : y.Reordered y') :
    y.x.vals.Perm y'.x.vals := by
  rw [vals_eq hy, vals_eq hy', h.valueAt_eq]
  exact (names_perm hy hy' h).map _

/-! ## Lines -/

theorem line_eq {y : Larry L} (hy : y.Valid) {ax : Nat} {rest : List L} {vs : List Val} (h : y.LineAt ax rest vs)
    {l : List L} (hl : y.label[ax]? = some l) : vs = l.map (fun b => y.valueAt (rest.insertIdx ax b)) := by
  obtain ⟨l', hl', hlen, hh⟩ := h
  rw [hl] at hl'
  simp only [Option.some.injEq] at hl'
  subst hl'
  refine List.ext_getElem (by simpa using hlen) fun i h1 h2 => ?_
  rw [List.getElem_map]
  exact (valueAt_of hy (hh i _ _ (List.getElem?_eq_getElem (by omega)) (List.getElem?_eq_getElem h1))).symm

theorem line_perm {y y' : Larry L} (hy : y.Valid) (hy' : y'.Valid) (h : y.Reordered y') {ax : Nat} {rest : List L}
    {vs vs' : List Val} (hl : y.LineAt ax rest vs) (hl' : y'.LineAt ax rest vs') : vs.Perm vs' := by
  obtain ⟨l, e, _⟩ := id hl
  obtain ⟨l', e', _⟩ := id hl'
  obtain ⟨l'', e'', hp⟩ := h.get? e
  rw [e'] at e''
  simp only [Option.some.injEq] at e''
  subst e''
  rw [line_eq hy hl e, line_eq hy' hl' e', h.valueAt_eq]
  exact hp.map _

/-- A function along an axis, seen through the values of one line and the label. -/
theorem along_agree {y y' : Larry L} (hy : y.Valid) (hy' : y'.Valid) (h : y.Reordered y') {ax : Nat} {l l' : List L}
    (hl : y.label[ax]? = some l) (hl' : y'.label[ax]? = some l') {f f' : List Val → List Val}
    (hf : ∀ vs, (f vs).length = vs.length) (hf' : ∀ vs, (f' vs).length = vs.length) (d : DType)
    (hff : ∀ (W : L → Val) (b : L) (i j : Nat), l[i]? = some b → l'[j]? = some b →
      (f (l.map W))[i]? = (f' (l'.map W))[j]?) : (y.along f d ax).Reordered (y'.along f' d ax) := by
  refine reordered_of rfl h.label ?_
  intro names v v' hv hv'
  obtain ⟨vs, i, b, h1, -, h3, h4, h5⟩ := (holds_mapLines hy hl f .none hf names v).mp hv
  obtain ⟨vs', j, b', h1', -, h3', h4', h5'⟩ := (holds_mapLines hy' hl' f' .none hf' names v').mp hv'
  rw [h3] at h3'
  simp only [Option.some.injEq] at h3'
  subst h3'
  rw [line_eq hy h1 hl] at h5
  rw [line_eq hy' h1' hl', ← h.valueAt_eq, ← hff _ b i j h4 h4', h5] at h5'
  simpa using h5'

theorem Pointwise.length {f : List Val → List Val} (h : Pointwise f) (vs : List Val) : (f vs).length = vs.length := by
  obtain ⟨g, h1, -⟩ := h
  simp [h1]

theorem along_pointwise {y y' : Larry L} (hy : y.Valid) (hy' : y'.Valid) (h : y.Reordered y') {ax : Nat} {l : List L}
    (hl : y.label[ax]? = some l) {f : List Val → List Val} (hf : Pointwise f) (d : DType) :
    (y.along f d ax).Reordered (y'.along f d ax) := by
  obtain ⟨l', hl', hp⟩ := h.get? hl
  refine along_agree hy hy' h hl hl' hf.length hf.length d fun W b i j hi hj => ?_
  obtain ⟨g, h1, h2⟩ := hf
  rw [h1, h1, h2 _ _ (hp.map W)]
  simp [hi, hj]

theorem alongAll_pointwise {y y' : Larry L} (hy : y.Valid) (hy' : y'.Valid) (h : y.Reordered y')
    {f : List Val → List Val} (hf : Pointwise f) (d : DType) :
    (y.alongAll f d).Reordered (y'.alongAll f d) := by
  obtain ⟨g, h1, h2⟩ := hf
  refine reordered_of rfl h.label ?_
  have key : ∀ (w : Larry L), w.Valid → ∀ names v, (w.alongAll f d).Has names v → v = g w.x.vals (w.valueAt names) := by
    rintro w hw names v ⟨idx, hat, rfl⟩
    have hat' : At w.label idx names := hat
    have hin : InB w.x.shape idx := by rw [hw.shape_eq]; exact At_inB hat'
    have hval : w.x.vals[rowMajor w.x.shape idx]? = some (w.x.get idx) := by
      simp only [NDArray.vals, List.getElem?_map, allIdx_getElem? hin, Option.map_some]
    rw [valueAt_of hw ⟨idx, hat', rfl⟩]
    simp only [Larry.alongAll, ravelC_eq, List.getD, h1, List.getElem?_map, hval, Option.map_some, Option.getD_some]
  intro names v v' hv hv'
  rw [key y hy names v hv, key y' hy' names v' hv', h2 _ _ (vals_perm hy hy' h), h.valueAt_eq]

theorem map_agree {y y' : Larry L} (hy' : y'.Valid) (h : y.Reordered y') (g : Val → Val) (d : DType) :
    (⟨y.x.map g, d, y.label⟩ : Larry L).Reordered ⟨y'.x.map g, d, y'.label⟩ := by
  refine reordered_of rfl h.label ?_
  rintro names v v' ⟨idx, hat, rfl⟩ ⟨idx', hat', rfl⟩
  exact congrArg g (Holds_unique hy'.nodup ((h.has names _).mp ⟨idx, hat, rfl⟩) ⟨idx', hat', rfl⟩)

/-! ## Reductions -/

theorem reduceAx_agree {y y' : Larry L} (hy : y.Valid) (hy' : y'.Valid) (h : y.Reordered y') {ax : Nat} {l : List L}
    (hl : y.label[ax]? = some l) {β : Type _} {f : List Val → β} (hf : Unordered f) (rest : List L) (v : β) :
    Holds (y.label.eraseIdx ax) (y.x.reduceAx f ax) rest v ↔
      Holds (y'.label.eraseIdx ax) (y'.x.reduceAx f ax) rest v := by
  obtain ⟨l', hl', hp⟩ := h.get? hl
  rw [holds_reduceAx hy hl, holds_reduceAx hy' hl', named_congr (forall₂_eraseIdx h.label ax)]
  refine and_congr_right fun hN => ?_
  have hN' := (named_congr (forall₂_eraseIdx h.label ax) rest).mpr hN
  obtain ⟨r, hr⟩ := At_of_Named hN'
  obtain ⟨r', hr'⟩ := At_of_Named hN
  have h1 := line_at hy hl hr
  have h2 := line_at hy' hl' hr'
  constructor
  · rintro ⟨vs, hvs, rfl⟩
    exact ⟨_, h2, hf _ _ (line_perm hy hy' h hvs h2)⟩
  · rintro ⟨vs, hvs, rfl⟩
    exact ⟨_, h1, (hf _ _ (line_perm hy hy' h h1 hvs)).symm⟩

theorem size_agree {y y' : Larry L} (hy : y.Valid) (hy' : y'.Valid) (h : y.Reordered y') : y.size = y'.size := by
  simp [Larry.size, NDArray.size, h.shape_eq hy hy']

theorem pyPop_label {y y' : Larry L} (h : y.Reordered y') (axis : Int) :
    Res.Agree (List.Forall₂ List.Perm) (pyPop y.label axis) (pyPop y'.label axis) := by
  unfold pyPop
  rw [← h.label.length_eq]
  cases pyIdx y.label.length axis with
  | none => exact rfl
  | some k => exact forall₂_eraseIdx h.label k

theorem full_holds {label : List (List L)} {shape : List Nat} {v : Val} {names : List L} {w : Val} :
    Holds label (NDArray.full shape v) names w ↔ Named label names ∧ w = v := by
  constructor
  · rintro ⟨idx, h, rfl⟩; exact ⟨Named_of_At h, rfl⟩
  · rintro ⟨h, rfl⟩
    obtain ⟨idx, h⟩ := At_of_Named h
    exact ⟨idx, h, rfl⟩

theorem reduce_agree {y y' : Larry L} (hy : y.Valid) (hy' : y'.Valid) (h : y.Reordered y') {r : Red}
    (hr : Unordered r.f) (axis : Option Int) : Res.Agree Out.Reordered (y.reduce r axis) (y'.reduce r axis) := by
  have hs : y.shape = y'.shape := h.shape_eq hy hy'
  have hn := h.ndim_eq hy hy'
  unfold Larry.reduce
  rw [← size_agree hy hy' h, ← h.dtype_eq, ← hs, ← hn]
  split
  · cases axis with
    | none => exact rfl
    | some axis =>
      dsimp only
      cases pyPop y.shape axis with
      | error e => exact rfl
      | ok shape =>
        dsimp only
        split
        · exact rfl
        · cases fillVal? (if r.logical = true then DType.bool else y.dtype) r.default with
          | error e => exact rfl
          | ok v =>
            dsimp only
            rcases (pyPop_label h axis).cases with ⟨a, b, e1, e2, hp⟩ | ⟨e, e1, e2⟩
            · rw [e1, e2]
              refine ⟨rfl, hp, fun names w => ?_⟩
              show Holds a _ _ _ ↔ Holds b _ _ _
              rw [full_holds, full_holds, named_congr hp]
            · rw [e1, e2]; exact rfl
  · cases r.dt y.dtype with
    | error e => exact rfl
    | ok d =>
      dsimp only
      cases axis with
      | none => exact congrArg Out.scalar (hr _ _ (vals_perm hy hy' h)) ▸ rfl
      | some axis =>
        dsimp only
        cases hax : pyIdx y.ndim axis with
        | none => exact rfl
        | some ax =>
          obtain ⟨l, hl, _⟩ := label_at hy hax
          have hred := fun rest v => reduceAx_agree hy hy' h hl hr rest v
          have hsh : (y.x.reduceAx r.f ax).shape = (y'.x.reduceAx r.f ax).shape := by
            show y.x.shape.eraseIdx ax = y'.x.shape.eraseIdx ax
            rw [h.shape_eq hy hy']
          dsimp only
          rw [← hsh]
          split
          · rename_i h0
            show (y.x.reduceAx r.f ax).get [] = (y'.x.reduceAx r.f ax).get []
            have e1 : y.label.eraseIdx ax = [] := by
              have : (y.label.eraseIdx ax).map List.length = [] := by
                rw [← List.eraseIdx_map, ← hy.shape_eq]
                exact List.length_eq_zero_iff.mp h0
              simpa using this
            have e2 : y'.label.eraseIdx ax = [] := by
              have := forall₂_eraseIdx h.label ax
              rw [e1] at this
              cases this' : y'.label.eraseIdx ax with
              | nil => rfl
              | cons a b => rw [this'] at this; cases this
            rw [e1, e2] at hred
            obtain ⟨idx, hi, hg⟩ := (hred [] ((y.x.reduceAx r.f ax).get [])).mp ⟨[], trivial, rfl⟩
            cases idx with
            | nil => exact hg.symm
            | cons a b => cases hi
          · rcases (pyPop_label h axis).cases with ⟨a, b, f1, f2, hp⟩ | ⟨e, f1, f2⟩
            · rw [f1, f2]
              have ea : a = y.label.eraseIdx ax := by
                simp only [pyPop, hy.label_length, hax] at f1; cases f1; rfl
              have eb : b = y'.label.eraseIdx ax := by
                simp only [pyPop, hy'.label_length, ← hn, hax] at f2; cases f2; rfl
              subst ea eb
              exact ⟨rfl, hp, hred⟩
            · rw [f1, f2]; exact rfl

/-! ## Sums and products -/

namespace Flt

theorem add_comm' (a b : Flt) : a.add b = b.add a := by
  cases a <;> cases b <;> simp [add, add_comm]

theorem add_assoc' (a b c : Flt) : (a.add b).add c = a.add (b.add c) := by
  cases a <;> cases b <;> cases c <;> simp [add, add_assoc]

theorem mul_comm' (a b : Flt) : a.mul b = b.mul a := by
  cases a <;> cases b <;> simp [mul, mul_comm]

theorem infOf_pos {q : ℚ} (h : 0 < q) : infOf q = .pinf := by simp [infOf, h, h.ne']

theorem infOf_neg {q : ℚ} (h : q < 0) : infOf q = .ninf := by simp [infOf, h.ne, not_lt.mpr h.le]

theorem infOf_zero : infOf 0 = .nan := by simp [infOf]

theorem mul_assoc' (a b c : Flt) : (a.mul b).mul c = a.mul (b.mul c) := by
  have sgn : ∀ q : ℚ, q = 0 ∨ 0 < q ∨ q < 0 := fun q => by
    rcases lt_trichotomy q 0 with h | h | h
    · exact .inr (.inr h)
    · exact .inl h
    · exact .inr (.inl h)
  have pp : ∀ {a b : ℚ}, 0 < a → 0 < b → 0 < a * b := fun h h' => mul_pos h h'
  have nn : ∀ {a b : ℚ}, a < 0 → b < 0 → 0 < a * b := fun h h' => mul_pos_of_neg_of_neg h h'
  have pn : ∀ {a b : ℚ}, 0 < a → b < 0 → a * b < 0 := fun h h' => mul_neg_of_pos_of_neg h h'
  have np : ∀ {a b : ℚ}, a < 0 → 0 < b → a * b < 0 := fun h h' => mul_neg_of_neg_of_pos h h'
  have n1 : ∀ {a : ℚ}, a < 0 → 0 < -a := fun h => neg_pos.mpr h
  have n2 : ∀ {a : ℚ}, 0 < a → -a < 0 := fun h => neg_neg_of_pos h
  cases a with
  | fin a =>
    rcases sgn a with ha | ha | ha <;> (
    cases b with
    | fin b =>
      rcases sgn b with hb | hb | hb <;> (
      cases c with
      | fin c => simp [mul, mul_assoc]
      | _ => simp [mul, *, infOf_pos, infOf_neg, infOf_zero])
    | _ =>
      cases c with
      | fin c => rcases sgn c with hc | hc | hc <;> simp [mul, *, infOf_pos, infOf_neg, infOf_zero]
      | _ => simp [mul, *, infOf_pos, infOf_neg, infOf_zero])
  | _ =>
    cases b with
    | fin b =>
      rcases sgn b with hb | hb | hb <;> (
      cases c with
      | fin c => rcases sgn c with hc | hc | hc <;> simp [mul, *, infOf_pos, infOf_neg, infOf_zero]
      | _ => simp [mul, *, infOf_pos, infOf_neg, infOf_zero])
    | _ =>
      cases c with
      | fin c => rcases sgn c with hc | hc | hc <;> simp [mul, *, infOf_pos, infOf_neg, infOf_zero]
      | _ => simp [mul]
end Flt

theorem Unordered.foldl {α : Type _} {op : α → α → α} (hc : ∀ a b, op a b = op b a)
    (ha : ∀ a b c, op (op a b) c = op a (op b c)) (e : α) : Unordered (fun l : List α => l.foldl op e) := by
  have : RightCommutative op := ⟨fun a b c => by rw [ha, hc b c, ← ha]⟩
  intro vs ws h
  exact h.foldl_eq e

theorem Unordered.comp {α β γ : Type _} {f : List β → γ} (hf : Unordered f) (g : α → β) :
    Unordered (fun l => f (l.map g)) := fun _ _ h => hf _ _ (h.map g)

theorem sum_unordered : Unordered Flt.sum := Unordered.foldl Flt.add_comm' Flt.add_assoc' _

theorem prod_unordered : Unordered Flt.prod := Unordered.foldl Flt.mul_comm' Flt.mul_assoc' _

theorem npProd_unordered (d : DType) : Unordered (npProd d) := by
  intro vs ws h
  cases d <;> simp only [npProd]
  case float => rw [prod_unordered _ _ (h.map _)]
  all_goals rw [(h.map _).prod_eq]

theorem nanmean_unordered : Unordered nanmean := by
  intro vs ws h
  have := h.filter (fun x => !x.isNan)
  simp only [nanmean, sum_unordered _ _ this, this.length_eq]

theorem all_unordered {α : Type _} (p : α → Bool) : Unordered (fun l : List α => l.all p) := by
  intro vs ws h
  exact h.all_eq

theorem map_vals {α β : Type _} (a : NDArray α) (g : α → β) : (a.map g).vals = a.vals.map g := by
  simp [NDArray.vals, NDArray.map]

theorem map_reduceAx {α β γ : Type _} (a : NDArray α) (g : α → β) (f : List β → γ) (ax : Nat) :
    (a.map g).reduceAx f ax = a.reduceAx (fun l => f (l.map g)) ax := by
  simp [NDArray.reduceAx, NDArray.map, NDArray.line, Function.comp_def]

theorem reduce_larry {y z : Larry L} (hy : y.Valid) {r : Red} {axis : Option Int}
    (h : y.reduce r axis = .ok (.larry z)) :
    ∃ a ax, axis = some a ∧ pyIdx y.ndim a = some ax ∧ z.label = y.label.eraseIdx ax := by
  have pop : ∀ {a : Int} {label : List (List L)}, pyPop y.label a = .ok label →
      ∃ ax, pyIdx y.ndim a = some ax ∧ label = y.label.eraseIdx ax := by
    intro a label hp
    unfold pyPop at hp
    rw [hy.label_length] at hp
    split at hp
    · simp at hp
    · rename_i ax hax
      cases hp
      exact ⟨ax, hax, rfl⟩
  cases axis with
  | none =>
    unfold Larry.reduce at h
    split at h
    · simp at h
    · split at h <;> simp at h
  | some a =>
    unfold Larry.reduce at h
    split at h
    · dsimp only at h
      split at h
      · simp at h
      · split at h
        · simp at h
        · split at h
          · simp at h
          · split at h
            · simp at h
            · rename_i hp
              obtain ⟨ax, h1, h2⟩ := pop hp
              cases h
              exact ⟨a, ax, rfl, h1, h2⟩
    · split at h
      · simp at h
      · dsimp only at h
        split at h
        · simp at h
        · split at h
          · simp at h
          · split at h
            · simp at h
            · rename_i hp
              obtain ⟨ax, h1, h2⟩ := pop hp
              cases h
              exact ⟨a, ax, rfl, h1, h2⟩

theorem prod_agree {y y' : Larry L} (hy : y.Valid) (hy' : y'.Valid) (h : y.Reordered y') (axis : Option Int) :
    Res.Agree Out.Reordered (y.prod axis) (y'.prod axis) := by
  have hn := h.ndim_eq hy hy'
  unfold Larry.prod
  rw [← h.dtype_eq]
  split
  · exact rfl
  · dsimp only
    have h1 := map_agree hy' h (fun v => if v.isNan = true then Val.flt (Flt.fin 1) else v) y.dtype
    have v1 : (⟨y.x.map (fun v => if v.isNan = true then Val.flt (Flt.fin 1) else v), y.dtype, y.label⟩ : Larry L).Valid :=
      ⟨hy.shape_eq, hy.nodup, hy.ndim_pos⟩
    have v1' : (⟨y'.x.map (fun v => if v.isNan = true then Val.flt (Flt.fin 1) else v), y.dtype, y'.label⟩ : Larry L).Valid :=
      ⟨hy'.shape_eq, hy'.nodup, hy'.ndim_pos⟩
    have hr := reduce_agree v1 v1' h1 (r := prodRed y.dtype) (npProd_unordered _) axis
    rcases hr.cases with ⟨a, b, e1, e2, hab⟩ | ⟨e, e1, e2⟩
    · rw [e1, e2]
      cases a with
      | scalar v => cases b with
        | scalar v' =>
          have : v = v' := hab
          subst this
          show ite _ _ _ = ite _ _ _
          have : ((y.x.vals.map Val.isNan).all id) = ((y'.x.vals.map Val.isNan).all id) :=
            all_unordered id _ _ ((vals_perm hy hy' h).map Val.isNan)
          rw [map_vals, map_vals, this]
        | larry z' => cases hab
      | larry z => cases b with
        | scalar v' => cases hab
        | larry z' =>
          have hz : z.Reordered z' := hab
          obtain ⟨a, ax, rfl, hax, hlab⟩ := reduce_larry v1 e1
          obtain ⟨a', ax', ha', hax', hlab'⟩ := reduce_larry v1' e2
          cases ha'
          have hax2 : pyIdx y.ndim a = some ax := hax
          have hax3 : pyIdx y'.ndim a = some ax := hn ▸ hax2
          have : ax' = ax := by
            have : pyIdx y'.ndim a = some ax' := hax'
            rw [hax3] at this; simpa using this.symm
          subst this
          simp only [hax2, hax3]
          obtain ⟨l, hl, _⟩ := label_at hy hax2
          refine reordered_of hz.dtype_eq hz.label ?_
          rintro names v v' ⟨idx, hat, rfl⟩ ⟨idx', hat', rfl⟩
          have hat1 : At z.label idx names := hat
          have hat1' : At z'.label idx' names := hat'
          have hnd : ∀ l ∈ z'.label, l.Nodup := by
            rw [hlab']; exact fun l hl => hy'.nodup l (List.mem_of_mem_eraseIdx hl)
          have hx : z.x.get idx = z'.x.get idx' :=
            Holds_unique hnd ((hz.has names _).mp ⟨idx, hat1, rfl⟩) ⟨idx', hat1', rfl⟩
          have hm : ((y.x.map Val.isNan).reduceAx (fun l => l.all id) ax').get idx =
              ((y'.x.map Val.isNan).reduceAx (fun l => l.all id) ax').get idx' := by
            rw [map_reduceAx, map_reduceAx]
            have hu : Unordered (fun l : List Val => (l.map Val.isNan).all id) := (all_unordered id).comp Val.isNan
            have := (reduceAx_agree hy hy' h hl hu names _).mp ⟨idx, hlab ▸ hat1, rfl⟩
            exact Holds_unique (fun l hl => hy'.nodup l (List.mem_of_mem_eraseIdx hl)) this ⟨idx', hlab' ▸ hat1', rfl⟩
          simp only [maskNan, hx, hm, hz.dtype_eq]
    · rw [e1, e2]; exact rfl

/-! ## Elementwise methods -/

theorem clip_agree {y y' : Larry L} (hy' : y'.Valid) (h : y.Reordered y') (lo hi : Flt) :
    Res.Agree Reordered (y.clip lo hi) (y'.clip lo hi) := by
  unfold Larry.clip
  rw [← h.dtype_eq]
  split
  · exact rfl
  · split
    · exact rfl
    · exact map_agree hy' h (fun v => storeAs y.dtype (clip1 lo hi v.num)) y.dtype

theorem ismissing_agree {y y' : Larry L} (hy' : y'.Valid) (h : y.Reordered y') :
    y.ismissing.Reordered y'.ismissing := by
  refine reordered_of rfl h.label ?_
  rintro names v v' ⟨idx, hat, rfl⟩ ⟨idx', hat', rfl⟩
  have hx : y.x.get idx = y'.x.get idx' :=
    Holds_unique hy'.nodup ((h.has names _).mp ⟨idx, hat, rfl⟩) ⟨idx', hat', rfl⟩
  have e1 := (C61_ismissing_array y.dtype y.x).2 idx
  have e2 := (C61_ismissing_array y'.dtype y'.x).2 idx'
  rw [hx, h.dtype_eq, ← e2] at e1
  show Val.bool _ = Val.bool _
  rw [h.dtype_eq, Bool.eq_iff_iff.mpr e1]

/-! ## ranking, demean, zscore -/

theorem rankingLine_pointwise (norm : RankNorm) : Pointwise (rankingLine norm) := by
  refine ⟨fun vs v => .flt (if ((vs.map Val.num).filter (fun x => !x.isNan)).length = 1 ∧ v.num.isNan = false then
    norm.middle (vs.map Val.num).length else norm.scale (vs.map Val.num).length
      ((vs.map Val.num).filter (fun x => !x.isNan)).length (nanrank (vs.map Val.num) v.num)), fun vs => ?_, ?_⟩
  · simp [rankingLine, Function.comp_def]
  · intro vs ws h
    have h1 := h.map Val.num
    funext v
    simp only [(h1.filter _).length_eq, h1.length_eq, nanrank]

theorem demeanLine_pointwise {center : List Flt → Flt} (hc : Unordered center) : Pointwise (demeanLine center) := by
  refine ⟨fun vs v => .flt (v.num.sub (center (vs.map Val.num))), fun vs => rfl, ?_⟩
  intro vs ws h
  funext v
  show Val.flt _ = Val.flt _
  rw [hc _ _ (h.map Val.num)]

theorem zscoreLine_pointwise {std : List Flt → Flt} (hs : Unordered std) : Pointwise (zscoreLine std) := by
  refine ⟨fun vs v => .flt ((v.num.sub (nanmean (vs.map Val.num))).div
    (std ((demeanLine nanmean vs).map Val.num))), fun vs => ?_, ?_⟩
  · simp only [zscoreLine, demeanLine, List.map_map]
    rfl
  · intro vs ws h
    funext v
    have h2 : (demeanLine nanmean vs).Perm (demeanLine nanmean ws) := by
      simp only [demeanLine, nanmean_unordered _ _ (h.map Val.num)]
      exact h.map _
    show Val.flt _ = Val.flt _
    rw [nanmean_unordered _ _ (h.map Val.num), hs _ _ (h2.map Val.num)]

theorem ranking_agree {y y' : Larry L} (hy : y.Valid) (hy' : y'.Valid) (h : y.Reordered y') (axis : Option Int)
    (norm : RankNorm) : Res.Agree Reordered (y.ranking axis norm) (y'.ranking axis norm) := by
  unfold Larry.ranking
  rw [← h.dtype_eq, ← h.ndim_eq hy hy']
  split
  · exact rfl
  · split
    · exact rfl
    · split
      · exact alongAll_pointwise hy hy' h (rankingLine_pointwise _) _
      · split
        · exact rfl
        · rename_i hax
          obtain ⟨l, hl, _⟩ := label_at hy hax
          exact along_pointwise hy hy' h hl (rankingLine_pointwise _) _

theorem demean_agree {y y' : Larry L} (hy : y.Valid) (hy' : y'.Valid) (h : y.Reordered y') {center : List Flt → Flt}
    (hc : Unordered center) (axis : Option Int) :
    Res.Agree Reordered (y.demean center axis) (y'.demean center axis) := by
  unfold Larry.demean npAxis
  rw [← h.dtype_eq, ← h.ndim_eq hy hy']
  split
  · exact rfl
  · split
    · exact alongAll_pointwise hy hy' h (demeanLine_pointwise hc) _
    · rename_i axis
      cases hax : pyIdx y.ndim axis with
      | none => exact rfl
      | some ax =>
        obtain ⟨l, hl, _⟩ := label_at hy hax
        exact along_pointwise hy hy' h hl (demeanLine_pointwise hc) _

theorem zscore_agree {y y' : Larry L} (hy : y.Valid) (hy' : y'.Valid) (h : y.Reordered y') {std : List Flt → Flt}
    (hs : Unordered std) (axis : Option Int) :
    Res.Agree Reordered (y.zscore std axis) (y'.zscore std axis) := by
  unfold Larry.zscore npAxis
  rw [← h.dtype_eq, ← h.ndim_eq hy hy']
  split
  · exact rfl
  · split
    · exact alongAll_pointwise hy hy' h (zscoreLine_pointwise hs) _
    · rename_i axis
      cases hax : pyIdx y.ndim axis with
      | none => exact rfl
      | some ax =>
        obtain ⟨l, hl, _⟩ := label_at hy hax
        exact along_pointwise hy hy' h hl (zscoreLine_pointwise hs) _

/-! ## Groups -/

theorem members_perm {gs gs' vs vs' : List Val} (h : (gs.zip vs).Perm (gs'.zip vs')) (g : Val) :
    (members vs gs g).Perm (members vs' gs' g) := (h.filter _).map _

theorem groupLine_length (sort f : List Val → List Val) (gs vs : List Val) :
    (groupLine sort f gs vs).length = vs.length := by
  unfold groupLine
  generalize uniqueGroup sort gs = U
  have : ∀ out : List Val, (U.foldl (groupStep f gs vs) out).length = out.length := by
    induction U with
    | nil => intro out; rfl
    | cons u U ih => intro out; rw [List.foldl_cons, ih, groupStep, maskAssign_length]
  rw [this]; simp

theorem groupLine_agree {sort f : List Val → List Val} (hsort : ∀ l, (sort l).Perm l) (hf : Pointwise f)
    {l l' : List L} (hp : l.Perm l') (G W : L → Val) {b : L} {i j : Nat} (hi : l[i]? = some b) (hj : l'[j]? = some b) :
    (groupLine sort f (l.map G) (l.map W))[i]? = (groupLine sort f (l'.map G) (l'.map W))[j]? := by
  have hlen := hf.length
  obtain ⟨g, h1, h2⟩ := hf
  have key : ∀ {l : List L} {i : Nat}, l[i]? = some b → ∃ v, (groupLine sort f (l.map G) (l.map W))[i]? = some v ∧
      (¬ SameGroup (G b) (G b) → v = .flt .nan) ∧
      (SameGroup (G b) (G b) → v = g (members (l.map W) (l.map G) (G b)) (W b)) := by
    intro l i hi
    have hil := (List.getElem?_eq_some_iff.mp hi).1
    obtain ⟨v, e1, e2⟩ := groupLine_spec hsort hlen (R := fun ms k v => ∃ x, ms[k]? = some x ∧ v = g ms x)
      (fun ms k x v hx hv => ⟨x, hx, by rw [h1, List.getElem?_map, hx] at hv; simpa using hv.symm⟩)
      (l.map G) (l.map W) i (by simpa using hil) (by simpa using hil)
    refine ⟨v, e1, ?_⟩
    obtain ⟨a1, a2⟩ := e2 (G b) (by simp [hi])
    refine ⟨a1, fun hs => ?_⟩
    obtain ⟨b1, x, b2, b3⟩ := a2 hs
    rw [b1] at b2
    simp only [List.getElem?_map, hi, Option.map_some, Option.some.injEq] at b2
    rw [b3, b2]
  obtain ⟨v, e1, e2, e3⟩ := key hi
  obtain ⟨v', e1', e2', e3'⟩ := key hj
  rw [e1, e1']
  by_cases hs : SameGroup (G b) (G b)
  · rw [e3 hs, e3' hs]
    have hz : ((l.map G).zip (l.map W)).Perm ((l'.map G).zip (l'.map W)) := by
      rw [List.zip_map', List.zip_map']
      exact hp.map _
    rw [h2 _ _ (members_perm hz (G b))]
  · rw [e2 hs, e2' hs]

theorem groupsOf_eq {group : Larry L} (hg : group.Valid) {l : List L} {gs : List Val} (h : GroupsOf group l gs) :
    gs = l.map (fun b => group.valueAt [b]) := by
  refine List.ext_getElem (by simpa using h.1) fun i h1 h2 => ?_
  have hil : i < l.length := by rw [← h.1]; exact h1
  rw [List.getElem_map]
  exact (valueAt_of hg (h.2 i _ _ (List.getElem?_eq_getElem hil) (List.getElem?_eq_getElem h1))).symm

section
variable [LinearOrder L]

theorem group_agree {sort f : List Val → List Val} (hsort : ∀ l, (sort l).Perm l) (hf : Pointwise f)
    {y y' g g' : Larry L} (hy : y.Valid) (hy' : y'.Valid) (h : y.Reordered y') (hg : g.Valid) (hg' : g'.Valid)
    (hr : g.Reordered g') (axis : Int) :
    Res.Agree Reordered (y.groupBy sort f g axis) (y'.groupBy sort f g' axis) := by
  have hn := h.ndim_eq hy hy'
  have hm := hr.ndim_eq hg hg'
  obtain ⟨c1, c2, c3⟩ := C53_errors sort f y g axis
  obtain ⟨c1', c2', c3'⟩ := C53_errors sort f y' g' axis
  by_cases h1 : g.ndim = 1
  · have h1' : g'.ndim = 1 := by rw [← hm]; exact h1
    cases hax : pyIdx y.label.length axis with
    | none => exact .error (c2 h1 hax) (c2' h1' (h.label.length_eq ▸ hax))
    | some ax =>
      have hax1 : pyIdx y.ndim axis = some ax := hy.label_length ▸ hax
      have hax' : pyIdx y'.label.length axis = some ax := h.label.length_eq ▸ hax
      have hax1' : pyIdx y'.ndim axis = some ax := hn ▸ hax1
      obtain ⟨l, hl⟩ := axis_label hy hax1
      obtain ⟨l', hl', hp⟩ := h.get? hl
      obtain ⟨gl, hgl⟩ := axis_label hg (ax := 0) (axis := 0) (by rw [h1]; rfl)
      obtain ⟨gl', hgl', hgp⟩ := hr.get? hgl
      by_cases hsub : ∀ b ∈ l, b ∈ gl
      · have hsub' : ∀ b ∈ l', b ∈ gl' := fun b hb => hgp.mem_iff.mp (hsub b (hp.mem_iff.mpr hb))
        obtain ⟨gs, e1, e2⟩ := groupAlign_spec hg h1 hax hl (hy.nodup l (List.mem_of_getElem? hl)) hgl hsub
        obtain ⟨gs', e1', e2'⟩ := groupAlign_spec hg' h1' hax' hl' (hy'.nodup l' (List.mem_of_getElem? hl')) hgl' hsub'
        unfold Larry.groupBy
        rw [e1, e1', ← h.dtype_eq, ← hn]
        dsimp only
        split
        · exact rfl
        · rw [hax1]
          show ((y.along _ _ _).Reordered (y'.along _ _ _))
          refine along_agree hy hy' h hl hl' (groupLine_length sort f gs) (groupLine_length sort f gs') _ ?_
          intro W b i j hi hj
          rw [groupsOf_eq hg e2, groupsOf_eq hg' e2', hr.valueAt_eq]
          exact groupLine_agree hsort hf hp _ W hi hj
      · push Not at hsub
        obtain ⟨b, hb, hb'⟩ := hsub
        exact .error (c3 ax l gl b h1 hax hl hgl hb hb')
          (c3' ax l' gl' b h1' hax' hl' hgl' (hp.mem_iff.mp hb) fun hh => hb' (hgp.mem_iff.mpr hh))
  · exact .error (c1 h1) (c1' (by rw [← hm]; exact h1))

end

end La
