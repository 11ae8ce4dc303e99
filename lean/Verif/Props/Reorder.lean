import Verif.ReorderMissing
import Verif.Props.HeapViews

/-!
# Property C66: the order of labels does not matter

Two larrys that hold the same labelled values, with the labels of each axis in any order, cannot be told
apart by the calls that speak in labels.
-/

namespace La
open Larry
variable {L : Type _} [LinearOrder L]

/-! ## Specification -/

/-- Calls that never look at the order of labels.  Not among them: positions (indexing, `take`, slices),
functions of neighbours along an axis (cumsum, lag, push, moving windows), those that break ties by
position (quantile, sortby), arithmetic with an array that is not a scalar, and masks.  A function passed
to a reduction or to `demean`, `zscore` or a group method must itself disregard the order. -/
def Cmd.ByLabel : Cmd L → Prop
  | .new _ _ _ | .morph _ _ _ | .morphLike _ _ | .binop _ _ _ | .compare _ _ _ | .merge _ _ _ | .align _ _ _ _ => True
  | .alignAxis _ _ _ | .binaryop _ _ _ _ _ _ _ _ | .stack _ _ | .sortaxis _ _ _ | .keepLabel _ _ _ => True
  | .pull _ _ _ | .flipaxis _ _ | .transpose _ | .swapaxes _ _ _ | .squeeze _ | .insertaxis _ _ _ => True
  | .maplabel _ _ _ | .prod _ _ | .clip _ _ _ | .ranking _ _ _ | .ismissing _ | .vacuum _ _ | .cutMissing _ _ _ => True
  | .keepX _ _ _ _ | .set _ _ _ => True
  | .binopArray _ _ x _ => x.shape = []
  | .reduce r _ _ => Unordered r.f
  | .demean center _ _ => Unordered center
  | .zscore std _ _ => Unordered std
  | .group sort f _ _ _ => (∀ l, (sort l).Perm l) ∧ Pointwise f
  | _ => False

/-- The larrys of two programs, variable by variable. -/
abbrev Store.Reordered (st st' : Store L) : Prop := List.Forall₂ Larry.Reordered st st'

/-! ## Glue -/

omit [LinearOrder L] in
theorem on_agree {α β : Type _} {R : α → β → Prop} {st st' : Store L} (hs : Store.Reordered st st') (hv : st.Valid)
    (hv' : st'.Valid) {i : Nat} {f : Larry L → Res α} {f' : Larry L → Res β}
    (h : ∀ y y', st[i]? = some y → y.Valid → y'.Valid → y.Reordered y' → Res.Agree R (f y) (f' y')) :
    Res.Agree R (st.on i f) (st'.on i f') := by
  unfold Store.on Store.var
  rcases Nat.lt_or_ge i st.length with hi | hi
  · have hi' : i < st'.length := hs.length_eq ▸ hi
    rw [List.getElem?_eq_getElem hi, List.getElem?_eq_getElem hi']
    exact h _ _ (List.getElem?_eq_getElem hi) (hv _ (List.getElem_mem _)) (hv' _ (List.getElem_mem _))
      ((List.forall₂_iff_get.mp hs).2 i hi hi')
  · rw [List.getElem?_eq_none hi, List.getElem?_eq_none (by rw [← hs.length_eq]; exact hi)]
    exact rfl

omit [LinearOrder L] in
theorem one_agree {r r' : Res (Larry L)} (h : Res.Agree Reordered r r') :
    Res.Agree Store.Reordered (Res.one r) (Res.one r') := by
  rcases h.cases with ⟨a, b, rfl, rfl, h⟩ | ⟨e, rfl, rfl⟩
  · exact .cons h .nil
  · exact rfl

omit [LinearOrder L] in
theorem out_agree {r r' : Res (Out L)} (h : Res.Agree Out.Reordered r r') :
    Res.Agree Store.Reordered (Res.out r) (Res.out r') := by
  rcases h.cases with ⟨a, b, rfl, rfl, h⟩ | ⟨e, rfl, rfl⟩
  · cases a <;> cases b <;> first | exact .nil | exact .cons h .nil | exact h.elim
  · exact rfl

omit [LinearOrder L] in
theorem both_agree {r r' : Res (Larry L × Larry L)} (h : Res.Agree BothReordered r r') :
    Res.Agree Store.Reordered (Res.both r) (Res.both r') := by
  rcases h.cases with ⟨a, b, rfl, rfl, h⟩ | ⟨e, rfl, rfl⟩
  · exact .cons h.1 (.cons h.2 .nil)
  · exact rfl

omit [LinearOrder L] in
theorem raw_agree {r r' : Res (NDArray Val × DType × List (Option (List L)))}
    (h : Res.Agree (fun p q => (rawLarry p).Reordered (rawLarry q)) r r') :
    Res.Agree Store.Reordered (Res.raw r) (Res.raw r') := by
  rcases h.cases with ⟨⟨a1, a2, a3⟩, ⟨b1, b2, b3⟩, rfl, rfl, h⟩ | ⟨e, rfl, rfl⟩
  · exact .cons h .nil
  · exact rfl

omit [LinearOrder L] in
theorem var_agree {st st' : Store L} (hs : Store.Reordered st st') (hv : st.Valid) (hv' : st'.Valid) (i : Nat) :
    Res.Agree (fun y y' => y.Valid ∧ y'.Valid ∧ y.Reordered y') (st.var i) (st'.var i) := by
  have : Res.Agree (fun y y' => y.Valid ∧ y'.Valid ∧ y.Reordered y') (st.on i .ok) (st'.on i .ok) :=
    on_agree hs hv hv' fun y y' _ h1 h2 h3 => ⟨h1, h2, h3⟩
  unfold Store.on at this
  cases h : st.var i <;> cases h' : st'.var i <;> simp only [h, h'] at this <;> exact this

omit [LinearOrder L] in
theorem vars_agree {st st' : Store L} (hs : Store.Reordered st st') (hv : st.Valid) (hv' : st'.Valid) (is : List Nat) :
    Res.Agree (List.Forall₂ fun y y' => y.Valid ∧ y'.Valid ∧ y.Reordered y') (mapRes st.var is) (mapRes st'.var is) :=
  mapRes_agree (R := Eq) (fun a _ h => h ▸ var_agree hs hv hv' a) (List.forall₂_same.mpr fun _ _ => rfl)

omit [LinearOrder L] in
theorem reordered_set {a b : Store L} (h : Store.Reordered a b) (k : Nat) {y y' : Larry L} (hy : y.Reordered y') :
    Store.Reordered (a.set k y) (b.set k y') := by
  induction h generalizing k with
  | nil => exact .nil
  | cons h1 h2 ih => cases k with
    | zero => exact .cons hy h2
    | succ k => exact .cons h1 (ih k)

/-! ## C66 -/

theorem results_agree {st st' : Store L} (hs : Store.Reordered st st') (hv : st.Valid) (hv' : st'.Valid) {c : Cmd L}
    (hb : c.ByLabel) (hf : c.Fair st) :
    Res.Agree Store.Reordered (c.results st) (c.results st') := by
  cases c <;> simp only [Cmd.results] <;> simp only [Cmd.ByLabel] at hb
  case new => exact one_agree (mk'_agree (.refl _) _ _)
  case morph => exact on_agree hs hv hv' fun y y' _ h h' r => one_agree (morph_agree h h' r (.refl _) _)
  case morphLike =>
    exact on_agree hs hv hv' fun y y' _ h h' r => on_agree hs hv hv' fun z z' _ g g' q =>
      one_agree (morphLike_agree h h' r g g' q)
  case binop =>
    exact on_agree hs hv hv' fun y y' _ h h' r => on_agree hs hv hv' fun z z' _ g g' q =>
      one_agree (binop_agree _ h h' r g g' q)
  case binopArray => exact on_agree hs hv hv' fun y y' _ h h' r => one_agree (binopScalar_agree _ h h' r hb _)
  case compare =>
    exact on_agree hs hv hv' fun y y' _ h h' r => on_agree hs hv hv' fun z z' _ g g' q =>
      one_agree (compare_agree _ h h' r g g' q)
  case merge =>
    exact on_agree hs hv hv' fun y y' _ h h' r => on_agree hs hv hv' fun z z' _ g g' q =>
      one_agree (merge_agree h h' r g g' q _)
  case align =>
    exact on_agree hs hv hv' fun y y' _ h h' r => on_agree hs hv hv' fun z z' _ g g' q =>
      both_agree (align_agree h h' r g g' q _ _)
  case alignAxis is axis join =>
    rcases (vars_agree hs hv hv' is).cases with ⟨a, b, e1, e2, h⟩ | ⟨e, e1, e2⟩
    · rw [e1, e2]
      exact alignAxisN_agree (h.imp fun _ _ h => h.2.2) (vars_valid hv e1) (vars_valid hv' e2) axis join
    · rw [e1, e2]; exact rfl
  case binaryop =>
    exact on_agree hs hv hv' fun y y' _ h h' r => on_agree hs hv hv' fun z z' _ g g' q =>
      raw_agree (binaryop_agree _ _ h h' r g g' q hf _ _ _)
  case stack mode kw =>
    rcases (vars_agree hs hv hv' (kw.map Prod.snd)).cases with ⟨a, b, e1, e2, h⟩ | ⟨e, e1, e2⟩
    · rw [e1, e2]
      refine one_agree (stack_agree mode ?_)
      generalize kw.map Prod.fst = ks
      clear e1 e2
      induction h generalizing ks with
      | nil => simp
      | cons h1 _ ih => cases ks with
        | nil => simp
        | cons k ks => exact .cons ⟨rfl, h1⟩ (ih ks)
    · rw [e1, e2]; exact rfl
  case sortaxis => exact on_agree hs hv hv' fun y y' _ h h' r => one_agree (sortaxis_agree h h' r _ _)
  case keepLabel => exact on_agree hs hv hv' fun y y' _ h h' r => one_agree (keepLabel_agree h h' r _ _)
  case pull => exact on_agree hs hv hv' fun y y' _ h h' r => out_agree (pull_agree h h' r _ _)
  case flipaxis => exact on_agree hs hv hv' fun y y' _ h h' r => one_agree (flipaxis_agree h h' r _)
  case transpose => exact on_agree hs hv hv' fun y y' _ h h' r => .cons (T_reordered h h' r) .nil
  case swapaxes => exact on_agree hs hv hv' fun y y' _ h h' r => one_agree (swapaxes_agree h h' r _ _)
  case squeeze => exact on_agree hs hv hv' fun y y' _ h h' r => .cons (squeeze_reordered h h' r) .nil
  case insertaxis => exact on_agree hs hv hv' fun y y' _ h h' r => one_agree (insertaxis_agree h h' r _ _)
  case maplabel => exact on_agree hs hv hv' fun y y' _ h h' r => one_agree (maplabel_agree r _ _)
  case reduce => exact on_agree hs hv hv' fun y y' _ h h' r => out_agree (reduce_agree h h' r hb _)
  case prod => exact on_agree hs hv hv' fun y y' _ h h' r => out_agree (prod_agree h h' r _)
  case clip => exact on_agree hs hv hv' fun y y' _ h h' r => one_agree (clip_agree h' r _ _)
  case ranking => exact on_agree hs hv hv' fun y y' _ h h' r => one_agree (ranking_agree h h' r _ _)
  case demean => exact on_agree hs hv hv' fun y y' _ h h' r => one_agree (demean_agree h h' r hb _)
  case zscore => exact on_agree hs hv hv' fun y y' _ h h' r => one_agree (zscore_agree h h' r hb _)
  case group =>
    exact on_agree hs hv hv' fun y y' _ h h' r => on_agree hs hv hv' fun z z' _ g g' q =>
      one_agree (group_agree hb.1 hb.2 h h' r g g' q _)
  case ismissing => exact on_agree hs hv hv' fun y y' _ h h' r => .cons (ismissing_agree h' r) .nil
  case vacuum => exact on_agree hs hv hv' fun y y' _ h h' r => one_agree (vacuum_agree h h' r _)
  case cutMissing => exact on_agree hs hv hv' fun y y' _ h h' r => one_agree (cutMissing_agree h h' r _ _)
  case keepX => exact on_agree hs hv hv' fun y y' _ h h' r => one_agree (keepX_agree h h' r _ _ _)
  case set => exact on_agree hs hv hv' fun y y' _ h h' r => one_agree (set_agree h h' r _ _)

/-- C66. A call that speaks in labels does the same on reordered larrys: it raises the same exception, or
its results, in number and order, are the same labelled values. -/
theorem C66_step {st st' : Store L} (hs : Store.Reordered st st') (hv : st.Valid) (hv' : st'.Valid) {c : Cmd L}
    (hb : c.ByLabel) (hf : c.Fair st) : Res.Agree Store.Reordered (c.step st) (c.step st') := by
  unfold Cmd.step
  rcases (results_agree hs hv hv' hb hf).cases with ⟨zs, zs', e1, e2, hz⟩ | ⟨e, e1, e2⟩
  · rw [e1, e2]
    dsimp only
    cases c.target with
    | none => exact List.rel_append hs hz
    | some i =>
      show Store.Reordered _ _
      clear e1 e2 hf hv hv'
      induction hz generalizing st st' with
      | nil => exact hs
      | cons h1 _ ih => exact ih (reordered_set hs i h1)
  · rw [e1, e2]; exact rfl

omit [LinearOrder L] in
/-- What a call asks of its caller does not depend on the order either. -/
theorem fair_agree {st st' : Store L} (hs : Store.Reordered st st') (hv : st.Valid) (hv' : st'.Valid) {c : Cmd L}
    (hb : c.ByLabel) (hf : c.Fair st) : c.Fair st' := by
  have back : ∀ {i : Nat} {y'}, st'[i]? = some y' → ∃ y, st[i]? = some y ∧ y.Valid ∧ y'.Valid ∧ y.Reordered y' := by
    intro i y' h
    obtain ⟨hi', rfl⟩ := List.getElem?_eq_some_iff.mp h
    have hi : i < st.length := hs.length_eq ▸ hi'
    exact ⟨_, List.getElem?_eq_getElem hi, hv _ (List.getElem_mem _), hv' _ (List.getElem_mem _),
      (List.forall₂_iff_get.mp hs).2 i hi hi'⟩
  cases c <;> try exact hf
  case binopArray uf i x d =>
    intro y' _
    have hb : x.shape = [] := hb
    exact ⟨y'.shape, [], by simp, by rw [hb]; exact .nil⟩
  case squeeze i =>
    intro y' h'
    obtain ⟨y, e, h1, h2, hr⟩ := back h'
    obtain ⟨n, hn, hn1⟩ := hf y e
    have hsh : y.shape = y'.shape := by
      rw [Larry.shape, Larry.shape, h1.shape_eq, h2.shape_eq]
      have := hr.label
      generalize y.label = a at this ⊢
      generalize y'.label = b at this ⊢
      induction this with
      | nil => rfl
      | cons hp _ ih => simp [hp.length_eq, ih]
    exact ⟨n, hsh ▸ hn, hn1⟩
  case maplabel i f axis =>
    cases axis with
    | none =>
      intro y' h' l' hl'
      obtain ⟨y, e, h1, h2, hr⟩ := back h'
      obtain ⟨k, hk⟩ := List.getElem?_of_mem hl'
      obtain ⟨l, hl, hp⟩ := hr.symm.get? hk
      exact ((hp.map f).nodup_iff).mpr (hf y e l (List.mem_of_getElem? hl))
    | some axis =>
      intro y' h' k l' hk hax
      obtain ⟨y, e, h1, h2, hr⟩ := back h'
      obtain ⟨l, hl, hp⟩ := hr.symm.get? hk
      exact ((hp.map f).nodup_iff).mpr (hf y e k l hl (by rw [hr.ndim_eq h1 h2]; exact hax))

/-- C66. A whole program of such calls, of any length and with exceptions caught on the way, ends with the
same labelled values in every variable, whatever the order of the labels it started from. -/
theorem C66_program {st st' : Store L} (hs : Store.Reordered st st') (hv : st.Valid) (hv' : st'.Valid)
    {cs : List (Cmd L)} (hb : ∀ c ∈ cs, c.ByLabel) (hf : FairAll st cs) :
    Store.Reordered (runAll st cs) (runAll st' cs) := by
  induction cs generalizing st st' with
  | nil => exact hs
  | cons c cs ih =>
    obtain ⟨f1, f2, f3⟩ := hf
    have hb1 := hb c List.mem_cons_self
    have hb2 := fun d hd => hb d (List.mem_cons_of_mem _ hd)
    unfold runAll
    rcases (C66_step hs hv hv' hb1 f1).cases with ⟨s, s', e1, e2, h⟩ | ⟨e, e1, e2⟩
    · rw [e1, e2]
      exact ih h (C64_step hv f1 e1) (C64_step hv' (fair_agree hs hv hv' hb1 f1) e2) hb2 (f2 s e1)
    · rw [e1, e2]
      exact ih hs hv hv' hb2 (f3 e e1)

/-- C66. Scalars come out equal: a value by its labels, a reduction over everything, a label pulled out of
a 1d larry.  (`Out.Reordered` says equal for a scalar.) -/
theorem C66_scalars {y y' : Larry L} (hy : y.Valid) (hy' : y'.Valid) (h : y.Reordered y') :
    (∀ names, y.get names = y'.get names) ∧
    (∀ (r : Red) axis, Unordered r.f → Res.Agree Out.Reordered (y.reduce r axis) (y'.reduce r axis)) ∧
    (∀ axis, Res.Agree Out.Reordered (y.prod axis) (y'.prod axis)) ∧
    (∀ name axis, Res.Agree Out.Reordered (y.pull name axis) (y'.pull name axis)) :=
  ⟨get_agree hy hy' h, fun _ axis hr => reduce_agree hy hy' h hr axis, prod_agree hy hy' h, pull_agree hy hy' h⟩

/-- C66. Sorting the labels undoes any reordering: the sorted larrys are equal, element by element. -/
theorem C66_canonical {y y' : Larry L} (hy : y.Valid) (hy' : y'.Valid) (h : y.Reordered y') (reverse : Bool) :
    ∃ z z', y.sortaxis none reverse = .ok z ∧ y'.sortaxis none reverse = .ok z' ∧ z.Same z' := by
  obtain ⟨z, h1, h2, h3, h4, h5, h6⟩ := C24_sortaxis hy reverse (axis := none) rfl
  obtain ⟨z', g1, g2, g3, g4, g5, g6⟩ := C24_sortaxis hy' reverse (axis := none) rfl
  refine ⟨z, z', h1, g1, h2.same_of_has g2 ?_ (by rw [h3, g3, h.dtype_eq]) fun names v hh =>
    (g6 names v).mpr ((h.has names v).mp ((h6 names v).mp hh))⟩
  have hlen := h.label.length_eq
  refine List.ext_getElem (by omega) fun k hk hk' => ?_
  have k1 : k < y.label.length := by omega
  have k2 : k < y'.label.length := by omega
  obtain ⟨p1, o1⟩ := (h5 k _ _ (List.getElem?_eq_getElem k1) (List.getElem?_eq_getElem hk)).1
    (List.mem_range.mpr (by rw [← hy.label_length]; exact k1))
  obtain ⟨p2, o2⟩ := (g5 k _ _ (List.getElem?_eq_getElem k2) (List.getElem?_eq_getElem hk')).1
    (List.mem_range.mpr (by rw [← hy'.label_length]; exact k2))
  exact o1.unique o2 (p1.trans (((List.forall₂_iff_get.mp h.label).2 k k1 k2).trans p2.symm))

/-- C66. `flipaxis`, `sortaxis` and `morph` to the same labels in another order only reorder. -/
theorem C66_reorders {y z : Larry L} (hv : y.Valid) :
    (∀ axis, y.flipaxis axis = .ok z → z.Reordered y) ∧
    (∀ axis reverse, y.sortaxis axis reverse = .ok z → z.Reordered y) ∧
    (∀ (axis : Int) (ax : Nat) (l lab : List L), pyIdx y.ndim axis = some ax → y.label[ax]? = some l → lab.Perm l →
      y.morph lab axis = .ok z → z.Reordered y) := by
  refine ⟨fun _ => flipaxis_reordered hv, fun _ _ => sortaxis_reordered hv, fun axis ax l lab hax hl hp h => ?_⟩
  have hlt := (List.getElem?_eq_some_iff.mp hl).1
  have hnd : lab.Nodup := hp.nodup_iff.mpr (hv.nodup l (List.mem_of_getElem? hl))
  obtain ⟨w, h1, h2, h3, h4, h5⟩ := morph_spec hv hnd hax hl
  obtain rfl : w = z := by rw [h1] at h; simpa using h
  have hd : w.dtype = y.dtype := by
    rw [h4, morphDType, if_neg]
    rintro ⟨_, hne, h | ⟨b, hb, hbl⟩⟩
    · subst h
      exact hne (List.Perm.nil_eq hp).symm
    · exact hbl (hp.mem_iff.mp hb)
  have hlab : List.Forall₂ List.Perm w.label y.label := by
    have := forall₂_set (List.forall₂_same.mpr fun (l : List L) (_ : l ∈ y.label) => List.Perm.refl l) ax hp
    have e : y.label.set ax l = y.label := by
      obtain ⟨_, hl'⟩ := List.getElem?_eq_some_iff.mp hl
      rw [← hl', List.set_getElem_self]
    rw [e] at this
    rw [h2]; exact this
  refine ⟨hd, hlab, fun names v => ?_⟩
  rw [show w.Has names v ↔ _ from h5 names v, hd, castVal_self, named_congr hlab]
  constructor
  · rintro ⟨_, ⟨u, hu, rfl⟩ | ⟨hno, _⟩⟩
    · exact hu
    · exact absurd ‹Named y.label names› hno
  · intro hh
    exact ⟨Named_of_Holds hh, .inl ⟨v, hh, rfl⟩⟩

/-! ## Cases -/

/-- A larry, the same one upside down, and a larry to combine them with. -/
example : ∃ z, exA.flipaxis none = .ok z ∧ z.label ≠ exA.label ∧
    Store.Reordered [z, exB] [exA, exB] ∧ Store.Valid [z, exB] ∧ Store.Valid [exA, exB] := by
  obtain ⟨z, h1, h2, -⟩ := C25_flipaxis exA_valid (axis := none) rfl
  refine ⟨z, h1, ?_, .cons ((C66_reorders exA_valid).1 _ h1) (.cons (.refl _) .nil), ?_, ?_⟩
  · have e : (exA.flipaxis none).map Larry.label = .ok [[20, 10], [2, 1, 3]] := rfl
    rw [h1] at e
    rw [Except.ok.inj e]
    decide
  · simp [Store.Valid, h2, exB_valid]
  · simp [Store.Valid, exA_valid, exB_valid]

/-- The mean over an axis or over everything. -/
def exMean : Red := ⟨fun vs => .flt (nanmean (vs.map Val.num)), fun _ => .ok .float, .flt .nan, false⟩

theorem exMean_unordered : Unordered exMean.f := fun _ _ h => congrArg Val.flt (nanmean_unordered _ _ (h.map _))

theorem exSum_unordered : Unordered exSum.f := by
  intro vs ws h
  have h1 := h.map Val.num
  show Val.flt _ = Val.flt _
  rw [h1.all_eq, sum_unordered _ _ (h1.filter _)]

/-- A program: align, add, rank, average by group, reduce, drop missing values, set. -/
def exLabels : List (Cmd Nat) :=
  [.align 0 1 (.one .outer) true, .binop exFst 2 3, .ranking 4 (some 0) .pm1, .demean nanmean 0 none,
    .reduce exMean 0 (some (-1)), .reduce exSum 0 none, .vacuum 0 none, .cutMissing 0 (1/2) (some 0),
    .group id (demeanLine nanmean) 0 6 0, .merge 0 1 true, .set 0 [20, 1] (fl 9), .sortaxis 0 none false]

example : ∀ c ∈ exLabels, c.ByLabel := by
  simp only [exLabels, List.mem_cons, List.not_mem_nil, or_false, forall_eq_or_imp, forall_eq, Cmd.ByLabel, true_and,
    and_true]
  exact ⟨nanmean_unordered, exMean_unordered, exSum_unordered, fun _ => .refl _,
    demeanLine_pointwise nanmean_unordered⟩

example (st : Store Nat) : FairAll st exLabels := by
  simp [exLabels, FairAll, Cmd.Fair]

/-- What is left out has to be: the first label of an axis is a matter of order. -/
example : ∃ y y' : Larry Nat, y.Valid ∧ y'.Valid ∧ y.Reordered y' ∧ ¬ (Cmd.take 0 [0] 0 : Cmd Nat).ByLabel ∧
    ¬ Res.Agree Store.Reordered ((Cmd.take 0 [0] 0).step [y]) ((Cmd.take 0 [0] 0).step [y']) := by
  obtain ⟨z, h1, h2, -⟩ := C25_flipaxis exA_valid (axis := none) rfl
  refine ⟨z, exA, h2, exA_valid, (C66_reorders exA_valid).1 _ h1, id, ?_⟩
  intro h
  have e : ((exA.flipaxis none).bind fun z => (Cmd.take 0 [0] 0).step [z]).map (List.map Larry.label) =
    .ok [[[20, 10], [2, 1, 3]], [[20], [2, 1, 3]]] := rfl
  have e' : ((Cmd.take 0 [0] 0).step [exA]).map (List.map Larry.label) = .ok [exA.label, [[10], [3, 1, 2]]] := rfl
  rw [h1] at e
  change ((Cmd.take 0 [0] 0).step [z]).map _ = _ at e
  rcases h.cases with ⟨a, b, e1, e2, hab⟩ | ⟨e1, e2, -⟩
  · have e3 : a.map Larry.label = _ := Except.ok.inj (e1 ▸ e)
    have e4 : b.map Larry.label = _ := Except.ok.inj (e2 ▸ e')
    match a, b, hab with
    | [_, p], [_, q], .cons _ (.cons hpq .nil) =>
      have hp : p.label = [[20], [2, 1, 3]] := by simpa using (List.cons.inj (List.cons.inj e3).2).1
      have hq : q.label = [[10], [3, 1, 2]] := by simpa using (List.cons.inj (List.cons.inj e4).2).1
      have := hpq.label
      rw [hp, hq] at this
      cases this with
      | cons h1 _ => exact absurd (h1.mem_iff.mp List.mem_cons_self) (by decide)
  · rw [e2] at e
    simp [Except.map] at e

end La
