import Verif.Rename

/-!
# Renaming labels: the methods that take one larry
-/

namespace La

/-- The result of a method with its labels renamed. -/
def Out.rename {L M : Type _} (g : L → M) : Out L → Out M
  | .scalar v => .scalar v
  | .larry z => .larry (z.rename g)

def GetOut.rename {L M : Type _} (g : L → M) : GetOut L → GetOut M
  | .scalar v => .scalar v
  | .array x => .array x
  | .larry z => .larry (z.rename g)

/-- The operator and value of `keep_label` with the value renamed. -/
def LabelOp.rename {L M : Type _} (g : L → M) : LabelOp L → LabelOp M
  | .eq v => .eq (g v)
  | .gt v => .gt (g v)
  | .lt v => .lt (g v)
  | .ge v => .ge (g v)
  | .le v => .le (g v)
  | .ne v => .ne (g v)
  | .isIn vs => .isIn (vs.map g)
  | .notIn vs => .notIn (vs.map g)
  | .unknown => .unknown

namespace Larry
section
variable {L M : Type _} (g : L → M)

theorem flipaxisLoop_rename (axs : List Int) : ∀ y : Larry L,
    flipaxisLoop axs (y.rename g) = Res.map (rename g) (flipaxisLoop axs y) := by
  induction axs with
  | nil => intro y; rfl
  | cons a axs ih =>
    intro y
    simp only [flipaxisLoop, rename_label, List.length_map]
    cases pyIdx y.label.length a with
    | none => rfl
    | some ax =>
      simp only [getD_rename, pySliceList_map, rename_x]
      cases pySliceList (y.label.getD ax []) ⟨none, none, some (-1)⟩ with
      | error e => rfl
      | ok lab =>
        simp only [Res.map_ok]
        cases y.x.sliceAx ⟨none, none, some (-1)⟩ ax with
        | error e => rfl
        | ok x => simp only [set_rename, rename_dtype]; exact ih ⟨x, y.dtype, y.label.set ax lab⟩

theorem flipaxis_rename (y : Larry L) (axis : Option Int) :
    (y.rename g).flipaxis axis = Res.map (rename g) (y.flipaxis axis) :=
  flipaxisLoop_rename g _ y

theorem lag_rename (y : Larry L) (nlag : Int) (axis : Option Int) :
    (y.rename g).lag nlag axis = Res.map (rename g) (y.lag nlag axis) := by
  cases axis with
  | none => rfl
  | some a =>
    simp only [lag, rename_label, List.length_map]
    split
    · rfl
    · cases pyIdx y.label.length a with
      | none => rfl
      | some ax =>
        simp only [getD_rename, pySliceList_map, rename_x]
        cases pySliceList (y.label.getD ax []) (lagSlices nlag).1 with
        | error e => rfl
        | ok lab =>
          simp only [Res.map_ok]
          cases y.x.sliceAx (lagSlices nlag).2 ax with
          | error e => rfl
          | ok x => simp only [set_rename, Res.map_ok, rename_mk, rename_dtype]

theorem T_rename (y : Larry L) : (y.rename g).T = y.T.rename g := by
  simp [T, rename]

theorem swapaxes_rename (y : Larry L) (i j : Int) :
    (y.rename g).swapaxes i j = Res.map (rename g) (y.swapaxes i j) := by
  simp only [swapaxes, rename_label, List.length_map]
  cases pyIdx y.label.length i with
  | none => rfl
  | some a =>
    cases pyIdx y.label.length j with
    | none => rfl
    | some b => simp only [swapList_map, Res.map_ok, rename_mk, rename_x, rename_dtype]

theorem squeeze_rename (y : Larry L) : (y.rename g).squeeze = y.squeeze.rename g := by
  simp only [squeeze, rename_mk, rename_x, rename_dtype, rename_label, rename_shape, List.zip_map_left,
    List.filter_map, List.map_map]
  rfl

theorem maplabel_rename {f : L → L} {f' : M → M} (hf : ∀ a, f' (g a) = g (f a)) (y : Larry L) (axis : Option Int) :
    (y.rename g).maplabel f' axis = Res.map (rename g) (y.maplabel f axis) := by
  have hm : ∀ l : List L, (l.map g).map f' = (l.map f).map g := by
    intro l; simp [hf]
  cases axis with
  | none =>
    simp only [maplabel, Res.map_ok, rename, List.map_map]
    congr 2
    apply List.map_congr_left
    intro l _
    simp [hf]
  | some a =>
    simp only [maplabel, rename_label, List.length_map]
    cases pyIdx y.label.length a with
    | none => rfl
    | some ax =>
      simp only [Res.map_ok, getD_rename, hm, set_rename]
      rfl

theorem ismissing_rename (y : Larry L) : (y.rename g).ismissing = y.ismissing.rename g := rfl

theorem reduce_rename (r : Red) (y : Larry L) (axis : Option Int) :
    (y.rename g).reduce r axis = Res.map (Out.rename g) (y.reduce r axis) := by
  simp only [reduce, rename_size, rename_dtype, rename_ndim, rename_x, rename_shape, rename_label, pyPop_labels]
  split
  · cases axis with
    | none => rfl
    | some a =>
      simp only
      cases pyPop y.shape a with
      | error e => rfl
      | ok s =>
        simp only
        split
        · rfl
        · cases fillVal? (if r.logical = true then DType.bool else y.dtype) r.default with
          | error e => rfl
          | ok v => cases pyPop y.label a <;> rfl
  · cases r.dt y.dtype with
    | error e => rfl
    | ok d =>
      cases axis with
      | none => rfl
      | some a =>
        simp only
        cases pyIdx y.ndim a with
        | none => rfl
        | some ax =>
          simp only
          split
          · rfl
          · cases pyPop y.label a <;> rfl

theorem prod_rename (y : Larry L) (axis : Option Int) :
    (y.rename g).prod axis = Res.map (Out.rename g) (y.prod axis) := by
  unfold prod
  by_cases hd : y.dtype = .str ∨ y.dtype = .object
  · have hd' : (y.rename g).dtype = .str ∨ (y.rename g).dtype = .object := hd
    rw [if_pos hd, if_pos hd']; rfl
  · have hd' : ¬ ((y.rename g).dtype = .str ∨ (y.rename g).dtype = .object) := hd
    rw [if_neg hd, if_neg hd']
    simp only [rename_dtype, rename_x, rename_ndim]
    have h := reduce_rename g (prodRed y.dtype)
      { y with x := y.x.map (fun v => if v.isNan then .flt (.fin 1) else v) } axis
    simp only [rename] at h
    simp only [rename]
    rw [h]
    cases reduce (prodRed y.dtype) { y with x := y.x.map (fun v => if v.isNan then .flt (.fin 1) else v) } axis with
    | error e => rfl
    | ok o =>
      cases o with
      | scalar v => rfl
      | larry z =>
        cases axis with
        | none => rfl
        | some a =>
          simp only [Res.map_ok, Out.rename]
          cases pyIdx y.ndim a <;> rfl

theorem cumulate_rename (op : DType → Val → Val → Val) (u : Int) (y : Larry L) (axis : Option Int) :
    (y.rename g).cumulate op u axis = Res.map (rename g) (y.cumulate op u axis) := by
  cases axis with
  | none => rfl
  | some a =>
    unfold cumulate
    refine Res.ite_map Iff.rfl rfl ?_
    simp only [rename_ndim]
    cases npAxis y.ndim a <;> rfl

theorem clip_rename (y : Larry L) (lo hi : Flt) : (y.rename g).clip lo hi = Res.map (rename g) (y.clip lo hi) := by
  unfold clip
  exact Res.ite_map Iff.rfl rfl (Res.ite_map Iff.rfl rfl rfl)

theorem along_rename (f : List Val → List Val) (d : DType) (y : Larry L) (ax : Nat) :
    (y.rename g).along f d ax = (y.along f d ax).rename g := rfl

theorem alongAll_rename (f : List Val → List Val) (d : DType) (y : Larry L) :
    (y.rename g).alongAll f d = (y.alongAll f d).rename g := rfl

theorem push_rename (y : Larry L) (w a : Int) : (y.rename g).push w a = Res.map (rename g) (y.push w a) := by
  unfold push
  simp only [rename_ndim]
  cases npAxis y.ndim a with
  | error e => rfl
  | ok ax => exact Res.ite_map Iff.rfl rfl rfl

theorem ranking_rename (y : Larry L) (axis : Option Int) (norm : RankNorm) :
    (y.rename g).ranking axis norm = Res.map (rename g) (y.ranking axis norm) := by
  unfold ranking
  refine Res.ite_map Iff.rfl rfl ?_
  simp only [rename_ndim]
  cases norm <;> (try rfl) <;>
  · cases axis with
    | none => rfl
    | some a => simp only; cases pyIdx y.ndim a <;> rfl

theorem quantile_rename (argsort : List ℚ → List Nat) (y : Larry L) (q : Int) (axis : Option Int) :
    (y.rename g).quantile argsort q axis = Res.map (rename g) (y.quantile argsort q axis) := by
  unfold quantile
  refine Res.ite_map Iff.rfl rfl (Res.ite_map Iff.rfl rfl (Res.ite_map Iff.rfl rfl ?_))
  cases axis with
  | none => exact Res.ite_map Iff.rfl rfl rfl
  | some a =>
    simp only [rename_ndim]
    cases pyIdx y.ndim a with
    | none => rfl
    | some ax => exact Res.ite_map Iff.rfl rfl rfl

theorem demean_rename (c : List Flt → Flt) (y : Larry L) (axis : Option Int) :
    (y.rename g).demean c axis = Res.map (rename g) (y.demean c axis) := by
  unfold demean
  refine Res.ite_map Iff.rfl rfl ?_
  cases axis with
  | none => rfl
  | some a => simp only [rename_ndim]; cases npAxis y.ndim a <;> rfl

theorem zscore_rename (c : List Flt → Flt) (y : Larry L) (axis : Option Int) :
    (y.rename g).zscore c axis = Res.map (rename g) (y.zscore c axis) := by
  unfold zscore
  refine Res.ite_map Iff.rfl rfl ?_
  cases axis with
  | none => rfl
  | some a => simp only [rename_ndim]; cases npAxis y.ndim a <;> rfl

theorem movingsumForward_rename (y : Larry L) (w : Int) (s : Nat) (a : Int) (n : Bool) :
    (y.rename g).movingsumForward w s a n = Res.map (rename g) (y.movingsumForward w s a n) := by
  unfold movingsumForward
  simp only [rename_ndim]
  cases pyIdx y.ndim a with
  | none => rfl
  | some ax =>
    exact Res.ite_map Iff.rfl rfl (Res.ite_map Iff.rfl rfl (Res.ite_map Iff.rfl rfl (Res.ite_map Iff.rfl rfl rfl)))

theorem moveBn_rename (f : Nat → List Val → List Val) (y : Larry L) (w a : Int) :
    (y.rename g).moveBn f w a = Res.map (rename g) (y.moveBn f w a) := by
  unfold moveBn
  simp only [rename_ndim]
  cases pyIdx y.ndim a with
  | none => rfl
  | some ax => exact Res.ite_map Iff.rfl rfl (Res.ite_map Iff.rfl rfl rfl)

theorem moveFunc_rename (f : List Val → Val) (buf : Int → Val) (arr : Strided) (y : Larry L) (w : Int)
    (axis : Option Int) (m : MoveMethod) :
    (y.rename g).moveFunc f buf arr w axis m = Res.map (rename g) (y.moveFunc f buf arr w axis m) := by
  simp only [Larry.moveFunc, rename_label]
  cases La.moveFunc f buf arr w axis m <;> rfl

theorem keptLab_rename (y : Larry L) (ax : Nat) (ids : List Nat) :
    (y.rename g).keptLab ax ids = (y.keptLab ax ids).map g := by
  simp only [keptLab, rename_label, getD_rename, List.getElem?_map, List.map_filterMap]

theorem keptLabs_rename (y : Larry L) (ids : List (List Nat)) :
    ids.zipIdx.map (fun p => (y.rename g).keptLab p.2 p.1) =
      (ids.zipIdx.map (fun p => y.keptLab p.2 p.1)).map (List.map g) := by
  rw [List.map_map]
  apply List.map_congr_left
  intro p _
  exact keptLab_rename g y p.2 p.1

theorem vacuum_rename (y : Larry L) (axis : Option (List Int)) :
    (y.rename g).vacuum axis = Res.map (rename g) (y.vacuum axis) := by
  have h : (y.rename g).vacuumAxis = y.vacuumAxis := rfl
  simp only [vacuum, rename_ndim, h, keptLabs_rename]
  cases mapRes (y.vacuumAxis (vacuumAxes y.ndim axis)) (List.range y.ndim) <;> rfl

theorem cutMissing_rename (y : Larry L) (q : ℚ) (axis : Option Int) :
    (y.rename g).cutMissing q axis = Res.map (rename g) (y.cutMissing q axis) := by
  have h : (y.rename g).cutAxis = y.cutAxis := rfl
  simp only [cutMissing, rename_ndim, h, keptLabs_rename, rename_x, rename_dtype]
  cases cutAxes y.ndim axis with
  | error e => rfl
  | ok axes =>
    simp only
    cases mapRes (y.cutAxis q axes) (List.range y.ndim) with
    | error e => rfl
    | ok ids => simp only; split <;> rfl

theorem keepX_rename (y : Larry L) (op : CmpOp) (v : Flt) (vac : Bool) :
    (y.rename g).keepX op v vac = Res.map (rename g) (y.keepX op v vac) := by
  unfold keepX
  refine Res.ite_map Iff.rfl rfl (Res.ite_map Iff.rfl rfl ?_)
  simp only [rename_dtype]
  cases nanAs y.dtype with
  | error e => rfl
  | ok w =>
    exact Res.ite_map Iff.rfl
      (vacuum_rename g ⟨y.x.map (fun a : Val => if op.test a.num v then a else w), y.dtype, y.label⟩ none) rfl

end

section
variable {L M : Type _} [DecidableEq L] [DecidableEq M] {g : L → M} (hg : Function.Injective g)
include hg

theorem insertaxis_rename (y : Larry L) (axis : Option Int) (name : L) :
    (y.rename g).insertaxis axis (g name) = Res.map (rename g) (y.insertaxis axis name) := by
  cases axis with
  | none => rfl
  | some a =>
    simp only [insertaxis, rename_label, List.length_map, rename_x, rename_dtype]
    rw [← mk'_rename hg, ← pyInsert_map]
    rfl

end

section
variable {L M : Type _} [LinearOrder L] [LinearOrder M] {g : L → M} (hg : StrictMono g)
include hg

theorem labelindex_rename (y : Larry L) (name : L) (axis : Option Int) (exact : Bool) :
    (y.rename g).labelindex (g name) axis exact = y.labelindex name axis exact := by
  cases axis with
  | none => rfl
  | some a =>
    simp only [labelindex, rename_ndim, rename_label, pyGet_map]
    split
    · rfl
    · cases pyGet y.label a with
      | error e => rfl
      | ok l =>
        simp only [Res.map_ok, pyIndex_rename hg.injective, List.length_map, List.getElem?_map]
        congr 2
        funext _
        congr 4
        funext i
        cases l[i]? with
        | none => rfl
        | some z => simp [hg.le_iff_le]

theorem labelIdx_rename (y : Larry L) (names : List L) :
    (y.rename g).labelIdx (names.map g) = y.labelIdx names := by
  simp only [labelIdx, List.length_map, rename_ndim, List.zipIdx_map, mapRes_list]
  split
  · rfl
  · exact mapRes_congr' (fun p _ => labelindex_rename hg y p.1 _ _)

theorem get_rename (y : Larry L) (names : List L) : (y.rename g).get (names.map g) = y.get names := by
  simp only [get, labelIdx_rename hg, rename_x]

theorem set_rename' (y : Larry L) (names : List L) (v : Val) :
    (y.rename g).set (names.map g) v = Res.map (rename g) (y.set names v) := by
  simp only [set, labelIdx_rename hg, rename_x]
  cases y.labelIdx names with
  | error e => rfl
  | ok index => exact Res.ite_map Iff.rfl rfl rfl

theorem morph_rename (y : Larry L) (lab : List L) (axis : Int) :
    (y.rename g).morph (lab.map g) axis = Res.map (rename g) (y.morph lab axis) := by
  unfold morph
  refine Res.ite_map Iff.rfl rfl ?_
  rw [rename_label, List.length_map]
  cases pyIdx y.label.length axis with
  | none => rfl
  | some ax =>
    dsimp only
    rw [getD_rename]
    refine Res.ite_map (labs_inj hg.injective) rfl ?_
    rw [listmapFill_rename hg.injective, rename_x, rename_dtype, set_rename, hasDup_rename hg.injective]
    generalize (if (listmapFill (y.label.getD ax []) lab).1.length = (listmapFill (y.label.getD ax []) lab).2.length
      then _ else _ : Res (NDArray Val × DType)) = r
    cases r with
    | error e => rfl
    | ok p => exact Res.ite_map Iff.rfl rfl rfl

omit [LinearOrder L] [LinearOrder M] hg in
theorem getlabel_rename (y : Larry L) (axis : Int) :
    (y.rename g).getlabel axis = Res.map (List.map g) (y.getlabel axis) := by
  simp only [getlabel, rename_ndim, rename_label, pyGet_map]
  split <;> rfl

theorem morphLikeLoop_rename (lar : Larry L) (is : List Nat) : ∀ y : Larry L,
    morphLikeLoop (lar.rename g) is (y.rename g) = Res.map (rename g) (morphLikeLoop lar is y) := by
  induction is with
  | nil => intro y; rfl
  | cons i is ih =>
    intro y
    simp only [morphLikeLoop, getlabel_rename]
    cases lar.getlabel i with
    | error e => rfl
    | ok l =>
      simp only [Res.map_ok, morph_rename hg]
      cases y.morph l i with
      | error e => rfl
      | ok z => exact ih z

theorem morphLike_rename (y z : Larry L) :
    (y.rename g).morphLike (z.rename g) = Res.map (rename g) (y.morphLike z) := by
  unfold morphLike
  exact Res.ite_map Iff.rfl rfl (morphLikeLoop_rename hg z _ y)

theorem sortaxisLoop_rename (self : Larry L) (r : Bool) (axs : List Int) : ∀ y : Larry L,
    sortaxisLoop (self.rename g) r axs (y.rename g) = Res.map (rename g) (sortaxisLoop self r axs y) := by
  induction axs with
  | nil => intro y; rfl
  | cons a axs ih =>
    intro y
    simp only [sortaxisLoop, rename_shape, rename_label, pyGet_map]
    cases pyGet self.shape a with
    | error e => rfl
    | ok n =>
      simp only
      split
      · cases pyGet self.label a with
        | error e => rfl
        | ok l =>
          simp only [Res.map_ok, sortedLab_rename hg, morph_rename hg]
          cases y.morph (sortedLab r l) a with
          | error e => rfl
          | ok z => exact ih z
      · exact ih y

theorem sortaxis_rename (y : Larry L) (axis : Option Int) (r : Bool) :
    (y.rename g).sortaxis axis r = Res.map (rename g) (y.sortaxis axis r) :=
  sortaxisLoop_rename hg y r _ y

theorem test_rename (op : LabelOp L) (z : L) : (op.rename g).test (g z) = op.test z := by
  cases op <;> simp [LabelOp.rename, LabelOp.test, hg.injective.eq_iff, hg.lt_iff_lt, hg.le_iff_le]

theorem keepLabel_rename (y : Larry L) (op : LabelOp L) (axis : Option Int) :
    (y.rename g).keepLabel (op.rename g) axis = Res.map (rename g) (y.keepLabel op axis) := by
  have key : ∀ l : List L, (l.map g).zipIdx.filter (fun p => (op.rename g).test p.1) =
      (l.zipIdx.filter (fun p => op.test p.1)).map (Prod.map g id) := by
    intro l
    rw [List.zipIdx_map, List.filter_map]
    congr 1
    apply List.filter_congr
    intro p _
    exact test_rename hg op p.1
  cases axis with
  | none => cases op <;> rfl
  | some a =>
    by_cases ho : op = .unknown
    · subst ho; rfl
    · have h1 : ∀ (z : Larry L), z.keepLabel op (some a) = if a ≥ z.ndim then .error .indexError
          else match pyIdx z.label.length a with
            | none => .error .indexError
            | some ax =>
              let idxlabel := (z.label.getD ax []).zipIdx.filter (fun p => op.test p.1)
              if idxlabel.length = 0 then .ok emptyLarry
              else .ok ⟨z.x.gather (idxlabel.map Prod.snd) ax, z.dtype, z.label.set ax (idxlabel.map Prod.fst)⟩ := by
        intro z; cases op <;> first | rfl | exact absurd rfl ho
      have h2 : ∀ (z : Larry M), z.keepLabel (op.rename g) (some a) = if a ≥ z.ndim then .error .indexError
          else match pyIdx z.label.length a with
            | none => .error .indexError
            | some ax =>
              let idxlabel := (z.label.getD ax []).zipIdx.filter (fun p => (op.rename g).test p.1)
              if idxlabel.length = 0 then .ok emptyLarry
              else .ok ⟨z.x.gather (idxlabel.map Prod.snd) ax, z.dtype, z.label.set ax (idxlabel.map Prod.fst)⟩ := by
        intro z; cases op <;> first | rfl | exact absurd rfl ho
      rw [h1, h2]
      simp only [rename_ndim, rename_label, List.length_map]
      split
      · rfl
      · cases pyIdx y.label.length a with
        | none => rfl
        | some ax =>
          simp only [getD_rename, key, List.length_map, List.map_map]
          split
          · rfl
          · simp only [Res.map_ok, rename_mk, List.map_set, List.map_map]
            rfl

theorem pull_rename (y : Larry L) (name : L) (axis : Option Int) :
    (y.rename g).pull (g name) axis = Res.map (Out.rename g) (y.pull name axis) := by
  cases axis with
  | none => rfl
  | some a =>
    simp only [pull, rename_label, pyPop_labels, labelindex_rename hg, rename_ndim, rename_x, rename_dtype]
    cases pyPop y.label a with
    | error e => rfl
    | ok label =>
      simp only [Res.map_ok]
      cases y.labelindex name (some a) with
      | error e => rfl
      | ok idx =>
        simp only
        cases pyIdx y.ndim a with
        | none => rfl
        | some ax =>
          simp only [mk'_rename hg.injective]
          split
          · rfl
          · split
            · rfl
            · cases mk' (y.x.pick idx ax) y.dtype label <;> rfl

theorem take_rename (y : Larry L) (is : List Int) (axis : Int) :
    (y.rename g).take is axis = Res.map (rename g) (y.take is axis) := by
  simp only [take, rename_label, List.length_map, rename_x, rename_dtype]
  cases pyIdx y.label.length axis with
  | none => rfl
  | some ax =>
    simp only [getD_rename, pyItems_map]
    cases pyItems (y.label.getD ax []) is with
    | error e => rfl
    | ok lab =>
      simp only [Res.map_ok, hasDup_rename hg.injective, set_rename]
      split
      · rfl
      · cases y.x.take is axis <;> rfl

theorem groupAlign_rename (y z : Larry L) (axis : Int) :
    (y.rename g).groupAlign (z.rename g) axis = y.groupAlign z axis := by
  simp only [groupAlign, rename_ndim, rename_label, List.length_map]
  split
  · rfl
  · cases pyIdx y.label.length axis with
    | none => rfl
    | some ax =>
      simp only [getD_rename, morph_rename hg, List.any_map, Function.comp_def, mem_rename hg.injective]
      split
      · rfl
      · cases z.morph (y.label.getD ax []) 0 <;> rfl

theorem groupBy_rename (sort f : List Val → List Val) (y z : Larry L) (axis : Int) :
    (y.rename g).groupBy sort f (z.rename g) axis = Res.map (rename g) (y.groupBy sort f z axis) := by
  simp only [groupBy, groupAlign_rename hg, rename_dtype, rename_ndim]
  cases y.groupAlign z axis with
  | error e => rfl
  | ok groups =>
    refine Res.ite_map Iff.rfl rfl ?_
    cases pyIdx y.ndim axis <;> rfl

end
end Larry
end La
