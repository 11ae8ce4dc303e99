import Verif.RenameMethods

/-!
# Renaming labels: functions of several larrys, indexing, assignment
-/

namespace La

/-! ## Arithmetic -/

namespace Larry
section
variable {L M : Type _} [LinearOrder L] [LinearOrder M] {g : L → M} (hg : StrictMono g)
include hg

theorem alignLoop_rename (ls : List (List L × List L)) : ∀ (ax : Nat) (x y : NDArray Val),
    alignLoop (ls.map (Prod.map (List.map g) (List.map g))) ax x y =
      Res.map (fun r => (r.1, r.2.1, r.2.2.map (List.map g))) (alignLoop ls ax x y) := by
  induction ls with
  | nil => intro ax x y; rfl
  | cons p ls ih =>
    intro ax x y
    obtain ⟨a, b⟩ := p
    simp only [List.map_cons, Prod.map_apply, alignLoop]
    refine Res.ite_map (labs_inj hg.injective) ?_ ?_
    · rw [ih]
      cases alignLoop ls (ax + 1) x y <;> rfl
    · rw [setInter_rename' hg, pySorted_rename hg, listmap_rename hg.injective, listmap_rename hg.injective]
      cases listmap a (pySorted (setInter a b)) with
      | error e => rfl
      | ok ids =>
        dsimp only
        cases listmap b (pySorted (setInter a b)) with
        | error e => rfl
        | ok ido =>
          dsimp only
          cases x.take (ids.map Int.ofNat) ax with
          | error e => rfl
          | ok x' =>
            dsimp only
            cases y.take (ido.map Int.ofNat) ax with
            | error e => rfl
            | ok y' =>
              dsimp only
              rw [ih]
              cases alignLoop ls (ax + 1) x' y' <;> rfl

theorem align_rename (a b : Larry L) :
    align (a.rename g) (b.rename g) =
      Res.map (fun r => (r.1, r.2.1, r.2.2.map (List.map g))) (align a b) := by
  unfold align
  refine Res.ite_map Iff.rfl rfl ?_
  rw [rename_label, rename_label, List.zip_map, rename_x, rename_x]
  exact alignLoop_rename hg _ 0 a.x b.x

theorem binop_rename (uf : UFunc2) (a b : Larry L) :
    binop uf (a.rename g) (b.rename g) = Res.map (rename g) (binop uf a b) := by
  unfold binop
  refine Res.ite_map (labels_inj hg.injective) ?_ ?_
  · simp only [rename_x, rename_dtype]
    cases npBinop uf a.x a.dtype b.x b.dtype <;> rfl
  · rw [align_rename hg]
    cases align a b with
    | error e => rfl
    | ok r =>
      obtain ⟨x, y, label⟩ := r
      simp only [Res.map_ok, rename_dtype]
      cases npBinop uf x a.dtype y b.dtype <;> rfl

theorem compare_rename (uf : UFunc2) (a b : Larry L) :
    compare uf (a.rename g) (b.rename g) = Res.map (rename g) (compare uf a b) := by
  unfold compare
  rw [align_rename hg]
  cases align a b with
  | error e => rfl
  | ok r =>
    obtain ⟨x, y, label⟩ := r
    simp only [Res.map_ok, rename_dtype]
    cases npBinop uf x a.dtype y b.dtype <;> rfl

omit [LinearOrder L] [LinearOrder M] hg in
theorem binopArray_rename (g : L → M) (uf : UFunc2) (a : Larry L) (x : NDArray Val) (d : DType) :
    binopArray uf (a.rename g) x d = Res.map (rename g) (binopArray uf a x d) := by
  simp only [binopArray, rename_x, rename_dtype]
  cases npBinop uf a.x a.dtype x d <;> rfl

end
end Larry

/-! ## la/flarry.py -/

section
variable {L M : Type _} [LinearOrder L] [LinearOrder M] {g : L → M} (hg : StrictMono g)
include hg

theorem alignRawAxis_rename (cast : Bool) (j : Join) (a b : List L) (ax : Nat) (s : AlignSt) :
    alignRawAxis cast j (a.map g) (b.map g) ax s =
      Res.map (fun r => (r.1, r.2.map (List.map g))) (alignRawAxis cast j a b ax s) := by
  cases j with
  | inner =>
    simp only [alignRawAxis]
    refine Res.ite_map (labs_inj hg.injective) rfl ?_
    rw [setInter_rename' hg, pySorted_rename hg, listmap_rename hg.injective, listmap_rename hg.injective]
    cases listmap a (pySorted (setInter a b)) with
    | error e => rfl
    | ok i1 =>
      dsimp only
      cases listmap b (pySorted (setInter a b)) with
      | error e => rfl
      | ok i2 =>
        dsimp only
        cases s.x1.take (i1.map Int.ofNat) ax with
        | error e => rfl
        | ok x1 => dsimp only; cases s.x2.take (i2.map Int.ofNat) ax <;> rfl
  | outer =>
    simp only [alignRawAxis]
    refine Res.ite_map (labs_inj hg.injective) rfl ?_
    rw [setUnion_rename' hg, pySorted_rename hg, listmapFill_rename hg.injective, listmapFill_rename hg.injective]
    cases s.x1.take (listmapFill a (pySorted (setUnion a b)) 0).1 ax with
    | error e => rfl
    | ok x1 =>
      dsimp only
      cases s.x2.take (listmapFill b (pySorted (setUnion a b)) 0).1 ax with
      | error e => rfl
      | ok x2 =>
        dsimp only
        cases fillMissing cast x1 s.d1 (listmapFill a (pySorted (setUnion a b)) 0).2 ax with
        | error e => rfl
        | ok r1 =>
          dsimp only
          cases fillMissing cast x2 s.d2 (listmapFill b (pySorted (setUnion a b)) 0).2 ax <;> rfl
  | left =>
    simp only [alignRawAxis]
    refine Res.ite_map (labs_inj hg.injective) rfl ?_
    rw [listmapFill_rename hg.injective]
    cases s.x2.take (listmapFill b a 0).1 ax with
    | error e => rfl
    | ok x2 => dsimp only; cases fillMissing cast x2 s.d2 (listmapFill b a 0).2 ax <;> rfl
  | right =>
    simp only [alignRawAxis]
    refine Res.ite_map (labs_inj hg.injective) rfl ?_
    rw [listmapFill_rename hg.injective]
    cases s.x1.take (listmapFill a b 0).1 ax with
    | error e => rfl
    | ok x1 => dsimp only; cases fillMissing cast x1 s.d1 (listmapFill a b 0).2 ax <;> rfl
  | skip => rfl
  | other => rfl

theorem alignRawLoop_rename (cast : Bool) (ls : List (Join × List L × List L)) : ∀ (ax : Nat) (s : AlignSt),
    alignRawLoop cast (ls.map (Prod.map id (Prod.map (List.map g) (List.map g)))) ax s =
      Res.map (fun r => (r.1, r.2.map (Option.map (List.map g)))) (alignRawLoop cast ls ax s) := by
  induction ls with
  | nil => intro ax s; rfl
  | cons p ls ih =>
    intro ax s
    obtain ⟨j, a, b⟩ := p
    simp only [List.map_cons, Prod.map_apply, id, alignRawLoop, alignRawAxis_rename hg]
    cases alignRawAxis cast j a b ax s with
    | error e => rfl
    | ok r =>
      obtain ⟨s', lab⟩ := r
      simp only [Res.map_ok, ih]
      cases alignRawLoop cast ls (ax + 1) s' <;> rfl

theorem alignRaw_rename (y z : Larry L) (join : JoinArg) (cast : Bool) :
    alignRaw (y.rename g) (z.rename g) join cast =
      Res.map (fun r => (r.1, r.2.map (Option.map (List.map g)))) (alignRaw y z join cast) := by
  have hz : ∀ js : List Join, js.zip ((y.rename g).label.zip (z.rename g).label) =
      (js.zip (y.label.zip z.label)).map (Prod.map id (Prod.map (List.map g) (List.map g))) := by
    intro js
    rw [rename_label, rename_label, List.zip_map, List.zip_map_right]
  unfold alignRaw
  refine Res.ite_map Iff.rfl rfl ?_
  cases join with
  | one j =>
    dsimp only
    rw [hz]
    exact alignRawLoop_rename hg cast _ 0 _
  | many js =>
    dsimp only
    rw [hz]
    exact Res.ite_map Iff.rfl rfl (alignRawLoop_rename hg cast _ 0 _)

omit [LinearOrder L] [LinearOrder M] hg in
theorem pickLabel_rename (g : L → M) (own : List (List L)) (labs : List (Option (List L))) :
    pickLabel (own.map (List.map g)) (labs.map (Option.map (List.map g))) =
      (pickLabel own labs).map (List.map g) := by
  unfold pickLabel
  rw [List.zipWith_map, List.map_zipWith]
  congr 1
  funext o lab
  cases lab <;> rfl

theorem align_rename (y z : Larry L) (join : JoinArg) (cast : Bool) :
    align (y.rename g) (z.rename g) join cast =
      Res.map (Prod.map (Larry.rename g) (Larry.rename g)) (align y z join cast) := by
  unfold align
  rw [alignRaw_rename hg]
  cases alignRaw y z join cast with
  | error e => rfl
  | ok r =>
    obtain ⟨s, labs⟩ := r
    simp only [Res.map_ok, rename_label, pickLabel_rename, Prod.map_apply, rename_mk]

theorem binaryop_rename (cv : DType → Val → Val) (uf : UFunc2) (y z : Larry L) (join : JoinArg) (cast : Bool)
    (m1 m2 : Option Val) :
    binaryop cv uf (y.rename g) (z.rename g) join cast m1 m2 =
      Res.map (fun r => (r.1, r.2.1, r.2.2.map (Option.map (List.map g)))) (binaryop cv uf y z join cast m1 m2) := by
  unfold binaryop
  rw [alignRaw_rename hg]
  cases alignRaw y z join cast with
  | error e => rfl
  | ok r =>
    obtain ⟨s, labs⟩ := r
    refine Res.ite_map Iff.rfl rfl ?_
    dsimp only
    cases npBinop uf (fillMiss cv m1 m2 s).x1 (fillMiss cv m1 m2 s).d1 (fillMiss cv m1 m2 s).x2
      (fillMiss cv m1 m2 s).d2 <;> rfl

omit [LinearOrder L] [LinearOrder M] hg in
theorem alignAxisFold_rename {op : List L → List L → List L} {op' : List M → List M → List M}
    (hop : ∀ a b, op' (a.map g) (b.map g) = (op a b).map g) (ls : List (Larry L × Int)) : ∀ acc : List L,
    alignAxisFold op' (ls.map (Prod.map (Larry.rename g) id)) (acc.map g) =
      Res.map (List.map g) (alignAxisFold op ls acc) := by
  induction ls with
  | nil => intro acc; rfl
  | cons p ls ih =>
    intro acc
    obtain ⟨y, a⟩ := p
    simp only [List.map_cons, Prod.map_apply, id, alignAxisFold, rename_label, pyGet_map]
    cases pyGet y.label a with
    | error e => rfl
    | ok l => simp only [Res.map_ok, hop, ih]

theorem alignAxisLabel_rename (ys : List (Larry L)) (axis : List Int) (join : Join) :
    alignAxisLabel (ys.map (Larry.rename g)) axis join = Res.map (List.map g) (alignAxisLabel ys axis join) := by
  have hz : ((ys.map (Larry.rename g)).drop 1).zip axis =
      ((ys.drop 1).zip axis).map (Prod.map (Larry.rename g) id) := by
    rw [← List.map_drop, List.zip_map_left]
  unfold alignAxisLabel
  rw [List.head?_map, hz, List.getLast?_map]
  cases ys.head? with
  | none => rfl
  | some y0 =>
    cases axis.head? with
    | none => rfl
    | some a0 =>
      dsimp only [Option.map]
      cases join with
      | left => exact pyGet_map _ _ _
      | right =>
        dsimp only
        cases ys.getLast? with
        | none => rfl
        | some y =>
          cases axis.getLast? with
          | none => rfl
          | some a => exact pyGet_map _ _ _
      | inner =>
        simp only [rename_label, pyGet_map]
        cases pyGet y0.label a0 with
        | error e => rfl
        | ok l =>
          simp only [Res.map_ok]
          rw [dedup_rename hg.injective, alignAxisFold_rename (setInter_rename' hg)]
          cases alignAxisFold setInter ((ys.drop 1).zip axis) l.dedup with
          | error e => rfl
          | ok l => simp only [Res.map_ok, pySorted_rename hg]
      | _ =>
        simp only [rename_label, pyGet_map]
        cases pyGet y0.label a0 with
        | error e => rfl
        | ok l =>
          simp only [Res.map_ok]
          rw [dedup_rename hg.injective, alignAxisFold_rename (setUnion_rename' hg)]
          cases alignAxisFold setUnion ((ys.drop 1).zip axis) l.dedup with
          | error e => rfl
          | ok l => simp only [Res.map_ok, pySorted_rename hg]

theorem alignAxisN_rename (ys : List (Larry L)) (axis : List Int) (join : Join) :
    alignAxisN (ys.map (Larry.rename g)) axis join =
      Res.map (List.map (Larry.rename g)) (alignAxisN ys axis join) := by
  unfold alignAxisN
  rw [List.length_map, List.zip_map_left, List.any_map]
  refine Res.ite_map Iff.rfl rfl (Res.ite_map Iff.rfl rfl (Res.ite_map Iff.rfl rfl ?_))
  rw [alignAxisLabel_rename hg]
  cases alignAxisLabel ys axis join with
  | error e => rfl
  | ok label =>
    simp only [Res.map_ok, alignAxisMorph, mapRes_list]
    exact mapRes_rename (fun p _ => Larry.morph_rename hg p.1 label p.2)

theorem mergeLoop_rename (axs : List Nat) : ∀ y z : Larry L,
    mergeLoop axs (y.rename g) (z.rename g) =
      Res.map (Prod.map (Larry.rename g) (Larry.rename g)) (mergeLoop axs y z) := by
  induction axs with
  | nil => intro y z; rfl
  | cons ax axs ih =>
    intro y z
    simp only [mergeLoop]
    rw [rename_label, rename_label, getD_rename, getD_rename]
    refine Res.ite_map (labs_inj hg.injective) (ih y z) ?_
    rw [setUnion_rename' hg, pySorted_rename hg, Larry.morph_rename hg, Larry.morph_rename hg]
    cases y.morph (pySorted (setUnion (y.label.getD ax []) (z.label.getD ax []))) ax with
    | error e => rfl
    | ok y' =>
      simp only [Res.map_ok]
      cases z.morph (pySorted (setUnion (y.label.getD ax []) (z.label.getD ax []))) ax with
      | error e => rfl
      | ok z' => exact ih y' z'

theorem merge_rename (y z : Larry L) (update : Bool) :
    merge (y.rename g) (z.rename g) update = Res.map (Larry.rename g) (merge y z update) := by
  unfold merge
  refine Res.ite_map Iff.rfl rfl ?_
  rw [mergeLoop_rename hg, rename_ndim]
  cases mergeLoop (List.range y.ndim) y z with
  | error e => rfl
  | ok r =>
    obtain ⟨y', z'⟩ := r
    refine Res.ite_map Iff.rfl rfl (Res.ite_map Iff.rfl rfl (Res.ite_map Iff.rfl (Res.ite_map Iff.rfl rfl rfl) rfl))

omit [LinearOrder L] [LinearOrder M] hg in
theorem labelFold_rename {op : List L → List L → List L} {op' : List M → List M → List M}
    (hop : ∀ a b, op' (a.map g) (b.map g) = (op a b).map g) (axis : Int) (ls : List (Larry L)) : ∀ acc : List L,
    labelFold op' axis (ls.map (Larry.rename g)) (acc.map g) = Res.map (List.map g) (labelFold op axis ls acc) := by
  induction ls with
  | nil => intro acc; rfl
  | cons y ls ih =>
    intro acc
    simp only [List.map_cons, labelFold, rename_label, pyGet_map]
    cases pyGet y.label axis with
    | error e => rfl
    | ok l => simp only [Res.map_ok, hop, ih]

theorem union_rename (axis : Int) (ys : List (Larry L)) :
    union axis (ys.map (Larry.rename g)) = Res.map (List.map g) (union axis ys) := by
  unfold union
  have h := labelFold_rename (setUnion_rename' hg) axis ys []
  rw [List.map_nil] at h
  rw [h]
  cases labelFold setUnion axis ys [] with
  | error e => rfl
  | ok l => simp only [Res.map_ok, pySorted_rename hg]

theorem intersection_rename (axis : Int) (ys : List (Larry L)) :
    intersection axis (ys.map (Larry.rename g)) = Res.map (List.map g) (intersection axis ys) := by
  cases ys with
  | nil => rfl
  | cons y ys =>
    simp only [intersection, List.map_cons, rename_label, pyGet_map]
    cases pyGet y.label axis with
    | error e => rfl
    | ok l =>
      simp only [Res.map_ok]
      rw [dedup_rename hg.injective, labelFold_rename (setInter_rename' hg)]
      cases labelFold setInter axis ys l.dedup with
      | error e => rfl
      | ok l => simp only [Res.map_ok, pySorted_rename hg]

theorem kwGet_rename (kw : List (L × Larry L)) (key : L) :
    kwGet (kw.map (Prod.map g (Larry.rename g))) (g key) = Res.map (Larry.rename g) (kwGet kw key) := by
  unfold kwGet
  rw [List.find?_map]
  have : ((fun p : M × Larry M => decide (p.1 = g key)) ∘ Prod.map g (Larry.rename g)) =
      fun p : L × Larry L => decide (p.1 = key) := by
    funext p; simp [hg.injective.eq_iff]
  rw [this]
  cases kw.find? (fun p => decide (p.1 = key)) <;> rfl

omit [LinearOrder L] [LinearOrder M] hg in
theorem stackPage_rename (g : L → M) (row col : List L) (y : Larry L) :
    stackPage (row.map g) (col.map g) (y.rename g) = stackPage row col y := by
  unfold stackPage
  rw [List.length_map, List.length_map]
  rfl

theorem stackKey_rename (kw : List (L × Larry L)) (row col : List L) (key : L) :
    stackKey (kw.map (Prod.map g (Larry.rename g))) (row.map g) (col.map g) (g key) = stackKey kw row col key := by
  unfold stackKey
  rw [kwGet_rename hg]
  cases kwGet kw key with
  | error e => rfl
  | ok y =>
    simp only [Res.map_ok, Larry.morph_rename hg]
    cases y.morph row 0 with
    | error e => rfl
    | ok y =>
      simp only [Res.map_ok, Larry.morph_rename hg]
      cases y.morph col 1 with
      | error e => rfl
      | ok y => exact stackPage_rename g row col y

theorem stack_rename (mode : Option Bool) (kw : List (L × Larry L)) :
    stack mode (kw.map (Prod.map g (Larry.rename g))) = Res.map (Larry.rename g) (stack mode kw) := by
  have hs : (kw.map (Prod.map g (Larry.rename g))).map Prod.snd = (kw.map Prod.snd).map (Larry.rename g) := by
    simp
  have hf : (kw.map (Prod.map g (Larry.rename g))).map Prod.fst = (kw.map Prod.fst).map g := by
    simp
  have hu : ∀ (m : Bool) (a : Int), (if m then union a ((kw.map Prod.snd).map (Larry.rename g))
      else intersection a ((kw.map Prod.snd).map (Larry.rename g))) =
      Res.map (List.map g) (if m then union a (kw.map Prod.snd) else intersection a (kw.map Prod.snd)) := by
    intro m a
    exact Res.ite_map Iff.rfl (union_rename hg a _) (intersection_rename hg a _)
  unfold stack
  refine Res.ite_map (by simp) rfl ?_
  cases mode with
  | none => rfl
  | some m =>
    dsimp only
    rw [hs, hf, hu, hu]
    cases (if m then union 0 (kw.map Prod.snd) else intersection 0 (kw.map Prod.snd)) with
    | error e => rfl
    | ok row =>
      simp only [Res.map_ok]
      cases (if m then union 1 (kw.map Prod.snd) else intersection 1 (kw.map Prod.snd)) with
      | error e => rfl
      | ok col =>
        simp only [Res.map_ok]
        rw [pySorted_rename hg, mapRes_list, mapRes_congr' (fun a _ => stackKey_rename hg kw row col a)]
        cases mapRes (fun a => stackKey kw row col a) (pySorted (kw.map Prod.fst)) with
        | error e => rfl
        | ok pages =>
          simp only [List.length_map]
          exact mk'_rename hg.injective _ _ [pySorted (kw.map Prod.fst), row, col]

end

/-! ## Indexing -/

/-- An index with the larrys inside renamed. -/
def Item.rename {L M : Type _} (g : L → M) : Item L → Item M
  | .int i => .int i
  | .slice s => .slice s
  | .seq is => .seq is
  | .mask bs => .mask bs
  | .lar m => .lar (m.rename g)
  | .nd => .nd
  | .other => .other

def Index.rename {L M : Type _} (g : L → M) : Index L → Index M
  | .one it => .one (it.rename g)
  | .tuple its => .tuple (its.map (Item.rename g))

/-- A lix expression with its labels renamed. -/
def LBound.rename {L M : Type _} (g : L → M) : LBound L → LBound M
  | .none => .none
  | .int i => .int i
  | .list ls => .list (ls.map g)
  | .other => .other

def LItem.rename {L M : Type _} (g : L → M) : LItem L → LItem M
  | .list ls => .list (ls.map g)
  | .slice s => .slice ⟨s.start.rename g, s.stop.rename g, s.step⟩
  | .int i => .int i
  | .other => .other

def LIndex.rename {L M : Type _} (g : L → M) : LIndex L → LIndex M
  | .one it => .one (it.rename g)
  | .tuple its => .tuple (its.map (LItem.rename g))

def SetVal.rename {L M : Type _} (g : L → M) : SetVal L → SetVal M
  | .scalar v => .scalar v
  | .lar z => .lar (z.rename g)

section
variable {L M : Type _} [DecidableEq L] [DecidableEq M] {g : L → M} (hg : Function.Injective g)

omit [DecidableEq L] [DecidableEq M] in
theorem maskLabels_rename (g : L → M) (l : List L) (bs : List Bool) :
    maskLabels (l.map g) bs = Res.map (List.map g) (maskLabels l bs) := pyItems_map g l _

omit [DecidableEq L] [DecidableEq M] in
theorem Item.np_rename (g : L → M) (it : Item L) : (it.rename g).np = it.np := by cases it <;> rfl

omit [DecidableEq L] [DecidableEq M] in
theorem Item.isInt_rename (g : L → M) (it : Item L) : (it.rename g).isInt = it.isInt := by cases it <;> rfl

omit [DecidableEq L] [DecidableEq M] in
theorem Item.isSeq_rename (g : L → M) (it : Item L) : (it.rename g).isSeq = it.isSeq := by cases it <;> rfl

omit [DecidableEq L] [DecidableEq M] in
theorem GetOut.ofArray_rename (g : L → M) (x : NDArray Val) :
    GetOut.rename g (GetOut.ofArray x) = GetOut.ofArray x := by
  unfold GetOut.ofArray
  split <;> rfl

include hg

theorem larMask_rename (l : List L) (m : Larry L) : larMask (l.map g) (m.rename g) = larMask l m := by
  have h := Res.ite_map (f := @id (List Bool)) (c := l ≠ m.label.getD 0 [])
    (c' := l.map g ≠ (m.rename g).label.getD 0 []) (a := .error .indexError)
    (b := .ok (m.x.vals.map (fun v => decide (v = .bool true)))) (a' := .error .indexError)
    (b' := .ok (m.x.vals.map (fun v => decide (v = .bool true))))
    (by rw [rename_label, getD_rename]; exact not_congr (labs_inj hg)) rfl rfl
  rw [Res.map_id' id (fun _ => rfl)] at h
  unfold larMask
  rw [rename_x, h]
  rfl

theorem Item.keep_rename (l : List L) (n : Nat) (it : Item L) :
    (it.rename g).keep (l.map g) n = Res.map (Option.map (List.map g)) (it.keep l n) := by
  cases it with
  | int i => exact Res.ite_map Iff.rfl rfl rfl
  | slice s => simp only [Item.rename, Item.keep, pySliceList_map]; cases pySliceList l s <;> rfl
  | seq is => simp only [Item.rename, Item.keep, pyItems_map]; cases pyItems l is <;> rfl
  | mask bs => simp only [Item.rename, Item.keep, maskLabels_rename]; cases maskLabels l bs <;> rfl
  | lar m =>
    simp only [Item.rename, Item.keep, larMask_rename hg, maskLabels_rename]
    cases larMask l m with
    | error e => rfl
    | ok bs => simp only; cases maskLabels l bs <;> rfl
  | nd => rfl
  | other => rfl

namespace Larry

theorem make_rename (x : NDArray Val) (d : DType) (label : List (List L)) (v : Bool) :
    make x d (label.map (List.map g)) v = Res.map (rename g) (make x d label v) := by
  unfold make
  exact Res.ite_map Iff.rfl (mk'_rename hg x d label) rfl

theorem keepAll_rename (y : Larry L) (its : List (Item L)) :
    (y.rename g).keepAll (its.map (Item.rename g)) =
      Res.map (List.map (Option.map (List.map g))) (y.keepAll its) := by
  have hs : its.map (Item.rename g) ++ List.replicate (y.ndim - its.length) (Item.slice {}) =
      (its ++ List.replicate (y.ndim - its.length) (Item.slice {})).map (Item.rename g) := by
    simp [Item.rename]
  unfold keepAll
  rw [rename_ndim, List.length_map, hs, rename_label, rename_shape, List.zip_map_left, List.zip_map, mapRes_list]
  exact mapRes_rename (fun p _ => Item.keep_rename hg p.1.1 p.1.2 p.2)

theorem getTuple_rename (y : Larry L) (its : List (Item L)) :
    (y.rename g).getTuple (its.map (Item.rename g)) = Res.map (GetOut.rename g) (y.getTuple its) := by
  have h1 : (its.map (Item.rename g)).map Item.np = its.map Item.np := by
    simp [Function.comp_def, Item.np_rename]
  have h2 : (its.map (Item.rename g)).all Item.isInt = its.all Item.isInt := by
    simp [List.all_map, Function.comp_def, Item.isInt_rename]
  have h3 : (its.map (Item.rename g)).any Item.isSeq = its.any Item.isSeq := by
    simp [List.any_map, Function.comp_def, Item.isSeq_rename]
  have h4 : ∀ labs : List (Option (List L)), (labs.map (Option.map (List.map g))).filterMap id =
      (labs.filterMap id).map (List.map g) := by
    intro labs; simp [List.map_filterMap, List.filterMap_map]
  unfold getTuple
  rw [keepAll_rename hg, h1, h2, h3, rename_x, rename_dtype]
  cases y.keepAll its with
  | error e => rfl
  | ok labs =>
    simp only [Res.map_ok]
    cases y.x.index (its.map Item.np) with
    | error e => rfl
    | ok x =>
      refine Res.ite_map Iff.rfl (by rw [Res.map_ok, GetOut.ofArray_rename]) ?_
      rw [h4, make_rename hg]
      cases make x y.dtype (labs.filterMap id) (its.any Item.isSeq) <;> rfl

theorem getSeq_rename (y : Larry L) (is : List Int) :
    (y.rename g).getSeq is = Res.map (GetOut.rename g) (y.getSeq is) := by
  unfold getSeq
  rw [rename_label, getD_rename, pyItems_map]
  cases pyItems (y.label.getD 0 []) is with
  | error e => rfl
  | ok lab =>
    simp only [Res.map_ok]
    rw [hasDup_rename hg]
    refine Res.ite_map Iff.rfl rfl ?_
    simp only [rename_x, set_rename]
    cases y.x.take is 0 <;> rfl

theorem getitem_rename (y : Larry L) (idx : Index L) :
    (y.rename g).getitem (idx.rename g) = Res.map (GetOut.rename g) (y.getitem idx) := by
  cases idx with
  | tuple its => exact getTuple_rename hg y its
  | one it =>
    cases it with
    | int i =>
      simp only [Index.rename, Item.rename, getitem]
      refine Res.ite_map Iff.rfl rfl ?_
      simp only [rename_x]
      cases y.x.index [.int i] with
      | error e => rfl
      | ok x =>
        refine Res.ite_map Iff.rfl (by rw [Res.map_ok, GetOut.ofArray_rename]) ?_
        simp only [rename_label, Res.map_ok, GetOut.rename, rename_mk, List.map_drop, rename_dtype]
    | slice s =>
      simp only [Index.rename, Item.rename, getitem, rename_label, getD_rename, pySliceList_map, rename_x]
      cases pySliceList (y.label.getD 0 []) s with
      | error e => rfl
      | ok lab =>
        simp only [Res.map_ok, set_rename]
        cases y.x.index [.slice s] <;> rfl
    | seq is => exact getSeq_rename hg y is
    | mask bs =>
      simp only [Index.rename, Item.rename, getitem, rename_label, getD_rename, maskLabels_rename, rename_x]
      cases maskLabels (y.label.getD 0 []) bs with
      | error e => rfl
      | ok lab =>
        simp only [Res.map_ok, set_rename]
        cases y.x.index [.mask bs] <;> rfl
    | lar m =>
      simp only [Index.rename, Item.rename, getitem, rename_label, getD_rename, maskLabels_rename, rename_x,
        larMask_rename hg, rename_dtype]
      cases larMask (y.label.getD 0 []) m with
      | error e => rfl
      | ok bs =>
        simp only
        cases maskLabels (y.label.getD 0 []) bs with
        | error e => rfl
        | ok lab =>
          simp only [Res.map_ok, set_rename, mk'_rename hg]
          cases y.x.index [.mask bs] with
          | error e => rfl
          | ok x => simp only; cases mk' x y.dtype (y.label.set 0 lab) <;> rfl
    | nd => rfl
    | other => rfl

/-! ## Assignment -/

theorem setMask_rename (y m : Larry L) (v : Val) :
    (y.rename g).setMask (m.rename g) v = Res.map (rename g) (y.setMask m v) := by
  unfold setMask
  refine Res.ite_map (labels_inj hg) ?_ rfl
  simp only [rename_dtype, rename_x]
  cases m.dtype with
  | bool => rfl
  | int => simp only; cases mapRes (pyIdxE (y.x.shape.getD 0 0)) (intVals m.x) <;> rfl
  | _ => rfl

omit [DecidableEq L] [DecidableEq M] hg in
theorem putAt_rename (g : L → M) (y : Larry L) (its : List NpItem) (v : List Nat → Val) :
    (y.rename g).putAt its v = Res.map (rename g) (y.putAt its v) := by
  simp only [putAt, rename_x]
  cases npSelect y.x.shape its <;> rfl

omit [DecidableEq L] [DecidableEq M] hg in
theorem toIndex_rename (g : L → M) (idx : NpIndex) :
    (idx.toIndex : Index L).rename g = idx.toIndex := by
  have h : ∀ it : NpItem, (it.toItem : Item L).rename g = it.toItem := by intro it; cases it <;> rfl
  cases idx with
  | one it => simp only [NpIndex.toIndex, Index.rename, h]
  | tuple its => simp only [NpIndex.toIndex, Index.rename, List.map_map, Function.comp_def, h]

theorem setAt_rename (conv : Val → Val) (y : Larry L) (idx : NpIndex) (v : SetVal L) :
    (y.rename g).setAt conv idx (v.rename g) = Res.map (rename g) (y.setAt conv idx v) := by
  cases v with
  | scalar v => exact putAt_rename g y _ _
  | lar z =>
    simp only [SetVal.rename, setAt]
    rw [← toIndex_rename g idx, getitem_rename hg]
    cases y.getitem idx.toIndex with
    | error e => rfl
    | ok o =>
      cases o with
      | scalar v => rfl
      | array x => rfl
      | larry s =>
        exact Res.ite_map (labels_inj hg) (putAt_rename g y _ _) rfl

end Larry
end

section
variable {L M : Type _} [LinearOrder L] [LinearOrder M] {g : L → M} (hg : StrictMono g)
include hg

theorem sortby_rename (argsort : List Val → List Nat) (y : Larry L) (e : L) (axis : Int) (r : Bool) :
    sortby argsort (y.rename g) (g e) axis r = Res.map (GetOut.rename g) (sortby argsort y e axis r) := by
  have hgi : ∀ its : List NpItem, (y.rename g).getitem (.tuple (its.map NpItem.toItem)) =
      Res.map (GetOut.rename g) (y.getitem (.tuple (its.map NpItem.toItem))) := by
    intro its
    have h := Larry.getitem_rename hg.injective y (NpIndex.toIndex (.tuple its))
    rw [Larry.toIndex_rename] at h
    exact h
  unfold sortby
  have tail : ∀ a : Int, (if ¬ (a = 0 ∨ a = 1) then Except.error PyErr.valueError
      else match (y.rename g).labelindex (g e) (some a) with
      | .error e => .error e
      | .ok k =>
        if a = 0 then
          (y.rename g).getitem (.tuple [.slice {}, .seq ((revIf r (argsort ((List.range ((y.rename g).shape.getD 1 0)).map (fun j => (y.rename g).x.get [k, j])))).map (fun i : Nat => (i : Int)))])
        else
          (y.rename g).getitem (.tuple [.seq ((revIf r (argsort ((List.range ((y.rename g).shape.getD 0 0)).map (fun j => (y.rename g).x.get [j, k])))).map (fun i : Nat => (i : Int))), .slice {}]) : Res (GetOut M)) =
      Res.map (GetOut.rename g) (if ¬ (a = 0 ∨ a = 1) then Except.error PyErr.valueError
      else match y.labelindex e (some a) with
      | .error e => .error e
      | .ok k =>
        if a = 0 then
          y.getitem (.tuple [.slice {}, .seq ((revIf r (argsort ((List.range (y.shape.getD 1 0)).map (fun j => y.x.get [k, j])))).map (fun i : Nat => (i : Int)))])
        else
          y.getitem (.tuple [.seq ((revIf r (argsort ((List.range (y.shape.getD 0 0)).map (fun j => y.x.get [j, k])))).map (fun i : Nat => (i : Int))), .slice {}])) := by
    intro a
    refine Res.ite_map Iff.rfl rfl ?_
    rw [Larry.labelindex_rename hg]
    cases y.labelindex e (some a) with
    | error e => rfl
    | ok k =>
      exact Res.ite_map Iff.rfl (hgi [.slice {}, .seq _]) (hgi [.seq _, .slice {}])
  refine Res.ite_map Iff.rfl rfl (Res.ite_map Iff.rfl ?_ (tail _))
  rw [rename_label, pyGet_map]
  cases pyGet y.label axis with
  | error e => rfl
  | ok l => exact Res.ite_map (mem_rename hg.injective) rfl (tail _)

/-! ## lix -/

theorem LBound.resolve_rename (y : Larry L) (ax : Nat) (b : LBound L) :
    (b.rename g).resolve (y.rename g) ax = b.resolve y ax := by
  cases b with
  | none => rfl
  | int i => rfl
  | other => rfl
  | list ls =>
    match ls with
    | [] => rfl
    | [n] => simp only [LBound.rename, List.map_cons, List.map_nil, LBound.resolve, Larry.labelindex_rename hg]
    | _ :: _ :: _ => rfl

theorem slicemaker_rename (y : Larry L) (ax : Nat) (s : LSlice L) :
    slicemaker (y.rename g) ax ⟨s.start.rename g, s.stop.rename g, s.step⟩ = slicemaker y ax s := by
  simp only [slicemaker, LBound.resolve_rename hg]

theorem labels2indices_rename (l ns : List L) : labels2indices (l.map g) (ns.map g) = labels2indices l ns := by
  unfold labels2indices
  rw [mapRes_list]
  refine mapRes_congr' (fun a _ => ?_)
  simp only [indexE, pyIndex_rename hg.injective]

theorem LItem.sel_rename (y : Larry L) (ax : Nat) (it : LItem L) :
    (it.rename g).sel (y.rename g) ax = Res.map (Prod.map id (Option.map (List.map g))) (it.sel y ax) := by
  cases it with
  | list ns =>
    simp only [LItem.rename, LItem.sel, rename_label, getD_rename, labels2indices_rename hg, List.length_map]
    cases labels2indices (y.label.getD ax []) ns with
    | error e => rfl
    | ok ids =>
      simp only [Res.map_ok, Prod.map_apply, id]
      split <;> rfl
  | slice s =>
    simp only [LItem.rename, LItem.sel, rename_label, getD_rename, slicemaker_rename hg, rename_shape, pySliceList_map]
    cases slicemaker y ax s with
    | error e => rfl
    | ok ps =>
      simp only
      cases sliceIndices (y.shape.getD ax 0) ps with
      | error e => rfl
      | ok ids =>
        simp only
        cases pySliceList (y.label.getD ax []) ps with
        | error e => rfl
        | ok lab =>
          simp only [Res.map_ok, Prod.map_apply, id, List.length_map]
          split <;> rfl
  | int i => rfl
  | other => rfl

theorem lixSel_rename (y : Larry L) (its : List (LItem L)) :
    lixSel (y.rename g) (its.map (LItem.rename g)) =
      Res.map (List.map (Prod.map id (Option.map (List.map g)))) (lixSel y its) := by
  have hs : its.map (LItem.rename g) ++ List.replicate (y.ndim - its.length) (LItem.slice {}) =
      (its ++ List.replicate (y.ndim - its.length) (LItem.slice {})).map (LItem.rename g) := by
    simp [LItem.rename, LBound.rename]
  unfold lixSel
  rw [rename_ndim, List.length_map, hs, List.zipIdx_map, mapRes_list]
  exact Res.ite_map Iff.rfl rfl (mapRes_rename (fun p _ => LItem.sel_rename hg y p.2 p.1))

namespace Larry

theorem lixOne_rename (y : Larry L) (it : LItem L) : (y.rename g).lixOne (it.rename g) = y.lixOne it := by
  cases it with
  | list ns =>
    simp only [LItem.rename, lixOne, lixList, rename_label, getD_rename, labels2indices_rename hg, List.length_map]
  | slice s => simp only [LItem.rename, lixOne, slicemaker_rename hg]
  | int i => rfl
  | other => rfl

omit [LinearOrder L] [LinearOrder M] hg in
theorem sels_fst (g : L → M) (sels : List (List Int × Option (List L))) :
    (sels.map (Prod.map id (Option.map (List.map g)))).map Prod.fst = sels.map Prod.fst := by simp

omit [LinearOrder L] [LinearOrder M] hg in
theorem sels_snd (g : L → M) (sels : List (List Int × Option (List L))) :
    (sels.map (Prod.map id (Option.map (List.map g)))).filterMap Prod.snd =
      (sels.filterMap Prod.snd).map (List.map g) := by
  simp [List.map_filterMap, List.filterMap_map]

theorem lixGet_rename (y : Larry L) (idx : LIndex L) :
    (y.rename g).lixGet (idx.rename g) = Res.map (GetOut.rename g) (y.lixGet idx) := by
  unfold lixGet
  refine Res.ite_map Iff.rfl rfl (Res.ite_map Iff.rfl rfl ?_)
  cases idx with
  | one it =>
    simp only [LIndex.rename, lixOne_rename hg]
    cases y.lixOne it with
    | error e => rfl
    | ok it' =>
      have h := getitem_rename hg.injective y (NpIndex.toIndex (.one it'))
      rw [toIndex_rename] at h
      exact h
  | tuple its =>
    simp only [LIndex.rename, lixSel_rename hg]
    cases lixSel y its with
    | error e => rfl
    | ok sels =>
      simp only [Res.map_ok, sels_fst, sels_snd, rename_shape, rename_x, rename_dtype, mk'_rename hg.injective]
      cases ixIds y.shape (sels.map Prod.fst) with
      | error e => rfl
      | ok ids =>
        refine Res.ite_map Iff.rfl rfl ?_
        cases mk' (y.x.grid ids).squeeze y.dtype (sels.filterMap Prod.snd) <;> rfl

omit [LinearOrder L] [LinearOrder M] hg in
theorem lixLabels_rename (g : L → M) (y : Larry L) (index2 : List (List Int)) :
    (y.rename g).lixLabels index2 = Res.map (List.map (List.map g)) (y.lixLabels index2) := by
  unfold lixLabels
  rw [rename_label, List.zip_map_left, mapRes_list]
  exact mapRes_rename (fun p _ => pyItems_map g p.1 p.2)

theorem lixSet_rename (conv : Val → Val) (y : Larry L) (idx : LIndex L) (v : SetVal L) :
    (y.rename g).lixSet conv (idx.rename g) (v.rename g) = Res.map (rename g) (y.lixSet conv idx v) := by
  unfold lixSet
  refine Res.ite_map Iff.rfl rfl (Res.ite_map Iff.rfl rfl ?_)
  cases idx with
  | one it =>
    simp only [LIndex.rename, lixOne_rename hg]
    cases y.lixOne it with
    | error e => rfl
    | ok it' => exact setAt_rename hg.injective conv y (.one it') v
  | tuple its =>
    simp only [LIndex.rename, lixSel_rename hg]
    cases lixSel y its with
    | error e => rfl
    | ok sels =>
      simp only [Res.map_ok, sels_fst, rename_shape, rename_x]
      cases v with
      | scalar v =>
        simp only [SetVal.rename]
        cases ixIds y.shape (sels.map Prod.fst) <;> rfl
      | lar z =>
        simp only [SetVal.rename]
        refine Res.ite_map (by rw [List.length_map]; exact Iff.rfl) rfl ?_
        rw [lixLabels_rename]
        cases y.lixLabels (sels.map Prod.fst) with
        | error e => rfl
        | ok labs =>
          refine Res.ite_map (not_congr (labels_inj hg.injective)) rfl ?_
          cases ixIds y.shape (sels.map Prod.fst) <;> rfl

end Larry
end
end La
