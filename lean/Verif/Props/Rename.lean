import Verif.RenameJoin
import Verif.Props.History
import Mathlib.Data.Subtype

/-!
# Property C78: a program looks at labels only by comparing them
-/

namespace La
open Larry

/-! ## Specification -/

section
variable {L M : Type _}

/-- The same call written with other names for the labels: every label among the arguments is replaced, everything
else is the same.  The function handed to `maplabel` does to the new names what the old one did to the old names. -/
inductive Cmd.Renames (g : L → M) : Cmd L → Cmd M → Prop
  | new (x d label) : Renames g (.new x d label) (.new x d (label.map (List.map g)))
  | morph (i lab axis) : Renames g (.morph i lab axis) (.morph i (lab.map g) axis)
  | morphLike (i j) : Renames g (.morphLike i j) (.morphLike i j)
  | binop (uf i j) : Renames g (.binop uf i j) (.binop uf i j)
  | binopArray (uf i x d) : Renames g (.binopArray uf i x d) (.binopArray uf i x d)
  | compare (uf i j) : Renames g (.compare uf i j) (.compare uf i j)
  | merge (i j update) : Renames g (.merge i j update) (.merge i j update)
  | align (i j join cast) : Renames g (.align i j join cast) (.align i j join cast)
  | alignAxis (is axis join) : Renames g (.alignAxis is axis join) (.alignAxis is axis join)
  | binaryop (cv uf i j join cast m1 m2) :
      Renames g (.binaryop cv uf i j join cast m1 m2) (.binaryop cv uf i j join cast m1 m2)
  | stack (mode kwargs) : Renames g (.stack mode kwargs) (.stack mode (kwargs.map (Prod.map g id)))
  | sortby (argsort i element axis reverse) :
      Renames g (.sortby argsort i element axis reverse) (.sortby argsort i (g element) axis reverse)
  | sortaxis (i axis reverse) : Renames g (.sortaxis i axis reverse) (.sortaxis i axis reverse)
  | keepLabel (i op axis) : Renames g (.keepLabel i op axis) (.keepLabel i (op.rename g) axis)
  | pull (i name axis) : Renames g (.pull i name axis) (.pull i (g name) axis)
  | take (i indices axis) : Renames g (.take i indices axis) (.take i indices axis)
  | flipaxis (i axis) : Renames g (.flipaxis i axis) (.flipaxis i axis)
  | lag (i nlag axis) : Renames g (.lag i nlag axis) (.lag i nlag axis)
  | transpose (i) : Renames g (.transpose i) (.transpose i)
  | swapaxes (i a b) : Renames g (.swapaxes i a b) (.swapaxes i a b)
  | squeeze (i) : Renames g (.squeeze i) (.squeeze i)
  | insertaxis (i axis name) : Renames g (.insertaxis i axis name) (.insertaxis i axis (g name))
  | maplabel (i) {f f'} (axis) : (∀ a, f' (g a) = g (f a)) → Renames g (.maplabel i f axis) (.maplabel i f' axis)
  | getitem (i idx) : Renames g (.getitem i idx) (.getitem i (idx.rename g))
  | lix (i idx) : Renames g (.lix i idx) (.lix i (idx.rename g))
  | reduce (r i axis) : Renames g (.reduce r i axis) (.reduce r i axis)
  | prod (i axis) : Renames g (.prod i axis) (.prod i axis)
  | cumsum (i axis) : Renames g (.cumsum i axis) (.cumsum i axis)
  | cumprod (i axis) : Renames g (.cumprod i axis) (.cumprod i axis)
  | clip (i lo hi) : Renames g (.clip i lo hi) (.clip i lo hi)
  | push (i window axis) : Renames g (.push i window axis) (.push i window axis)
  | ranking (i axis norm) : Renames g (.ranking i axis norm) (.ranking i axis norm)
  | quantile (argsort i q axis) : Renames g (.quantile argsort i q axis) (.quantile argsort i q axis)
  | demean (center i axis) : Renames g (.demean center i axis) (.demean center i axis)
  | zscore (std i axis) : Renames g (.zscore std i axis) (.zscore std i axis)
  | movingsumForward (i window skip axis norm) :
      Renames g (.movingsumForward i window skip axis norm) (.movingsumForward i window skip axis norm)
  | moveFunc (f i buf strides offset window axis m) :
      Renames g (.moveFunc f i buf strides offset window axis m) (.moveFunc f i buf strides offset window axis m)
  | moveBn (k i window axis) : Renames g (.moveBn k i window axis) (.moveBn k i window axis)
  | group (sort f i j axis) : Renames g (.group sort f i j axis) (.group sort f i j axis)
  | ismissing (i) : Renames g (.ismissing i) (.ismissing i)
  | vacuum (i axis) : Renames g (.vacuum i axis) (.vacuum i axis)
  | cutMissing (i fraction axis) : Renames g (.cutMissing i fraction axis) (.cutMissing i fraction axis)
  | keepX (i op value vac) : Renames g (.keepX i op value vac) (.keepX i op value vac)
  | set (i names v) : Renames g (.set i names v) (.set i (names.map g) v)
  | setAt (conv i idx v) : Renames g (.setAt conv i idx v) (.setAt conv i idx (v.rename g))
  | setMask (i j v) : Renames g (.setMask i j v) (.setMask i j v)
  | lixSet (conv i idx v) : Renames g (.lixSet conv i idx v) (.lixSet conv i (idx.rename g) (v.rename g))

/-- The labels of a larry lie in `S`. -/
def Larry.LabelsIn (S : L → Prop) (y : Larry L) : Prop := ∀ l ∈ y.label, ∀ a ∈ l, S a

/-- The labels a program writes in its calls lie in `S`, and the functions it maps over labels stay in `S`. -/
def LabelOp.LabelsIn (S : L → Prop) : LabelOp L → Prop
  | .eq v | .gt v | .lt v | .ge v | .le v | .ne v => S v
  | .isIn vs | .notIn vs => ∀ a ∈ vs, S a
  | .unknown => True

def Item.LabelsIn (S : L → Prop) : Item L → Prop
  | .lar m => m.LabelsIn S
  | _ => True

def Index.LabelsIn (S : L → Prop) : Index L → Prop
  | .one it => it.LabelsIn S
  | .tuple its => ∀ it ∈ its, it.LabelsIn S

def LBound.LabelsIn (S : L → Prop) : LBound L → Prop
  | .list ls => ∀ a ∈ ls, S a
  | _ => True

def LItem.LabelsIn (S : L → Prop) : LItem L → Prop
  | .list ls => ∀ a ∈ ls, S a
  | .slice s => s.start.LabelsIn S ∧ s.stop.LabelsIn S
  | _ => True

def LIndex.LabelsIn (S : L → Prop) : LIndex L → Prop
  | .one it => it.LabelsIn S
  | .tuple its => ∀ it ∈ its, it.LabelsIn S

def SetVal.LabelsIn (S : L → Prop) : SetVal L → Prop
  | .lar z => z.LabelsIn S
  | .scalar _ => True

def Cmd.LabelsIn (S : L → Prop) : Cmd L → Prop
  | .new _ _ label => ∀ l ∈ label, ∀ a ∈ l, S a
  | .morph _ lab _ => ∀ a ∈ lab, S a
  | .stack _ kwargs => ∀ p ∈ kwargs, S p.1
  | .sortby _ _ element _ _ => S element
  | .keepLabel _ op _ => op.LabelsIn S
  | .pull _ name _ => S name
  | .insertaxis _ _ name => S name
  | .maplabel _ f _ => ∀ a, S a → S (f a)
  | .getitem _ idx => idx.LabelsIn S
  | .lix _ idx => idx.LabelsIn S
  | .set _ names _ => ∀ a ∈ names, S a
  | .setAt _ _ _ v => v.LabelsIn S
  | .lixSet _ _ idx v => idx.LabelsIn S ∧ v.LabelsIn S
  | _ => True

end

/-! ## Proofs: renaming -/

section
variable {L M : Type _} [LinearOrder L] [LinearOrder M] {g : L → M} (hg : StrictMono g)

omit [LinearOrder L] [LinearOrder M] in
theorem var_rename (g : L → M) (st : Store L) (i : Nat) :
    Store.var (st.map (rename g)) i = Res.map (rename g) (st.var i) := by
  unfold Store.var
  rw [List.getElem?_map]
  cases st[i]? <;> rfl

omit [LinearOrder L] [LinearOrder M] in
theorem on_rename (g : L → M) (st : Store L) (i : Nat) {α β : Type _} {h : α → β} {f : Larry L → Res α}
    {f' : Larry M → Res β} (hf : ∀ y : Larry L, f' (y.rename g) = Res.map h (f y)) :
    Store.on (st.map (rename g)) i f' = Res.map h (st.on i f) := by
  unfold Store.on
  rw [var_rename]
  cases st.var i with
  | error e => rfl
  | ok y => exact hf y

omit [LinearOrder L] [LinearOrder M] in
theorem one_rename (g : L → M) {r : Res (Larry L)} {r' : Res (Larry M)} (h : r' = Res.map (rename g) r) :
    Res.one r' = Res.map (List.map (rename g)) (Res.one r) := by
  subst h; cases r <;> rfl

omit [LinearOrder L] [LinearOrder M] in
theorem out_rename (g : L → M) {r : Res (Out L)} {r' : Res (Out M)} (h : r' = Res.map (Out.rename g) r) :
    Res.out r' = Res.map (List.map (rename g)) (Res.out r) := by
  subst h
  cases r with
  | error e => rfl
  | ok o => cases o <;> rfl

omit [LinearOrder L] [LinearOrder M] in
theorem getOut_rename (g : L → M) {r : Res (GetOut L)} {r' : Res (GetOut M)} (h : r' = Res.map (GetOut.rename g) r) :
    Res.getOut r' = Res.map (List.map (rename g)) (Res.getOut r) := by
  subst h
  cases r with
  | error e => rfl
  | ok o => cases o <;> rfl

omit [LinearOrder L] [LinearOrder M] in
theorem both_rename (g : L → M) {r : Res (Larry L × Larry L)} {r' : Res (Larry M × Larry M)}
    (h : r' = Res.map (Prod.map (rename g) (rename g)) r) :
    Res.both r' = Res.map (List.map (rename g)) (Res.both r) := by
  subst h; cases r <;> rfl

omit [LinearOrder L] [LinearOrder M] in
theorem raw_rename (g : L → M) {r : Res (NDArray Val × DType × List (Option (List L)))}
    {r' : Res (NDArray Val × DType × List (Option (List M)))}
    (h : r' = Res.map (fun r => (r.1, r.2.1, r.2.2.map (Option.map (List.map g)))) r) :
    Res.raw r' = Res.map (List.map (rename g)) (Res.raw r) := by
  subst h
  cases r with
  | error e => rfl
  | ok p =>
    simp only [Res.raw, Res.map_ok, List.map_cons, List.map_nil, rename_mk, List.map_map]
    congr 3
    apply List.map_congr_left
    intro o _
    cases o <;> rfl

omit [LinearOrder L] [LinearOrder M] in
theorem vars_rename (g : L → M) (st : Store L) (is : List Nat) :
    mapRes (Store.var (st.map (rename g))) is = Res.map (List.map (rename g)) (mapRes st.var is) :=
  mapRes_rename (fun i _ => var_rename g st i)

include hg

theorem results_rename {c : Cmd L} {c' : Cmd M} (h : Cmd.Renames g c c') (st : Store L) :
    c'.results (st.map (rename g)) = Res.map (List.map (rename g)) (c.results st) := by
  cases h with
  | new x d label => exact one_rename g (mk'_rename hg.injective x d label)
  | morph i lab axis => exact on_rename g st i fun y => one_rename g (morph_rename hg y lab axis)
  | morphLike i j => exact on_rename g st i fun y => on_rename g st j fun z => one_rename g (morphLike_rename hg y z)
  | binop uf i j => exact on_rename g st i fun y => on_rename g st j fun z => one_rename g (binop_rename hg uf y z)
  | binopArray uf i x d => exact on_rename g st i fun y => one_rename g (binopArray_rename g uf y x d)
  | compare uf i j => exact on_rename g st i fun y => on_rename g st j fun z => one_rename g (compare_rename hg uf y z)
  | merge i j u => exact on_rename g st i fun y => on_rename g st j fun z => one_rename g (merge_rename hg y z u)
  | align i j jn c =>
    exact on_rename g st i fun y => on_rename g st j fun z => both_rename g (La.align_rename hg y z jn c)
  | alignAxis is axis join =>
    simp only [Cmd.results, vars_rename]
    cases mapRes st.var is with
    | error e => rfl
    | ok ys => exact alignAxisN_rename hg ys axis join
  | binaryop cv uf i j jn c m1 m2 =>
    exact on_rename g st i fun y => on_rename g st j fun z => raw_rename g (binaryop_rename hg cv uf y z jn c m1 m2)
  | stack mode kw =>
    have h1 : (kw.map (Prod.map g id)).map Prod.snd = kw.map Prod.snd := by simp
    have h2 : (kw.map (Prod.map g id)).map Prod.fst = (kw.map Prod.fst).map g := by simp
    simp only [Cmd.results, h1, h2, vars_rename]
    cases mapRes st.var (kw.map Prod.snd) with
    | error e => rfl
    | ok ys =>
      simp only [Res.map_ok]
      rw [List.zip_map]
      exact one_rename g (stack_rename hg mode _)
  | sortby s i e a r => exact on_rename g st i fun y => getOut_rename g (sortby_rename hg s y e a r)
  | sortaxis i a r => exact on_rename g st i fun y => one_rename g (sortaxis_rename hg y a r)
  | keepLabel i op a => exact on_rename g st i fun y => one_rename g (keepLabel_rename hg y op a)
  | pull i n a => exact on_rename g st i fun y => out_rename g (pull_rename hg y n a)
  | take i is a => exact on_rename g st i fun y => one_rename g (take_rename hg y is a)
  | flipaxis i a => exact on_rename g st i fun y => one_rename g (flipaxis_rename g y a)
  | lag i n a => exact on_rename g st i fun y => one_rename g (lag_rename g y n a)
  | transpose i => exact on_rename g st i fun y => by rw [T_rename]; rfl
  | swapaxes i a b => exact on_rename g st i fun y => one_rename g (swapaxes_rename g y a b)
  | squeeze i => exact on_rename g st i fun y => by rw [squeeze_rename]; rfl
  | insertaxis i a n => exact on_rename g st i fun y => one_rename g (insertaxis_rename hg.injective y a n)
  | maplabel i a hf => exact on_rename g st i fun y => one_rename g (maplabel_rename g hf y a)
  | getitem i idx => exact on_rename g st i fun y => getOut_rename g (getitem_rename hg.injective y idx)
  | lix i idx => exact on_rename g st i fun y => getOut_rename g (lixGet_rename hg y idx)
  | reduce r i a => exact on_rename g st i fun y => out_rename g (reduce_rename g r y a)
  | prod i a => exact on_rename g st i fun y => out_rename g (prod_rename g y a)
  | cumsum i a => exact on_rename g st i fun y => one_rename g (cumulate_rename g addVal 0 y a)
  | cumprod i a => exact on_rename g st i fun y => one_rename g (cumulate_rename g mulVal 1 y a)
  | clip i lo hi => exact on_rename g st i fun y => one_rename g (clip_rename g y lo hi)
  | push i w a => exact on_rename g st i fun y => one_rename g (push_rename g y w a)
  | ranking i a n => exact on_rename g st i fun y => one_rename g (ranking_rename g y a n)
  | quantile s i q a => exact on_rename g st i fun y => one_rename g (quantile_rename g s y q a)
  | demean c i a => exact on_rename g st i fun y => one_rename g (demean_rename g c y a)
  | zscore c i a => exact on_rename g st i fun y => one_rename g (zscore_rename g c y a)
  | movingsumForward i w s a n => exact on_rename g st i fun y => one_rename g (movingsumForward_rename g y w s a n)
  | moveFunc f i b s o w a m => exact on_rename g st i fun y => one_rename g (moveFunc_rename g f b _ y w a m)
  | moveBn k i w a =>
    exact on_rename g st i fun y => one_rename g (by rw [k.run_eq, k.run_eq]; exact moveBn_rename g k.line y w a)
  | group s f i j a =>
    exact on_rename g st i fun y => on_rename g st j fun z => one_rename g (groupBy_rename hg s f y z a)
  | ismissing i => exact on_rename g st i fun y => rfl
  | vacuum i a => exact on_rename g st i fun y => one_rename g (vacuum_rename g y a)
  | cutMissing i q a => exact on_rename g st i fun y => one_rename g (cutMissing_rename g y q a)
  | keepX i op v vac => exact on_rename g st i fun y => one_rename g (keepX_rename g y op v vac)
  | set i ns v => exact on_rename g st i fun y => one_rename g (set_rename' hg y ns v)
  | setAt c i idx v => exact on_rename g st i fun y => one_rename g (setAt_rename hg.injective c y idx v)
  | setMask i j v =>
    exact on_rename g st i fun y => on_rename g st j fun m => one_rename g (setMask_rename hg.injective y m v)
  | lixSet c i idx v => exact on_rename g st i fun y => one_rename g (lixSet_rename hg c y idx v)

omit [LinearOrder L] [LinearOrder M] hg in
theorem target_rename {c : Cmd L} {c' : Cmd M} (h : Cmd.Renames g c c') : c'.target = c.target := by
  cases h <;> rfl

omit [LinearOrder L] [LinearOrder M] hg in
theorem foldl_set_rename (g : L → M) (i : Nat) (zs : List (Larry L)) : ∀ st : Store L,
    (zs.map (rename g)).foldl (fun st z => st.set i z) (st.map (rename g)) =
      (zs.foldl (fun st z => st.set i z) st).map (rename g) := by
  induction zs with
  | nil => intro st; rfl
  | cons z zs ih =>
    intro st
    simp only [List.map_cons, List.foldl_cons]
    rw [← List.map_set, ih]

/-- One call: with the labels renamed it does the same thing to the renamed larrys, or raises the same exception. -/
theorem C78_step {c : Cmd L} {c' : Cmd M} (h : Cmd.Renames g c c') (st : Store L) :
    c'.step (st.map (rename g)) = match c.step st with
      | .error e => .error e
      | .ok st' => .ok (st'.map (rename g)) := by
  unfold Cmd.step
  rw [results_rename hg h, target_rename h]
  cases c.results st with
  | error e => rfl
  | ok zs =>
    simp only [Res.map_ok]
    cases c.target with
    | none => simp only [List.map_append]
    | some i => simp only [foldl_set_rename]

/-- Programs. -/
theorem C78_program {cs : List (Cmd L)} {cs' : List (Cmd M)} (h : List.Forall₂ (Cmd.Renames g) cs cs') (st : Store L) :
    runAll (st.map (rename g)) cs' = (runAll st cs).map (rename g) := by
  induction h generalizing st with
  | nil => rfl
  | @cons c c' cs cs' h1 _ ih =>
    simp only [runAll]
    rw [C78_step hg h1]
    cases c.step st with
    | error e => exact ih st
    | ok st' => exact ih st'

/-- What the user reads back: the element under the new names is the element under the old ones. -/
theorem C78_get {cs : List (Cmd L)} {cs' : List (Cmd M)} (h : List.Forall₂ (Cmd.Renames g) cs cs') (st : Store L)
    (i : Nat) (names : List L) :
    Store.on (runAll (st.map (rename g)) cs') i (fun z => z.get (names.map g)) =
      Store.on (runAll st cs) i (fun z => z.get names) := by
  rw [C78_program hg h]
  have := on_rename g (runAll st cs) i (h := id) (f := fun z => z.get names) (f' := fun z => z.get (names.map g))
    (fun y => by rw [get_rename hg, Res.map_id' id (fun _ => rfl)])
  rw [this, Res.map_id' id (fun _ => rfl)]

end

/-! ## Proofs: no label is made up -/

section
variable {L : Type _}

theorem lift_list {S : L → Prop} (l : List L) (h : ∀ a ∈ l, S a) : ∃ l0 : List (Subtype S), l0.map Subtype.val = l := by
  induction l with
  | nil => exact ⟨[], rfl⟩
  | cons a l ih =>
    obtain ⟨l0, rfl⟩ := ih (fun b hb => h b (by simp [hb]))
    exact ⟨⟨a, h a (by simp)⟩ :: l0, rfl⟩

theorem lift_map {α β : Type _} {f : α → β} (l : List β) (h : ∀ b ∈ l, ∃ a, f a = b) : ∃ l0 : List α, l0.map f = l := by
  induction l with
  | nil => exact ⟨[], rfl⟩
  | cons b l ih =>
    obtain ⟨l0, rfl⟩ := ih (fun c hc => h c (by simp [hc]))
    obtain ⟨a, rfl⟩ := h b (by simp)
    exact ⟨a :: l0, rfl⟩

theorem lift_larry {S : L → Prop} {y : Larry L} (h : y.LabelsIn S) : ∃ y0 : Larry (Subtype S), y0.rename Subtype.val = y := by
  obtain ⟨l0, hl⟩ := lift_map (f := List.map Subtype.val) y.label (fun l hl => lift_list (S := S) l (h l hl))
  exact ⟨⟨y.x, y.dtype, l0⟩, by rw [rename_mk, hl]⟩

theorem labelsIn_rename {S : L → Prop} (y : Larry (Subtype S)) : (y.rename Subtype.val).LabelsIn S := by
  intro l hl a ha
  rw [rename_label, List.mem_map] at hl
  obtain ⟨l0, _, rfl⟩ := hl
  obtain ⟨a0, _, rfl⟩ := List.mem_map.1 ha
  exact a0.2

theorem lift_setVal {S : L → Prop} {v : SetVal L} (h : v.LabelsIn S) : ∃ v0 : SetVal (Subtype S), v0.rename Subtype.val = v := by
  cases v with
  | scalar v => exact ⟨.scalar v, rfl⟩
  | lar z =>
    obtain ⟨z0, rfl⟩ := lift_larry (S := S) (y := z) h
    exact ⟨.lar z0, rfl⟩

theorem lift_item {S : L → Prop} {it : Item L} (h : it.LabelsIn S) : ∃ it0 : Item (Subtype S), it0.rename Subtype.val = it := by
  cases it with
  | int i => exact ⟨.int i, rfl⟩
  | slice s => exact ⟨.slice s, rfl⟩
  | seq is => exact ⟨.seq is, rfl⟩
  | mask bs => exact ⟨.mask bs, rfl⟩
  | lar m =>
    obtain ⟨m0, rfl⟩ := lift_larry (S := S) (y := m) h
    exact ⟨.lar m0, rfl⟩
  | nd => exact ⟨.nd, rfl⟩
  | other => exact ⟨.other, rfl⟩

theorem lift_index {S : L → Prop} {idx : Index L} (h : idx.LabelsIn S) : ∃ i0 : Index (Subtype S), i0.rename Subtype.val = idx := by
  cases idx with
  | one it =>
    obtain ⟨it0, rfl⟩ := lift_item (S := S) (it := it) h
    exact ⟨.one it0, rfl⟩
  | tuple its =>
    obtain ⟨its0, rfl⟩ := lift_map (f := Item.rename (Subtype.val (p := S))) its (fun it hit => lift_item (h it hit))
    exact ⟨.tuple its0, rfl⟩

theorem lift_lbound {S : L → Prop} {b : LBound L} (h : b.LabelsIn S) : ∃ b0 : LBound (Subtype S), b0.rename Subtype.val = b := by
  cases b with
  | none => exact ⟨.none, rfl⟩
  | int i => exact ⟨.int i, rfl⟩
  | list ls =>
    obtain ⟨l0, rfl⟩ := lift_list (S := S) ls h
    exact ⟨.list l0, rfl⟩
  | other => exact ⟨.other, rfl⟩

theorem lift_litem {S : L → Prop} {it : LItem L} (h : it.LabelsIn S) : ∃ it0 : LItem (Subtype S), it0.rename Subtype.val = it := by
  cases it with
  | int i => exact ⟨.int i, rfl⟩
  | list ls =>
    obtain ⟨l0, rfl⟩ := lift_list (S := S) ls h
    exact ⟨.list l0, rfl⟩
  | slice s =>
    obtain ⟨a, b, c⟩ := s
    obtain ⟨a0, rfl⟩ := lift_lbound (S := S) h.1
    obtain ⟨b0, rfl⟩ := lift_lbound (S := S) h.2
    exact ⟨.slice ⟨a0, b0, c⟩, rfl⟩
  | other => exact ⟨.other, rfl⟩

theorem lift_lindex {S : L → Prop} {idx : LIndex L} (h : idx.LabelsIn S) : ∃ i0 : LIndex (Subtype S), i0.rename Subtype.val = idx := by
  cases idx with
  | one it =>
    obtain ⟨it0, rfl⟩ := lift_litem (S := S) (it := it) h
    exact ⟨.one it0, rfl⟩
  | tuple its =>
    obtain ⟨its0, rfl⟩ := lift_map (f := LItem.rename (Subtype.val (p := S))) its (fun it hit => lift_litem (h it hit))
    exact ⟨.tuple its0, rfl⟩

theorem lift_op {S : L → Prop} {op : LabelOp L} (h : op.LabelsIn S) : ∃ o0 : LabelOp (Subtype S), o0.rename Subtype.val = op := by
  cases op with
  | eq v => exact ⟨.eq ⟨v, h⟩, rfl⟩
  | gt v => exact ⟨.gt ⟨v, h⟩, rfl⟩
  | lt v => exact ⟨.lt ⟨v, h⟩, rfl⟩
  | ge v => exact ⟨.ge ⟨v, h⟩, rfl⟩
  | le v => exact ⟨.le ⟨v, h⟩, rfl⟩
  | ne v => exact ⟨.ne ⟨v, h⟩, rfl⟩
  | isIn vs =>
    obtain ⟨l0, rfl⟩ := lift_list (S := S) vs h
    exact ⟨.isIn l0, rfl⟩
  | notIn vs =>
    obtain ⟨l0, rfl⟩ := lift_list (S := S) vs h
    exact ⟨.notIn l0, rfl⟩
  | unknown => exact ⟨.unknown, rfl⟩

theorem lift_cmd {S : L → Prop} {c : Cmd L} (h : c.LabelsIn S) : ∃ c0 : Cmd (Subtype S), Cmd.Renames Subtype.val c0 c := by
  cases c with
  | new x d label =>
    obtain ⟨l0, rfl⟩ := lift_map (f := List.map Subtype.val) label (fun l hl => lift_list (S := S) l (h l hl))
    exact ⟨_, .new ..⟩
  | morph i lab a =>
    obtain ⟨l0, rfl⟩ := lift_list (S := S) lab h
    exact ⟨_, .morph ..⟩
  | stack mode kw =>
    obtain ⟨k0, rfl⟩ := lift_map (f := Prod.map (Subtype.val (p := S)) (id : Nat → Nat)) kw
      (fun p hp => ⟨(⟨p.1, h p hp⟩, p.2), rfl⟩)
    exact ⟨_, .stack ..⟩
  | sortby s i e a r => exact ⟨_, .sortby s i (⟨e, h⟩ : Subtype S) a r⟩
  | keepLabel i op a =>
    obtain ⟨o0, rfl⟩ := lift_op (S := S) h
    exact ⟨_, .keepLabel ..⟩
  | pull i n a => exact ⟨_, .pull i (⟨n, h⟩ : Subtype S) a⟩
  | insertaxis i a n => exact ⟨_, .insertaxis i a (⟨n, h⟩ : Subtype S)⟩
  | maplabel i f a => exact ⟨_, .maplabel i (f := fun a : Subtype S => ⟨f a.1, h a.1 a.2⟩) a (fun _ => rfl)⟩
  | getitem i idx =>
    obtain ⟨i0, rfl⟩ := lift_index (S := S) h
    exact ⟨_, .getitem ..⟩
  | lix i idx =>
    obtain ⟨i0, rfl⟩ := lift_lindex (S := S) h
    exact ⟨_, .lix ..⟩
  | set i ns v =>
    obtain ⟨l0, rfl⟩ := lift_list (S := S) ns h
    exact ⟨_, .set ..⟩
  | setAt conv i idx v =>
    obtain ⟨v0, rfl⟩ := lift_setVal (S := S) h
    exact ⟨_, .setAt ..⟩
  | lixSet conv i idx v =>
    obtain ⟨i0, rfl⟩ := lift_lindex (S := S) h.1
    obtain ⟨v0, rfl⟩ := lift_setVal (S := S) h.2
    exact ⟨_, .lixSet ..⟩
  | morphLike => exact ⟨_, .morphLike ..⟩
  | binop => exact ⟨_, .binop ..⟩
  | binopArray => exact ⟨_, .binopArray ..⟩
  | compare => exact ⟨_, .compare ..⟩
  | merge => exact ⟨_, .merge ..⟩
  | align => exact ⟨_, .align ..⟩
  | alignAxis => exact ⟨_, .alignAxis ..⟩
  | binaryop => exact ⟨_, .binaryop ..⟩
  | sortaxis => exact ⟨_, .sortaxis ..⟩
  | take => exact ⟨_, .take ..⟩
  | flipaxis => exact ⟨_, .flipaxis ..⟩
  | lag => exact ⟨_, .lag ..⟩
  | transpose => exact ⟨_, .transpose ..⟩
  | swapaxes => exact ⟨_, .swapaxes ..⟩
  | squeeze => exact ⟨_, .squeeze ..⟩
  | reduce => exact ⟨_, .reduce ..⟩
  | prod => exact ⟨_, .prod ..⟩
  | cumsum => exact ⟨_, .cumsum ..⟩
  | cumprod => exact ⟨_, .cumprod ..⟩
  | clip => exact ⟨_, .clip ..⟩
  | push => exact ⟨_, .push ..⟩
  | ranking => exact ⟨_, .ranking ..⟩
  | quantile => exact ⟨_, .quantile ..⟩
  | demean => exact ⟨_, .demean ..⟩
  | zscore => exact ⟨_, .zscore ..⟩
  | movingsumForward => exact ⟨_, .movingsumForward ..⟩
  | moveFunc => exact ⟨_, .moveFunc ..⟩
  | moveBn => exact ⟨_, .moveBn ..⟩
  | group => exact ⟨_, .group ..⟩
  | ismissing => exact ⟨_, .ismissing ..⟩
  | vacuum => exact ⟨_, .vacuum ..⟩
  | cutMissing => exact ⟨_, .cutMissing ..⟩
  | keepX => exact ⟨_, .keepX ..⟩
  | setMask => exact ⟨_, .setMask ..⟩

variable [LinearOrder L]

/-- No program makes up a label: if the labels of its larrys and the labels it writes lie in `S`, then so do the labels
of everything it computes. -/
theorem C78_no_new_labels {S : L → Prop} {cs : List (Cmd L)} {st : Store L} (hst : ∀ y ∈ st, y.LabelsIn S)
    (hcs : ∀ c ∈ cs, c.LabelsIn S) : ∀ y ∈ runAll st cs, y.LabelsIn S := by
  obtain ⟨st0, rfl⟩ := lift_map (f := rename (Subtype.val (p := S))) st (fun y hy => lift_larry (hst y hy))
  have : ∃ cs0, List.Forall₂ (Cmd.Renames (Subtype.val (p := S))) cs0 cs := by
    induction cs with
    | nil => exact ⟨[], .nil⟩
    | cons c cs ih =>
      obtain ⟨cs0, h0⟩ := ih (fun c hc => hcs c (by simp [hc]))
      obtain ⟨c0, h1⟩ := lift_cmd (hcs c (by simp))
      exact ⟨c0 :: cs0, .cons h1 h0⟩
  obtain ⟨cs0, h0⟩ := this
  have hmono : StrictMono (Subtype.val : Subtype S → L) := fun _ _ h => h
  rw [C78_program hmono h0]
  intro y hy
  obtain ⟨y0, _, rfl⟩ := List.mem_map.1 hy
  exact labelsIn_rename y0

end

/-! ## Both conditions on the renaming are needed -/

/-- Two larrys with labels `[1, 2]` and `[2, 1]`. -/
def exUp : Larry Nat := ⟨⟨[2], fun i => .int (i.headD 0 : Nat)⟩, .int, [[1, 2]]⟩
def exDown : Larry Nat := ⟨⟨[2], fun i => .int (10 * (i.headD 0 : Nat))⟩, .int, [[2, 1]]⟩

/-- Integer addition. -/
def exIntAdd : UFunc2 := ⟨fun a b => match a, b with | .int m, .int n => .int (m + n) | _, _ => .none, fun _ d => .ok d⟩

/-- A renaming that turns the order around keeps the elements under their names but not their positions: the labels of
a sum come out sorted. -/
theorem C78_order_matters :
    ∃ (g : Nat → Nat) (z z' : Larry Nat), Function.Injective g ∧ binop exIntAdd exUp exDown = .ok z ∧
      binop exIntAdd (exUp.rename g) (exDown.rename g) = .ok z' ∧ z.x.get [0] ≠ z'.x.get [0] ∧
      z'.label ≠ (z.rename g).label := by
  refine ⟨Equiv.swap 1 2, ⟨⟨[2], _⟩, .int, [[1, 2]]⟩, ⟨⟨[2], _⟩, .int, [[1, 2]]⟩, (Equiv.swap 1 2).injective,
    rfl, rfl, ?_, ?_⟩
  · decide +kernel
  · decide +kernel

/-- A renaming that sends two labels to one name makes a larry that the constructor refuses. -/
theorem C78_distinct_matters : ∃ (g : Nat → Nat), Monotone g ∧
    (mk' exUp.x exUp.dtype exUp.label).isOk = true ∧
    mk' (exUp.rename g).x (exUp.rename g).dtype (exUp.rename g).label = .error .valueError :=
  ⟨fun _ => 0, fun _ _ _ => le_rfl, by decide +kernel, by rfl⟩

/-! ## The hypotheses are met -/

/-- A program that adds, sorts, selects, maps labels and assigns. -/
def exProg : List (Cmd Nat) :=
  [.binop exIntAdd 0 1, .sortaxis 1 none false, .keepLabel 2 (.ge 2) (some 0), .maplabel 3 (· + 1) none,
    .set 0 [2] (.int 7), .morph 0 [1, 5] 0]

/-- The same program for labels ten times as large. -/
def exProg10 : List (Cmd Nat) :=
  [.binop exIntAdd 0 1, .sortaxis 1 none false, .keepLabel 2 (.ge 20) (some 0), .maplabel 3 (· + 10) none,
    .set 0 [20] (.int 7), .morph 0 [10, 50] 0]

example : StrictMono (fun n : Nat => 10 * n) ∧ List.Forall₂ (Cmd.Renames (fun n : Nat => 10 * n)) exProg exProg10 ∧
    (runAll [exUp, exDown] exProg).length = 7 ∧
    Store.on (runAll [exUp, exDown] exProg) 0 (fun z => z.get [2]) = .ok (.int 7) := by
  refine ⟨fun a b h => by dsimp; omega, ?_, by decide +kernel, by decide +kernel⟩
  exact .cons (.binop ..) (.cons (.sortaxis ..) (.cons (.keepLabel 2 (.ge 2) _) (.cons (.maplabel 3 none (fun a => by omega))
    (.cons (.set 0 [2] _) (.cons (.morph 0 [1, 5] 0) .nil)))))

example : (∀ y ∈ [exUp, exDown], y.LabelsIn (fun n => 0 < n)) ∧ (∀ c ∈ exProg, c.LabelsIn (fun n => 0 < n)) := by
  constructor
  · intro y hy l hl a ha
    simp only [List.mem_cons, List.not_mem_nil, or_false] at hy
    rcases hy with rfl | rfl <;> simp [exUp, exDown] at hl <;> subst hl <;> simp at ha <;> omega
  · intro c hc
    simp only [exProg, List.mem_cons, List.not_mem_nil, or_false] at hc
    rcases hc with rfl | rfl | rfl | rfl | rfl | rfl <;>
      simp [Cmd.LabelsIn, LabelOp.LabelsIn]

end La
