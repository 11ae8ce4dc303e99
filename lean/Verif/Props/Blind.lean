import Verif.Props.Param
import Verif.Props.Lookback

/-!
# Property C110: labels, dtypes and exceptions do not depend on the values

Whether a program raises, and the labels and dtypes of the larrys it computes, can be known without the data.
-/

namespace La
open Larry
variable {L : Type _} [LinearOrder L]

/-! ## Specification -/

/-- Two larrys with the same labels and the same dtype; the values can be different. -/
def Larry.Alike (y z : Larry L) : Prop := y.label = z.label ∧ y.dtype = z.dtype

/-- Two stores, variable by variable. -/
abbrev Store.Alike : Store L → Store L → Prop := List.Forall₂ Larry.Alike

/-- The right-hand sides of two assignments: two scalars, or two larrys that are alike. -/
def SetVal.Alike : SetVal L → SetVal L → Prop
  | .scalar _, .scalar _ => True
  | .lar z, .lar z' => z.Alike z' ∧ z.Valid ∧ z'.Valid
  | _, _ => False

/-- Calls whose arguments are variables, labels, axes and settings only. -/
def Cmd.NoData : Cmd L → Prop
  | .morph .. | .morphLike .. | .binop .. | .compare .. | .align .. | .alignAxis .. | .sortaxis .. | .keepLabel .. | .pull ..
  | .take .. | .flipaxis .. | .lag .. | .transpose .. | .swapaxes .. | .squeeze .. | .insertaxis .. | .maplabel .. | .getitem ..
  | .lix .. | .reduce .. | .prod .. | .cumsum .. | .cumprod .. | .clip .. | .push .. | .ranking .. | .quantile .. | .demean ..
  | .zscore .. | .movingsumForward .. | .moveBn .. | .group .. | .ismissing .. | .keepX _ _ _ false => True
  | _ => False

/-- Two calls, one in each run, that are the same but for the values of the data they are given. -/
inductive Cmd.Alike (st st' : Store L) : Cmd L → Cmd L → Prop
  | same {c} : c.NoData → Cmd.Alike st st' c c
  | new {x x' d label} : x.shape = x'.shape → Cmd.Alike st st' (.new x d label) (.new x' d label)
  | binopArray {uf i x x' d} : x.shape = x'.shape → Cmd.Alike st st' (.binopArray uf i x d) (.binopArray uf i x' d)
  | merge {i j} : (∀ y z, st[i]? = some y → st[j]? = some z → y.dtype = z.dtype ∧ y.dtype ≠ .int ∧ y.dtype ≠ .bool) →
      Cmd.Alike st st' (.merge i j true) (.merge i j true)
  | binaryop {cv uf i j join cast m1 m2} : join.NoSkip →
      Cmd.Alike st st' (.binaryop cv uf i j join cast m1 m2) (.binaryop cv uf i j join cast m1 m2)
  | stack {mode kwargs} : (kwargs.map Prod.fst).Nodup → (∀ p ∈ kwargs, ∀ y, st[p.2]? = some y → y.dtype.IsNum) →
      Cmd.Alike st st' (.stack mode kwargs) (.stack mode kwargs)
  | moveFunc {f i buf buf' strides strides' offset offset' window axis m} :
      (∀ y, st[i]? = some y → StoredAs y buf ⟨y.x.shape, strides, offset⟩) →
      (∀ y, st'[i]? = some y → StoredAs y buf' ⟨y.x.shape, strides', offset'⟩) →
      Cmd.Alike st st' (.moveFunc f i buf strides offset window axis m) (.moveFunc f i buf' strides' offset' window axis m)
  | set (i names v v') : Cmd.Alike st st' (.set i names v) (.set i names v')
  | setAt {conv i idx v v'} : v.Alike v' → Cmd.Alike st st' (.setAt conv i idx v) (.setAt conv i idx v')
  | setMask {i j v v'} : (∀ m, st[j]? = some m → m.dtype ≠ .int) → Cmd.Alike st st' (.setMask i j v) (.setMask i j v')
  | lixSet {conv i idx v v'} : v.Alike v' → Cmd.Alike st st' (.lixSet conv i idx v) (.lixSet conv i idx v')

/-- Two programs, call by call, the conditions being on the variables at that point. -/
def AlikeAll : Store L → Store L → List (Cmd L) → List (Cmd L) → Prop
  | _, _, [], [] => True
  | st, st', c :: cs, c' :: cs' => Cmd.Alike st st' c c' ∧ c.Fair st ∧
      (∀ s s', c.step st = .ok s → c'.step st' = .ok s' → AlikeAll s s' cs cs') ∧
      (∀ e, c.step st = .error e → AlikeAll st st' cs cs')
  | _, _, _, _ => False

/-- What becomes of each call of a program: `none` when it returns, or the exception it raises. -/
def outcomes (st : Store L) : List (Cmd L) → List (Option PyErr)
  | [] => []
  | c :: cs => match c.step st with
    | .error e => some e :: outcomes st cs
    | .ok st' => none :: outcomes st' cs

/-! ## Proofs -/

/-- Every label counts as a later one, so that nothing is said about any cell. -/
abbrev allLater (_ : L) : Prop := True

omit [LinearOrder L] in
theorem alike_until {y z : Larry L} (hy : y.Valid) (h : y.Alike z) : y.Until allLater z :=
  ⟨h.1, h.2, fun names v v' he h1 _ => by
    obtain ⟨idx, hat, -⟩ := h1
    cases names with
    | nil =>
      have : y.label = [] := by
        cases hl : y.label with
        | nil => rfl
        | cons a as => rw [hl] at hat; cases idx <;> exact hat.elim
      have hp := hy.ndim_pos
      have := hy.label_length
      simp_all
    | cons n ns => exact absurd trivial (he n (by simp))⟩

omit [LinearOrder L] in
theorem alike_rel {y z : Larry L} (hy : y.Valid) (hz : z.Valid) (h : y.Alike z) : y.Rel NoVal NoDType z :=
  (alike_until hy h).rel hy hz

omit [LinearOrder L] in
theorem alike_store_until {st st' : Store L} (hv : st.Valid) (h : st.Alike st') : st.Until allLater st' := by
  induction h with
  | nil => exact .nil
  | cons h1 _ ih => exact .cons (alike_until (hv _ List.mem_cons_self) h1) (ih fun y hy => hv y (List.mem_cons_of_mem _ hy))

omit [LinearOrder L] in
theorem alike_store_rel {st st' : Store L} (hv : st.Valid) (hv' : st'.Valid) (h : st.Alike st') : st.Rel NoVal NoDType st' := by
  induction h with
  | nil => exact .nil
  | cons h1 _ ih =>
    exact .cons (alike_rel (hv _ List.mem_cons_self) (hv' _ List.mem_cons_self) h1)
      (ih (fun y hy => hv y (List.mem_cons_of_mem _ hy)) fun y hy => hv' y (List.mem_cons_of_mem _ hy))

omit [LinearOrder L] in
theorem Res.Agree.imp {α β : Type _} {R S : α → β → Prop} (hRS : ∀ a b, R a b → S a b) {r : Res α} {r' : Res β} (h : Res.Agree R r r') :
    Res.Agree S r r' := by
  rcases h.cases with ⟨a, b, rfl, rfl, h⟩ | ⟨e, rfl, rfl⟩
  · exact hRS a b h
  · exact rfl

omit [LinearOrder L] in
theorem store_of_until {r r' : Res (Store L)} (h : Res.Agree (Store.Until allLater) r r') : Res.Agree Store.Alike r r' :=
  h.imp fun _ _ h => h.imp fun _ _ h => ⟨h.label, h.dtype⟩

omit [LinearOrder L] in
theorem store_of_rel {r r' : Res (Store L)} (h : Res.Agree (Store.Rel NoVal NoDType) r r') : Res.Agree Store.Alike r r' :=
  h.imp fun _ _ h => h.imp fun _ _ h => ⟨h.label, h.dtype⟩

omit [LinearOrder L] in
theorem on_alike {β γ : Type _} {S : β → γ → Prop} {st st' : Store L} (hv : st.Valid) (hv' : st'.Valid) (h : st.Alike st') (i : Nat)
    {f : Larry L → Res β} {f' : Larry L → Res γ}
    (hf : ∀ y z, st[i]? = some y → y.Rel NoVal NoDType z → Res.Agree S (f y) (f' z)) : Res.Agree S (st.on i f) (st'.on i f') :=
  on_until hv hv' (alike_store_until hv h) i fun y z e _ hy hz hyz => hf y z e (hyz.rel hy hz)

omit [LinearOrder L] in
theorem one_alike {r r' : Res (Larry L)} (h : Res.Agree Larry.Alike r r') : Res.Agree Store.Alike (Res.one r) (Res.one r') := by
  rcases h.cases with ⟨a, b, rfl, rfl, h⟩ | ⟨e, rfl, rfl⟩
  · exact .cons h .nil
  · exact rfl

omit [LinearOrder L] in
theorem ranking_alike {y z : Larry L} (h : y.Rel NoVal NoDType z) (axis : Option Int) (norm : RankNorm) :
    Res.Agree Larry.Alike (y.ranking axis norm) (z.ranking axis norm) := by
  unfold Larry.ranking
  rw [← h.dtype, ← h.ndim]
  split
  · exact rfl
  · cases norm <;> first
      | exact rfl
      | (cases axis with
         | none => exact ⟨h.label, rfl⟩
         | some a =>
           dsimp only
           cases pyIdx y.ndim a with
           | none => exact rfl
           | some ax => exact ⟨h.label, rfl⟩)

omit [LinearOrder L] in
theorem quantile_alike {y z : Larry L} (h : y.Rel NoVal NoDType z) (argsort : List ℚ → List Nat) (q : Int) (axis : Option Int) :
    Res.Agree Larry.Alike (y.quantile argsort q axis) (z.quantile argsort q axis) := by
  have hs : y.shape = z.shape := h.x.1
  have hsz : y.size = z.size := by unfold Larry.size NDArray.size; rw [h.x.1]
  unfold Larry.quantile
  rw [← h.dtype, ← h.ndim, ← hs, ← hsz]
  split
  · exact rfl
  split
  · exact rfl
  split
  · exact ⟨h.label, rfl⟩
  cases axis with
  | none =>
    dsimp only
    split
    · exact rfl
    · exact ⟨h.label, rfl⟩
  | some a =>
    dsimp only
    cases pyIdx y.ndim a with
    | none => exact rfl
    | some ax =>
      dsimp only
      split
      · exact rfl
      · exact ⟨h.label, rfl⟩

omit [LinearOrder L] in
theorem demean_alike {y z : Larry L} (h : y.Rel NoVal NoDType z) (center : List Flt → Flt) (axis : Option Int) :
    Res.Agree Larry.Alike (y.demean center axis) (z.demean center axis) := by
  unfold Larry.demean
  rw [← h.dtype, ← h.ndim]
  split
  · exact rfl
  cases axis with
  | none => exact ⟨h.label, rfl⟩
  | some a =>
    dsimp only
    cases npAxis y.ndim a with
    | error e => exact rfl
    | ok ax => exact ⟨h.label, rfl⟩

omit [LinearOrder L] in
theorem zscore_alike {y z : Larry L} (h : y.Rel NoVal NoDType z) (std : List Flt → Flt) (axis : Option Int) :
    Res.Agree Larry.Alike (y.zscore std axis) (z.zscore std axis) := by
  unfold Larry.zscore
  rw [← h.dtype, ← h.ndim]
  split
  · exact rfl
  cases axis with
  | none => exact ⟨h.label, rfl⟩
  | some a =>
    dsimp only
    cases npAxis y.ndim a with
    | error e => exact rfl
    | ok ax => exact ⟨h.label, rfl⟩

omit [LinearOrder L] in
theorem prod_alike {y z : Larry L} (h : y.Rel NoVal NoDType z) (axis : Option Int) :
    Res.Agree (Out.Rel NoVal NoDType) (y.prod axis) (z.prod axis) := by
  unfold Larry.prod
  rw [← h.dtype, ← h.ndim]
  split
  · exact rfl
  dsimp only
  have h1 : (⟨y.x.map (fun v => if v.isNan = true then Val.flt (Flt.fin 1) else v), y.dtype, y.label⟩ : Larry L).Rel NoVal NoDType
      ⟨z.x.map (fun v => if v.isNan = true then Val.flt (Flt.fin 1) else v), y.dtype, z.label⟩ := ⟨h.label, rfl, trivial, h.x.1, fun _ _ => trivial⟩
  rcases (reduce_rel (red_no (prodRed y.dtype)) h1 axis).cases with ⟨a, b, e1, e2, hab⟩ | ⟨e, e1, e2⟩
  · rw [e1, e2]
    cases a with
    | scalar v => cases b with
      | scalar v' => trivial
      | larry z' => cases hab
    | larry w => cases b with
      | scalar v' => cases hab
      | larry w' =>
        have hw : w.Rel NoVal NoDType w' := hab
        cases axis with
        | none => exact hw
        | some a =>
          dsimp only
          cases pyIdx y.ndim a with
          | none => exact rfl
          | some ax => exact ⟨hw.label, hw.dtype, trivial, by
              unfold maskNan
              refine array_no ?_
              rw [← hw.dtype]
              cases w.dtype <;> exact hw.x.1⟩
  · rw [e1, e2]; exact rfl

theorem group_alike {y z g g' : Larry L} (h : y.Rel NoVal NoDType z) (hg : g.Rel NoVal NoDType g') (sort f : List Val → List Val) (axis : Int) :
    Res.Agree Larry.Alike (y.groupBy sort f g axis) (z.groupBy sort f g' axis) := by
  have ha : Res.Agree (fun _ _ : List Val => True) (y.groupAlign g axis) (z.groupAlign g' axis) := by
    unfold Larry.groupAlign
    rw [← h.label, ← hg.label, ← hg.ndim]
    split
    · exact rfl
    cases pyIdx y.label.length axis with
    | none => exact rfl
    | some ax =>
      dsimp only
      split
      · exact rfl
      rcases (morph_rel fills_no hg (y.label.getD ax []) 0).cases with ⟨a, b, e1, e2, _⟩ | ⟨e, e1, e2⟩
      · rw [e1, e2]; trivial
      · rw [e1, e2]; exact rfl
  unfold Larry.groupBy
  rw [← h.dtype, ← h.ndim]
  rcases ha.cases with ⟨a, b, e1, e2, _⟩ | ⟨e, e1, e2⟩
  · rw [e1, e2]
    dsimp only
    split
    · exact rfl
    cases pyIdx y.ndim axis with
    | none => exact rfl
    | some ax => exact ⟨h.label, rfl⟩
  · rw [e1, e2]; exact rfl

omit [LinearOrder L] in
theorem putAt_alike {y z : Larry L} (h : y.Rel NoVal NoDType z) (its : List NpItem) (v v' : List Nat → Val) :
    Res.Agree Larry.Alike (y.putAt its v) (z.putAt its v') := by
  unfold Larry.putAt
  rw [← h.x.1]
  cases npSelect y.x.shape its with
  | error e => exact rfl
  | ok g => exact ⟨h.label, h.dtype⟩

theorem setAt_alike {y z : Larry L} (h : y.Rel NoVal NoDType z) (conv : Val → Val) (idx : NpIndex) {v v' : SetVal L} (hv : v.Alike v') :
    Res.Agree Larry.Alike (y.setAt conv idx v) (z.setAt conv idx v') := by
  cases v with
  | scalar v => cases v' with
    | scalar v' => exact putAt_alike h _ _ _
    | lar _ => exact hv.elim
  | lar w => cases v' with
    | scalar _ => exact hv.elim
    | lar w' =>
      unfold Larry.setAt
      rcases (getitem_rel h idx.toIndex).cases with ⟨a, b, e1, e2, hab⟩ | ⟨e, e1, e2⟩
      · rw [e1, e2]
        cases a <;> cases b <;> first
          | exact hab.elim
          | exact rfl
          | (rename_i s s'
             have hs : s.Rel NoVal NoDType s' := hab
             dsimp only
             rw [← hs.label, ← hv.1.1]
             split
             · exact putAt_alike h _ _ _
             · exact rfl)
      · rw [e1, e2]; exact rfl

theorem lixSet_alike {y z : Larry L} (h : y.Rel NoVal NoDType z) (conv : Val → Val) (idx : LIndex L) {v v' : SetVal L} (hv : v.Alike v') :
    Res.Agree Larry.Alike (y.lixSet conv idx v) (z.lixSet conv idx v') := by
  have hs : y.shape = z.shape := h.x.1
  unfold Larry.lixSet
  rw [← hs]
  split
  · exact rfl
  split
  · exact rfl
  cases idx with
  | one it =>
    dsimp only
    rw [← lixOne_rel h]
    cases y.lixOne it with
    | error e => exact rfl
    | ok it' => exact setAt_alike h conv _ hv
  | tuple its =>
    dsimp only
    rw [← lixSel_rel h]
    cases lixSel y its with
    | error e => exact rfl
    | ok sels =>
      dsimp only
      cases v with
      | scalar v => cases v' with
        | lar _ => exact hv.elim
        | scalar v' =>
          dsimp only
          cases ixIds y.shape (sels.map Prod.fst) with
          | error e => exact rfl
          | ok ids => exact ⟨h.label, h.dtype⟩
      | lar w => cases v' with
        | scalar _ => exact hv.elim
        | lar w' =>
          dsimp only
          have hl : y.lixLabels (sels.map Prod.fst) = z.lixLabels (sels.map Prod.fst) := by unfold lixLabels; rw [h.label]
          have hn : w.ndim = w'.ndim := by rw [← hv.2.1.label_length, ← hv.2.2.label_length, hv.1.1]
          rw [← hl, ← hn, ← hv.1.1]
          split
          · exact rfl
          cases y.lixLabels (sels.map Prod.fst) with
          | error e => exact rfl
          | ok labs =>
            dsimp only
            split
            · exact rfl
            cases ixIds y.shape (sels.map Prod.fst) with
            | error e => exact rfl
            | ok ids => exact ⟨h.label, h.dtype⟩

theorem setMask_alike {y z m m' : Larry L} (h : y.Rel NoVal NoDType z) (hm : m.Rel NoVal NoDType m') (hd : m.dtype ≠ .int) (v v' : Val) :
    Res.Agree Larry.Alike (y.setMask m v) (z.setMask m' v') := by
  unfold Larry.setMask
  rw [← h.label, ← hm.label, ← hm.dtype]
  split
  · cases e : m.dtype <;> first
      | exact rfl
      | exact absurd e hd
      | exact ⟨rfl, h.dtype⟩
  · exact rfl

omit [LinearOrder L] in
theorem keepX_alike {y z : Larry L} (h : y.Rel NoVal NoDType z) (op : CmpOp) (value : Flt) :
    Res.Agree Larry.Alike (y.keepX op value false) (z.keepX op value false) := by
  unfold Larry.keepX
  rw [← h.dtype, ← h.ndim]
  split
  · exact rfl
  split
  · exact rfl
  cases nanAs y.dtype with
  | error e => exact rfl
  | ok w => exact ⟨h.label, rfl⟩

theorem results_alike {st st' : Store L} (hv : st.Valid) (hv' : st'.Valid) (h : st.Alike st') {c c' : Cmd L} (hc : Cmd.Alike st st' c c') :
    Res.Agree Store.Alike (c.results st) (c'.results st') := by
  have hu := alike_store_until hv h
  have hr := alike_store_rel hv hv' h
  have looks : ∀ {c c' : Cmd L}, Cmd.Looks allLater st st' c c' → Res.Agree Store.Alike (c.results st) (c'.results st') :=
    fun hc => store_of_until (results_until hv hv' hu hc)
  have rels : ∀ {c c' : Cmd L}, c.Rel NoVal NoDType c' → Res.Agree Store.Alike (c.results st) (c'.results st') :=
    fun hc => store_of_rel (results_rel fills_no trivial hv hr hc)
  have inTime : ∀ l : List L, InTime allLater l := fun l => List.pairwise_of_forall fun _ _ h => h
  have backInTime : ∀ l : List L, BackInTime allLater l := fun l => List.pairwise_of_forall fun _ _ h => h
  cases hc with
  | same hn =>
    cases c with
    | morph i lab axis => exact rels (.morph ..)
    | morphLike i j => exact rels (.morphLike ..)
    | binop uf i j => exact rels (.binop _ _ (ufunc_no uf))
    | compare uf i j => exact rels (.compare _ _ (ufunc_no uf))
    | align i j join cast => exact rels (.align ..)
    | alignAxis is axis join => exact rels (.alignAxis ..)
    | sortaxis i axis reverse => exact rels (.sortaxis ..)
    | keepLabel i op axis => exact rels (.keepLabel ..)
    | pull i name axis => exact rels (.pull ..)
    | take i indices axis => exact rels (.take ..)
    | flipaxis i axis => exact rels (.flipaxis ..)
    | lag i nlag axis => exact rels (.lag ..)
    | transpose i => exact rels (.transpose ..)
    | swapaxes i a b => exact rels (.swapaxes ..)
    | squeeze i => exact rels (.squeeze ..)
    | insertaxis i axis name => exact rels (.insertaxis ..)
    | maplabel i f axis => exact rels (.maplabel ..)
    | getitem i idx => exact rels (.getitem ..)
    | lix i idx => exact rels (.lix ..)
    | reduce r i axis => exact rels (.reduce _ _ (red_no r))
    | prod i axis => exact store_of_rel (on_alike hv hv' h i fun y z _ hyz => out_rel (prod_alike hyz axis))
    | cumsum i axis => exact looks (.cumsum fun _ _ _ l _ _ => inTime l)
    | cumprod i axis => exact looks (.cumprod fun _ _ _ l _ _ => inTime l)
    | clip i lo hi => exact looks (.clip ..)
    | push i window axis => exact looks (.push fun _ l _ _ => inTime l)
    | ranking i axis norm => exact on_alike hv hv' h i fun y z _ hyz => one_alike (ranking_alike hyz axis norm)
    | quantile argsort i q axis => exact on_alike hv hv' h i fun y z _ hyz => one_alike (quantile_alike hyz argsort q axis)
    | demean center i axis => exact on_alike hv hv' h i fun y z _ hyz => one_alike (demean_alike hyz center axis)
    | zscore std i axis => exact on_alike hv hv' h i fun y z _ hyz => one_alike (zscore_alike hyz std axis)
    | movingsumForward i window skip axis norm => exact looks (.movingsumForward fun _ l _ _ => backInTime l)
    | moveBn k i window axis => exact looks (.moveBn fun _ l _ _ => inTime l)
    | group sort f i j axis =>
      exact on_alike hv hv' h i fun y z _ hyz => on_alike hv hv' h j fun g g' _ hg => one_alike (group_alike hyz hg sort f axis)
    | ismissing i => exact looks (.ismissing i)
    | keepX i op value vac =>
      cases vac with
      | true => exact hn.elim
      | false => exact on_alike hv hv' h i fun y z _ hyz => one_alike (keepX_alike hyz op value)
    | _ => exact hn.elim
  | new hs => exact rels (.new _ (array_no hs) trivial)
  | binopArray hs => exact rels (.binopArray _ (ufunc_no _) (array_no hs) trivial)
  | merge hd => exact looks (.merge hd)
  | binaryop hs => exact looks (.binaryop hs)
  | stack hk hnum => exact looks (.stack hk hnum)
  | moveFunc h1 h2 => exact looks (.moveFunc h1 h2 fun _ _ _ l _ _ => inTime l)
  | set i names v v' => exact rels (.set i names trivial)
  | setAt hva => exact on_alike hv hv' h _ fun y z _ hyz => one_alike (setAt_alike hyz _ _ hva)
  | setMask hd =>
    exact on_alike hv hv' h _ fun y z _ hyz => on_alike hv hv' h _ fun m m' e hm =>
      one_alike (setMask_alike hyz hm (hd m e) _ _)
  | lixSet hva => exact on_alike hv hv' h _ fun y z _ hyz => one_alike (lixSet_alike hyz _ _ hva)

omit [LinearOrder L] in
theorem set_store_alike {st st' : Store L} {y z : Larry L} (h : st.Alike st') (i : Nat) (hyz : y.Alike z) :
    Store.Alike (st.set i y) (st'.set i z) := by
  induction h generalizing i with
  | nil => exact .nil
  | cons h1 h2 ih =>
    cases i with
    | zero => exact .cons hyz h2
    | succ i => exact .cons h1 (ih i)

omit [LinearOrder L] in
theorem foldl_alike {st st' zs zs' : Store L} (h : st.Alike st') (i : Nat) (hz : Store.Alike zs zs') :
    Store.Alike (zs.foldl (fun st z => st.set i z) st) (zs'.foldl (fun st z => st.set i z) st') := by
  induction hz generalizing st st' with
  | nil => exact h
  | cons h1 _ ih => exact ih (set_store_alike h i h1)

omit [LinearOrder L] in
theorem target_alike {st st' : Store L} {c c' : Cmd L} (hc : Cmd.Alike st st' c c') : c.target = c'.target := by cases hc <;> rfl

omit [LinearOrder L] in
theorem fair_alike {st st' : Store L} (hv : st.Valid) (hv' : st'.Valid) (h : st.Alike st') {c c' : Cmd L}
    (hc : Cmd.Alike st st' c c') (hf : c.Fair st) : c'.Fair st' := by
  have back : ∀ {i : Nat} {z : Larry L}, st'[i]? = some z → ∃ y, st[i]? = some y ∧ y.label = z.label ∧ y.shape = z.shape ∧ y.ndim = z.ndim := by
    intro i z hz
    rcases until_get? (alike_store_until hv h) i with ⟨y, z', h1, h2, h3⟩ | ⟨h1, h2⟩
    · obtain rfl : z = z' := by rw [hz] at h2; simpa using h2
      have vy := hv y (List.mem_of_getElem? h1)
      have vz := hv' z (List.mem_of_getElem? h2)
      exact ⟨y, h1, h3.label, h3.shape vy vz, h3.ndim vy vz⟩
    · rw [hz] at h2; simp at h2
  cases hc with
  | binopArray hs =>
    intro z hz
    obtain ⟨y, h1, _, h3, _⟩ := back hz
    have := hf y h1
    rw [← h3]
    unfold NDArray.shape at *
    rw [← hs]; exact this
  | binaryop hs => exact hs
  | same hn =>
    cases c with
    | squeeze i =>
      intro z hz
      obtain ⟨y, h1, _, h3, _⟩ := back hz
      rw [← h3]; exact hf y h1
    | maplabel i f axis =>
      cases axis with
      | none =>
        intro z hz
        obtain ⟨y, h1, h2, _, _⟩ := back hz
        rw [← h2]; exact hf y h1
      | some a =>
        intro z hz
        obtain ⟨y, h1, h2, _, h4⟩ := back hz
        rw [← h2, ← h4]; exact hf y h1
    | binopArray => exact hn.elim
    | binaryop => exact hn.elim
    | _ => trivial
  | _ => trivial

/-- C110. One call raises the same exception, or gives larrys with the same labels and dtypes, whatever the values are. -/
theorem C110_step {st st' : Store L} (hv : st.Valid) (hv' : st'.Valid) (h : st.Alike st') {c c' : Cmd L}
    (hc : Cmd.Alike st st' c c') : Res.Agree Store.Alike (c.step st) (c'.step st') := by
  unfold Cmd.step
  rw [← target_alike hc]
  rcases (results_alike hv hv' h hc).cases with ⟨zs, zs', h1, h2, h3⟩ | ⟨e, h1, h2⟩
  · rw [h1, h2]
    simp only
    cases c.target with
    | none => exact List.rel_append h h3
    | some i => exact foldl_alike h i h3
  · rw [h1, h2]; exact rfl

/-- C110. Run on other values, a program raises the same exceptions at the same calls and computes larrys with the same labels
and dtypes. -/
theorem C110_program {st st' : Store L} (hv : st.Valid) (hv' : st'.Valid) (h : st.Alike st') {cs cs' : List (Cmd L)}
    (hc : AlikeAll st st' cs cs') : Store.Alike (runAll st cs) (runAll st' cs') ∧ outcomes st cs = outcomes st' cs' := by
  induction cs generalizing st st' cs' with
  | nil => cases cs' with
    | nil => exact ⟨h, rfl⟩
    | cons => exact hc.elim
  | cons c cs ih => cases cs' with
    | nil => exact hc.elim
    | cons c' cs' =>
      obtain ⟨f1, f2, f3, f4⟩ := hc
      have g := fair_alike hv hv' h f1 f2
      unfold runAll outcomes
      rcases (C110_step hv hv' h f1).cases with ⟨zs, zs', k1, k2, k3⟩ | ⟨e, k1, k2⟩
      · rw [k1, k2]
        have := ih (C64_step hv f2 k1) (C64_step hv' g k2) k3 (f3 _ _ k1 k2)
        exact ⟨this.1, congrArg _ this.2⟩
      · rw [k1, k2]
        have := ih hv hv' h (f4 e k1)
        exact ⟨this.1, congrArg _ this.2⟩

/-! ## Calls that read the values

Two larrys that are alike, and a call that does not treat them alike. -/

/-- Two cells on one axis. -/
def exPair (a b : Flt) : Larry Nat := ⟨NDArray.ofList [2] [.flt a, .flt b], .float, [[1, 2]]⟩

/-- Two by two cells. -/
def exSquare (a b c d : Flt) : Larry Nat := ⟨NDArray.ofList [2, 2] [.flt a, .flt b, .flt c, .flt d], .float, [[1, 2], [10, 20]]⟩

omit [LinearOrder L] in
/-- Two results whose labels are different, or one of which only is an exception. -/
theorem not_alike {r r' : Res (Store L)} (h : r.toOption.map (List.map Larry.label) ≠ r'.toOption.map (List.map Larry.label)) :
    ¬ Res.Agree Store.Alike r r' := by
  intro ha
  rcases ha.cases with ⟨a, b, rfl, rfl, hab⟩ | ⟨e, rfl, rfl⟩
  · refine h (congrArg some ?_)
    clear h ha
    induction hab with
    | nil => rfl
    | cons h1 _ ih => rw [List.map_cons, List.map_cons, h1.1, ih]
  · exact h rfl

/-- C110. Whether `merge` without update raises depends on which values are missing. -/
theorem C110_merge_reads : Store.Alike [exPair (.fin 1) .nan, exPair .nan (.fin 3)] [exPair .nan (.fin 1), exPair .nan (.fin 3)] ∧
    ¬ Res.Agree Store.Alike ((Cmd.merge 0 1 false).step [exPair (.fin 1) .nan, exPair .nan (.fin 3)])
      ((Cmd.merge 0 1 false).step [exPair .nan (.fin 1), exPair .nan (.fin 3)]) :=
  ⟨.cons ⟨rfl, rfl⟩ (.cons ⟨rfl, rfl⟩ .nil), not_alike (by decide +kernel)⟩

theorem exSquare_alike (a b c d a' b' c' d' : Flt) : Store.Alike [exSquare a b c d] [exSquare a' b' c' d'] := .cons ⟨rfl, rfl⟩ .nil

/-- C110. Which labels `vacuum` keeps depends on which values are missing. -/
theorem C110_vacuum_reads : ¬ Res.Agree Store.Alike ((Cmd.vacuum 0 none).step [exSquare (.fin 1) (.fin 2) (.fin 3) (.fin 4)])
    ((Cmd.vacuum 0 none).step [exSquare (.fin 1) .nan (.fin 3) .nan]) := not_alike (by decide +kernel)

/-- C110. Which labels `cut_missing` keeps depends on which values are missing. -/
theorem C110_cut_missing_reads :
    ¬ Res.Agree Store.Alike ((Cmd.cutMissing 0 (1/2) (some 1)).step [exSquare (.fin 1) (.fin 2) (.fin 3) (.fin 4)])
      ((Cmd.cutMissing 0 (1/2) (some 1)).step [exSquare (.fin 1) .nan (.fin 3) .nan]) := not_alike (by decide +kernel)

/-- C110. Which labels `keep_x` keeps depends on the values. -/
theorem C110_keep_x_reads :
    ¬ Res.Agree Store.Alike ((Cmd.keepX 0 .gt (.fin 2) true).step [exSquare (.fin 1) (.fin 2) (.fin 3) (.fin 4)])
      ((Cmd.keepX 0 .gt (.fin 2) true).step [exSquare (.fin 3) (.fin 3) (.fin 3) (.fin 4)]) := not_alike (by decide +kernel)

/-- The order of two values. -/
def exTwoOrder (l : List Val) : List Nat := if (l.getD 1 (fl 0)).num.lt (l.getD 0 (fl 0)).num then [1, 0] else [0, 1]

/-- C110. The order of the labels after `sortby` depends on the values. -/
theorem C110_sortby_reads :
    ¬ Res.Agree Store.Alike ((Cmd.sortby exTwoOrder 0 1 0 false).step [exSquare (.fin 1) (.fin 2) (.fin 3) (.fin 4)])
      ((Cmd.sortby exTwoOrder 0 1 0 false).step [exSquare (.fin 2) (.fin 1) (.fin 3) (.fin 4)]) := not_alike (by decide +kernel)

/-- C110. A larry of integers as a mask is a list of positions, and one of them can be out of range. -/
theorem C110_mask_reads :
    let m : Int → Larry Nat := fun k => ⟨NDArray.ofList [2] [.int 0, .int k], .int, [[1, 2]]⟩
    Store.Alike [exPair (.fin 1) (.fin 2), m 1] [exPair (.fin 1) (.fin 2), m 7] ∧
    ¬ Res.Agree Store.Alike ((Cmd.setMask 0 1 (fl 0)).step [exPair (.fin 1) (.fin 2), m 1])
      ((Cmd.setMask 0 1 (fl 0)).step [exPair (.fin 1) (.fin 2), m 7]) :=
  ⟨.cons ⟨rfl, rfl⟩ (.cons ⟨rfl, rfl⟩ .nil), not_alike (by decide +kernel)⟩

/-! ## Example -/

/-- Lag, assign one cell, rank everything, pull a column that is not there, pull one that is, take a label that is not there. -/
def exBlind (v : Val) : List (Cmd Nat) :=
  [.lag 0 1 (some 0), .set 0 [2, 10] v, .ranking 0 none .pm1, .pull 0 7 (some 1), .pull 2 20 (some 1), .lix 3 (.one (.list [9]))]

/-- The conditions are met for any values, and the program does not raise or return throughout. -/
example (a b c d a' b' c' d' : Flt) (v v' : Val) :
    AlikeAll [exSquare a b c d] [exSquare a' b' c' d'] (exBlind v) (exBlind v') ∧
    outcomes [exSquare (.fin 1) .nan (.fin 3) (.fin 4)] (exBlind (fl 5)) =
      [none, none, none, some .indexError, none, some .valueError] ∧
    (runAll [exSquare (.fin 1) .nan (.fin 3) (.fin 4)] (exBlind (fl 5))).map Larry.label =
      [[[1, 2], [10, 20]], [[2], [10, 20]], [[1, 2], [10, 20]], [[1, 2]]] := by
  have step : ∀ {st st' : Store Nat} {c c' : Cmd Nat} {cs cs' : List (Cmd Nat)}, (∀ st st', Cmd.Alike st st' c c') → (∀ st, c.Fair st) →
      (∀ st st', AlikeAll st st' cs cs') → AlikeAll st st' (c :: cs) (c' :: cs') :=
    fun h1 h2 h3 => ⟨h1 _ _, h2 _, fun _ _ _ _ => h3 _ _, fun _ _ => h3 _ _⟩
  refine ⟨?_, by decide +kernel, by decide +kernel⟩
  refine step (fun _ _ => .same trivial) (fun _ => trivial) fun _ _ => ?_
  refine step (fun _ _ => .set ..) (fun _ => trivial) fun _ _ => ?_
  iterate 4 refine step (fun _ _ => .same trivial) (fun _ => trivial) fun _ _ => ?_
  trivial

end La
