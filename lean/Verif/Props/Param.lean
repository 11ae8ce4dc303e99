import Verif.ParamJoin
import Verif.Props.History
import Mathlib.Tactic.Linarith

/-!
# Property C73: a change of representation commutes with every program that only moves, aligns and combines values
-/

namespace La
open Larry
variable {L : Type _} [LinearOrder L]

/-! ## Specification -/

/-- Two calls that do the same thing on corresponding larrys: the same method with the same arguments, values among the
arguments being related by `R`, operations and reductions taking related values to related values. -/
inductive Cmd.Rel (R : Val → Val → Prop) (D : DType → Prop) : Cmd L → Cmd L → Prop
  | new {x x' d} (label) : NDArray.Rel R x x' → D d → Cmd.Rel R D (.new x d label) (.new x' d label)
  | morph (i lab axis) : Cmd.Rel R D (.morph i lab axis) (.morph i lab axis)
  | morphLike (i j) : Cmd.Rel R D (.morphLike i j) (.morphLike i j)
  | binop {uf uf'} (i j) : uf.Rel R D uf' → Cmd.Rel R D (.binop uf i j) (.binop uf' i j)
  | binopArray {uf uf' x x' d} (i) : uf.Rel R D uf' → NDArray.Rel R x x' → D d →
      Cmd.Rel R D (.binopArray uf i x d) (.binopArray uf' i x' d)
  | compare {uf uf'} (i j) : uf.Rel R D uf' → Cmd.Rel R D (.compare uf i j) (.compare uf' i j)
  | merge (i j update) : MergesRelated R D → Cmd.Rel R D (.merge i j update) (.merge i j update)
  | align (i j join cast) : Cmd.Rel R D (.align i j join cast) (.align i j join cast)
  | alignAxis (is axis join) : Cmd.Rel R D (.alignAxis is axis join) (.alignAxis is axis join)
  | sortaxis (i axis reverse) : Cmd.Rel R D (.sortaxis i axis reverse) (.sortaxis i axis reverse)
  | keepLabel (i op axis) : Cmd.Rel R D (.keepLabel i op axis) (.keepLabel i op axis)
  | pull (i name axis) : Cmd.Rel R D (.pull i name axis) (.pull i name axis)
  | take (i indices axis) : Cmd.Rel R D (.take i indices axis) (.take i indices axis)
  | flipaxis (i axis) : Cmd.Rel R D (.flipaxis i axis) (.flipaxis i axis)
  | lag (i nlag axis) : Cmd.Rel R D (.lag i nlag axis) (.lag i nlag axis)
  | transpose (i) : Cmd.Rel R D (.transpose i) (.transpose i)
  | swapaxes (i axis1 axis2) : Cmd.Rel R D (.swapaxes i axis1 axis2) (.swapaxes i axis1 axis2)
  | squeeze (i) : Cmd.Rel R D (.squeeze i) (.squeeze i)
  | insertaxis (i axis name) : Cmd.Rel R D (.insertaxis i axis name) (.insertaxis i axis name)
  | maplabel (i f axis) : Cmd.Rel R D (.maplabel i f axis) (.maplabel i f axis)
  | getitem (i idx) : Cmd.Rel R D (.getitem i idx) (.getitem i idx)
  | lix (i idx) : Cmd.Rel R D (.lix i idx) (.lix i idx)
  | reduce {r r'} (i axis) : r.Rel R D r' → Cmd.Rel R D (.reduce r i axis) (.reduce r' i axis)
  | set {v w} (i names) : R v w → Cmd.Rel R D (.set i names v) (.set i names w)

/-- Two programs, call by call. -/
abbrev CmdsRel (R : Val → Val → Prop) (D : DType → Prop) := List.Forall₂ (Cmd.Rel (L := L) R D)

/-- Two stores, variable by variable. -/
abbrev Store.Rel (R : Val → Val → Prop) (D : DType → Prop) : Store L → Store L → Prop := List.Forall₂ (Larry.Rel R D)

/-! ## Proofs -/

variable {R : Val → Val → Prop} {D : DType → Prop}

omit [LinearOrder L] in
theorem rel_get? {st st' : Store L} (h : st.Rel R D st') (i : Nat) :
    (∃ y z, st[i]? = some y ∧ st'[i]? = some z ∧ y.Rel R D z) ∨ (st[i]? = none ∧ st'[i]? = none) := by
  induction h generalizing i with
  | nil => exact .inr ⟨rfl, rfl⟩
  | cons h1 _ ih =>
    cases i with
    | zero => exact .inl ⟨_, _, rfl, rfl, h1⟩
    | succ i => exact ih i

omit [LinearOrder L] in
theorem var_rel {st st' : Store L} (h : st.Rel R D st') (i : Nat) : Res.Agree (Larry.Rel R D) (st.var i) (st'.var i) := by
  unfold Store.var
  rcases rel_get? h i with ⟨y, z, h1, h2, h3⟩ | ⟨h1, h2⟩
  · rw [h1, h2]; exact h3
  · rw [h1, h2]; exact rfl

omit [LinearOrder L] in
theorem on_rel {β γ : Type _} {S : β → γ → Prop} {st st' : Store L} (hv : st.Valid) (h : st.Rel R D st') (i : Nat)
    {f : Larry L → Res β} {f' : Larry L → Res γ} (hf : ∀ y z, y.Valid → y.Rel R D z → Res.Agree S (f y) (f' z)) :
    Res.Agree S (st.on i f) (st'.on i f') := by
  unfold Store.on Store.var
  rcases rel_get? h i with ⟨y, z, h1, h2, h3⟩ | ⟨h1, h2⟩
  · rw [h1, h2]; exact hf y z (hv y (List.mem_of_getElem? h1)) h3
  · rw [h1, h2]; exact rfl

omit [LinearOrder L] in
theorem one_rel {r r' : Res (Larry L)} (h : Res.Agree (Larry.Rel R D) r r') :
    Res.Agree (Store.Rel R D) (Res.one r) (Res.one r') := by
  rcases h.cases with ⟨a, b, rfl, rfl, h⟩ | ⟨e, rfl, rfl⟩
  · exact .cons h .nil
  · exact rfl

omit [LinearOrder L] in
theorem out_rel {r r' : Res (Out L)} (h : Res.Agree (Out.Rel R D) r r') :
    Res.Agree (Store.Rel R D) (Res.out r) (Res.out r') := by
  rcases h.cases with ⟨a, b, rfl, rfl, h⟩ | ⟨e, rfl, rfl⟩
  · cases a <;> cases b <;> first
      | exact h.elim
      | exact .nil
      | exact .cons h .nil
  · exact rfl

omit [LinearOrder L] in
theorem getOut_rel {r r' : Res (GetOut L)} (h : Res.Agree (GetOut.Rel R D) r r') :
    Res.Agree (Store.Rel R D) (Res.getOut r) (Res.getOut r') := by
  rcases h.cases with ⟨a, b, rfl, rfl, h⟩ | ⟨e, rfl, rfl⟩
  · cases a <;> cases b <;> first
      | exact h.elim
      | exact .nil
      | exact .cons h .nil
  · exact rfl

omit [LinearOrder L] in
theorem both_rel {r r' : Res (Larry L × Larry L)} (h : Res.Agree (BothRel R D) r r') :
    Res.Agree (Store.Rel R D) (Res.both r) (Res.both r') := by
  rcases h.cases with ⟨⟨a, a'⟩, ⟨b, b'⟩, rfl, rfl, h, h'⟩ | ⟨e, rfl, rfl⟩
  · exact .cons h (.cons h' .nil)
  · exact rfl

theorem results_rel (hR : FillsRelated R D) (hf : D .float) {st st' : Store L} (hv : st.Valid) (h : st.Rel R D st') {c c' : Cmd L}
    (hc : c.Rel R D c') : Res.Agree (Store.Rel R D) (c.results st) (c'.results st') := by
  cases hc with
  | new label hx hd => exact one_rel (mk'_rel hx hd label)
  | morph i lab axis => exact on_rel hv h i fun y z _ hyz => one_rel (morph_rel hR hyz lab axis)
  | morphLike i j => exact on_rel hv h i fun y z _ hyz => on_rel hv h j fun y' z' _ h' => one_rel (morphLike_rel hR h' hyz)
  | binop i j hu => exact on_rel hv h i fun y z _ hyz => on_rel hv h j fun y' z' _ h' => one_rel (binop_rel hu hyz h')
  | binopArray i hu hx hd => exact on_rel hv h i fun y z _ hyz => one_rel (binopArray_rel hu hyz hx hd)
  | compare i j hu => exact on_rel hv h i fun y z _ hyz => on_rel hv h j fun y' z' _ h' => one_rel (compare_rel hu hyz h')
  | merge i j update hM =>
    exact on_rel hv h i fun y z hy hyz => on_rel hv h j fun y' z' hy' h' => one_rel (merge_rel hR hM hy hy' hyz h' update)
  | align i j join cast =>
    exact on_rel hv h i fun y z _ hyz => on_rel hv h j fun y' z' _ h' => both_rel (La.align_rel hR hyz h' join cast)
  | alignAxis is axis join =>
    simp only [Cmd.results]
    rcases (mapRes_agree (R := Eq) (f := st.var) (g := st'.var) (S := Larry.Rel R D) (fun a b hab => by subst hab; exact var_rel h a)
      (List.forall₂_eq_eq_eq ▸ rfl : List.Forall₂ Eq is is)).cases with ⟨ys, zs, h1, h2, h3⟩ | ⟨e, h1, h2⟩
    · rw [h1, h2]; exact alignAxisN_rel hR h3 axis join
    · rw [h1, h2]; exact rfl
  | sortaxis i axis reverse => exact on_rel hv h i fun y z _ hyz => one_rel (sortaxis_rel hR hyz axis reverse)
  | keepLabel i op axis => exact on_rel hv h i fun y z hy hyz => one_rel (keepLabel_rel hf hy hyz op axis)
  | pull i name axis => exact on_rel hv h i fun y z _ hyz => out_rel (pull_rel hyz name axis)
  | take i indices axis => exact on_rel hv h i fun y z _ hyz => one_rel (take_rel hyz indices axis)
  | flipaxis i axis => exact on_rel hv h i fun y z _ hyz => one_rel (flipaxis_rel hyz axis)
  | lag i nlag axis => exact on_rel hv h i fun y z _ hyz => one_rel (lag_rel hyz nlag axis)
  | transpose i => exact on_rel hv h i fun y z _ hyz => List.Forall₂.cons (T_rel hyz) .nil
  | swapaxes i a b => exact on_rel hv h i fun y z hy hyz => one_rel (swapaxes_rel hy hyz a b)
  | squeeze i => exact on_rel hv h i fun y z _ hyz => List.Forall₂.cons (squeeze_rel hyz) .nil
  | insertaxis i axis name => exact on_rel hv h i fun y z _ hyz => one_rel (insertaxis_rel hyz axis name)
  | maplabel i f axis => exact on_rel hv h i fun y z _ hyz => one_rel (maplabel_rel hyz f axis)
  | getitem i idx => exact on_rel hv h i fun y z _ hyz => getOut_rel (getitem_rel hyz idx)
  | lix i idx => exact on_rel hv h i fun y z _ hyz => getOut_rel (lixGet_rel hyz idx)
  | reduce i axis hr => exact on_rel hv h i fun y z _ hyz => out_rel (reduce_rel hr hyz axis)
  | set i names hvw => exact on_rel hv h i fun y z _ hyz => one_rel (set_rel hyz names hvw)

omit [LinearOrder L] in
theorem set_store_rel {st st' : Store L} (h : st.Rel R D st') (i : Nat) {y z : Larry L} (hyz : y.Rel R D z) :
    Store.Rel R D (st.set i y) (st'.set i z) := by
  induction h generalizing i with
  | nil => exact .nil
  | cons h1 h2 ih =>
    cases i with
    | zero => exact .cons hyz h2
    | succ i => exact .cons h1 (ih i)

omit [LinearOrder L] in
theorem foldl_rel {st st' zs zs' : Store L} (h : st.Rel R D st') (i : Nat) (hz : Store.Rel R D zs zs') :
    Store.Rel R D (zs.foldl (fun st z => st.set i z) st) (zs'.foldl (fun st z => st.set i z) st') := by
  induction hz generalizing st st' with
  | nil => exact h
  | cons h1 _ ih => exact ih (set_store_rel h i h1)

omit [LinearOrder L] in
theorem target_rel {c c' : Cmd L} (hc : c.Rel R D c') : c.target = c'.target := by cases hc <;> rfl

/-- C73. One call on corresponding larrys raises the same exception or gives corresponding larrys. -/
theorem C73_step (hR : FillsRelated R D) (hf : D .float) {st st' : Store L} (hv : st.Valid) (h : st.Rel R D st') {c c' : Cmd L}
    (hc : c.Rel R D c') : Res.Agree (Store.Rel R D) (c.step st) (c'.step st') := by
  unfold Cmd.step
  rw [← target_rel hc]
  rcases (results_rel hR hf hv h hc).cases with ⟨zs, zs', h1, h2, h3⟩ | ⟨e, h1, h2⟩
  · rw [h1, h2]
    simp only
    cases c.target with
    | none => exact List.rel_append h h3
    | some i => exact foldl_rel h i h3
  · rw [h1, h2]; exact rfl

/-- C73. Whole programs on corresponding larrys give corresponding larrys. -/
theorem C73_program (hR : FillsRelated R D) (hf : D .float) {st st' : Store L} (hv : st.Valid) (h : st.Rel R D st')
    {cs cs' : List (Cmd L)} (hc : CmdsRel R D cs cs') (hfair : FairAll st cs) :
    Store.Rel R D (runAll st cs) (runAll st' cs') := by
  induction hc generalizing st st' with
  | nil => exact h
  | @cons c c' cs cs' h1 _ ih =>
    obtain ⟨f1, f2, f3⟩ := hfair
    unfold runAll
    rcases (C73_step hR hf hv h h1).cases with ⟨zs, zs', k1, k2, k3⟩ | ⟨e, k1, k2⟩
    · rw [k1, k2]; exact ih (C64_step hv f1 k1) k3 (f2 _ k1)
    · rw [k1, k2]; exact ih hv h (f3 e k1)

/-! ## Consequences -/

/-- The larry with `g` applied to every element. -/
def Larry.onValues (g : Val → Val) (y : Larry L) : Larry L := ⟨y.x.map g, y.dtype, y.label⟩

/-- Calls that only select, arrange, align and fill. -/
def Cmd.Moves : Cmd L → Prop
  | .morph .. | .morphLike .. | .align .. | .alignAxis .. | .sortaxis .. | .keepLabel .. | .pull .. | .take .. | .flipaxis ..
  | .lag .. | .transpose .. | .swapaxes .. | .squeeze .. | .insertaxis .. | .maplabel .. | .getitem .. | .lix .. => True
  | _ => False

omit [LinearOrder L] in
theorem moves_rel {c : Cmd L} (h : c.Moves) : c.Rel R D c := by
  cases c <;> first
    | exact h.elim
    | constructor

omit [LinearOrder L] in
theorem all_moves_rel {cs : List (Cmd L)} (h : ∀ c ∈ cs, c.Moves) : CmdsRel R D cs cs :=
  List.forall₂_same.mpr fun c hc => moves_rel (h c hc)

omit [LinearOrder L] in
theorem onValues_rel {g : Val → Val} {y : Larry L} (hd : D y.dtype) (hR : ∀ idx, InB y.x.shape idx → R (y.x.get idx) (g (y.x.get idx))) :
    y.Rel R D (y.onValues g) := ⟨rfl, rfl, hd, rfl, hR⟩

omit [LinearOrder L] in
theorem rel_onValues {g : Val → Val} (hR : ∀ v w, R v w → w = g v) {y z : Larry L} (h : y.Rel R D z) : (y.onValues g).Same z :=
  ⟨h.label, h.dtype, h.x.1, fun idx hi => (hR _ _ (h.x.2 idx hi)).symm⟩

omit [LinearOrder L] in
theorem store_onValues {g : Val → Val} (hR : ∀ v w, R v w → w = g v) {st st' : Store L} (h : st.Rel R D st') :
    List.Forall₂ Larry.Same (st.map (onValues g)) st' := by
  induction h with
  | nil => exact .nil
  | cons h1 _ ih => exact .cons (rel_onValues hR h1) ih

omit [LinearOrder L] in
theorem store_map_rel {g : Val → Val} {st : Store L}
    (h : ∀ y ∈ st, D y.dtype ∧ ∀ idx, InB y.x.shape idx → R (y.x.get idx) (g (y.x.get idx))) :
    st.Rel R D (st.map (onValues g)) := by
  induction st with
  | nil => exact .nil
  | cons y st ih => exact .cons (onValues_rel (h y (by simp)).1 (h y (by simp)).2) (ih fun z hz => h z (by simp [hz]))

/-- `g` leaves the missing markers of the dtypes `D` alone and does not mind the cast to float. -/
structure KeepsMissing (g : Val → Val) (D : DType → Prop) : Prop where
  marker : ∀ d m, D d → missingMarker d = some m → g m = m
  float : D .float
  cast : ∀ d, D d → missingMarker d = none → ∀ v, g v.toFloat = (g v).toFloat

/-- C73. Apply `g` to every element before a program that selects, arranges, aligns and fills, or after it: the results are the
same. -/
theorem C73_moves {g : Val → Val} (hg : KeepsMissing g D) {st : Store L} (hv : st.Valid) (hd : ∀ y ∈ st, D y.dtype)
    {cs : List (Cmd L)} (hc : ∀ c ∈ cs, c.Moves) (hfair : FairAll st cs) :
    List.Forall₂ Larry.Same ((runAll st cs).map (onValues g)) (runAll (st.map (onValues g)) cs) := by
  have hR : FillsRelated (fun v w => w = g v) D := by
    intro d hd
    refine ⟨fun m hm => (hg.marker d m hd hm).symm, fun hm => ⟨hg.float, (hg.marker .float _ hg.float rfl).symm, ?_⟩⟩
    rintro v w rfl
    exact (hg.cast d hd hm v).symm
  exact store_onValues (R := fun v w => w = g v) (D := D) (fun _ _ h => h)
    (C73_program hR hg.float hv (store_map_rel fun y hy => ⟨hd y hy, fun _ _ => rfl⟩) (all_moves_rel hc) hfair)

/-- C73. Such a program invents no values: what holds of every element at the start and of the missing markers, and survives
the cast to float, holds of every element at the end. -/
theorem C73_no_new_values {P : Val → Prop} (hm : ∀ d m, D d → missingMarker d = some m → P m) (hf : D .float)
    (hcast : ∀ d, D d → missingMarker d = none → ∀ v, P v → P v.toFloat) {st : Store L} (hv : st.Valid)
    (hd : ∀ y ∈ st, D y.dtype) (hP : ∀ y ∈ st, ∀ idx, InB y.x.shape idx → P (y.x.get idx))
    {cs : List (Cmd L)} (hc : ∀ c ∈ cs, c.Moves) (hfair : FairAll st cs) :
    ∀ y ∈ runAll st cs, D y.dtype ∧ ∀ idx, InB y.x.shape idx → P (y.x.get idx) := by
  have hR : FillsRelated (fun v w => v = w ∧ P v) D := by
    intro d hd
    refine ⟨fun m h => ⟨rfl, hm d m hd h⟩, fun h => ⟨hf, ⟨rfl, hm .float _ hf rfl⟩, ?_⟩⟩
    rintro v w ⟨rfl, hp⟩
    exact ⟨rfl, hcast d hd h v hp⟩
  have h0 : Store.Rel (fun v w => v = w ∧ P v) D st st :=
    List.forall₂_same.mpr fun y hy => ⟨rfl, rfl, hd y hy, rfl, fun idx hi => ⟨rfl, hP y hy idx hi⟩⟩
  have h1 := C73_program hR hf hv h0 (all_moves_rel hc) hfair
  intro y hy
  have h2 := List.forall₂_same.mp h1 y hy
  exact ⟨h2.known, fun idx hi => (h2.x.2 idx hi).2⟩

/-! ### Units of measurement -/

/-- `q` times the number. -/
def scaleVal (q : ℚ) : Val → Val
  | .flt f => .flt ((Flt.fin q).mul f)
  | v => v

/-- A float and the same quantity in another unit. -/
def Scaled (q : ℚ) (v w : Val) : Prop := ∃ f : Flt, v = .flt f ∧ w = .flt ((Flt.fin q).mul f)

/-- Float larrys only. -/
def OnlyFloat (d : DType) : Prop := d = .float

theorem scaled_fills (q : ℚ) : FillsRelated (Scaled q) OnlyFloat := by
  rintro d rfl
  refine ⟨fun m hm => ?_, fun h => by simp [missingMarker] at h⟩
  obtain rfl : _ = m := by simpa [missingMarker] using hm
  exact ⟨.nan, rfl, rfl⟩

/-- C73. Change the unit of all float larrys by a factor `q > 0` before a program of calls that respect units, or after it: the
results are the same. -/
theorem C73_units (q : ℚ) {st : Store L} (hv : st.Valid) (ht : ∀ y ∈ st, y.dtype = .float ∧ y.Typed)
    {cs cs' : List (Cmd L)} (hc : CmdsRel (Scaled q) OnlyFloat cs cs') (hfair : FairAll st cs) :
    List.Forall₂ Larry.Same ((runAll st cs).map (onValues (scaleVal q))) (runAll (st.map (onValues (scaleVal q))) cs') := by
  refine store_onValues (R := Scaled q) (D := OnlyFloat) ?_ (C73_program (scaled_fills q) rfl hv (store_map_rel fun y hy => ⟨(ht y hy).1, ?_⟩) hc hfair)
  · rintro v w ⟨f, rfl, rfl⟩; rfl
  · intro idx hi
    have := (ht y hy).2 idx hi
    rw [(ht y hy).1] at this
    cases hg : y.x.get idx <;> rw [hg] at this <;> simp [Val.hasDType] at this
    exact ⟨_, rfl, rfl⟩

theorem infOf_pos {q : ℚ} (hq : 0 < q) : Flt.infOf q = .pinf ∧ Flt.infOf (-q) = .ninf := by
  refine ⟨by simp [Flt.infOf, hq, hq.ne'], ?_⟩
  simp [Flt.infOf, hq.ne', not_lt.mpr (neg_nonpos.mpr hq.le)]

theorem scale_add {q : ℚ} (hq : 0 < q) (a b : Flt) :
    ((Flt.fin q).mul a).add ((Flt.fin q).mul b) = (Flt.fin q).mul (a.add b) := by
  obtain ⟨h1, h2⟩ := infOf_pos hq
  cases a <;> cases b <;> simp [Flt.mul, Flt.add, h1, h2, mul_add]

theorem scale_neg {q : ℚ} (hq : 0 < q) (a : Flt) : ((Flt.fin q).mul a).neg = (Flt.fin q).mul a.neg := by
  obtain ⟨h1, h2⟩ := infOf_pos hq
  cases a <;> simp [Flt.mul, Flt.neg, h1, h2]

theorem scale_nan {q : ℚ} (hq : 0 < q) (a : Flt) : ((Flt.fin q).mul a).isNan = a.isNan := by
  obtain ⟨h1, h2⟩ := infOf_pos hq
  cases a <;> simp [Flt.mul, Flt.isNan, h1, h2]

theorem scale_finite {q : ℚ} (hq : 0 < q) (a : Flt) : ((Flt.fin q).mul a).isFinite = a.isFinite := by
  obtain ⟨h1, h2⟩ := infOf_pos hq
  cases a <;> simp [Flt.mul, Flt.isFinite, h1, h2]

/-- `np.add` and `np.subtract` on floats. -/
def IsSumOf (uf : UFunc2) (op : Flt → Flt → Flt) : Prop :=
  (∀ a b, uf.f (.flt a) (.flt b) = .flt (op a b)) ∧ uf.dt .float .float = .ok .float

/-- C73. Addition and subtraction respect units. -/
theorem C73_units_add {q : ℚ} (hq : 0 < q) {uf : UFunc2} (h : IsSumOf uf Flt.add ∨ IsSumOf uf Flt.sub) :
    uf.Rel (Scaled q) OnlyFloat uf := by
  refine ⟨?_, fun _ _ _ _ => rfl, ?_⟩
  · rintro _ _ _ _ ⟨f, rfl, rfl⟩ ⟨g, rfl, rfl⟩
    rcases h with h | h
    · rw [h.1, h.1]; exact ⟨_, rfl, by rw [scale_add hq]⟩
    · rw [h.1, h.1]; exact ⟨_, rfl, by rw [Flt.sub, Flt.sub, scale_neg hq, scale_add hq]⟩
  · rintro _ _ r rfl rfl hr
    have : uf.dt .float .float = .ok .float := by rcases h with h | h <;> exact h.2
    rw [this] at hr
    exact (Except.ok.inj hr).symm

/-- C73. `merge` respects units. -/
theorem C73_units_merge {q : ℚ} (hq : 0 < q) : MergesRelated (Scaled q) OnlyFloat := by
  rintro d rfl v w ⟨f, rfl, rfl⟩
  refine ⟨by simp [presentVal, scale_finite hq], ?_⟩
  rintro e rfl -
  exact ⟨f, rfl, rfl⟩

theorem scaled_num {q : ℚ} {l l' : List Val} (h : List.Forall₂ (Scaled q) l l') :
    l'.map Val.num = (l.map Val.num).map (Flt.fin q).mul := by
  induction h with
  | nil => rfl
  | cons h1 _ ih => obtain ⟨f, rfl, rfl⟩ := h1; simp [ih, Val.num]

theorem scale_sum {q : ℚ} (hq : 0 < q) (l : List Flt) : Flt.sum (l.map (Flt.fin q).mul) = (Flt.fin q).mul (Flt.sum l) := by
  have : ∀ acc, (l.map (Flt.fin q).mul).foldl Flt.add ((Flt.fin q).mul acc) = (Flt.fin q).mul (l.foldl Flt.add acc) := by
    induction l with
    | nil => intro acc; rfl
    | cons a l ih => intro acc; simp only [List.map_cons, List.foldl_cons]; rw [scale_add hq, ih]
  have h0 := this (.fin 0)
  simpa [Flt.mul, Flt.sum] using h0

/-- C73. The sum along an axis respects units. -/
theorem C73_units_sum {q : ℚ} (hq : 0 < q) : exSum.Rel (Scaled q) OnlyFloat exSum := by
  refine ⟨?_, fun _ _ => rfl, ?_, rfl, rfl, ⟨.nan, rfl, rfl⟩, ?_⟩
  · intro l l' h
    have hx : ∀ l : List Val, exSum.f l = if (l.map Val.num).all Flt.isNan then .flt .nan
        else .flt (Flt.sum ((l.map Val.num).filter fun x => !x.isNan)) := by
      intro l; exact apply_ite Val.flt _ _ _
    rw [hx, hx, scaled_num h]
    have ha : ((l.map Val.num).map (Flt.fin q).mul).all Flt.isNan = (l.map Val.num).all Flt.isNan := by
      simp only [List.all_map, Function.comp_def, scale_nan hq]
    have hf : ((l.map Val.num).map (Flt.fin q).mul).filter (fun x => !x.isNan) =
        ((l.map Val.num).filter fun x => !x.isNan).map (Flt.fin q).mul := by
      rw [List.filter_map]; simp only [Function.comp_def, scale_nan hq]
    rw [ha, hf, scale_sum hq]
    by_cases h1 : (l.map Val.num).all Flt.isNan
    · rw [if_pos h1, if_pos h1]; exact ⟨.nan, rfl, rfl⟩
    · rw [if_neg h1, if_neg h1]; exact ⟨_, rfl, rfl⟩
  · rintro d e rfl h
    exact (Except.ok.inj h).symm
  · rintro d v rfl h
    obtain rfl : _ = v := Except.ok.inj h
    exact ⟨⟨.nan, rfl, rfl⟩, rfl⟩

/-! ### Examples -/

/-- A program that sorts, fills, adds and sums. -/
def exUnits (uf : UFunc2) : List (Cmd Nat) :=
  [.sortaxis 0 none false, .morph 0 [20, 30] 0, .binop uf 1 2, .reduce exSum 3 (some 0), .merge 0 2 true]

def exPlus : UFunc2 := ⟨fun a b => .flt (a.num.add b.num), fun _ _ => .ok .float⟩

example : CmdsRel (Scaled 1000) OnlyFloat (exUnits exPlus) (exUnits exPlus) := by
  have hq : (0 : ℚ) < 1000 := by norm_num
  have hu : exPlus.Rel (Scaled 1000) OnlyFloat exPlus := C73_units_add hq (.inl ⟨fun _ _ => rfl, rfl⟩)
  exact .cons (.sortaxis ..) (.cons (.morph ..) (.cons (.binop _ _ hu) (.cons (.reduce _ _ (C73_units_sum hq))
    (.cons (.merge _ _ _ (C73_units_merge hq)) .nil))))

/-- Negation keeps the missing markers of float larrys; the moving program is fair and returns. -/
example : KeepsMissing (scaleVal (-1)) OnlyFloat := by
  refine ⟨?_, rfl, ?_⟩
  · rintro d m rfl h
    obtain rfl : _ = m := by simpa [missingMarker] using h
    rfl
  · rintro d rfl h; simp [missingMarker] at h

theorem fair_of_always {cs : List (Cmd L)} (h : ∀ c ∈ cs, ∀ st, c.Fair st) (st : Store L) : FairAll st cs := by
  induction cs generalizing st with
  | nil => trivial
  | cons c cs ih => exact ⟨h c (by simp) st, fun st' _ => ih (fun c hc => h c (by simp [hc])) st',
      fun _ _ => ih (fun c hc => h c (by simp [hc])) st⟩

/-- The hypotheses of `C73_units` hold of the program on `exA`, and every call returns. -/
example : Store.Valid [exA] ∧ (∀ y ∈ [exA], y.dtype = .float) ∧ FairAll [exA] (exUnits exPlus) ∧
    (runAll [exA] (exUnits exPlus)).length = 6 := by
  refine ⟨by simpa [Store.Valid] using exA_valid, by simp [exA], fair_of_always ?_ _, by decide +kernel⟩
  intro c hc st
  simp only [exUnits, List.mem_cons, List.not_mem_nil, or_false] at hc
  rcases hc with rfl | rfl | rfl | rfl | rfl <;> trivial

/-- The moving program of `C73_moves`. -/
def exMoves : List (Cmd Nat) := [.sortaxis 0 none false, .morph 0 [20, 30] 0, .lag 0 1 (some (-1))]

example : (∀ c ∈ exMoves, c.Moves) ∧ FairAll [exA] exMoves ∧ (runAll [exA] exMoves).length = 4 := by
  refine ⟨?_, fair_of_always ?_ _, by decide +kernel⟩
  · intro c hc
    simp only [exMoves, List.mem_cons, List.not_mem_nil, or_false] at hc
    rcases hc with rfl | rfl | rfl <;> trivial
  · intro c hc st
    simp only [exMoves, List.mem_cons, List.not_mem_nil, or_false] at hc
    rcases hc with rfl | rfl | rfl <;> trivial

end La
