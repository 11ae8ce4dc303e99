import Verif.LookbackLines
import Verif.Props.Param
import Verif.Props.MoveBn

/-!
# Property C106: no look-ahead

`later` says which labels are later ones, for example the dates after a day `t`.  Two runs of a program start from larrys that
agree wherever no later label is involved.
-/

namespace La
open Larry
variable {L : Type _} [LinearOrder L]

/-! ## Specification -/

/-- `l` are the labels on the axis an axis number means, counted from the front or from the back. -/
def Larry.AxisLabels (y : Larry L) (a : Int) (l : List L) : Prop :=
  ∃ k : Nat, y.label[k]? = some l ∧ (a = k ∨ a = (k : Int) - y.ndim)

/-- What holds of the labels on axis `a` of variable `i`. -/
def Store.OnAxis (st : Store L) (i : Nat) (a : Int) (P : List L → Prop) : Prop :=
  ∀ y l, st[i]? = some y → y.AxisLabels a l → P l

/-- Two calls, one in each run, that do the same and do not look ahead.  The methods that look along an axis do so in the
direction of time only: the time axis must be in order (`InTime`) for lag, cumsum, cumprod, push and the moving window
functions, against the order for the opposite ones, and must be another axis for ranking, demean, zscore, quantile, the group
methods and the reductions. -/
inductive Cmd.Looks (later : L → Prop) (st st' : Store L) : Cmd L → Cmd L → Prop
  | new {x x' d label} : x.shape = x'.shape →
      (∀ names v v', Early later names → Holds label x names v → Holds label x' names v' → v = v') →
      Cmd.Looks later st st' (.new x d label) (.new x' d label)
  | morph (i lab axis) : Cmd.Looks later st st' (.morph i lab axis) (.morph i lab axis)
  | morphLike (i j) : Cmd.Looks later st st' (.morphLike i j) (.morphLike i j)
  | binop (uf i j) : Cmd.Looks later st st' (.binop uf i j) (.binop uf i j)
  | binopArray {uf i x d} : (∀ y, st[i]? = some y → BFits y.shape x.shape) →
      Cmd.Looks later st st' (.binopArray uf i x d) (.binopArray uf i x d)
  | compare (uf i j) : Cmd.Looks later st st' (.compare uf i j) (.compare uf i j)
  | merge {i j} : (∀ y z, st[i]? = some y → st[j]? = some z → y.dtype = z.dtype ∧ y.dtype ≠ .int ∧ y.dtype ≠ .bool) →
      Cmd.Looks later st st' (.merge i j true) (.merge i j true)
  | align (i j join cast) : Cmd.Looks later st st' (.align i j join cast) (.align i j join cast)
  | alignAxis (is axis join) : Cmd.Looks later st st' (.alignAxis is axis join) (.alignAxis is axis join)
  | binaryop {cv uf i j join cast m1 m2} : join.NoSkip →
      Cmd.Looks later st st' (.binaryop cv uf i j join cast m1 m2) (.binaryop cv uf i j join cast m1 m2)
  | stack {mode kwargs} : (kwargs.map Prod.fst).Nodup → (∀ p ∈ kwargs, ∀ y, st[p.2]? = some y → y.dtype.IsNum) →
      Cmd.Looks later st st' (.stack mode kwargs) (.stack mode kwargs)
  | sortaxis (i axis reverse) : Cmd.Looks later st st' (.sortaxis i axis reverse) (.sortaxis i axis reverse)
  | keepLabel (i op axis) : Cmd.Looks later st st' (.keepLabel i op axis) (.keepLabel i op axis)
  | pull {i name axis} : ¬ later name → Cmd.Looks later st st' (.pull i name axis) (.pull i name axis)
  | take (i indices axis) : Cmd.Looks later st st' (.take i indices axis) (.take i indices axis)
  | flipaxis (i axis) : Cmd.Looks later st st' (.flipaxis i axis) (.flipaxis i axis)
  | lag {i nlag axis} : (∀ a, axis = some a → st.OnAxis i a fun l => (0 < nlag → InTime later l) ∧ (nlag < 0 → BackInTime later l)) →
      Cmd.Looks later st st' (.lag i nlag axis) (.lag i nlag axis)
  | transpose (i) : Cmd.Looks later st st' (.transpose i) (.transpose i)
  | swapaxes (i a b) : Cmd.Looks later st st' (.swapaxes i a b) (.swapaxes i a b)
  | squeeze {i} : (∀ y, st[i]? = some y → (∃ n ∈ y.shape, n ≠ 1) ∧ ∀ l ∈ y.label, l.length = 1 → Early later l) →
      Cmd.Looks later st st' (.squeeze i) (.squeeze i)
  | insertaxis (i axis name) : Cmd.Looks later st st' (.insertaxis i axis name) (.insertaxis i axis name)
  | maplabel {i f} {axis : Option Int} : (∀ y, st[i]? = some y → ∀ (k : Nat) l, y.label[k]? = some l →
        (∀ a, axis = some a → a = k ∨ a = (k : Int) - y.ndim) → (l.map f).Nodup ∧ ∀ b ∈ l, later b → later (f b)) →
      Cmd.Looks later st st' (.maplabel i f axis) (.maplabel i f axis)
  | getitem {i idx} : (∀ m, Item.lar m ∈ idx.items → m.Valid) → ¬ Scrambled idx.items →
      (∀ y, st[i]? = some y → ∀ parts, TakesParts y.label idx.items parts → ∀ n, Part.one n ∈ parts → ¬ later n) →
      Cmd.Looks later st st' (.getitem i idx) (.getitem i idx)
  | lixTuple {i its} : (∀ y, st[i]? = some y → ∀ pls, LTakes y.label its pls → ∀ n, [n] ∈ pls → ¬ later n) →
      Cmd.Looks later st st' (.lix i (.tuple its)) (.lix i (.tuple its))
  | lixOne {i it} : (∀ y, st[i]? = some y → ∀ l rest n, y.label = l :: rest → LPicks l it [n] → (∀ s, it ≠ .slice s) → ¬ later n) →
      Cmd.Looks later st st' (.lix i (.one it)) (.lix i (.one it))
  | reduce {r i axis} : (∀ a, axis = some a → (∀ y, st[i]? = some y → y.ndim = 1) ∨ st.OnAxis i a (Early later)) →
      Cmd.Looks later st st' (.reduce r i axis) (.reduce r i axis)
  | prod {i axis} : (∀ a, axis = some a → (∀ y, st[i]? = some y → y.ndim = 1) ∨ st.OnAxis i a (Early later)) →
      Cmd.Looks later st st' (.prod i axis) (.prod i axis)
  | cumsum {i axis} : (∀ a, axis = some a → st.OnAxis i a (InTime later)) → Cmd.Looks later st st' (.cumsum i axis) (.cumsum i axis)
  | cumprod {i axis} : (∀ a, axis = some a → st.OnAxis i a (InTime later)) → Cmd.Looks later st st' (.cumprod i axis) (.cumprod i axis)
  | clip (i lo hi) : Cmd.Looks later st st' (.clip i lo hi) (.clip i lo hi)
  | push {i window axis} : st.OnAxis i axis (InTime later) → Cmd.Looks later st st' (.push i window axis) (.push i window axis)
  | ranking {i a norm} : st.OnAxis i a (Timeless later) →
      Cmd.Looks later st st' (.ranking i (some a) norm) (.ranking i (some a) norm)
  | quantile {argsort i q a} : st.OnAxis i a (Timeless later) →
      Cmd.Looks later st st' (.quantile argsort i q (some a)) (.quantile argsort i q (some a))
  | quantileOne {argsort i q axis} : q ≤ 1 → Cmd.Looks later st st' (.quantile argsort i q axis) (.quantile argsort i q axis)
  | demean {center i a} : st.OnAxis i a (Timeless later) →
      Cmd.Looks later st st' (.demean center i (some a)) (.demean center i (some a))
  | zscore {std i a} : st.OnAxis i a (Timeless later) →
      Cmd.Looks later st st' (.zscore std i (some a)) (.zscore std i (some a))
  | movingsumForward {i window skip axis norm} : st.OnAxis i axis (BackInTime later) →
      Cmd.Looks later st st' (.movingsumForward i window skip axis norm) (.movingsumForward i window skip axis norm)
  | moveFunc {f i buf buf' strides strides' offset offset' window axis m} :
      (∀ y, st[i]? = some y → StoredAs y buf ⟨y.x.shape, strides, offset⟩) →
      (∀ y, st'[i]? = some y → StoredAs y buf' ⟨y.x.shape, strides', offset'⟩) →
      (∀ a, axis = some a → st.OnAxis i a (InTime later)) →
      Cmd.Looks later st st' (.moveFunc f i buf strides offset window axis m) (.moveFunc f i buf' strides' offset' window axis m)
  | moveBn {k i window axis} : st.OnAxis i axis (InTime later) →
      Cmd.Looks later st st' (.moveBn k i window axis) (.moveBn k i window axis)
  | group {sort f i j axis} : st.OnAxis i axis (Early later) → Cmd.Looks later st st' (.group sort f i j axis) (.group sort f i j axis)
  | ismissing (i) : Cmd.Looks later st st' (.ismissing i) (.ismissing i)
  | set (i names v) : Cmd.Looks later st st' (.set i names v) (.set i names v)
  | setAt (conv i idx v) : Cmd.Looks later st st' (.setAt conv i idx v) (.setAt conv i idx v)
  | setMask {i j v} : (∀ m, st[j]? = some m → m.dtype ≠ .int) → Cmd.Looks later st st' (.setMask i j v) (.setMask i j v)
  | lixSet (conv i idx v) : Cmd.Looks later st st' (.lixSet conv i idx v) (.lixSet conv i idx v)

/-- Two programs, call by call, the conditions being on the variables at that point. -/
def LooksAll (later : L → Prop) : Store L → Store L → List (Cmd L) → List (Cmd L) → Prop
  | _, _, [], [] => True
  | st, st', c :: cs, c' :: cs' => Cmd.Looks later st st' c c' ∧
      (∀ s s', c.step st = .ok s → c'.step st' = .ok s' → LooksAll later s s' cs cs') ∧
      (∀ e, c.step st = .error e → LooksAll later st st' cs cs')
  | _, _, _, _ => False

/-- Two stores, variable by variable. -/
abbrev Store.Until (later : L → Prop) : Store L → Store L → Prop := List.Forall₂ (Larry.Until later)

/-! ## Proofs -/

variable {later : L → Prop}

omit [LinearOrder L] in
theorem axis_of_pyIdx {y : Larry L} {a : Int} {ax : Nat} {l : List L} (ha : pyIdx y.ndim a = some ax) (hl : y.label[ax]? = some l) :
    y.AxisLabels a l := by
  refine ⟨ax, hl, ?_⟩
  rcases (pyIdx_some.mp ha).2 with h | h <;> omega

omit [LinearOrder L] in
theorem until_get? {st st' : Store L} (h : st.Until later st') (i : Nat) :
    (∃ y z, st[i]? = some y ∧ st'[i]? = some z ∧ y.Until later z) ∨ (st[i]? = none ∧ st'[i]? = none) := by
  induction h generalizing i with
  | nil => exact .inr ⟨rfl, rfl⟩
  | cons h1 _ ih =>
    cases i with
    | zero => exact .inl ⟨_, _, rfl, rfl, h1⟩
    | succ i => exact ih i

omit [LinearOrder L] in
theorem var_until {st st' : Store L} (h : st.Until later st') (i : Nat) : Res.Agree (Larry.Until later) (st.var i) (st'.var i) := by
  unfold Store.var
  rcases until_get? h i with ⟨y, z, h1, h2, h3⟩ | ⟨h1, h2⟩
  · rw [h1, h2]; exact h3
  · rw [h1, h2]; exact rfl

omit [LinearOrder L] in
theorem on_until {β γ : Type _} {S : β → γ → Prop} {st st' : Store L} (hv : st.Valid) (hv' : st'.Valid) (h : st.Until later st') (i : Nat)
    {f : Larry L → Res β} {f' : Larry L → Res γ}
    (hf : ∀ y z, st[i]? = some y → st'[i]? = some z → y.Valid → z.Valid → y.Until later z → Res.Agree S (f y) (f' z)) :
    Res.Agree S (st.on i f) (st'.on i f') := by
  unfold Store.on Store.var
  rcases until_get? h i with ⟨y, z, h1, h2, h3⟩ | ⟨h1, h2⟩
  · rw [h1, h2]; exact hf y z h1 h2 (hv y (List.mem_of_getElem? h1)) (hv' z (List.mem_of_getElem? h2)) h3
  · rw [h1, h2]; exact rfl

omit [LinearOrder L] in
theorem one_until {r r' : Res (Larry L)} (h : Res.Agree (Larry.Until later) r r') :
    Res.Agree (Store.Until later) (Res.one r) (Res.one r') := by
  rcases h.cases with ⟨a, b, rfl, rfl, h⟩ | ⟨e, rfl, rfl⟩
  · exact .cons h .nil
  · exact rfl

omit [LinearOrder L] in
theorem out_until {r r' : Res (Out L)} (h : Res.Agree (Out.Until later) r r') :
    Res.Agree (Store.Until later) (Res.out r) (Res.out r') := by
  rcases h.cases with ⟨a, b, rfl, rfl, h⟩ | ⟨e, rfl, rfl⟩
  · cases a <;> cases b <;> first
      | exact h.elim
      | exact .nil
      | exact .cons h .nil
  · exact rfl

omit [LinearOrder L] in
theorem getOut_until {r r' : Res (GetOut L)} (h : Res.Agree (GetOut.Until later) r r') :
    Res.Agree (Store.Until later) (Res.getOut r) (Res.getOut r') := by
  rcases h.cases with ⟨a, b, rfl, rfl, h⟩ | ⟨e, rfl, rfl⟩
  · cases a <;> cases b <;> first
      | exact h.elim
      | exact .nil
      | exact .cons h .nil
  · exact rfl

omit [LinearOrder L] in
theorem mapRes_var {st st' : Store L} (h : st.Until later st') (is : List Nat) :
    Res.Agree (List.Forall₂ (Larry.Until later)) (mapRes st.var is) (mapRes st'.var is) :=
  mapRes_agree (R := Eq) (fun a b hab => by subst hab; exact var_until h a) (List.forall₂_eq_eq_eq ▸ rfl : List.Forall₂ Eq is is)

omit [LinearOrder L] in
theorem zip_fst : ∀ (ks : List L) (ys : List (Larry L)), ((ks.zip ys).map Prod.fst).Sublist ks
  | [], _ => by simp
  | _ :: _, [] => by simp
  | k :: ks, y :: ys => by simpa using zip_fst ks ys

omit [LinearOrder L] in
theorem zip_until {ys zs : List (Larry L)} (h : List.Forall₂ (Larry.Until later) ys zs) (hy : ∀ y ∈ ys, y.Valid) (hz : ∀ z ∈ zs, z.Valid)
    (ks : List L) : List.Forall₂ (fun p q => p.1 = q.1 ∧ p.2.Valid ∧ q.2.Valid ∧ p.2.Until later q.2) (ks.zip ys) (ks.zip zs) := by
  induction h generalizing ks with
  | nil => simp
  | cons h1 _ ih =>
    cases ks with
    | nil => simp
    | cons k ks =>
      exact .cons ⟨rfl, hy _ List.mem_cons_self, hz _ List.mem_cons_self, h1⟩
        (ih (fun y hm => hy y (List.mem_cons_of_mem _ hm)) (fun z hm => hz z (List.mem_cons_of_mem _ hm)) ks)

omit [LinearOrder L] in
theorem var_of {st : Store L} {is : List Nat} {ys : List (Larry L)} (h : mapRes st.var is = .ok ys) {y : Larry L} (hy : y ∈ ys) :
    ∃ i ∈ is, st[i]? = some y := by
  induction is generalizing ys with
  | nil => simp only [mapRes, Except.ok.injEq] at h; subst h; simp at hy
  | cons i is ih =>
    unfold mapRes at h
    split at h
    · simp at h
    · rename_i b hb
      split at h
      · simp at h
      · rename_i bs hbs
        obtain rfl : _ = ys := by simpa using h
        rcases List.mem_cons.mp hy with rfl | hy
        · refine ⟨i, List.mem_cons_self, ?_⟩
          unfold Store.var at hb
          split at hb
          · rename_i hh; rw [hh]; simpa using hb
          · simp at hb
        · obtain ⟨j, hj, e⟩ := ih hbs hy
          exact ⟨j, List.mem_cons_of_mem _ hj, e⟩

theorem results_until {st st' : Store L} (hv : st.Valid) (hv' : st'.Valid) (h : st.Until later st') {c c' : Cmd L}
    (hc : Cmd.Looks later st st' c c') : Res.Agree (Store.Until later) (c.results st) (c'.results st') := by
  cases hc with
  | @new x x' d label hs hx =>
    refine one_until (until_of (mk'_rel (array_no hs) trivial label) fun z z' h1 h2 names v v' he hv hv' => ?_)
    have e : ∀ {x : NDArray Val} {z : Larry L}, mk' x d label = .ok z → z = ⟨x, d, label⟩ := by
      intro x z hz
      unfold mk' at hz
      split_ifs at hz
      cases hz; rfl
    obtain rfl := e h1
    obtain rfl := e h2
    exact hx names v v' he hv hv'
  | morph i lab axis =>
    exact on_until hv hv' h i fun y z _ _ hy hz hyz => one_until (morph_until hy hz hyz lab axis)
  | morphLike i j =>
    exact on_until hv hv' h i fun y z _ _ hy hz hyz => on_until hv hv' h j fun y2 z2 _ _ hy2 hz2 h2 =>
      one_until (morphLike_until hy hz hyz (h2.rel hy2 hz2))
  | binop uf i j =>
    exact on_until hv hv' h i fun y z _ _ hy hz hyz => on_until hv hv' h j fun y2 z2 _ _ hy2 hz2 h2 =>
      one_until (binop_until uf hy hz hyz hy2 hz2 h2)
  | binopArray hf =>
    exact on_until hv hv' h _ fun y z e _ hy hz hyz => one_until (binopArray_until _ hy hz hyz (hf y e) _)
  | compare uf i j =>
    exact on_until hv hv' h i fun y z _ _ hy hz hyz => on_until hv hv' h j fun y2 z2 _ _ hy2 hz2 h2 =>
      one_until (compare_until uf hy hz hyz hy2 hz2 h2)
  | merge hd =>
    exact on_until hv hv' h _ fun y z e _ hy hz hyz => on_until hv hv' h _ fun y2 z2 e2 _ hy2 hz2 h2 =>
      one_until (merge_until hy hz hyz hy2 hz2 h2 (hd y y2 e e2).1 (hd y y2 e e2).2.1 (hd y y2 e e2).2.2)
  | align i j join cast =>
    exact on_until hv hv' h _ fun y z e _ hy hz hyz => on_until hv hv' h _ fun y2 z2 e2 _ hy2 hz2 h2 => by
      rcases (align_until hy hz hyz hy2 hz2 h2 join cast).cases with ⟨⟨a, a'⟩, ⟨b, b'⟩, e1, e2, k1, k2⟩ | ⟨e, e1, e2⟩
      · rw [e1, e2]; exact .cons k1 (.cons k2 .nil)
      · rw [e1, e2]; exact rfl
  | alignAxis is axis join =>
    simp only [Cmd.results]
    rcases (mapRes_var h is).cases with ⟨ys, zs, h1, h2, h3⟩ | ⟨e, h1, h2⟩
    · rw [h1, h2]; exact alignAxisN_until h3 (vars_valid hv h1) (vars_valid hv' h2) axis join
    · rw [h1, h2]; exact rfl
  | binaryop hs =>
    exact on_until hv hv' h _ fun y z e _ hy hz hyz => on_until hv hv' h _ fun y2 z2 e2 _ hy2 hz2 h2 => by
      rcases (binaryop_until _ _ hy hz hyz hy2 hz2 h2 hs _ _ _).cases with ⟨⟨a, d, la⟩, ⟨b, d', lb⟩, e1, e2, k1⟩ | ⟨e, e1, e2⟩
      · rw [e1, e2]; exact .cons k1 .nil
      · rw [e1, e2]; exact rfl
  | @stack mode kwargs hk hnum =>
    simp only [Cmd.results]
    rcases (mapRes_var h (kwargs.map Prod.snd)).cases with ⟨ys, zs, h1, h2, h3⟩ | ⟨e, h1, h2⟩
    · rw [h1, h2]
      exact one_until (stack_until mode (hk.sublist (zip_fst _ _)) (zip_until h3 (vars_valid hv h1) (vars_valid hv' h2) _) fun p hp => by
        obtain ⟨i, hi, e⟩ := var_of h1 (List.of_mem_zip (a := p.1) (b := p.2) hp).2
        obtain ⟨q, hq, rfl⟩ := List.mem_map.mp hi
        exact hnum q hq _ e)
    · rw [h1, h2]; exact rfl
  | sortaxis i axis reverse =>
    exact on_until hv hv' h i fun y z _ _ hy hz hyz => one_until (sortaxis_until hy hz hyz axis reverse)
  | keepLabel i op axis =>
    exact on_until hv hv' h i fun y z _ _ hy hz hyz => one_until (keepLabel_until hy hz hyz op axis)
  | pull hn =>
    exact on_until hv hv' h _ fun y z _ _ hy hz hyz => out_until (pull_until hy hz hyz hn _)
  | take i indices axis =>
    exact on_until hv hv' h i fun y z _ _ hy hz hyz => one_until (take_until hy hz hyz indices axis)
  | flipaxis i axis =>
    exact on_until hv hv' h i fun y z _ _ hy hz hyz => one_until (flipaxis_until hy hz hyz axis)
  | lag ho =>
    exact on_until hv hv' h _ fun y z e _ hy hz hyz => one_until (lag_until hy hz hyz _ _ fun a ax l h1 h2 h3 =>
      ho a h1 y l e (axis_of_pyIdx h2 h3))
  | transpose i =>
    exact on_until hv hv' h i fun y z _ _ hy hz hyz => List.Forall₂.cons (T_until hy hz hyz) .nil
  | swapaxes i a b =>
    exact on_until hv hv' h i fun y z _ _ hy hz hyz => one_until (swapaxes_until hy hz hyz a b)
  | squeeze hu =>
    exact on_until hv hv' h _ fun y z e _ hy hz hyz => List.Forall₂.cons (squeeze_until hy hz hyz (hu y e).2 (by
      refine (C32_squeeze hz).2.2.2.2.mpr ?_
      have : z.shape = y.shape := (hyz.shape hy hz).symm
      rw [this]; exact (hu y e).1)) .nil
  | insertaxis i axis name =>
    exact on_until hv hv' h i fun y z _ _ hy hz hyz => one_until (insertaxis_until hy hz hyz axis name)
  | maplabel hf =>
    exact on_until hv hv' h _ fun y z e _ hy hz hyz => one_until (maplabel_until hy hz hyz _ _
      (fun k l hl ha => (hf y e k l hl ha).2) fun w hw => maplabel_valid hz (fun h0 l hl => by
        subst h0
        obtain ⟨k, hk⟩ := List.getElem?_of_mem hl
        exact (hf y e k l (hyz.label ▸ hk) (by simp)).1) (fun a h0 k l hk ha => by
        subst h0
        exact (hf y e k l (hyz.label ▸ hk) fun b hb => by
          obtain rfl : a = b := by simpa using hb
          rw [hyz.ndim hy hz]; exact ha).1) hw)
  | getitem hm hs hp =>
    exact on_until hv hv' h _ fun y z e _ hy hz hyz => getOut_until (getitem_until hy hz hyz hm hs (hp y e))
  | lixTuple hp =>
    exact on_until hv hv' h _ fun y z e _ hy hz hyz => getOut_until (lixGet_until hy hz hyz
      (fun its pls h0 => by cases h0; exact hp y e pls) (by simp))
  | lixOne hp =>
    exact on_until hv hv' h _ fun y z e _ hy hz hyz => getOut_until (lixGet_until hy hz hyz (by simp)
      (fun it l rest n h0 => by cases h0; exact hp y e l rest n))
  | reduce ho =>
    exact on_until hv hv' h _ fun y z e _ hy hz hyz => out_until (reduce_until hy hz hyz _ fun a ax l h1 h0 h2 h3 => by
      rcases ho a h1 with hn | hn
      · exact absurd (hn y e) h0
      · exact hn y l e (axis_of_pyIdx h2 h3))
  | prod ho =>
    exact on_until hv hv' h _ fun y z e _ hy hz hyz => out_until (prod_until hy hz hyz fun a ax l h1 h0 h2 h3 => by
      rcases ho a h1 with hn | hn
      · exact absurd (hn y e) h0
      · exact hn y l e (axis_of_pyIdx h2 h3))
  | cumsum ho =>
    exact on_until hv hv' h _ fun y z e _ hy hz hyz => one_until (cumulate_until hy hz hyz
      (fun a ax l h1 h2 h3 => ho a h1 y l e (axis_of_pyIdx h2 h3)) _ _)
  | cumprod ho =>
    exact on_until hv hv' h _ fun y z e _ hy hz hyz => one_until (cumulate_until hy hz hyz
      (fun a ax l h1 h2 h3 => ho a h1 y l e (axis_of_pyIdx h2 h3)) _ _)
  | clip i lo hi =>
    exact on_until hv hv' h i fun y z _ _ hy _ hyz => one_until (clip_until hy hyz lo hi)
  | push ho =>
    exact on_until hv hv' h _ fun y z e _ hy hz hyz => one_until (push_until hy hz hyz
      (fun ax l h2 h3 => ho y l e (axis_of_pyIdx h2 h3)) _)
  | ranking ho =>
    exact on_until hv hv' h _ fun y z e _ hy hz hyz => one_until (ranking_until hy hz hyz
      (fun ax l h2 h3 => ho y l e (axis_of_pyIdx h2 h3)) _)
  | quantile ho =>
    exact on_until hv hv' h _ fun y z e _ hy hz hyz => one_until (quantile_until hy hz hyz
      (.inr ⟨_, rfl, fun ax l h2 h3 => ho y l e (axis_of_pyIdx h2 h3)⟩))
  | quantileOne hq =>
    exact on_until hv hv' h _ fun y z e _ hy hz hyz => one_until (quantile_until hy hz hyz (.inl hq))
  | demean ho =>
    exact on_until hv hv' h _ fun y z e _ hy hz hyz => one_until (demean_until hy hz hyz
      (fun ax l h2 h3 => ho y l e (axis_of_pyIdx h2 h3)) _)
  | zscore ho =>
    exact on_until hv hv' h _ fun y z e _ hy hz hyz => one_until (zscore_until hy hz hyz
      (fun ax l h2 h3 => ho y l e (axis_of_pyIdx h2 h3)) _)
  | movingsumForward ho =>
    exact on_until hv hv' h _ fun y z e _ hy hz hyz => one_until (movingsumForward_until hy hz hyz
      (fun ax l h2 h3 => ho y l e (axis_of_pyIdx h2 h3)) _ _ _)
  | moveFunc hs hs' ho =>
    exact on_until hv hv' h _ fun y z e e' hy hz hyz => one_until (moveFunc_until hy hz hyz (hs y e) (hs' z e')
      (fun a ax l h1 h2 h3 => ho a h1 y l e (axis_of_pyIdx h2 h3)) _ _)
  | moveBn ho =>
    exact on_until hv hv' h _ fun y z e _ hy hz hyz => one_until (moveKind_until _ hy hz hyz
      fun ax l h2 h3 => ho y l e (axis_of_pyIdx h2 h3))
  | group ho =>
    exact on_until hv hv' h _ fun y z e _ hy hz hyz => on_until hv hv' h _ fun y2 z2 e2 _ hy2 hz2 h2 =>
      one_until (group_until _ _ hy hz hyz hy2 hz2 h2 fun ax l h2 h3 => ho y l e (axis_of_pyIdx h2 h3))
  | ismissing i =>
    exact on_until hv hv' h i fun y z _ _ hy hz hyz => List.Forall₂.cons (ismissing_until hy hyz) .nil
  | set i names v =>
    exact on_until hv hv' h i fun y z _ _ hy hz hyz => one_until (set_until hy hz hyz names v)
  | setAt conv i idx v =>
    exact on_until hv hv' h i fun y z _ _ hy hz hyz => one_until (setAt_until conv hy hz hyz idx v)
  | setMask hd =>
    exact on_until hv hv' h _ fun y z _ _ hy hz hyz => on_until hv hv' h _ fun y2 z2 e2 _ hy2 hz2 h2 =>
      one_until (setMask_until hy hyz h2 (hd y2 e2) _)
  | lixSet conv i idx v =>
    exact on_until hv hv' h i fun y z _ _ hy hz hyz => one_until (lixSet_until conv hy hz hyz idx v)

omit [LinearOrder L] in
theorem set_store_until {st st' : Store L} (h : st.Until later st') (i : Nat) {y z : Larry L} (hyz : y.Until later z) :
    Store.Until later (st.set i y) (st'.set i z) := by
  induction h generalizing i with
  | nil => exact .nil
  | cons h1 h2 ih =>
    cases i with
    | zero => exact .cons hyz h2
    | succ i => exact .cons h1 (ih i)

omit [LinearOrder L] in
theorem foldl_until {st st' zs zs' : Store L} (h : st.Until later st') (i : Nat) (hz : Store.Until later zs zs') :
    Store.Until later (zs.foldl (fun st z => st.set i z) st) (zs'.foldl (fun st z => st.set i z) st') := by
  induction hz generalizing st st' with
  | nil => exact h
  | cons h1 _ ih => exact ih (set_store_until h i h1)

omit [LinearOrder L] in
theorem target_until {st st' : Store L} {c c' : Cmd L} (hc : Cmd.Looks later st st' c c') : c.target = c'.target := by cases hc <;> rfl

omit [LinearOrder L] in
theorem fair_until {st st' : Store L} (hv : st.Valid) (hv' : st'.Valid) (h : st.Until later st') {c c' : Cmd L}
    (hc : Cmd.Looks later st st' c c') : c.Fair st ∧ c'.Fair st' := by
  have back : ∀ {i : Nat} {z : Larry L}, st'[i]? = some z → ∃ y, st[i]? = some y ∧ y.label = z.label ∧ y.shape = z.shape ∧ y.ndim = z.ndim := by
    intro i z hz
    rcases until_get? h i with ⟨y, z', h1, h2, h3⟩ | ⟨h1, h2⟩
    · obtain rfl : z = z' := by rw [hz] at h2; simpa using h2
      have vy := hv y (List.mem_of_getElem? h1)
      have vz := hv' z (List.mem_of_getElem? h2)
      exact ⟨y, h1, h3.label, h3.shape vy vz, h3.ndim vy vz⟩
    · rw [hz] at h2; simp at h2
  cases hc with
  | binopArray hf =>
    refine ⟨hf, fun z hz => ?_⟩
    obtain ⟨y, h1, _, h3, _⟩ := back hz
    rw [← h3]; exact hf y h1
  | binaryop hs => exact ⟨hs, hs⟩
  | squeeze hu =>
    refine ⟨fun y hy => (hu y hy).1, fun z hz => ?_⟩
    obtain ⟨y, h1, _, h3, _⟩ := back hz
    rw [← h3]; exact (hu y h1).1
  | @maplabel i f axis hf =>
    cases axis with
    | none =>
      refine ⟨fun y hy l hl => ?_, fun z hz l hl => ?_⟩
      · obtain ⟨k, hk⟩ := List.getElem?_of_mem hl
        exact (hf y hy k l hk (by simp)).1
      · obtain ⟨y, h1, h2, _, _⟩ := back hz
        obtain ⟨k, hk⟩ := List.getElem?_of_mem hl
        exact (hf y h1 k l (h2 ▸ hk) (by simp)).1
    | some a =>
      refine ⟨fun y hy k l hk ha => ?_, fun z hz k l hk ha => ?_⟩
      · exact (hf y hy k l hk fun b hb => by cases hb; exact ha).1
      · obtain ⟨y, h1, h2, _, h4⟩ := back hz
        exact (hf y h1 k l (h2 ▸ hk) fun b hb => by cases hb; rw [h4]; exact ha).1
  | _ => exact ⟨trivial, trivial⟩

/-- C106. One call in each run raises the same exception or gives larrys that agree wherever no later label is involved. -/
theorem C106_step {st st' : Store L} (hv : st.Valid) (hv' : st'.Valid) (h : st.Until later st') {c c' : Cmd L}
    (hc : Cmd.Looks later st st' c c') : Res.Agree (Store.Until later) (c.step st) (c'.step st') := by
  unfold Cmd.step
  rw [← target_until hc]
  rcases (results_until hv hv' h hc).cases with ⟨zs, zs', h1, h2, h3⟩ | ⟨e, h1, h2⟩
  · rw [h1, h2]
    simp only
    cases c.target with
    | none => exact List.rel_append h h3
    | some i => exact foldl_until h i h3
  · rw [h1, h2]; exact rfl

/-- C106. What stands under later labels has no influence on what a program computes under earlier ones. -/
theorem C106_program {st st' : Store L} (hv : st.Valid) (hv' : st'.Valid) (h : st.Until later st') {cs cs' : List (Cmd L)}
    (hc : LooksAll later st st' cs cs') : Store.Until later (runAll st cs) (runAll st' cs') := by
  induction cs generalizing st st' cs' with
  | nil => cases cs' with
    | nil => exact h
    | cons => exact hc.elim
  | cons c cs ih => cases cs' with
    | nil => exact hc.elim
    | cons c' cs' =>
      obtain ⟨f1, f2, f3⟩ := hc
      obtain ⟨g1, g2⟩ := fair_until hv hv' h f1
      unfold runAll
      rcases (C106_step hv hv' h f1).cases with ⟨zs, zs', k1, k2, k3⟩ | ⟨e, k1, k2⟩
      · rw [k1, k2]; exact ih (C64_step hv g1 k1) (C64_step hv' g2 k2) k3 (f2 _ _ k1 k2)
      · rw [k1, k2]; exact ih hv hv' h (f3 e k1)

/-! ## The methods that look ahead

The conditions above are needed: two series that differ on the last day only, and methods whose results differ on earlier
days. -/

/-- Day 3 is the later one. -/
def exLate (n : Nat) : Prop := n = 3

/-- Three days of one series. -/
def exThree (last : ℚ) : Larry Nat := ⟨NDArray.ofList [3] [fl 1, fl 2, fl last], .float, [[1, 2, 3]]⟩

theorem exThree_valid (q : ℚ) : (exThree q).Valid := ⟨rfl, by simp [exThree], by simp [exThree]⟩

theorem exThree_until (q r : ℚ) : (exThree q).Until exLate (exThree r) := by
  refine until_of_get (exThree_valid q).nodup rfl rfl fun idx names hat he => ?_
  have hb := At_inB hat
  match idx, names, hat, he, hb with
  | [0], [n], _, _, _ => rfl
  | [1], [n], _, _, _ => rfl
  | [2], [n], hat, he, _ =>
    have : (3 : Nat) = n := by simpa [At, exThree] using hat
    exact absurd this.symm (he n (by simp))
  | [k + 3], [n], _, _, hb => simp [exThree, InB] at hb

omit [LinearOrder L] in
/-- The two results differ in a cell without later labels. -/
theorem not_until {r r' : Res (Larry L)} {z z' : Larry L} (h1 : r = .ok z) (h2 : r' = .ok z') (label : List (List L))
    (hl : z.label = label) (hl' : z'.label = label) {idx : List Nat} {names : List L} (ha : At label idx names) (he : Early later names) (hne : z.x.get idx ≠ z'.x.get idx) :
    ¬ Res.Agree (Larry.Until later) r r' := by
  rw [h1, h2]
  intro h
  exact hne (Larry.Until.cells h names _ _ he ⟨idx, hl ▸ ha, rfl⟩ ⟨idx, hl' ▸ ha, rfl⟩)

theorem early_one : Early exLate [1] := by simp [Early, exLate]

/-- C106. A negative lag looks ahead. -/
theorem C106_lag_ahead : ¬ Res.Agree (Larry.Until exLate) ((exThree 4).lag (-2) (some 0)) ((exThree 5).lag (-2) (some 0)) :=
  not_until rfl rfl [[1]] rfl rfl (idx := [0]) (names := [1]) ⟨rfl, trivial⟩ early_one (by decide +kernel)

/-- C106. `movingsum_forward` looks ahead. -/
theorem C106_movingsum_forward_ahead : ¬ Res.Agree (Larry.Until exLate)
    ((exThree 4).movingsumForward 1 2 0 false) ((exThree 5).movingsumForward 1 2 0 false) :=
  not_until rfl rfl [[1, 2, 3]] rfl rfl (idx := [0]) (names := [1]) ⟨rfl, trivial⟩ early_one (by decide +kernel)

/-- C106. Ranking along time looks ahead. -/
theorem C106_ranking_ahead : ¬ Res.Agree (Larry.Until exLate) ((exThree 4).ranking (some 0) .pm1) ((exThree 0).ranking (some 0) .pm1) :=
  not_until rfl rfl [[1, 2, 3]] rfl rfl (idx := [0]) (names := [1]) ⟨rfl, trivial⟩ early_one (by decide +kernel)

/-- C106. Subtracting the mean over time looks ahead. -/
theorem C106_demean_ahead : ¬ Res.Agree (Larry.Until exLate) ((exThree 4).demean nanmean (some 0)) ((exThree 5).demean nanmean (some 0)) :=
  not_until rfl rfl [[1, 2, 3]] rfl rfl (idx := [0]) (names := [1]) ⟨rfl, trivial⟩ early_one (by decide +kernel)

/-- C106. Along an axis that runs against time, cumsum looks ahead. -/
theorem C106_cumsum_ahead : ¬ Res.Agree (Larry.Until exLate)
    ((⟨NDArray.ofList [2] [fl 4, fl 1], .float, [[3, 1]]⟩ : Larry Nat).cumsum (some 0))
    ((⟨NDArray.ofList [2] [fl 5, fl 1], .float, [[3, 1]]⟩ : Larry Nat).cumsum (some 0)) :=
  not_until rfl rfl [[3, 1]] rfl rfl (idx := [1]) (names := [1]) ⟨rfl, trivial⟩ early_one (by decide +kernel)

/-- C106. A value on a later day decides which other labels `cut_missing` and `vacuum` keep. -/
theorem C106_vacuum_ahead :
    let y : Flt → Larry Nat := fun f => ⟨NDArray.ofList [2, 2] [fl 1, .flt .nan, fl 2, .flt f], .float, [[1, 3], [100, 200]]⟩
    (y (.fin 0)).Until exLate (y .nan) ∧ ¬ Res.Agree (Larry.Until exLate) ((y (.fin 0)).vacuum none) ((y .nan).vacuum none) := by
  intro y
  refine ⟨until_of_get (by simp [y]) rfl rfl fun idx names hat he => ?_, fun h => ?_⟩
  · have hb := At_inB hat
    match idx, names, hat, he, hb with
    | [0, 0], _, _, _, _ => rfl
    | [0, 1], _, _, _, _ => rfl
    | [1, _], [n, _], hat, he, _ =>
      have : (3 : Nat) = n := by simpa using hat.1
      exact absurd this.symm (he n (by simp))
    | [0, k + 2], _, _, _, hb => simp [y, InB] at hb
    | [k + 2, _], _, _, _, hb => simp [y, InB] at hb
  · have e1 : ((y (.fin 0)).vacuum none).toOption.map Larry.label = some [[1, 3], [100, 200]] := by decide +kernel
    have e2 : ((y .nan).vacuum none).toOption.map Larry.label = some [[1, 3], [100]] := by decide +kernel
    rcases h.cases with ⟨z, z', h1, h2, h3⟩ | ⟨e, h1, h2⟩
    · rw [h1] at e1
      rw [h2] at e2
      have e1' : z.label = _ := Option.some.inj e1
      have e2' : z'.label = _ := Option.some.inj e2
      have := h3.label
      rw [e1', e2'] at this
      exact absurd this (by decide)
    · rw [h1] at e1; exact absurd e1 (by simp [Except.toOption])

/-! ## Examples -/

/-- Three days of two series. -/
def exPanel (a b : ℚ) : Larry Nat :=
  ⟨NDArray.ofList [3, 2] [fl 1, fl 2, fl 3, fl 4, fl a, fl b], .float, [[1, 2, 3], [100, 200]]⟩

/-- Lag the series, add up, subtract, rank the series on each day. -/
def exBacktest : List (Cmd Nat) :=
  [.lag 0 1 (some 0), .cumsum 0 (some 0), .binop exPlus 1 2, .ranking 0 (some 1) .pm1, .push 0 1 (-2), .setMask 0 0 (fl 0)]

theorem exPanel_valid (a b : ℚ) : (exPanel a b).Valid := ⟨rfl, by simp [exPanel], by simp [exPanel]⟩

theorem exPanel_until (a b c d : ℚ) : (exPanel a b).Until exLate (exPanel c d) := by
  refine until_of_get (exPanel_valid a b).nodup rfl rfl fun idx names hat he => ?_
  have hb := At_inB hat
  match idx, names, hat, he, hb with
  | [0, 0], _, _, _, _ => rfl
  | [0, 1], _, _, _, _ => rfl
  | [1, 0], _, _, _, _ => rfl
  | [1, 1], _, _, _, _ => rfl
  | [2, _], [n, _], hat, he, _ =>
    have : (3 : Nat) = n := by simpa [exPanel] using hat.1
    exact absurd this.symm (he n (by simp))
  | [0, k + 2], _, _, _, hb => simp [exPanel, InB] at hb
  | [1, k + 2], _, _, _, hb => simp [exPanel, InB] at hb
  | [k + 3, _], _, _, _, hb => simp [exPanel, InB] at hb

/-- What stays true while variables are only added. -/
theorem onAxis_first {st : Store Nat} {a b : ℚ} (h : st[0]? = some (exPanel a b)) (k : Int) {P : List Nat → Prop}
    (h0 : (k = 0 ∨ k = -2) → P [1, 2, 3]) (h1 : (k = 1 ∨ k = -1) → P [100, 200]) : st.OnAxis 0 k P := by
  rintro y l hy ⟨j, hj, hk⟩
  obtain rfl : exPanel a b = y := by rw [h] at hy; simpa using hy
  have hn : (exPanel a b).ndim = 2 := rfl
  rw [hn] at hk
  match j, hj with
  | 0, hj => obtain rfl : [1, 2, 3] = l := by simpa [exPanel] using hj
             exact h0 (by omega)
  | 1, hj => obtain rfl : [100, 200] = l := by simpa [exPanel] using hj
             exact h1 (by omega)

/-- Calls that do not change variable 0 leave it the panel. -/
theorem first_step {st st' : Store L} {y : Larry L} (h : st[0]? = some y) {c : Cmd L} (ht : c.target = none) (hs : c.step st = .ok st') :
    st'[0]? = some y := by
  unfold Cmd.step at hs
  rw [ht] at hs
  split at hs
  · simp at hs
  · obtain rfl : _ = st' := by simpa using hs
    rw [List.getElem?_append_left (List.getElem?_eq_some_iff.mp h).1, h]

/-- The program meets the conditions from two panels that differ on the last day, and every call returns. -/
example : LooksAll exLate [exPanel 5 6] [exPanel 7 1] exBacktest exBacktest ∧ (runAll [exPanel 5 6] exBacktest).length = 6 ∧
    (runAll [exPanel 5 6] exBacktest).map Larry.label = [[[1, 2, 3], [100, 200]], [[2, 3], [100, 200]], [[1, 2, 3], [100, 200]],
      [[2, 3], [100, 200]], [[1, 2, 3], [100, 200]], [[1, 2, 3], [100, 200]]] := by
  have step : ∀ {st st' : Store Nat} {c : Cmd Nat} {cs : List (Cmd Nat)}, c.target = none → st[0]? = some (exPanel 5 6) →
      (∀ st st' : Store Nat, st[0]? = some (exPanel 5 6) → Cmd.Looks exLate st st' c c) →
      (∀ st st' : Store Nat, st[0]? = some (exPanel 5 6) → LooksAll exLate st st' cs cs) → LooksAll exLate st st' (c :: cs) (c :: cs) :=
    fun ht h0 h1 h2 => ⟨h1 _ _ h0, fun s s' k _ => h2 _ _ (first_step h0 ht k), fun _ _ => h2 _ _ h0⟩
  have late : InTime exLate [1, 2, 3] := by simp [InTime, exLate]
  have all : ∀ st st' : Store Nat, st[0]? = some (exPanel 5 6) → LooksAll exLate st st' exBacktest exBacktest := by
    intro st st' h
    refine step rfl h (fun st st' h => .lag fun a ha => ?_) fun st st' h => ?_
    · cases ha
      exact onAxis_first h 0 (fun _ => ⟨fun _ => late, by simp⟩) (by simp)
    refine step rfl h (fun st st' h => .cumsum fun a ha => ?_) fun st st' h => ?_
    · cases ha
      exact onAxis_first h 0 (fun _ => late) (by simp)
    refine step rfl h (fun st st' h => .binop ..) fun st st' h => ?_
    refine step rfl h (fun st st' h => .ranking (onAxis_first h 1 (by simp) fun _ => .inr (by simp [Early, exLate]))) fun st st' h => ?_
    refine step rfl h (fun st st' h => .push (onAxis_first h (-2) (fun _ => late) (by simp))) fun st st' h => ?_
    exact ⟨.setMask fun m hm => by
      obtain rfl : exPanel 5 6 = m := by rw [h] at hm; simpa using hm
      simp [exPanel], fun _ _ _ _ => trivial, fun _ _ => trivial⟩
  exact ⟨all _ _ rfl, by decide +kernel, by decide +kernel⟩

end La
