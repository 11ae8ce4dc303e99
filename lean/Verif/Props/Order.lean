import Verif.Group
import Verif.HeapWrite
import Verif.Reorder
import Verif.ParamMethods
import Verif.Props.Index
import Verif.Props.Missing
import Verif.Props.Normalize

/-!
# Property C82: rankings depend on the order of the values only
-/

namespace La
open Larry
variable {L : Type _}

/-! ## Specification -/

/-- The number `f` makes of a number; NaN and the infinities stay. -/
def Flt.through (f : ℚ → ℚ) : Flt → Flt
  | .fin q => .fin (f q)
  | x => x

/-- Two float larrys with the same labels; under each names the second has `f` of the number the first has. -/
structure Larry.Rescaled (f : Flt → Flt) (y y' : Larry L) : Prop where
  label : y'.label = y.label
  float : y.dtype = .float
  float' : y'.dtype = .float
  has : ∀ names v v', y.Has names v → y'.Has names v' → v'.num = f v.num

/-- Equal results: equal scalars, or larrys with the same labels, dtype and elements. -/
def Out.Same : Out L → Out L → Prop
  | .scalar v, .scalar v' => v = v'
  | .larry y, .larry y' => y.Same y'
  | _, _ => False

/-- A scalar and a scalar, or a larry and a larry, related by `f`. -/
def Out.Rescaled (f : Flt → Flt) : Out L → Out L → Prop
  | .scalar v, .scalar v' => v'.num = f v.num
  | .larry y, .larry y' => y.Rescaled f y'
  | _, _ => False

/-- A sorting function that looks at its argument only by comparing. -/
def ComparesOnly (argsort : List ℚ → List Nat) : Prop :=
  ∀ f : ℚ → ℚ, StrictMono f → ∀ l, argsort (l.map f) = argsort l

/-! ## Numbers -/

theorem lt_through {f : ℚ → ℚ} (hf : StrictMono f) (a b : Flt) : (a.through f).lt (b.through f) = a.lt b := by
  cases a <;> cases b <;> simp [Flt.through, Flt.lt, hf.lt_iff_lt]

theorem eq_through {f : ℚ → ℚ} (hf : StrictMono f) (a b : Flt) : (a.through f).eq (b.through f) = a.eq b := by
  cases a <;> cases b <;> simp [Flt.through, Flt.eq, hf.injective.eq_iff]

theorem isNan_through (f : ℚ → ℚ) (a : Flt) : (a.through f).isNan = a.isNan := by cases a <;> rfl
theorem isFinite_through (f : ℚ → ℚ) (a : Flt) : (a.through f).isFinite = a.isFinite := by cases a <;> rfl

theorem filter_through {f : ℚ → ℚ} {p q : Flt → Bool} (h : ∀ a, p (a.through f) = q a) (xs : List Flt) :
    ((xs.map (Flt.through f)).filter p).length = (xs.filter q).length := by
  rw [List.filter_map, List.length_map]
  congr 2
  funext a
  exact h a

/-! ## Lines -/

theorem rankingLine_through {f : ℚ → ℚ} (hf : StrictMono f) (norm : RankNorm) {vs vs' : List Val}
    (h : vs'.map Val.num = (vs.map Val.num).map (Flt.through f)) : rankingLine norm vs' = rankingLine norm vs := by
  unfold rankingLine
  simp only [h, List.length_map]
  rw [filter_through (q := fun x => !x.isNan) (fun a => by rw [isNan_through])]
  rw [List.map_map]
  apply List.map_congr_left
  intro x _
  have hr : nanrank (((vs.map Val.num)).map (Flt.through f)) (x.through f) = nanrank (vs.map Val.num) x := by
    unfold nanrank
    rw [isNan_through, filter_through (q := fun y => y.lt x) (fun a => lt_through hf a x),
      filter_through (q := fun y => y.eq x) (fun a => eq_through hf a x)]
  simp only [Function.comp, hr, isNan_through]

theorem getLast_through (f : ℚ → ℚ) (xs : List Flt) :
    (xs.map (Flt.through f)).getLast?.getD .nan = (xs.getLast?.getD .nan).through f := by
  rw [List.getLast?_map]
  cases xs.getLast? <;> rfl

theorem lastrankLine_through {f : ℚ → ℚ} (hf : StrictMono f) {vs vs' : List Val}
    (h : vs'.map Val.num = (vs.map Val.num).map (Flt.through f)) : lastrankLine vs' = lastrankLine vs := by
  unfold lastrankLine
  simp only [h]
  rw [getLast_through, filter_through (q := fun x => x.lt ((vs.map Val.num).getLast?.getD .nan)) (fun a => lt_through hf _ _),
    filter_through (q := fun x => ((vs.map Val.num).getLast?.getD .nan).eq x) (fun a => eq_through hf _ _),
    filter_through (q := Flt.isFinite) (isFinite_through f), isFinite_through]

theorem wsum_through {f : ℚ → ℚ} {p q : Flt → Bool} (h : ∀ a, p (a.through f) = q a) (xs : List Flt) (w : List ℚ) :
    wsum p (xs.map (Flt.through f)) w = wsum q xs w := by
  unfold wsum
  rw [List.zipWith_map_left]
  simp only [h]

theorem lastrankDecayLine_through {f : ℚ → ℚ} (hf : StrictMono f) (w : List ℚ) {vs vs' : List Val}
    (h : vs'.map Val.num = (vs.map Val.num).map (Flt.through f)) : lastrankDecayLine w vs' = lastrankDecayLine w vs := by
  unfold lastrankDecayLine
  simp only [h]
  rw [getLast_through, wsum_through (q := fun x => x.lt ((vs.map Val.num).getLast?.getD .nan)) (fun a => lt_through hf _ _),
    wsum_through (q := fun x => ((vs.map Val.num).getLast?.getD .nan).eq x) (fun a => eq_through hf _ _),
    wsum_through (q := Flt.isFinite) (isFinite_through f), isFinite_through]

theorem scatter_through (f : ℚ → ℚ) (xs ms : List Flt) : scatter (xs.map (Flt.through f)) ms = scatter xs ms := by
  induction xs generalizing ms with
  | nil => rfl
  | cons x xs ih => simp only [List.map_cons, scatter, isFinite_through, ih]

theorem quantileLine_through {argsort : List ℚ → List Nat} (ha : ComparesOnly argsort) {f : ℚ → ℚ}
    (hf : StrictMono f) (q : Nat) {vs vs' : List Val}
    (h : vs'.map Val.num = (vs.map Val.num).map (Flt.through f)) :
    quantileLine argsort q vs' = quantileLine argsort q vs := by
  unfold quantileLine quantileRaw
  have e : (((vs.map Val.num).map (Flt.through f)).filter Flt.isFinite).map Flt.rat =
      (((vs.map Val.num).filter Flt.isFinite).map Flt.rat).map f := by
    rw [List.filter_map, List.map_map, List.map_map]
    have : Flt.isFinite ∘ Flt.through f = Flt.isFinite := by funext a; exact isFinite_through f a
    rw [this]
    apply List.map_congr_left
    intro a ha
    have := (List.mem_filter.mp ha).2
    cases a <;> simp_all [Flt.isFinite, Flt.through, Flt.rat]
  simp only [h, e, ha f hf, scatter_through, List.length_map]

/-! ## Arrays -/

/-- The numbers of the second array are `f` of those of the first. -/
def NumsBy (f : Flt → Flt) (x x' : NDArray Val) : Prop :=
  x'.shape = x.shape ∧ ∀ idx, InB x.shape idx → (x'.get idx).num = f (x.get idx).num

theorem Larry.Rescaled.nums {f : Flt → Flt} {y y' : Larry L} (h : y.Rescaled f y') (hv : y.Valid) (hv' : y'.Valid) :
    NumsBy f y.x y'.x := by
  refine ⟨by rw [hv.shape_eq, hv'.shape_eq, h.label], fun idx hidx => ?_⟩
  rw [hv.shape_eq] at hidx
  obtain ⟨names, hat⟩ := At_of_inB hidx
  exact h.has names _ _ ⟨idx, hat, rfl⟩ ⟨idx, by rw [h.label]; exact hat, rfl⟩

theorem NumsBy.line {f : Flt → Flt} {x x' : NDArray Val} (h : NumsBy f x x') {ax : Nat} (hax : ax < x.shape.length)
    {rest : List Nat} (hr : InB (x.shape.eraseIdx ax) rest) :
    (x'.line ax rest).map Val.num = ((x.line ax rest).map Val.num).map f := by
  unfold NDArray.line
  rw [h.1]
  simp only [List.map_map]
  apply List.map_congr_left
  intro i hi
  exact h.2 _ (InB_insert hax (List.mem_range.mp hi) hr)

theorem NumsBy.vals {f : Flt → Flt} {x x' : NDArray Val} (h : NumsBy f x x') :
    x'.vals.map Val.num = (x.vals.map Val.num).map f := by
  unfold NDArray.vals
  rw [h.1]
  simp only [List.map_map]
  apply List.map_congr_left
  intro i hi
  exact h.2 _ (mem_allIdx.mp hi)

theorem InB_erase {s idx : List Nat} (h : InB s idx) {ax : Nat} (hax : ax < s.length) :
    InB (s.eraseIdx ax) (idx.eraseIdx ax) := by
  have hs : s = (s.eraseIdx ax).insertIdx ax s[ax] := (List.insertIdx_eraseIdx_getElem hax).symm
  rw [hs, InB_insertIdx (by rw [List.length_eraseIdx_of_lt hax]; omega)] at h
  exact h.2.2

/-- A function of lines that gives equal lines gives equal larrys. -/
theorem along_same {f : Flt → Flt} {g : List Val → List Val} {d : DType} {y y' : Larry L} (hl : y'.label = y.label)
    (hn : NumsBy f y.x y'.x)
    (hg : ∀ vs vs' : List Val, vs'.map Val.num = (vs.map Val.num).map f → g vs' = g vs) {ax : Nat}
    (hax : ax < y.x.shape.length) : (y.along g d ax).Same (y'.along g d ax) := by
  refine ⟨hl.symm, rfl, hn.1.symm, fun idx hidx => ?_⟩
  show (g _).getD _ _ = (g _).getD _ _
  rw [hg _ _ (hn.line hax (InB_erase hidx hax))]

theorem alongAll_same {f : Flt → Flt} {g : List Val → List Val} {d : DType} {y y' : Larry L} (hl : y'.label = y.label)
    (hn : NumsBy f y.x y'.x)
    (hg : ∀ vs vs' : List Val, vs'.map Val.num = (vs.map Val.num).map f → g vs' = g vs) :
    (y.alongAll g d).Same (y'.alongAll g d) := by
  refine ⟨hl.symm, rfl, hn.1.symm, fun idx hidx => ?_⟩
  show (g _).getD _ _ = (g _).getD _ _
  rw [hg _ _ hn.vals]
  show _ = (g y.x.vals).getD (ravelC y'.x.shape idx) _
  rw [hn.1]

theorem pyIdx_lt' {n : Nat} {a : Int} {k : Nat} (h : pyIdx n a = some k) : k < n := (pyIdx_some.mp h).1

/-! ## The methods -/

/-- C82. `ranking` gives the same for a larry and for one with strictly increasing `f` applied to every number. -/
theorem C82_ranking {f : ℚ → ℚ} (hf : StrictMono f) {y y' : Larry L} (hv : y.Valid) (hv' : y'.Valid)
    (h : y.Rescaled (Flt.through f) y') (axis : Option Int) (norm : RankNorm) :
    Res.Agree Larry.Same (y.ranking axis norm) (y'.ranking axis norm) := by
  have hn := h.nums hv hv'
  have hnd : y'.ndim = y.ndim := by simp only [Larry.ndim, NDArray.ndim, hn.1]
  have hnum : ∀ z : Larry L, z.dtype = .float → z.dtype.isNumeric ≠ false := fun z hz => by rw [hz]; decide
  unfold ranking
  rw [if_neg (hnum y h.float), if_neg (hnum y' h.float')]
  cases norm with
  | unknown => exact rfl
  | _ =>
    cases axis with
    | none => exact alongAll_same h.label hn (fun _ _ => rankingLine_through hf _)
    | some a =>
      simp only [hnd]
      cases hp : pyIdx y.ndim a with
      | none => exact rfl
      | some ax => exact along_same h.label hn (fun _ _ => rankingLine_through hf _) (pyIdx_lt' hp)

/-- Reductions that give the same for related lines give the same for related larrys. -/
theorem reduce_same {f : Flt → Flt} {r : Red}
    (hg : ∀ vs vs' : List Val, vs'.map Val.num = (vs.map Val.num).map f → r.f vs' = r.f vs)
    {y y' : Larry L} (hv : y.Valid) (hv' : y'.Valid) (h : y.Rescaled f y') (axis : Option Int) :
    Res.Agree Out.Same (y.reduce r axis) (y'.reduce r axis) := by
  have hn := h.nums hv hv'
  have hs : y'.shape = y.shape := hn.1
  have hnd : y'.ndim = y.ndim := by simp only [Larry.ndim, NDArray.ndim, hn.1]
  have hsz : y'.size = y.size := by simp only [Larry.size, NDArray.size, hn.1]
  have hself : ∀ o : Res (Out L), Res.Agree Out.Same o o := by
    intro o
    cases o with
    | error e => exact rfl
    | ok o => cases o with
      | scalar v => exact rfl
      | larry z => exact ⟨rfl, rfl, rfl, fun _ _ => rfl⟩
  unfold reduce
  simp only [hsz, hs, h.float, h.float', hnd, h.label]
  by_cases h0 : y.size = 0
  · rw [if_pos h0, if_pos h0]
    exact hself _
  · rw [if_neg h0, if_neg h0]
    cases hd : r.dt .float with
    | error e => exact rfl
    | ok d =>
    cases axis with
    | none => exact (hg _ _ hn.vals).symm
    | some a =>
      simp only
      cases hp : pyIdx y.ndim a with
      | none => exact rfl
      | some ax =>
        have hax : ax < y.x.shape.length := pyIdx_lt' hp
        have hsh : (y'.x.reduceAx r.f ax).shape = (y.x.reduceAx r.f ax).shape := by
          simp only [NDArray.reduceAx, hn.1]
        have hget : ∀ rest, InB (y.x.shape.eraseIdx ax) rest →
            (y.x.reduceAx r.f ax).get rest = (y'.x.reduceAx r.f ax).get rest := fun rest hr =>
          (hg _ _ (hn.line hax hr)).symm
        simp only [hsh]
        by_cases hl0 : (y.x.reduceAx r.f ax).shape.length = 0
        · rw [if_pos hl0, if_pos hl0]
          refine hget [] ?_
          rw [show y.x.shape.eraseIdx ax = [] from List.length_eq_zero_iff.mp hl0]
          trivial
        · rw [if_neg hl0, if_neg hl0]
          cases pyPop y.label a with
          | error e => exact rfl
          | ok label => exact ⟨rfl, rfl, hsh.symm, fun idx hidx => hget idx hidx⟩

/-- C82. So does `lastrank`, with and without decay. -/
theorem C82_lastrank {f : ℚ → ℚ} (hf : StrictMono f) {y y' : Larry L} (hv : y.Valid) (hv' : y'.Valid)
    (h : y.Rescaled (Flt.through f) y') (axis : Option Int) (w : Nat → List ℚ) :
    Res.Agree Out.Same (y.reduce lastrankRed axis) (y'.reduce lastrankRed axis) ∧
    Res.Agree Out.Same (y.reduce (lastrankDecayRed w) axis) (y'.reduce (lastrankDecayRed w) axis) := by
  refine ⟨reduce_same (fun _ _ => lastrankLine_through hf) hv hv' h axis, reduce_same (fun vs vs' e => ?_) hv hv' h axis⟩
  have : vs'.length = vs.length := by simpa using congrArg List.length e
  show lastrankDecayLine (w vs'.length) vs' = lastrankDecayLine (w vs.length) vs
  rw [this]
  exact lastrankDecayLine_through hf _ e

/-- C82. So does `quantile`. -/
theorem C82_quantile {argsort : List ℚ → List Nat} (ha : ComparesOnly argsort) {f : ℚ → ℚ} (hf : StrictMono f)
    {y y' : Larry L} (hv : y.Valid) (hv' : y'.Valid) (h : y.Rescaled (Flt.through f) y') (q : Int) (axis : Option Int) :
    Res.Agree Larry.Same (y.quantile argsort q axis) (y'.quantile argsort q axis) := by
  have hn := h.nums hv hv'
  have hs : y'.shape = y.shape := hn.1
  have hnd : y'.ndim = y.ndim := by simp only [Larry.ndim, NDArray.ndim, hn.1]
  have hsz : y'.size = y.size := by simp only [Larry.size, NDArray.size, hn.1]
  have hnum : ∀ z : Larry L, z.dtype = .float → z.dtype.isNumeric ≠ false := fun z hz => by rw [hz]; decide
  unfold quantile
  by_cases h1 : q < 1
  · rw [if_pos h1, if_pos h1]; exact rfl
  rw [if_neg h1, if_neg h1, if_neg (hnum y h.float), if_neg (hnum y' h.float')]
  by_cases h2 : q = 1
  · rw [if_pos h2, if_pos h2]
    refine ⟨h.label.symm, rfl, hn.1.symm, fun idx hidx => ?_⟩
    show (if (y.x.get idx).isNan then _ else _) = if (y'.x.get idx).isNan then _ else _
    have e : (y'.x.get idx).isNan = (y.x.get idx).isNan := by
      show (y'.x.get idx).num.isNan = (y.x.get idx).num.isNan
      rw [hn.2 idx hidx, isNan_through]
    rw [e]
  rw [if_neg h2, if_neg h2]
  cases axis with
  | none =>
    simp only [hsz]
    by_cases h3 : q > y.size
    · rw [if_pos h3, if_pos h3]; exact rfl
    · rw [if_neg h3, if_neg h3]
      exact alongAll_same h.label hn (fun _ _ => quantileLine_through ha hf _)
  | some a =>
    simp only [hnd, hs]
    cases hp : pyIdx y.ndim a with
    | none => exact rfl
    | some ax =>
      simp only
      by_cases h3 : q > y.shape.getD ax 0
      · rw [if_pos h3, if_pos h3]; exact rfl
      · rw [if_neg h3, if_neg h3]
        exact along_same h.label hn (fun _ _ => quantileLine_through ha hf _) (pyIdx_lt' hp)

/-! ## Ranking within groups -/

theorem maskSelect_nums {f : Flt → Flt} : ∀ (m : List Bool) (vs vs' : List Val),
    vs'.map Val.num = (vs.map Val.num).map f →
    (maskSelect m vs').map Val.num = ((maskSelect m vs).map Val.num).map f
  | [], vs, vs', _ => by simp [maskSelect]
  | _ :: _, [], [], _ => rfl
  | _ :: _, [], _ :: _, h => by simp at h
  | _ :: _, _ :: _, [], h => by simp at h
  | true :: m, v :: vs, v' :: vs', h => by
    simp only [List.map_cons, List.cons.injEq] at h
    simp only [maskSelect, if_true, List.map_cons, h.1, maskSelect_nums m vs vs' h.2]
  | false :: m, v :: vs, v' :: vs', h => by
    simp only [List.map_cons, List.cons.injEq] at h
    simpa only [maskSelect, Bool.false_eq_true, if_false] using maskSelect_nums m vs vs' h.2

theorem groupLine_same {f : Flt → Flt} {g : List Val → List Val} (sort : List Val → List Val)
    (hg : ∀ vs vs' : List Val, vs'.map Val.num = (vs.map Val.num).map f → g vs' = g vs) (groups : List Val)
    {vs vs' : List Val} (h : vs'.map Val.num = (vs.map Val.num).map f) :
    groupLine sort g groups vs' = groupLine sort g groups vs := by
  have hlen : vs'.length = vs.length := by simpa using congrArg List.length h
  have hstep : groupStep g groups vs' = groupStep g groups vs := by
    funext out gr
    unfold groupStep
    rw [hg _ _ (maskSelect_nums _ _ _ h)]
  unfold groupLine
  rw [hlen, hstep]

/-- C82. So does `group_ranking`. -/
theorem C82_group_ranking [LinearOrder L] {f : ℚ → ℚ} (hf : StrictMono f) {y y' : Larry L} (hv : y.Valid)
    (hv' : y'.Valid) (h : y.Rescaled (Flt.through f) y') (sort : List Val → List Val) (group : Larry L) (axis : Int) :
    Res.Agree Larry.Same (y.groupRanking sort group axis) (y'.groupRanking sort group axis) := by
  have hn := h.nums hv hv'
  have hnd : y'.ndim = y.ndim := by simp only [Larry.ndim, NDArray.ndim, hn.1]
  have hnum : ∀ z : Larry L, z.dtype = .float → z.dtype.isNumeric ≠ false := fun z hz => by rw [hz]; decide
  unfold groupRanking groupBy
  rw [show y'.groupAlign group axis = y.groupAlign group axis by unfold groupAlign; rw [h.label]]
  cases y.groupAlign group axis with
  | error e => exact rfl
  | ok groups =>
    dsimp only
    rw [if_neg (hnum y h.float), if_neg (hnum y' h.float'), hnd]
    cases hp : pyIdx y.ndim axis with
    | none => exact rfl
    | some ax =>
      exact along_same (y := y) (y' := y') h.label hn
        (fun _ _ => groupLine_same sort (fun _ _ => rankingLine_through hf .pm1) groups) (pyIdx_lt' hp)

/-! ## Methods that pass values on -/

theorem Larry.Rescaled.of_nums {f : Flt → Flt} {y y' : Larry L} (hv : y.Valid) (hl : y'.label = y.label)
    (hd : y.dtype = .float) (hd' : y'.dtype = .float) (h : NumsBy f y.x y'.x) : y.Rescaled f y' := by
  refine ⟨hl, hd, hd', ?_⟩
  rintro names v v' ⟨idx, hat, rfl⟩ ⟨idx', hat', rfl⟩
  rw [hl] at hat'
  have : idx' = idx := At_unique hv.nodup hat' hat
  subst this
  exact h.2 _ (by rw [hv.shape_eq]; exact At_inB hat)

theorem pushGo_nums (f : ℚ → ℚ) (n : Int) : ∀ (vs vs' : List Val) (i : Nat) (r r' : Val) (c : Option Nat),
    r'.num = r.num.through f → vs'.map Val.num = (vs.map Val.num).map (Flt.through f) →
    (pushGo n i r' c vs').map Val.num = ((pushGo n i r c vs).map Val.num).map (Flt.through f)
  | [], [], _, _, _, _, _, _ => rfl
  | [], _ :: _, _, _, _, _, _, h => by simp at h
  | _ :: _, [], _, _, _, _, _, h => by simp at h
  | v :: vs, v' :: vs', i, r, r', c, hr, h => by
    simp only [List.map_cons, List.cons.injEq] at h
    have hfin : v'.isFin = v.isFin := by
      rw [isFin_num, isFin_num, h.1, isFinite_through]
    have hr2 : (if pushGo.pushStale n i c then Val.flt .nan else r').num =
        (if pushGo.pushStale n i c then Val.flt .nan else r).num.through f := by
      split
      · rfl
      · exact hr
    simp only [pushGo, hfin]
    split
    · simp only [List.map_cons, h.1, pushGo_nums f n vs vs' _ v v' _ h.1 h.2]
    · simp only [List.map_cons, hr2, pushGo_nums f n vs vs' _ _ _ _ hr2 h.2]
where
  isFin_num (v : Val) : v.isFin = v.num.isFinite := by cases v <;> rfl

theorem getD_nums {f : Flt → Flt} (hf : f .nan = .nan) {l l' : List Val} (h : l'.map Val.num = (l.map Val.num).map f)
    (i : Nat) : (l'.getD i .none).num = f (l.getD i .none).num := by
  have := congrArg (·[i]?) h
  simp only [List.getElem?_map] at this
  simp only [List.getD_eq_getElem?_getD]
  cases h1 : l'[i]? <;> cases h2 : l[i]? <;> simp_all [Val.num]

theorem along_rescaled {f k : Flt → Flt} (hk : k .nan = .nan) {g : List Val → List Val} {y y' : Larry L}
    (hv : y.Valid) (hl : y'.label = y.label) (hn : NumsBy f y.x y'.x) {ax : Nat} (hax : ax < y.x.shape.length)
    (hg : ∀ rest, InB (y.x.shape.eraseIdx ax) rest →
      (g (y'.x.line ax rest)).map Val.num = ((g (y.x.line ax rest)).map Val.num).map k) :
    (y.along g .float ax).Rescaled k (y'.along g .float ax) := by
  refine Larry.Rescaled.of_nums (y := y.along g .float ax) ⟨hv.shape_eq, hv.nodup, hv.ndim_pos⟩ hl rfl rfl
    ⟨hn.1, fun idx hidx => ?_⟩
  exact getD_nums hk (hg _ (InB_erase hidx hax)) _

theorem alongAll_rescaled {f k : Flt → Flt} (hk : k .nan = .nan) {g : List Val → List Val} {y y' : Larry L}
    (hv : y.Valid) (hl : y'.label = y.label) (hn : NumsBy f y.x y'.x)
    (hg : (g y'.x.vals).map Val.num = ((g y.x.vals).map Val.num).map k) :
    (y.alongAll g .float).Rescaled k (y'.alongAll g .float) := by
  refine Larry.Rescaled.of_nums (y := y.alongAll g .float) ⟨hv.shape_eq, hv.nodup, hv.ndim_pos⟩ hl rfl rfl
    ⟨hn.1, fun idx hidx => ?_⟩
  show ((g y'.x.vals).getD (ravelC y'.x.shape idx) .none).num = _
  rw [hn.1]
  exact getD_nums hk hg _

/-- C82. `push` passes values on: applying any `f` before it or after it gives the same. -/
theorem C82_push (f : ℚ → ℚ) {y y' : Larry L} (hv : y.Valid) (hv' : y'.Valid)
    (h : y.Rescaled (Flt.through f) y') (window axis : Int) :
    Res.Agree (Larry.Rescaled (Flt.through f)) (y.push window axis) (y'.push window axis) := by
  have hn := h.nums hv hv'
  have hnd : y'.ndim = y.ndim := by simp only [Larry.ndim, NDArray.ndim, hn.1]
  unfold push npAxis
  rw [hnd, h.float, h.float']
  cases hp : pyIdx y.ndim axis with
  | none => exact rfl
  | some ax =>
    exact along_rescaled (y := y) (y' := y') rfl hv h.label hn (pyIdx_lt' hp)
      fun rest hr => pushGo_nums f window _ _ 0 _ _ none rfl (hn.line (pyIdx_lt' hp) hr)

/-- C82. `clip` with both bounds rescaled is the rescaled `clip`. -/
theorem C82_clip {f : ℚ → ℚ} (hf : StrictMono f) {y y' : Larry L} (hv : y.Valid) (hv' : y'.Valid)
    (h : y.Rescaled (Flt.through f) y') (lo hi : Flt) :
    Res.Agree (Larry.Rescaled (Flt.through f)) (y.clip lo hi) (y'.clip (lo.through f) (hi.through f)) := by
  have hn := h.nums hv hv'
  unfold clip storeAs
  rw [lt_through hf, h.float, h.float']
  cases hi.lt lo with
  | true => exact rfl
  | false =>
    refine Larry.Rescaled.of_nums (f := Flt.through f)
      (y := ⟨y.x.map (fun v => .flt (clip1 lo hi v.num)), .float, y.label⟩)
      (y' := ⟨y'.x.map (fun v => .flt (clip1 (lo.through f) (hi.through f) v.num)), .float, y'.label⟩)
      ⟨hv.shape_eq, hv.nodup, hv.ndim_pos⟩ h.label rfl rfl ⟨hn.1, fun idx hidx => ?_⟩
    show clip1 _ _ (y'.x.get idx).num = Flt.through f (clip1 _ _ (y.x.get idx).num)
    rw [hn.2 idx hidx]
    unfold clip1
    simp only [lt_through hf]
    split
    · rfl
    · split <;> rfl

/-- C82. `vacuum` keeps the same labels whatever `f` is applied to the numbers. -/
theorem C82_vacuum (f : ℚ → ℚ) {y y' : Larry L} (hv : y.Valid) (hv' : y'.Valid)
    (h : y.Rescaled (Flt.through f) y') (axis : Option (List Int)) :
    Res.Agree (Larry.Rescaled (Flt.through f)) (y.vacuum axis) (y'.vacuum axis) := by
  obtain ⟨z, h1, h2⟩ := vacuum_spec hv axis fun _ _ _ => by rw [h.float]; decide
  obtain ⟨z', h1', h2'⟩ := vacuum_spec hv' axis fun _ _ _ => by rw [h.float']; decide
  have hfin : ∀ k b, HasFinite y' k b ↔ HasFinite y k b := by
    intro k b
    constructor
    · rintro ⟨names, v, hb, ⟨idx, hat, rfl⟩, hf⟩
      rw [h.label] at hat
      refine ⟨names, _, hb, ⟨idx, hat, rfl⟩, isFin_iff.mp ?_⟩
      have := h.has names _ _ ⟨idx, hat, rfl⟩ ⟨idx, by rw [h.label]; exact hat, rfl⟩
      rw [← isFin_iff, pushGo_nums.isFin_num, this, isFinite_through] at hf
      rw [pushGo_nums.isFin_num]; exact hf
    · rintro ⟨names, v, hb, ⟨idx, hat, rfl⟩, hf⟩
      refine ⟨names, _, hb, ⟨idx, by rw [h.label]; exact hat, rfl⟩, isFin_iff.mp ?_⟩
      have := h.has names _ _ ⟨idx, hat, rfl⟩ ⟨idx, by rw [h.label]; exact hat, rfl⟩
      rw [pushGo_nums.isFin_num, this, isFinite_through, ← pushGo_nums.isFin_num]
      exact isFin_iff.mpr hf
  have hlab : z'.label = z.label := by
    refine List.ext_getElem? fun k => ?_
    by_cases hk : k < y.label.length
    · have e1 : k < z.label.length := by rw [h2.naxes]; exact hk
      have e2 : k < z'.label.length := by rw [h2'.naxes, h.label]; exact hk
      have g := List.getElem?_eq_getElem hk
      have g' := List.getElem?_eq_getElem (l := y'.label) (i := k) (by rw [h.label]; exact hk)
      have gg : y'.label[k]? = some y.label[k] := by rw [h.label, g]
      rw [List.getElem?_eq_getElem e1, List.getElem?_eq_getElem e2]
      congr 1
      by_cases hc : Vacuumed axis k
      · obtain ⟨s, m⟩ := h2.vacuumed k _ _ g (List.getElem?_eq_getElem e1) hc
        obtain ⟨s', m'⟩ := h2'.vacuumed k _ _ gg (List.getElem?_eq_getElem e2) hc
        refine sublist_eq_of_mem (hv.nodup _ (List.getElem_mem hk)) s' s fun b => ?_
        rw [m, m', hfin]
      · rw [h2.others k _ _ g (List.getElem?_eq_getElem e1) hc, h2'.others k _ _ gg (List.getElem?_eq_getElem e2) hc]
    · rw [List.getElem?_eq_none (by rw [h2'.naxes, h.label]; omega), List.getElem?_eq_none (by rw [h2.naxes]; omega)]
  refine .ok h1 h1' ⟨hlab, ?_, ?_, ?_⟩
  · rw [h2.part.dtype_eq, h.float]
  · rw [h2'.part.dtype_eq, h.float']
  · intro names v v' hz hz'
    exact h.has names v v' ((h2.part.has names v).mp hz).2 ((h2'.part.has names v').mp hz').2

theorem test_through {f : ℚ → ℚ} (hf : StrictMono f) (op : CmpOp) (a b : Flt) :
    op.test (a.through f) (b.through f) = op.test a b := by
  have hle : ∀ a b : Flt, (a.through f).le (b.through f) = a.le b := by
    intro a b
    cases a <;> cases b <;> simp [Flt.through, Flt.le, Flt.lt, Flt.eq, hf.lt_iff_lt, hf.injective.eq_iff]
  cases op <;> simp only [CmpOp.test, lt_through hf, eq_through hf, hle]

/-- C82. `keep_x` against the rescaled value keeps the same elements. -/
theorem C82_keep_x {f : ℚ → ℚ} (hf : StrictMono f) {y y' : Larry L} (hv : y.Valid) (hv' : y'.Valid)
    (h : y.Rescaled (Flt.through f) y') (op : CmpOp) (value : Flt) (vac : Bool) :
    Res.Agree (Larry.Rescaled (Flt.through f)) (y.keepX op value vac) (y'.keepX op (value.through f) vac) := by
  have hn := h.nums hv hv'
  have hnd : y'.ndim = y.ndim := by simp only [Larry.ndim, NDArray.ndim, hn.1]
  unfold keepX
  rw [hnd, h.float, h.float']
  by_cases h1 : vac = true ∧ y.ndim ≠ 2
  · rw [if_pos h1, if_pos h1]; exact rfl
  rw [if_neg h1, if_neg h1]
  by_cases h2 : op = .unknown
  · rw [if_pos h2, if_pos h2]; exact rfl
  rw [if_neg h2, if_neg h2]
  have hz : Larry.Rescaled (Flt.through f)
      ⟨y.x.map (fun v => if op.test v.num value then v else .flt .nan), .float, y.label⟩
      ⟨y'.x.map (fun v => if op.test v.num (value.through f) then v else .flt .nan), .float, y'.label⟩ := by
    refine Larry.Rescaled.of_nums ⟨hv.shape_eq, hv.nodup, hv.ndim_pos⟩ h.label rfl rfl ⟨hn.1, fun idx hidx => ?_⟩
    have e : op.test (y'.x.get idx).num (value.through f) = op.test (y.x.get idx).num value := by
      rw [hn.2 idx hidx, test_through hf]
    show Val.num (if op.test (y'.x.get idx).num (value.through f) then y'.x.get idx else .flt .nan) =
      Flt.through f (Val.num (if op.test (y.x.get idx).num value then y.x.get idx else .flt .nan))
    rw [e]
    split
    · exact hn.2 idx hidx
    · rfl
  cases vac with
  | false => exact hz
  | true =>
    refine C82_vacuum f ?_ ?_ hz none
    · exact ⟨hv.shape_eq, hv.nodup, hv.ndim_pos⟩
    · exact ⟨hv'.shape_eq, hv'.nodup, hv'.ndim_pos⟩

/-! ## Reversing the sign -/

theorem lt_neg (a b : Flt) : a.neg.lt b.neg = b.lt a := by
  cases a <;> cases b <;> simp [Flt.neg, Flt.lt]

theorem eq_neg (a b : Flt) : a.neg.eq b.neg = a.eq b := by
  cases a <;> cases b <;> simp [Flt.neg, Flt.eq]

theorem isNan_neg (a : Flt) : a.neg.isNan = a.isNan := by cases a <;> rfl
theorem isFinite_neg (a : Flt) : a.neg.isFinite = a.isFinite := by cases a <;> rfl

theorem filter_neg {p q : Flt → Bool} (h : ∀ a, p a.neg = q a) (xs : List Flt) :
    ((xs.map Flt.neg).filter p).length = (xs.filter q).length := by
  rw [List.filter_map, List.length_map]
  congr 2
  funext a
  exact h a

/-- Among numbers, each is less than, equal to or greater than a given one. -/
theorem count_trichotomy (xs : List Flt) {x : Flt} (hx : x.isNan = false) :
    (xs.filter (fun y => y.lt x)).length + (xs.filter (fun y => y.eq x)).length + (xs.filter (fun y => x.lt y)).length =
      (xs.filter (fun y => !y.isNan)).length := by
  induction xs with
  | nil => rfl
  | cons y ys ih =>
    have : (y.isNan = true ∧ y.lt x = false ∧ y.eq x = false ∧ x.lt y = false) ∨
        (y.isNan = false ∧ y.lt x = true ∧ y.eq x = false ∧ x.lt y = false) ∨
        (y.isNan = false ∧ y.lt x = false ∧ y.eq x = true ∧ x.lt y = false) ∨
        (y.isNan = false ∧ y.lt x = false ∧ y.eq x = false ∧ x.lt y = true) := by
      cases x <;> cases y <;> simp_all [Flt.lt, Flt.eq, Flt.isNan]
      rename_i a b
      rcases lt_trichotomy a b with h | h | h
      · exact .inr (.inr ⟨h.le, h.ne', h⟩)
      · exact .inr (.inl ⟨h.le, h.symm, h.ge⟩)
      · exact .inl ⟨h, h.ne, h.le⟩
    rcases this with ⟨a, b, c, d⟩ | ⟨a, b, c, d⟩ | ⟨a, b, c, d⟩ | ⟨a, b, c, d⟩ <;>
      simp only [List.filter_cons, a, b, c, d, Bool.not_true, Bool.not_false, Bool.false_eq_true, if_true, if_false,
        List.length_cons] <;> omega

theorem nanrank_neg (xs : List Flt) {x : Flt} (hx : x.isNan = false) :
    ∃ r : ℚ, nanrank xs x = .fin r ∧
      nanrank (xs.map Flt.neg) x.neg = .fin (((xs.filter (fun y => !y.isNan)).length : ℚ) + 1 - r) := by
  refine ⟨_, by unfold nanrank; rw [hx]; rfl, ?_⟩
  unfold nanrank
  rw [isNan_neg, hx, filter_neg (q := fun y => x.lt y) (fun a => lt_neg a x),
    filter_neg (q := fun y => y.eq x) (fun a => eq_neg a x), ← count_trichotomy xs hx]
  simp only [Bool.false_eq_true, if_false, Flt.fin.injEq]
  push_cast
  ring

theorem rankingLine_neg {vs vs' : List Val} (h : vs'.map Val.num = (vs.map Val.num).map Flt.neg) :
    (rankingLine .pm1 vs').map Val.num = ((rankingLine .pm1 vs).map Val.num).map Flt.neg := by
  unfold rankingLine
  simp only [h]
  generalize vs.map Val.num = xs
  rw [filter_neg (q := fun x => !x.isNan) (fun a => by rw [isNan_neg])]
  simp only [List.length_map, List.map_map]
  apply List.map_congr_left
  intro x _
  simp only [Function.comp, isNan_neg, Val.num]
  cases hx : x.isNan with
  | true =>
    have hx' : x.neg.isNan = true := by rw [isNan_neg]; exact hx
    simp only [nanrank, hx, hx', Bool.true_eq_false, and_false, if_true, if_false]
    rfl
  | false =>
    obtain ⟨r, e1, e2⟩ := nanrank_neg xs hx
    simp only [and_true]
    by_cases hc : (xs.filter (fun y => !y.isNan)).length = 1
    · rw [if_pos hc, if_pos hc]
      simp [RankNorm.middle, Flt.neg]
    · rw [if_neg hc, if_neg hc, e1, e2]
      have hne : ((xs.filter (fun y => !y.isNan)).length : ℚ) - 1 ≠ 0 := by
        intro h0
        exact hc (by exact_mod_cast (sub_eq_zero.mp h0))
      simp only [RankNorm.scale, Flt.sub, Flt.neg, Flt.add, Flt.div, if_neg hne, Flt.mul, Flt.fin.injEq]
      field_simp
      ring

/-- C82. The ranking, between -1 and 1, of the negated values is the negated ranking. -/
theorem C82_ranking_reversed {y y' : Larry L} (hv : y.Valid) (hv' : y'.Valid) (h : y.Rescaled Flt.neg y')
    (axis : Option Int) :
    Res.Agree (Larry.Rescaled Flt.neg) (y.ranking axis .pm1) (y'.ranking axis .pm1) := by
  have hn := h.nums hv hv'
  have hnd : y'.ndim = y.ndim := by simp only [Larry.ndim, NDArray.ndim, hn.1]
  have hnum : ∀ z : Larry L, z.dtype = .float → z.dtype.isNumeric ≠ false := fun z hz => by rw [hz]; decide
  unfold ranking
  rw [if_neg (hnum y h.float), if_neg (hnum y' h.float')]
  cases axis with
  | none => exact alongAll_rescaled (f := Flt.neg) rfl hv h.label hn (rankingLine_neg hn.vals)
  | some a =>
    simp only [hnd]
    cases hp : pyIdx y.ndim a with
    | none => exact rfl
    | some ax =>
      exact along_rescaled (f := Flt.neg) rfl hv h.label hn (pyIdx_lt' hp)
        fun rest hr => rankingLine_neg (hn.line (pyIdx_lt' hp) hr)

theorem lastrankLine_neg {vs vs' : List Val} (hi : NoInf (vs.map Val.num))
    (h : vs'.map Val.num = (vs.map Val.num).map Flt.neg) :
    (lastrankLine vs').num = (lastrankLine vs).num.neg := by
  unfold lastrankLine
  simp only [h]
  generalize vs.map Val.num = xs at hi
  have hl : (xs.map Flt.neg).getLast?.getD .nan = (xs.getLast?.getD .nan).neg := by
    rw [List.getLast?_map]
    cases xs.getLast? <;> rfl
  rw [hl]
  generalize xs.getLast?.getD .nan = last
  rw [filter_neg (q := fun x => last.lt x) (fun a => lt_neg a last),
    filter_neg (q := fun x => last.eq x) (fun a => eq_neg last a), filter_neg (q := Flt.isFinite) isFinite_neg,
    isFinite_neg]
  cases hf : last.isFinite with
  | false => rfl
  | true =>
    have hx : last.isNan = false := by cases last <;> simp_all [Flt.isFinite, Flt.isNan]
    have e1 : xs.filter (fun y => !y.isNan) = xs.filter Flt.isFinite := by
      apply List.filter_congr
      intro y hy
      have := hi y hy
      cases y <;> simp_all [Flt.isNan, Flt.isFinite]
    have e2 : xs.filter (fun y => y.eq last) = xs.filter (fun y => last.eq y) := by
      apply List.filter_congr
      intro y _
      cases y <;> cases last <;> simp [Flt.eq, eq_comm]
    have e3 := count_trichotomy xs hx
    rw [e1, e2] at e3
    have e4 := congrArg (Nat.cast : Nat → ℚ) e3
    push_cast at e4
    simp only [if_true, Val.num]
    generalize ((xs.filter (fun x => x.lt last)).length : ℚ) = g at *
    generalize ((xs.filter (fun x => last.eq x)).length : ℚ) = e at *
    generalize ((xs.filter (fun x => last.lt x)).length : ℚ) = g' at *
    rw [← e4]
    by_cases h0 : g + e + g' - 1 = 0
    · rw [h0]
      have hsub : (g' + g' + e - 1) / 2 = -((g + g + e - 1) / 2) := by linarith
      rw [hsub]
      generalize (g + g + e - 1) / 2 = w
      rcases lt_trichotomy w 0 with hw | hw | hw
      · simp [Flt.div, Flt.infOf, Flt.sub, Flt.neg, Flt.add, Flt.mul, hw, not_lt.mpr hw.le, hw.ne, show ¬ ((2 : ℚ) < 0) by norm_num]
      · simp [Flt.div, Flt.infOf, Flt.sub, Flt.neg, Flt.add, Flt.mul, hw]
      · simp [Flt.div, Flt.infOf, Flt.sub, Flt.neg, Flt.add, Flt.mul, hw, not_lt.mpr hw.le, hw.ne']
    · simp only [Flt.div, if_neg h0, Flt.sub, Flt.neg, Flt.add, Flt.mul, Flt.fin.injEq]
      field_simp
      ring

theorem reduce_rescaled {f k : Flt → Flt} (hk : k .nan = .nan) {r : Red} (hdef : r.default = .flt .nan)
    (hdt : r.dt .float = .ok .float) (hlog : r.logical = false) {P : Flt → Prop}
    (hg : ∀ vs vs' : List Val, (∀ v ∈ vs, P v.num) → vs'.map Val.num = (vs.map Val.num).map f →
      (r.f vs').num = k (r.f vs).num)
    {y y' : Larry L} (hv : y.Valid) (hv' : y'.Valid) (h : y.Rescaled f y')
    (hP : ∀ names v, y.Has names v → P v.num) (axis : Option Int) :
    Res.Agree (Out.Rescaled k) (y.reduce r axis) (y'.reduce r axis) := by
  have hn := h.nums hv hv'
  have hs : y'.shape = y.shape := hn.1
  have hnd : y'.ndim = y.ndim := by simp only [Larry.ndim, NDArray.ndim, hn.1]
  have hsz : y'.size = y.size := by simp only [Larry.size, NDArray.size, hn.1]
  have hPi : ∀ idx, InB y.x.shape idx → P (y.x.get idx).num := by
    intro idx hidx
    rw [hv.shape_eq] at hidx
    obtain ⟨names, hat⟩ := At_of_inB hidx
    exact hP names _ ⟨idx, hat, rfl⟩
  unfold reduce
  simp only [hsz, hs, h.float, h.float', hnd, h.label, hdef, hdt, hlog]
  by_cases h0 : y.size = 0
  · rw [if_pos h0, if_pos h0]
    cases axis with
    | none => exact hk.symm
    | some a =>
      dsimp only
      cases hp : pyPop y.shape a with
      | error e => exact rfl
      | ok shape =>
        simp only
        by_cases hl0 : shape.length = 0
        · rw [if_pos hl0]; exact hk.symm
        · rw [if_neg hl0]
          cases pyPop y.label a with
          | error e => exact rfl
          | ok label =>
            refine ⟨rfl, rfl, rfl, ?_⟩
            rintro names v v' ⟨_, _, rfl⟩ ⟨_, _, rfl⟩
            exact hk.symm
  · rw [if_neg h0, if_neg h0]
    cases axis with
    | none =>
      refine hg _ _ ?_ hn.vals
      intro v hvm
      obtain ⟨idx, hidx, rfl⟩ := List.mem_map.mp hvm
      exact hPi _ (mem_allIdx.mp hidx)
    | some a =>
      simp only
      cases hp : pyIdx y.ndim a with
      | none => exact rfl
      | some ax =>
        have hax : ax < y.x.shape.length := pyIdx_lt' hp
        have hsh : (y'.x.reduceAx r.f ax).shape = (y.x.reduceAx r.f ax).shape := by
          simp only [NDArray.reduceAx, hn.1]
        have hget : ∀ rest, InB (y.x.shape.eraseIdx ax) rest →
            ((y'.x.reduceAx r.f ax).get rest).num = k ((y.x.reduceAx r.f ax).get rest).num := by
          intro rest hr
          refine hg _ _ ?_ (hn.line hax hr)
          intro v hvm
          obtain ⟨i, hi, rfl⟩ := List.mem_map.mp hvm
          exact hPi _ (InB_insert hax (List.mem_range.mp hi) hr)
        simp only [hsh]
        by_cases hl0 : (y.x.reduceAx r.f ax).shape.length = 0
        · rw [if_pos hl0, if_pos hl0]
          refine hget [] ?_
          rw [show y.x.shape.eraseIdx ax = [] from List.length_eq_zero_iff.mp hl0]
          trivial
        · rw [if_neg hl0, if_neg hl0]
          have hpop : pyPop y.label a = .ok (y.label.eraseIdx ax) := by
            unfold pyPop
            rw [show y.label.length = y.ndim from hv.label_length, hp]
          rw [hpop]
          have hvz : Larry.Valid (⟨y.x.reduceAx r.f ax, .float, y.label.eraseIdx ax⟩ : Larry L) := by
            refine ⟨?_, fun l hl => hv.nodup l (List.mem_of_mem_eraseIdx hl), ?_⟩
            · show y.x.shape.eraseIdx ax = (y.label.eraseIdx ax).map List.length
              rw [hv.shape_eq, List.eraseIdx_map]
            · intro h0
              apply hl0
              show (y.x.shape.eraseIdx ax).length = 0
              rw [hv.shape_eq, List.eraseIdx_map, List.length_map]
              exact congrArg List.length h0
          exact Larry.Rescaled.of_nums hvz rfl rfl rfl ⟨hsh, hget⟩

/-- C82. Without infinities, the `lastrank` of the negated values is the negated `lastrank`. -/
theorem C82_lastrank_reversed {y y' : Larry L} (hv : y.Valid) (hv' : y'.Valid) (h : y.Rescaled Flt.neg y')
    (hi : ∀ names v, y.Has names v → v.num ≠ .pinf ∧ v.num ≠ .ninf) (axis : Option Int) :
    Res.Agree (Out.Rescaled Flt.neg) (y.reduce lastrankRed axis) (y'.reduce lastrankRed axis) := by
  refine reduce_rescaled (P := fun x => x ≠ .pinf ∧ x ≠ .ninf) rfl rfl rfl rfl (fun vs vs' hP e => ?_) hv hv' h hi axis
  refine lastrankLine_neg ?_ e
  intro x hx
  obtain ⟨v, hv, rfl⟩ := List.mem_map.mp hx
  exact hP v hv

/-! ## Examples -/

/-- `exA` with every number `q` replaced by `2 * q + 3`. -/
def exScaled : Larry Nat :=
  ⟨NDArray.ofList [2, 3] [fl 5, fl 7, fl 9, fl 11, .flt .nan, fl 15], .float, [[10, 20], [3, 1, 2]]⟩

/-- `exA` with every number negated. -/
def exNegated : Larry Nat :=
  ⟨NDArray.ofList [2, 3] [fl (-1), fl (-2), fl (-3), fl (-4), .flt .nan, fl (-6)], .float, [[10, 20], [3, 1, 2]]⟩

theorem exDouble_mono : StrictMono (fun q : ℚ => 2 * q + 3) := fun a b h => by
  show 2 * a + 3 < 2 * b + 3
  linarith

theorem exScaled_rescaled : exA.Rescaled (Flt.through (fun q => 2 * q + 3)) exScaled := by
  refine Larry.Rescaled.of_nums exA_valid rfl rfl rfl ⟨rfl, fun idx hidx => ?_⟩
  have hm : idx ∈ allIdx [2, 3] := mem_allIdx.mpr hidx
  clear hidx
  revert idx
  decide +kernel

theorem exNegated_rescaled : exA.Rescaled Flt.neg exNegated := by
  refine Larry.Rescaled.of_nums exA_valid rfl rfl rfl ⟨rfl, fun idx hidx => ?_⟩
  have hm : idx ∈ allIdx [2, 3] := mem_allIdx.mpr hidx
  clear hidx
  revert idx
  decide +kernel

/-- The positions of a list, each put where the number at it belongs. -/
def exArgsort (l : List ℚ) : List Nat :=
  (List.range l.length).insertionSort (fun i j => l.getD i 0 ≤ l.getD j 0)

theorem insertionSort_congr {α : Type _} {r r' : α → α → Prop} [DecidableRel r] [DecidableRel r'] (l : List α)
    (h : ∀ a ∈ l, ∀ b ∈ l, r a b ↔ r' a b) : l.insertionSort r = l.insertionSort r' := by
  have ins : ∀ (m : List α) (a : α), (∀ b ∈ m, r a b ↔ r' a b) → m.orderedInsert r a = m.orderedInsert r' a := by
    intro m
    induction m with
    | nil => intro _ _; rfl
    | cons b m ih =>
      intro a hm
      simp only [List.orderedInsert, hm b List.mem_cons_self, ih a fun c hc => hm c (List.mem_cons_of_mem _ hc)]
  induction l with
  | nil => rfl
  | cons a l ih =>
    have ih' := ih fun b hb c hc => h b (List.mem_cons_of_mem _ hb) c (List.mem_cons_of_mem _ hc)
    simp only [List.insertionSort_cons, ih']
    refine ins _ a fun b hb => h a List.mem_cons_self b (List.mem_cons_of_mem _ ?_)
    exact (List.mem_insertionSort _).mp hb

theorem exArgsort_compares : ComparesOnly exArgsort := by
  intro f hf l
  unfold exArgsort
  rw [List.length_map]
  refine insertionSort_congr _ fun a ha b hb => ?_
  have ha := List.mem_range.mp ha
  have hb := List.mem_range.mp hb
  simp only [List.getD_eq_getElem?_getD, List.getElem?_map, List.getElem?_eq_getElem ha, List.getElem?_eq_getElem hb,
    Option.map_some, Option.getD_some, hf.le_iff_le]

/-- The hypotheses are met by a 2x3 larry with a NaN, its values doubled and shifted, and its values
negated; the ranking along axis 1 is not constant. -/
example : StrictMono (fun q : ℚ => 2 * q + 3) ∧ exA.Valid ∧ exScaled.Valid ∧
    exA.Rescaled (Flt.through (fun q => 2 * q + 3)) exScaled ∧ exA.Rescaled Flt.neg exNegated ∧ exNegated.Valid ∧
    (∀ names v, exA.Has names v → v.num ≠ .pinf ∧ v.num ≠ .ninf) ∧ ComparesOnly exArgsort ∧
    rankingLine .pm1 [fl 4, .flt .nan, fl 6] = [fl (-1), .flt .nan, fl 1] := by
  refine ⟨exDouble_mono, exA_valid, ⟨rfl, by decide, by decide⟩, exScaled_rescaled, exNegated_rescaled,
    ⟨rfl, by decide, by decide⟩, ?_, exArgsort_compares, by decide +kernel⟩
  rintro names v ⟨idx, hat, rfl⟩
  have hm : idx ∈ allIdx [2, 3] := mem_allIdx.mpr (At_inB hat)
  clear hat names
  revert idx
  decide +kernel

end La
