import Verif.Props.Gaps
import Verif.Props.Growth

/-!
C121: more data never makes a result missing.
-/

namespace La
open Larry
variable {L : Type _}

/-- Each is a number or NaN, and where the first is a number so is the second. -/
def MoreF (a b : Flt) : Prop := GapF a a ∧ GapF b b ∧ (b = .nan → a = .nan)

/-- The same of two elements of float arrays. -/
def More (v w : Val) : Prop := ∃ a b, v = .flt a ∧ w = .flt b ∧ MoreF a b

theorem gapF_self {a : Flt} : GapF a a ↔ a = .nan ∨ ∃ q, a = .fin q := by
  constructor
  · rintro (⟨p, -, rfl, -⟩ | ⟨rfl, -⟩)
    · exact .inr ⟨p, rfl⟩
    · exact .inl rfl
  · rintro (rfl | ⟨p, rfl⟩)
    · exact gapF_nan
    · exact gapF_fin _ _

theorem MoreF.cases {a b : Flt} (h : MoreF a b) : (a = .nan ∧ (b = .nan ∨ ∃ q, b = .fin q)) ∨ ∃ p q, a = .fin p ∧ b = .fin q := by
  obtain ⟨h1, h2, h3⟩ := h
  rcases gapF_self.mp h1 with rfl | ⟨p, rfl⟩
  · exact .inl ⟨rfl, gapF_self.mp h2⟩
  · rcases gapF_self.mp h2 with rfl | ⟨q, rfl⟩
    · cases h3 rfl
    · exact .inr ⟨p, q, rfl, rfl⟩

theorem MoreF.of_gap {a b : Flt} (h : GapF a b) : MoreF a b := by
  rcases h with ⟨p, q, rfl, rfl⟩ | ⟨rfl, rfl⟩
  · exact ⟨gapF_fin _ _, gapF_fin _ _, fun h => by cases h⟩
  · exact ⟨gapF_nan, gapF_nan, fun _ => rfl⟩

theorem MoreF.more {a b : Flt} (h : MoreF a b) : More (.flt a) (.flt b) := ⟨a, b, rfl, rfl, h⟩
theorem Gap.more {v w : Val} (h : Gap v w) : More v w := by obtain ⟨a, b, rfl, rfl, h⟩ := h; exact (MoreF.of_gap h).more
theorem more_nan {w : Val} (h : Gap w w) : More (.flt .nan) w := by
  obtain ⟨a, b, e, e', h⟩ := h
  cases e
  cases e'
  exact ⟨.nan, a, rfl, rfl, gapF_nan, h, fun _ => rfl⟩
theorem More.num {v w : Val} (h : More v w) : MoreF v.num w.num := by obtain ⟨a, b, rfl, rfl, h⟩ := h; exact h
theorem More.left {v w : Val} (h : More v w) : Gap v v := by obtain ⟨a, b, rfl, rfl, h⟩ := h; exact h.1.gap
theorem More.right {v w : Val} (h : More v w) : Gap w w := by obtain ⟨a, b, rfl, rfl, h⟩ := h; exact h.2.1.gap

/-- Built from what is known of each side. -/
theorem more_of {v w : Val} (h1 : Gap v v) (h2 : Gap w w) (h : w = .flt .nan → v = .flt .nan) : More v w := by
  obtain ⟨a, a', rfl, e, ha⟩ := h1
  cases e
  obtain ⟨b, b', rfl, e, hb⟩ := h2
  cases e
  exact ⟨a, b, rfl, rfl, ha, hb, fun k => Val.flt.inj (h (congrArg Val.flt k))⟩

theorem More.nan {v w : Val} (h : More v w) (hw : w = .flt .nan) : v = .flt .nan := by
  obtain ⟨a, b, rfl, rfl, -, -, h⟩ := h
  rw [h (Val.flt.inj hw)]

theorem More.cases {v w : Val} (h : More v w) :
    (v = .flt .nan ∧ w = .flt .nan) ∨ (v = .flt .nan ∧ ∃ q, w = .flt (.fin q)) ∨ ∃ p q, v = .flt (.fin p) ∧ w = .flt (.fin q) := by
  obtain ⟨a, b, rfl, rfl, h⟩ := h
  rcases h.cases with ⟨rfl, rfl | ⟨q, rfl⟩⟩ | ⟨p, q, rfl, rfl⟩
  · exact .inl ⟨rfl, rfl⟩
  · exact .inr (.inl ⟨rfl, q, rfl⟩)
  · exact .inr (.inr ⟨p, q, rfl, rfl⟩)

/-! ## Lists -/

theorem mores_left {l l' : List Val} (h : List.Forall₂ More l l') : List.Forall₂ Gap l l := by
  induction h with
  | nil => exact .nil
  | cons h1 _ ih => exact .cons h1.left ih

theorem mores_right {l l' : List Val} (h : List.Forall₂ More l l') : List.Forall₂ Gap l' l' := by
  induction h with
  | nil => exact .nil
  | cons h1 _ ih => exact .cons h1.right ih

theorem mores_num {l l' : List Val} (h : List.Forall₂ More l l') : List.Forall₂ MoreF (l.map Val.num) (l'.map Val.num) :=
  forall₂_map₂ (fun _ _ h => h.num) h

theorem mores_nan {fs gs : List Flt} (h : List.Forall₂ MoreF fs gs) (hn : ∀ g ∈ gs, g = .nan) : ∀ f ∈ fs, f = .nan := by
  intro f hf
  obtain ⟨b, hb, hfb⟩ := forall₂_left h hf
  exact hfb.2.2 (hn b hb)

theorem mores_count {l l' : List Val} (h : List.Forall₂ More l l') : howMany l ≤ howMany l' := by
  unfold howMany
  induction h with
  | nil => exact le_refl _
  | cons h1 _ ih =>
    rcases h1.cases with ⟨rfl, rfl⟩ | ⟨rfl, q, rfl⟩ | ⟨p, q, rfl, rfl⟩
    · simpa [Val.num] using ih
    · simp only [List.map_cons, Val.num]
      simp
      simp at ih
      omega
    · simpa [Val.num] using ih

/-! ## Statistics -/

theorem floats_typed {l : List Val} (h : List.Forall₂ Gap l l) : ∀ v ∈ l, v.hasDType .float = true := by
  intro v hv
  have := List.forall₂_same.mp h v hv
  rw [this.flt.1]
  rfl

theorem stat_more (s : Statistic) {l l' : List Val} (h : List.Forall₂ More l l') (hn : (s.red.f l').num = .nan) :
    (s.red.f l).num = .nan := by
  by_cases hne : l = []
  · subst hne
    cases h
    exact hn
  · have hne' : l' ≠ [] := by
      rintro rfl
      cases h
      exact hne rfl
    obtain ⟨n1, -⟩ := gaps_noInf (gaps_num (mores_left h))
    obtain ⟨n2, -⟩ := gaps_noInf (gaps_num (mores_right h))
    have h2 := (stat_nan s n2 (stat_is s (.inl rfl) hne' (floats_typed (mores_right h)))).mp hn
    exact (stat_nan s n1 (stat_is s (.inl rfl) hne (floats_typed (mores_left h)))).mpr (mores_nan (mores_num h) h2)

theorem var_few {ddof : Int} (hd : ddof ≤ 1) {l : List Val} (h : ¬ (0 < howMany l ∧ ddof < howMany l)) :
    varOf ddof (l.map Val.num) = .nan := by
  have hv := var_is ddof (l.map Val.num)
  generalize varOf ddof (l.map Val.num) = s at hv
  cases hv with
  | none => rfl
  | infinite => rfl
  | equal => rfl
  | finite qs m hq e hm hne =>
    have e1 : howMany l = qs.length := by rw [howMany, e, List.length_map]
    have := List.length_pos_iff.mpr hq
    omega
  | unequal qs p q e hp hq hpq hdq =>
    obtain ⟨r, rfl⟩ : ∃ r, qs = [r] := List.length_eq_one_iff.mp (by have := List.length_pos_of_mem hp; omega)
    simp only [List.mem_singleton] at hp hq
    exact absurd (hp.trans hq.symm) hpq

theorem var_more {ddof : Int} (hd : ddof ≤ 1) {l l' : List Val} (h : List.Forall₂ More l l')
    (hn : varOf ddof (l'.map Val.num) = .nan) : varOf ddof (l.map Val.num) = .nan := by
  refine var_few hd fun hc => ?_
  obtain ⟨n2, -⟩ := gaps_noInf (gaps_num (mores_right h))
  have hm := mores_count h
  obtain ⟨q, hq, -⟩ := (spread_of (var_is ddof (l'.map Val.num))).enough n2 (by omega) (by omega)
  rw [hn] at hq
  cases hq

theorem Measure.more {s : Measure} (hs : s.Solid) {l l' : List Val} (h : List.Forall₂ More l l') : More (s.func.f l) (s.func.f l') := by
  have g1 := Measure.gap hs (mores_left h)
  have g2 := Measure.gap hs (mores_right h)
  refine more_of g1 g2 fun hn => ?_
  rw [g1.flt.1]
  have hn' : (s.func.f l').num = .nan := by rw [hn]; rfl
  congr 1
  cases s with
  | sum => exact stat_more .sum h hn'
  | mean => exact stat_more .mean h hn'
  | median => exact stat_more .median h hn'
  | max => exact stat_more .max h hn'
  | min => exact stat_more .min h hn'
  | var ddof => exact var_more hs h hn'
  | std root ddof =>
    show root (varOf ddof (l.map Val.num)) = .nan
    have e : root (varOf ddof (l'.map Val.num)) = .nan := hn'
    rcases var_gap hs.1 (gaps_num (mores_right h)) with ⟨p, -, hp, -, e', -⟩ | ⟨e', -⟩
    · obtain ⟨q, hq⟩ := hs.2.2 p hp
      rw [e', hq] at e
      cases e
    · rw [var_more hs.1 h e']
      exact hs.2.1

/-! ## Reductions -/

theorem red_more {r : Red} (hf : ∀ l l', List.Forall₂ More l l' → More (r.f l) (r.f l')) (hd : r.dt .float = .ok .float)
    (hl : r.logical = false) (hz : r.default = .flt .nan) : r.Rel More OnlyFloat r := by
  refine ⟨hf, fun _ _ => rfl, ?_, rfl, rfl, by rw [hz]; exact gap_nan.more, ?_⟩
  · rintro d e rfl h
    rw [hd] at h
    exact (Except.ok.inj h).symm
  · rintro d v rfl h
    rw [hl, hz] at h
    obtain rfl : _ = v := Except.ok.inj h
    rw [hl]
    exact ⟨gap_nan.more, rfl⟩

theorem measure_more {s : Measure} (hs : s.Solid) : s.func.Rel More OnlyFloat s.func := by
  refine red_more (fun _ _ => Measure.more hs) ?_ ?_ ?_ <;> cases s <;> rfl

theorem last_more {l l' : List Flt} (h : List.Forall₂ MoreF l l') : MoreF (l.getLast?.getD .nan) (l'.getLast?.getD .nan) := by
  induction h with
  | nil => exact .of_gap gapF_nan
  | cons h1 h2 ih =>
    cases h2 with
    | nil => exact h1
    | cons => simpa [List.getLast?_cons_cons] using ih

theorem finite_count {l l' : List Flt} (h : List.Forall₂ MoreF l l') :
    (l.filter Flt.isFinite).length ≤ (l'.filter Flt.isFinite).length := by
  induction h with
  | nil => exact le_refl _
  | cons h1 _ ih =>
    have e : ∀ q, (Flt.fin q).isFinite = true := fun _ => rfl
    have e' : Flt.nan.isFinite = false := rfl
    rcases h1.cases with ⟨rfl, rfl | ⟨q, rfl⟩⟩ | ⟨p, q, rfl, rfl⟩ <;> simp [e, e'] <;> omega

theorem lastrank_nan {l : List Val} (h : List.Forall₂ Gap l l) : lastrankLine l = .flt .nan ↔
    (l.map Val.num).getLast?.getD .nan = .nan ∨ ((l.map Val.num).filter Flt.isFinite).length = 1 := by
  obtain ⟨n1, -⟩ := gaps_noInf (gaps_num h)
  unfold lastrankLine
  dsimp only
  rcases gapF_self.mp (last_gap (gaps_num h)) with e | ⟨p, e⟩
  · rw [e]
    simp [Flt.isFinite]
  · have k1 := lastrank_one n1 e
    rw [e, if_pos (show (Flt.fin p).isFinite = true from rfl)]
    by_cases h1 : ((l.map Val.num).filter Flt.isFinite).length = 1
    · rw [h1, (k1.2 h1).1, (k1.2 h1).2]
      simp [Flt.div, Flt.infOf, Flt.sub, Flt.add, Flt.mul]
    · have hq : (((l.map Val.num).filter Flt.isFinite).length : ℚ) - 1 ≠ 0 := by
        intro hh
        apply h1
        have : (((l.map Val.num).filter Flt.isFinite).length : ℚ) = 1 := by linarith
        exact_mod_cast this
      simp [Flt.div, hq, Flt.sub, Flt.neg, Flt.add, Flt.mul, h1]

theorem lastrank_more {l l' : List Val} (h : List.Forall₂ More l l') : More (lastrankLine l) (lastrankLine l') := by
  refine more_of (lastrank_gap (mores_left h)) (lastrank_gap (mores_right h)) fun hn => ?_
  rw [lastrank_nan (mores_right h)] at hn
  rw [lastrank_nan (mores_left h)]
  rcases (last_more (mores_num h)).cases with ⟨e, -⟩ | ⟨p, q, e, e'⟩
  · exact .inl e
  · rcases hn with hn | hn
    · rw [e'] at hn; cases hn
    · have h1 := (lastrank_one (gaps_noInf (gaps_num (mores_left h))).1 e).1
      have h2 := finite_count (mores_num h)
      exact .inr (by omega)

theorem lastrank_moreRel : lastrankRed.Rel More OnlyFloat lastrankRed := red_more (fun _ _ => lastrank_more) rfl rfl rfl

/-! ## Methods along an axis -/

/-- A function of lines that keeps the length and gives more where there is more. -/
def MoreLine (n : Nat) (g : List Val → List Val) : Prop :=
  ∀ l l', l.length = n → List.Forall₂ More l l' → (g l).length = n ∧ List.Forall₂ More (g l) (g l')

theorem moreLine_of {n : Nat} {g : List Val → List Val} (hg : GapLine n g) (H : ∀ (l l' : List Val) (i : Nat) (w : Val), l.length = n →
    List.Forall₂ More l l' → (g l)[i]? = some w → (g l')[i]? = some (.flt .nan) → w = .flt .nan) : MoreLine n g := by
  intro l l' hn h
  have hn' : l'.length = n := by rw [← h.length_eq, hn]
  obtain ⟨e1, g1⟩ := hg l l hn (mores_left h)
  obtain ⟨e2, g2⟩ := hg l' l' hn' (mores_right h)
  refine ⟨e1, forall₂_of_gaps (by rw [e1, e2]) fun i w w' hw hw' => more_of ?_ ?_ fun k => H l l' i w hn h hw (k ▸ hw')⟩
  · exact List.forall₂_same.mp g1 w (List.mem_of_getElem? hw)
  · exact List.forall₂_same.mp g2 w' (List.mem_of_getElem? hw')

theorem moreLine_pointwise {n : Nat} {g : List Val → List Val} (hl : ∀ vs, (g vs).length = vs.length)
    (hg : ∀ (vs : List Val) (i : Nat) (x w : Val), NoInf (vs.map Val.num) → vs[i]? = some x → (g vs)[i]? = some w →
      (x.num = .nan → w = .flt .nan) ∧ (x.num ≠ .nan → ∃ q, w = .flt (.fin q))) : MoreLine n g := by
  refine moreLine_of (gapLine_pointwise hl hg) fun l l' i w hn h hw hw' => ?_
  have hi : i < l.length := by rw [← hl l]; exact (List.getElem?_eq_some_iff.mp hw).1
  obtain ⟨x', hx', hm⟩ := forall₂_get h (List.getElem?_eq_getElem hi)
  have h2 := (hg l' i x' _ (gaps_noInf (gaps_num (mores_right h))).1 hx' hw').2
  have hx2 : x'.num = .nan := by
    by_contra hne
    obtain ⟨q, hq⟩ := h2 hne
    cases hq
  exact (hg l i _ w (gaps_noInf (gaps_num (mores_left h))).1 (List.getElem?_eq_getElem hi) hw).1 (hm.num.2.2 hx2)

theorem mapLines_more {x x' : NDArray Val} (h : NDArray.Rel More x x') {ax : Nat} (hax : ax < x.shape.length) {g : List Val → List Val}
    (hg : MoreLine (x.shape.getD ax 0) g) : NDArray.Rel More (x.mapLines g .none ax) (x'.mapLines g .none ax) := by
  refine ⟨h.1, fun idx hi => ?_⟩
  obtain ⟨h1, h2⟩ := hg _ _ (by simp [NDArray.line]) (line_gap h hax (InB_erase hi hax))
  exact forall₂_getD h2 (by rw [h1]; exact inB_at hi hax) _ _

theorem along_more {y z : Larry L} (h : y.Rel More OnlyFloat z) {ax : Nat} (hax : ax < y.x.shape.length) {g : List Val → List Val}
    (hg : MoreLine (y.x.shape.getD ax 0) g) : (y.along g .float ax).Rel More OnlyFloat (z.along g .float ax) :=
  ⟨h.label, rfl, rfl, mapLines_more h.x hax hg⟩

theorem alongAll_more {y z : Larry L} (h : y.Rel More OnlyFloat z) {g : List Val → List Val}
    (hg : MoreLine y.x.vals.length g) : (y.alongAll g .float).Rel More OnlyFloat (z.alongAll g .float) := by
  refine ⟨h.label, rfl, rfl, h.x.1, fun idx hi => ?_⟩
  show More ((g y.x.vals).getD (ravelC y.x.shape idx) _) ((g z.x.vals).getD (ravelC z.x.shape idx) _)
  rw [← h.x.1]
  obtain ⟨h1, h2⟩ := hg _ _ rfl h.x.vals
  refine forall₂_getD h2 ?_ _ _
  rw [h1, ravelC_eq]
  have : rowMajor y.x.shape idx < y.x.shape.prod := rowMajor_lt hi
  simpa [NDArray.vals, length_allIdx] using this

theorem along_more_cases {y z : Larry L} (h : y.Rel More OnlyFloat z) (axis : Option Int) (e : Int → PyErr) {g : List Val → List Val}
    (hg : ∀ n, MoreLine n g) :
    Res.Agree (Larry.Rel More OnlyFloat)
      (match axis with
        | none => .ok (y.alongAll g .float)
        | some axis => match pyIdx y.ndim axis with
          | none => .error (e axis)
          | some ax => .ok (y.along g .float ax))
      (match axis with
        | none => .ok (z.alongAll g .float)
        | some axis => match pyIdx z.ndim axis with
          | none => .error (e axis)
          | some ax => .ok (z.along g .float ax)) := by
  rw [← h.ndim]
  cases axis with
  | none => exact alongAll_more h (hg _)
  | some i =>
    dsimp only
    cases hp : pyIdx y.ndim i with
    | none => exact rfl
    | some ax => exact along_more h (pyIdx_lt' hp) (hg _)

/-! ### demean -/

/-- A number if there is one among the values. -/
def CenterOf (center : List Flt → Flt) : Prop := ∀ l, NoInf l → (∃ x ∈ l, x ≠ .nan) → ∃ q, center l = .fin q

theorem noInf_gaps {l : List Flt} (h : NoInf l) : List.Forall₂ GapF l l := by
  refine List.forall₂_same.mpr fun x hx => gapF_self.mpr ?_
  have := h x hx
  cases x <;> simp_all

theorem mean_center : CenterOf nanmean := by
  rintro l hn ⟨x, hx, hne⟩
  rcases gapF_self.mp (nanmean_gap (noInf_gaps hn)) with e | e
  · exact absurd ((mean_nan hn (mean_is l)).mp e x hx) hne
  · exact e

theorem median_center : CenterOf medianOf := by
  rintro l hn ⟨x, hx, hne⟩
  rcases gapF_self.mp (median_gap (noInf_gaps hn)) with e | e
  · exact absurd ((median_nan hn (median_is l)).mp e x hx) hne
  · exact e

theorem demean_moreLine {center : List Flt → Flt} (hc : CenterOf center) (n : Nat) : MoreLine n (demeanLine center) := by
  refine moreLine_pointwise (fun vs => by simp [demeanLine]) fun vs i x w hn hx hw => ?_
  simp only [demeanLine, List.getElem?_map, hx, Option.map_some, Option.some.injEq] at hw
  subst hw
  refine ⟨fun h => by rw [h]; rfl, fun h => ?_⟩
  obtain ⟨m, hm⟩ := hc _ hn ⟨x.num, List.mem_map_of_mem (List.mem_of_getElem? hx), h⟩
  have hi := hn x.num (List.mem_map_of_mem (List.mem_of_getElem? hx))
  cases hxn : x.num with
  | fin a => exact ⟨a + -m, by rw [hm]; rfl⟩
  | nan => exact absurd hxn h
  | pinf => exact absurd hxn hi.1
  | ninf => exact absurd hxn hi.2

/-! ### ranking, quantile -/

theorem ranking_moreLine {norm : RankNorm} (hs : norm.Solid) (hu : norm ≠ .unknown) (n : Nat) : MoreLine n (rankingLine norm) :=
  moreLine_pointwise (rankingLine_length norm) fun vs i x w _ hx hw => ranking_nums hs hu vs i x w hx hw

theorem quantile_moreLine {argsort : List ℚ → List Nat} (ha : IsArgsort argsort) {q : Nat} (hq : 2 ≤ q) (n : Nat) :
    MoreLine n (quantileLine argsort q) := by
  refine moreLine_pointwise (fun vs => (quantileLine_spec ha hq vs).1) fun vs i x w hi hx hw => ?_
  obtain ⟨-, rank, -, h⟩ := quantileLine_spec ha hq vs
  obtain ⟨h1, h2⟩ := h i x w hx hw
  refine ⟨fun hn => h2 (fun a ha => by rw [hn] at ha; cases ha), fun hn => ?_⟩
  have hm := hi x.num (List.mem_map_of_mem (List.mem_of_getElem? hx))
  cases hxn : x.num with
  | fin a => obtain ⟨-, k, -, e⟩ := h1 a hxn; exact ⟨_, e⟩
  | nan => exact absurd hxn hn
  | pinf => exact absurd hxn hm.1
  | ninf => exact absurd hxn hm.2

/-! ### push -/

/-- What the two runs carry along at place `i`: the second has a number to fill with if the first has, and no older one. -/
def PushMore (i : Nat) (r r' : Val) (c c' : Option Nat) : Prop :=
  More r r' ∧ ((c = none ∧ r = .flt .nan) ∨ ∃ k k', c = some k ∧ c' = some k' ∧ k ≤ k' ∧ k < i)

theorem pushGo_more (n : Int) {l l' : List Val} (h : List.Forall₂ More l l') (i : Nat) {r r' : Val} {c c' : Option Nat}
    (hp : PushMore i r r' c c') : List.Forall₂ More (pushGo n i r c l) (pushGo n i r' c' l') := by
  induction h generalizing i r r' c c' with
  | nil => exact .nil
  | @cons v v' _ _ h1 _ ih =>
    obtain ⟨hr, hc⟩ := hp
    unfold pushGo
    dsimp only
    generalize e2 : (if pushGo.pushStale n i c then .flt .nan else r) = r2
    generalize e2' : (if pushGo.pushStale n i c' then .flt .nan else r') = r2'
    have g2' : Gap r2' r2' := by rw [← e2']; split; exacts [gap_nan, hr.right]
    have hn : c = none → r2 = .flt .nan := by
      rintro rfl
      rcases hc with ⟨-, e⟩ | ⟨k, k', e, -⟩
      · rw [← e2, e]; simp
      · cases e
    have hr2 : More r2 r2' := by
      rcases hc with ⟨e, -⟩ | ⟨k, k', e, e', hk, -⟩
      · rw [hn e]; exact more_nan g2'
      · by_cases hs : pushGo.pushStale n i c = true
        · rw [if_pos hs] at e2
          rw [← e2]; exact more_nan g2'
        · have hs' : ¬ pushGo.pushStale n i c' = true := by
            rw [e] at hs
            rw [e']
            simp only [pushGo.pushStale, decide_eq_true_eq] at hs ⊢
            omega
          rw [← e2, ← e2', if_neg hs, if_neg hs']
          exact hr
    have hc2 : (c = none ∧ r2 = .flt .nan) ∨ ∃ k, c = some k ∧ k < i := by
      rcases hc with ⟨e, -⟩ | ⟨k, k', e, -, -, hi⟩
      · exact .inl ⟨e, hn e⟩
      · exact .inr ⟨k, e, hi⟩
    rcases h1.cases with ⟨rfl, rfl⟩ | ⟨rfl, q, rfl⟩ | ⟨p, q, rfl, rfl⟩
    · refine .cons hr2 (ih (i + 1) ⟨hr2, ?_⟩)
      rcases hc with ⟨e, -⟩ | ⟨k, k', e, e', hk, hi⟩
      · exact .inl ⟨e, hn e⟩
      · exact .inr ⟨k, k', e, e', hk, by omega⟩
    · have hv : More r2 (.flt (.fin q)) := more_of hr2.left (gapF_fin q q).gap fun k => by cases k
      refine .cons hv (ih (i + 1) ⟨hv, ?_⟩)
      rcases hc2 with ⟨e, e'⟩ | ⟨k, e, hi⟩
      · exact .inl ⟨e, e'⟩
      · exact .inr ⟨k, i, e, rfl, by omega, by omega⟩
    · exact .cons h1 (ih (i + 1) ⟨h1, .inr ⟨i, i, rfl, rfl, le_refl _, by omega⟩⟩)

theorem push_moreLine (w : Int) (n : Nat) : MoreLine n (pushLine w) :=
  fun l l' hn h => ⟨by rw [pushLine, pushGo_len, hn], pushGo_more w h 0 ⟨gap_nan.more, .inl ⟨rfl, rfl⟩⟩⟩

/-! ### movingsum_forward -/

theorem finites_nil {fs : List Flt} (h : NoInf fs) : finites fs = [] ↔ ∀ f ∈ fs, f = .nan := by
  induction fs with
  | nil => simp [finites]
  | cons f fs ih =>
    have h1 := h f (by simp)
    have h2 := ih fun x hx => h x (by simp [hx])
    cases f <;> simp_all [finites]

theorem movingsum_moreLine {window : Nat} (hw : 1 ≤ window) (skip : Nat) (norm : Bool) (n : Nat) :
    MoreLine n (movingsumForwardLine .float window skip norm) := by
  refine moreLine_of (movingsum_line hw skip norm n) fun l l' i w hn h hi hi' => ?_
  have n1 := (gaps_noInf (gaps_num (mores_left h))).1
  have n2 := (gaps_noInf (gaps_num (mores_right h))).1
  obtain ⟨k1, s1⟩ := movingsumForwardLine_spec (d := .float) (skip := skip) norm hw n1 (.inl rfl)
  obtain ⟨k2, s2⟩ := movingsumForwardLine_spec (d := .float) (skip := skip) norm hw n2 (.inl rfl)
  obtain ⟨a1, a2, -⟩ := s1 i w hi
  obtain ⟨-, -, b3⟩ := s2 i _ hi'
  rw [← h.length_eq] at b3
  by_cases hc : i + skip + window ≤ l.length
  · refine a2 hc ?_
    have hf : finites (windowAt l' i skip window) = [] := by
      by_contra hne
      have := b3 hc hne
      cases this
    have sub : ∀ (l : List Val), NoInf (l.map Val.num) → NoInf (windowAt l i skip window) := fun l hl x hx =>
      hl x (List.mem_of_mem_drop (List.mem_of_mem_take hx))
    rw [finites_nil (sub l n1)]
    rw [finites_nil (sub l' n2)] at hf
    exact mores_nan (List.forall₂_take window (List.forall₂_drop (i + skip) (mores_num h))) hf
  · exact a1 (by omega)

/-! ### The moving windows of Bottleneck -/

theorem bnMove_moreLine {out : Flt × Nat → Flt} {T : List Flt → Flt → Prop} (hg : ∀ s s', StateGap s s' → GapF (out s) (out s'))
    (hn : ∀ s : Flt × Nat, s.1 = .nan → out s = .nan) (ho : ∀ w : List Flt, T w (out (stateOf w)))
    (hT : ∀ (fs : List Flt) (a : Flt), NoInf fs → T fs a → (a = .nan ↔ ∀ f ∈ fs, f = .nan))
    {window n : Nat} (h1 : 1 ≤ window) (hw : window ≤ n) : MoreLine n (bnMoveLine out window) := by
  refine moreLine_of (bnMove_line hg h1 hw) fun l l' i w hl h hi hi' => ?_
  have n1 := (gaps_noInf (gaps_num (mores_left h))).1
  have n2 := (gaps_noInf (gaps_num (mores_right h))).1
  have hlen : (bnMoveLine out window l).length = l.length := bnMoveLine_length _ h1 (by omega)
  have hil : i < l.length := by rw [← hlen]; exact (List.getElem?_eq_some_iff.mp hi).1
  obtain ⟨q, e, c1, c2⟩ := out_cases hn ho h1 l i hil
  obtain ⟨q', e', -, c2'⟩ := out_cases hn ho h1 l' i (by rw [← h.length_eq]; exact hil)
  rw [e] at hi
  rw [e'] at hi'
  obtain rfl := Option.some.inj hi
  have hq' : q' = .nan := Val.flt.inj (Option.some.inj hi')
  congr 1
  by_cases hs : i + 1 < window
  · exact c1 hs
  · have before : ∀ l : List Val, NoInf (l.map Val.num) → NoInf ((l.take (i + 1 - window)).map Val.num) := fun l hl x hx => by
      rw [List.map_take] at hx
      exact hl x (List.mem_of_mem_take hx)
    have within : ∀ l : List Val, NoInf (l.map Val.num) → NoInf (((l.drop (i + 1 - window)).take window).map Val.num) := fun l hl x hx => by
      rw [List.map_take, List.map_drop] at hx
      exact hl x (List.mem_of_mem_drop (List.mem_of_mem_take hx))
    have t := (c2 (by omega)).1 (before l n1)
    have t' := (c2' (by omega)).1 (before l' n2)
    rw [hT _ _ (within l n1) t]
    exact mores_nan (mores_num (List.forall₂_take window (List.forall₂_drop _ h))) ((hT _ _ (within l' n2) t').mp hq')

theorem More.toFloat {v w : Val} (h : More v w) : More v.toFloat w.toFloat := by obtain ⟨a, b, rfl, rfl, h⟩ := h; exact h.more

theorem windows_moreLine {f : List Val → Val} (hf : ∀ l l', List.Forall₂ More l l' → More (f l) (f l')) (window n : Nat) :
    MoreLine n (windowsLine f window) := by
  intro l l' hn h
  refine ⟨by simp [windowsLine, hn], ?_⟩
  unfold windowsLine
  rw [← h.length_eq]
  refine NDArray.forall₂_map fun i _ => ?_
  unfold windowStat
  split
  · exact gap_nan.more
  · exact (hf _ _ (List.forall₂_take window (List.forall₂_drop _ h))).toFloat

theorem move_moreLine {k : MoveKind} (hk : k.Solid) {window n : Nat} (h1 : 1 ≤ window) (hw : window ≤ n) : MoreLine n (k.line window) := by
  cases k with
  | sum => exact bnMove_moreLine sumOut_gap sumOut_nan sumOut_is (fun _ _ h k => sum_nan h k) h1 hw
  | mean => exact bnMove_moreLine meanOut_gap meanOut_nan meanOut_is (fun _ _ h k => mean_nan h k) h1 hw
  | min => exact windows_moreLine (fun l l' h => Measure.more (s := .min) trivial h) window n
  | max => exact windows_moreLine (fun l l' h => Measure.more (s := .max) trivial h) window n
  | std root => exact windows_moreLine (fun l l' h => Measure.more (s := .std root 0) ⟨by decide, hk⟩ h) window n

/-! ## The methods -/

theorem floats {y z : Larry L} (h : y.Rel More OnlyFloat z) : y.dtype = .float := h.known

theorem floats' {y z : Larry L} (h : y.Rel More OnlyFloat z) : z.dtype = .float := h.dtype ▸ h.known

theorem demean_more {center : List Flt → Flt} (hc : CenterOf center) {y z : Larry L} (h : y.Rel More OnlyFloat z) (axis : Option Int) :
    Res.Agree (Larry.Rel More OnlyFloat) (y.demean center axis) (z.demean center axis) := by
  unfold Larry.demean
  simp only [floats h, floats' h, floaty, if_false, ← h.ndim]
  cases axis with
  | none => exact alongAll_more h (demean_moreLine hc _)
  | some i =>
    dsimp only
    cases hp : npAxis y.ndim i with
    | error e => exact rfl
    | ok ax => exact along_more h (npAxis_lt hp) (demean_moreLine hc _)

theorem ranking_more {norm : RankNorm} (hs : norm.Solid) {y z : Larry L} (h : y.Rel More OnlyFloat z) (axis : Option Int) :
    Res.Agree (Larry.Rel More OnlyFloat) (y.ranking axis norm) (z.ranking axis norm) := by
  unfold Larry.ranking
  simp only [floats h, floats' h, floaty, if_false]
  cases norm with
  | unknown => exact rfl
  | pm1 => exact along_more_cases h axis _ (fun n => ranking_moreLine hs (by simp) n)
  | n1 => exact along_more_cases h axis _ (fun n => ranking_moreLine hs (by simp) n)
  | gaussian f => exact along_more_cases h axis _ (fun n => ranking_moreLine hs (by simp) n)

theorem quantile_more {argsort : List ℚ → List Nat} (ha : IsArgsort argsort) {y z : Larry L} (h : y.Rel More OnlyFloat z) (q : Int)
    (axis : Option Int) : Res.Agree (Larry.Rel More OnlyFloat) (y.quantile argsort q axis) (z.quantile argsort q axis) := by
  have hsz : z.size = y.size := by simp only [Larry.size, NDArray.size, h.x.1]
  have hsh : z.shape = y.shape := h.x.1.symm
  unfold Larry.quantile
  simp only [floats h, floats' h, floaty, if_false, ← h.ndim, hsz, hsh]
  by_cases h1 : q < 1
  · rw [if_pos h1, if_pos h1]; exact rfl
  rw [if_neg h1, if_neg h1]
  by_cases h2 : q = 1
  · rw [if_pos h2, if_pos h2]
    refine ⟨h.label, rfl, rfl, h.x.map fun v w hvw => ?_⟩
    rcases hvw.cases with ⟨rfl, rfl⟩ | ⟨rfl, q, rfl⟩ | ⟨p, q, rfl, rfl⟩
    · exact gap_nan.more
    · exact more_nan (gapF_fin 0 0).gap
    · exact (gapF_fin 0 0).gap.more
  rw [if_neg h2, if_neg h2]
  have hq : 2 ≤ q.toNat := by omega
  cases axis with
  | none =>
    dsimp only
    split
    · exact rfl
    · exact alongAll_more h (quantile_moreLine ha hq _)
  | some i =>
    dsimp only
    cases hp : pyIdx y.ndim i with
    | none => exact rfl
    | some ax =>
      dsimp only
      split
      · exact rfl
      · exact along_more h (pyIdx_lt' hp) (quantile_moreLine ha hq _)

theorem push_more {y z : Larry L} (h : y.Rel More OnlyFloat z) (window axis : Int) :
    Res.Agree (Larry.Rel More OnlyFloat) (y.push window axis) (z.push window axis) := by
  unfold Larry.push
  simp only [floats h, floats' h, floaty, if_false, ← h.ndim]
  cases hp : npAxis y.ndim axis with
  | error e => exact rfl
  | ok ax => exact along_more h (npAxis_lt hp) (push_moreLine _ _)

theorem movingsum_more {y z : Larry L} (h : y.Rel More OnlyFloat z) (window : Int) (skip : Nat) (axis : Int) (norm : Bool) :
    Res.Agree (Larry.Rel More OnlyFloat) (y.movingsumForward window skip axis norm) (z.movingsumForward window skip axis norm) := by
  have hsh : z.shape = y.shape := h.x.1.symm
  unfold Larry.movingsumForward
  simp only [floats h, floats' h, floaty, if_false, ← h.ndim, hsh]
  cases hp : pyIdx y.ndim axis with
  | none => exact rfl
  | some ax =>
    dsimp only
    split
    · exact rfl
    split
    · exact rfl
    split
    · exact rfl
    exact along_more h (pyIdx_lt' hp) (movingsum_moreLine (by omega) skip norm _)

theorem moveBn_more {k : MoveKind} (hk : k.Solid) {y z : Larry L} (h : y.Rel More OnlyFloat z) (window axis : Int) :
    Res.Agree (Larry.Rel More OnlyFloat) (k.run y window axis) (k.run z window axis) := by
  have hsh : z.shape = y.shape := h.x.1.symm
  rw [k.run_eq, k.run_eq]
  unfold Larry.moveBn
  simp only [floats h, floats' h, floaty, if_false, ← h.ndim, hsh]
  cases hp : pyIdx y.ndim axis with
  | none => exact rfl
  | some ax =>
    dsimp only
    by_cases hw : window < 1 ∨ (y.shape.getD ax 0 : Int) < window
    · rw [if_pos hw, if_pos hw]; exact rfl
    · rw [if_neg hw, if_neg hw]
      have h2 : window.toNat ≤ y.x.shape.getD ax 0 := by
        have : ¬ (y.shape.getD ax 0 : Int) < window := fun k => hw (.inr k)
        have e : y.shape.getD ax 0 = y.x.shape.getD ax 0 := rfl
        omega
      exact along_more h (pyIdx_lt' hp) (move_moreLine hk (by omega) h2)

/-- A function of elements that makes a number of a number, and a number or NaN of NaN. -/
theorem fn_more {f : Val → Val} (h1 : ∀ q : ℚ, ∃ r : ℚ, f (.flt (.fin q)) = .flt (.fin r)) (h2 : Gap (f (.flt .nan)) (f (.flt .nan)))
    {v w : Val} (h : More v w) : More (f v) (f w) := by
  rcases h.cases with ⟨rfl, rfl⟩ | ⟨rfl, q, rfl⟩ | ⟨p, q, rfl, rfl⟩
  · exact h2.more
  · obtain ⟨r, hr⟩ := h1 q
    rw [hr]
    exact more_of h2 (gapF_fin _ _).gap fun k => by cases k
  · obtain ⟨r, hr⟩ := h1 p
    obtain ⟨r', hr'⟩ := h1 q
    rw [hr, hr']
    exact (gapF_fin _ _).gap.more

theorem clip_more {lo hi : ℚ} {y z : Larry L} (h : y.Rel More OnlyFloat z) :
    Res.Agree (Larry.Rel More OnlyFloat) (y.clip (.fin lo) (.fin hi)) (z.clip (.fin lo) (.fin hi)) := by
  unfold Larry.clip
  simp only [floats h, floats' h, floaty, if_false]
  split
  · exact rfl
  · refine ⟨h.label, rfl, rfl, h.x.map fun v w hvw => ?_⟩
    refine fn_more (f := fun v => .flt (clip1 (.fin lo) (.fin hi) v.num)) (fun p => ?_) gap_nan hvw
    show ∃ r : ℚ, Val.flt (clip1 (.fin lo) (.fin hi) (.fin p)) = .flt (.fin r)
    unfold clip1
    split
    · exact ⟨_, rfl⟩
    split
    · exact ⟨_, rfl⟩
    · exact ⟨_, rfl⟩

theorem filled_gap {u : ℚ} {v w : Val} (h : More v w) :
    Gap (if v.isNan then .flt (.fin u) else v) (if w.isNan then .flt (.fin u) else w) := by
  rcases h.cases with ⟨rfl, rfl⟩ | ⟨rfl, q, rfl⟩ | ⟨p, q, rfl, rfl⟩ <;> exact (gapF_fin _ _).gap

theorem More.isNan {v w : Val} (h : More v w) (hw : w.isNan = true) : v.isNan = true := by
  rcases h.cases with ⟨rfl, rfl⟩ | ⟨rfl, q, rfl⟩ | ⟨p, q, rfl, rfl⟩
  · rfl
  · rfl
  · cases hw

/-- NaN put back where the element was NaN. -/
theorem restored_more {b b' : Bool} (hb : b' = true → b = true) {v w : Val} (h : Gap v w) :
    More (if b then .flt .nan else v) (if b' then .flt .nan else w) := by
  cases b with
  | true =>
    rw [if_pos rfl]
    refine more_nan ?_
    split
    · exact gap_nan
    · exact h.more.right
  | false =>
    cases b' with
    | true => cases hb rfl
    | false => exact h.more

theorem cumulate_more {op : DType → Val → Val → Val} {opF : Flt → Flt → Flt} (ho : op .float = fun a b => .flt (opF a.num b.num))
    (hop : ∀ a b a' b', GapF a b → GapF a' b' → GapF (opF a a') (opF b b')) (u : Int) {y z : Larry L} (h : y.Rel More OnlyFloat z)
    (axis : Option Int) : Res.Agree (Larry.Rel More OnlyFloat) (y.cumulate op u axis) (z.cumulate op u axis) := by
  cases axis with
  | none => exact rfl
  | some i =>
    unfold Larry.cumulate
    dsimp only
    simp only [floats h, floats' h, floaty, if_false, ← h.ndim]
    cases hp : npAxis y.ndim i with
    | error e => exact rfl
    | ok ax =>
      have hx : NDArray.Rel Gap (y.x.map (replaceNan (ofInt .float u))) (z.x.map (replaceNan (ofInt .float u))) :=
        h.x.map fun v w hvw => filled_gap hvw
      have hl : GapLine ((y.x.map (replaceNan (ofInt .float u))).shape.getD ax 0) (cumGo (op .float) (ofInt .float u)) := by
        rw [ho]; exact cum_line hop _ _
      have hm := mapLines_gap hx (ax := ax) (npAxis_lt hp) hl
      exact ⟨h.label, rfl, rfl, hm.1, fun idx hi => restored_more (h.x.2 idx hi).isNan (hm.2 idx hi)⟩

theorem all_nan_more {bs bs' : List Bool} (h : List.Forall₂ (fun b b' => b' = true → b = true) bs bs') (hb : bs'.all id = true) :
    bs.all id = true := by
  induction h with
  | nil => rfl
  | cons h1 _ ih =>
    simp only [List.all_cons, id, Bool.and_eq_true] at hb ⊢
    exact ⟨h1 hb.1, ih hb.2⟩

theorem prod_more {y z : Larry L} (h : y.Rel More OnlyFloat z) (axis : Option Int) :
    Res.Agree (Out.Rel More OnlyFloat) (y.prod axis) (z.prod axis) := by
  have hx : NDArray.Rel Gap (y.x.map (fun v => if v.isNan then .flt (.fin 1) else v)) (z.x.map (fun v => if v.isNan then .flt (.fin 1) else v)) :=
    h.x.map fun v w hvw => filled_gap hvw
  have h1 : Larry.Rel Gap OnlyFloat ⟨y.x.map (fun v => if v.isNan then .flt (.fin 1) else v), .float, y.label⟩
      ⟨z.x.map (fun v => if v.isNan then .flt (.fin 1) else v), .float, z.label⟩ := ⟨h.label, rfl, rfl, hx⟩
  have hr := reduce_rel prod_red h1 axis
  have hnan : NDArray.Rel (fun b b' => b' = true → b = true) (y.x.map Val.isNan) (z.x.map Val.isNan) :=
    h.x.map fun v w hvw => hvw.isNan
  have n1 : ¬ (DType.float = .str ∨ DType.float = .object) := by decide
  unfold Larry.prod
  simp only [floats h, floats' h, if_neg n1, ← h.ndim]
  rcases hr.cases with ⟨a, b, e1, e2, hab⟩ | ⟨e, e1, e2⟩
  · rw [e1, e2]
    cases a with
    | scalar v =>
      cases b with
      | larry _ => exact hab.elim
      | scalar w => exact restored_more (all_nan_more hnan.vals) hab
    | larry u =>
      cases b with
      | scalar _ => exact hab.elim
      | larry w =>
        have hab' : Larry.Rel Gap OnlyFloat u w := hab
        cases axis with
        | none => exact ⟨hab'.label, hab'.dtype, hab'.known, hab'.x.1, fun idx hi => (hab'.x.2 idx hi).more⟩
        | some i =>
          dsimp only
          cases hp : pyIdx y.ndim i with
          | none => exact rfl
          | some ax =>
            have hsh : u.x.shape = y.x.shape.eraseIdx ax := reduce_erase e1 hp
            have hax : ax < y.x.shape.length := pyIdx_lt' hp
            refine ⟨hab'.label, hab'.dtype, hab'.known, hab'.x.1, fun idx hi => ?_⟩
            have hi' : InB (y.x.shape.eraseIdx ax) idx := hsh ▸ hi
            refine restored_more (fun k => ?_) (hab'.x.2 idx hi)
            rw [Bool.and_eq_true] at k ⊢
            refine ⟨all_nan_more ?_ k.1, by rw [hab'.dtype]; exact k.2⟩
            simp only [NDArray.line]
            rw [← hnan.1]
            exact NDArray.forall₂_map fun j hj => hnan.2 _ (InB_insert hax (by simpa using hj) hi')
  · rw [e1, e2]; exact rfl

/-! ## Arithmetic, fills -/

theorem more_fills : FillsRelated More OnlyFloat := by
  rintro d rfl
  refine ⟨fun m hm => ?_, fun h => by simp [missingMarker] at h⟩
  obtain rfl : _ = m := by simpa [missingMarker] using hm
  exact gap_nan.more

theorem arith_more {op : ArithOp} (ho : op.Solid) (py3 : Bool) : (op.uf py3).Rel More OnlyFloat (op.uf py3) := by
  have dt : ∀ {db di : DType} (d e : DType) (r : DType), OnlyFloat d → OnlyFloat e → Arith.loopDt db di d e = .ok r → OnlyFloat r := by
    rintro db di d e r rfl rfl h
    exact (Except.ok.inj h).symm
  cases op <;> first | exact ho.elim | skip
  all_goals
    refine ⟨?_, fun _ _ _ _ => rfl, fun d e r => dt d e r⟩
    rintro _ _ _ _ ⟨a, b, rfl, rfl, h⟩ ⟨a', b', rfl, rfl, h'⟩
    refine MoreF.more ⟨?_, ?_, ?_⟩
    · first
        | exact h.1.add h'.1
        | exact h.1.sub h'.1
        | exact h.1.mul h'.1
    · first
        | exact h.2.1.add h'.2.1
        | exact h.2.1.sub h'.2.1
        | exact h.2.1.mul h'.2.1
    · rcases h.cases with ⟨rfl, -⟩ | ⟨p, q, rfl, rfl⟩
      · exact fun _ => rfl
      · rcases h'.cases with ⟨rfl, -⟩ | ⟨p', q', rfl, rfl⟩
        · exact fun _ => rfl
        · intro k; cases k

/-! ## merge with update=True -/

section order
variable [LinearOrder L]

theorem merge_pointwise {y z : Larry L} (hy : y.dtype = .float) (hz : z.dtype = .float)
    {p1 p2 : Larry L} (hl : mergeLoop (List.range y.ndim) y z = .ok (p1, p2)) (hn : y.ndim = z.ndim)
    (h1 : p1.dtype = .float) (h2 : p2.dtype = .float) :
    ∃ r, merge y z true = .ok r ∧ r.label = p1.label ∧ r.dtype = .float ∧ r.x.shape = p1.x.shape ∧
      ∀ idx, InB p1.x.shape idx → r.x.get idx = if presentVal .float (p2.x.get idx) then p2.x.get idx else p1.x.get idx := by
  unfold merge
  rw [if_neg (not_not.mpr hn), hl]
  simp only [hy, hz, h1, h2]
  rw [if_neg (by simp), if_neg (by simp)]
  by_cases ha : anyAt p1.x.shape (fun i => presentVal .float (p2.x.get i)) = true
  · rw [if_pos ha, if_pos (show canCast .float .float = true from rfl)]
    exact ⟨_, rfl, rfl, rfl, rfl, fun idx _ => rfl⟩
  · rw [if_neg ha]
    refine ⟨_, rfl, rfl, h1, rfl, fun idx hi => ?_⟩
    rw [if_neg]
    intro hp
    exact ha (anyAt_iff.mpr ⟨idx, hi, hp⟩)

theorem merge_more {y z y' z' : Larry L} (hy : y.Valid) (hy' : y'.Valid)
    (h : y.Rel More OnlyFloat z) (h' : y'.Rel More OnlyFloat z') :
    Res.Agree (Larry.Rel More OnlyFloat) (merge y y' true) (merge z z' true) := by
  by_cases hn : y.ndim = y'.ndim
  · obtain ⟨tgt, y1, y2, -, h1, s1, s2⟩ := merge_sides hy hy' hn
    rcases (mergeLoop_rel more_fills (List.range y.ndim) h h').cases with ⟨⟨p1, p2⟩, ⟨q1, q2⟩, h2, h3, h4, h5⟩ | ⟨e, h2, h3⟩
    · rw [h1] at h2
      simp only [Except.ok.injEq, Prod.mk.injEq] at h2
      obtain ⟨rfl, rfl⟩ := h2
      simp only at h4 h5
      have hs : y1.x.shape = y2.x.shape := by rw [s1.valid.shape_eq, s2.valid.shape_eq, s1.label_eq, s2.label_eq]
      rw [h.ndim] at h3
      obtain ⟨r, e1, l1, d1, t1, g1⟩ := merge_pointwise (floats h) (floats h') h1 hn (floats h4) (floats h5)
      obtain ⟨r', e2, l2, d2, t2, g2⟩ := merge_pointwise (floats' h) (floats' h') h3 (by rw [← h.ndim, ← h'.ndim, hn])
        (floats' h4) (floats' h5)
      rw [e1, e2]
      refine ⟨by rw [l1, l2, h4.label], by rw [d1, d2], d1, by rw [t1, t2, h4.x.1], fun idx hi => ?_⟩
      rw [t1] at hi
      rw [g1 idx hi, g2 idx (h4.x.1 ▸ hi)]
      have m1 := h4.x.2 idx hi
      have m2 := h5.x.2 idx (hs ▸ hi)
      rcases m2.cases with ⟨e, e'⟩ | ⟨e, q, e'⟩ | ⟨p, q, e, e'⟩ <;> rw [e, e']
      · exact m1
      · exact more_of m1.left (gapF_fin q q).gap fun k => by cases k
      · exact (gapF_fin _ _).gap.more
    · rw [h1] at h2; simp at h2
  · unfold merge
    rw [if_pos hn, if_pos (by rw [← h.ndim, ← h'.ndim]; exact hn)]
    exact rfl

end order

/-! ## C121 -/

/-- The same names, floats, no infinities, and a number in `z` wherever there is one in `y`. -/
structure Larry.Sparser (y z : Larry L) : Prop where
  label : z.label = y.label
  dtype : y.dtype = .float ∧ z.dtype = .float
  real : ∀ names v, y.Has names v ∨ z.Has names v → v = .flt .nan ∨ ∃ q : ℚ, v = .flt (.fin q)
  has : ∀ names v w, y.Has names v → z.Has names w → v ≠ .flt .nan → w ≠ .flt .nan

/-- The same of results that may be single elements. -/
def Out.Sparser : Out L → Out L → Prop
  | .scalar v, .scalar w => (v = .flt .nan ∨ ∃ q : ℚ, v = .flt (.fin q)) ∧ (w = .flt .nan ∨ ∃ q : ℚ, w = .flt (.fin q)) ∧
      (v ≠ .flt .nan → w ≠ .flt .nan)
  | .larry y, .larry z => y.Sparser z
  | _, _ => False

theorem real_iff {v : Val} : Gap v v ↔ v = .flt .nan ∨ ∃ q : ℚ, v = .flt (.fin q) := by
  constructor
  · intro h
    rcases gap_iff.mp h with ⟨e, -⟩ | ⟨p, -, e, -⟩
    · exact .inl e
    · exact .inr ⟨p, e⟩
  · rintro (rfl | ⟨q, rfl⟩)
    · exact gap_nan
    · exact (gapF_fin _ _).gap

theorem more_iff {v w : Val} : More v w ↔ (v = .flt .nan ∨ ∃ q : ℚ, v = .flt (.fin q)) ∧ (w = .flt .nan ∨ ∃ q : ℚ, w = .flt (.fin q)) ∧
    (v ≠ .flt .nan → w ≠ .flt .nan) :=
  ⟨fun h => ⟨real_iff.mp h.left, real_iff.mp h.right, fun k e => k (h.nan e)⟩,
    fun ⟨h1, h2, h3⟩ => more_of (real_iff.mpr h1) (real_iff.mpr h2) fun e => by_contra fun k => h3 k e⟩

theorem Larry.Sparser.rel {y z : Larry L} (h : y.Sparser z) (hy : y.Valid) (hz : z.Valid) : y.Rel More OnlyFloat z := by
  refine ⟨h.label.symm, h.dtype.1.trans h.dtype.2.symm, h.dtype.1, by rw [hy.shape_eq, hz.shape_eq, h.label], fun idx hi => ?_⟩
  rw [hy.shape_eq] at hi
  obtain ⟨names, hat⟩ := At_of_inB hi
  have h1 : y.Has names (y.x.get idx) := ⟨idx, hat, rfl⟩
  have h2 : z.Has names (z.x.get idx) := ⟨idx, by rw [h.label]; exact hat, rfl⟩
  exact more_iff.mpr ⟨h.real names _ (.inl h1), h.real names _ (.inr h2), h.has names _ _ h1 h2⟩

theorem sparser_of {y z : Larry L} (h : y.Rel More OnlyFloat z) (hy : y.Valid) : y.Sparser z := by
  have key : ∀ names v w, y.Has names v → z.Has names w → More v w := by
    rintro names v w ⟨idx, hat, rfl⟩ ⟨idx', hat', rfl⟩
    rw [← h.label] at hat'
    obtain rfl : idx' = idx := At_unique hy.nodup hat' hat
    exact h.x.2 _ (by rw [hy.shape_eq]; exact At_inB hat)
  refine ⟨h.label.symm, ⟨floats h, floats' h⟩, ?_, fun names v w hv hw => (more_iff.mp (key names v w hv hw)).2.2⟩
  rintro names v (hv | hv)
  · obtain ⟨idx, hat, -⟩ := id hv
    exact real_iff.mp (key names v _ hv ⟨idx, h.label ▸ hat, rfl⟩).left
  · obtain ⟨idx, hat, -⟩ := id hv
    exact real_iff.mp (key names _ v ⟨idx, h.label.symm ▸ hat, rfl⟩ hv).right

theorem out_sparser {a b : Out L} (h : a.Rel More OnlyFloat b) (ha : ∀ u, a = .larry u → u.Valid) : a.Sparser b := by
  cases a <;> cases b <;> first
    | exact h.elim
    | exact more_iff.mp h
    | exact sparser_of h (ha _ rfl)

variable [LinearOrder L]

/-- A call that gives more for more. Values among the arguments may differ, and there may be more of them. -/
inductive Cmd.Grows : Cmd L → Cmd L → Prop
  | new {x x' : NDArray Val} (label) : x.shape = x'.shape → (∀ idx, InB x.shape idx → More (x.get idx) (x'.get idx)) →
      Cmd.Grows (.new x .float label) (.new x' .float label)
  | moves {c} : c.Moves → Cmd.Grows c c
  | arith {op : ArithOp} (py3 i j) : op.Solid → Cmd.Grows (.binop (op.uf py3) i j) (.binop (op.uf py3) i j)
  | arithArray {op : ArithOp} {x x' : NDArray Val} (py3 i) : op.Solid → x.shape = x'.shape →
      (∀ idx, InB x.shape idx → More (x.get idx) (x'.get idx)) →
      Cmd.Grows (.binopArray (op.uf py3) i x .float) (.binopArray (op.uf py3) i x' .float)
  | merge (i j) : Cmd.Grows (.merge i j true) (.merge i j true)
  | set {v w} (i names) : More v w → Cmd.Grows (.set i names v) (.set i names w)
  | measure {s : Measure} (i axis) : s.Solid → Cmd.Grows (.reduce s.func i axis) (.reduce s.func i axis)
  | lastrank (i axis) : Cmd.Grows (.reduce lastrankRed i axis) (.reduce lastrankRed i axis)
  | prod (i axis) : Cmd.Grows (.prod i axis) (.prod i axis)
  | cumsum (i axis) : Cmd.Grows (.cumsum i axis) (.cumsum i axis)
  | cumprod (i axis) : Cmd.Grows (.cumprod i axis) (.cumprod i axis)
  | clip (i) (lo hi : ℚ) : Cmd.Grows (.clip i (.fin lo) (.fin hi)) (.clip i (.fin lo) (.fin hi))
  | push (i window axis) : Cmd.Grows (.push i window axis) (.push i window axis)
  | ranking {norm : RankNorm} (i axis) : norm.Solid → Cmd.Grows (.ranking i axis norm) (.ranking i axis norm)
  | quantile {argsort} (i q axis) : IsArgsort argsort → Cmd.Grows (.quantile argsort i q axis) (.quantile argsort i q axis)
  | demean (i axis) : Cmd.Grows (.demean nanmean i axis) (.demean nanmean i axis)
  | demedian (i axis) : Cmd.Grows (.demean medianOf i axis) (.demean medianOf i axis)
  | movingsumForward (i window skip axis norm) :
      Cmd.Grows (.movingsumForward i window skip axis norm) (.movingsumForward i window skip axis norm)
  | moveBn {k : MoveKind} (i window axis) : k.Solid → Cmd.Grows (.moveBn k i window axis) (.moveBn k i window axis)

theorem results_grow {st st' : Store L} (hv : st.Valid) (h : st.Rel More OnlyFloat st') {c c' : Cmd L} (hc : c.Grows c') :
    Res.Agree (Store.Rel More OnlyFloat) (c.results st) (c'.results st') := by
  have old : ∀ {c c' : Cmd L}, c.Rel More OnlyFloat c' → Res.Agree (Store.Rel More OnlyFloat) (c.results st) (c'.results st') :=
    fun hc => results_rel more_fills rfl hv h hc
  cases hc with
  | new label hs hx => exact old (.new label ⟨hs, hx⟩ rfl)
  | moves hm => exact old (moves_rel hm)
  | arith py3 i j ho => exact old (.binop i j (arith_more ho py3))
  | arithArray py3 i ho hs hx => exact old (.binopArray i (arith_more ho py3) ⟨hs, hx⟩ rfl)
  | merge i j =>
    exact on_rel hv h i fun y z hy hyz => on_rel hv h j fun y' z' hy' hyz' => one_rel (merge_more hy hy' hyz hyz')
  | set i names hvw => exact old (.set i names hvw)
  | measure i axis hs => exact old (.reduce i axis (measure_more hs))
  | lastrank i axis => exact old (.reduce i axis lastrank_moreRel)
  | prod i axis => exact on_rel hv h i fun y z _ hyz => out_rel (prod_more hyz axis)
  | cumsum i axis => exact on_rel hv h i fun y z _ hyz => one_rel (cumulate_more (opF := Flt.add) rfl (fun _ _ _ _ h h' => h.add h') 0 hyz axis)
  | cumprod i axis => exact on_rel hv h i fun y z _ hyz => one_rel (cumulate_more (opF := Flt.mul) rfl (fun _ _ _ _ h h' => h.mul h') 1 hyz axis)
  | clip i lo hi => exact on_rel hv h i fun y z _ hyz => one_rel (clip_more hyz)
  | push i window axis => exact on_rel hv h i fun y z _ hyz => one_rel (push_more hyz window axis)
  | ranking i axis hs => exact on_rel hv h i fun y z _ hyz => one_rel (ranking_more hs hyz axis)
  | quantile i q axis ha => exact on_rel hv h i fun y z _ hyz => one_rel (quantile_more ha hyz q axis)
  | demean i axis => exact on_rel hv h i fun y z _ hyz => one_rel (demean_more mean_center hyz axis)
  | demedian i axis => exact on_rel hv h i fun y z _ hyz => one_rel (demean_more median_center hyz axis)
  | movingsumForward i window skip axis norm =>
    exact on_rel hv h i fun y z _ hyz => one_rel (movingsum_more hyz window skip axis norm)
  | moveBn i window axis hk => exact on_rel hv h i fun y z _ hyz => one_rel (moveBn_more hk hyz window axis)

omit [LinearOrder L] in
theorem target_grows {c c' : Cmd L} (hc : c.Grows c') : c.target = c'.target := by cases hc <;> rfl

theorem step_grows {st st' : Store L} (hv : st.Valid) (h : st.Rel More OnlyFloat st') {c c' : Cmd L} (hc : c.Grows c') :
    Res.Agree (Store.Rel More OnlyFloat) (c.step st) (c'.step st') := by
  unfold Cmd.step
  rw [← target_grows hc]
  rcases (results_grow hv h hc).cases with ⟨zs, zs', h1, h2, h3⟩ | ⟨e, h1, h2⟩
  · rw [h1, h2]
    simp only
    cases c.target with
    | none => exact List.rel_append h h3
    | some i => exact foldl_rel h i h3
  · rw [h1, h2]; exact rfl

omit [LinearOrder L] in
theorem store_more {st st' : Store L} (hv : st.Valid) (hv' : st'.Valid) (h : List.Forall₂ Larry.Sparser st st') :
    st.Rel More OnlyFloat st' := by
  induction h with
  | nil => exact .nil
  | cons h1 _ ih =>
    exact .cons (h1.rel (hv _ (by simp)) (hv' _ (by simp))) (ih (fun y hy => hv y (by simp [hy])) fun y hy => hv' y (by simp [hy]))

omit [LinearOrder L] in
theorem store_sparser {st st' : Store L} (hv : st.Valid) (h : st.Rel More OnlyFloat st') : List.Forall₂ Larry.Sparser st st' := by
  induction h with
  | nil => exact .nil
  | cons h1 _ ih => exact .cons (sparser_of h1 (hv _ (by simp))) (ih fun y hy => hv y (by simp [hy]))

/-- C121: one call on larrys of which the second have numbers wherever the first have raises the same exception, or gives larrys of
which the second have numbers wherever the first have. -/
theorem C121_step {st st' : Store L} (hv : st.Valid) (hv' : st'.Valid) (h : List.Forall₂ Larry.Sparser st st') {c c' : Cmd L}
    (hc : c.Grows c') (hf : c.Fair st) : Res.Agree (List.Forall₂ Larry.Sparser) (c.step st) (c'.step st') := by
  rcases (step_grows hv (store_more hv hv' h) hc).cases with ⟨zs, zs', h1, h2, h3⟩ | ⟨e, h1, h2⟩
  · rw [h1, h2]; exact store_sparser (C64_step hv hf h1) h3
  · rw [h1, h2]; exact rfl

/-- C121: so does a whole program. -/
theorem C121_program {st st' : Store L} (hv : st.Valid) (hv' : st'.Valid) (h : List.Forall₂ Larry.Sparser st st')
    {cs cs' : List (Cmd L)} (hc : List.Forall₂ Cmd.Grows cs cs') (hfair : FairAll st cs) :
    List.Forall₂ Larry.Sparser (runAll st cs) (runAll st' cs') := by
  have h0 := store_more hv hv' h
  clear h hv'
  induction hc generalizing st st' with
  | nil => exact store_sparser hv h0
  | @cons c c' cs cs' h1 _ ih =>
    obtain ⟨f1, f2, f3⟩ := hfair
    unfold runAll
    rcases (step_grows hv h0 h1).cases with ⟨zs, zs', k1, k2, k3⟩ | ⟨e, k1, k2⟩
    · rw [k1, k2]; exact ih (C64_step hv f1 k1) (f2 _ k1) k3
    · rw [k1, k2]; exact ih hv (f3 e k1) h0

/-- C121: reductions, to an element or to a larry. -/
theorem C121_reductions {y z : Larry L} (hy : y.Valid) (hz : z.Valid) (h : y.Sparser z) {s : Measure} (hs : s.Solid) (axis : Option Int) :
    Res.Agree Out.Sparser (s.of y axis) (s.of z axis) ∧
    Res.Agree Out.Sparser (y.reduce lastrankRed axis) (z.reduce lastrankRed axis) ∧
    Res.Agree Out.Sparser (y.prod axis) (z.prod axis) := by
  have hr := h.rel hy hz
  have key : ∀ {a b : Res (Out L)}, Res.Agree (Out.Rel More OnlyFloat) a b → (∀ u, a = .ok (.larry u) → u.Valid) →
      Res.Agree Out.Sparser a b := by
    intro a b hab hu
    rcases hab.cases with ⟨v, w, rfl, rfl, k⟩ | ⟨e, rfl, rfl⟩
    · exact out_sparser k fun u hu' => hu u (by rw [hu'])
    · exact rfl
  refine ⟨?_, key (reduce_rel lastrank_moreRel hr axis) fun u hu => reduce_valid hy hu, key (prod_more hr axis) fun u hu => prod_valid hy hu⟩
  rw [(Reduction.measure s).of_eq |> fun e => show s.of y axis = _ from e y axis,
    (Reduction.measure s).of_eq |> fun e => show s.of z axis = _ from e z axis]
  exact key (reduce_rel (measure_more hs) hr axis) fun u hu => reduce_valid hy hu

theorem elem_more {m : ElemMethod} (hm : m.Solid) {v w : Val} (h : More v w) : More (m.fn v) (m.fn w) := by
  refine fn_more (fun q => ?_) (elem_gap hm gap_nan) h
  cases m with
  | sign => simp only [ElemMethod.fn, Elem.sign, Flt.sign]; split <;> exact ⟨_, rfl⟩
  | power r =>
    simp only [ElemMethod.fn, Elem.power, Flt.pow]
    split <;> exact ⟨_, rfl⟩
  | neg => exact ⟨_, rfl⟩
  | pos => exact ⟨_, rfl⟩
  | abs => exact ⟨_, rfl⟩
  | nanReplace _ => exact ⟨_, rfl⟩
  | log g =>
    obtain ⟨t, ht⟩ := hm.2 q
    exact ⟨t, congrArg Val.flt ht⟩
  | _ => exact hm.elim

omit [LinearOrder L] in
/-- C121: the methods that work element by element. -/
theorem C121_elementwise {y z : Larry L} (hy : y.Valid) (hz : z.Valid) (h : y.Sparser z) {m : ElemMethod} (hm : m.Solid) :
    Res.Agree Larry.Sparser (y.elem m) (z.elem m) := by
  have hr := h.rel hy hz
  have key : (y.mapped m.fn .float).Sparser (z.mapped m.fn .float) :=
    sparser_of ⟨hr.label, rfl, rfl, hr.x.map fun v w => elem_more hm⟩ hy
  cases m <;> first
    | exact hm.elim
    | (simp only [Larry.elem, floats hr, floats' hr, floaty, if_false]; exact key)

/-! ## Where more can be less -/

/-- `var` with `ddof` 2: zero of one number, NaN of two equal ones. -/
theorem C121_ddof : (Measure.var 2).func.f [fl 1, .flt .nan] = fl 0 ∧ (Measure.var 2).func.f [fl 1, fl 1] = .flt .nan := by
  constructor
  · simp [Measure.func, bnNanvar, varVals, varOf, fl, Val.num, Flt.isNan, Flt.sum, Flt.add, Flt.sub, Flt.neg, Flt.mul, Flt.div, Flt.infOf]
    norm_num
  · simp [Measure.func, bnNanvar, varVals, varOf, fl, Val.num, Flt.isNan, Flt.sum, Flt.add, Flt.sub, Flt.neg, Flt.mul, Flt.div, Flt.infOf]

/-- `x / x.demean()`: with a third number the mean becomes zero, and the first element zero by zero. -/
theorem C121_division (py3 : Bool) :
    ((ArithOp.uf py3 .div).f (fl 0) ((demeanLine nanmean [fl 0, fl 3, .flt .nan]).getD 0 .none) = fl 0) ∧
    ((ArithOp.uf py3 .div).f (fl 0) ((demeanLine nanmean [fl 0, fl 3, fl (-3)]).getD 0 .none) = .flt .nan) := by
  constructor <;> cases py3 <;>
    simp [ArithOp.uf, Arith.npDivide, Arith.npTrueDivide, Arith.loop, demeanLine, nanmean, fl, Val.num, Flt.isNan, Flt.sum, Flt.add, Flt.sub,
      Flt.neg, Flt.div, Flt.infOf]

/-- Two larrys with nothing in common but their labels, merged without `update`: with more data they overlap, which raises. -/
theorem C121_merge :
    (∃ r, merge (⟨NDArray.ofList [2] [fl 1, .flt .nan], .float, [[0, 1]]⟩ : Larry Nat)
      ⟨NDArray.ofList [2] [.flt .nan, fl 2], .float, [[0, 1]]⟩ false = .ok r) ∧
    merge (⟨NDArray.ofList [2] [fl 1, fl 1], .float, [[0, 1]]⟩ : Larry Nat)
      ⟨NDArray.ofList [2] [.flt .nan, fl 2], .float, [[0, 1]]⟩ false = .error .valueError := ⟨⟨_, rfl⟩, rfl⟩

/-! ## Examples -/

/-- The prices of `exGaps`, others, and the missing one. -/
def exNoGaps : Larry Nat := ⟨NDArray.ofList [2, 3] [fl 7, fl 8, fl 7, fl 7, fl 7, fl 7], .float, [[0, 1], [10, 11, 12]]⟩

theorem exNoGaps_valid : exNoGaps.Valid := ⟨rfl, by decide, by decide⟩

theorem exGaps_sparser : exGaps.Sparser exNoGaps := by
  refine sparser_of ⟨rfl, rfl, rfl, rfl, fun idx hidx => ?_⟩ exGaps_valid.1
  have hidx := mem_allIdx.mpr hidx
  rw [show allIdx exGaps.x.shape = [[0, 0], [0, 1], [0, 2], [1, 0], [1, 1], [1, 2]] from by decide] at hidx
  simp only [List.mem_cons, List.not_mem_nil, or_false] at hidx
  rcases hidx with rfl | rfl | rfl | rfl | rfl | rfl
  · exact (gapF_fin 1 7).gap.more
  · exact more_nan (gapF_fin 8 8).gap
  · exact (gapF_fin 3 7).gap.more
  · exact (gapF_fin 4 7).gap.more
  · exact (gapF_fin 5 7).gap.more
  · exact (gapF_fin 6 7).gap.more

/-- Take out the mean of each day, sum up, add the first larry, fill forward, merge with the first larry, mean of each row. -/
def exMoreProgram : List (Cmd Nat) :=
  [.demean nanmean 0 (some 0), .cumsum 1 (some 1), .binop (ArithOp.uf true .add) 2 0, .push 3 1 1, .merge 4 0 true,
    .reduce (Measure.func .mean) 5 (some 1)]

theorem exMoreProgram_grows : ∀ c ∈ exMoreProgram, c.Grows c := by
  simp only [exMoreProgram, List.mem_cons, List.not_mem_nil, or_false]
  rintro c (rfl | rfl | rfl | rfl | rfl | rfl)
  · exact .demean _ _
  · exact .cumsum _ _
  · exact .arith _ _ _ trivial
  · exact .push _ _ _
  · exact .merge _ _
  · exact .measure (s := .mean) _ _ trivial

theorem exMoreProgram_fair (st : Store Nat) : FairAll st exMoreProgram := by
  unfold exMoreProgram
  refine ⟨trivial, fun _ _ => ?_, fun _ _ => ?_⟩
  all_goals refine ⟨trivial, fun _ _ => ?_, fun _ _ => ?_⟩
  all_goals refine ⟨trivial, fun _ _ => ?_, fun _ _ => ?_⟩
  all_goals refine ⟨trivial, fun _ _ => ?_, fun _ _ => ?_⟩
  all_goals refine ⟨trivial, fun _ _ => ?_, fun _ _ => ?_⟩
  all_goals exact ⟨trivial, fun _ _ => trivial, fun _ _ => trivial⟩

example : List.Forall₂ Larry.Sparser (runAll [exGaps] exMoreProgram) (runAll [exNoGaps] exMoreProgram) :=
  C121_program (by simpa [Store.Valid] using exGaps_valid.1) (by simpa [Store.Valid] using exNoGaps_valid) (.cons exGaps_sparser .nil)
    (List.forall₂_same.mpr exMoreProgram_grows) (exMoreProgram_fair _)

/-- All six calls go through. -/
example : (runAll [exGaps] exMoreProgram).length = 7 := by decide +kernel

/-- Something is missing before. -/
example : ((exGaps.push 0 1).map fun z => z.x.get [0, 1]) = .ok (.flt .nan) := by decide +kernel

end La
