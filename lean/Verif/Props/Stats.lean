import Verif.Stats
import Verif.Props.Totals
import Verif.Props.Normalize
import Verif.ReorderLines

/-!
# Property C91: the numbers that sum, mean, median, var, std, max, min, any, all and prod return

C42 says which values a reduction sees and where its outcome lands; here is what the outcome is.
-/

namespace La
open Larry
variable {L : Type _}

/-! ## Specification -/

/-- `vs` are the values of a method's line and `v` what it returns for them; whatever the axis, the method
returns what `S` says, in dtype `d`. -/
def Computes (m : Option Int → Res (Out L)) (S : List Val → Val → Prop) (d : DType) (y : Larry L) : Prop :=
  (∃ vs v, AllValues y vs ∧ m none = .ok (.scalar v) ∧ S vs v) ∧
  (∀ axis, y.ndim = 1 → (axis = 0 ∨ axis = -1) →
    ∃ vs v, y.LineAt 0 [] vs ∧ m (some axis) = .ok (.scalar v) ∧ S vs v) ∧
  (∀ axis ax, 2 ≤ y.ndim → pyIdx y.ndim axis = some ax →
    ∃ z, m (some axis) = .ok (.larry z) ∧ z.Valid ∧ z.dtype = d ∧ z.label = y.label.eraseIdx ax ∧
      ∀ rest, Named z.label rest → ∃ vs v, y.LineAt ax rest vs ∧ z.Has rest v ∧ S vs v)

/-- The sum of some floats, NaN left out: NaN if nothing else is there or if there are infinities of both signs. -/
inductive SumIs (fs : List Flt) : Flt → Prop
  | none : (∀ f ∈ fs, f = .nan) → SumIs fs .nan
  | finite (qs : List ℚ) : qs ≠ [] → fs.filter (· ≠ .nan) = qs.map .fin → SumIs fs (.fin qs.sum)
  | plus : .pinf ∈ fs → .ninf ∉ fs → SumIs fs .pinf
  | minus : .ninf ∈ fs → .pinf ∉ fs → SumIs fs .ninf
  | both : .pinf ∈ fs → .ninf ∈ fs → SumIs fs .nan

/-- The sum of a line of dtype `d`: floats as above, ints exactly, booleans counted. -/
def SumOf (d : DType) (vs : List Val) (v : Val) : Prop :=
  match d with
  | .float => ∃ s, v = .flt s ∧ SumIs (vs.map Val.num) s
  | .int => ∃ ns : List Int, vs = ns.map .int ∧ v = .int ns.sum
  | .bool => ∃ bs : List Bool, vs = bs.map .bool ∧ v = .int (bs.filter id).length
  | _ => False

/-- The mean of some floats, NaN left out. -/
inductive MeanIs (fs : List Flt) : Flt → Prop
  | none : (∀ f ∈ fs, f = .nan) → MeanIs fs .nan
  | finite (qs : List ℚ) : qs ≠ [] → fs.filter (· ≠ .nan) = qs.map .fin → MeanIs fs (.fin (qs.sum / qs.length))
  | plus : .pinf ∈ fs → .ninf ∉ fs → MeanIs fs .pinf
  | minus : .ninf ∈ fs → .pinf ∉ fs → MeanIs fs .ninf
  | both : .pinf ∈ fs → .ninf ∈ fs → MeanIs fs .nan

/-- `m` is halfway between `a` and `b`. -/
inductive Halfway : Flt → Flt → Flt → Prop
  | finite (p q : ℚ) : Halfway (.fin p) (.fin q) (.fin ((p + q) / 2))
  | low (b : Flt) : b ≠ .pinf → b ≠ .nan → Halfway .ninf b .ninf
  | high (a : Flt) : a ≠ .ninf → a ≠ .nan → Halfway a .pinf .pinf
  | apart : Halfway .ninf .pinf .nan

/-- The median of some floats: the numbers that are not NaN, put in order, have it in the middle. -/
def MedianIs (fs : List Flt) (m : Flt) : Prop :=
  ((∀ f ∈ fs, f = .nan) ∧ m = .nan) ∨
  ∃ s : List Flt, s.Perm (fs.filter (· ≠ .nan)) ∧ s.Pairwise LeF ∧
    ((∃ k : Nat, s.length = 2 * k + 1 ∧ s[k]? = some m) ∨
     (∃ (k : Nat) (a b : Flt), s.length = 2 * k + 2 ∧ s[k]? = some a ∧ s[k + 1]? = some b ∧ Halfway a b m))

/-- The variance of some floats, NaN left out: the squared distances from the mean, over the number of values
less `ddof`.  Where that is zero one divides by zero; an infinity has no distance from the mean. -/
inductive VarIs (ddof : Int) (fs : List Flt) : Flt → Prop
  | none : (∀ f ∈ fs, f = .nan) → VarIs ddof fs .nan
  | infinite : (.pinf ∈ fs ∨ .ninf ∈ fs) → VarIs ddof fs .nan
  | finite (qs : List ℚ) (m : ℚ) : qs ≠ [] → fs.filter (· ≠ .nan) = qs.map .fin → m * qs.length = qs.sum →
      ddof ≠ qs.length → VarIs ddof fs (.fin ((qs.map fun q => (q - m) * (q - m)).sum / (qs.length - ddof)))
  | equal (qs : List ℚ) (q : ℚ) : qs ≠ [] → fs.filter (· ≠ .nan) = qs.map .fin → (∀ p ∈ qs, p = q) →
      ddof = qs.length → VarIs ddof fs .nan
  | unequal (qs : List ℚ) (p q : ℚ) : fs.filter (· ≠ .nan) = qs.map .fin → p ∈ qs → q ∈ qs → p ≠ q →
      ddof = qs.length → VarIs ddof fs .pinf

/-- The largest of some values: one of them, not NaN, and none is greater; NaN if there is nothing else. -/
def MaxOf (vs : List Val) (v : Val) : Prop :=
  ((∀ w ∈ vs, w.num = .nan) ∧ v = .flt .nan) ∨ (v ∈ vs ∧ v.num ≠ .nan ∧ ∀ w ∈ vs, ¬ LtX v.num w.num)

/-- The smallest of some values. -/
def MinOf (vs : List Val) (v : Val) : Prop :=
  ((∀ w ∈ vs, w.num = .nan) ∧ v = .flt .nan) ∨ (v ∈ vs ∧ v.num ≠ .nan ∧ ∀ w ∈ vs, ¬ LtX w.num v.num)

/-- True if some value is not zero; NaN is not. -/
def AnyOf (vs : List Val) (v : Val) : Prop := ∃ b : Bool, v = .bool b ∧ (b = true ↔ ∃ w ∈ vs, w.num ≠ .fin 0)

/-- True if no value is zero. -/
def AllOf (vs : List Val) (v : Val) : Prop := ∃ b : Bool, v = .bool b ∧ (b = true ↔ ∀ w ∈ vs, w.num ≠ .fin 0)

/-- The product of a line of ints, or of booleans taken as 1 and 0. -/
def WholeProduct (d : DType) (vs : List Val) (v : Val) : Prop :=
  match d with
  | .int => ∃ ns : List Int, vs = ns.map .int ∧ v = .int ns.prod
  | .bool => ∃ bs : List Bool, vs = bs.map .bool ∧ v = .int (if ∀ b ∈ bs, b = true then 1 else 0)
  | _ => False

/-! ## Lines -/

theorem line_mem_has {y : Larry L} {ax : Nat} {rest : List L} {vs : List Val} (h : y.LineAt ax rest vs)
    {w : Val} (hw : w ∈ vs) : ∃ names, y.Has names w := by
  obtain ⟨l, hl, hlen, hh⟩ := h
  obtain ⟨i, hi⟩ := List.mem_iff_getElem?.mp hw
  have hil : i < l.length := by
    have := (List.getElem?_eq_some_iff.mp hi).1
    omega
  exact ⟨_, hh i _ _ (List.getElem?_eq_getElem hil) hi⟩

theorem line_ne_nil {y : Larry L} (hv : y.Valid) (hsz : y.shape.prod ≠ 0) {ax : Nat} {rest : List L}
    {vs : List Val} (h : y.LineAt ax rest vs) : vs ≠ [] := by
  obtain ⟨l, hl, hlen, -⟩ := h
  rintro rfl
  apply hsz
  have h0 : l.length = 0 := by simpa using hlen.symm
  have hs : y.shape = y.label.map List.length := hv.shape_eq
  rw [hs]
  exact prod_eq_zero_of_mem (List.mem_map.mpr ⟨l, List.mem_of_getElem? hl, h0⟩)

/-- A reduction computes what its function does to lists of values of the larry's dtype. -/
theorem computes_reduce (r : Red) {y : Larry L} (hv : y.Valid) (ht : y.Typed) {d : DType}
    (hd : r.dt y.dtype = .ok d) (hsz : y.shape.prod ≠ 0) {S : List Val → Val → Prop}
    (hS : ∀ vs, vs ≠ [] → (∀ v ∈ vs, v.hasDType y.dtype = true) → S vs (r.f vs)) :
    Computes (y.reduce r) S d y := by
  have hty := (typed_iff hv).mp ht
  have hline : ∀ ax rest vs, y.LineAt ax rest vs → S vs (r.f vs) := fun ax rest vs h =>
    hS vs (line_ne_nil hv hsz h) fun v hm => by
      obtain ⟨names, hh⟩ := line_mem_has h hm
      exact hty names v hh
  refine ⟨⟨_, _, vals_all hv, reduce_none_eq r hd hsz, hS _ ?_ ?_⟩, ?_, ?_⟩
  · intro h
    apply hsz
    have := (vals_all hv).1
    rw [h] at this
    exact this.symm
  · intro v hm
    obtain ⟨names, hh⟩ := mem_vals_has hv hm
    exact hty names v hh
  · intro axis h1 hax
    obtain ⟨vs, h, e⟩ := C42_reduce_1d r hv hd hsz h1 hax
    exact ⟨vs, _, h, e, hline _ _ _ h⟩
  · intro axis ax h2 hax
    obtain ⟨z, e, hzv, hzd, hzl, hz⟩ := C42_reduce_axis r hv hd hsz hax h2
    refine ⟨z, e, hzv, hzd, hzl, fun rest hN => ?_⟩
    obtain ⟨l, hl, hlt⟩ := label_at hv hax
    obtain ⟨ridx, hat⟩ := At_of_Named (hzl ▸ hN)
    have h := line_at hv hl hat
    exact ⟨_, _, h, (hz rest _).mpr ⟨hN, _, h, rfl⟩, hline _ _ _ h⟩

/-! ## Sums of floats -/

theorem flt_sum_cons (a : Flt) (l : List Flt) : Flt.sum (a :: l) = a.add (Flt.sum l) := by
  have h0 : ∀ a : Flt, Flt.add (.fin 0) a = a := by intro a; cases a <;> simp [Flt.add]
  have : ∀ (l : List Flt) (a : Flt), l.foldl Flt.add a = a.add (Flt.sum l) := by
    intro l
    induction l with
    | nil => intro a; cases a <;> simp [Flt.sum, Flt.add]
    | cons b l ih =>
      intro a
      simp only [List.foldl_cons, Flt.sum]
      rw [ih, h0, ih, Flt.add_assoc']
  simp only [Flt.sum, List.foldl_cons]
  rw [h0, this]
  rfl

/-- The sum of floats none of which is NaN. -/
theorem flt_sum_eq {l : List Flt} (h : ∀ f ∈ l, f ≠ .nan) :
    Flt.sum l = if .pinf ∈ l then (if .ninf ∈ l then .nan else .pinf)
      else if .ninf ∈ l then .ninf else .fin (l.map Flt.rat).sum := by
  induction l with
  | nil => simp [Flt.sum]
  | cons a l ih =>
    rw [flt_sum_cons, ih fun f hf => h f (List.mem_cons_of_mem _ hf)]
    have ha := h a List.mem_cons_self
    by_cases h1 : Flt.pinf ∈ l <;> by_cases h2 : Flt.ninf ∈ l <;> cases a <;>
      simp_all [Flt.add, Flt.rat]

theorem filter_nan_eq (fs : List Flt) : fs.filter (fun x => !x.isNan) = fs.filter (· ≠ .nan) := by
  apply List.filter_congr
  intro f _
  cases f <;> simp [Flt.isNan]

theorem fin_of_finite {l : List Flt} (h : ∀ f ∈ l, f ≠ .nan) (h1 : Flt.pinf ∉ l) (h2 : Flt.ninf ∉ l) :
    l = (l.map Flt.rat).map .fin := by
  rw [List.map_map]
  refine (List.map_id l).symm.trans (List.map_congr_left fun f hf => ?_)
  cases f with
  | nan => exact absurd rfl (h _ hf)
  | pinf => exact absurd hf h1
  | ninf => exact absurd hf h2
  | fin q => rfl

theorem mem_ok {fs : List Flt} {f : Flt} (hf : f ≠ .nan) : f ∈ fs.filter (· ≠ .nan) ↔ f ∈ fs := by
  simp [hf]

/-- The four cases of a line of floats. -/
theorem flt_cases (fs : List Flt) : (∀ f ∈ fs, f = .nan) ∨
    (∃ qs : List ℚ, qs ≠ [] ∧ fs.filter (· ≠ .nan) = qs.map .fin) ∨ .pinf ∈ fs ∨ .ninf ∈ fs := by
  by_cases h1 : Flt.pinf ∈ fs
  · exact .inr (.inr (.inl h1))
  by_cases h2 : Flt.ninf ∈ fs
  · exact .inr (.inr (.inr h2))
  by_cases h0 : ∀ f ∈ fs, f = .nan
  · exact .inl h0
  refine .inr (.inl ⟨_, ?_, fin_of_finite (by simp) (by simpa using h1) (by simpa using h2)⟩)
  intro he
  apply h0
  intro f hf
  by_contra hn
  have : f ∈ fs.filter (· ≠ .nan) := (mem_ok hn).mpr hf
  rw [List.map_eq_nil_iff] at he
  rw [he] at this
  cases this

theorem ok_nil {fs : List Flt} (h : ∀ f ∈ fs, f = .nan) : fs.filter (· ≠ .nan) = [] := by
  rw [List.filter_eq_nil_iff]
  intro f hf
  simp [h f hf]

theorem ok_ne_nil {fs : List Flt} {f : Flt} (h : f ∈ fs) (hf : f ≠ .nan) : fs.filter (· ≠ .nan) ≠ [] :=
  List.ne_nil_of_mem ((mem_ok hf).mpr h)

theorem flt_sum_fin (qs : List ℚ) : Flt.sum (qs.map .fin) = .fin qs.sum := by
  rw [flt_sum_eq (by simp)]
  simp [List.map_map, Function.comp_def, Flt.rat]

theorem flt_sum_inf {fs : List Flt} (h : .pinf ∈ fs ∨ .ninf ∈ fs) :
    Flt.sum (fs.filter (· ≠ .nan)) =
      if .pinf ∈ fs then (if .ninf ∈ fs then .nan else .pinf) else .ninf := by
  rw [flt_sum_eq (by simp)]
  simp only [mem_ok (fs := fs) (f := .pinf) (by simp), mem_ok (fs := fs) (f := .ninf) (by simp)]
  rcases h with h | h <;> simp [h]

theorem sumIs_sum (fs : List Flt) (hne : fs.filter (· ≠ .nan) ≠ []) :
    SumIs fs (Flt.sum (fs.filter (· ≠ .nan))) := by
  rcases flt_cases fs with h | ⟨qs, hq, e⟩ | h
  · exact absurd (ok_nil h) hne
  · rw [e, flt_sum_fin]; exact .finite qs hq e
  · rw [flt_sum_inf h]
    by_cases h1 : Flt.pinf ∈ fs <;> by_cases h2 : Flt.ninf ∈ fs
    · simp only [h1, h2, if_true]; exact .both h1 h2
    · simp only [h1, h2, if_true, if_false]; exact .plus h1 h2
    · simp only [h1, if_false]; exact .minus h2 h1
    · exact absurd h (by tauto)

/-! ## What the functions do to a line -/

theorem plus_foldl_flt (fs : List Flt) (a : Flt) :
    (fs.map Val.flt).foldl plusVal (.flt a) = .flt (fs.foldl Flt.add a) := by
  induction fs generalizing a with
  | nil => rfl
  | cons f fs ih => simp only [List.map_cons, List.foldl_cons, plusVal, Val.num]; exact ih _

theorem plus_foldl_int (ns : List Int) (a : Int) :
    (ns.map Val.int).foldl plusVal (.int a) = .int (a + ns.sum) := by
  induction ns generalizing a with
  | nil => simp
  | cons n ns ih => simp only [List.map_cons, List.foldl_cons, plusVal, List.sum_cons, ih]; congr 1; ring

theorem typed_flt {vs : List Val} (h : ∀ v ∈ vs, v.hasDType .float = true) : ∃ fs : List Flt, vs = fs.map .flt := by
  refine ⟨vs.map Val.num, ?_⟩
  rw [List.map_map]
  refine (List.map_id vs).symm.trans (List.map_congr_left fun v hv => ?_)
  have := h v hv
  cases v <;> simp_all [Val.hasDType, Val.num]

theorem typed_int {vs : List Val} (h : ∀ v ∈ vs, v.hasDType .int = true) : ∃ ns : List Int, vs = ns.map .int := by
  induction vs with
  | nil => exact ⟨[], rfl⟩
  | cons v vs ih =>
    obtain ⟨ns, rfl⟩ := ih fun w hw => h w (List.mem_cons_of_mem _ hw)
    have := h v List.mem_cons_self
    cases v with
    | int n => exact ⟨n :: ns, rfl⟩
    | _ => cases this

theorem typed_bool {vs : List Val} (h : ∀ v ∈ vs, v.hasDType .bool = true) : ∃ bs : List Bool, vs = bs.map .bool := by
  induction vs with
  | nil => exact ⟨[], rfl⟩
  | cons v vs ih =>
    obtain ⟨ns, rfl⟩ := ih fun w hw => h w (List.mem_cons_of_mem _ hw)
    have := h v List.mem_cons_self
    cases v with
    | bool n => exact ⟨n :: ns, rfl⟩
    | _ => cases this

theorem nanFold_int {ns : List Int} (hne : ns ≠ []) : nanFold plusVal countVal (ns.map .int) = .int ns.sum := by
  have : ((ns.map Val.int).map countVal).filter (fun v => !v.isNan) = ns.map .int := by
    rw [List.map_map, List.filter_eq_self.mpr]
    · rfl
    · intro v hv
      obtain ⟨n, -, rfl⟩ := List.mem_map.mp hv
      rfl
  unfold nanFold
  rw [this]
  cases ns with
  | nil => exact absurd rfl hne
  | cons n ns => simp only [List.map_cons, plus_foldl_int, List.sum_cons]

theorem sumOf_nansum {d d' : DType} (hd : sumDType d = .ok d') {vs : List Val} (hne : vs ≠ [])
    (ht : ∀ v ∈ vs, v.hasDType d = true) : SumOf d vs (nanFold plusVal countVal vs) := by
  cases d with
  | float =>
    obtain ⟨fs, rfl⟩ := typed_flt ht
    have e : ((fs.map Val.flt).map countVal).filter (fun v => !v.isNan) = (fs.filter (· ≠ .nan)).map .flt := by
      rw [← filter_nan_eq, List.map_map, List.filter_map]
      rfl
    have e2 : (fs.map Val.flt).map Val.num = fs := by
      rw [List.map_map]; exact List.map_id fs
    unfold nanFold
    rw [e]
    simp only [SumOf, e2]
    cases hl : fs.filter (· ≠ .nan) with
    | nil =>
      refine ⟨_, rfl, .none fun f hf => ?_⟩
      by_contra hn
      exact ok_ne_nil hf hn hl
    | cons f l =>
      refine ⟨_, plus_foldl_flt _ _, ?_⟩
      have := sumIs_sum fs (by rw [hl]; simp)
      rw [hl] at this
      simp only [Flt.sum, List.foldl_cons] at this
      have h0 : Flt.add (.fin 0) f = f := by cases f <;> simp [Flt.add]
      rwa [h0] at this
  | int =>
    obtain ⟨ns, rfl⟩ := typed_int ht
    exact ⟨ns, rfl, nanFold_int (by rintro rfl; exact hne rfl)⟩
  | bool =>
    obtain ⟨bs, rfl⟩ := typed_bool ht
    refine ⟨bs, rfl, ?_⟩
    have e : nanFold plusVal countVal (bs.map .bool) =
        nanFold plusVal countVal ((bs.map fun b => if b then (1 : Int) else 0).map .int) := by
      unfold nanFold
      simp only [List.map_map]
      rfl
    rw [e, nanFold_int (by simpa using hne)]
    congr 1
    clear hne ht e
    induction bs with
    | nil => rfl
    | cons b bs ih => cases b <;> simp [ih]; ring
  | str => cases hd
  | object => cases hd

theorem mean_is (fs : List Flt) : MeanIs fs (nanmean fs) := by
  unfold nanmean
  rw [filter_nan_eq]
  rcases flt_cases fs with h | ⟨qs, hq, e⟩ | h
  · rw [ok_nil h]
    have : (Flt.sum []).div (.fin ((([] : List Flt).length : Nat) : ℚ)) = .nan := by
      simp [Flt.sum, Flt.div, Flt.infOf]
    simp only [this]
    exact .none h
  · have hl : ((qs.length : Nat) : ℚ) ≠ 0 := by
      simpa using hq
    rw [e]
    simp only [flt_sum_fin, List.length_map, Flt.div, if_neg hl]
    exact .finite qs hq e
  · simp only [flt_sum_inf h]
    have hp : ¬ (((fs.filter (· ≠ .nan)).length : ℚ) < 0) := not_lt.mpr (Nat.cast_nonneg _)
    by_cases h1 : Flt.pinf ∈ fs <;> by_cases h2 : Flt.ninf ∈ fs
    · simp only [h1, h2, if_true, Flt.div]; exact .both h1 h2
    · simp only [h1, h2, if_true, if_false, Flt.div, hp]; exact .plus h1 h2
    · simp only [h1, if_false, Flt.div, hp]; exact .minus h2 h1
    · exact absurd h (by tauto)

theorem leF_iff (a b : Flt) : a.le b = true ↔ LeF a b := by
  cases a <;> cases b <;> simp [Flt.le, Flt.lt, Flt.eq, LeF, le_iff_lt_or_eq]

theorem leF_total {a b : Flt} (ha : a ≠ .nan) (hb : b ≠ .nan) : LeF a b ∨ LeF b a := by
  cases a <;> cases b <;> simp_all [LeF]
  exact le_total _ _

theorem leF_trans {a b c : Flt} (h : LeF a b) (h' : LeF b c) : LeF a c := by
  cases a <;> cases b <;> cases c <;> simp_all [LeF]
  exact le_trans h h'

theorem orderedInsert_leF (a : Flt) (ha : a ≠ .nan) :
    ∀ l : List Flt, (∀ f ∈ l, f ≠ .nan) → l.Pairwise LeF →
      (l.orderedInsert (fun a b => a.le b = true) a).Pairwise LeF
  | [], _, _ => by simp
  | b :: l, hn, hs => by
    rw [List.orderedInsert]
    have hs' := List.pairwise_cons.mp hs
    split
    · rename_i h
      refine List.pairwise_cons.mpr ⟨fun c hc => ?_, hs⟩
      rcases List.mem_cons.mp hc with rfl | hc
      · exact (leF_iff _ _).mp h
      · exact leF_trans ((leF_iff _ _).mp h) (hs'.1 c hc)
    · rename_i h
      refine List.pairwise_cons.mpr ⟨fun c hc => ?_, orderedInsert_leF a ha l (fun f hf => hn f (List.mem_cons_of_mem _ hf)) hs'.2⟩
      rcases List.mem_cons.mp ((List.perm_orderedInsert _ a l).mem_iff.mp hc) with rfl | hc
      · exact (leF_total ha (hn b List.mem_cons_self)).resolve_left fun h' => h ((leF_iff _ _).mpr h')
      · exact hs'.1 c hc

theorem sort_leF (l : List Flt) (hn : ∀ f ∈ l, f ≠ .nan) :
    (l.insertionSort (fun a b => a.le b = true)).Pairwise LeF := by
  induction l with
  | nil => simp
  | cons a l ih =>
    rw [List.insertionSort_cons]
    refine orderedInsert_leF a (hn a List.mem_cons_self) _ (fun f hf => ?_)
      (ih fun f hf => hn f (List.mem_cons_of_mem _ hf))
    exact hn f (List.mem_cons_of_mem _ ((List.perm_insertionSort _ l).mem_iff.mp hf))

theorem halfway_of {a b : Flt} (h : LeF a b) : Halfway a b ((Flt.fin (1 / 2)).mul (a.add b)) := by
  have hi : Flt.infOf (1 / 2) = .pinf := by simp [Flt.infOf]
  have hi' : Flt.infOf (-(1 / 2)) = .ninf := by simp [Flt.infOf]
  cases a <;> cases b <;> simp only [LeF] at h
  · simp only [Flt.add, Flt.mul, hi']; exact .low .ninf (by simp) (by simp)
  · exact .apart
  · rename_i q; simp only [Flt.add, Flt.mul, hi']; exact .low (.fin q) (by simp) (by simp)
  · simp only [Flt.add, Flt.mul, hi]; exact .high _ (by simp) (by simp)
  · simp only [Flt.add, Flt.mul, hi]; exact .high _ (by simp) (by simp)
  · rename_i p q
    have := Halfway.finite p q
    simp only [Flt.add, Flt.mul]
    convert this using 2
    ring

theorem median_is (fs : List Flt) : MedianIs fs (medianOf fs) := by
  have hp := List.perm_insertionSort (fun a b : Flt => a.le b = true) (fs.filter fun x => !x.isNan)
  have hs := sort_leF (fs.filter fun x => !x.isNan) (by rw [filter_nan_eq]; simp)
  unfold medianOf
  generalize (fs.filter fun x => !x.isNan).insertionSort (fun a b => a.le b = true) = s at hp hs
  rw [filter_nan_eq] at hp
  by_cases h0 : s.length = 0
  · rw [if_pos h0]
    refine .inl ⟨fun f hf => ?_, rfl⟩
    by_contra hn
    have := hp.mem_iff.mpr ((mem_ok hn).mpr hf)
    rw [List.length_eq_zero_iff.mp h0] at this
    cases this
  · rw [if_neg h0]
    refine .inr ⟨s, hp, hs, ?_⟩
    have hget : ∀ k : Nat, k < s.length → s[k]? = some (s.getD k .nan) := by
      intro k hk
      simp [List.getD, List.getElem?_eq_getElem hk]
    split
    · rename_i h1
      exact .inl ⟨s.length / 2, by omega, hget _ (by omega)⟩
    · rename_i h1
      refine .inr ⟨s.length / 2 - 1, _, _, by omega, hget _ (by omega), ?_, halfway_of ?_⟩
      · rw [show s.length / 2 - 1 + 1 = s.length / 2 by omega]; exact hget _ (by omega)
      · have ha := hget (s.length / 2 - 1) (by omega)
        have hb := hget (s.length / 2) (by omega)
        rw [List.getElem?_eq_some_iff] at ha hb
        obtain ⟨_, ha⟩ := ha
        obtain ⟨_, hb⟩ := hb
        rw [← ha, ← hb]
        exact List.pairwise_iff_getElem.mp hs _ _ _ _ (by omega)

theorem nan_mem_sum {l : List Flt} (h : .nan ∈ l) : Flt.sum l = .nan := by
  induction l with
  | nil => cases h
  | cons a l ih =>
    rw [flt_sum_cons]
    rcases List.mem_cons.mp h with h | h
    · rw [← h]; rfl
    · rw [ih h]; cases a <;> rfl

theorem sq_sum_zero {qs : List ℚ} {m : ℚ} (h : (qs.map fun q => (q - m) * (q - m)).sum = 0) :
    ∀ q ∈ qs, q = m := by
  induction qs with
  | nil => intro q hq; cases hq
  | cons p qs ih =>
    have hnn : 0 ≤ (qs.map fun q => (q - m) * (q - m)).sum :=
      List.sum_nonneg (by intro x hx; obtain ⟨q, -, rfl⟩ := List.mem_map.mp hx; exact mul_self_nonneg _)
    simp only [List.map_cons, List.sum_cons] at h
    have hpp := mul_self_nonneg (p - m)
    intro q hq
    rcases List.mem_cons.mp hq with rfl | hq
    · have : (q - m) * (q - m) = 0 := by linarith
      have := mul_self_eq_zero.mp this
      linarith
    · exact ih (by linarith) q hq

theorem sq_sum_nonneg (qs : List ℚ) (m : ℚ) : 0 ≤ (qs.map fun q => (q - m) * (q - m)).sum :=
  List.sum_nonneg (by intro x hx; obtain ⟨q, -, rfl⟩ := List.mem_map.mp hx; exact mul_self_nonneg _)

theorem var_is (ddof : Int) (fs : List Flt) : VarIs ddof fs (varOf ddof fs) := by
  unfold varOf
  rw [filter_nan_eq]
  rcases flt_cases fs with h | ⟨qs, hq, e⟩ | h
  · rw [ok_nil h]; exact .none h
  · have hl : ((qs.length : Nat) : ℚ) ≠ 0 := by simpa using hq
    have hl' : ¬ (qs.length = 0) := by simpa using hq
    rw [e]
    simp only [List.length_map, if_neg hl', flt_sum_fin, Flt.div, if_neg hl]
    have e2 : (qs.map Flt.fin).map (fun a => (a.sub (.fin (qs.sum / qs.length))).mul (a.sub (.fin (qs.sum / qs.length))))
        = (qs.map fun q => (q - qs.sum / qs.length) * (q - qs.sum / qs.length)).map Flt.fin := by
      rw [List.map_map, List.map_map]
      apply List.map_congr_left
      intro q _
      simp [Flt.sub, Flt.neg, Flt.add, Flt.mul, sub_eq_add_neg]
    rw [e2, flt_sum_fin]
    simp only
    have hm : qs.sum / qs.length * qs.length = qs.sum := by field_simp
    by_cases hd : ddof = qs.length
    · have : ((qs.length : ℚ) - (ddof : ℚ)) = 0 := by rw [hd]; simp
      rw [if_pos this]
      unfold Flt.infOf
      by_cases hz : (qs.map fun q => (q - qs.sum / qs.length) * (q - qs.sum / qs.length)).sum = 0
      · rw [if_pos hz]
        exact .equal qs _ hq e (sq_sum_zero hz) hd
      · rw [if_neg hz, if_pos (lt_of_le_of_ne (sq_sum_nonneg _ _) (Ne.symm hz))]
        obtain ⟨q0, hq0⟩ := List.exists_mem_of_ne_nil qs hq
        by_cases hall : ∀ p ∈ qs, p = q0
        · exfalso
          apply hz
          have hr : qs = List.replicate qs.length q0 := List.eq_replicate_of_mem hall
          have hmean : qs.sum / qs.length = q0 := by
            have : qs.sum = qs.length * q0 := by
              conv_lhs => rw [hr]
              simp
            rw [this]; field_simp
          rw [hmean]
          apply List.sum_eq_zero
          intro x hx
          obtain ⟨q, hq, rfl⟩ := List.mem_map.mp hx
          rw [hall q hq]; simp
        · push Not at hall
          obtain ⟨p, hp, hne⟩ := hall
          exact .unequal qs p q0 e hp hq0 hne hd
    · have : ((qs.length : ℚ) - (ddof : ℚ)) ≠ 0 := by
        intro h
        apply hd
        have : (ddof : ℚ) = ((qs.length : Int) : ℚ) := by push_cast; linarith
        exact_mod_cast this
      rw [if_neg this]
      exact .finite qs _ hq e hm hd
  · have hne : ¬ ((fs.filter (· ≠ .nan)).length = 0) := by
      rw [List.length_eq_zero_iff]
      rcases h with h | h
      · exact ok_ne_nil h (by simp)
      · exact ok_ne_nil h (by simp)
    rw [if_neg hne]
    simp only [flt_sum_inf h]
    have hp : ¬ (((fs.filter (· ≠ .nan)).length : ℚ) < 0) := not_lt.mpr (Nat.cast_nonneg _)
    have key : Flt.nan ∈ (fs.filter (· ≠ .nan)).map (fun a =>
        (a.sub ((if .pinf ∈ fs then (if .ninf ∈ fs then Flt.nan else .pinf) else .ninf).div
          (.fin (fs.filter (· ≠ .nan)).length))).mul
        (a.sub ((if .pinf ∈ fs then (if .ninf ∈ fs then Flt.nan else .pinf) else .ninf).div
          (.fin (fs.filter (· ≠ .nan)).length)))) := by
      by_cases h1 : Flt.pinf ∈ fs
      · refine List.mem_map.mpr ⟨.pinf, (mem_ok (by simp)).mpr h1, ?_⟩
        by_cases h2 : Flt.ninf ∈ fs
        · simp only [h1, h2, if_true, Flt.div]; rfl
        · simp only [h1, h2, if_true, if_false, Flt.div, hp]; rfl
      · have h2 := h.resolve_left h1
        refine List.mem_map.mpr ⟨.ninf, (mem_ok (by simp)).mpr h2, ?_⟩
        simp only [h1, if_false, Flt.div, hp]; rfl
    rw [nan_mem_sum key]
    exact .infinite h

theorem fold_max (vs : List Val) (v : Val) (hn : ∀ w ∈ v :: vs, w.num ≠ .nan) :
    vs.foldl maxVal v ∈ v :: vs ∧ ∀ w ∈ v :: vs, ¬ LtX (vs.foldl maxVal v).num w.num := by
  induction vs generalizing v with
  | nil => simpa using LtX.irrefl _
  | cons u vs ih =>
    have hu := hn u (by simp)
    have hv := hn v (by simp)
    have hsub : maxVal v u = u ∨ maxVal v u = v := by unfold maxVal; split <;> simp
    obtain ⟨h1, h2⟩ := ih (maxVal v u) (by
      intro w hw
      rcases List.mem_cons.mp hw with rfl | hw
      · rcases hsub with h | h <;> rw [h] <;> assumption
      · exact hn w (by simp [hw]))
    rw [List.foldl_cons]
    refine ⟨?_, ?_⟩
    · rcases List.mem_cons.mp h1 with h | h
      · rw [h]; rcases hsub with h | h <;> rw [h] <;> simp
      · simp [h]
    · have hm := h2 (maxVal v u) List.mem_cons_self
      have hge : ∀ w : Val, w = v ∨ w = u → ¬ LtX (maxVal v u).num w.num := by
        intro w hw
        unfold maxVal
        split
        · rename_i h
          rw [lt_iff] at h
          rcases hw with rfl | rfl
          · intro h'; exact LtX.irrefl _ (h.trans h')
          · exact LtX.irrefl _
        · rename_i h
          rw [lt_iff] at h
          rcases hw with rfl | rfl
          · exact LtX.irrefl _
          · exact h
      have htr : ∀ w : Val, w.num ≠ .nan → ¬ LtX (maxVal v u).num w.num →
          ¬ LtX (vs.foldl maxVal (maxVal v u)).num w.num := by
        intro w hw hnot hlt
        have hmn : (maxVal v u).num ≠ .nan := by rcases hsub with h | h <;> rw [h] <;> assumption
        rcases LtX.total hw hmn with h | h | h
        · exact hm (hlt.trans h)
        · exact hm (h ▸ hlt)
        · exact hnot h
      intro w hw
      rcases List.mem_cons.mp hw with rfl | hw
      · exact htr _ hv (hge _ (.inl rfl))
      · rcases List.mem_cons.mp hw with rfl | hw
        · exact htr _ hu (hge _ (.inr rfl))
        · exact h2 w (by simp [hw])

theorem fold_min (vs : List Val) (v : Val) (hn : ∀ w ∈ v :: vs, w.num ≠ .nan) :
    vs.foldl minVal v ∈ v :: vs ∧ ∀ w ∈ v :: vs, ¬ LtX w.num (vs.foldl minVal v).num := by
  induction vs generalizing v with
  | nil => simpa using LtX.irrefl _
  | cons u vs ih =>
    have hu := hn u (by simp)
    have hv := hn v (by simp)
    have hsub : minVal v u = u ∨ minVal v u = v := by unfold minVal; split <;> simp
    obtain ⟨h1, h2⟩ := ih (minVal v u) (by
      intro w hw
      rcases List.mem_cons.mp hw with rfl | hw
      · rcases hsub with h | h <;> rw [h] <;> assumption
      · exact hn w (by simp [hw]))
    rw [List.foldl_cons]
    refine ⟨?_, ?_⟩
    · rcases List.mem_cons.mp h1 with h | h
      · rw [h]; rcases hsub with h | h <;> rw [h] <;> simp
      · simp [h]
    · have hm := h2 (minVal v u) List.mem_cons_self
      have hge : ∀ w : Val, w = v ∨ w = u → ¬ LtX w.num (minVal v u).num := by
        intro w hw
        unfold minVal
        split
        · rename_i h
          rw [lt_iff] at h
          rcases hw with rfl | rfl
          · intro h'; exact LtX.irrefl _ (h.trans h')
          · exact LtX.irrefl _
        · rename_i h
          rw [lt_iff] at h
          rcases hw with rfl | rfl
          · exact LtX.irrefl _
          · exact h
      have htr : ∀ w : Val, w.num ≠ .nan → ¬ LtX w.num (minVal v u).num →
          ¬ LtX w.num (vs.foldl minVal (minVal v u)).num := by
        intro w hw hnot hlt
        have hmn : (minVal v u).num ≠ .nan := by rcases hsub with h | h <;> rw [h] <;> assumption
        rcases LtX.total hw hmn with h | h | h
        · exact hnot h
        · exact hm (h ▸ hlt)
        · exact hm (h.trans hlt)
      intro w hw
      rcases List.mem_cons.mp hw with rfl | hw
      · exact htr _ hv (hge _ (.inl rfl))
      · rcases List.mem_cons.mp hw with rfl | hw
        · exact htr _ hu (hge _ (.inr rfl))
        · exact h2 w (by simp [hw])

theorem val_isNan_iff (v : Val) : v.isNan = true ↔ v.num = .nan := by
  unfold Val.isNan
  cases v.num <;> simp [Flt.isNan]

theorem fold_filter {op : Val → Val → Val} {P : Val → Val → Prop} {vs : List Val}
    (hop : ∀ (l : List Val) (v : Val), (∀ w ∈ v :: l, w.num ≠ .nan) →
      l.foldl op v ∈ v :: l ∧ ∀ w ∈ v :: l, ¬ P (l.foldl op v) w) (hP : ∀ v w, w.num = .nan → ¬ P v w) :
    ((∀ w ∈ vs, w.num = .nan) ∧ nanFold op id vs = .flt .nan) ∨
      (nanFold op id vs ∈ vs ∧ (nanFold op id vs).num ≠ .nan ∧ ∀ w ∈ vs, ¬ P (nanFold op id vs) w) := by
  have hmem : ∀ w, w ∈ (vs.map id).filter (fun v => !v.isNan) ↔ w ∈ vs ∧ w.num ≠ .nan := by
    intro w
    have := val_isNan_iff w
    cases hw : w.isNan <;> simp_all
  unfold nanFold
  cases hl : (vs.map id).filter (fun v => !v.isNan) with
  | nil =>
    refine .inl ⟨fun w hw => ?_, rfl⟩
    by_contra hn
    have := (hmem w).mpr ⟨hw, hn⟩
    rw [hl] at this; cases this
  | cons v l =>
    rw [hl] at hmem
    obtain ⟨h1, h2⟩ := hop l v (fun w hw => ((hmem w).mp hw).2)
    refine .inr ⟨((hmem _).mp h1).1, ((hmem _).mp h1).2, fun w hw => ?_⟩
    by_cases hn : w.num = .nan
    · exact hP _ _ hn
    · exact h2 w ((hmem w).mpr ⟨hw, hn⟩)

theorem maxOf_nanmax (vs : List Val) : MaxOf vs (nanFold maxVal id vs) :=
  fold_filter (P := fun v w => LtX v.num w.num) fold_max fun _ _ hn h => h.ne_nan.2 hn

theorem minOf_nanmin (vs : List Val) : MinOf vs (nanFold minVal id vs) :=
  fold_filter (P := fun v w => LtX w.num v.num) fold_min fun _ _ hn h => h.ne_nan.1 hn

/-! ## C91 -/

/-- C91. `sum`. -/
theorem C91_sum {y : Larry L} (hv : y.Valid) (ht : y.Typed) (hsz : y.shape.prod ≠ 0)
    (hd : y.dtype = .float ∨ y.dtype = .int ∨ y.dtype = .bool) :
    Computes y.sum (SumOf y.dtype) (if y.dtype = .float then .float else .int) y := by
  refine computes_reduce bnNansum hv ht ?_ hsz fun vs hne hvs => ?_
  · rcases hd with h | h | h <;> rw [h] <;> rfl
  · refine sumOf_nansum (d' := if y.dtype = .float then .float else .int) ?_ hne hvs
    rcases hd with h | h | h <;> rw [h] <;> rfl

theorem statDType_ok {d : DType} (hd : d = .float ∨ d = .int ∨ d = .bool) : statDType d = .ok .float := by
  rcases hd with h | h | h <;> rw [h] <;> rfl

/-- C91. `mean`. -/
theorem C91_mean {y : Larry L} (hv : y.Valid) (ht : y.Typed) (hsz : y.shape.prod ≠ 0)
    (hd : y.dtype = .float ∨ y.dtype = .int ∨ y.dtype = .bool) :
    Computes y.mean (fun vs v => ∃ m, v = .flt m ∧ MeanIs (vs.map Val.num) m) .float y :=
  computes_reduce bnNanmean hv ht (statDType_ok hd) hsz fun _ _ _ => ⟨_, rfl, mean_is _⟩

/-- C91. `median`. -/
theorem C91_median {y : Larry L} (hv : y.Valid) (ht : y.Typed) (hsz : y.shape.prod ≠ 0)
    (hd : y.dtype = .float ∨ y.dtype = .int ∨ y.dtype = .bool) :
    Computes y.median (fun vs v => ∃ m, v = .flt m ∧ MedianIs (vs.map Val.num) m) .float y :=
  computes_reduce bnNanmedian hv ht (statDType_ok hd) hsz fun _ _ _ => ⟨_, rfl, median_is _⟩

/-- C91. `var`. -/
theorem C91_var {y : Larry L} (ddof : Int) (hv : y.Valid) (ht : y.Typed) (hsz : y.shape.prod ≠ 0)
    (hd : y.dtype = .float ∨ y.dtype = .int ∨ y.dtype = .bool) :
    Computes (fun axis => y.var axis ddof) (fun vs v => ∃ s, v = .flt s ∧ VarIs ddof (vs.map Val.num) s) .float y :=
  computes_reduce (bnNanvar ddof) hv ht (statDType_ok hd) hsz fun _ _ _ => ⟨_, rfl, var_is _ _⟩

/-- C91. `std`: the root of the variance. -/
theorem C91_std {y : Larry L} (root : Flt → Flt) (ddof : Int) (hv : y.Valid) (ht : y.Typed)
    (hsz : y.shape.prod ≠ 0) (hd : y.dtype = .float ∨ y.dtype = .int ∨ y.dtype = .bool) :
    Computes (fun axis => y.std root axis ddof)
      (fun vs v => ∃ s, v = .flt (root s) ∧ VarIs ddof (vs.map Val.num) s) .float y :=
  computes_reduce (bnNanstd root ddof) hv ht (statDType_ok hd) hsz fun _ _ _ => ⟨_, rfl, var_is _ _⟩

/-- C91. `max`. -/
theorem C91_max {y : Larry L} (hv : y.Valid) (ht : y.Typed) (hsz : y.shape.prod ≠ 0)
    (hd : y.dtype = .float ∨ y.dtype = .int ∨ y.dtype = .bool) : Computes y.max MaxOf y.dtype y := by
  refine computes_reduce bnNanmax hv ht ?_ hsz fun vs _ _ => maxOf_nanmax vs
  rcases hd with h | h | h <;> rw [h] <;> rfl

/-- C91. `min`. -/
theorem C91_min {y : Larry L} (hv : y.Valid) (ht : y.Typed) (hsz : y.shape.prod ≠ 0)
    (hd : y.dtype = .float ∨ y.dtype = .int ∨ y.dtype = .bool) : Computes y.min MinOf y.dtype y := by
  refine computes_reduce bnNanmin hv ht ?_ hsz fun vs _ _ => minOf_nanmin vs
  rcases hd with h | h | h <;> rw [h] <;> rfl

/-- C91. `any`. -/
theorem C91_any {y : Larry L} (hv : y.Valid) (ht : y.Typed) (hsz : y.shape.prod ≠ 0)
    (hd : y.dtype = .float ∨ y.dtype = .int ∨ y.dtype = .bool) : Computes y.any AnyOf .bool y := by
  refine computes_reduce npAny hv ht ?_ hsz fun vs _ _ => ⟨_, rfl, by simp [truthVal]⟩
  rcases hd with h | h | h <;> rw [h] <;> rfl

/-- C91. `all`. -/
theorem C91_all {y : Larry L} (hv : y.Valid) (ht : y.Typed) (hsz : y.shape.prod ≠ 0)
    (hd : y.dtype = .float ∨ y.dtype = .int ∨ y.dtype = .bool) : Computes y.all AllOf .bool y := by
  refine computes_reduce npAll hv ht ?_ hsz fun vs _ _ => ⟨_, rfl, by simp [truthVal]⟩
  rcases hd with h | h | h <;> rw [h] <;> rfl

/-! ### Products of ints and booleans -/

theorem intOf_prod_bool (bs : List Bool) :
    ((bs.map Val.bool).map intOf).prod = if ∀ b ∈ bs, b = true then 1 else 0 := by
  induction bs with
  | nil => simp
  | cons b bs ih =>
    simp only [List.map_cons, List.prod_cons, ih, intOf]
    cases b <;> simp

/-- C91. `prod` of an int or bool larry (C44 has the floats). -/
theorem C91_prod {y : Larry L} (hv : y.Valid) (ht : y.Typed) (hsz : y.shape.prod ≠ 0)
    (hd : y.dtype = .int ∨ y.dtype = .bool) : Computes y.prod (WholeProduct y.dtype) .int y := by
  have hty := (typed_iff hv).mp ht
  set one : NDArray Val := y.x.map (fun v => if v.isNan then .flt (.fin 1) else v) with hone
  have hnan : ∀ v : Val, v.hasDType y.dtype = true → v.isNan = false := by
    intro v h
    rcases hd with e | e <;> rw [e] at h <;> cases v <;> first | rfl | cases h
  have hsame : ∀ idx, InB y.x.shape idx → one.get idx = y.x.get idx := by
    intro idx hi
    simp only [hone, NDArray.map, hnan _ (ht idx hi)]
    rfl
  have hv' : ({ y with x := one } : Larry L).Valid := hv
  have ht' : ({ y with x := one } : Larry L).Typed := fun idx hi => by
    have := ht idx hi
    rw [← hsame idx hi] at this
    exact this
  have hhas : ∀ names v, ({ y with x := one } : Larry L).Has names v ↔ y.Has names v := by
    intro names v
    constructor
    · rintro ⟨idx, hat, rfl⟩
      exact ⟨idx, hat, (hsame idx (hv.shape_eq ▸ At_inB hat)).symm⟩
    · rintro ⟨idx, hat, rfl⟩
      exact ⟨idx, hat, hsame idx (hv.shape_eq ▸ At_inB hat)⟩
  have hall : ∀ vs, AllValues ({ y with x := one } : Larry L) vs ↔ AllValues y vs := by
    intro vs
    simp only [AllValues, hhas]
    rfl
  have hline : ∀ ax rest vs, ({ y with x := one } : Larry L).LineAt ax rest vs ↔ y.LineAt ax rest vs := by
    intro ax rest vs
    simp only [LineAt, hhas]
  have hcomp : Computes (({ y with x := one } : Larry L).reduce (prodRed y.dtype)) (WholeProduct y.dtype) .int
      ({ y with x := one } : Larry L) := by
    refine computes_reduce (prodRed y.dtype) hv' ht' ?_ hsz fun vs hne hvs => ?_
    · rcases hd with e | e <;> simp [prodRed, e, prodDType]
    · rcases hd with e | e
      · simp only [e] at hvs
        obtain ⟨ns, rfl⟩ := typed_int hvs
        simp only [e, WholeProduct, prodRed, npProd]
        refine ⟨ns, rfl, ?_⟩
        rw [List.map_map, show (intOf ∘ Val.int) = id from rfl, List.map_id]
      · simp only [e] at hvs
        obtain ⟨bs, rfl⟩ := typed_bool hvs
        simp only [e, WholeProduct, prodRed, npProd]
        exact ⟨bs, rfl, by rw [intOf_prod_bool]⟩
  have hnot : ((y.x.map Val.isNan).vals.all id) = false := by
    have hl : (y.x.map Val.isNan).vals = y.x.vals.map Val.isNan := by
      simp [NDArray.vals, NDArray.map, Function.comp_def]
    rw [hl]
    have hne : y.x.vals ≠ [] := by
      intro h
      apply hsz
      have := (vals_all hv).1
      rw [h] at this
      exact this.symm
    obtain ⟨v, hm⟩ := List.exists_mem_of_ne_nil _ hne
    rw [List.all_eq_false]
    obtain ⟨names, hh⟩ := mem_vals_has hv hm
    exact ⟨v.isNan, List.mem_map.mpr ⟨v, hm, rfl⟩, by simp [hnan v (hty names v hh)]⟩
  have hdt : ¬ (y.dtype = .str ∨ y.dtype = .object) := by rcases hd with e | e <;> simp [e]
  have hscalar : ∀ axis v, ({ y with x := one } : Larry L).reduce (prodRed y.dtype) axis = .ok (.scalar v) →
      y.prod axis = .ok (.scalar v) := by
    intro axis v h
    unfold Larry.prod
    rw [if_neg hdt]
    simp only [← hone, h, hnot]
    rfl
  obtain ⟨h1, h2, h3⟩ := hcomp
  refine ⟨?_, ?_, ?_⟩
  · obtain ⟨vs, v, ha, e, hs⟩ := h1
    exact ⟨vs, v, (hall vs).mp ha, hscalar _ _ e, hs⟩
  · intro axis hn hax
    obtain ⟨vs, v, ha, e, hs⟩ := h2 axis hn hax
    exact ⟨vs, v, (hline _ _ vs).mp ha, hscalar _ _ e, hs⟩
  · intro axis ax hn hax
    obtain ⟨z, e, hzv, hzd, hzl, hz⟩ := h3 axis ax hn hax
    refine ⟨z, ?_, hzv, hzd, hzl, fun rest hN => ?_⟩
    · unfold Larry.prod
      rw [if_neg hdt]
      simp only [← hone, e, hax, hzd, maskNan]
      obtain ⟨x, d, lab⟩ := z
      simp only at hzd
      subst hzd
      simp
    · obtain ⟨vs, v, ha, hh, hs⟩ := hz rest hN
      exact ⟨vs, v, (hline _ _ vs).mp ha, hh, hs⟩

/-! ### The larry without elements, and the dtypes that are refused -/

/-- Without elements a method returns `v`, whatever there is left to return one for. -/
def ReturnsJust (m : Option Int → Res (Out L)) (v : Val) (y : Larry L) : Prop :=
  m none = .ok (.scalar v) ∧ ∀ axis, y.ndim = 1 → (axis = 0 ∨ axis = -1) → m (some axis) = .ok (.scalar v)

/-- Along an axis of a larry of two or more dimensions every remaining cell holds `v`, in dtype `d`. -/
def Fills (m : Option Int → Res (Out L)) (d : DType) (v : Val) (y : Larry L) : Prop :=
  ∀ axis ax, 2 ≤ y.ndim → pyIdx y.ndim axis = some ax →
    ∃ z, m (some axis) = .ok (.larry z) ∧ z.Valid ∧ z.dtype = d ∧ z.label = y.label.eraseIdx ax ∧
      ∀ rest, Named z.label rest → z.Has rest v

theorem fills_reduce (r : Red) {y : Larry L} (hv : y.Valid) (hsz : y.shape.prod = 0) {d : DType} {v : Val}
    (hd : (if r.logical then .bool else y.dtype) = d) (hf : fillVal? d r.default = .ok v) :
    Fills (y.reduce r) d v y := by
  intro axis ax h2 hax
  obtain ⟨z, e, h1, h2', h3, h4⟩ := (C42_reduce_empty r hv hsz).2.2.1 axis ax v h2 hax (by rw [hd]; exact hf)
  exact ⟨z, e, h1, by rw [h3, hd], h2', fun rest hN => (h4 rest v).mpr ⟨hN, rfl⟩⟩

/-- C91. Without elements: NaN.  Where cells remain they take the larry's dtype, so that they are True in a
bool larry and an int larry raises ValueError. -/
theorem C91_empty {y : Larry L} (root : Flt → Flt) (ddof : Int) (hv : y.Valid) (hsz : y.shape.prod = 0)
    (m : Option Int → Res (Out L)) (hm : m ∈ [y.sum, y.mean, y.median, y.max, y.min, fun axis => y.var axis ddof,
      fun axis => y.std root axis ddof]) :
    ReturnsJust m (.flt .nan) y ∧ (y.dtype = .float → Fills m .float (.flt .nan) y) ∧
      (y.dtype = .bool → Fills m .bool (.bool true) y) ∧
      (y.dtype = .int → ∀ axis ax, 2 ≤ y.ndim → pyIdx y.ndim axis = some ax → m (some axis) = .error .valueError) := by
  have key : ∀ r : Red, r.default = .flt .nan → r.logical = false →
      ReturnsJust (y.reduce r) (.flt .nan) y ∧ (y.dtype = .float → Fills (y.reduce r) .float (.flt .nan) y) ∧
      (y.dtype = .bool → Fills (y.reduce r) .bool (.bool true) y) ∧
      (y.dtype = .int → ∀ axis ax, 2 ≤ y.ndim → pyIdx y.ndim axis = some ax →
        y.reduce r (some axis) = .error .valueError) := by
    intro r hr hl
    obtain ⟨h1, h2, -, h4⟩ := C42_reduce_empty r hv hsz
    rw [hr] at h1 h2
    refine ⟨⟨h1, h2⟩, fun hd => ?_, fun hd => ?_, fun hd axis ax hn hax => h4 axis ax hn hax hl hd hr⟩
    · exact fills_reduce r hv hsz (by rw [hl, hd]; rfl) (by rw [hr]; rfl)
    · exact fills_reduce r hv hsz (by rw [hl, hd]; rfl) (by rw [hr]; rfl)
  simp only [List.mem_cons, List.not_mem_nil, or_false] at hm
  rcases hm with rfl | rfl | rfl | rfl | rfl | rfl | rfl
  all_goals exact key _ rfl rfl

/-- C91. Without elements nothing is true, and everything is. -/
theorem C91_empty_truth {y : Larry L} (hv : y.Valid) (hsz : y.shape.prod = 0) :
    ReturnsJust y.any (.bool false) y ∧ Fills y.any .bool (.bool false) y ∧
      ReturnsJust y.all (.bool true) y ∧ Fills y.all .bool (.bool true) y :=
  ⟨⟨(C42_reduce_empty npAny hv hsz).1, (C42_reduce_empty npAny hv hsz).2.1⟩, fills_reduce npAny hv hsz rfl rfl,
    ⟨(C42_reduce_empty npAll hv hsz).1, (C42_reduce_empty npAll hv hsz).2.1⟩, fills_reduce npAll hv hsz rfl rfl⟩

/-- C91. Text and objects have no numbers to reduce: TypeError. -/
theorem C91_errors {y : Larry L} (root : Flt → Flt) (ddof : Int) (hsz : y.shape.prod ≠ 0) (axis : Option Int) :
    (y.dtype = .str ∨ y.dtype = .object →
      ∀ m ∈ [y.sum, y.mean, y.median, y.max, y.min, (fun axis => y.var axis ddof),
        (fun axis => y.std root axis ddof)], m axis = .error .typeError) ∧
    (y.dtype = .str → y.any axis = .error .typeError ∧ y.all axis = .error .typeError) := by
  constructor
  · intro hd m hm
    simp only [List.mem_cons, List.not_mem_nil, or_false] at hm
    rcases hm with rfl | rfl | rfl | rfl | rfl | rfl | rfl
    all_goals exact (C42_reduce_errors _ axis).2 _ hsz (by rcases hd with h | h <;> rw [h] <;> rfl)
  · intro hd
    exact ⟨(C42_reduce_errors npAny axis).2 _ hsz (by rw [hd]; rfl),
      (C42_reduce_errors npAll axis).2 _ hsz (by rw [hd]; rfl)⟩

/-! ### The median of C52 -/

theorem filter_lt_le {S : List ℚ} {j : Nat} {m : ℚ} (h : ∀ q ∈ S.drop j, ¬ q < m) :
    (S.filter (fun q => q < m)).length ≤ j := by
  conv_lhs => rw [← List.take_append_drop j S]
  rw [List.filter_append, List.length_append]
  have : (S.drop j).filter (fun q => decide (q < m)) = [] := by
    rw [List.filter_eq_nil_iff]; simpa using h
  rw [this]
  have := List.length_filter_le (fun q => decide (q < m)) (S.take j)
  rw [List.length_take] at this
  simp; omega

theorem filter_gt_le {S : List ℚ} {j : Nat} {m : ℚ} (h : ∀ q ∈ S.take j, ¬ m < q) :
    (S.filter (fun q => m < q)).length ≤ S.length - j := by
  conv_lhs => rw [← List.take_append_drop j S]
  rw [List.filter_append, List.length_append]
  have : (S.take j).filter (fun q => decide (m < q)) = [] := by
    rw [List.filter_eq_nil_iff]; simpa using h
  rw [this]
  have := List.length_filter_le (fun q => decide (m < q)) (S.drop j)
  rw [List.length_drop] at this
  simpa using this

theorem noInf_ok {fs : List Flt} (h : NoInf fs) : fs.filter (· ≠ .nan) = (finites fs).map .fin := by
  induction fs with
  | nil => rfl
  | cons f fs ih =>
    have := ih fun x hx => h x (List.mem_cons_of_mem _ hx)
    have hf := h f List.mem_cons_self
    cases f with
    | nan => simpa [finites] using this
    | pinf => exact absurd rfl hf.1
    | ninf => exact absurd rfl hf.2
    | fin q => simpa [finites] using this

/-- C91. A line without infinities has its median in the middle: no more than half of its numbers are smaller, and
no more than half are greater. -/
theorem C91_middle {fs : List Flt} (hi : NoInf fs) (hne : finites fs ≠ []) :
    ∃ m, medianOf fs = .fin m ∧ IsMedian (finites fs) m := by
  rcases median_is fs with ⟨h, -⟩ | ⟨s, hp, hs, h⟩
  · exact absurd (by
      have := noInf_ok hi
      rw [ok_nil h, eq_comm, List.map_eq_nil_iff] at this
      exact this) hne
  · rw [noInf_ok hi] at hp
    obtain ⟨S, hS, rfl⟩ : ∃ S : List ℚ, S.Perm (finites fs) ∧ s = S.map .fin := by
      refine ⟨s.map Flt.rat, ?_, ?_⟩
      · have := hp.map Flt.rat
        rwa [List.map_map, show (Flt.rat ∘ Flt.fin) = id from rfl, List.map_id] at this
      · refine fin_of_finite ?_ ?_ ?_
        all_goals intro f
        · intro hf
          obtain ⟨q, -, rfl⟩ := List.mem_map.mp (hp.mem_iff.mp hf)
          simp
        · have := hp.mem_iff.mp f
          simp at this
        · have := hp.mem_iff.mp f
          simp at this
    have hsort : S.Pairwise (· ≤ ·) := (List.pairwise_map.mp hs).imp fun h => h
    have hmono : ∀ (i j : Nat) (hi : i < S.length) (hj : j < S.length), i ≤ j → S[i] ≤ S[j] := by
      intro i j hi hj hij
      rcases Nat.lt_or_eq_of_le hij with h | rfl
      · exact List.pairwise_iff_getElem.mp hsort _ _ _ _ h
      · exact le_refl _
    have hdrop : ∀ (j : Nat) (c : ℚ) (hj : j < S.length), c ≤ S[j] → ∀ q ∈ S.drop j, ¬ q < c := by
      intro j c hj hc q hq
      obtain ⟨i, hi, rfl⟩ := List.mem_iff_getElem.mp hq
      rw [List.getElem_drop]
      rw [List.length_drop] at hi
      exact not_lt.mpr (hc.trans (hmono _ _ _ _ (by omega)))
    have htake : ∀ (j : Nat) (c : ℚ) (hj : j < S.length), S[j] ≤ c → ∀ q ∈ S.take (j + 1), ¬ c < q := by
      intro j c hj hc q hq
      obtain ⟨i, hi, rfl⟩ := List.mem_iff_getElem.mp hq
      rw [List.getElem_take]
      rw [List.length_take] at hi
      exact not_lt.mpr ((hmono _ _ _ _ (by omega)).trans hc)
    have hlt : ∀ c, ((finites fs).filter (fun q => q < c)).length = (S.filter (fun q => q < c)).length :=
      fun c => (hS.filter _).length_eq.symm
    have hgt : ∀ c, ((finites fs).filter (fun q => c < q)).length = (S.filter (fun q => c < q)).length :=
      fun c => (hS.filter _).length_eq.symm
    have hlen := hS.length_eq
    rcases h with ⟨k, hk, hm⟩ | ⟨k, a, b, hk, ha, hb, hab⟩
    · rw [List.length_map] at hk
      have hkl : k < S.length := by omega
      rw [List.getElem?_map, List.getElem?_eq_getElem hkl] at hm
      simp only [Option.map_some, Option.some.injEq] at hm
      refine ⟨S[k], hm.symm, ?_⟩
      unfold IsMedian
      rw [hlt, hgt, ← hlen]
      have h1 := filter_lt_le (hdrop k S[k] hkl (le_refl _))
      have h2 := filter_gt_le (htake k S[k] hkl (le_refl _))
      omega
    · rw [List.length_map] at hk
      have hkl : k + 1 < S.length := by omega
      have hkl' : k < S.length := by omega
      rw [List.getElem?_map, List.getElem?_eq_getElem hkl'] at ha
      rw [List.getElem?_map, List.getElem?_eq_getElem hkl] at hb
      simp only [Option.map_some, Option.some.injEq] at ha hb
      subst ha; subst hb
      have hle := hmono k (k + 1) hkl' hkl (by omega)
      generalize hM : medianOf fs = M at hab
      cases hab
      refine ⟨_, rfl, ?_⟩
      unfold IsMedian
      rw [hlt, hgt, ← hlen]
      have h1 := filter_lt_le (hdrop (k + 1) ((S[k] + S[k + 1]) / 2) hkl (by linarith))
      have h2 := filter_gt_le (htake k ((S[k] + S[k + 1]) / 2) hkl' (by linarith))
      omega

/-- C91. So `demedian` takes off a median: C52 without its assumption on `bn.nanmedian`. -/
theorem C91_demedian {y : Larry L} (hv : y.Valid) (hd : y.dtype ≠ .str ∧ y.dtype ≠ .object) {axis : Int} {ax : Nat}
    (hax : pyIdx y.ndim axis = some ax) :
    ∃ z, y.demean medianOf (some axis) = .ok z ∧ z.dtype = .float ∧
      y.AlongLine z ax (fun vs ws => StaysNan vs ws ∧ (NoInf (vs.map Val.num) → finites (vs.map Val.num) ≠ [] →
        ∃ m, IsMedian (finites (vs.map Val.num)) m ∧ Shifted m vs ws ∧ IsMedian (finites (ws.map Val.num)) 0)) :=
  C52_demedian hv hd hax fun _ => C91_middle

/-! ### Cases -/

/-- Three numbers and a NaN. -/
def exStat : Larry Nat :=
  ⟨NDArray.ofList [2, 2] [.flt (.fin 1), .flt .nan, .flt (.fin 5), .flt (.fin 3)], .float, [[0, 1], [0, 1]]⟩

/-- The number a method returned. -/
def numberOf : Res (Out L) → Option Val
  | .ok (.scalar v) => some v
  | _ => none

example : exStat.Valid ∧ exStat.Typed := by
  refine ⟨⟨rfl, by decide, by decide⟩, fun idx hidx => ?_⟩
  have := mem_allIdx.mpr hidx
  clear hidx
  revert idx
  decide +kernel
example : exStat.shape.prod ≠ 0 ∧ exStat.dtype = .float := by decide
example : numberOf (exStat.sum none) = some (.flt (.fin 9)) := by decide +kernel
example : numberOf (exStat.mean none) = some (.flt (.fin 3)) := by decide +kernel
example : numberOf (exStat.median none) = some (.flt (.fin 3)) := by decide +kernel
example : numberOf (exStat.var none 0) = some (.flt (.fin (8 / 3))) := by decide +kernel
example : numberOf (exStat.var none 1) = some (.flt (.fin 4)) := by decide +kernel
example : numberOf (exStat.var none 3) = some (.flt .pinf) := by decide +kernel
example : numberOf (exStat.max none) = some (.flt (.fin 5)) := by decide +kernel
example : numberOf (exStat.min none) = some (.flt (.fin 1)) := by decide +kernel
example : SumIs [.fin 1, .nan, .fin 5] (.fin 6) := by
  have := SumIs.finite (fs := [.fin 1, .nan, .fin 5]) [1, 5] (by simp) (by decide +kernel)
  norm_num at this
  exact this
example : SumIs [.pinf, .fin 1] .pinf := .plus (by simp) (by simp)
example : MedianIs [.fin 4, .nan, .fin 1] (.fin (5 / 2)) := by
  refine .inr ⟨[.fin 1, .fin 4], by decide +kernel, by simp [LeF], .inr ⟨0, .fin 1, .fin 4, rfl, rfl, rfl, ?_⟩⟩
  have := Halfway.finite 1 4
  norm_num at this
  exact this
example : VarIs 1 [.fin 1, .nan, .fin 3] (.fin 2) := by
  have := VarIs.finite (ddof := 1) (fs := [.fin 1, .nan, .fin 3]) [1, 3] 2 (by simp) (by decide +kernel) (by norm_num)
    (by norm_num)
  norm_num at this
  exact this
example : MaxOf [.bool false, .bool true] (.bool true) := by
  refine .inr ⟨by simp, by simp [Val.num], ?_⟩
  simp [Val.num, LtX]
example : NoInf [.fin 1, .nan, .fin 5] ∧ finites [.fin 1, .nan, .fin 5] ≠ [] := by
  constructor
  · intro x hx; simp only [List.mem_cons, List.not_mem_nil, or_false] at hx; rcases hx with rfl | rfl | rfl <;> simp
  · simp [finites]

/-- No rows: the column sums. -/
def exNone : Larry Nat := ⟨NDArray.ofList [0, 2] [], .int, [[], [0, 1]]⟩

example : exNone.shape.prod = 0 ∧ numberOf (exNone.sum none) = some (.flt .nan) := by decide +kernel

end La
