import Verif.ReduceMethods
import Verif.Props.Reduce
import Verif.Props.Order
import Verif.Props.Chain
import Verif.Props.Numeric
import Mathlib.Data.List.Perm.Basic

/-!
# Property C84: a total does not depend on how it is taken

`sum`, `max`, `min`, `any`, `all` and `prod` can be asked for the whole larry at once or one axis after
the other, in any order.  The specification, `TotalBy`, is the set of values a user can arrive at in one
of these ways; the theorems say that it has one member, and under which condition on the values.
-/

namespace La
open Larry
variable {L : Type _}

/-- The values one can arrive at by calling the method `m`: on the whole larry, along the only axis, or
along some axis and then on the larry that comes back, in any way. -/
inductive TotalBy (m : Larry L → Option Int → Res (Out L)) : Larry L → Val → Prop
  | whole {y v} : m y none = .ok (.scalar v) → TotalBy m y v
  | along {y a v} : m y (some a) = .ok (.scalar v) → TotalBy m y v
  | step {y a z v} : m y (some a) = .ok (.larry z) → TotalBy m z v → TotalBy m y v

/-! ## The lines along an axis are the elements -/

theorem vals_perm_lines {α : Type _} {a : NDArray α} {ax : Nat} (hax : ax < a.shape.length) :
    a.vals.Perm ((allIdx (a.shape.eraseIdx ax)).flatMap (fun rest => a.line ax rest)) := by
  have hget : a.shape.getD ax 0 = a.shape[ax] := by
    rw [List.getD_eq_getElem?_getD, List.getElem?_eq_getElem hax]; rfl
  have h1 : (allIdx a.shape).Perm ((allIdx (a.shape.eraseIdx ax)).flatMap (fun rest =>
      (List.range (a.shape.getD ax 0)).map (fun i => rest.insertIdx ax i))) := by
    have hlen : ∀ r ∈ allIdx (a.shape.eraseIdx ax), ax ≤ r.length := by
      intro r hr
      have := InB_length (mem_allIdx.mp hr)
      rw [List.length_eraseIdx_of_lt hax] at this; omega
    rw [List.perm_ext_iff_of_nodup (nodup_allIdx _)]
    · intro idx
      rw [mem_allIdx, List.mem_flatMap]
      constructor
      · intro h
        have hl : ax < idx.length := by rw [InB_length h]; exact hax
        refine ⟨idx.eraseIdx ax, mem_allIdx.mpr (InB_erase h hax), List.mem_map.mpr ⟨idx[ax], ?_,
          List.insertIdx_eraseIdx_getElem hl⟩⟩
        rw [List.mem_range, hget]
        have hs : a.shape = (a.shape.eraseIdx ax).insertIdx ax a.shape[ax] :=
          (List.insertIdx_eraseIdx_getElem hax).symm
        rw [hs, InB_insertIdx (by rw [List.length_eraseIdx_of_lt hax]; omega)] at h
        have := h.1
        rw [List.getD_eq_getElem?_getD, List.getElem?_eq_getElem hl] at this
        exact this
      · rintro ⟨r, hr, h⟩
        obtain ⟨i, hi, rfl⟩ := List.mem_map.mp h
        exact InB_insert hax (List.mem_range.mp hi) (mem_allIdx.mp hr)
    · rw [List.nodup_flatMap]
      refine ⟨fun r hr => ?_, ?_⟩
      · refine List.Nodup.map_on ?_ List.nodup_range
        intro i _ j _ hij
        have hle := hlen r hr
        have := congrArg (fun l => l[ax]?) hij
        simpa [List.getElem?_insertIdx_self, hle] using this
      · refine (nodup_allIdx _).imp ?_
        intro r r' hne x hx hx'
        obtain ⟨i, _, rfl⟩ := List.mem_map.mp hx
        obtain ⟨j, _, hj⟩ := List.mem_map.mp hx'
        apply hne
        have := congrArg (fun l => l.eraseIdx ax) hj
        simpa using this.symm
  have := h1.map a.get
  refine this.trans (List.Perm.of_eq ?_)
  simp [List.map_flatMap, NDArray.line, Function.comp_def]

/-! ## Functions of a list of values for which this works -/

/-- On lists of values that satisfy `P`, `f` does not look at the order, and can be taken in parts. -/
structure Gathers (f : List Val → Val) (P : Val → Prop) : Prop where
  perm : ∀ l l', l.Perm l' → (∀ v ∈ l, P v) → f l = f l'
  parts : ∀ ls : List (List Val), ls ≠ [] → (∀ l ∈ ls, l ≠ [] ∧ ∀ v ∈ l, P v) → f ls.flatten = f (ls.map f)
  closed : ∀ l, l ≠ [] → (∀ v ∈ l, P v) → P (f l)

/-- What the method `m` does, in terms of `f`, on the larrys of the dtypes `D`. -/
structure Takes (m : Larry L → Option Int → Res (Out L)) (f : List Val → Val) (D : DType → Prop) : Prop where
  whole : ∀ y : Larry L, y.Valid → D y.dtype → y.shape.prod ≠ 0 → m y none = .ok (.scalar (f y.x.vals))
  along : ∀ (y : Larry L) a o, y.Valid → D y.dtype → y.shape.prod ≠ 0 → y.ndim = 1 → m y (some a) = .ok o →
    o = .scalar (f (y.x.line 0 []))
  step : ∀ (y : Larry L) a o, y.Valid → D y.dtype → y.shape.prod ≠ 0 → 2 ≤ y.ndim → m y (some a) = .ok o →
    ∃ ax z, ax < y.x.shape.length ∧ o = .larry z ∧ z.Valid ∧ D z.dtype ∧ z.x.shape = y.x.shape.eraseIdx ax ∧
      z.x.vals = (y.x.reduceAx f ax).vals

theorem totals_of {m : Larry L → Option Int → Res (Out L)} {f : List Val → Val} {P : Val → Prop}
    {D : DType → Prop} (ht : Takes m f D) (hg : Gathers f P) {y : Larry L} {v : Val} (h : TotalBy m y v) :
    y.Valid → D y.dtype → y.shape.prod ≠ 0 → (∀ w ∈ y.x.vals, P w) → v = f y.x.vals := by
  have parts : ∀ (y : Larry L) ax, ax < y.x.shape.length → y.shape.prod ≠ 0 → (∀ w ∈ y.x.vals, P w) →
      ((y.x.shape.eraseIdx ax).prod ≠ 0) ∧ (∀ w ∈ (y.x.reduceAx f ax).vals, P w) ∧
      f y.x.vals = f (y.x.reduceAx f ax).vals := by
    intro y ax hax hsz hP
    have hprod : y.x.shape.prod = y.x.shape.getD ax 0 * (y.x.shape.eraseIdx ax).prod := by
      rw [List.getD_eq_getElem?_getD, List.getElem?_eq_getElem hax]
      exact (List.CommMonoid.mul_prod_eraseIdx hax).symm
    have hsz' : y.x.shape.prod ≠ 0 := hsz
    rw [hprod] at hsz'
    have h0 : y.x.shape.getD ax 0 ≠ 0 := fun h => hsz' (by rw [h, zero_mul])
    have h1 : (y.x.shape.eraseIdx ax).prod ≠ 0 := fun h => hsz' (by rw [h, mul_zero])
    have hperm := vals_perm_lines (a := y.x) hax
    have hlines : ∀ l ∈ (allIdx (y.x.shape.eraseIdx ax)).map (fun rest => y.x.line ax rest),
        l ≠ [] ∧ ∀ v ∈ l, P v := by
      intro l hl
      obtain ⟨r, hr, rfl⟩ := List.mem_map.mp hl
      refine ⟨?_, fun v hv => hP v (hperm.mem_iff.mpr (List.mem_flatMap.mpr ⟨r, hr, hv⟩))⟩
      intro he
      have := congrArg List.length he
      simp only [NDArray.line, List.length_map, List.length_range, List.length_nil] at this
      exact h0 this
    have hvals : (y.x.reduceAx f ax).vals =
        ((allIdx (y.x.shape.eraseIdx ax)).map (fun rest => y.x.line ax rest)).map f := by
      simp [NDArray.vals, NDArray.reduceAx, Function.comp_def]
    refine ⟨h1, ?_, ?_⟩
    · rw [hvals]
      intro w hw
      obtain ⟨l, hl, rfl⟩ := List.mem_map.mp hw
      exact hg.closed l (hlines l hl).1 (hlines l hl).2
    · rw [hg.perm _ _ hperm hP, hvals, ← hg.parts _ _ hlines, List.flatMap_def]
      intro he
      have := congrArg List.length he
      rw [List.length_map, length_allIdx] at this
      exact h1 this
  induction h with
  | @whole y v h =>
    intro hv hD hsz _
    rw [ht.whole y hv hD hsz] at h
    cases h; rfl
  | @along y a v h =>
    intro hv hD hsz hP
    have hpos : y.ndim ≠ 0 := by
      have := hv.ndim_pos
      rw [← List.length_pos_iff, hv.label_length] at this
      have : 0 < y.ndim := this
      omega
    by_cases h1 : y.ndim = 1
    · have := ht.along y a _ hv hD hsz h1 h
      cases this
      have hlen : y.x.shape.length = 1 := h1
      have hax : 0 < y.x.shape.length := by omega
      have := vals_perm_lines (a := y.x) hax
      rw [hg.perm _ _ this hP]
      have he : y.x.shape.eraseIdx 0 = [] := by
        rw [← List.length_eq_zero_iff, List.length_eraseIdx_of_lt hax]; omega
      rw [he]
      simp [allIdx]
    · obtain ⟨ax, z, _, ho, _⟩ := ht.step y a _ hv hD hsz (by omega) h
      cases ho
  | @step y a z v h _ ih =>
    intro hv hD hsz hP
    by_cases h1 : y.ndim = 1
    · have := ht.along y a _ hv hD hsz h1 h
      cases this
    · have hpos : 0 < y.ndim := by
        have := hv.ndim_pos
        rw [← List.length_pos_iff, hv.label_length] at this
        exact this
      obtain ⟨ax, z', hax, ho, hzv, hzD, hsh, hvals⟩ := ht.step y a _ hv hD hsz (by omega) h
      cases ho
      obtain ⟨p1, p2, p3⟩ := parts y ax hax hsz hP
      rw [p3, ← hvals]
      refine ih hzv hzD ?_ ?_
      · show z.x.shape.prod ≠ 0
        rw [hsh]; exact p1
      · rw [hvals]; exact p2

/-! ## Folding an operation over the values that are not NaN -/

/-- `op` is a commutative and associative operation on the values satisfying `Q`, none of which is NaN. -/
structure CommOn (op : Val → Val → Val) (p : Val → Val) (Q : Val → Prop) : Prop where
  comm : ∀ a b, Q a → Q b → op a b = op b a
  assoc : ∀ a b c, Q a → Q b → Q c → op (op a b) c = op a (op b c)
  closed : ∀ a b, Q a → Q b → Q (op a b)
  num : ∀ a, Q a → a.isNan = false
  fix : ∀ a, Q a → p a = a
  nan : p (.flt .nan) = .flt .nan

section fold
variable {op : Val → Val → Val} {p : Val → Val} {Q : Val → Prop}

theorem CommOn.foldl_closed (h : CommOn op p Q) : ∀ (l : List Val) (a : Val), Q a → (∀ v ∈ l, Q v) → Q (l.foldl op a)
  | [], _, ha, _ => ha
  | b :: l, a, ha, hl => h.foldl_closed l (op a b) (h.closed a b ha (hl b (by simp))) (fun v hv => hl v (by simp [hv]))

theorem CommOn.foldl_op (h : CommOn op p Q) : ∀ (l : List Val) (a b : Val), Q a → Q b → (∀ v ∈ l, Q v) →
    l.foldl op (op a b) = op a (l.foldl op b)
  | [], _, _, _, _, _ => rfl
  | c :: l, a, b, ha, hb, hl => by
    have hc := hl c (by simp)
    rw [List.foldl_cons, List.foldl_cons, h.assoc a b c ha hb hc]
    exact h.foldl_op l a (op b c) ha (h.closed b c hb hc) (fun v hv => hl v (by simp [hv]))

/-- The fold of a list that may be empty. -/
def fold? (op : Val → Val → Val) : List Val → Option Val
  | [] => none
  | a :: l => some (l.foldl op a)

/-- `op` on values of which one may be absent. -/
def op? (op : Val → Val → Val) : Option Val → Option Val → Option Val
  | none, b => b
  | a, none => a
  | some a, some b => some (op a b)

theorem CommOn.fold?_cons (h : CommOn op p Q) {a : Val} {l : List Val} (ha : Q a) (hl : ∀ v ∈ l, Q v) :
    fold? op (a :: l) = op? op (some a) (fold? op l) := by
  cases l with
  | nil => rfl
  | cons b l =>
    simp only [fold?, op?, List.foldl_cons]
    rw [h.foldl_op l a b ha (hl b (by simp)) (fun v hv => hl v (by simp [hv]))]

theorem CommOn.fold?_append (h : CommOn op p Q) {l l' : List Val} (hl : ∀ v ∈ l, Q v) (hl' : ∀ v ∈ l', Q v) :
    fold? op (l ++ l') = op? op (fold? op l) (fold? op l') := by
  induction l with
  | nil => simp [fold?, op?]
  | cons a l ih =>
    have ha := hl a (by simp)
    have hq : ∀ v ∈ l, Q v := fun v hv => hl v (by simp [hv])
    rw [List.cons_append, h.fold?_cons ha (by simp; rintro v (hv | hv); exacts [hq v hv, hl' v hv]), ih hq,
      h.fold?_cons ha hq]
    cases l with
    | nil => cases l' <;> rfl
    | cons b l =>
      cases l' with
      | nil => rfl
      | cons c l' =>
        simp only [fold?, op?]
        rw [h.assoc]
        · exact ha
        · exact h.foldl_closed l b (hq b (by simp)) (fun v hv => hq v (by simp [hv]))
        · exact h.foldl_closed l' c (hl' c (by simp)) (fun v hv => hl' v (by simp [hv]))

theorem CommOn.fold?_perm (h : CommOn op p Q) {l l' : List Val} (hp : l.Perm l') : (∀ v ∈ l, Q v) →
    fold? op l = fold? op l' := by
  induction hp with
  | nil => intro _; rfl
  | @cons a l l' hp ih =>
    intro hl
    have hq : ∀ v ∈ l, Q v := fun v hv => hl v (by simp [hv])
    rw [h.fold?_cons (hl a (by simp)) hq, h.fold?_cons (hl a (by simp)) (fun v hv => hq v (hp.mem_iff.mpr hv)), ih hq]
  | swap a b l =>
    intro hl
    simp only [fold?, List.foldl_cons]
    rw [h.comm b a (hl b (by simp)) (hl a (by simp))]
  | @trans l l' l'' h1 h2 ih1 ih2 =>
    intro hl
    rw [ih1 hl, ih2 (fun v hv => hl v (h1.mem_iff.mpr hv))]

theorem gather_fold? (vs : List Val) :
    nanFold op p vs = (fold? op ((vs.map p).filter (fun v => !v.isNan))).getD (.flt .nan) := by
  unfold nanFold
  cases (vs.map p).filter (fun v => !v.isNan) <;> rfl

theorem gathers_gather (h : CommOn op p Q) : Gathers (nanFold op p) (fun v => Q (p v) ∨ v = .flt .nan) := by
  have hQ : ∀ l : List Val, (∀ v ∈ l, Q (p v) ∨ v = .flt .nan) →
      ∀ v ∈ (l.map p).filter (fun v => !v.isNan), Q v := by
    intro l hl v hv
    obtain ⟨hm, hn⟩ := List.mem_filter.mp hv
    obtain ⟨w, hw, rfl⟩ := List.mem_map.mp hm
    rcases hl w hw with hq | rfl
    · exact hq
    · rw [h.nan] at hn; simp [Val.isNan, Val.num, Flt.isNan] at hn
  have hres : ∀ l : List Val, (∀ v ∈ l, Q (p v) ∨ v = .flt .nan) →
      Q (nanFold op p l) ∧ fold? op ((l.map p).filter (fun v => !v.isNan)) = some (nanFold op p l) ∨
        nanFold op p l = .flt .nan ∧ fold? op ((l.map p).filter (fun v => !v.isNan)) = none := by
    intro l hl
    have := hQ l hl
    rw [gather_fold?]
    revert this
    cases (l.map p).filter (fun v => !v.isNan) with
    | nil => intro _; exact .inr ⟨rfl, rfl⟩
    | cons a t =>
      intro hq
      exact .inl ⟨h.foldl_closed t a (hq a (by simp)) (fun v hv => hq v (by simp [hv])), rfl⟩
  refine ⟨?_, ?_, ?_⟩
  · intro l l' hp hl
    rw [gather_fold?, gather_fold?]
    rw [h.fold?_perm ((hp.map p).filter _) (hQ l hl)]
  · intro ls _ hls
    rw [gather_fold?, gather_fold?]
    congr 1
    clear ‹ls ≠ []›
    induction ls with
    | nil => rfl
    | cons l ls ih =>
      have hl := (hls l (by simp)).2
      have hr : ∀ m ∈ ls, m ≠ [] ∧ ∀ v ∈ m, Q (p v) ∨ v = .flt .nan := fun m hm => hls m (by simp [hm])
      have hfl : ∀ v ∈ ls.flatten, Q (p v) ∨ v = .flt .nan := by
        intro v hv
        obtain ⟨m, hm, hv⟩ := List.mem_flatten.mp hv
        exact (hr m hm).2 v hv
      have hgs : ∀ v ∈ ls.map (nanFold op p), Q (p v) ∨ v = .flt .nan := by
        intro v hv
        obtain ⟨m, hm, rfl⟩ := List.mem_map.mp hv
        rcases hres m (hr m hm).2 with ⟨hq, _⟩ | ⟨he, _⟩
        · left; rw [h.fix _ hq]; exact hq
        · exact .inr he
      rw [List.flatten_cons, List.map_append, List.filter_append, h.fold?_append (hQ l hl) (hQ _ hfl), ih hr]
      rw [List.map_cons, List.map_cons]
      rcases hres l hl with ⟨hq, he⟩ | ⟨he, hn⟩
      · rw [he, h.fix _ hq, List.filter_cons, if_pos (by simp [h.num _ hq]), h.fold?_cons hq (hQ _ hgs)]
      · rw [hn, he, h.nan, List.filter_cons, if_neg (by simp [Val.isNan, Val.num, Flt.isNan])]
        rfl
  · intro l _ hl
    rcases hres l hl with ⟨hq, _⟩ | ⟨he, _⟩
    · left; rw [h.fix _ hq]; exact hq
    · exact .inr he

end fold

/-! ## The methods -/

theorem takes_reduce (r : Red) {D : DType → Prop} (hD : ∀ d, D d → ∃ d', r.dt d = .ok d' ∧ D d') :
    Takes (L := L) (fun y a => y.reduce r a) r.f D := by
  refine ⟨?_, ?_, ?_⟩
  · intro y _ hd hsz
    obtain ⟨d', hd', _⟩ := hD _ hd
    exact reduce_none_eq r hd' hsz
  · intro y a o hv hd hsz h1 h
    obtain ⟨d', hd', _⟩ := hD _ hd
    cases hax : pyIdx y.ndim a with
    | none => rw [((C42_reduce_errors r (some a)).1 a rfl hax).2 d' hsz hd'] at h; cases h
    | some ax =>
      have ha : a = 0 ∨ a = -1 := by
        unfold pyIdx at hax
        rw [h1] at hax
        split_ifs at hax <;> omega
      rw [reduce_1d_eq r hd' hsz h1 ha] at h
      cases h; rfl
  · intro y a o hv hd hsz h2 h
    obtain ⟨d', hd', hD'⟩ := hD _ hd
    cases hax : pyIdx y.ndim a with
    | none => rw [((C42_reduce_errors r (some a)).1 a rfl hax).2 d' hsz hd'] at h; cases h
    | some ax =>
      rw [reduce_axis_eq r hv hd' hsz hax h2] at h
      cases h
      obtain ⟨l, hl, hlt⟩ := label_at hv hax
      exact ⟨ax, _, pyIdx_lt hax, rfl, validLabels_erase hv hlt (by rw [hv.label_length]; exact h2), hD', rfl, rfl⟩

/-- An element is a number other than NaN that is not the infinity `i`. -/
def SumsWith (i : Flt) (v : Val) : Prop := (∃ f, v = .flt f ∧ f ≠ .nan ∧ f ≠ i) ∨ ∃ n, v = .int n

theorem commOn_add {i : Flt} (hi : i = .pinf ∨ i = .ninf) : CommOn plusVal countVal (SumsWith i) := by
  refine ⟨?_, ?_, ?_, ?_, ?_, rfl⟩
  · rintro a b (⟨f, rfl, _⟩ | ⟨n, rfl⟩) (⟨g, rfl, _⟩ | ⟨m, rfl⟩) <;>
      simp [plusVal, add_comm_flt, add_comm]
  · rintro a b c (⟨f, rfl, _⟩ | ⟨n, rfl⟩) (⟨g, rfl, _⟩ | ⟨m, rfl⟩) (⟨k, rfl, _⟩ | ⟨q, rfl⟩) <;>
      simp [plusVal, Val.num, add_assoc_flt, add_assoc]
    · simp [Flt.add]
    · cases k <;> simp [Flt.add, add_assoc]
  · rintro a b (⟨f, rfl, hf⟩ | ⟨n, rfl⟩) (⟨g, rfl, hg⟩ | ⟨m, rfl⟩)
    · left
      refine ⟨_, rfl, ?_⟩
      rcases hi with rfl | rfl <;> cases f <;> cases g <;> simp_all [Val.num, Flt.add]
    · left
      refine ⟨_, rfl, ?_⟩
      rcases hi with rfl | rfl <;> cases f <;> simp_all [Val.num, Flt.add]
    · left
      refine ⟨_, rfl, ?_⟩
      rcases hi with rfl | rfl <;> cases g <;> simp_all [Val.num, Flt.add]
    · right; exact ⟨_, rfl⟩
  · rintro a (⟨f, rfl, hf, _⟩ | ⟨n, rfl⟩)
    · cases f <;> simp_all [Val.isNan, Val.num, Flt.isNan]
    · simp [Val.isNan, Val.num, Flt.isNan]
  · rintro a (⟨f, rfl, _⟩ | ⟨n, rfl⟩) <;> rfl

/-- The larger and the smaller of two elements of one dtype, neither NaN. -/
def Ordered (d : DType) (v : Val) : Prop := v.hasDType d = true ∧ v.isNan = false

theorem lt_asymm_flt {a b : Flt} (h : a.lt b = true) : b.lt a = false := by
  cases a <;> cases b <;> simp_all [Flt.lt]
  exact le_of_lt h

theorem eq_of_not_lt {a b : Flt} (ha : a ≠ .nan) (hb : b ≠ .nan) (h : a.lt b = false) (h' : b.lt a = false) : a = b := by
  cases a <;> cases b <;> simp_all [Flt.lt]
  exact le_antisymm h' h

theorem lt_trans_flt {a b c : Flt} (h : a.lt b = true) (h' : b.lt c = true) : a.lt c = true := by
  cases a <;> cases b <;> cases c <;> simp_all [Flt.lt]
  exact lt_trans h h'

theorem num_inj {d : DType} (hd : d = .float ∨ d = .int) {a b : Val} (ha : Ordered d a) (hb : Ordered d b)
    (h : a.num = b.num) : a = b := by
  rcases hd with rfl | rfl <;> obtain ⟨ha, _⟩ := ha <;> obtain ⟨hb, _⟩ := hb <;> cases a <;> cases b <;>
    simp_all [Val.hasDType, Val.num]

theorem Ordered.ne {d : DType} {a : Val} (h : Ordered d a) : a.num ≠ .nan := by
  intro hn
  have := h.2
  rw [show a.isNan = a.num.isNan from rfl, hn] at this
  cases this

theorem commOn_max {d : DType} (hd : d = .float ∨ d = .int) : CommOn maxVal id (Ordered d) := by
  refine ⟨?_, ?_, ?_, fun a h => h.2, fun _ _ => rfl, rfl⟩
  · intro a b ha hb
    unfold maxVal
    cases h : a.num.lt b.num <;> cases h' : b.num.lt a.num
    · exact num_inj hd ha hb (eq_of_not_lt ha.ne hb.ne h h')
    · simp
    · simp
    · rw [lt_asymm_flt h] at h'; cases h'
  · intro a b c ha hb hc
    unfold maxVal
    cases h : a.num.lt b.num <;> cases h' : b.num.lt c.num <;> cases h'' : a.num.lt c.num <;>
      simp [h, h', h'']
    · by_cases hbc : c.num.lt b.num = true
      · rw [lt_trans_flt h'' hbc] at h; cases h
      · have := eq_of_not_lt hb.ne hc.ne h' (by simpa using hbc)
        rw [this, h''] at h; cases h
    · rw [lt_trans_flt h h'] at h''; cases h''
  · intro a b ha hb
    unfold maxVal
    split
    · exact hb
    · exact ha

theorem commOn_min {d : DType} (hd : d = .float ∨ d = .int) : CommOn minVal id (Ordered d) := by
  refine ⟨?_, ?_, ?_, fun a h => h.2, fun _ _ => rfl, rfl⟩
  · intro a b ha hb
    unfold minVal
    cases h : a.num.lt b.num <;> cases h' : b.num.lt a.num
    · exact num_inj hd ha hb (eq_of_not_lt ha.ne hb.ne h h')
    · simp
    · simp
    · rw [lt_asymm_flt h] at h'; cases h'
  · intro a b c ha hb hc
    unfold minVal
    cases h : b.num.lt a.num <;> cases h' : c.num.lt b.num <;> cases h'' : c.num.lt a.num <;>
      simp [h, h', h'']
    · by_cases hbc : b.num.lt c.num = true
      · rw [lt_trans_flt hbc h''] at h; cases h
      · have := eq_of_not_lt hb.ne hc.ne (by simpa using hbc) h'
        rw [this, h''] at h; cases h
    · rw [lt_trans_flt h' h] at h''; cases h''
  · intro a b ha hb
    unfold minVal
    split
    · exact hb
    · exact ha

theorem gathers_any : Gathers anyVals (fun _ => True) := by
  refine ⟨fun l l' h _ => ?_, fun ls _ _ => ?_, fun _ _ _ => trivial⟩
  · unfold anyVals; rw [h.any_eq]
  · unfold anyVals
    rw [List.any_flatten, List.any_map]
    congr 1
    congr 1
    funext l
    simp only [Function.comp_def, truthVal, Val.num]
    cases l.any _ <;> simp

theorem gathers_all : Gathers allVals (fun _ => True) := by
  refine ⟨fun l l' h _ => ?_, fun ls _ _ => ?_, fun _ _ _ => trivial⟩
  · unfold allVals; rw [h.all_eq]
  · unfold allVals
    rw [List.all_flatten, List.all_map]
    congr 1
    congr 1
    funext l
    simp only [Function.comp_def, truthVal, Val.num]
    cases l.all _ <;> simp

theorem mem_vals_has {y : Larry L} (hv : y.Valid) {w : Val} (h : w ∈ y.x.vals) : ∃ names, y.Has names w := by
  obtain ⟨idx, hidx, rfl⟩ := List.mem_map.mp h
  have hin := mem_allIdx.mp hidx
  rw [hv.shape_eq] at hin
  obtain ⟨names, hat⟩ := At_of_inB hin
  exact ⟨names, idx, hat, rfl⟩

/-- C84. However the sum of a float, int or bool larry is taken, all at once or axis after axis in any
order, it is the same, provided the larry does not hold both infinities. -/
theorem C84_sum {y : Larry L} (hv : y.Valid) (ht : y.Typed) (hd : y.dtype = .float ∨ y.dtype = .int ∨ y.dtype = .bool)
    (hsz : y.shape.prod ≠ 0)
    (hinf : (∀ names v, y.Has names v → v.num ≠ .pinf) ∨ ∀ names v, y.Has names v → v.num ≠ .ninf)
    {v : Val} (h : TotalBy Larry.sum y v) : y.sum none = .ok (.scalar v) := by
  have tk : Takes (L := L) Larry.sum bnNansum.f (fun d => d = .float ∨ d = .int ∨ d = .bool) :=
    takes_reduce bnNansum (by rintro d (rfl | rfl | rfl) <;> exact ⟨_, rfl, by simp⟩)
  rw [tk.whole y hv hd hsz]
  have key : ∀ i : Flt, (i = .pinf ∨ i = .ninf) → (∀ names v, y.Has names v → v.num ≠ i) →
      v = bnNansum.f y.x.vals := by
    intro i hi hno
    refine totals_of tk (gathers_gather (commOn_add hi)) h hv hd hsz ?_
    intro w hw
    obtain ⟨names, hh⟩ := mem_vals_has hv hw
    have hty := (typed_iff hv).mp ht names w hh
    have hni := hno names w hh
    clear hw hh
    rcases hd with hd | hd | hd <;> rw [hd] at hty <;> cases w <;> simp [Val.hasDType] at hty
    · rename_i f
      by_cases hf : f = .nan
      · right; rw [hf]
      · left; exact .inl ⟨f, rfl, hf, hni⟩
    · left; exact .inr ⟨_, rfl⟩
    · left; exact .inr ⟨_, rfl⟩
  rcases hinf with hp | hn
  · rw [key _ (.inl rfl) hp]
  · rw [key _ (.inr rfl) hn]

theorem ordered_or_nan {y : Larry L} (hv : y.Valid) (ht : y.Typed) (hd : y.dtype = .float ∨ y.dtype = .int) :
    ∀ w ∈ y.x.vals, Ordered y.dtype (id w) ∨ w = .flt .nan := by
  intro w hw
  obtain ⟨names, hw⟩ := mem_vals_has hv hw
  have hty := (typed_iff hv).mp ht names w hw
  cases hn : w.isNan with
  | false => exact .inl ⟨hty, hn⟩
  | true =>
    right
    have := isNan_iff.mp hn
    rcases hd with hd | hd <;> rw [hd] at hty <;> cases w <;> simp_all [Val.hasDType, Val.num]

/-- C84. The same of the largest element: no condition on the values. -/
theorem C84_max {y : Larry L} (hv : y.Valid) (ht : y.Typed) (hd : y.dtype = .float ∨ y.dtype = .int)
    (hsz : y.shape.prod ≠ 0) {v : Val} (h : TotalBy Larry.max y v) : y.max none = .ok (.scalar v) := by
  have tk : Takes (L := L) Larry.max bnNanmax.f (fun d => d = .float ∨ d = .int) :=
    takes_reduce bnNanmax (by rintro d (rfl | rfl) <;> exact ⟨_, rfl, by simp⟩)
  rw [tk.whole y hv hd hsz, totals_of tk (gathers_gather (commOn_max hd)) h hv hd hsz (ordered_or_nan hv ht hd)]

/-- C84. The same of the smallest element. -/
theorem C84_min {y : Larry L} (hv : y.Valid) (ht : y.Typed) (hd : y.dtype = .float ∨ y.dtype = .int)
    (hsz : y.shape.prod ≠ 0) {v : Val} (h : TotalBy Larry.min y v) : y.min none = .ok (.scalar v) := by
  have tk : Takes (L := L) Larry.min bnNanmin.f (fun d => d = .float ∨ d = .int) :=
    takes_reduce bnNanmin (by rintro d (rfl | rfl) <;> exact ⟨_, rfl, by simp⟩)
  rw [tk.whole y hv hd hsz, totals_of tk (gathers_gather (commOn_min hd)) h hv hd hsz (ordered_or_nan hv ht hd)]

/-- C84. The same of whether any, and whether all, elements are true. -/
theorem C84_any_all {y : Larry L} (hv : y.Valid) (hd : y.dtype = .float ∨ y.dtype = .int ∨ y.dtype = .bool)
    (hsz : y.shape.prod ≠ 0) {v : Val} :
    (TotalBy Larry.any y v → y.any none = .ok (.scalar v)) ∧ (TotalBy Larry.all y v → y.all none = .ok (.scalar v)) := by
  have t1 : Takes (L := L) Larry.any anyVals (fun d => d = .float ∨ d = .int ∨ d = .bool) :=
    takes_reduce npAny (by rintro d (rfl | rfl | rfl) <;> exact ⟨_, rfl, by simp⟩)
  have t2 : Takes (L := L) Larry.all allVals (fun d => d = .float ∨ d = .int ∨ d = .bool) :=
    takes_reduce npAll (by rintro d (rfl | rfl | rfl) <;> exact ⟨_, rfl, by simp⟩)
  exact ⟨fun h => by rw [t1.whole y hv hd hsz, totals_of t1 gathers_any h hv hd hsz (fun _ _ => trivial)],
    fun h => by rw [t2.whole y hv hd hsz, totals_of t2 gathers_all h hv hd hsz (fun _ _ => trivial)]⟩

/-- C84, the condition of the sum is needed: with both infinities in one row the sum of all elements is
NaN, while the sum along the rows is NaN for that row only, which the second sum leaves out. -/
theorem C84_sum_infinities : ∃ y : Larry Nat, y.Valid ∧ y.Typed ∧ y.dtype = .float ∧
    y.sum none = .ok (.scalar (.flt .nan)) ∧ TotalBy Larry.sum y (fl 3) := by
  refine ⟨⟨NDArray.ofList [2, 2] [.flt .pinf, .flt .ninf, fl 1, fl 2], .float, [[0, 1], [0, 1]]⟩,
    ⟨rfl, by decide, by decide⟩, ?_, rfl, by rfl, .step (a := 1) rfl (.whole ?_)⟩
  · intro idx hidx
    have := mem_allIdx.mpr hidx
    clear hidx
    revert idx
    decide +kernel
  · exact congrArg (fun v => Except.ok (Out.scalar v)) (by decide +kernel : _ = fl 3)

/-! ## prod -/

/-- The product of two elements. -/
def timesVal (a b : Val) : Val := .flt (a.num.mul b.num)

theorem commOn_mul : CommOn timesVal id (fun v => ∃ q, v = fl q) := by
  refine ⟨?_, ?_, ?_, ?_, fun _ _ => rfl, rfl⟩
  · rintro _ _ ⟨a, rfl⟩ ⟨b, rfl⟩; simp [timesVal, Val.num, Flt.mul, mul_comm]
  · rintro _ _ _ ⟨a, rfl⟩ ⟨b, rfl⟩ ⟨c, rfl⟩; simp [timesVal, Val.num, Flt.mul, mul_assoc]
  · rintro _ _ ⟨a, rfl⟩ ⟨b, rfl⟩; exact ⟨a * b, rfl⟩
  · rintro _ ⟨a, rfl⟩; rfl

theorem prodSpec_fold (vs : List Val) (h : ∀ v ∈ vs, (∃ q, v = fl q) ∨ v = .flt .nan) :
    prodSpec vs = nanFold timesVal id vs := by
  have key : ∀ (l : List Val) (a : Flt), (l.map Val.num).foldl Flt.mul a = (l.foldl timesVal (.flt a)).num := by
    intro l
    induction l with
    | nil => intro a; rfl
    | cons v l ih => intro a; simp only [List.map_cons, List.foldl_cons]; rw [ih]; rfl
  have isflt : ∀ (l : List Val) (a : Flt), l.foldl timesVal (.flt a) = .flt (l.foldl timesVal (.flt a)).num := by
    intro l
    induction l with
    | nil => intro a; rfl
    | cons v l ih => intro a; exact ih _
  have hf : (vs.map Val.num).filter (fun f => !f.isNan) = (vs.filter (fun v => !v.isNan)).map Val.num := by
    rw [List.filter_map]; rfl
  unfold prodSpec nanFold nanProd
  rw [List.map_id, hf]
  cases he : vs.filter (fun v => !v.isNan) with
  | nil =>
    rw [if_pos]
    intro v hv
    have := List.filter_eq_nil_iff.mp he v hv
    exact isNan_iff.mp (by simpa using this)
  | cons a t =>
    have hmem : a ∈ vs.filter (fun v => !v.isNan) := by rw [he]; simp
    obtain ⟨ha, hna⟩ := List.mem_filter.mp hmem
    rw [if_neg]
    · rcases h a ha with ⟨q, rfl⟩ | rfl
      · unfold Flt.prod
        simp only [List.map_cons, List.foldl_cons]
        rw [isflt t (.fin q), key]
        simp [Val.num, Flt.mul]
      · simp [Val.isNan, Val.num, Flt.isNan] at hna
    · intro hall
      have := hall a ha
      rw [isNan_iff.mpr this] at hna
      cases hna

theorem vals_of_has {y z : Larry L} {f : List Val → Val} (hv : y.Valid) (hz : z.Valid) {ax : Nat} {l : List L}
    (hl : y.label[ax]? = some l) (hlab : z.label = y.label.eraseIdx ax)
    (h : ∀ rest v, z.Has rest v ↔ Named z.label rest ∧ ∃ vs, y.LineAt ax rest vs ∧ v = f vs) :
    z.x.shape = y.x.shape.eraseIdx ax ∧ z.x.vals = (y.x.reduceAx f ax).vals := by
  have hsh : z.x.shape = y.x.shape.eraseIdx ax := by
    rw [hz.shape_eq, hv.shape_eq, hlab]; simp [List.eraseIdx_map]
  refine ⟨hsh, ?_⟩
  unfold NDArray.vals
  show (allIdx z.x.shape).map z.x.get = (allIdx (y.x.shape.eraseIdx ax)).map _
  rw [hsh]
  apply List.map_congr_left
  intro idx hidx
  have hin := mem_allIdx.mp hidx
  rw [← hsh, hz.shape_eq] at hin
  obtain ⟨names, hat⟩ := At_of_inB hin
  obtain ⟨hN, vs, hline, he⟩ := (h names _).mp ⟨idx, hat, rfl⟩
  rw [he]
  rw [hlab] at hat
  have := Larry.LineAt.unique hv (line_at hv hl hat) hline
  rw [← this]
  rfl

/-- C84. The product of a float larry without infinities. -/
theorem C84_prod {y : Larry L} (hv : y.Valid) (ht : y.Typed) (hd : y.dtype = .float) (hsz : y.shape.prod ≠ 0)
    (hinf : ∀ names v, y.Has names v → v.num ≠ .pinf ∧ v.num ≠ .ninf)
    {v : Val} (h : TotalBy Larry.prod y v) : y.prod none = .ok (.scalar v) := by
  have tk : Takes (L := L) Larry.prod prodSpec (fun d => d = .float) := by
    refine ⟨?_, ?_, ?_⟩
    · intro y hv hd hsz
      refine prod_scalar hd ?_ rfl
      rw [reduce_none_eq (prodRed y.dtype) (y := { y with x := y.x.map (fun v =>
        if v.isNan then .flt (.fin 1) else v) }) (d := .float) (by simp [prodRed, prodDType, hd]) hsz]
      simp [NDArray.vals, NDArray.map, Function.comp_def]
    · intro y a o hv hd hsz h1 h
      cases hax : pyIdx y.ndim a with
      | none =>
        unfold Larry.prod at h
        rw [if_neg (by simp [hd])] at h
        dsimp only at h
        rw [((C42_reduce_errors (prodRed y.dtype) (y := { y with x := y.x.map (fun v =>
          if v.isNan then .flt (.fin 1) else v) }) (some a)).1 a rfl hax).2 .float hsz
            (by simp [prodRed, prodDType, hd])] at h
        cases h
      | some ax =>
        have ha : a = 0 ∨ a = -1 := by
          unfold pyIdx at hax
          rw [h1] at hax
          split_ifs at hax <;> omega
        obtain ⟨vs, hline, he⟩ := C44_prod_1d hv hd hsz h1 ha
        rw [he] at h
        cases h
        have hax' : pyIdx y.ndim a = some 0 := by
          rcases ha with rfl | rfl <;> simp [pyIdx, h1]
        obtain ⟨l, hl, hlt⟩ := label_at hv hax'
        have hlab : y.label.eraseIdx 0 = [] := by
          rw [← List.length_eq_zero_iff, List.length_eraseIdx_of_lt hlt, hv.label_length]
          have : y.x.shape.length = 1 := h1
          omega
        rw [Larry.LineAt.unique hv (line_at hv hl (ridx := []) (by rw [hlab]; trivial)) hline]
    · intro y a o hv hd hsz h2 h
      cases hax : pyIdx y.ndim a with
      | none =>
        unfold Larry.prod at h
        rw [if_neg (by simp [hd])] at h
        dsimp only at h
        rw [((C42_reduce_errors (prodRed y.dtype) (y := { y with x := y.x.map (fun v =>
          if v.isNan then .flt (.fin 1) else v) }) (some a)).1 a rfl hax).2 .float hsz
            (by simp [prodRed, prodDType, hd])] at h
        cases h
      | some ax =>
        obtain ⟨z, he, hz, hzd, hlab, hcell⟩ := C44_prod_axis hv hd hsz hax h2
        rw [he] at h
        cases h
        obtain ⟨l, hl, hlt⟩ := label_at hv hax
        obtain ⟨e1, e2⟩ := vals_of_has hv hz hl hlab hcell
        exact ⟨ax, z, pyIdx_lt hax, rfl, hz, hzd, e1, e2⟩
  have g := gathers_gather commOn_mul
  have hg : Gathers prodSpec (fun v => (∃ q, v = fl q) ∨ v = .flt .nan) := by
    refine ⟨fun l l' hp hl => ?_, fun ls hne hls => ?_, fun l hne hl => ?_⟩
    · rw [prodSpec_fold l hl, prodSpec_fold l' (fun v hv => hl v (hp.mem_iff.mpr hv))]
      exact g.perm l l' hp hl
    · have hfl : ∀ v ∈ ls.flatten, (∃ q, v = fl q) ∨ v = .flt .nan := by
        intro v hv
        obtain ⟨m, hm, hv⟩ := List.mem_flatten.mp hv
        exact (hls m hm).2 v hv
      have hmap : ls.map prodSpec = ls.map (nanFold timesVal id) :=
        List.map_congr_left (fun l hl => prodSpec_fold l (hls l hl).2)
      rw [prodSpec_fold _ hfl, g.parts ls hne hls, hmap, prodSpec_fold]
      intro v hv
      obtain ⟨m, hm, rfl⟩ := List.mem_map.mp hv
      exact g.closed m (hls m hm).1 (hls m hm).2
    · rw [prodSpec_fold l hl]; exact g.closed l hne hl
  rw [tk.whole y hv hd hsz, totals_of tk hg h hv hd hsz ?_]
  intro w hw
  obtain ⟨names, hh⟩ := mem_vals_has hv hw
  have hty := (typed_iff hv).mp ht names w hh
  have hni := hinf names w hh
  rw [hd] at hty
  cases w with
  | flt f => cases f <;> simp_all [Val.num]
  | _ => simp [Val.hasDType] at hty

/-- C84. The last value of a running sum is the sum, if it is not missing: along every line whose last
element is not NaN, `cumsum` ends with what `sum` returns for the line. -/
theorem C84_cumsum_last {y z : Larry L} (hv : y.Valid) (ht : y.Typed) (hd : y.dtype = .float) {axis : Int} {ax : Nat}
    (hax : pyIdx y.ndim axis = some ax) (hz : y.cumsum (some axis) = .ok z)
    {rest : List L} {vs ws : List Val}
    (hy : y.LineAt ax rest vs) (hw : z.LineAt ax rest ws) {last : Val} (hl : vs.getLast? = some last)
    (hn : last.num ≠ .nan) : ws.getLast? = some (bnNansum.f vs) := by
  obtain ⟨z', hz', _, hal⟩ := C43_cumsum hv hd hax
  rw [hz] at hz'
  cases hz'
  obtain ⟨l, hyl, hylen, hycell⟩ := hy
  obtain ⟨l', hwl, hwlen, hwcell⟩ := hw
  rw [hal.label_eq, hyl] at hwl
  cases hwl
  have hpos : 0 < vs.length := by
    cases vs with
    | nil => simp at hl
    | cons => simp
  rw [List.getLast?_eq_getElem?] at hl ⊢
  obtain ⟨b, hb⟩ : ∃ b, l[vs.length - 1]? = some b := ⟨_, List.getElem?_eq_getElem (by omega)⟩
  obtain ⟨w, hwv⟩ : ∃ w, ws[ws.length - 1]? = some w := ⟨_, List.getElem?_eq_getElem (by omega)⟩
  have hlen : ws.length = vs.length := by omega
  rw [hlen] at hwv ⊢
  rw [hwv]
  have hR := hal.cell rest vs l (vs.length - 1) b w ⟨l, hyl, hylen, hycell⟩ hyl hb (hwcell _ b w hb hwv) last hl
  rw [hR.2 hn]
  have htake : vs.take (vs.length - 1 + 1) = vs := List.take_of_length_le (by omega)
  unfold soFar
  rw [htake]
  have hflt : ∀ v ∈ vs, ∃ f, v = .flt f := by
    intro v hv'
    obtain ⟨k, hk, rfl⟩ := List.getElem_of_mem hv'
    have := (typed_iff hv).mp ht _ _ (hycell k _ _ (List.getElem?_eq_getElem (by omega)) (List.getElem?_eq_getElem hk))
    rw [hd] at this
    cases hvk : vs[k] with
    | flt f => exact ⟨f, rfl⟩
    | _ => rw [hvk] at this; simp [Val.hasDType] at this
  have hcount : vs.map countVal = vs := by
    conv_rhs => rw [← List.map_id vs]
    refine List.map_congr_left fun v hv' => ?_
    obtain ⟨f, rfl⟩ := hflt v hv'
    rfl
  show some _ = some (nanFold plusVal countVal vs)
  congr 1
  unfold nanFold
  rw [hcount]
  have hmapf : (vs.map Val.num).filter (fun f => !f.isNan) = (vs.filter (fun v => !v.isNan)).map Val.num := by
    rw [List.filter_map]; rfl
  rw [hmapf]
  have hsub : ∀ v ∈ vs.filter (fun v => !v.isNan), ∃ f, v = .flt f := fun v h => hflt v (List.mem_of_mem_filter h)
  have hne : vs.filter (fun v => !v.isNan) ≠ [] := by
    intro he
    have := List.filter_eq_nil_iff.mp he last (List.mem_of_getElem? hl)
    exact hn (isNan_iff.mp (by simpa using this))
  cases he : vs.filter (fun v => !v.isNan) with
  | nil => exact absurd he hne
  | cons a t =>
    rw [he] at hsub
    obtain ⟨f, rfl⟩ := hsub a (by simp)
    unfold Flt.sum
    simp only [List.map_cons, List.foldl_cons]
    rw [add_comm_flt, add_zero_flt]
    have key : ∀ (t : List Val) (f : Flt), (∀ v ∈ t, ∃ g, v = .flt g) →
        Val.flt ((t.map Val.num).foldl Flt.add f) = t.foldl plusVal (.flt f) := by
      intro t
      induction t with
      | nil => intro f _; rfl
      | cons v t ih =>
        intro f ht
        obtain ⟨g, rfl⟩ := ht v (by simp)
        exact ih _ (fun v hv => ht v (by simp [hv]))
    exact key t f (fun v hv => hsub v (by simp [hv]))

/-! ## The hypotheses can be met -/

example : exC.Valid ∧ exC.Typed ∧ exC.dtype = .float ∧ exC.shape.prod ≠ 0 ∧
    (∀ names v, exC.Has names v → v.num ≠ .ninf) ∧ TotalBy Larry.sum exC (.flt .pinf) ∧
    exA.Valid ∧ exA.Typed ∧ (∀ names v, exA.Has names v → v.num ≠ .pinf ∧ v.num ≠ .ninf) ∧
    TotalBy Larry.prod exA (fl 144) := by
  have c : ∀ idx ∈ allIdx exC.x.shape, (exC.x.get idx).hasDType .float = true ∧ (exC.x.get idx).num ≠ .ninf := by
    decide +kernel
  have a : ∀ idx ∈ allIdx exA.x.shape, (exA.x.get idx).hasDType .float = true ∧
      (exA.x.get idx).num ≠ .pinf ∧ (exA.x.get idx).num ≠ .ninf := by
    decide +kernel
  refine ⟨exC_valid, fun idx h => (c idx (mem_allIdx.mpr h)).1, rfl, by decide, ?_, ?_, exA_valid,
    fun idx h => (a idx (mem_allIdx.mpr h)).1, ?_, ?_⟩
  · rintro names v ⟨idx, hat, rfl⟩
    exact (c idx (mem_allIdx.mpr (by rw [exC_valid.shape_eq]; exact At_inB hat))).2
  · refine .step (a := 0) rfl (.step (a := -1) rfl (.along (a := 0) ?_))
    exact congrArg (fun v => Except.ok (Out.scalar v)) (by decide +kernel : _ = Val.flt .pinf)
  · rintro names v ⟨idx, hat, rfl⟩
    exact (a idx (mem_allIdx.mpr (by rw [exA_valid.shape_eq]; exact At_inB hat))).2
  · refine .step (a := 1) rfl (.whole ?_)
    exact congrArg (fun v => Except.ok (Out.scalar v)) (by decide +kernel : _ = fl 144)

end La
