import Verif.Arith
import Verif.Props.MoveBn
import Verif.Props.Moving
import Mathlib.Algebra.BigOperators.Group.List.Basic
import Mathlib.Algebra.Field.Rat
import Mathlib.Tactic.FieldSimp
import Mathlib.Tactic.Ring

/-!
# Property C109: running totals and differences undo each other

`y.cumsum(axis)` minus its own lag, `y - y.lag(1, axis)` summed up again, and the same with products and ratios.
-/

namespace La
open Larry Arith
variable {L : Type _}

/-! ## Specification -/

/-- Every element is a number. -/
def Larry.AllNumbers (y : Larry L) : Prop := ∀ names v, y.Has names v → ∃ q, v = fl q

/-- Every element is a number other than zero. -/
def Larry.NoZeros (y : Larry L) : Prop := ∀ names v, y.Has names v → ∃ q, v = fl q ∧ q ≠ 0

/-- Axis `ax` has labels `l`, and `axis` means it. -/
structure Larry.TimeAxis (y : Larry L) (axis : Int) (ax : Nat) (l : List L) : Prop where
  valid : y.Valid
  dtype : y.dtype = .float
  axis : pyIdx y.ndim axis = some ax
  labels : y.label[ax]? = some l

/-- `z` has the labels of `y`, but on axis `ax` the labels `r` in ascending order. -/
def Larry.LabelsFrom [LinearOrder L] (z y : Larry L) (ax : Nat) (r : List L) : Prop :=
  ∃ r', z.label = y.label.set ax r' ∧ r'.Pairwise (· < ·) ∧ ∀ a, a ∈ r' ↔ a ∈ r

/-! ## Proofs -/

theorem joined_set [LinearOrder L] {ax : Nat} {l m : List L} :
    ∀ {lab c : List (List L)}, lab[ax]? = some l → Joined InnerJoined lab (lab.set ax m) c → ∃ r, c = lab.set ax r ∧ InnerJoined l m r := by
  induction ax with
  | zero =>
    intro lab c hl h
    cases lab with
    | nil => simp at hl
    | cons a as =>
      obtain rfl : a = l := by simpa using hl
      rw [List.set_cons_zero] at h
      cases h with
      | cons h1 h2 =>
        refine ⟨_, ?_, h1⟩
        rw [List.set_cons_zero]
        congr 1
        clear h1 hl
        rename_i cs
        induction as generalizing cs with
        | nil => cases h2; rfl
        | cons b bs ih => cases h2 with
          | cons k1 k2 => rw [k1.1 rfl, ih k2]
  | succ ax ih =>
    intro lab c hl h
    cases lab with
    | nil => simp at hl
    | cons a as =>
      rw [List.set_cons_succ] at h
      cases h with
      | cons h1 h2 =>
        obtain ⟨r, e, hr⟩ := ih (by simpa using hl) h2
        exact ⟨r, by rw [List.set_cons_succ, h1.1 rfl, e], hr⟩

/-- A larry, the lag of another with its labels, and the operation of the two. -/
theorem lag_op₂ [LinearOrder L] {y x : Larry L} {axis : Int} {ax : Nat} {l : List L} (h : y.TimeAxis axis ax l) (h' : x.TimeAxis axis ax l)
    (hxy : x.label = y.label) {k : Nat} (hk : 0 < k) {uf : UFunc2} (hd : uf.dt .float .float = .ok .float) :
    ∃ z d, y.lag k (some axis) = .ok z ∧ binop uf x z = .ok d ∧ d.Valid ∧ d.dtype = .float ∧ d.LabelsFrom y ax (l.drop k) ∧
      ∀ rest (i : Nat) a b v w, Named (y.label.eraseIdx ax) rest → l[i]? = some b → l[i + k]? = some a →
        y.Has (rest.insertIdx ax b) v → x.Has (rest.insertIdx ax a) w → d.Has (rest.insertIdx ax a) (uf.f w v) := by
  obtain ⟨z, e1, zv, zd, zl, zh⟩ := (C26_lag h.valid h.axis h.labels).2.1 k hk
  have hn : x.ndim = z.ndim := by rw [← h'.valid.label_length, ← zv.label_length, zl, List.length_set, hxy]
  obtain ⟨d, e2, dv, dd, dl, dh⟩ := C09_binop h'.valid zv hn uf (d := .float) (by rw [zd, h.dtype, h'.dtype, hd])
  refine ⟨z, d, e1, e2, dv, dd, ?_, ?_⟩
  · rw [zl, hxy] at dl
    obtain ⟨r, hr, h1, h2⟩ := joined_set h.labels dl
    refine ⟨r, hr, ?_⟩
    by_cases e : l = l.drop k
    · have : l = [] := by
        have := congrArg List.length e
        rw [List.length_drop] at this
        exact List.length_eq_zero_iff.mp (by omega)
      subst this
      rw [h1 (by simp)]
      simp
    · obtain ⟨k1, k2⟩ := h2 e
      refine ⟨k1, fun a => ?_⟩
      rw [k2]
      exact ⟨fun h => h.2, fun h => ⟨List.mem_of_mem_drop h, h⟩⟩
  · intro rest i a b v w hr hb ha hv hw
    have hle := eraseIdx_length_le h.labels hr
    have hz := (zh i a b (rest.insertIdx ax b) v ha hb).mpr (by rw [set_insertIdx, if_pos hle]; exact hv)
    rw [set_insertIdx, if_pos hle] at hz
    exact (get_ok_iff dv).mp ((dh _ _).mpr ⟨w, v, (get_ok_iff h'.valid).mpr hw, (get_ok_iff zv).mpr hz, rfl⟩)

/-- The lag of a larry and the operation of the two. -/
theorem lag_op [LinearOrder L] {y : Larry L} {axis : Int} {ax : Nat} {l : List L} (h : y.TimeAxis axis ax l) {k : Nat} (hk : 0 < k) {uf : UFunc2}
    (hd : uf.dt .float .float = .ok .float) :
    ∃ z d, y.lag k (some axis) = .ok z ∧ binop uf y z = .ok d ∧ d.Valid ∧ d.dtype = .float ∧ d.LabelsFrom y ax (l.drop k) ∧
      ∀ rest (i : Nat) a b v w, Named (y.label.eraseIdx ax) rest → l[i]? = some b → l[i + k]? = some a →
        y.Has (rest.insertIdx ax b) v → y.Has (rest.insertIdx ax a) w → d.Has (rest.insertIdx ax a) (uf.f w v) :=
  lag_op₂ h h rfl hk hd

/-- What a value adds to a sum that leaves NaN out. -/
def amount : Flt → ℚ
  | .fin q => q
  | _ => 0

theorem amounts_eq {fs : List Flt} {qs : List ℚ} (h : fs.filter (· ≠ .nan) = qs.map .fin) : qs.sum = (fs.map amount).sum := by
  induction fs generalizing qs with
  | nil =>
    obtain rfl : qs = [] := by simpa using h
    rfl
  | cons f fs ih =>
    by_cases hf : f = .nan
    · subst hf
      simp only [ne_eq, not_true_eq_false, decide_false, Bool.false_eq_true, not_false_eq_true, List.filter_cons_of_neg] at h
      rw [ih h, List.map_cons, List.sum_cons]
      simp [amount]
    · rw [List.filter_cons_of_pos (by simpa using hf)] at h
      cases qs with
      | nil => simp at h
      | cons q qs =>
        rw [List.map_cons, List.cons.injEq] at h
        obtain ⟨rfl, h⟩ := h
        rw [List.sum_cons, List.map_cons, List.sum_cons, ih h]
        rfl

theorem numbers_of {fs : List Flt} (h : NoInf fs) : ∃ qs : List ℚ, fs.filter (· ≠ .nan) = qs.map .fin := by
  induction fs with
  | nil => exact ⟨[], rfl⟩
  | cons f fs ih =>
    obtain ⟨qs, hq⟩ := ih fun x hx => h x (List.mem_cons_of_mem _ hx)
    have hf := h f List.mem_cons_self
    cases f with
    | fin q => exact ⟨q :: qs, by rw [List.filter_cons_of_pos (by simp), hq]; rfl⟩
    | nan => exact ⟨qs, by rw [List.filter_cons_of_neg (by simp), hq]⟩
    | pinf => exact absurd rfl hf.1
    | ninf => exact absurd rfl hf.2

theorem sumIs_amounts {fs : List Flt} (h : NoInf fs) {f : Flt} (hs : SumIs fs f) (hf : ∃ g ∈ fs, g ≠ .nan) :
    f = .fin (fs.map amount).sum := by
  cases hs with
  | none hn => obtain ⟨g, hg, hne⟩ := hf; exact absurd (hn g hg) hne
  | finite qs _ hq => rw [amounts_eq hq]
  | plus hp _ => exact absurd rfl (h _ hp).1
  | minus hp _ => exact absurd rfl (h _ hp).2
  | both hp _ => exact absurd rfl (h _ hp).1

theorem soFar_sum {vs : List Val} (h : NoInf (vs.map Val.num)) (i : Nat) :
    Flt.sum (soFar vs i) = .fin (((vs.take (i + 1)).map Val.num).map amount).sum := by
  have h' : NoInf ((vs.take (i + 1)).map Val.num) := fun x hx => h x (by
    obtain ⟨v, hv, rfl⟩ := List.mem_map.mp hx
    exact List.mem_map_of_mem (List.mem_of_mem_take hv))
  obtain ⟨qs, hq⟩ := numbers_of h'
  have e : soFar vs i = qs.map .fin := by
    rw [← hq]
    unfold soFar
    refine List.filter_congr fun f _ => ?_
    cases f <;> rfl
  rw [e, sum_fin, amounts_eq hq]

theorem line_get? {y : Larry L} (hy : y.Valid) {ax : Nat} {l : List L} (hl : y.label[ax]? = some l) {rest : List L} {vs : List Val}
    (h : y.LineAt ax rest vs) {i : Nat} {b : L} {v : Val} (hb : l[i]? = some b) (hv : y.Has (rest.insertIdx ax b) v) : vs[i]? = some v := by
  obtain ⟨l', hl', hlen, hc⟩ := h
  obtain rfl : l = l' := by rw [hl] at hl'; simpa using hl'
  have hi := (List.getElem?_eq_some_iff.mp hb).1
  have e := List.getElem?_eq_getElem (l := vs) (i := i) (by omega)
  rw [e, Holds_unique hy.nodup (hc i b _ hb e) hv]

/-- C109. `cumsum` minus its lag by `k` is `move_sum` with window `k`, wherever the value and the value `k` before it are not NaN;
it is NaN elsewhere. -/
theorem C109_moving_sum [LinearOrder L] {y : Larry L} {axis : Int} {ax : Nat} {l : List L} (h : y.TimeAxis axis ax l) (ht : y.Typed)
    (hn : y.NoInfs) {k : Nat} (hk : 0 < k) (hkl : k ≤ l.length) :
    ∃ s s1 d m, y.cumsum (some axis) = .ok s ∧ s.lag k (some axis) = .ok s1 ∧ binop npSubtract s s1 = .ok d ∧
      y.moveSum k axis = .ok m ∧ d.Valid ∧ d.dtype = .float ∧ d.LabelsFrom y ax (l.drop k) ∧
      ∀ rest (i : Nat) a b v w, Named (y.label.eraseIdx ax) rest → l[i]? = some b → l[i + k]? = some a →
        y.Has (rest.insertIdx ax b) v → y.Has (rest.insertIdx ax a) w →
          ((v.num = .nan ∨ w.num = .nan) → d.Has (rest.insertIdx ax a) (.flt .nan)) ∧
          (v.num ≠ .nan → w.num ≠ .nan → ∀ u, m.Has (rest.insertIdx ax a) u → d.Has (rest.insertIdx ax a) u) := by
  obtain ⟨s, e1, sd, sal⟩ := C43_cumsum h.valid h.dtype h.axis
  have hs : s.TimeAxis axis ax l := ⟨sal.valid, sd, by
    rw [← sal.valid.label_length, sal.label_eq, h.valid.label_length]; exact h.axis, by rw [sal.label_eq]; exact h.labels⟩
  obtain ⟨s1, d, e2, e3, dv, dd, dl, dc⟩ := lag_op hs hk (uf := npSubtract) rfl
  have hcs : CanSlide y k axis ax := ⟨h.valid, ht, .inl h.dtype, hk, h.axis, fun l' hl' => by
    obtain rfl : l = l' := by have := h.labels.symm.trans hl'; simpa using this
    exact hkl⟩
  obtain ⟨m, e4, mm⟩ := C107_sum hcs
  refine ⟨s, s1, d, m, e1, e2, e3, e4, dv, dd, by unfold LabelsFrom at dl ⊢; rw [← sal.label_eq]; exact dl, ?_⟩
  intro rest i a b v w hr hb ha hv hw
  obtain ⟨vs, hline⟩ := lineAt_exists h.valid h.labels hr
  have hni := hn.line hline
  have hvi := line_get? h.valid h.labels hline hb hv
  have hwi := line_get? h.valid h.labels hline ha hw
  have named : ∀ {c : L} {j : Nat}, l[j]? = some c → ∃ u, s.Has (rest.insertIdx ax c) u := fun hc =>
    Holds_of_Named (by rw [sal.label_eq]; exact named_put h.labels hr (List.mem_of_getElem? hc))
  obtain ⟨u0, hu0⟩ := named hb
  obtain ⟨u1, hu1⟩ := named ha
  have r0 := sal.cell rest vs l i b u0 hline h.labels hb hu0 v hvi
  have r1 := sal.cell rest vs l (i + k) a u1 hline h.labels ha hu1 w hwi
  have hd := dc rest i a b u0 u1 (by rw [sal.label_eq]; exact hr) hb ha hu0 hu1
  constructor
  · rintro (h0 | h0)
    · rw [r0.1 h0] at hd
      have : npSubtract.f u1 (.flt .nan) = .flt .nan := by
        by_cases hw0 : w.num = .nan
        · rw [r1.1 hw0]; rfl
        · rw [r1.2 hw0, soFar_sum hni]; rfl
      rwa [this] at hd
    · rw [r1.1 h0] at hd
      have : npSubtract.f (.flt .nan) u0 = .flt .nan := by
        by_cases hw0 : v.num = .nan
        · rw [r0.1 hw0]; rfl
        · rw [r0.2 hw0, soFar_sum hni]; rfl
      rwa [this] at hd
  · intro h0 h1 u hu
    rw [r0.2 h0, r1.2 h1, soFar_sum hni, soFar_sum hni] at hd
    obtain ⟨q, hq, -, q2⟩ := mm.cell l (i + k) a rest vs h.labels ha hr hline
    have q3 := (q2 (by omega)).1 fun x hx => hni x (by
      obtain ⟨z, hz, rfl⟩ := List.mem_map.mp hx
      exact List.mem_map_of_mem (List.mem_of_mem_take hz))
    rw [show i + k + 1 - k = i + 1 by omega] at q3
    have hwin : NoInf (((vs.drop (i + 1)).take k).map Val.num) := fun x hx => hni x (by
      obtain ⟨z, hz, rfl⟩ := List.mem_map.mp hx
      exact List.mem_map_of_mem (List.mem_of_mem_drop (List.mem_of_mem_take hz)))
    have q4 := sumIs_amounts hwin q3 ⟨w.num, List.mem_map_of_mem (List.mem_of_getElem? (i := k - 1) (by
      rw [List.getElem?_take_of_lt (by omega), List.getElem?_drop, show i + 1 + (k - 1) = i + k by omega]; exact hwi)), h1⟩
    rw [Holds_unique mm.valid.nodup hu hq, q4]
    have e : npSubtract.f (.flt (.fin (((vs.take (i + k + 1)).map Val.num).map amount).sum))
        (.flt (.fin (((vs.take (i + 1)).map Val.num).map amount).sum)) =
        .flt (.fin ((((vs.drop (i + 1)).take k).map Val.num).map amount).sum) := by
      have : vs.take (i + k + 1) = vs.take (i + 1) ++ (vs.drop (i + 1)).take k := by
        rw [show i + k + 1 = (i + 1) + k by omega, List.take_add]
      rw [this, List.map_append, List.map_append, List.sum_append]
      show Val.flt (.fin (_ + - _)) = _
      congr 2
      ring
    rwa [e] at hd

/-- C109. The differences of a running sum are the values: where this and the previous value are not NaN. -/
theorem C109_difference [LinearOrder L] {y : Larry L} {axis : Int} {ax : Nat} {l : List L} (h : y.TimeAxis axis ax l) (ht : y.Typed)
    (hn : y.NoInfs) :
    ∃ s s1 d, y.cumsum (some axis) = .ok s ∧ s.lag 1 (some axis) = .ok s1 ∧ binop npSubtract s s1 = .ok d ∧
      d.Valid ∧ d.dtype = .float ∧ d.LabelsFrom y ax (l.drop 1) ∧
      ∀ rest (i : Nat) a b v w, Named (y.label.eraseIdx ax) rest → l[i]? = some b → l[i + 1]? = some a →
        y.Has (rest.insertIdx ax b) v → y.Has (rest.insertIdx ax a) w →
          d.Has (rest.insertIdx ax a) (if v.num = .nan then .flt .nan else w) := by
  by_cases hl0 : l = []
  · subst hl0
    obtain ⟨s, e1, sd, sal⟩ := C43_cumsum h.valid h.dtype h.axis
    have hs : s.TimeAxis axis ax [] := ⟨sal.valid, sd, by
      rw [← sal.valid.label_length, sal.label_eq, h.valid.label_length]; exact h.axis, by rw [sal.label_eq]; exact h.labels⟩
    obtain ⟨s1, d, e2, e3, dv, dd, dl, dc⟩ := lag_op hs (k := 1) (by omega) (uf := npSubtract) rfl
    exact ⟨s, s1, d, e1, e2, e3, dv, dd, by unfold LabelsFrom at dl ⊢; rw [← sal.label_eq]; exact dl,
      fun rest i a b v w _ hb => by simp at hb⟩
  · have hpos : 1 ≤ l.length := by
      rcases l with _ | ⟨a, l⟩
      · exact absurd rfl hl0
      · simp
    obtain ⟨s, s1, d, m, e1, e2, e3, e4, dv, dd, dl, dc⟩ := C109_moving_sum h ht hn (k := 1) (by omega) hpos
    refine ⟨s, s1, d, e1, e2, e3, dv, dd, dl, fun rest i a b v w hr hb ha hv hw => ?_⟩
    have k := dc rest i a b v w hr hb ha hv hw
    obtain ⟨vs, hline⟩ := lineAt_exists h.valid h.labels hr
    have hwi := line_get? h.valid h.labels hline ha hw
    have hwt := line_typed ht h.valid hline w (List.mem_of_getElem? hwi)
    rw [h.dtype] at hwt
    obtain ⟨f, rfl⟩ : ∃ f, w = .flt f := by
      cases w with
      | flt f => exact ⟨f, rfl⟩
      | _ => cases hwt
    by_cases h0 : v.num = .nan
    · rw [if_pos h0]; exact k.1 (.inl h0)
    rw [if_neg h0]
    by_cases h1 : f = .nan
    · subst h1; exact k.1 (.inr rfl)
    obtain ⟨m', e4', mm⟩ := C107_sum (y := y) (window := 1) (axis := axis) (ax := ax) ⟨h.valid, ht, .inl h.dtype, Nat.one_pos, h.axis,
      fun l' hl' => by
        obtain rfl : l = l' := by have := h.labels.symm.trans hl'; simpa using this
        exact hpos⟩
    obtain rfl : m = m' := by rw [e4] at e4'; simpa using e4'
    obtain ⟨q, hq, -, q2⟩ := mm.cell l (i + 1) a rest vs h.labels ha hr hline
    have q3 := (q2 (by omega)).1 fun x hx => hn.line hline x (by
      obtain ⟨z, hz, rfl⟩ := List.mem_map.mp hx
      exact List.mem_map_of_mem (List.mem_of_mem_take hz))
    have hwin : (vs.drop (i + 1 + 1 - 1)).take 1 = [Val.flt f] := by
      obtain ⟨hlt, hget⟩ := List.getElem?_eq_some_iff.mp hwi
      rw [Nat.add_sub_cancel, List.drop_eq_getElem_cons hlt, hget]
      rfl
    rw [hwin] at q3
    have hfi := hn.line hline f (List.mem_map.mpr ⟨_, List.mem_of_getElem? hwi, rfl⟩)
    have q4 := sumIs_amounts (fun x hx => by
      rw [show x = f by simpa [Val.num] using hx]; exact hfi) q3 ⟨f, by simp [Val.num], h1⟩
    have := k.2 h0 h1 _ hq
    rw [q4] at this
    cases f with
    | fin q => simpa [amount, Val.num] using this
    | nan => exact absurd rfl h1
    | pinf => exact absurd rfl hfi.1
    | ninf => exact absurd rfl hfi.2

theorem soFar_range {ds : List Val} {i : Nat} {R : Nat → ℚ} (h : ∀ j ≤ i, ds[j]? = some (fl (R j))) :
    soFar ds i = ((List.range (i + 1)).map R).map .fin := by
  have : ds.take (i + 1) = (List.range (i + 1)).map fun j => fl (R j) := by
    apply List.ext_getElem?
    intro j
    by_cases hj : j ≤ i
    · rw [List.getElem?_take_of_lt (by omega), h j hj, List.getElem?_map, List.getElem?_range (by omega)]
      rfl
    · rw [List.getElem?_eq_none (by rw [List.length_take]; omega), List.getElem?_eq_none (by simp; omega)]
  unfold soFar
  rw [this, List.map_map, List.map_map, List.filter_eq_self.mpr]
  · rfl
  · intro f hf
    obtain ⟨j, -, rfl⟩ := List.mem_map.mp hf
    rfl

theorem sum_steps (Q : Nat → ℚ) (n : Nat) : ((List.range n).map fun j => Q (j + 1) - Q j).sum = Q n - Q 0 := by
  induction n with
  | zero => simp
  | succ n ih => rw [List.range_succ, List.map_append, List.sum_append, ih]; simp

theorem prod_steps {Q : Nat → ℚ} {n : Nat} (h : ∀ j ≤ n, Q j ≠ 0) : ((List.range n).map fun j => Q (j + 1) / Q j).prod = Q n / Q 0 := by
  induction n with
  | zero => simp [h 0 (le_refl _)]
  | succ n ih =>
    rw [List.range_succ, List.map_append, List.prod_append, ih fun j hj => h j (by omega)]
    have := h n (by omega)
    have := h 0 (by omega)
    simp
    field_simp

/-- A larry's differences, or ratios, and what a running total of them gives. -/
theorem total_steps [LinearOrder L] {y : Larry L} {axis : Int} {ax : Nat} {l : List L} (h : y.TimeAxis axis ax l) (hl : l.Pairwise (· < ·))
    {uf : UFunc2} (hd : uf.dt .float .float = .ok .float) {op : ℚ → ℚ → ℚ} {P : ℚ → Prop}
    (hP : ∀ names v, y.Has names v → ∃ q, v = fl q ∧ P q) (hop : ∀ p q, P p → P q → uf.f (fl p) (fl q) = fl (op p q))
    {total : List Flt → Flt}
    (ht : ∀ (Q : Nat → ℚ) n, (∀ j ≤ n, P (Q j)) → total (((List.range n).map fun j => op (Q (j + 1)) (Q j)).map .fin) = .fin (op (Q n) (Q 0)))
    {cum : Larry L → Res (Larry L)} (hc : ∀ d : Larry L, d.Valid → d.dtype = .float → pyIdx d.ndim axis = some ax →
      ∃ c, cum d = .ok c ∧ c.dtype = .float ∧ d.Along c ax (RunningFloat total)) :
    ∃ z d c, y.lag 1 (some axis) = .ok z ∧ binop uf y z = .ok d ∧ cum d = .ok c ∧ c.Valid ∧ c.dtype = .float ∧
      c.label = y.label.set ax (l.drop 1) ∧
      ∀ rest (i : Nat) a b v w, Named (y.label.eraseIdx ax) rest → l[0]? = some b → 0 < i → l[i]? = some a →
        y.Has (rest.insertIdx ax b) v → y.Has (rest.insertIdx ax a) w → c.Has (rest.insertIdx ax a) (uf.f w v) := by
  obtain ⟨z, d, e1, e2, dv, dd, ⟨r, dl, hr1, hr2⟩, dc⟩ := lag_op h (k := 1) (by omega) hd
  obtain rfl : r = l.drop 1 := ascending_ext hr1 (hl.drop) hr2
  have hnd : d.ndim = y.ndim := by rw [← dv.label_length, ← h.valid.label_length, dl, List.length_set]
  obtain ⟨c, e3, cd, cal⟩ := hc d dv dd (by rw [hnd]; exact h.axis)
  refine ⟨z, d, c, e1, e2, e3, cal.valid, cd, by rw [cal.label_eq, dl], ?_⟩
  intro rest i a b v w hr hb hi ha hv hw
  have hax : ax < y.label.length := (List.getElem?_eq_some_iff.mp h.labels).1
  have hdl : d.label[ax]? = some (l.drop 1) := by rw [dl, List.getElem?_set_self hax]
  have hrd : Named (d.label.eraseIdx ax) rest := by rw [dl, List.eraseIdx_set_eq]; exact hr
  have hval : ∀ j : Nat, j < l.length → ∃ b q, l[j]? = some b ∧ y.Has (rest.insertIdx ax b) (fl q) ∧ P q := fun j hj => by
    have hb := List.getElem?_eq_getElem hj
    obtain ⟨u, hu⟩ := Holds_of_Named (x := y.x) (named_put h.labels hr (List.mem_of_getElem? hb))
    obtain ⟨q, rfl, hq⟩ := hP _ _ hu
    exact ⟨_, q, hb, hu, hq⟩
  have hex : ∀ j : Nat, ∃ q : ℚ, j < l.length → ∃ b, l[j]? = some b ∧ y.Has (rest.insertIdx ax b) (fl q) ∧ P q := fun j => by
    by_cases hj : j < l.length
    · obtain ⟨b, q, h1, h2⟩ := hval j hj
      exact ⟨q, fun _ => ⟨b, h1, h2⟩⟩
    · exact ⟨0, fun h => absurd h hj⟩
  choose Q hQ using hex
  have hil : i < l.length := (List.getElem?_eq_some_iff.mp ha).1
  obtain ⟨n, rfl⟩ : ∃ n, i = n + 1 := ⟨i - 1, by omega⟩
  obtain ⟨ds, hline⟩ := lineAt_exists dv hdl hrd
  have hds : ∀ j ≤ n, ds[j]? = some (fl (op (Q (j + 1)) (Q j))) := fun j hj => by
    obtain ⟨b0, k1, k2, k3⟩ := hQ j (by omega)
    obtain ⟨b1, m1, m2, m3⟩ := hQ (j + 1) (by omega)
    have := dc rest j b1 b0 _ _ hr k1 m1 k2 m2
    rw [hop _ _ m3 k3] at this
    exact line_get? dv hdl hline (by rw [List.getElem?_drop, Nat.add_comm 1 j]; exact m1) this
  have hac : (l.drop 1)[n]? = some a := by rw [List.getElem?_drop, Nat.add_comm 1 n]; exact ha
  obtain ⟨u, hu⟩ := Holds_of_Named (x := c.x) (label := c.label) (names := rest.insertIdx ax a)
    (by rw [cal.label_eq]; exact named_put hdl hrd (List.mem_of_getElem? hac))
  have run := (cal.cell rest ds _ n a u hline hdl hac hu _ (hds n (le_refl _))).2 (by simp [Val.num])
  rw [soFar_range hds, ht Q (n + 1) fun j hj => (hQ j (by omega)).elim fun _ h => h.2.2] at run
  obtain ⟨b0, k1, k2, k3⟩ := hQ 0 (by omega)
  obtain ⟨b1, m1, m2, m3⟩ := hQ (n + 1) hil
  obtain rfl : b = b0 := by rw [hb] at k1; simpa using k1
  obtain rfl : a = b1 := by rw [ha] at m1; simpa using m1
  rw [Holds_unique h.valid.nodup hv k2, Holds_unique h.valid.nodup hw m2, hop _ _ m3 k3]
  rw [run] at hu
  exact hu

/-- C109. Summing up the differences: what `y` has grown by since its first value. -/
theorem C109_summed [LinearOrder L] {y : Larry L} {axis : Int} {ax : Nat} {l : List L} (h : y.TimeAxis axis ax l) (hl : l.Pairwise (· < ·))
    (hn : y.AllNumbers) :
    ∃ z d c, y.lag 1 (some axis) = .ok z ∧ binop npSubtract y z = .ok d ∧ d.cumsum (some axis) = .ok c ∧ c.Valid ∧ c.dtype = .float ∧
      c.label = y.label.set ax (l.drop 1) ∧
      ∀ rest (i : Nat) a b p q, Named (y.label.eraseIdx ax) rest → l[0]? = some b → 0 < i → l[i]? = some a →
        y.Has (rest.insertIdx ax b) (fl p) → y.Has (rest.insertIdx ax a) (fl q) → c.Has (rest.insertIdx ax a) (fl (q - p)) := by
  have hop : ∀ p q : ℚ, npSubtract.f (fl p) (fl q) = fl (p - q) := fun p q => by
    show Val.flt (.fin (p + -q)) = _
    rw [← sub_eq_add_neg]
  obtain ⟨z, d, c, e1, e2, e3, cv, cd, cl, cc⟩ := total_steps h hl (uf := npSubtract) rfl (op := fun p q => p - q) (P := fun _ => True)
    (fun names v hv => (hn names v hv).imp fun q e => ⟨e, trivial⟩) (fun p q _ _ => hop p q) (total := Flt.sum)
    (fun Q n _ => by rw [sum_fin, sum_steps]) (cum := fun d => d.cumsum (some axis)) (fun d h1 h2 h3 => C43_cumsum h1 h2 h3)
  refine ⟨z, d, c, e1, e2, e3, cv, cd, cl, fun rest i a b p q hr hb hi ha hv hw => ?_⟩
  rw [← hop]
  exact cc rest i a b _ _ hr hb hi ha hv hw

theorem div_numbers (py3 : Bool) (p q : ℚ) (h : q ≠ 0) : (ArithOp.div.uf py3).f (fl p) (fl q) = fl (p / q) := by
  cases py3 <;> (show Val.flt (Flt.div (.fin p) (.fin q)) = _; simp [Flt.div, h, fl])

theorem div_floats (py3 : Bool) : (ArithOp.div.uf py3).dt .float .float = .ok .float := by cases py3 <;> rfl

/-- C109. Compounding the ratios: how many times its first value `y` has become. -/
theorem C109_compounded [LinearOrder L] (py3 : Bool) {y : Larry L} {axis : Int} {ax : Nat} {l : List L} (h : y.TimeAxis axis ax l)
    (hl : l.Pairwise (· < ·)) (hn : y.NoZeros) :
    ∃ z d c, y.lag 1 (some axis) = .ok z ∧ binop (ArithOp.div.uf py3) y z = .ok d ∧ d.cumprod (some axis) = .ok c ∧ c.Valid ∧
      c.dtype = .float ∧ c.label = y.label.set ax (l.drop 1) ∧
      ∀ rest (i : Nat) a b p q, Named (y.label.eraseIdx ax) rest → l[0]? = some b → 0 < i → l[i]? = some a →
        y.Has (rest.insertIdx ax b) (fl p) → y.Has (rest.insertIdx ax a) (fl q) → c.Has (rest.insertIdx ax a) (fl (q / p)) := by
  obtain ⟨z, d, c, e1, e2, e3, cv, cd, cl, cc⟩ := total_steps h hl (uf := ArithOp.div.uf py3) (div_floats py3) (op := fun p q => p / q)
    (P := fun q => q ≠ 0) hn (fun p q _ hq => div_numbers py3 p q hq) (total := Flt.prod)
    (fun Q n hQ => by rw [prod_fin, prod_steps hQ]) (cum := fun d => d.cumprod (some axis)) (fun d h1 h2 h3 => C43_cumprod h1 h2 h3)
  refine ⟨z, d, c, e1, e2, e3, cv, cd, cl, fun rest i a b p q hr hb hi ha hv hw => ?_⟩
  obtain ⟨p', e, hp⟩ := hn _ _ hv
  obtain rfl : p = p' := by simpa [fl] using e
  rw [← div_numbers py3 q p hp]
  exact cc rest i a b _ _ hr hb hi ha hv hw

/-- C109. The ratios of a running product are the values. -/
theorem C109_ratio [LinearOrder L] (py3 : Bool) {y : Larry L} {axis : Int} {ax : Nat} {l : List L} (h : y.TimeAxis axis ax l)
    (hn : y.NoZeros) :
    ∃ s s1 d, y.cumprod (some axis) = .ok s ∧ s.lag 1 (some axis) = .ok s1 ∧ binop (ArithOp.div.uf py3) s s1 = .ok d ∧
      d.Valid ∧ d.dtype = .float ∧ d.LabelsFrom y ax (l.drop 1) ∧
      ∀ rest (i : Nat) a w, Named (y.label.eraseIdx ax) rest → l[i + 1]? = some a → y.Has (rest.insertIdx ax a) w →
        d.Has (rest.insertIdx ax a) w := by
  obtain ⟨s, e1, sd, sal⟩ := C43_cumprod h.valid h.dtype h.axis
  have hs : s.TimeAxis axis ax l := ⟨sal.valid, sd, by
    rw [← sal.valid.label_length, sal.label_eq, h.valid.label_length]; exact h.axis, by rw [sal.label_eq]; exact h.labels⟩
  obtain ⟨s1, d, e2, e3, dv, dd, dl, dc⟩ := lag_op hs (k := 1) (by omega) (div_floats py3)
  refine ⟨s, s1, d, e1, e2, e3, dv, dd, by unfold LabelsFrom at dl ⊢; rw [← sal.label_eq]; exact dl, ?_⟩
  intro rest i a w hr ha hw
  obtain ⟨vs, hline⟩ := lineAt_exists h.valid h.labels hr
  have hlen : i + 1 < l.length := (List.getElem?_eq_some_iff.mp ha).1
  have hex : ∀ j : Nat, ∃ q : ℚ, j < l.length → vs[j]? = some (fl q) ∧ q ≠ 0 := fun j => by
    by_cases hj : j < l.length
    · have hb := List.getElem?_eq_getElem hj
      obtain ⟨u, hu⟩ := Holds_of_Named (x := y.x) (named_put h.labels hr (List.mem_of_getElem? hb))
      obtain ⟨q, rfl, hq⟩ := hn _ _ hu
      exact ⟨q, fun _ => ⟨line_get? h.valid h.labels hline hb hu, hq⟩⟩
    · exact ⟨0, fun h => absurd h hj⟩
  choose Q hQ using hex
  have cell : ∀ {j : Nat} {b : L}, l[j]? = some b → s.Has (rest.insertIdx ax b) (fl ((List.range (j + 1)).map Q).prod) := fun {j b} hb => by
    have hj : j < l.length := (List.getElem?_eq_some_iff.mp hb).1
    obtain ⟨u, hu⟩ := Holds_of_Named (x := s.x) (label := s.label) (names := rest.insertIdx ax b)
      (by rw [sal.label_eq]; exact named_put h.labels hr (List.mem_of_getElem? hb))
    have := (sal.cell rest vs l j b u hline h.labels hb hu _ (hQ j hj).1).2 (by simp [Val.num])
    rw [soFar_range (R := Q) fun k hk => (hQ k (by omega)).1, prod_fin] at this
    rw [this] at hu
    exact hu
  have hb := List.getElem?_eq_getElem (l := l) (i := i) (by omega)
  have hd := dc rest i a _ _ _ (by rw [sal.label_eq]; exact hr) hb ha (cell hb) (cell ha)
  have hne : ∀ n : Nat, n ≤ l.length → ((List.range n).map Q).prod ≠ 0 := fun n => by
    induction n with
    | zero => intro _; simp
    | succ n ih =>
      intro hn
      rw [List.range_succ, List.map_append, List.prod_append]
      exact mul_ne_zero (ih (by omega)) (by simpa using (hQ n (by omega)).2)
  rw [div_numbers py3 _ _ (hne _ (by omega)), List.range_succ, List.map_append, List.prod_append,
    mul_div_cancel_left₀ _ (hne _ (by omega))] at hd
  have hw' := line_get? h.valid h.labels hline ha hw
  rw [(hQ (i + 1) hlen).1] at hw'
  obtain rfl : fl (Q (i + 1)) = w := by simpa using hw'
  simpa using hd

/-- C109. The sum over a window is the sum over its last `k` values plus the sum over the `n` before them. -/
theorem C109_windows_add [LinearOrder L] {y : Larry L} {axis : Int} {ax : Nat} {l : List L} (h : y.TimeAxis axis ax l) (ht : y.Typed)
    (hn : y.AllNumbers) {k n : Nat} (hk : 0 < k) (hn0 : 0 < n) (hkn : k + n ≤ l.length) :
    ∃ m mk mn z d, y.moveSum (k + n) axis = .ok m ∧ y.moveSum k axis = .ok mk ∧ y.moveSum n axis = .ok mn ∧
      mn.lag k (some axis) = .ok z ∧ binop npAdd mk z = .ok d ∧ d.Valid ∧ d.dtype = .float ∧ d.LabelsFrom y ax (l.drop k) ∧
      ∀ rest (i : Nat) a u, Named (y.label.eraseIdx ax) rest → l[i + k]? = some a → m.Has (rest.insertIdx ax a) u →
        d.Has (rest.insertIdx ax a) u := by
  have slide : ∀ w : Nat, 0 < w → w ≤ l.length → CanSlide y w axis ax := fun w h0 hw => ⟨h.valid, ht, .inl h.dtype, h0, h.axis, fun l' hl' => by
    obtain rfl : l = l' := by have := h.labels.symm.trans hl'; simpa using this
    exact hw⟩
  obtain ⟨m, e1, mm⟩ := C107_sum (slide (k + n) (by omega) hkn)
  obtain ⟨mk, e2, km⟩ := C107_sum (slide k hk (by omega))
  obtain ⟨mn, e3, nm⟩ := C107_sum (slide n hn0 (by omega))
  have time : ∀ {z : Larry L}, z.Valid → z.dtype = .float → z.label = y.label → z.TimeAxis axis ax l := fun zv zd zl => ⟨zv, zd, by
    rw [← zv.label_length, zl, h.valid.label_length]; exact h.axis, by rw [zl]; exact h.labels⟩
  obtain ⟨z, d, e4, e5, dv, dd, dl, dc⟩ := lag_op₂ (time nm.valid nm.dtype nm.label) (time km.valid km.dtype km.label)
    (km.label.trans nm.label.symm) hk (uf := npAdd) rfl
  refine ⟨m, mk, mn, z, d, e1, e2, e3, e4, e5, dv, dd, by unfold LabelsFrom at dl ⊢; rw [← nm.label]; exact dl, ?_⟩
  intro rest i a u hr ha hu
  obtain ⟨vs, hline⟩ := lineAt_exists h.valid h.labels hr
  have hal : i + k < l.length := (List.getElem?_eq_some_iff.mp ha).1
  have hb := List.getElem?_eq_getElem (l := l) (i := i) (by omega)
  have hvl : vs.length = l.length := by
    obtain ⟨l', hl', e, -⟩ := hline
    obtain rfl : l = l' := by have := h.labels.symm.trans hl'; simpa using this
    exact e
  have hnum : ∀ v ∈ vs, ∃ q, v = fl q := fun v hv => by
    obtain ⟨j, hj, rfl⟩ := List.getElem_of_mem hv
    obtain ⟨l', hl', e, hc⟩ := hline
    have hj' := List.getElem?_eq_getElem (l := l') (i := j) (by omega)
    exact hn _ _ (hc j _ _ hj' (List.getElem?_eq_getElem hj))
  have noinf : ∀ ws : List Val, (∀ v ∈ ws, v ∈ vs) → NoInf (ws.map Val.num) := fun ws hws f hf => by
    obtain ⟨v, hv, rfl⟩ := List.mem_map.mp hf
    obtain ⟨q, rfl⟩ := hnum v (hws v hv)
    simp [Val.num]
  have full : ∀ (w j : Nat) (q : Flt), 0 < w → w ≤ j + 1 → j < l.length →
      (NoInf ((vs.take (j + 1 - w)).map Val.num) → SumIs (((vs.drop (j + 1 - w)).take w).map Val.num) q) →
      q = .fin ((((vs.drop (j + 1 - w)).take w).map Val.num).map amount).sum := fun w j q h0 h1 h2 h3 => by
    have hmem : ∀ v ∈ (vs.drop (j + 1 - w)).take w, v ∈ vs := fun v hv => List.mem_of_mem_drop (List.mem_of_mem_take hv)
    refine sumIs_amounts (noinf _ hmem) (h3 (noinf _ fun v hv => List.mem_of_mem_take hv)) ?_
    have hlen : 0 < ((vs.drop (j + 1 - w)).take w).length := by rw [List.length_take, List.length_drop]; omega
    have hv := List.getElem_mem hlen
    obtain ⟨q, hq⟩ := hnum _ (hmem _ hv)
    exact ⟨_, List.mem_map_of_mem hv, by rw [hq]; simp [Val.num]⟩
  obtain ⟨q, k1, k2, k3⟩ := mm.cell l (i + k) a rest vs h.labels ha hr hline
  obtain ⟨q', m1, m2, m3⟩ := km.cell l (i + k) a rest vs h.labels ha hr hline
  obtain ⟨q'', n1, n2, n3⟩ := nm.cell l i _ rest vs h.labels hb hr hline
  have hd := dc rest i a _ _ _ (by rw [nm.label]; exact hr) hb ha n1 m1
  rw [Holds_unique mm.valid.nodup hu k1]
  have f' := full k (i + k) q' hk (by omega) hal (m3 (by omega)).1
  by_cases hin : n ≤ i + 1
  · have f := full (k + n) (i + k) q (by omega) (by omega) hal (k3 (by omega)).1
    have f'' := full n i q'' hn0 hin (by omega) (n3 hin).1
    have e : npAdd.f (.flt q') (.flt q'') = .flt q := by
      have : (vs.drop (i + k + 1 - (k + n))).take (k + n) =
          (vs.drop (i + 1 - n)).take n ++ (vs.drop (i + k + 1 - k)).take k := by
        rw [show i + k + 1 - (k + n) = i + 1 - n by omega, Nat.add_comm k n, List.take_add, List.drop_drop,
          show i + 1 - n + n = i + k + 1 - k by omega]
      rw [f, f', f'', this, List.map_append, List.map_append, List.sum_append]
      show Val.flt (.fin (_ + _)) = _
      congr 2
      ring
    rwa [e] at hd
  · rw [k2 (by omega)]
    rw [n2 (by omega), f'] at hd
    exact hd

/-- Three dates and their prices. -/
def exPrices (l : List Nat) : Larry Nat :=
  ⟨⟨[3], fun idx => match idx with | [0] => fl 2 | [1] => fl 5 | _ => fl 8⟩, .float, [l]⟩

theorem exPrices_has (a b c : Nat) {names : List Nat} {v : Val} (h : (exPrices [a, b, c]).Has names v) :
    names = [a] ∧ v = fl 2 ∨ names = [b] ∧ v = fl 5 ∨ names = [c] ∧ v = fl 8 := by
  obtain ⟨idx, hat, hv⟩ := h
  match names, idx, hat with
  | [], [], hat => simp [exPrices, At] at hat
  | _ :: _ :: _, [_], hat => simp [exPrices, At] at hat
  | [x], [0], hat => exact .inl ⟨by simpa [exPrices, At] using Eq.symm hat.1, hv.symm⟩
  | [x], [1], hat => exact .inr (.inl ⟨by simpa [exPrices, At] using Eq.symm hat.1, hv.symm⟩)
  | [x], [2], hat => exact .inr (.inr ⟨by simpa [exPrices, At] using Eq.symm hat.1, hv.symm⟩)
  | [x], [n + 3], hat => simp [exPrices, At] at hat

theorem exPrices_time {l : List Nat} (h : l.Nodup) (hl : l.length = 3) : (exPrices l).TimeAxis (-1) 0 l :=
  ⟨⟨by simp [exPrices, hl], by simpa [exPrices] using h, by simp [exPrices]⟩, rfl, rfl, rfl⟩

theorem exPrices_noZeros (a b c : Nat) : (exPrices [a, b, c]).NoZeros := fun names v h => by
  rcases exPrices_has a b c h with ⟨-, rfl⟩ | ⟨-, rfl⟩ | ⟨-, rfl⟩
  · exact ⟨2, rfl, by decide +kernel⟩
  · exact ⟨5, rfl, by decide +kernel⟩
  · exact ⟨8, rfl, by decide +kernel⟩

theorem Larry.NoZeros.numbers {y : Larry L} (h : y.NoZeros) : y.AllNumbers := fun names v hv => (h names v hv).imp fun _ h => h.1

theorem exPrices_typed (l : List Nat) : (exPrices l).Typed := fun idx _ => by
  unfold exPrices
  dsimp only
  split <;> rfl

/-- The running sums 2, 7, 15 have the differences 5 and 8. -/
example : ∃ s s1 d, (exPrices [1, 2, 3]).cumsum (some (-1)) = .ok s ∧ s.lag 1 (some (-1)) = .ok s1 ∧ binop npSubtract s s1 = .ok d ∧
    s.Has [3] (fl 15) ∧ d.Has [2] (fl 5) ∧ d.Has [3] (fl 8) := by
  obtain ⟨s, s1, d, e1, e2, e3, -, -, -, hc⟩ := C109_difference (exPrices_time (l := [1, 2, 3]) (by decide) rfl) (exPrices_typed _)
    (fun names v h => by
      rcases exPrices_has 1 2 3 h with ⟨-, rfl⟩ | ⟨-, rfl⟩ | ⟨-, rfl⟩ <;> simp [Val.num])
  refine ⟨s, s1, d, e1, e2, e3, ?_, ?_, ?_⟩
  · obtain rfl : _ = s := by simpa using (show (exPrices [1, 2, 3]).cumsum (some (-1)) = .ok _ from rfl).symm.trans e1
    exact ⟨[2], ⟨rfl, trivial⟩, by decide +kernel⟩
  · exact hc [] 0 2 1 _ _ trivial rfl rfl ⟨[0], ⟨rfl, trivial⟩, rfl⟩ ⟨[1], ⟨rfl, trivial⟩, rfl⟩
  · exact hc [] 1 3 2 _ _ trivial rfl rfl ⟨[1], ⟨rfl, trivial⟩, rfl⟩ ⟨[2], ⟨rfl, trivial⟩, rfl⟩

/-- The prices 2, 5, 8 have ratios that compound to 5/2 and 4. -/
example (py3 : Bool) : ∃ z d c, (exPrices [1, 2, 3]).lag 1 (some (-1)) = .ok z ∧ binop (ArithOp.div.uf py3) (exPrices [1, 2, 3]) z = .ok d ∧
    d.cumprod (some (-1)) = .ok c ∧ c.label = [[2, 3]] ∧ c.Has [3] (fl (8 / 2)) := by
  obtain ⟨z, d, c, e1, e2, e3, -, -, cl, hc⟩ := C109_compounded py3 (exPrices_time (l := [1, 2, 3]) (by decide) rfl) (by decide)
    (exPrices_noZeros 1 2 3)
  exact ⟨z, d, c, e1, e2, e3, cl, hc [] 2 3 1 _ _ trivial rfl (by omega) rfl ⟨[0], ⟨rfl, trivial⟩, rfl⟩ ⟨[2], ⟨rfl, trivial⟩, rfl⟩⟩

/-- C109. Labels that are not in ascending order: the differences come out in ascending order, and their sums are not what the values
have grown by. From 2 through 5 to 8, on days 1, 3 and 2, the growth until day 3 is 3; the sum of the differences says 6. -/
theorem C109_unsorted : ∃ y : Larry Nat, y.TimeAxis (-1) 0 [1, 3, 2] ∧ y.AllNumbers ∧ y.Has [1] (fl 2) ∧ y.Has [3] (fl 5) ∧
    ∃ z d c, y.lag 1 (some (-1)) = .ok z ∧ binop npSubtract y z = .ok d ∧ d.cumsum (some (-1)) = .ok c ∧ c.Has [3] (fl 6) := by
  have ht := exPrices_time (l := [1, 3, 2]) (by decide) rfl
  refine ⟨exPrices [1, 3, 2], ht, (exPrices_noZeros 1 3 2).numbers, ⟨[0], ⟨rfl, trivial⟩, rfl⟩, ⟨[1], ⟨rfl, trivial⟩, rfl⟩, ?_⟩
  obtain ⟨z, d, e1, e2, dv, dd, ⟨r, dl, hr1, hr2⟩, dc⟩ := lag_op ht (k := 1) (by omega) (uf := npSubtract) rfl
  obtain rfl : r = [2, 3] := ascending_ext hr1 (by decide) fun a => by rw [hr2]; simp [or_comm]
  have hnd : d.ndim = 1 := by rw [← dv.label_length, dl]; rfl
  have hdl : d.label[0]? = some [2, 3] := by rw [dl]; rfl
  obtain ⟨c, e3, cd, cal⟩ := C43_cumsum dv dd (axis := -1) (ax := 0) (by rw [hnd]; rfl)
  refine ⟨z, d, c, e1, e2, e3, ?_⟩
  have h3 := dc [] 0 3 1 _ _ trivial rfl rfl ⟨[0], ⟨rfl, trivial⟩, rfl⟩ ⟨[1], ⟨rfl, trivial⟩, rfl⟩
  have h2 := dc [] 1 2 3 _ _ trivial rfl rfl ⟨[1], ⟨rfl, trivial⟩, rfl⟩ ⟨[2], ⟨rfl, trivial⟩, rfl⟩
  obtain ⟨ds, hline⟩ := lineAt_exists dv hdl (rest := []) (by rw [dl]; exact trivial)
  have g0 := line_get? dv hdl hline (i := 0) rfl h2
  have g1 := line_get? dv hdl hline (i := 1) rfl h3
  obtain ⟨u, hu⟩ := Holds_of_Named (x := c.x) (label := c.label) (names := [3]) (by
    rw [cal.label_eq, dl]; exact ⟨by simp, trivial⟩)
  have run := (cal.cell [] ds _ 1 3 u hline hdl rfl hu _ g1).2 (by decide)
  rw [soFar_range (R := fun j => if j = 0 then 8 + -5 else 5 + -2) fun j hj => by
    rcases j with _ | _ | j
    · exact g0
    · exact g1
    · omega] at run
  rw [run] at hu
  have e : (Val.flt (Flt.sum (((List.range (1 + 1)).map fun j => if j = 0 then (8 : ℚ) + -5 else 5 + -2).map .fin))) = fl 6 := by
    decide +kernel
  rwa [e] at hu

end La
