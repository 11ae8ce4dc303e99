import Verif.Props.GroupStats
import Verif.Props.Nearest

/-!
# C135: group means split the variance

If every label has a group and nothing is missing, the group means have the mean of the line, and the variance of the line is the
variance of the group means plus the variance of what is left after subtracting them.
-/

namespace La

variable {L : Type _}

/-! ## Specification -/

/-- A reduction returned `v` under the names `rest`, or as a scalar if there are no names left. -/
def Answers (o : Res (Out L)) (rest : List L) (v : Val) : Prop :=
  (rest = [] ∧ o = .ok (.scalar v)) ∨ ∃ s, o = .ok (.larry s) ∧ s.Has rest v

/-- Every element is a number: no NaN and no infinity. -/
def Larry.OnlyNumbers (y : Larry L) : Prop := ∀ names v, y.Has names v → ∃ q, v.num = .fin q

/-! ## Sums over groups -/

theorem sum_swap {α β : Type _} (f : α → β → ℚ) (B : List β) : ∀ A : List α,
    (A.map fun a => (B.map fun b => f a b).sum).sum = (B.map fun b => (A.map fun a => f a b).sum).sum
  | [] => by simp
  | a :: A => by
    simp only [List.map_cons, List.sum_cons, sum_swap f B A]
    rw [← List.sum_map_add]

theorem sum_map_times {α : Type _} (c : ℚ) (f : α → ℚ) : ∀ l : List α, (l.map fun a => c * f a).sum = c * (l.map f).sum
  | [] => by simp
  | a :: l => by simp only [List.map_cons, List.sum_cons, sum_map_times c f l, mul_add]

theorem sum_filter_ite {α : Type _} (p : α → Bool) (f : α → ℚ) : ∀ l : List α,
    ((l.filter p).map f).sum = (l.map fun a => if p a = true then f a else 0).sum
  | [] => rfl
  | a :: l => by
    cases h : p a <;> simp [h, sum_filter_ite p f l]

theorem length_filter_ite {α : Type _} (p : α → Bool) : ∀ l : List α,
    ((l.filter p).length : ℚ) = (l.map fun a => if p a = true then (1 : ℚ) else 0).sum
  | [] => by simp
  | a :: l => by
    cases h : p a <;> simp [h, ← length_filter_ite p l, add_comm]

open Classical in
/-- The numbers of a group. -/
noncomputable def inGroup (ps : List (Val × ℚ)) (g : Val) : List ℚ := (ps.filter fun p => SameGroup p.1 g).map Prod.snd

/-- Their mean. -/
noncomputable def groupAvg (ps : List (Val × ℚ)) (g : Val) : ℚ := (inGroup ps g).sum / (inGroup ps g).length

theorem inGroup_congr (ps : List (Val × ℚ)) {g g' : Val} (h : SameGroup g g') : inGroup ps g = inGroup ps g' := by
  classical
  unfold inGroup
  congr 1
  refine List.filter_congr fun p _ => ?_
  simp only [decide_eq_decide]
  exact ⟨fun k => sameGroup_trans k h, fun k => sameGroup_trans k (sameGroup_symm h)⟩

theorem inGroup_self {ps : List (Val × ℚ)} {p : Val × ℚ} (hp : p ∈ ps) (h : SameGroup p.1 p.1) : inGroup ps p.1 ≠ [] := by
  classical
  intro e
  have : p.2 ∈ inGroup ps p.1 := List.mem_map.mpr ⟨p, List.mem_filter.mpr ⟨hp, by simpa using h⟩, rfl⟩
  rw [e] at this
  cases this

/-- Weights that are the same throughout a group do not see the difference between the numbers and the group means. -/
theorem sum_groupAvg (ps : List (Val × ℚ)) (hall : ∀ p ∈ ps, SameGroup p.1 p.1) (f : Val → ℚ)
    (hf : ∀ g g', SameGroup g g' → f g = f g') :
    (ps.map fun p => f p.1 * groupAvg ps p.1).sum = (ps.map fun p => f p.1 * p.2).sum := by
  classical
  have e : ∀ p : Val × ℚ, f p.1 * groupAvg ps p.1 =
      (ps.map fun b => if SameGroup b.1 p.1 then f p.1 / (inGroup ps p.1).length * b.2 else 0).sum := by
    intro p
    have e1 : (ps.map fun b => if SameGroup b.1 p.1 then f p.1 / (inGroup ps p.1).length * b.2 else 0) =
        ps.map fun b => f p.1 / (inGroup ps p.1).length * (if SameGroup b.1 p.1 then b.2 else 0) := by
      refine List.map_congr_left fun b _ => ?_
      split_ifs <;> simp
    have e2 : (inGroup ps p.1).sum = (ps.map fun b => if SameGroup b.1 p.1 then b.2 else 0).sum := by
      have := sum_filter_ite (fun b : Val × ℚ => decide (SameGroup b.1 p.1)) Prod.snd ps
      simpa [inGroup] using this
    rw [e1, sum_map_times, ← e2, groupAvg]
    ring
  rw [List.map_congr_left fun p _ => e p, sum_swap]
  congr 1
  refine List.map_congr_left fun b hb => ?_
  have e1 : (ps.map fun p => if SameGroup b.1 p.1 then f p.1 / (inGroup ps p.1).length * b.2 else 0) =
      ps.map fun p => f b.1 / (inGroup ps b.1).length * b.2 * (if SameGroup p.1 b.1 then 1 else 0) := by
    refine List.map_congr_left fun p _ => ?_
    by_cases h : SameGroup b.1 p.1
    · rw [if_pos h, if_pos (sameGroup_symm h), hf _ _ h, inGroup_congr ps h, mul_one]
    · rw [if_neg h, if_neg fun k => h (sameGroup_symm k), mul_zero]
  have e2 : ((inGroup ps b.1).length : ℚ) = (ps.map fun p => if SameGroup p.1 b.1 then (1 : ℚ) else 0).sum := by
    have := length_filter_ite (fun p : Val × ℚ => decide (SameGroup p.1 b.1)) ps
    simpa [inGroup] using this
  rw [e1, sum_map_times, ← e2]
  have h0 : ((inGroup ps b.1).length : ℚ) ≠ 0 := by
    have := inGroup_self hb (hall b hb)
    simpa using this
  field_simp

/-- The means of the groups have the sum of the numbers. -/
theorem groupAvg_sum (ps : List (Val × ℚ)) (hall : ∀ p ∈ ps, SameGroup p.1 p.1) :
    (ps.map fun p => groupAvg ps p.1).sum = (ps.map Prod.snd).sum := by
  have := sum_groupAvg ps hall (fun _ => 1) (fun _ _ _ => rfl)
  simpa using this

/-- Pythagoras. -/
theorem groupAvg_squares (ps : List (Val × ℚ)) (hall : ∀ p ∈ ps, SameGroup p.1 p.1) :
    (ps.map fun p => p.2 * p.2).sum = (ps.map fun p => groupAvg ps p.1 * groupAvg ps p.1).sum +
      (ps.map fun p => (p.2 - groupAvg ps p.1) * (p.2 - groupAvg ps p.1)).sum := by
  have h1 := sum_groupAvg ps hall (groupAvg ps) (fun g g' h => by rw [groupAvg, groupAvg, inGroup_congr ps h])
  have e : (ps.map fun p => (p.2 - groupAvg ps p.1) * (p.2 - groupAvg ps p.1)) =
      ps.map fun p => (p.2 * p.2 + (groupAvg ps p.1 * groupAvg ps p.1)) + (-2) * (groupAvg ps p.1 * p.2) :=
    List.map_congr_left fun p _ => by ring
  rw [e, List.sum_map_add, List.sum_map_add, sum_map_times, ← h1]
  ring

/-! ## Lines -/

theorem members_inGroup (g : Val) : ∀ (gs vs : List Val) (qs : List ℚ), vs.map Val.num = qs.map .fin →
    (members vs gs g).map Val.num = (inGroup (gs.zip qs) g).map .fin
  | [], _, _, _ => by simp [members, inGroup]
  | _ :: _, [], [], _ => by simp [members, inGroup]
  | _ :: _, [], _ :: _, h => by simp at h
  | _ :: _, _ :: _, [], h => by simp at h
  | a :: gs, v :: vs, q :: qs, h => by
    classical
    simp only [List.map_cons, List.cons.injEq] at h
    have ih := members_inGroup g gs vs qs h.2
    simp only [members, inGroup, List.zip_cons_cons] at ih ⊢
    by_cases hs : SameGroup a g
    · rw [List.filter_cons_of_pos (by simpa using hs), List.filter_cons_of_pos (by simpa using hs)]
      simp only [List.map_cons, ih, h.1]
    · rw [List.filter_cons_of_neg (by simpa using hs), List.filter_cons_of_neg (by simpa using hs), ih]

theorem finites_numbers (qs : List ℚ) : finites (qs.map .fin) = qs := by
  simp [finites]

theorem noInf_numbers (qs : List ℚ) : NoInf (qs.map .fin) := by
  intro f hf
  obtain ⟨q, -, rfl⟩ := List.mem_map.mp hf
  simp

theorem numbers_exist : ∀ {vs : List Val}, (∀ v ∈ vs, ∃ q, v.num = .fin q) → ∃ qs : List ℚ, vs.map Val.num = qs.map .fin
  | [], _ => ⟨[], rfl⟩
  | v :: vs, h => by
    obtain ⟨q, hq⟩ := h v (by simp)
    obtain ⟨qs, hqs⟩ := numbers_exist (vs := vs) fun w hw => h w (by simp [hw])
    exact ⟨q :: qs, by simp [hq, hqs]⟩

theorem computes_answers {m : Option Int → Res (Out L)} {S : List Val → Val → Prop} {d : DType} {y : Larry L} (hv : y.Valid)
    (hc : Computes m S d y) {axis : Int} {ax : Nat} (hax : pyIdx y.ndim axis = some ax) {rest : List L}
    (hr : Named (y.label.eraseIdx ax) rest) {vs : List Val} (hl : y.LineAt ax rest vs) :
    ∃ v, Answers (m (some axis)) rest v ∧ S vs v := by
  have hpos : 1 ≤ y.ndim := by
    rw [← hv.label_length]
    exact List.length_pos_iff.mpr hv.ndim_pos
  rcases Nat.lt_or_ge y.ndim 2 with h1 | h2
  · have h1 : y.ndim = 1 := by omega
    have ha : (axis = 0 ∨ axis = -1) ∧ ax = 0 := by
      rw [h1] at hax
      simp only [pyIdx] at hax
      split_ifs at hax <;> simp_all <;> omega
    obtain ⟨ha, rfl⟩ := ha
    have hrest : rest = [] := by
      have e : y.label.eraseIdx 0 = [] := by
        have := hv.label_length
        rw [h1] at this
        obtain ⟨a, e⟩ := List.length_eq_one_iff.mp this
        rw [e]; rfl
      rw [e] at hr
      cases rest with
      | nil => rfl
      | cons a r => exact absurd hr (by simp [Named])
    subst hrest
    obtain ⟨us, v, hu, e, hS⟩ := hc.2.1 axis h1 ha
    rw [lineAt_unique hv hl hu]
    exact ⟨v, .inl ⟨rfl, e⟩, hS⟩
  · obtain ⟨z, e, -, -, zl, hz⟩ := hc.2.2 axis ax h2 hax
    obtain ⟨us, v, hu, hh, hS⟩ := hz rest (by rw [zl]; exact hr)
    rw [lineAt_unique hv hl hu]
    exact ⟨v, .inr ⟨z, e, hh⟩, hS⟩

/-- Mean and variance of a line of numbers. -/
theorem answers_numbers {y : Larry L} (hy : y.Numeric) {axis : Int} {ax : Nat} (hax : pyIdx y.ndim axis = some ax) {rest : List L}
    (hr : Named (y.label.eraseIdx ax) rest) {vs : List Val} (hl : y.LineAt ax rest vs) {qs : List ℚ}
    (hq : vs.map Val.num = qs.map .fin) (hne : qs ≠ []) :
    Answers (y.mean (some axis)) rest (fl (qs.sum / qs.length)) ∧
    Answers (y.var (some axis) 0) rest (fl ((qs.map fun q => q * q).sum / qs.length - qs.sum / qs.length * (qs.sum / qs.length))) := by
  have hi : NoInf (vs.map Val.num) := hq ▸ noInf_numbers qs
  have hf : finites (vs.map Val.num) = qs := by rw [hq, finites_numbers]
  constructor
  · obtain ⟨v, h1, s, rfl, h2⟩ := computes_answers hy.valid (C91_mean hy.valid hy.typed hy.elements hy.dtype) hax hr hl
    rcases mean_finites hi h2 with ⟨h3, -⟩ | ⟨-, rfl⟩
    · exact absurd (hf ▸ h3) hne
    · rwa [hf] at h1
  · obtain ⟨v, h1, s, rfl, h2⟩ := computes_answers hy.valid (C91_var 0 hy.valid hy.typed hy.elements hy.dtype) hax hr hl
    rcases var_finites hi h2 with ⟨h3, -⟩ | ⟨-, rfl⟩
    · exact absurd (hf ▸ h3) hne
    · rwa [hf] at h1

/-! ## The property -/

/-- C135. If every element is a number and every label has a group, then along the axis the group means have the mean of the larry,
what is left after subtracting them has mean 0, and the variance is the variance of the group means plus the variance of what is
left. -/
theorem C135_split [LinearOrder L] (py3 : Bool) {sort : List Val → List Val} {y group : Larry L} {axis : Int} {ax : Nat} {l : List L}
    (h : CanGroup sort y group axis ax l) (hy : y.Numeric) (hnum : y.OnlyNumbers) (hall : ∀ b ∈ l, Grouped group b b) :
    ∃ z n, y.groupMean sort group axis = .ok z ∧ Larry.binop (ArithOp.uf py3 .sub) y z = .ok n ∧ z.label = y.label ∧
      n.label = y.label ∧ z.OnlyNumbers ∧ n.OnlyNumbers ∧
      ∀ rest, Named (y.label.eraseIdx ax) rest → ∃ m s between within : ℚ,
        Answers (y.mean (some axis)) rest (fl m) ∧ Answers (z.mean (some axis)) rest (fl m) ∧
        Answers (n.mean (some axis)) rest (fl 0) ∧ Answers (y.var (some axis) 0) rest (fl s) ∧
        Answers (z.var (some axis) 0) rest (fl between) ∧ Answers (n.var (some axis) 0) rest (fl within) ∧
        s = between + within := by
  obtain ⟨gl, hgl⟩ : ∃ gl, group.label[0]? = some gl := by
    have := h.groups.label_length
    exact ⟨_, List.getElem?_eq_getElem (by have := h.one; omega)⟩
  obtain ⟨z, gs, ez, z2, hgs, hal⟩ := C53_group_mean h.sorts h.valid h.groups h.one h.number h.axis h.labels hgl (h.known gl hgl)
  have hlab : y.label = z.label := hal.label_eq.symm
  have hself : ∀ g ∈ gs, SameGroup g g := by
    intro g hg
    obtain ⟨i, hi⟩ := List.mem_iff_getElem?.mp hg
    have hil : i < l.length := by rw [← hgs.1]; exact (List.getElem?_eq_some_iff.mp hi).1
    exact (grouped_self h.groups (hgs.2 i l[i] g (List.getElem?_eq_getElem hil) hi)).mp (hall _ (List.getElem_mem hil))
  -- what the group means of a line are
  have key : ∀ rest, Named (y.label.eraseIdx ax) rest → ∃ (vs : List Val) (qs : List ℚ), y.LineAt ax rest vs ∧
      vs.map Val.num = qs.map .fin ∧ qs.length = gs.length ∧
      ∀ (i : Nat) b g v, l[i]? = some b → gs[i]? = some g → z.Has (rest.insertIdx ax b) v →
        v = fl (groupAvg (gs.zip qs) g) := by
    intro rest hr
    obtain ⟨vs, hline⟩ := lineAt_exists h.valid h.labels hr
    have hline' := hline
    obtain ⟨l', hl', hlen, hh⟩ := hline
    rw [h.labels] at hl'
    cases hl'
    obtain ⟨qs, hqs⟩ := numbers_exist (vs := vs) (by
      intro v hv
      obtain ⟨i, hi⟩ := List.mem_iff_getElem?.mp hv
      have hil : i < l.length := by rw [← hlen]; exact (List.getElem?_eq_some_iff.mp hi).1
      exact hnum _ _ (hh i _ _ (List.getElem?_eq_getElem hil) hi))
    have hql : qs.length = gs.length := by
      have := congrArg List.length hqs
      simp only [List.length_map] at this
      rw [hgs.1]; omega
    refine ⟨vs, qs, hline', hqs, hql, fun i b g v hb hg hv => ?_⟩
    have hs := hself g (List.mem_of_getElem? hg)
    have hc := ((hal.cell rest vs l i b v hline' h.labels hb hv g hg).2 hs).2
    simp only [] at hc
    rw [members_inGroup g gs vs qs hqs, finites_numbers] at hc
    refine (hc (noInf_numbers _)).2 ?_
    have hig : i < gs.length := (List.getElem?_eq_some_iff.mp hg).1
    have hgi : gs[i] = g := (List.getElem?_eq_some_iff.mp hg).2
    refine inGroup_self (p := (g, qs[i]'(by omega))) ?_ hs
    refine List.mem_iff_getElem?.mpr ⟨i, ?_⟩
    rw [List.getElem?_zip_eq_some]
    exact ⟨hg, List.getElem?_eq_getElem _⟩
  have zf : ∀ names v, z.Has names v → ∃ q : ℚ, v = fl q := fun names v hv => by
    have hN : Named y.label names := by rw [hlab]; exact Named_of_Holds hv
    obtain ⟨i, b, rest, hi, hr, rfl⟩ := named_split h.labels hN
    obtain ⟨vs, qs, -, -, -, hz⟩ := key rest hr
    have hig : i < gs.length := by rw [hgs.1]; exact (List.getElem?_eq_some_iff.mp hi).1
    exact ⟨_, hz i b gs[i] v hi (List.getElem?_eq_getElem hig) hv⟩
  obtain ⟨x, h1, n1, n4⟩ := aligned_apply (uf := ArithOp.uf py3 .sub) (d := .float) (a := y) (b := z) h.valid
    (by
      have hy := h.isNumeric
      show Arith.loopDt .bool .int y.dtype z.dtype = .ok .float
      rw [z2, Arith.loopDt, if_neg (by rw [hy]; decide), if_pos (.inr rfl)])
    (hlab ▸ Joined.refl_inner y.label) h.valid.shape_eq (hlab ▸ hal.valid.shape_eq) (Reindexed.refl _ _ _)
    (hlab ▸ Reindexed.refl _ _ _)
  have en : Larry.binop (ArithOp.uf py3 .sub) y z = .ok ⟨x, .float, y.label⟩ := by simp [Larry.binop, hlab, h1]
  have n1 : Larry.Valid ⟨x, .float, y.label⟩ := n1
  have n4 : ∀ names v, Larry.Has ⟨x, .float, y.label⟩ names v ↔ ∃ u w, y.Has names u ∧ z.Has names w ∧ v = .flt (u.num.sub w.num) := by
    intro names v
    refine (n4 names v).trans ⟨?_, ?_⟩ <;> rintro ⟨u, w, hu, hw, rfl⟩ <;> obtain ⟨f, rfl⟩ := zf names w hw <;>
      exact ⟨u, _, hu, hw, by cases u <;> rfl⟩
  have nf : ∀ names v, Larry.Has ⟨x, .float, y.label⟩ names v → ∃ q : ℚ, v = fl q := fun names v hv => by
    obtain ⟨u, w, hu, hw, rfl⟩ := (n4 names v).mp hv
    obtain ⟨q, hq⟩ := hnum _ _ hu
    obtain ⟨q', rfl⟩ := zf _ _ hw
    exact ⟨q - q', by rw [hq]; simp [Val.num, Flt.sub, Flt.add, Flt.neg, fl, sub_eq_add_neg]⟩
  have prod : ∀ w : Larry L, w.Valid → w.label = y.label → w.shape.prod ≠ 0 := fun w hw e => by
    have e1 : w.shape = y.shape := by
      show w.x.shape = y.x.shape
      rw [hw.shape_eq, hy.valid.shape_eq, e]
    rw [e1]; exact hy.elements
  have hz : z.Numeric := ⟨hal.valid, (Larry.typed_iff hal.valid).mpr fun names v hv => by
    obtain ⟨q, rfl⟩ := zf names v hv; rw [z2]; rfl, .inl z2, prod z hal.valid hal.label_eq⟩
  have hn : Larry.Numeric ⟨x, .float, y.label⟩ := ⟨n1, (Larry.typed_iff n1).mpr fun names v hv => by
    obtain ⟨q, rfl⟩ := nf names v hv; rfl, .inl rfl, prod _ n1 rfl⟩
  have hndz : z.ndim = y.ndim := by rw [← hal.valid.label_length, ← h.valid.label_length, hlab]
  have hndn : Larry.ndim ⟨x, .float, y.label⟩ = y.ndim := by rw [← n1.label_length, ← h.valid.label_length]
  refine ⟨z, _, ez, en, hlab.symm, rfl, fun names v hv => ?_, fun names v hv => ?_, fun rest hr => ?_⟩
  · obtain ⟨q, rfl⟩ := zf names v hv; exact ⟨q, rfl⟩
  · obtain ⟨q, rfl⟩ := nf names v hv; exact ⟨q, rfl⟩
  obtain ⟨vs, qs, hline, hqs, hql, hcell⟩ := key rest hr
  have hps : ∀ p ∈ gs.zip qs, SameGroup p.1 p.1 := fun p hp => hself _ (List.of_mem_zip hp).1
  have hqne : qs ≠ [] := by
    rintro rfl
    exact line_ne_nil hy.valid hy.elements hline (by simpa using hqs)
  have eq : (gs.zip qs).map Prod.snd = qs := List.map_snd_zip (by omega)
  have hlen : (gs.zip qs).length = qs.length := by simp [hql]
  have hat : ∀ (i : Nat) b v, l[i]? = some b → ∀ p, (gs.zip qs)[i]? = some p → z.Has (rest.insertIdx ax b) v →
      v = fl (groupAvg (gs.zip qs) p.1) := fun i b v hb p hp hv =>
    hcell i b p.1 v hb (List.getElem?_zip_eq_some.mp hp).1 hv
  have hzline : z.LineAt ax rest ((gs.zip qs).map fun p => fl (groupAvg (gs.zip qs) p.1)) := by
    refine ⟨l, by rw [← hlab]; exact h.labels, by rw [List.length_map, hlen, hql, hgs.1], fun i b w hb hw => ?_⟩
    rw [List.getElem?_map, Option.map_eq_some_iff] at hw
    obtain ⟨p, hp, rfl⟩ := hw
    obtain ⟨v, hv⟩ := Holds_of_Named (x := z.x) (label := z.label) (names := rest.insertIdx ax b)
      (by rw [← hlab]; exact named_insert h.labels hr hb)
    rw [← hat i b v hb p hp hv]; exact hv
  have hnline : Larry.LineAt ⟨x, .float, y.label⟩ ax rest ((gs.zip qs).map fun p => fl (p.2 - groupAvg (gs.zip qs) p.1)) := by
    refine ⟨l, h.labels, by rw [List.length_map, hlen, hql, hgs.1], fun i b w hb hw => ?_⟩
    rw [List.getElem?_map, Option.map_eq_some_iff] at hw
    obtain ⟨p, hp, rfl⟩ := hw
    obtain ⟨v, hv⟩ := Holds_of_Named (x := z.x) (label := z.label) (names := rest.insertIdx ax b)
      (by rw [← hlab]; exact named_insert h.labels hr hb)
    obtain ⟨l', hl', hlen', hh⟩ := hline
    rw [h.labels] at hl'
    cases hl'
    have hiv : i < vs.length := by rw [hlen']; exact (List.getElem?_eq_some_iff.mp hb).1
    have hyv := hh i b vs[i] hb (List.getElem?_eq_getElem hiv)
    refine (n4 _ _).mpr ⟨_, _, hyv, hv, ?_⟩
    have hnumi : (vs[i]).num = .fin p.2 := by
      have e1 := congrArg (fun t : List Flt => t[i]?) hqs
      simp only [List.getElem?_map, (List.getElem?_zip_eq_some.mp hp).2, List.getElem?_eq_getElem hiv, Option.map_some,
        Option.some.injEq] at e1
      exact e1
    rw [hat i b v hb p hp hv, hnumi]
    simp [Val.num, Flt.sub, Flt.add, Flt.neg, fl, sub_eq_add_neg]
  have a1 := answers_numbers hy h.axis hr hline hqs hqne
  have zne : ((gs.zip qs).map fun p => groupAvg (gs.zip qs) p.1) ≠ [] := by
    intro e
    have := congrArg List.length e
    rw [List.length_map, hlen] at this
    exact hqne (List.length_eq_zero_iff.mp this)
  have nne : ((gs.zip qs).map fun p => p.2 - groupAvg (gs.zip qs) p.1) ≠ [] := by
    intro e
    have := congrArg List.length e
    rw [List.length_map, hlen] at this
    exact hqne (List.length_eq_zero_iff.mp this)
  have a2 := answers_numbers hz (hndz ▸ h.axis) (by rw [← hlab]; exact hr) hzline
    (qs := (gs.zip qs).map fun p => groupAvg (gs.zip qs) p.1) (by rw [List.map_map, List.map_map]; rfl) zne
  have a3 := answers_numbers hn (hndn ▸ h.axis) hr hnline
    (qs := (gs.zip qs).map fun p => p.2 - groupAvg (gs.zip qs) p.1) (by rw [List.map_map, List.map_map]; rfl) nne
  have s1 := groupAvg_sum _ hps
  rw [eq] at s1
  have s3 : ((gs.zip qs).map fun p => p.2 - groupAvg (gs.zip qs) p.1).sum = 0 := by
    have e : ((gs.zip qs).map fun p => p.2 - groupAvg (gs.zip qs) p.1) =
        (gs.zip qs).map fun p => p.2 + (-1) * groupAvg (gs.zip qs) p.1 := List.map_congr_left fun p _ => by ring
    rw [e, List.sum_map_add, sum_map_times, s1]
    have : ((gs.zip qs).map fun p => p.2).sum = qs.sum := by rw [← eq]; simp [eq]
    rw [this]; ring
  have s2 := groupAvg_squares _ hps
  have eqq : ((gs.zip qs).map fun p => p.2 * p.2) = qs.map fun q => q * q := by
    conv_rhs => rw [← eq, List.map_map]
    rfl
  rw [eqq] at s2
  rw [s1, List.length_map, hlen, List.map_map] at a2
  rw [s3, List.length_map, hlen, List.map_map, zero_div] at a3
  refine ⟨_, _, _, _, a1.1, a2.1, a3.1, a1.2, a2.2, a3.2, ?_⟩
  rw [s2]
  simp only [Function.comp_def]
  ring

/-! ### Cases -/

/-- Numbers of three labels on two days. -/
def exThreeOnTwoDays : Larry Nat :=
  ⟨NDArray.ofList [2, 3] [fl 1, fl 5, fl 3, fl 9, fl 2, fl 6], .float, [[10, 20], [3, 1, 2]]⟩

example : CanGroup id exThreeOnTwoDays (exGroups fun n => if n = 3 then 0 else 1) 1 1 [3, 1, 2] ∧ exThreeOnTwoDays.Numeric ∧ exThreeOnTwoDays.OnlyNumbers ∧
    (∀ b ∈ [3, 1, 2], Grouped (exGroups fun n => if n = 3 then 0 else 1) b b) ∧
    Grouped (exGroups fun n => if n = 3 then 0 else 1) 1 2 ∧ ¬ Grouped (exGroups fun n => if n = 3 then 0 else 1) 1 3 ∧
    Named (exThreeOnTwoDays.label.eraseIdx 1) [20] := by
  have hD : exThreeOnTwoDays.Valid := ⟨rfl, by decide, by decide⟩
  refine ⟨⟨fun l => List.Perm.refl l, hD, ⟨rfl, by simp [exGroups], by simp [exGroups]⟩, rfl, by decide, rfl, rfl, fun gl hgl => ?_⟩,
    ⟨hD, typed_cells (by decide +kernel), .inl rfl, by decide⟩, ?_, ?_, ?_, ?_, Named_of_At (idx := [1]) ⟨rfl, trivial⟩⟩
  · have : gl = [1, 2, 3] := (Option.some.inj hgl).symm
    subst this
    decide
  · rintro names v ⟨idx, hat, rfl⟩
    have : idx ∈ allIdx [2, 3] := mem_allIdx.mpr (At_inB hat)
    have : idx ∈ [[0, 0], [0, 1], [0, 2], [1, 0], [1, 1], [1, 2]] := this
    simp only [List.mem_cons, List.not_mem_nil, or_false] at this
    rcases this with rfl | rfl | rfl | rfl | rfl | rfl <;> exact ⟨_, rfl⟩
  · intro b hb
    rw [exGroups_grouped _ (by simp at hb ⊢; omega) (by simp at hb ⊢; omega)]
  · rw [exGroups_grouped _ (by simp) (by simp)]; decide
  · rw [exGroups_grouped _ (by simp) (by simp)]; decide

/-- The numbers 5, 2, 6 with the last two in one group: the variance 26 / 9 is 2 / 9 + 8 / 3. -/
example : groupLine id groupMeanLine [.int 0, .int 1, .int 1] [fl 5, fl 2, fl 6] = [fl 5, fl 4, fl 4] ∧
    varVals 0 [fl 5, fl 2, fl 6] = fl (26 / 9) ∧ varVals 0 [fl 5, fl 4, fl 4] = fl (2 / 9) ∧
    varVals 0 [fl 0, fl (-2), fl 2] = fl (8 / 3) := by decide +kernel

/-- C135. A missing element spoils it: its group mean is there and counts once more. -/
theorem C135_missing : groupLine id groupMeanLine [.str "x", .str "x", .str "y"] [fl 1, .flt .nan, fl 4] = [fl 1, fl 1, fl 4] ∧
    nanmean [.fin 1, .nan, .fin 4] = .fin (5 / 2) ∧ nanmean [.fin 1, .fin 1, .fin 4] = .fin 2 := by decide +kernel

end La
