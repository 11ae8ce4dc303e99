import Verif.Props.Arith
import Mathlib.Algebra.Group.WithOne.Defs
import Mathlib.Algebra.BigOperators.Group.List.Lemmas

/-!
# C75: chained arithmetic of larrys
-/

namespace La
open Arith Larry
variable {L : Type _}

/-! ## Specification -/

/-- An expression in `op`: variables and parentheses. -/
inductive Expr
  | var (i : Nat)
  | op (s t : Expr)

/-- The variables from left to right. -/
def Expr.vars : Expr → List Nat
  | .var i => [i]
  | .op s t => s.vars ++ t.vars

/-- Python's evaluation of the expression, larry by larry (an unknown variable is an IndexError here). -/
def Expr.eval [LinearOrder L] (uf : UFunc2) (env : List (Larry L)) : Expr → Res (Larry L)
  | .var i => match env[i]? with
    | none => .error .indexError
    | some y => .ok y
  | .op s t => match s.eval uf env with
    | .error e => .error e
    | .ok a => match t.eval uf env with
      | .error e => .error e
      | .ok b => Larry.binop uf a b

/-- `op` is commutative and associative on the values `P` in arrays of the dtypes `D`. -/
structure UFunc2.CommAssoc (uf : UFunc2) (P : Val → Prop) (D : DType → Prop) : Prop where
  closed : ∀ {u v}, P u → P v → P (uf.f u v)
  comm : ∀ {u v}, P u → P v → uf.f u v = uf.f v u
  assoc : ∀ {u v w}, P u → P v → P w → uf.f (uf.f u v) w = uf.f u (uf.f v w)
  dclosed : ∀ {d e}, D d → D e → ∃ r, uf.dt d e = .ok r ∧ D r
  dcomm : ∀ {d e}, D d → D e → uf.dt d e = uf.dt e d
  dassoc : ∀ {d e f r s}, D d → D e → D f → uf.dt d e = .ok r → uf.dt e f = .ok s → uf.dt r f = uf.dt d s

/-! ## Folding -/

/-- A partial operation that is commutative and associative on `P`. -/
structure FoldOp {α : Type _} (P : α → Prop) (f : α → α → α) : Prop where
  closed : ∀ {u v}, P u → P v → P (f u v)
  comm : ∀ {u v}, P u → P v → f u v = f v u
  assoc : ∀ {u v w}, P u → P v → P w → f (f u v) w = f u (f v w)

/-- The semigroup of the values in `P`. -/
abbrev FoldOp.semigroup {α : Type _} {P : α → Prop} {f : α → α → α} (h : FoldOp P f) : CommSemigroup {v // P v} where
  mul a b := ⟨f a.1 b.1, h.closed a.2 b.2⟩
  mul_assoc a b c := Subtype.ext (h.assoc a.2 b.2 c.2)
  mul_comm a b := Subtype.ext (h.comm a.2 b.2)

/-- The total of a nonempty list with some placing of parentheses. -/
inductive Totals {α : Type _} (f : α → α → α) : List α → α → Prop
  | one (a : α) : Totals f [a] a
  | app {l m : List α} {a b : α} : Totals f l a → Totals f m b → Totals f (l ++ m) (f a b)

theorem Totals.closed {α : Type _} {P : α → Prop} {f : α → α → α} (h : FoldOp P f) {l : List α} {s : α} (ht : Totals f l s)
    (hl : ∀ a ∈ l, P a) : P s := by
  induction ht with
  | one a => exact hl a (by simp)
  | app _ _ i1 i2 => exact h.closed (i1 fun a ha => hl a (by simp [ha])) (i2 fun a ha => hl a (by simp [ha]))

theorem Totals.prod {α : Type _} {P : α → Prop} {f : α → α → α} (h : FoldOp P f) {l : List α} {s : α} (ht : Totals f l s) :
    letI := h.semigroup
    ∀ l' : List {v // P v}, l'.map Subtype.val = l → ∀ s' : {v // P v}, s'.1 = s →
      ((s' : WithOne {v // P v}) = (l'.map WithOne.coe).prod) := by
  let _ := h.semigroup
  induction ht with
  | one a =>
    intro l' hl s' hs
    obtain ⟨b, rfl⟩ : ∃ b, l' = [b] := by
      match l', hl with
      | [b], _ => exact ⟨b, rfl⟩
    have : b = s' := Subtype.ext (by rw [hs]; simpa using hl)
    simp [this]
  | @app l m a b h1 h2 i1 i2 =>
    intro l' hl s' hs
    obtain ⟨l1, l2, rfl, e1, e2⟩ := List.map_eq_append_iff.mp hl
    have p1 : P a := h1.closed h (fun x hx => by rw [← e1] at hx; obtain ⟨y, _, rfl⟩ := List.mem_map.mp hx; exact y.2)
    have p2 : P b := h2.closed h (fun x hx => by rw [← e2] at hx; obtain ⟨y, _, rfl⟩ := List.mem_map.mp hx; exact y.2)
    rw [List.map_append, List.prod_append, ← i1 l1 e1 ⟨a, p1⟩ rfl, ← i2 l2 e2 ⟨b, p2⟩ rfl, ← WithOne.coe_mul]
    congr 1
    exact Subtype.ext hs

/-- The order and the parentheses do not matter. -/
theorem Totals.unique {α : Type _} {P : α → Prop} {f : α → α → α} (h : FoldOp P f) {l m : List α} {s t : α} (hs : Totals f l s)
    (ht : Totals f m t) (hp : l.Perm m) (hl : ∀ a ∈ l, P a) : s = t := by
  let _ := h.semigroup
  have hm : ∀ a ∈ m, P a := fun a ha => hl a (hp.mem_iff.mpr ha)
  have e1 : (l.attachWith P hl).map Subtype.val = l := by simp
  have e2 : (m.attachWith P hm).map Subtype.val = m := by simp
  have k1 := hs.prod h _ e1 ⟨s, hs.closed h hl⟩ rfl
  have k2 := ht.prod h _ e2 ⟨t, ht.closed h hm⟩ rfl
  have hpp : ((l.attachWith P hl).map WithOne.coe).Perm
      ((m.attachWith P hm).map WithOne.coe) := by
    apply List.Perm.map
    exact (List.map_perm_map_iff Subtype.val_injective).mp (by rw [e1, e2]; exact hp)
  rw [hpp.prod_eq, ← k2] at k1
  exact congrArg Subtype.val (WithOne.coe_inj.mp k1)

/-! ## Labels -/

/-- The label list of one axis after inner joins of all: the common list if all are identical, else sorted. -/
def AllInner [LinearOrder L] (xs : List (List L)) (r : List L) : Prop :=
  (∀ l, (∀ x ∈ xs, x = l) → r = l) ∧
  ((∃ x ∈ xs, ∃ y ∈ xs, x ≠ y) → r.Pairwise (· < ·)) ∧ ∀ a, a ∈ r ↔ ∀ x ∈ xs, a ∈ x

theorem AllInner.join [LinearOrder L] {xs ys : List (List L)} {r s t : List L} (h1 : AllInner xs r) (h2 : AllInner ys s)
    (h : InnerJoined r s t) : AllInner (xs ++ ys) t := by
  refine ⟨fun l hl => ?_, ?_, fun a => ?_⟩
  · have e1 := h1.1 l (fun x hx => hl x (by simp [hx]))
    have e2 := h2.1 l (fun x hx => hl x (by simp [hx]))
    rw [h.1 (e1.trans e2.symm), e1]
  · rintro ⟨x, hx, y, hy, hne⟩
    by_cases hrs : r = s
    · rw [h.1 hrs]
      by_cases u1 : ∃ x ∈ xs, ∃ y ∈ xs, x ≠ y
      · exact h1.2.1 u1
      by_cases u2 : ∃ x ∈ ys, ∃ y ∈ ys, x ≠ y
      · exact hrs ▸ h2.2.1 u2
      exfalso
      push Not at u1 u2
      have k1 : ∀ z ∈ xs, z = r := fun z hz => (h1.1 z (fun x hx => u1 x hx z hz)).symm
      have k2 : ∀ z ∈ ys, z = r := fun z hz => hrs ▸ (h2.1 z (fun x hx => u2 x hx z hz)).symm
      have k : ∀ z ∈ xs ++ ys, z = r := fun z hz => (List.mem_append.mp hz).elim (k1 z) (k2 z)
      exact hne ((k x hx).trans (k y hy).symm)
    · exact (h.2 hrs).1
  · rw [h.mem, h1.2.2, h2.2.2]
    constructor
    · rintro ⟨k1, k2⟩ x hx
      exact (List.mem_append.mp hx).elim (k1 x) (k2 x)
    · exact fun k => ⟨fun x hx => k x (by simp [hx]), fun x hx => k x (by simp [hx])⟩

theorem AllInner.unique [LinearOrder L] {xs ys : List (List L)} {r s : List L} (hne : xs ≠ []) (h1 : AllInner xs r) (h2 : AllInner ys s)
    (hm : ∀ x, x ∈ xs ↔ x ∈ ys) : r = s := by
  by_cases u : ∃ x ∈ xs, ∃ y ∈ xs, x ≠ y
  · have u' : ∃ x ∈ ys, ∃ y ∈ ys, x ≠ y := by
      obtain ⟨x, hx, y, hy, h⟩ := u
      exact ⟨x, (hm x).mp hx, y, (hm y).mp hy, h⟩
    exact eq_of_mem_iff_of_lt (h1.2.1 u) (h2.2.1 u') (fun a => by rw [h1.2.2, h2.2.2]; simp only [hm])
  · push Not at u
    obtain ⟨x, hx⟩ := List.exists_mem_of_ne_nil xs hne
    rw [h1.1 x (fun y hy => u y hy x hx), h2.1 x (fun y hy => u y ((hm y).mpr hy) x hx)]

/-! ## Evaluation -/

theorem joined_get {R : List L → List L → List L → Prop} {as bs cs : List (List L)} (h : Joined R as bs cs) (k : Nat) :
    (as[k]? = none ∧ bs[k]? = none ∧ cs[k]? = none) ∨ ∃ a b c, as[k]? = some a ∧ bs[k]? = some b ∧ cs[k]? = some c ∧ R a b c := by
  induction h generalizing k with
  | nil => simp
  | cons hr _ ih =>
    cases k with
    | zero => exact .inr ⟨_, _, _, rfl, rfl, rfl, hr⟩
    | succ k => simpa using ih k

theorem forall₂_split {α β : Type _} {R : α → β → Prop} {l m : List α} {vs : List β} (h : List.Forall₂ R (l ++ m) vs) :
    ∃ v1 v2, vs = v1 ++ v2 ∧ List.Forall₂ R l v1 ∧ List.Forall₂ R m v2 := by
  induction l generalizing vs with
  | nil => exact ⟨[], vs, rfl, .nil, h⟩
  | cons a l ih =>
    cases h with
    | cons h1 h2 =>
      obtain ⟨v1, v2, rfl, k1, k2⟩ := ih h2
      exact ⟨_ :: v1, v2, rfl, .cons h1 k1, k2⟩

theorem forall₂_unique {α β : Type _} {R : α → β → Prop} (hR : ∀ a b c, R a b → R a c → b = c) {l : List α} {vs ws : List β}
    (h : List.Forall₂ R l vs) (h' : List.Forall₂ R l ws) : vs = ws := by
  induction h generalizing ws with
  | nil => cases h'; rfl
  | cons h1 _ ih =>
    cases h' with
    | cons h2 h3 => rw [hR _ _ _ h1 h2, ih h3]

/-- The dtype of the result. -/
def UFunc2.dtf (uf : UFunc2) (d e : DType) : DType :=
  match uf.dt d e with
  | .ok r => r
  | .error _ => d

theorem CommAssoc.vals {uf : UFunc2} {P : Val → Prop} {D : DType → Prop} (h : uf.CommAssoc P D) : FoldOp P uf.f :=
  ⟨h.closed, h.comm, h.assoc⟩

theorem CommAssoc.dtypes {uf : UFunc2} {P : Val → Prop} {D : DType → Prop} (h : uf.CommAssoc P D) : FoldOp D uf.dtf := by
  refine ⟨fun {d e} hd he => ?_, fun {d e} hd he => ?_, fun {d e f} hd he hf => ?_⟩
  · obtain ⟨r, h1, h2⟩ := h.dclosed hd he
    simpa [UFunc2.dtf, h1] using h2
  · obtain ⟨r, h1, h2⟩ := h.dclosed hd he
    simp [UFunc2.dtf, h1, h.dcomm he hd]
  · obtain ⟨r, h1, h2⟩ := h.dclosed hd he
    obtain ⟨s, h3, h4⟩ := h.dclosed he hf
    obtain ⟨t, h5, h6⟩ := h.dclosed h2 hf
    have := h.dassoc hd he hf h1 h3
    simp [UFunc2.dtf, h1, h3, h5, ← this]

/-- What is known of the value `z` of an expression with the larrys `ys` in this order. -/
structure ChainOf [LinearOrder L] (uf : UFunc2) (P : Val → Prop) (D : DType → Prop) (n : Nat) (ys : List (Larry L)) (z : Larry L) : Prop where
  valid : z.Valid
  ndim : z.ndim = n
  ne : ys ≠ []
  dtype : Totals uf.dtf (ys.map (·.dtype)) z.dtype ∧ D z.dtype
  label : ∀ k r, z.label[k]? = some r → AllInner (ys.map fun y => y.label.getD k []) r
  has : ∀ names v, z.get names = .ok v → P v ∧ ∃ vs, List.Forall₂ (fun y u => Larry.get y names = .ok u ∧ P u) ys vs ∧ Totals uf.f vs v
  hasAll : ∀ names vs, List.Forall₂ (fun y u => Larry.get y names = .ok u) ys vs → ∃ v, z.get names = .ok v

theorem eval_chain [LinearOrder L] {uf : UFunc2} {P : Val → Prop} {D : DType → Prop} (h : uf.CommAssoc P D) {n : Nat}
    {env : List (Larry L)} (henv : ∀ y ∈ env, y.Valid ∧ y.ndim = n ∧ D y.dtype ∧ ∀ names v, y.get names = .ok v → P v)
    {t : Expr} (ht : ∀ i ∈ t.vars, i < env.length) :
    ∃ z, t.eval uf env = .ok z ∧ ChainOf uf P D n (t.vars.filterMap fun i => env[i]?) z := by
  induction t with
  | var i =>
    have hi := ht i (by simp [Expr.vars])
    obtain ⟨h1, h2, h3, h4⟩ := henv env[i] (List.getElem_mem hi)
    refine ⟨env[i], by simp [Expr.eval, List.getElem?_eq_getElem hi], ?_⟩
    simp only [Expr.vars, List.filterMap_cons, List.getElem?_eq_getElem hi, List.filterMap_nil]
    refine ⟨h1, h2, by simp, ⟨.one _, h3⟩, ?_, ?_, ?_⟩
    · intro k r hr
      have : env[i].label.getD k [] = r := by simp [List.getD, hr]
      simp only [List.map_cons, List.map_nil, this]
      refine ⟨fun l hl => hl r (by simp), ?_, by simp⟩
      rintro ⟨x, hx, y, hy, hne⟩
      simp only [List.mem_singleton] at hx hy
      exact (hne (hx.trans hy.symm)).elim
    · intro names v hv
      exact ⟨h4 names v hv, [v], .cons ⟨hv, h4 names v hv⟩ .nil, .one v⟩
    · intro names vs hvs
      cases hvs with
      | cons h1 _ => exact ⟨_, h1⟩
  | op s t ihs iht =>
    obtain ⟨a, ha, ca⟩ := ihs (fun i hi => ht i (by simp [Expr.vars, hi]))
    obtain ⟨b, hb, cb⟩ := iht (fun i hi => ht i (by simp [Expr.vars, hi]))
    obtain ⟨r, hr, hDr⟩ := h.dclosed ca.dtype.2 cb.dtype.2
    obtain ⟨z, h1, h2, h3, h4, h5⟩ := C09_binop ca.valid cb.valid (ca.ndim.trans cb.ndim.symm) uf hr
    refine ⟨z, by simp [Expr.eval, ha, hb, h1], ?_⟩
    simp only [Expr.vars, List.filterMap_append]
    refine ⟨h2, ?_, by simp [ca.ne], ?_, ?_, ?_, ?_⟩
    · rw [← h2.label_length, h4.lengths.1, ca.valid.label_length, ca.ndim]
    · refine ⟨?_, h3 ▸ hDr⟩
      rw [List.map_append, h3, show r = uf.dtf a.dtype b.dtype by simp [UFunc2.dtf, hr]]
      exact .app ca.dtype.1 cb.dtype.1
    · intro k r hr
      rcases joined_get h4 k with ⟨_, _, h0⟩ | ⟨x, y, c, e1, e2, e3, hj⟩
      · rw [h0] at hr; simp at hr
      · rw [e3] at hr
        obtain rfl := Option.some.inj hr
        rw [List.map_append]
        exact (ca.label k x e1).join (cb.label k y e2) hj
    · intro names v hv
      obtain ⟨u, w, hu, hw, rfl⟩ := (h5 names v).mp hv
      obtain ⟨p1, vs, f1, t1⟩ := ca.has names u hu
      obtain ⟨p2, ws, f2, t2⟩ := cb.has names w hw
      exact ⟨h.closed p1 p2, vs ++ ws, List.rel_append f1 f2, .app t1 t2⟩
    · intro names vs hvs
      obtain ⟨vs1, vs2, rfl, f1, f2⟩ := forall₂_split hvs
      obtain ⟨u, hu⟩ := ca.hasAll names _ f1
      obtain ⟨w, hw⟩ := cb.hasAll names _ f2
      exact ⟨_, (h5 names _).mpr ⟨u, w, hu, hw, rfl⟩⟩

/-! ## C75 -/

/-- C75. Two expressions in a commutative and associative operation with the same larrys, each as often: both give a larry, and
the two have the same labels in the same order, dtype and values. -/
theorem C75_any_order [LinearOrder L] {uf : UFunc2} {P : Val → Prop} {D : DType → Prop} (h : uf.CommAssoc P D) {n : Nat}
    {env : List (Larry L)} (henv : ∀ y ∈ env, y.Valid ∧ y.ndim = n ∧ D y.dtype ∧ ∀ names v, y.get names = .ok v → P v)
    {s t : Expr} (hs : ∀ i ∈ s.vars, i < env.length) (hp : s.vars.Perm t.vars) :
    ∃ z z', s.eval uf env = .ok z ∧ t.eval uf env = .ok z' ∧ z.Valid ∧ z.Same z' := by
  obtain ⟨z, e1, c1⟩ := eval_chain h henv hs
  obtain ⟨z', e2, c2⟩ := eval_chain h henv (t := t) (fun i hi => hs i (hp.mem_iff.mpr hi))
  have hpl := hp.filterMap (fun i => env[i]?)
  refine ⟨z, z', e1, e2, c1.valid, c1.valid.same_of_has c2.valid ?_ ?_ ?_⟩
  · have hl : z.label.length = z'.label.length := by
      rw [c1.valid.label_length, c2.valid.label_length, c1.ndim, c2.ndim]
    apply List.ext_getElem hl
    intro k k1 k2
    exact (c1.label k _ (List.getElem?_eq_getElem k1)).unique (by simpa using c1.ne)
      (c2.label k _ (List.getElem?_eq_getElem k2)) (fun x => (hpl.map _).mem_iff)
  · refine c1.dtype.1.unique (CommAssoc.dtypes h) c2.dtype.1 (hpl.map _) ?_
    intro d hd
    obtain ⟨y, hy, rfl⟩ := List.mem_map.mp hd
    obtain ⟨i, _, hi⟩ := List.mem_filterMap.mp hy
    exact (henv y (List.mem_of_getElem? hi)).2.2.1
  · intro names v hv
    rw [← get_ok_iff c1.valid] at hv
    rw [← get_ok_iff c2.valid]
    obtain ⟨p, vs, f1, t1⟩ := c1.has names v hv
    obtain ⟨vs', f2, hperm⟩ := List.perm_comp_forall₂ hpl.symm f1
    have hperm := hperm.symm
    obtain ⟨w, hw⟩ := c2.hasAll names vs' (f2.imp fun _ _ h => h.1)
    obtain ⟨p', ws, f3, t3⟩ := c2.has names w hw
    have : ws = vs' := forall₂_unique (fun _ _ _ h h' => Except.ok.inj (h.1.symm.trans h'.1)) f3 f2
    subst this
    rw [hw]
    congr 1
    refine (t1.unique (CommAssoc.vals h) t3 hperm ?_).symm
    intro u hu
    obtain ⟨k, hk, rfl⟩ := List.getElem_of_mem hu
    exact (List.forall₂_iff_get.mp f1).2 k (by rw [f1.length_eq]; exact hk) hk |>.2

/-- An int or a float; int and float dtypes. -/
def IntOrFloat (v : Val) : Prop := v.hasDType .int = true ∨ v.hasDType .float = true
def IntOrFloatDt (d : DType) : Prop := d = .int ∨ d = .float

theorem add_assoc_flt (a b c : Flt) : (a.add b).add c = a.add (b.add c) := by
  cases a <;> cases b <;> cases c <;> simp [Flt.add, add_assoc]

theorem add_comm_flt (a b : Flt) : a.add b = b.add a := by cases a <;> cases b <;> simp [Flt.add, add_comm]

theorem mul_comm_flt (a b : Flt) : a.mul b = b.mul a := by cases a <;> cases b <;> simp [Flt.mul, mul_comm]

theorem infOf_cases (a : ℚ) : (0 < a ∧ Flt.infOf a = .pinf) ∨ (a < 0 ∧ Flt.infOf a = .ninf) ∨ (a = 0 ∧ Flt.infOf a = .nan) := by
  rcases lt_trichotomy a 0 with h | rfl | h
  · exact .inr (.inl ⟨h, infOf_neg h⟩)
  · exact .inr (.inr ⟨rfl, infOf_zero⟩)
  · exact .inl ⟨h, infOf_pos' h⟩

theorem mul_assoc_flt (a b c : Flt) : (a.mul b).mul c = a.mul (b.mul c) := by
  have key : ∀ p q : ℚ, (Flt.infOf p).mul (.fin q) = Flt.infOf (p * q) := by
    intro p q
    rcases infOf_cases p with ⟨hp, e⟩ | ⟨hp, e⟩ | ⟨hp, e⟩ <;> rcases infOf_cases q with ⟨hq, e'⟩ | ⟨hq, e'⟩ | ⟨hq, e'⟩
    · rw [e, infOf_pos' (mul_pos hp hq)]; simp [Flt.mul, e']
    · rw [e, infOf_neg (mul_neg_of_pos_of_neg hp hq)]; simp [Flt.mul, e']
    · rw [e, hq, mul_zero, infOf_zero]; simp [Flt.mul, infOf_zero]
    · rw [e, infOf_neg (mul_neg_of_neg_of_pos hp hq)]; simp [Flt.mul, infOf_neg (show -q < 0 by linarith)]
    · rw [e, infOf_pos' (mul_pos_of_neg_of_neg hp hq)]; simp [Flt.mul, infOf_pos' (show 0 < -q by linarith)]
    · rw [e, hq, mul_zero, infOf_zero]; simp [Flt.mul, infOf_zero]
    · rw [e, hp, zero_mul, infOf_zero]; simp [Flt.mul]
    · rw [e, hp, zero_mul, infOf_zero]; simp [Flt.mul]
    · rw [e, hp, zero_mul, infOf_zero]; simp [Flt.mul]
  have kp : ∀ p : ℚ, (Flt.infOf p).mul .pinf = Flt.infOf p := by
    intro p; rcases infOf_cases p with ⟨hp, e⟩ | ⟨hp, e⟩ | ⟨hp, e⟩ <;> rw [e] <;> rfl
  have kn : ∀ p : ℚ, (Flt.infOf p).mul .ninf = Flt.infOf (-p) := by
    intro p
    rcases infOf_cases p with ⟨hp, e⟩ | ⟨hp, e⟩ | ⟨hp, e⟩
    · rw [e, infOf_neg (by linarith)]; rfl
    · rw [e, infOf_pos' (by linarith)]; rfl
    · rw [e, hp, neg_zero, infOf_zero]; rfl
  have pl : ∀ p : ℚ, Flt.mul .pinf (Flt.infOf p) = Flt.infOf p := fun p => by rw [mul_comm_flt, kp]
  have nl : ∀ p : ℚ, Flt.mul .ninf (Flt.infOf p) = Flt.infOf (-p) := fun p => by rw [mul_comm_flt, kn]
  have fl : ∀ p q : ℚ, (Flt.fin q).mul (Flt.infOf p) = Flt.infOf (p * q) := fun p q => by rw [mul_comm_flt, key]
  have nn : ∀ f : Flt, Flt.mul .nan f = .nan := fun f => by cases f <;> rfl
  have nr : ∀ f : Flt, Flt.mul f .nan = .nan := fun f => by cases f <;> rfl
  have pp : Flt.mul .pinf .pinf = .pinf := rfl
  have pn : Flt.mul .pinf .ninf = .ninf := rfl
  have np : Flt.mul .ninf .pinf = .ninf := rfl
  have n2 : Flt.mul .ninf .ninf = .pinf := rfl
  have pf : ∀ q, Flt.mul .pinf (.fin q) = Flt.infOf q := fun _ => rfl
  have fp : ∀ q, Flt.mul (.fin q) .pinf = Flt.infOf q := fun _ => rfl
  have nf : ∀ q, Flt.mul .ninf (.fin q) = Flt.infOf (-q) := fun _ => rfl
  have fn : ∀ q, Flt.mul (.fin q) .ninf = Flt.infOf (-q) := fun _ => rfl
  have ff : ∀ p q, Flt.mul (.fin p) (.fin q) = .fin (p * q) := fun _ _ => rfl
  cases a <;> cases b <;> cases c <;>
    simp only [key, kp, kn, pl, nl, fl, nn, nr, pp, pn, np, n2, pf, fp, nf, fn, ff, neg_neg, mul_neg, mul_comm, mul_left_comm]

theorem loopDt_intFloat {db : DType} {d e : DType} (hd : IntOrFloatDt d) (he : IntOrFloatDt e) :
    loopDt db .int d e = .ok (if d = .float ∨ e = .float then .float else .int) := by
  rcases hd with rfl | rfl <;> rcases he with rfl | rfl <;> rfl

theorem commAssoc_loop {db : DType} {fb : Bool → Bool → Val} {gi : Int → Int → Int} {gf : Flt → Flt → Flt}
    (ic : ∀ a b, gi a b = gi b a) (ia : ∀ a b c, gi (gi a b) c = gi a (gi b c))
    (fc : ∀ a b, gf a b = gf b a) (fa : ∀ a b c, gf (gf a b) c = gf a (gf b c))
    (hc : ∀ a b : Int, gf (.fin a) (.fin b) = .fin (gi a b : ℚ)) :
    UFunc2.CommAssoc ⟨loop fb (fun a b => .int (gi a b)) (fun a b => .flt (gf a b)), loopDt db .int⟩ IntOrFloat IntOrFloatDt := by
  have shape : ∀ {v : Val}, IntOrFloat v → (∃ n, v = .int n) ∨ ∃ f, v = .flt f := by
    rintro v (h | h) <;> cases v <;> simp [Val.hasDType] at h
    · exact .inl ⟨_, rfl⟩
    · exact .inr ⟨_, rfl⟩
  refine ⟨?_, ?_, ?_, ?_, ?_, ?_⟩
  · intro u v hu hv
    rcases shape hu with ⟨m, rfl⟩ | ⟨m, rfl⟩ <;> rcases shape hv with ⟨n, rfl⟩ | ⟨n, rfl⟩ <;>
      simp [IntOrFloat, loop, Val.hasDType]
  · intro u v hu hv
    rcases shape hu with ⟨m, rfl⟩ | ⟨m, rfl⟩ <;> rcases shape hv with ⟨n, rfl⟩ | ⟨n, rfl⟩ <;>
      simp only [loop, toInt, Val.num] <;> first | rw [ic] | rw [fc]
  · intro u v w hu hv hw
    rcases shape hu with ⟨m, rfl⟩ | ⟨m, rfl⟩ <;> rcases shape hv with ⟨n, rfl⟩ | ⟨n, rfl⟩ <;>
      rcases shape hw with ⟨k, rfl⟩ | ⟨k, rfl⟩ <;>
      simp [loop, toInt, Val.num, ia, fa, ← hc]
  · intro d e hd he
    refine ⟨_, loopDt_intFloat hd he, ?_⟩
    split_ifs
    · exact .inr rfl
    · exact .inl rfl
  · intro d e hd he
    show loopDt db .int d e = loopDt db .int e d
    rw [loopDt_intFloat hd he, loopDt_intFloat he hd]
    simp only [or_comm]
  · intro d e f r s hd he hf hr hs
    have hr := (loopDt_intFloat hd he).symm.trans hr
    have hs := (loopDt_intFloat he hf).symm.trans hs
    obtain rfl := Except.ok.inj hr
    obtain rfl := Except.ok.inj hs
    rcases hd with rfl | rfl <;> rcases he with rfl | rfl <;> rcases hf with rfl | rfl <;> rfl

/-- C75. `+` and `*` of int and float larrys are commutative and associative. -/
theorem C75_plus_times : npAdd.CommAssoc IntOrFloat IntOrFloatDt ∧ npMultiply.CommAssoc IntOrFloat IntOrFloatDt :=
  ⟨commAssoc_loop (fun a b => add_comm a b) (fun a b c => add_assoc a b c) add_comm_flt add_assoc_flt
      (fun a b => by simp [Flt.add]),
    commAssoc_loop (fun a b => mul_comm a b) (fun a b c => mul_assoc a b c) mul_comm_flt mul_assoc_flt
      (fun a b => by simp [Flt.mul])⟩

/-- C75. Sums (and products) of int and float larrys: any order, any parentheses. -/
theorem C75_sums [LinearOrder L] {uf : UFunc2} (h : uf = npAdd ∨ uf = npMultiply) {n : Nat} {env : List (Larry L)}
    (henv : ∀ y ∈ env, y.Valid ∧ y.Typed ∧ y.ndim = n ∧ (y.dtype = .int ∨ y.dtype = .float))
    {s t : Expr} (hs : ∀ i ∈ s.vars, i < env.length) (hp : s.vars.Perm t.vars) :
    ∃ z z', s.eval uf env = .ok z ∧ t.eval uf env = .ok z' ∧ z.Valid ∧ z.Same z' := by
  have hu : uf.CommAssoc IntOrFloat IntOrFloatDt := by
    rcases h with rfl | rfl
    · exact C75_plus_times.1
    · exact C75_plus_times.2
  refine C75_any_order hu (n := n) (fun y hy => ?_) hs hp
  obtain ⟨h1, h2, h3, h4⟩ := henv y hy
  refine ⟨h1, h3, h4, fun names v hv => ?_⟩
  have := (typed_iff h1).mp h2 names v ((get_ok_iff h1).mp hv)
  rcases h4 with h4 | h4 <;> rw [h4] at this
  · exact .inl this
  · exact .inr this

/-- C75. So are they on bool larrys (or, and). -/
theorem C75_bools : npAdd.CommAssoc (fun v => v.hasDType .bool = true) (· = .bool) ∧
    npMultiply.CommAssoc (fun v => v.hasDType .bool = true) (· = .bool) := by
  have shape : ∀ {v : Val}, v.hasDType .bool = true → ∃ b, v = .bool b := by
    intro v h; cases v <;> simp [Val.hasDType] at h; exact ⟨_, rfl⟩
  constructor <;> refine ⟨?_, ?_, ?_, ?_, ?_, ?_⟩
  all_goals first
    | (intro u v hu hv; obtain ⟨a, rfl⟩ := shape hu; obtain ⟨b, rfl⟩ := shape hv
       first
         | rfl
         | simp [npAdd, npMultiply, loop, Bool.or_comm, Bool.and_comm])
    | (intro u v w hu hv hw; obtain ⟨a, rfl⟩ := shape hu; obtain ⟨b, rfl⟩ := shape hv; obtain ⟨c, rfl⟩ := shape hw
       simp [npAdd, npMultiply, loop, Bool.or_assoc, Bool.and_assoc])
    | (rintro d e rfl rfl; exact ⟨_, rfl, rfl⟩)
    | (rintro d e rfl rfl; rfl)
    | (rintro d e f r s rfl rfl rfl hr hs
       obtain rfl := Except.ok.inj hr
       obtain rfl := Except.ok.inj hs
       rfl)

/-- A larry with one element. -/
def exOne (v : Val) (d : DType) : Larry Nat := ⟨⟨[1], fun _ => v⟩, d, [[5]]⟩

/-- C75. Mixing bools and numbers breaks it: `(t + t) + 1` is 2 and `t + (t + 1)` is 3. -/
theorem C75_mixed_bools : ∃ z z',
    Expr.eval npAdd [exOne (.bool true) .bool, exOne (.int 1) .int] (.op (.op (.var 0) (.var 0)) (.var 1)) = .ok z ∧
    Expr.eval npAdd [exOne (.bool true) .bool, exOne (.int 1) .int] (.op (.var 0) (.op (.var 0) (.var 1))) = .ok z' ∧
    z.get [5] = .ok (.int 2) ∧ z'.get [5] = .ok (.int 3) :=
  ⟨_, _, rfl, rfl, by decide +kernel, by decide +kernel⟩

/-- Two float larrys and an int larry with labels in different orders. -/
example : (∀ y ∈ [exV, exI], y.Valid ∧ y.ndim = 1 ∧ IntOrFloatDt y.dtype) ∧
    (Expr.op (.op (.var 0) (.var 1)) (.var 0)).vars.Perm (Expr.op (.var 1) (.op (.var 0) (.var 0))).vars := by
  refine ⟨?_, by decide⟩
  intro y hy
  simp only [List.mem_cons, List.not_mem_nil, or_false] at hy
  rcases hy with rfl | rfl
  · exact ⟨exV_valid, rfl, .inr rfl⟩
  · exact ⟨exI_valid, rfl, .inl rfl⟩

end La
