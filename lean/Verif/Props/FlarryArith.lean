import Verif.FlarryArith
import Verif.Props.Align
import Verif.Props.Chain

/-!
C96: `la.add`, `la.subtract`, `la.multiply` and `la.divide`: with the defaults they are the operators, and with an outer join and
missing values replaced by 0 (sum) or 1 (product) they total what is present, in any order.
-/

namespace La
open Arith Larry
variable {L : Type _}

/-! ## Specification -/

/-- The finite number in a cell of a float larry, if there is one. -/
def numberAt [LinearOrder L] (y : Larry L) (names : List L) : Option ℚ :=
  match y.get names with
  | .ok (.flt (.fin q)) => some q
  | _ => none

/-- The larrys totalled: valid, float, with `n` axes, no axis without labels, no infinite numbers. -/
structure Totalled [LinearOrder L] (n : Nat) (y : Larry L) : Prop where
  valid : y.Valid
  typed : y.Typed
  float : y.dtype = .float
  ndim : y.ndim = n
  ne : ∀ l ∈ y.label, l ≠ []
  finite : ∀ names, y.get names ≠ .ok (.flt .pinf) ∧ y.get names ≠ .ok (.flt .ninf)

/-- Evaluation of an expression whose operator is a call with an outer join. -/
def Expr.outer [LinearOrder L] (f : FArith) (cv : DType → Val → Val) (py3 : Bool) (missone misstwo : Option Val) (env : List (Larry L)) :
    Expr → Res (Larry L)
  | .var i => match env[i]? with
    | none => .error .indexError
    | some y => .ok y
  | .op s t => match s.outer f cv py3 missone misstwo env with
    | .error e => .error e
    | .ok a => match t.outer f cv py3 missone misstwo env with
      | .error e => .error e
      | .ok b => f.call cv py3 a b (.one .outer) true missone misstwo

/-- The label list of one axis after outer joins of all: the common list if all are identical, else sorted. -/
def AllOuter [LinearOrder L] (xs : List (List L)) (r : List L) : Prop :=
  (∀ l, (∀ x ∈ xs, x = l) → r = l) ∧
  ((∃ x ∈ xs, ∃ y ∈ xs, x ≠ y) → r.Pairwise (· < ·)) ∧ ∀ a, a ∈ r ↔ ∃ x ∈ xs, a ∈ x

/-- The numbers present in a cell, one for each time a larry with a number there occurs in the expression. -/
def presentIn [LinearOrder L] (env : List (Larry L)) (vars : List Nat) (names : List L) : List ℚ :=
  vars.filterMap fun i => env[i]?.bind fun y => numberAt y names

/-- Sum or product of a list of numbers. -/
def FArith.total (f : FArith) (l : List ℚ) : ℚ := if f = .multiply then l.prod else l.sum

/-- 0 for sums, 1 for products. -/
def FArith.neutral (f : FArith) : ℚ := if f = .multiply then 1 else 0

/-! ## Labels -/

theorem AllOuter.join [LinearOrder L] {xs ys : List (List L)} {r s t : List L} (h1 : AllOuter xs r) (h2 : AllOuter ys s)
    (h : OuterJoined r s t) : AllOuter (xs ++ ys) t := by
  refine ⟨fun l hl => ?_, ?_, fun a => ?_⟩
  · have e1 := h1.1 l (fun x hx => hl x (by simp [hx]))
    have e2 := h2.1 l (fun x hx => hl x (by simp [hx]))
    rw [h.1 (e1.trans e2.symm), e1]
  · rintro ⟨x, hx, y, hy, hne⟩
    by_cases hrs : r = s
    · rw [h.1 hrs]
      by_cases u1 : ∃ x ∈ xs, ∃ y ∈ xs, x ≠ y
      · exact h1.2.1 u1
      by_cases u2 : ∃ x ∈ ys, ∃ y ∈ ys, x ≠ y
      · exact hrs ▸ h2.2.1 u2
      exfalso
      push Not at u1 u2
      have k1 : ∀ z ∈ xs, z = r := fun z hz => (h1.1 z (fun x hx => u1 x hx z hz)).symm
      have k2 : ∀ z ∈ ys, z = r := fun z hz => hrs ▸ (h2.1 z (fun x hx => u2 x hx z hz)).symm
      have k : ∀ z ∈ xs ++ ys, z = r := fun z hz => (List.mem_append.mp hz).elim (k1 z) (k2 z)
      exact hne ((k x hx).trans (k y hy).symm)
    · exact (h.2 hrs).1
  · rw [h.mem, h1.2.2, h2.2.2]
    simp only [List.mem_append, or_and_right, exists_or]

theorem AllOuter.unique [LinearOrder L] {xs ys : List (List L)} {r s : List L} (hne : xs ≠ []) (h1 : AllOuter xs r) (h2 : AllOuter ys s)
    (hm : ∀ x, x ∈ xs ↔ x ∈ ys) : r = s := by
  by_cases u : ∃ x ∈ xs, ∃ y ∈ xs, x ≠ y
  · have u' : ∃ x ∈ ys, ∃ y ∈ ys, x ≠ y := by
      obtain ⟨x, hx, y, hy, h⟩ := u
      exact ⟨x, (hm x).mp hx, y, (hm y).mp hy, h⟩
    exact eq_of_mem_iff_of_lt (h1.2.1 u) (h2.2.1 u') (fun a => by rw [h1.2.2, h2.2.2]; simp only [hm])
  · push Not at u
    obtain ⟨x, hx⟩ := List.exists_mem_of_ne_nil xs hne
    rw [h1.1 x (fun y hy => u y hy x hx), h2.1 x (fun y hy => u y ((hm y).mpr hy) x hx)]

theorem joined_outer [LinearOrder L] {k : Nat} {l1 l2 r1 r2 : List (List L)} (h : AllJoined (List.replicate k .outer) l1 l2 r1 r2) :
    Joined OuterJoined l1 l2 r1 := by
  induction k generalizing l1 l2 r1 r2 with
  | zero => cases h; exact .nil
  | succ k ih =>
    rw [List.replicate_succ] at h
    cases h with
    | cons h1 h2 => exact .cons h1.1 (ih h2)

theorem joined_inner [LinearOrder L] {k : Nat} {l1 l2 r1 r2 : List (List L)} (h : AllJoined (List.replicate k .inner) l1 l2 r1 r2) :
    Joined InnerJoined l1 l2 r1 := by
  induction k generalizing l1 l2 r1 r2 with
  | zero => cases h; exact .nil
  | succ k ih =>
    rw [List.replicate_succ] at h
    cases h with
    | cons h1 h2 => exact .cons h1.1 (ih h2)

theorem outer_named [LinearOrder L] {as bs cs : List (List L)} (h : Joined OuterJoined as bs cs) {names : List L}
    (hn : Named as names ∨ Named bs names) : Named cs names := by
  induction h generalizing names with
  | nil => simpa using hn
  | cons h1 _ ih =>
    cases names with
    | nil => simp [Named] at hn
    | cons m ms =>
      simp only [Named] at hn ⊢
      refine ⟨h1.mem.mpr (hn.imp And.left And.left), ih (hn.imp And.right And.right)⟩

theorem outer_ne [LinearOrder L] {as bs cs : List (List L)} (h : Joined OuterJoined as bs cs) (ha : ∀ l ∈ as, l ≠ []) : ∀ l ∈ cs, l ≠ [] := by
  induction h with
  | nil => simp
  | cons h1 _ ih =>
    simp only [List.mem_cons, forall_eq_or_imp] at ha ⊢
    refine ⟨?_, ih ha.2⟩
    obtain ⟨x, hx⟩ := List.exists_mem_of_ne_nil _ ha.1
    exact List.ne_nil_of_mem (h1.mem.mpr (.inl hx))

/-! ## One call -/

theorem mapM_some (l : List (List L)) : (l.map some).mapM id = some l := by
  induction l with
  | nil => rfl
  | cons a l ih => simp [List.mapM_cons, ih]

theorem Totalled.read [LinearOrder L] {n : Nat} {y : Larry L} (h : Totalled n y) {names : List L} (hn : Named y.label names) :
    ∃ q, y.get names = .ok (.flt (match q with | none => .nan | some q => .fin q)) ∧ numberAt y names = q := by
  obtain ⟨idx, hat⟩ := At_of_Named hn
  have hg : y.get names = .ok (y.x.get idx) := (get_ok_iff h.valid).mpr ⟨idx, hat, rfl⟩
  have ht := (typed_iff h.valid).mp h.typed names _ ((get_ok_iff h.valid).mp hg)
  rw [h.float] at ht
  have hf := h.finite names
  generalize y.x.get idx = v at *
  cases v <;> simp [Val.hasDType] at ht
  rename_i f
  cases f with
  | nan => exact ⟨none, hg, by simp [numberAt, hg]⟩
  | fin q => exact ⟨some q, hg, by simp [numberAt, hg]⟩
  | pinf => exact absurd hg hf.1
  | ninf => exact absurd hg hf.2

theorem numberAt_none [LinearOrder L] {y : Larry L} (h : y.Valid) {names : List L} (hn : ¬ Named y.label names) :
    numberAt y names = none := by
  unfold numberAt
  split
  · rename_i q hq
    exact absurd (Named_of_Holds ((get_ok_iff h).mp hq)) hn
  · rfl

/-- What two cells become. -/
def FArith.pair (f : FArith) (two : Option ℚ) : Option ℚ → Option ℚ → Option ℚ
  | none, none => two
  | none, some q => some q
  | some p, none => some p
  | some p, some q => some (if f = .multiply then p * q else p + q)

/-- A number or NaN. -/
def fltOf (q : Option ℚ) : Flt := match q with | none => .nan | some q => .fin q

theorem uf_fin {f : FArith} (hf : f = .add ∨ f = .multiply) (py3 : Bool) (p q : ℚ) :
    (f.uf py3).f (.flt (.fin p)) (.flt (.fin q)) = .flt (.fin (if f = .multiply then p * q else p + q)) := by
  rcases hf with rfl | rfl <;> simp [FArith.uf, npAdd, npMultiply, loop, Val.num, Flt.add, Flt.mul]

theorem uf_nan {f : FArith} (hf : f = .add ∨ f = .multiply) (py3 : Bool) :
    (f.uf py3).f (.flt .nan) (.flt .nan) = .flt .nan := by
  rcases hf with rfl | rfl <;> simp [FArith.uf, npAdd, npMultiply, loop, Flt.add, Flt.mul]

theorem uf_float {f : FArith} (py3 : Bool) : (f.uf py3).dt .float .float = .ok .float := by
  cases f <;> cases py3 <;> rfl

theorem carried_read [LinearOrder L] {n : Nat} {y z : Larry L} (h : Totalled n y) (hc : CarriedOver y z) (hd : z.dtype = .float)
    {names : List L} (hn : Named z.label names) : z.get names = .ok (.flt (fltOf (numberAt y names))) := by
  by_cases hy : Named y.label names
  · obtain ⟨q, h1, h2⟩ := h.read hy
    have := hc.1 names _ ((get_ok_iff h.valid).mp h1) hn
    rw [if_pos (hd.trans h.float.symm)] at this
    rw [this, h2]
    rfl
  · obtain ⟨m, h1, h2⟩ := hc.2 names hn hy
    rw [hd] at h2
    obtain rfl : Val.flt .nan = m := by simpa [missingMarker] using h2
    rw [h1, numberAt_none h.valid hy]
    rfl

theorem outer_call [LinearOrder L] {f : FArith} (hf : f = .add ∨ f = .multiply) {cv : DType → Val → Val} (py3 : Bool) {n : Nat} {a b : Larry L}
    (ha : Totalled n a) (hb : Totalled n b) {m : Val} (hm : cv .float m = .flt (.fin f.neutral)) {misstwo : Option Val} {two : Option ℚ}
    (htwo : misstwo.map (cv .float) = two.map fun q => .flt (.fin q)) (hte : ∀ q, two = some q → q = f.neutral) :
    ∃ z, f.call cv py3 a b (.one .outer) true (some m) misstwo = .ok z ∧ Totalled n z ∧ Joined OuterJoined a.label b.label z.label ∧
      ∀ names, Named z.label names → z.get names = .ok (.flt (fltOf (f.pair two (numberAt a names) (numberAt b names)))) := by
  have hj : JoinsFor b.ndim (.one .outer) (List.replicate b.ndim .outer) := rfl
  have hn : a.ndim = b.ndim := ha.ndim.trans hb.ndim.symm
  have hok : ∀ e, ¬ FailsAt a b (List.replicate b.ndim .outer) true e := by
    rintro e ⟨p, hp, hfail⟩
    have h0 := List.of_mem_zip hp
    have h1 := List.eq_of_mem_replicate h0.1
    have h2 := List.of_mem_zip h0.2
    cases hfail with
    | unknown h => rw [h1] at h; cases h
    | empty1 _ h => exact ha.ne _ h2.1 h
    | empty2 _ h => exact hb.ne _ h2.2 h
    | cast1 h => simp at h
    | cast2 h => simp at h
  obtain ⟨z1, z2, hz, v1, v2, hall, c1, c2⟩ := C16_align ha.valid hb.valid hn hj hok
  obtain ⟨⟨-, d1⟩, -, d2⟩ := C17_align_dtype ha.valid hb.valid hn hj hz
  have d1 : z1.dtype = .float := (d1 (by simp [ha.float])).trans ha.float
  have d2 : z2.dtype = .float := (d2 (by simp [hb.float])).trans hb.float
  obtain ⟨x, hx, hl, hvl, hcell⟩ := C22_binaryop ha.valid hb.valid hn hj (by intro j hj'; rw [List.eq_of_mem_replicate hj']; simp) cv (f.uf py3)
    (some m) misstwo hz (d := .float) (by rw [d1, d2]; exact uf_float py3)
  have hjo := joined_outer hall
  have hzv : Larry.Valid ⟨x, .float, z1.label⟩ := hvl
  have hval : ∀ names, Named z1.label names → (⟨x, .float, z1.label⟩ : Larry L).get names = .ok (.flt (fltOf (f.pair two (numberAt a names) (numberAt b names)))) := by
    intro names hnm
    have r1 := carried_read ha c1 d1 hnm
    have r2 := carried_read hb c2 d2 (hl ▸ hnm)
    rw [get_ok_iff v1] at r1
    rw [get_ok_iff v2] at r2
    rw [get_ok_iff hzv]
    refine (hcell names _).mpr ?_
    rw [d1, d2]
    generalize numberAt a names = qa at *
    generalize numberAt b names = qb at *
    have hzz : (if f = .multiply then f.neutral * f.neutral else f.neutral + f.neutral) = f.neutral := by
      rcases hf with rfl | rfl <;> simp [FArith.neutral]
    have hzq : ∀ q, (if f = .multiply then f.neutral * q else f.neutral + q) = q := by
      rcases hf with rfl | rfl <;> simp [FArith.neutral]
    have hqz : ∀ q, (if f = .multiply then q * f.neutral else q + f.neutral) = q := by
      rcases hf with rfl | rfl <;> simp [FArith.neutral]
    cases qa with
    | none =>
      cases qb with
      | none =>
        cases two with
        | none =>
          cases misstwo with
          | some m2 => simp at htwo
          | none =>
            exact ⟨_, _, .flt .nan, .flt .nan, r1, r2, by simp [Refilled, missingMarker, fltOf], by simp [Refilled, missingMarker, fltOf],
              (uf_nan hf py3).symm⟩
        | some q =>
          cases misstwo with
          | none => simp at htwo
          | some m2 =>
            obtain rfl := hte q rfl
            simp only [Option.map_some, Option.some.injEq] at htwo
            exact ⟨_, _, .flt (.fin f.neutral), .flt (.fin f.neutral), r1, r2, by simp [Refilled, missingMarker, fltOf, htwo],
              by simp [Refilled, missingMarker, fltOf, htwo], by rw [uf_fin hf, hzz]; rfl⟩
      | some q =>
        exact ⟨_, _, .flt (.fin f.neutral), .flt (.fin q), r1, r2, by simp [Refilled, missingMarker, fltOf, hm],
          by simp [Refilled, missingMarker, fltOf], by rw [uf_fin hf, hzq]; rfl⟩
    | some p =>
      cases qb with
      | none =>
        exact ⟨_, _, .flt (.fin p), .flt (.fin f.neutral), r1, r2, by simp [Refilled, missingMarker, fltOf],
          by simp [Refilled, missingMarker, fltOf, hm], by rw [uf_fin hf, hqz]; rfl⟩
      | some q =>
        exact ⟨_, _, .flt (.fin p), .flt (.fin q), r1, r2, by simp [Refilled, missingMarker, fltOf],
          by simp [Refilled, missingMarker, fltOf], by rw [uf_fin hf]; rfl⟩
  refine ⟨⟨x, .float, z1.label⟩, ?_, ⟨hzv, ?_, rfl, ?_, ?_, ?_⟩, hjo, hval⟩
  · simp only [FArith.call, hx, resultLarry, mapM_some]
  · rw [typed_iff hzv]
    intro names v hv
    have := hval names (Named_of_Holds hv)
    rw [(get_ok_iff hzv).mpr hv] at this
    obtain rfl := Except.ok.inj this
    rfl
  · rw [← hzv.label_length, hjo.lengths.1, ha.valid.label_length, ha.ndim]
  · exact outer_ne hjo ha.ne
  · intro names
    by_cases hnm : Named z1.label names
    · rw [hval names hnm]
      generalize f.pair _ _ _ = o
      cases o <;> simp [fltOf]
    · constructor <;> (intro hc; exact hnm (Named_of_Holds ((get_ok_iff hzv).mp hc)))

/-! ## Trees -/

/-- What a cell of the result holds. -/
def FArith.cell (f : FArith) (filled : Bool) (ps : List ℚ) : Option ℚ :=
  if ps = [] then (if filled then some f.neutral else none) else some (f.total ps)

theorem total_append (f : FArith) (l m : List ℚ) :
    f.total (l ++ m) = if f = .multiply then f.total l * f.total m else f.total l + f.total m := by
  unfold FArith.total
  split <;> simp

theorem pair_cell (f : FArith) {two : Option ℚ} (hte : ∀ q, two = some q → q = f.neutral) {fa fb : Bool} (ha : fa = true → two.isSome = true)
    (hb : fb = true → two.isSome = true) (pa pb : List ℚ) :
    f.pair two (f.cell fa pa) (f.cell fb pb) = f.cell two.isSome (pa ++ pb) := by
  have hzz : (if f = .multiply then f.neutral * f.neutral else f.neutral + f.neutral) = f.neutral := by
    unfold FArith.neutral; split <;> simp
  have hzq : ∀ q, (if f = .multiply then f.neutral * q else f.neutral + q) = q := by
    intro q; unfold FArith.neutral; split <;> simp
  have hqz : ∀ q, (if f = .multiply then q * f.neutral else q + f.neutral) = q := by
    intro q; unfold FArith.neutral; split <;> simp
  cases two with
  | none =>
    have ha : fa = false := by simpa using ha
    have hb : fb = false := by simpa using hb
    subst ha hb
    by_cases h1 : pa = [] <;> by_cases h2 : pb = [] <;> simp [FArith.cell, h1, h2, FArith.pair, total_append]
  | some q =>
    obtain rfl := hte q rfl
    by_cases h1 : pa = [] <;> by_cases h2 : pb = [] <;> cases fa <;> cases fb <;>
      simp [FArith.cell, h1, h2, FArith.pair, total_append, hzz, hzq, hqz]

/-- Is there a call in the expression? -/
def Expr.isCall : Expr → Bool
  | .var _ => false
  | .op _ _ => true

structure OuterOf [LinearOrder L] (f : FArith) (n : Nat) (env : List (Larry L)) (filled : Bool) (t : Expr) (z : Larry L) : Prop where
  tot : Totalled n z
  label : ∀ k r, z.label[k]? = some r → AllOuter ((t.vars.filterMap fun i => env[i]?).map fun y => y.label.getD k []) r
  named : ∀ i ∈ t.vars, ∀ y, env[i]? = some y → ∀ names, Named y.label names → Named z.label names
  cell : ∀ names, Named z.label names → numberAt z names = f.cell (t.isCall && filled) (presentIn env t.vars names)

theorem OuterOf.off [LinearOrder L] {f : FArith} {n : Nat} {env : List (Larry L)} (henv : ∀ y ∈ env, Totalled n y) {filled : Bool} {t : Expr}
    {z : Larry L} (h : OuterOf f n env filled t z) {names : List L} (hn : ¬ Named z.label names) :
    numberAt z names = f.cell false (presentIn env t.vars names) := by
  have : presentIn env t.vars names = [] := by
    rw [presentIn, List.filterMap_eq_nil_iff]
    intro i hi
    cases hy : env[i]? with
    | none => rfl
    | some y =>
      exact numberAt_none (henv y (List.mem_of_getElem? hy)).valid (fun hc => hn (h.named i hi y hy names hc))
  rw [numberAt_none h.tot.valid hn, this]
  rfl

theorem eval_outer [LinearOrder L] {f : FArith} (hf : f = .add ∨ f = .multiply) {cv : DType → Val → Val} (py3 : Bool) {n : Nat}
    {env : List (Larry L)} (henv : ∀ y ∈ env, Totalled n y) {m : Val} (hm : cv .float m = .flt (.fin f.neutral)) {misstwo : Option Val}
    (htwo : ∀ v, misstwo = some v → cv .float v = .flt (.fin f.neutral)) {t : Expr} (ht : ∀ i ∈ t.vars, i < env.length) :
    ∃ z, t.outer f cv py3 (some m) misstwo env = .ok z ∧ OuterOf f n env misstwo.isSome t z := by
  induction t with
  | var i =>
    have hi := ht i (by simp [Expr.vars])
    have hg : env[i]? = some env[i] := List.getElem?_eq_getElem hi
    refine ⟨env[i], by simp [Expr.outer, hg], henv _ (List.getElem_mem hi), ?_, ?_, ?_⟩
    · intro k r hr
      simp only [Expr.vars, List.filterMap_cons, hg, List.filterMap_nil]
      have : env[i].label.getD k [] = r := by simp [List.getD, hr]
      simp only [List.map_cons, List.map_nil, this]
      refine ⟨fun l hl => hl r (by simp), ?_, by simp⟩
      rintro ⟨x, hx, y, hy, hne⟩
      simp only [List.mem_singleton] at hx hy
      exact (hne (hx.trans hy.symm)).elim
    · intro j hj y hy names hnm
      obtain rfl : j = i := by simpa [Expr.vars] using hj
      obtain rfl := Option.some.inj (hg.symm.trans hy)
      exact hnm
    · intro names _
      simp only [presentIn, Expr.vars, List.filterMap_cons, hg, List.filterMap_nil, Option.bind_some, Expr.isCall, Bool.false_and]
      cases numberAt env[i] names with
      | none => rfl
      | some q => simp [FArith.cell, FArith.total]
  | op s t ihs iht =>
    obtain ⟨a, ea, oa⟩ := ihs (fun i hi => ht i (by simp [Expr.vars, hi]))
    obtain ⟨b, eb, ob⟩ := iht (fun i hi => ht i (by simp [Expr.vars, hi]))
    obtain ⟨z, h1, h2, h3, h4⟩ := outer_call hf py3 oa.tot ob.tot hm (misstwo := misstwo) (two := misstwo.map fun _ => f.neutral)
      (by cases misstwo with
        | none => rfl
        | some v => simp [htwo v rfl]) (by simp)
    have hfl : (misstwo.map fun _ => f.neutral).isSome = misstwo.isSome := by simp
    refine ⟨z, by simp [Expr.outer, ea, eb, h1], h2, ?_, ?_, ?_⟩
    · intro k r hr
      rcases joined_get h3 k with ⟨_, _, h0⟩ | ⟨x, y, c, e1, e2, e3, hj⟩
      · rw [h0] at hr; simp at hr
      · rw [e3] at hr
        obtain rfl := Option.some.inj hr
        simp only [Expr.vars, List.filterMap_append, List.map_append]
        exact (oa.label k x e1).join (ob.label k y e2) hj
    · intro i hi y hy names hnm
      rcases List.mem_append.mp hi with hi | hi
      · exact outer_named h3 (.inl (oa.named i hi y hy names hnm))
      · exact outer_named h3 (.inr (ob.named i hi y hy names hnm))
    · intro names hnm
      have h5 := h4 names hnm
      have h6 : numberAt z names = f.pair (misstwo.map fun _ => f.neutral) (numberAt a names) (numberAt b names) := by
        simp only [numberAt, h5]
        generalize f.pair _ _ _ = o
        cases o <;> rfl
      have hp : presentIn env (s.op t).vars names = presentIn env s.vars names ++ presentIn env t.vars names := by
        simp [presentIn, Expr.vars]
      obtain ⟨fa, ka, wa⟩ : ∃ fa, numberAt a names = f.cell fa (presentIn env s.vars names) ∧ (fa = true → misstwo.isSome = true) := by
        by_cases hna : Named a.label names
        · exact ⟨_, oa.cell names hna, by simp⟩
        · exact ⟨_, oa.off henv hna, by simp⟩
      obtain ⟨fb, kb, wb⟩ : ∃ fb, numberAt b names = f.cell fb (presentIn env t.vars names) ∧ (fb = true → misstwo.isSome = true) := by
        by_cases hna : Named b.label names
        · exact ⟨_, ob.cell names hna, by simp⟩
        · exact ⟨_, ob.off henv hna, by simp⟩
      rw [h6, ka, kb, pair_cell f (by simp) (by simpa using wa) (by simpa using wb), hp, hfl]
      simp [Expr.isCall]

/-! ## C96 -/

/-- C96. Totalling with `la.add(…, join='outer', missone=0)` or `la.multiply(…, join='outer', missone=1)`, of any number of larrys with
any parentheses: the labels are all labels, and each cell holds the sum (product) of the numbers present in the larrys for these
labels; where none has a number it is missing, or 0 (1) if `misstwo` is given as 0 (1). -/
theorem C96_outer [LinearOrder L] {f : FArith} (hf : f = .add ∨ f = .multiply) {cv : DType → Val → Val} (py3 : Bool) {n : Nat}
    {env : List (Larry L)} (henv : ∀ y ∈ env, Totalled n y) {m : Val} (hm : cv .float m = .flt (.fin f.neutral)) {misstwo : Option Val}
    (htwo : ∀ v, misstwo = some v → cv .float v = .flt (.fin f.neutral)) {t : Expr} (ht : ∀ i ∈ t.vars, i < env.length) :
    ∃ z, t.outer f cv py3 (some m) misstwo env = .ok z ∧ z.Valid ∧ z.ndim = n ∧ z.dtype = .float ∧
      (∀ k r, z.label[k]? = some r → AllOuter ((t.vars.filterMap fun i => env[i]?).map fun y => y.label.getD k []) r) ∧
      ∀ names, Named z.label names →
        (presentIn env t.vars names ≠ [] → z.get names = .ok (.flt (.fin (f.total (presentIn env t.vars names))))) ∧
        (presentIn env t.vars names = [] →
          z.get names = .ok (.flt (if t.isCall = true ∧ misstwo ≠ none then .fin f.neutral else .nan))) := by
  obtain ⟨z, e, o⟩ := eval_outer hf py3 henv hm htwo ht
  refine ⟨z, e, o.tot.valid, o.tot.ndim, o.tot.float, o.label, fun names hn => ?_⟩
  obtain ⟨q, h1, h2⟩ := o.tot.read hn
  rw [o.cell names hn] at h2
  subst h2
  rw [h1]
  constructor
  · intro hp
    simp [FArith.cell, hp]
  · intro hp
    cases t.isCall <;> cases misstwo <;> simp [FArith.cell, hp]

/-- C96. So the order and the parentheses do not matter: two expressions with the same larrys, each as often, give the same larry. -/
theorem C96_any_order [LinearOrder L] {f : FArith} (hf : f = .add ∨ f = .multiply) {cv : DType → Val → Val} (py3 : Bool) {n : Nat}
    {env : List (Larry L)} (henv : ∀ y ∈ env, Totalled n y) {m : Val} (hm : cv .float m = .flt (.fin f.neutral)) {misstwo : Option Val}
    (htwo : ∀ v, misstwo = some v → cv .float v = .flt (.fin f.neutral)) {s t : Expr} (hs : ∀ i ∈ s.vars, i < env.length)
    (hp : s.vars.Perm t.vars) :
    ∃ z z', s.outer f cv py3 (some m) misstwo env = .ok z ∧ t.outer f cv py3 (some m) misstwo env = .ok z' ∧ z.Valid ∧ z.Same z' := by
  have hlen : ∀ t : Expr, 0 < t.vars.length := by
    intro t; induction t with
    | var i => simp [Expr.vars]
    | op s t h1 h2 => simp [Expr.vars]; omega
  have hcall : ∀ t : Expr, t.isCall = decide (2 ≤ t.vars.length) := by
    intro t; cases t with
    | var i => simp [Expr.vars, Expr.isCall]
    | op s t => have := hlen s; have := hlen t; simp [Expr.vars, Expr.isCall]; omega
  obtain ⟨z, e1, o1⟩ := eval_outer hf py3 henv hm htwo hs
  obtain ⟨z', e2, o2⟩ := eval_outer hf py3 henv hm htwo (t := t) (fun i hi => hs i (hp.mem_iff.mpr hi))
  have hpl := hp.filterMap (fun i => env[i]?)
  have hne : (s.vars.filterMap fun i => env[i]?) ≠ [] := by
    obtain ⟨i, hi⟩ := List.exists_mem_of_length_pos (hlen s)
    exact List.ne_nil_of_mem (List.mem_filterMap.mpr ⟨i, hi, List.getElem?_eq_getElem (hs i hi)⟩)
  have hlab : z.label = z'.label := by
    apply List.ext_getElem (by rw [o1.tot.valid.label_length, o2.tot.valid.label_length, o1.tot.ndim, o2.tot.ndim])
    intro k k1 k2
    exact (o1.label k _ (List.getElem?_eq_getElem k1)).unique (by simpa using hne)
      (o2.label k _ (List.getElem?_eq_getElem k2)) (fun x => (hpl.map _).mem_iff)
  refine ⟨z, z', e1, e2, o1.tot.valid, o1.tot.valid.same_of_has o2.tot.valid hlab (o1.tot.float.trans o2.tot.float.symm) ?_⟩
  intro names v hv
  have hn : Named z.label names := Named_of_Holds hv
  rw [← get_ok_iff o1.tot.valid] at hv
  rw [← get_ok_iff o2.tot.valid, ← hv]
  obtain ⟨q, h1, h2⟩ := o1.tot.read hn
  obtain ⟨q', h1', h2'⟩ := o2.tot.read (hlab ▸ hn)
  have hpp : (presentIn env s.vars names).Perm (presentIn env t.vars names) := hp.filterMap _
  have hqq : q = q' := by
    rw [← h2, ← h2', o1.cell names hn, o2.cell names (hlab ▸ hn), hcall, hcall, hp.length_eq]
    have ht : f.total (presentIn env s.vars names) = f.total (presentIn env t.vars names) := by
      unfold FArith.total
      rw [hpp.sum_eq, hpp.prod_eq]
    have he : presentIn env s.vars names = [] ↔ presentIn env t.vars names = [] := by
      constructor
      · intro h; rw [h] at hpp; exact List.nil_perm.mp hpp
      · intro h; rw [h] at hpp; exact List.perm_nil.mp hpp
    simp only [FArith.cell, he, ht]
  rw [h1, h1', hqq]

/-! ### The operators -/

theorem op_uf (f : FArith) (py3 : Bool) : f.op.uf py3 = f.uf py3 := by cases f <;> rfl

theorem aligned_inner [LinearOrder L] {a b : Larry L} (ha : a.Valid) (hb : b.Valid) (hn : a.ndim = b.ndim) (cast : Bool) :
    ∃ z1 z2, align a b (.one .inner) cast = .ok (z1, z2) ∧ z1.Valid ∧ z2.Valid ∧ Joined InnerJoined a.label b.label z1.label ∧
      z1.dtype = a.dtype ∧ z2.dtype = b.dtype ∧ CarriedOver a z1 ∧ CarriedOver b z2 := by
  have hj : JoinsFor b.ndim (.one .inner) (List.replicate b.ndim .inner) := rfl
  obtain ⟨z1, z2, hz, d1, d2⟩ := C17_inner ha hb hn cast
  obtain ⟨w1, w2, hw, v1, v2, hall, c1, c2⟩ := C16_align (cast := cast) ha hb hn hj (by
    intro e hf
    obtain ⟨e', h, _⟩ := C16_align_fails ha hb hn hj ⟨e, hf⟩
    rw [h] at hz; simp at hz)
  obtain ⟨rfl, rfl⟩ := Prod.mk.inj (Except.ok.inj (hz.symm.trans hw))
  exact ⟨z1, z2, hz, v1, v2, joined_inner hall, d1, d2, c1, c2⟩

/-- C96. With the defaults (inner join, nothing filled in) `la.add` is `+`, `la.subtract` is `-`, `la.multiply` is `*` and `la.divide`
is `/`: the same labels, dtype and values. -/
theorem C96_operator [LinearOrder L] (f : FArith) (cv : DType → Val → Val) (py3 : Bool) {a b : Larry L} (ha : a.Valid) (hb : b.Valid)
    (hn : a.ndim = b.ndim) (cast : Bool) {d : DType} (hd : (f.uf py3).dt a.dtype b.dtype = .ok d) :
    ∃ z z', f.call cv py3 a b (.one .inner) cast none none = .ok z ∧ Larry.binop (f.op.uf py3) a b = .ok z' ∧ z.Valid ∧ z.Same z' := by
  have hj : JoinsFor b.ndim (.one .inner) (List.replicate b.ndim .inner) := rfl
  obtain ⟨z1, z2, hz, v1, v2, hjo, d1, d2, c1, c2⟩ := aligned_inner ha hb hn cast
  obtain ⟨x, hx, hl, hvl, hcell⟩ := C22_binaryop ha hb hn hj (by intro j hj'; rw [List.eq_of_mem_replicate hj']; simp) cv (f.uf py3)
    none none hz (d := d) (by rw [d1, d2]; exact hd)
  have hzv : Larry.Valid ⟨x, d, z1.label⟩ := hvl
  obtain ⟨z', e, v', d', j', g'⟩ := C09_binop ha hb hn (f.op.uf py3) (d := d) (by rw [op_uf]; exact hd)
  refine ⟨⟨x, d, z1.label⟩, z', ?_, e, hzv, hzv.same_of_has v' (hjo.unique (fun _ _ _ _ h h' => h.unique h') j') d'.symm ?_⟩
  · simp only [FArith.call, hx, resultLarry, mapM_some]
  · intro names v hv
    have hnm : Named z1.label names := Named_of_Holds hv
    obtain ⟨u, w, u', w', hu, hw, r1, r2, rfl⟩ := (hcell names v).mp hv
    have e1 : u' = u := by
      by_cases c1 : missingMarker z1.dtype = some u
      · by_cases c2 : missingMarker z2.dtype = some w
        · exact r1.2.1 c1 c2
        · exact r1.1 c1 c2
      · exact r1.2.2 c1
    have e2 : w' = w := by
      by_cases c1 : missingMarker z2.dtype = some w
      · by_cases c2 : missingMarker z1.dtype = some u
        · exact r2.2.1 c1 c2
        · exact r2.1 c1 c2
      · exact r2.2.2 c1
    subst e1 e2
    obtain ⟨na, nb⟩ := hjo.named_inner.mp hnm
    obtain ⟨i, hi⟩ := At_of_Named na
    obtain ⟨j, hj⟩ := At_of_Named nb
    have k1 := c1.1 names _ ⟨i, hi, rfl⟩ hnm
    have k2 := c2.1 names _ ⟨j, hj, rfl⟩ (hl ▸ hnm)
    rw [if_pos d1, (get_ok_iff v1).mpr hu] at k1
    rw [if_pos d2, (get_ok_iff v2).mpr hw] at k2
    rw [← get_ok_iff v', g', op_uf]
    exact ⟨_, _, (get_ok_iff ha).mpr ⟨i, hi, (Except.ok.inj k1).symm⟩, (get_ok_iff hb).mpr ⟨j, hj, (Except.ok.inj k2).symm⟩, rfl⟩

/-- C96. Where numpy refuses the two dtypes, function and operator raise the same exception. -/
theorem C96_operator_refused [LinearOrder L] (f : FArith) (cv : DType → Val → Val) (py3 : Bool) {a b : Larry L} (ha : a.Valid) (hb : b.Valid)
    (hn : a.ndim = b.ndim) (cast : Bool) {e : PyErr} (hd : (f.uf py3).dt a.dtype b.dtype = .error e) :
    f.call cv py3 a b (.one .inner) cast none none = .error e ∧ Larry.binop (f.op.uf py3) a b = .error e := by
  refine ⟨?_, C09_binop_dtype_error ha hb hn _ (by rw [op_uf]; exact hd)⟩
  obtain ⟨z1, z2, hz, -, -, -, d1, d2, -⟩ := aligned_inner ha hb hn cast
  simp only [align] at hz
  split at hz
  · simp at hz
  · rename_i s labs hr
    obtain ⟨rfl, rfl⟩ := Prod.mk.inj (Except.ok.inj hz)
    have : npBinop (f.uf py3) s.x1 s.d1 s.x2 s.d2 = .error e := npBinop_dtError (by
      rw [show s.d1 = a.dtype from d1, show s.d2 = b.dtype from d2]; exact hd)
    simp [FArith.call, binaryop, hr, fillMiss, this]

/-- C96. Different numbers of axes: the function raises ValueError, the operator IndexError. -/
theorem C96_operator_ndim [LinearOrder L] (f : FArith) (cv : DType → Val → Val) (py3 : Bool) {a b : Larry L} (ha : a.Valid) (hb : b.Valid)
    (hn : a.ndim ≠ b.ndim) (cast : Bool) :
    f.call cv py3 a b (.one .inner) cast none none = .error .valueError ∧ Larry.binop (f.op.uf py3) a b = .error .indexError := by
  refine ⟨?_, C09_binop_ndim ha hb hn _⟩
  simp [FArith.call, binaryop, alignRaw, hn]

/-! ### Witnesses and examples -/

/-- A float larry with one cell. -/
def exCell (g : Flt) : Larry Nat := ⟨⟨[1], fun _ => .flt g⟩, .float, [[5]]⟩

/-- C96. With infinite numbers the order matters: `inf + -inf` is NaN, which the next call takes for a missing value. -/
theorem C96_infinite :
    ∃ z z', (Expr.op (.op (.var 0) (.var 1)) (.var 2)).outer .add (fun _ _ => .flt (.fin 0)) false (some (.int 0)) none
        [exCell .pinf, exCell .ninf, exCell (.fin 3)] = .ok z ∧
      (Expr.op (.var 0) (.op (.var 1) (.var 2))).outer .add (fun _ _ => .flt (.fin 0)) false (some (.int 0)) none
        [exCell .pinf, exCell .ninf, exCell (.fin 3)] = .ok z' ∧
      z.get [5] = .ok (.flt (.fin 3)) ∧ z'.get [5] = .ok (.flt .nan) := by
  refine ⟨_, _, rfl, rfl, ?_, ?_⟩ <;> decide +kernel

/-- Two larrys with different labels and missing values. -/
def exSmall : Larry Nat := ⟨⟨[3], fun i => .flt (([.fin 1, .nan, .nan] : List Flt).getD (i.headD 0) .nan)⟩, .float, [[5, 7, 6]]⟩
def exShorter : Larry Nat := ⟨⟨[3], fun i => .flt (([.fin 2, .fin 4, .nan] : List Flt).getD (i.headD 0) .nan)⟩, .float, [[5, 8, 7]]⟩

example : ∀ y ∈ [exSmall, exShorter], Totalled 1 y := by
  have hv : ∀ (l : List Nat) (g : List Flt), l.Nodup → l ≠ [] → l.length = 3 → (∀ f ∈ g, f ≠ .pinf ∧ f ≠ .ninf) →
      Totalled 1 (⟨⟨[3], fun i => .flt (g.getD (i.headD 0) .nan)⟩, .float, [l]⟩ : Larry Nat) := by
    intro l g h1 h2 h3 h4
    have hva : Larry.Valid (⟨⟨[3], fun i => .flt (g.getD (i.headD 0) .nan)⟩, .float, [l]⟩ : Larry Nat) :=
      ⟨by simp [h3], by simpa using h1, by simp⟩
    refine ⟨hva, fun _ _ => rfl, rfl, rfl, by simpa using h2, fun names => ?_⟩
    have : ∀ k : Nat, g.getD k .nan ≠ .pinf ∧ g.getD k .nan ≠ .ninf := by
      intro k
      rw [List.getD_eq_getElem?_getD]
      cases hk : g[k]? with
      | none => simp
      | some f => simpa using h4 f (List.mem_of_getElem? hk)
    constructor <;> (intro hc; obtain ⟨i, -, hi⟩ := (get_ok_iff hva).mp hc; simp only [Val.flt.injEq] at hi)
    · exact (this _).1 hi
    · exact (this _).2 hi
  intro y hy
  rcases List.mem_pair.mp hy with rfl | rfl
  · exact hv [5, 7, 6] _ (by decide) (by simp) rfl (by simp)
  · exact hv [5, 8, 7] _ (by decide) (by simp) rfl (by simp)

end La
