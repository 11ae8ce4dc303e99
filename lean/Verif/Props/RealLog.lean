import Verif.RealLog
import Verif.Props.RealScore

/-!
# C132: logarithms turn products into sums
-/

namespace La

/-! ## Specification -/

/-- Not negative: NaN, infinity, or a number from zero on. -/
def RFlt.Amount : RFlt → Prop
  | .ninf => False
  | .fin r => 0 ≤ r
  | _ => True

/-! ## Elements -/

namespace RFlt

theorem exp_add (a b : RFlt) : (a.add b).exp = a.exp.mul b.exp := by
  cases a <;> cases b <;> simp [add, exp, mul, infOf, Real.exp_pos, Real.exp_add]

theorem exp_sub (a b : RFlt) : (a.sub b).exp = a.exp.div b.exp := by
  cases a <;> cases b <;>
    simp [sub, neg, add, exp, div, infOf, Real.exp_pos, Real.exp_add, Real.exp_neg, Real.exp_ne_zero, not_lt.mpr (Real.exp_pos _).le,
      div_eq_mul_inv]

theorem log_exp (a : RFlt) : a.exp.log = a := by
  cases a <;> simp [exp, log, not_lt.mpr (Real.exp_pos _).le, Real.exp_ne_zero]

theorem exp_log {a : RFlt} (h : a.Amount) : a.log.exp = a := by
  cases a with
  | nan => rfl
  | pinf => rfl
  | ninf => exact h.elim
  | fin r =>
    have h : 0 ≤ r := h
    rcases h.lt_or_eq with h1 | h1
    · simp [log, not_lt.mpr h, h1.ne', exp, Real.exp_log h1]
    · simp [log, ← h1, exp]

theorem exp_inj {a b : RFlt} (h : a.exp = b.exp) : a = b := by rw [← log_exp a, h, log_exp]

theorem amount_exp (a : RFlt) : a.exp.Amount := by
  cases a <;> simp [exp, Amount, (Real.exp_pos _).le]

theorem Amount.mul {a b : RFlt} (ha : a.Amount) (hb : b.Amount) : (a.mul b).Amount := by
  rw [← exp_log ha, ← exp_log hb, ← exp_add]; exact amount_exp _

theorem Amount.div {a b : RFlt} (ha : a.Amount) (hb : b.Amount) : (a.div b).Amount := by
  rw [← exp_log ha, ← exp_log hb, ← exp_sub]; exact amount_exp _

theorem log_mul {a b : RFlt} (ha : a.Amount) (hb : b.Amount) : (a.mul b).log = a.log.add b.log := by
  apply exp_inj
  rw [exp_log (ha.mul hb), exp_add, exp_log ha, exp_log hb]

theorem log_div {a b : RFlt} (ha : a.Amount) (hb : b.Amount) : (a.div b).log = a.log.sub b.log := by
  apply exp_inj
  rw [exp_log (ha.div hb), exp_sub, exp_log ha, exp_log hb]

theorem exp_isNan (a : RFlt) : a.exp.isNan = a.isNan := by cases a <;> rfl

theorem mul_one (a : RFlt) : a.mul (.fin 1) = a := by cases a <;> simp [mul, infOf]

theorem sqrt_mul {a : RFlt} (h : a.Amount) : a.sqrt.mul a.sqrt = a := by
  cases a with
  | nan => rfl
  | pinf => rfl
  | ninf => exact h.elim
  | fin r =>
    have h : 0 ≤ r := h
    simp [sqrt, not_lt.mpr h, mul, Real.mul_self_sqrt h]

theorem sqrt_log {a : RFlt} (h : a.Amount) : a.sqrt.log = a.log.div (.fin 2) := by
  cases a with
  | nan => rfl
  | pinf => simp [sqrt, log, div]
  | ninf => exact h.elim
  | fin r =>
    have h : 0 ≤ r := h
    rcases h.lt_or_eq with h1 | h1
    · simp [sqrt, not_lt.mpr h, log, h1.ne', div, not_lt.mpr (Real.sqrt_nonneg r), (Real.sqrt_pos.mpr h1).ne', Real.log_sqrt h]
    · simp [sqrt, log, ← h1, div]

end RFlt

/-! ## Lines -/

theorem exp_foldl (l : List RFlt) (a : RFlt) :
    (l.foldl RFlt.add a).exp = (l.map RFlt.exp).foldl RFlt.mul a.exp := by
  induction l generalizing a with
  | nil => rfl
  | cons v l ih => rw [List.foldl_cons, ih, RFlt.exp_add]; rfl

theorem foldl_put (l : List RFlt) (a : RFlt) :
    (l.map fun v => RFlt.put v.isNan (.fin 1) v).foldl RFlt.mul a = (l.filter fun v => !v.isNan).foldl RFlt.mul a := by
  induction l generalizing a with
  | nil => rfl
  | cons v l ih =>
    cases hv : v.isNan
    · simpa [hv, RFlt.put] using ih (a.mul v)
    · simpa [hv, RFlt.put, RFlt.mul_one] using ih a

theorem exp_zero : RFlt.exp (.fin 0) = .fin 1 := by simp [RFlt.exp]

theorem filter_exp (l : List RFlt) :
    ((l.filter fun v => !v.isNan).map RFlt.exp) = (l.map RFlt.exp).filter fun v => !v.isNan := by
  rw [List.filter_map]
  congr 1
  apply List.filter_congr
  intro v _
  simp [RFlt.exp_isNan]

/-- The exponential of a sum is the product of the exponentials. -/
theorem exp_nansum (l : List RFlt) : (RFlt.nansum l).exp = prodReal (l.map RFlt.exp) := by
  have hall : (l.map RFlt.exp).all RFlt.isNan = l.all RFlt.isNan := by
    rw [List.all_map]; congr 1; funext v; exact RFlt.exp_isNan v
  simp only [RFlt.nansum, prodReal, hall]
  by_cases h : l.all RFlt.isNan = true
  · have : (l.filter fun v => !v.isNan) = [] := by
      rw [List.filter_eq_nil_iff]
      intro v hv
      simpa using List.all_eq_true.mp h v hv
    simp [this, h, RFlt.exp]
  · have : ¬ (l.filter fun v => !v.isNan).length = 0 := by
      intro h0
      apply h
      rw [List.all_eq_true]
      intro v hv
      have := List.filter_eq_nil_iff.mp (List.length_eq_zero_iff.mp h0) v hv
      simpa using this
    rw [if_neg this, if_neg h, foldl_put, ← filter_exp, RFlt.sum, exp_foldl, exp_zero]

theorem exp_running (l : List RFlt) (a : RFlt) :
    (running RFlt.add a l).map RFlt.exp = running RFlt.mul a.exp (l.map RFlt.exp) := by
  induction l generalizing a with
  | nil => rfl
  | cons v l ih => simp [running, ih, RFlt.exp_add]

theorem exp_put (v : RFlt) : (RFlt.put v.isNan (.fin 0) v).exp = RFlt.put v.exp.isNan (.fin 1) v.exp := by
  rw [RFlt.exp_isNan]
  cases h : v.isNan <;> simp [RFlt.put, exp_zero]

theorem exp_cum (l : List RFlt) :
    (cumReal RFlt.add (.fin 0) l).map RFlt.exp = cumReal RFlt.mul (.fin 1) (l.map RFlt.exp) := by
  simp only [cumReal]
  have h1 : (l.map RFlt.exp).map (fun v => RFlt.put v.isNan (.fin 1) v) =
      (l.map fun v => RFlt.put v.isNan (.fin 0) v).map RFlt.exp := by
    rw [List.map_map, List.map_map]
    apply List.map_congr_left
    intro v _
    exact (exp_put v).symm
  rw [h1, ← exp_zero, ← exp_running, List.map_zipWith, List.zipWith_map]
  congr 1
  funext v w
  rw [RFlt.exp_isNan]
  cases h : v.isNan <;> simp [RFlt.put, RFlt.exp]

theorem foldl_put_add (l : List RFlt) (a : RFlt) :
    (l.map fun v => RFlt.put v.isNan (.fin 0) v).foldl RFlt.add a = (l.filter fun v => !v.isNan).foldl RFlt.add a := by
  have h0 : ∀ a : RFlt, a.add (.fin 0) = a := fun a => by cases a <;> simp [RFlt.add]
  induction l generalizing a with
  | nil => rfl
  | cons v l ih =>
    cases hv : v.isNan
    · simpa [hv, RFlt.put] using ih (a.add v)
    · simpa [hv, RFlt.put, h0] using ih a

theorem count_sum (l : List RFlt) :
    RFlt.sum (l.map fun v => .fin (if v.isNan then 0 else 1)) = .fin ((l.filter fun v => !v.isNan).length : ℝ) := by
  have : (l.map fun v : RFlt => RFlt.fin (if v.isNan then 0 else 1)) =
      (l.map fun v : RFlt => if v.isNan then (0 : ℝ) else 1).map RFlt.fin := by simp
  rw [this, sum_map_fin]
  congr 1
  induction l with
  | nil => simp
  | cons v l ih =>
    have ih := ih (by simp)
    cases hv : v.isNan <;> simp [hv, ih, add_comm]

theorem scale_div (s : RFlt) {n : ℝ} (hn : 0 < n) : (RFlt.div (.fin 1) (.fin n)).mul s = s.div (.fin n) := by
  cases s <;> simp [RFlt.div, hn.ne', RFlt.mul, RFlt.infOf, hn, not_lt.mpr hn.le, div_eq_inv_mul]

/-- geometric_mean of exponentials. -/
theorem exp_nanmean (l : List RFlt) : (RFlt.nanmean l).exp = gmLine (l.map RFlt.exp) := by
  have h1 : ((l.map RFlt.exp).map fun v => RFlt.put v.isNan (.fin 1) v).map RFlt.log =
      l.map fun v => RFlt.put v.isNan (.fin 0) v := by
    rw [List.map_map, List.map_map]
    apply List.map_congr_left
    intro v _
    simp only [Function.comp]
    rw [← exp_put, RFlt.log_exp]
  have h2 : ((l.map RFlt.exp).filter fun v => !v.isNan).length = (l.filter fun v => !v.isNan).length := by
    rw [← filter_exp, List.length_map]
  have h3 : RFlt.sum (l.map fun v => RFlt.put v.isNan (.fin 0) v) = RFlt.sum (l.filter fun v => !v.isNan) :=
    foldl_put_add l _
  have hc := count_sum (l.map RFlt.exp)
  rw [h2] at hc
  have hnan : ∀ a : RFlt, a.mul .nan = .nan := fun a => by cases a <;> rfl
  simp only [gmLine, RFlt.nanmean]
  rw [h1, hc, h3]
  by_cases h : (l.filter fun v => !v.isNan).length = 0
  · rw [if_pos h, if_pos (by rw [h]; simp), hnan]
    rfl
  · have hp : (0 : ℝ) < ((l.filter fun v => !v.isNan).length : ℝ) := by
      exact_mod_cast Nat.pos_of_ne_zero h
    rw [if_neg h, if_neg (by intro h'; injection h' with h'; exact hp.ne' h'), RFlt.mul_one, scale_div _ hp, RFlt.mean]

/-! ## Arrays -/

/-- No negative elements. -/
def Amounts (x : NDArray RFlt) : Prop := ∀ idx, InB x.shape idx → (x.get idx).Amount

/-- C132. exp undoes log where nothing is negative (zeros, infinities and NaN included), and log undoes exp everywhere. -/
theorem C132_inverse (x : NDArray RFlt) :
    (Amounts x → (expArr (logArr x)).shape = x.shape ∧ ∀ idx, InB x.shape idx → (expArr (logArr x)).get idx = x.get idx) ∧
    (logArr (expArr x)).shape = x.shape ∧ (∀ idx, InB x.shape idx → (logArr (expArr x)).get idx = x.get idx) :=
  ⟨fun h => ⟨rfl, fun idx hi => RFlt.exp_log (h idx hi)⟩, rfl, fun _ _ => RFlt.log_exp _⟩

/-- C132. The logarithm of a product is the sum of the logarithms and the one of a quotient their difference, where
nothing is negative (zeros, infinities and NaN included); exponentials of sums and differences are products and
quotients. -/
theorem C132_elements (x y : NDArray RFlt) (hs : x.shape = y.shape) :
    (Amounts x → Amounts y → ∀ idx, InB x.shape idx →
      (logArr (NDArray.zipWith RFlt.mul x y)).get idx = (NDArray.zipWith RFlt.add (logArr x) (logArr y)).get idx ∧
      (logArr (NDArray.zipWith RFlt.div x y)).get idx = (NDArray.zipWith RFlt.sub (logArr x) (logArr y)).get idx) ∧
    (∀ idx, InB x.shape idx →
      (expArr (NDArray.zipWith RFlt.add x y)).get idx = (NDArray.zipWith RFlt.mul (expArr x) (expArr y)).get idx ∧
      (expArr (NDArray.zipWith RFlt.sub x y)).get idx = (NDArray.zipWith RFlt.div (expArr x) (expArr y)).get idx) :=
  ⟨fun h1 h2 idx hi => ⟨RFlt.log_mul (h1 idx hi) (h2 idx (hs ▸ hi)), RFlt.log_div (h1 idx hi) (h2 idx (hs ▸ hi))⟩,
    fun _ _ => ⟨RFlt.exp_add _ _, RFlt.exp_sub _ _⟩⟩

/-- C132. The square root times itself is the element, and its logarithm is half the logarithm of the element, where
nothing is negative. -/
theorem C132_sqrt (x : NDArray RFlt) (h : Amounts x) (idx : List Nat) (hi : InB x.shape idx) :
    (NDArray.zipWith RFlt.mul (sqrtArr x) (sqrtArr x)).get idx = x.get idx ∧
    (logArr (sqrtArr x)).get idx = ((logArr x).get idx).div (.fin 2) :=
  ⟨RFlt.sqrt_mul (h idx hi), RFlt.sqrt_log (h idx hi)⟩

theorem reduceArr_ok (f : List RFlt → RFlt) {x : NDArray RFlt} {axis : Option Int} {ax : Option Nat}
    (hax : Names x.ndim axis ax) :
    ∃ z, reduceArr f x axis = .ok z ∧ z.shape = shapeWithout x.shape ax ∧ ∀ rest, z.get rest = f (walk x ax rest) := by
  match axis, ax, hax with
  | none, none, _ => exact ⟨_, rfl, rfl, fun _ => rfl⟩
  | some a, some k, h => exact ⟨x.reduceAx f k, by simp only [reduceArr, h.pyIdx], rfl, fun _ => rfl⟩

theorem walk_map (f : RFlt → RFlt) (x : NDArray RFlt) (ax : Option Nat) (rest : List Nat) :
    walk (x.map f) ax rest = (walk x ax rest).map f := by
  cases ax <;> simp [walk, NDArray.map]

theorem walk_exp_log {x : NDArray RFlt} (h : Amounts x) {ax : Option Nat} (hax : ∀ k, ax = some k → k < x.shape.length)
    {rest : List Nat} (hr : InB (shapeWithout x.shape ax) rest) :
    (walk (logArr x) ax rest).map RFlt.exp = walk x ax rest := by
  rw [logArr, walk_map, List.map_map]
  conv_rhs => rw [← List.map_id (walk x ax rest)]
  apply List.map_congr_left
  intro v hv
  obtain ⟨idx, hi, rfl⟩ := mem_walk hax hr hv
  exact RFlt.exp_log (h idx hi)

/-- C132. Where nothing is negative, the exponential of the sum of the logarithms is the product, and the sum of the
logarithms is the logarithm of the product, along any axis or over all elements. -/
theorem C132_sum (x : NDArray RFlt) (h : Amounts x) {axis : Option Int} {ax : Option Nat} (hax : Names x.ndim axis ax) :
    ∃ s p, sumArr (logArr x) axis = .ok s ∧ prodArr x axis = .ok p ∧ s.shape = p.shape ∧ p.shape = shapeWithout x.shape ax ∧
      ∀ rest, InB p.shape rest → (expArr s).get rest = p.get rest ∧ s.get rest = (logArr p).get rest := by
  obtain ⟨s, s1, s2, s3⟩ := reduceArr_ok RFlt.nansum (x := logArr x) hax
  obtain ⟨p, p1, p2, p3⟩ := reduceArr_ok prodReal (x := x) hax
  refine ⟨s, p, s1, p1, by rw [s2, p2]; rfl, p2, fun rest hr => ?_⟩
  rw [p2] at hr
  have e : (expArr s).get rest = p.get rest := by
    show (s.get rest).exp = _
    rw [s3, p3, exp_nansum, walk_exp_log h hax.lt hr]
  refine ⟨e, ?_⟩
  show s.get rest = (p.get rest).log
  rw [← e]
  exact (RFlt.log_exp _).symm

/-- C132. Where nothing is negative, geometric_mean without its check is the exponential of the mean of the
logarithms. -/
theorem C132_mean (x : NDArray RFlt) (h : Amounts x) {axis : Option Int} {ax : Option Nat} (hax : Names x.ndim axis ax) :
    ∃ m g, meanArr (logArr x) axis = .ok m ∧ geometricMean x axis false = .ok g ∧ m.shape = g.shape ∧ g.shape = shapeWithout x.shape ax ∧
      ∀ rest, InB g.shape rest → (expArr m).get rest = g.get rest ∧ m.get rest = (logArr g).get rest := by
  obtain ⟨m, m1, m2, m3⟩ := reduceArr_ok RFlt.nanmean (x := logArr x) hax
  obtain ⟨g, g1, g2, g3⟩ := geometricMean_ok x hax (check := false) (by simp)
  refine ⟨m, g, m1, g1, by rw [m2, g2]; rfl, g2, fun rest hr => ?_⟩
  rw [g2] at hr
  have e : (expArr m).get rest = g.get rest := by
    show (m.get rest).exp = _
    rw [m3, g3, exp_nanmean, walk_exp_log h hax.lt hr]
  refine ⟨e, ?_⟩
  show m.get rest = (g.get rest).log
  rw [← e]
  exact (RFlt.log_exp _).symm

theorem cumReal_length (op : RFlt → RFlt → RFlt) (u : RFlt) (l : List RFlt) : (cumReal op u l).length = l.length := by
  have : ∀ (l : List RFlt) (a : RFlt), (running op a l).length = l.length := by
    intro l
    induction l with
    | nil => intro a; rfl
    | cons v l ih => intro a; simp [running, ih]
  simp [cumReal, this]

theorem walk_cum (op : RFlt → RFlt → RFlt) (u : RFlt) {x : NDArray RFlt} {k : Nat} (hk : k < x.shape.length)
    {rest : List Nat} (hr : InB (x.shape.eraseIdx k) rest) :
    walk (x.mapLines (cumReal op u) .nan k) (some k) rest = cumReal op u (walk x (some k) rest) := by
  have hlen : k ≤ rest.length := by
    have := InB_length hr
    simp only [List.length_eraseIdx, if_pos hk] at this
    omega
  apply List.ext_getElem?
  intro i
  simp only [walk, NDArray.mapLines, List.getElem?_map]
  by_cases hi : i < x.shape.getD k 0
  · rw [List.getElem?_range hi, Option.map_some, List.eraseIdx_insertIdx_self]
    simp only [List.getD, List.getElem?_insertIdx_self, hlen, if_true, Option.getD_some]
    have hl : i < (cumReal op u (x.line k rest)).length := by rw [cumReal_length]; simpa [NDArray.line] using hi
    have e : (List.range (x.shape[k]?.getD 0)).map (fun i => x.get (rest.insertIdx k i)) = x.line k rest := rfl
    rw [e, List.getElem?_eq_getElem hl]
    rfl
  · rw [List.getElem?_eq_none (by simpa using hi), Option.map_none, List.getElem?_eq_none]
    rw [cumReal_length]
    simpa using hi

/-- C132. Where nothing is negative, the exponential of the cumulated sum of the logarithms is the cumulated product,
along every line. -/
theorem C132_cumsum (x : NDArray RFlt) (h : Amounts x) {a : Int} {k : Nat} (hax : Names x.ndim (some a) (some k)) :
    ∃ s p, cumsumArr (logArr x) (some a) = .ok s ∧ cumprodArr x (some a) = .ok p ∧ s.shape = x.shape ∧ p.shape = x.shape ∧
      ∀ rest, InB (x.shape.eraseIdx k) rest →
        walk (expArr s) (some k) rest = walk p (some k) rest ∧ walk s (some k) rest = walk (logArr p) (some k) rest := by
  refine ⟨(logArr x).mapLines (cumReal RFlt.add (.fin 0)) .nan k, x.mapLines (cumReal RFlt.mul (.fin 1)) .nan k,
    by simp only [cumsumArr, cumArr, show pyIdx (logArr x).ndim a = some k from hax.pyIdx],
    by simp only [cumprodArr, cumArr, hax.pyIdx], rfl, rfl, fun rest hr => ?_⟩
  have e : walk (expArr ((logArr x).mapLines (cumReal RFlt.add (.fin 0)) .nan k)) (some k) rest =
      walk (x.mapLines (cumReal RFlt.mul (.fin 1)) .nan k) (some k) rest := by
    rw [expArr, walk_map, walk_cum _ _ (x := logArr x) hax.1 hr, walk_cum _ _ hax.1 hr, exp_cum,
      walk_exp_log h hax.lt hr]
  refine ⟨e, ?_⟩
  have e2 : walk (logArr (x.mapLines (cumReal RFlt.mul (.fin 1)) .nan k)) (some k) rest =
      (walk (x.mapLines (cumReal RFlt.mul (.fin 1)) .nan k) (some k) rest).map RFlt.log := walk_map ..
  rw [e2, ← e, expArr, walk_map, List.map_map]
  conv_lhs => rw [← List.map_id (walk _ (some k) rest)]
  apply List.map_congr_left
  intro v _
  exact (RFlt.log_exp v).symm

/-! ## Sums and products are what they should be -/

theorem foldl_mul_fin (l : List ℝ) (a : ℝ) : (l.map RFlt.fin).foldl RFlt.mul (.fin a) = .fin (a * l.prod) := by
  induction l generalizing a with
  | nil => simp
  | cons b l ih => simp [RFlt.mul, ih, mul_assoc]

/-- C132. prod and sum are the product and the sum of the numbers on a line, NaN if there are none. -/
theorem C132_prod (x : NDArray RFlt) {axis : Option Int} {ax : Option Nat} (hax : Names x.ndim axis ax)
    (hinf : ∀ idx, InB x.shape idx → (x.get idx).NoInf) :
    ∃ s p, sumArr x axis = .ok s ∧ prodArr x axis = .ok p ∧ s.shape = shapeWithout x.shape ax ∧ p.shape = s.shape ∧
      ∀ rest, InB s.shape rest →
        (numbers (walk x ax rest) = [] → s.get rest = .nan ∧ p.get rest = .nan) ∧
        (numbers (walk x ax rest) ≠ [] → s.get rest = .fin (numbers (walk x ax rest)).sum ∧
          p.get rest = .fin (numbers (walk x ax rest)).prod) := by
  obtain ⟨s, s1, s2, s3⟩ := reduceArr_ok RFlt.nansum hax
  obtain ⟨p, p1, p2, p3⟩ := reduceArr_ok prodReal hax
  refine ⟨s, p, s1, p1, s2, by rw [s2, p2], fun rest hr => ?_⟩
  have hl := walk_noInf hax.lt hinf (by rw [← s2]; exact hr)
  have hall : (walk x ax rest).all RFlt.isNan = true ↔ numbers (walk x ax rest) = [] := by
    have := filter_numbers hl
    rw [List.all_eq_true, ← List.map_eq_nil_iff (f := RFlt.fin), ← this, List.filter_eq_nil_iff]
    simp
  rw [s3, p3]
  refine ⟨fun h => ⟨?_, ?_⟩, fun h => ⟨?_, ?_⟩⟩
  · simp only [RFlt.nansum, filter_numbers hl, h, List.map_nil, List.length_nil, if_true]
  · simp only [prodReal, if_pos (hall.mpr h)]
  · simp only [RFlt.nansum, filter_numbers hl, List.length_map]
    rw [if_neg (by simpa using h), sum_map_fin]
  · simp only [prodReal]
    rw [if_neg fun h' => h (hall.mp h'), foldl_put, filter_numbers hl, foldl_mul_fin, one_mul]

theorem running_mul {l : List RFlt} (hl : ∀ v ∈ l, v.NoInf) (a : ℝ) {i : Nat} (hi : i < l.length) :
    (running RFlt.mul (.fin a) (l.map fun v => RFlt.put v.isNan (.fin 1) v))[i]? =
      some (.fin (a * (numbers (l.take (i + 1))).prod)) := by
  induction l generalizing a i with
  | nil => simp at hi
  | cons v l ih =>
    have hl' : ∀ w ∈ l, w.NoInf := fun w hw => hl w (by simp [hw])
    have hv := hl v (by simp)
    have key : ∃ b : ℝ, (RFlt.fin a).mul (RFlt.put v.isNan (.fin 1) v) = .fin (a * b) ∧
        ∀ m, (numbers (v :: m)).prod = b * (numbers m).prod := by
      cases v with
      | nan => exact ⟨1, by simp [RFlt.put, RFlt.isNan, RFlt.mul], fun m => by simp [numbers_nan]⟩
      | pinf => exact hv.elim
      | ninf => exact hv.elim
      | fin r => exact ⟨r, by simp [RFlt.put, RFlt.isNan, RFlt.mul], fun m => by simp [numbers_fin]⟩
    obtain ⟨b, hb, hp⟩ := key
    rw [List.map_cons, running, hb]
    cases i with
    | zero => rw [List.getElem?_cons_zero, List.take_succ_cons, hp, List.take_zero]; simp [show numbers [] = [] from rfl]
    | succ i =>
      rw [List.getElem?_cons_succ, ih hl' _ (by simpa using hi), List.take_succ_cons, hp, mul_assoc]

theorem running_add {l : List RFlt} (hl : ∀ v ∈ l, v.NoInf) (a : ℝ) {i : Nat} (hi : i < l.length) :
    (running RFlt.add (.fin a) (l.map fun v => RFlt.put v.isNan (.fin 0) v))[i]? =
      some (.fin (a + (numbers (l.take (i + 1))).sum)) := by
  induction l generalizing a i with
  | nil => simp at hi
  | cons v l ih =>
    have hl' : ∀ w ∈ l, w.NoInf := fun w hw => hl w (by simp [hw])
    have hv := hl v (by simp)
    have key : ∃ b : ℝ, (RFlt.fin a).add (RFlt.put v.isNan (.fin 0) v) = .fin (a + b) ∧
        ∀ m, (numbers (v :: m)).sum = b + (numbers m).sum := by
      cases v with
      | nan => exact ⟨0, by simp [RFlt.put, RFlt.isNan, RFlt.add], fun m => by simp [numbers_nan]⟩
      | pinf => exact hv.elim
      | ninf => exact hv.elim
      | fin r => exact ⟨r, by simp [RFlt.put, RFlt.isNan, RFlt.add], fun m => by simp [numbers_fin]⟩
    obtain ⟨b, hb, hp⟩ := key
    rw [List.map_cons, running, hb]
    cases i with
    | zero => rw [List.getElem?_cons_zero, List.take_succ_cons, hp, List.take_zero]; simp [show numbers [] = [] from rfl]
    | succ i =>
      rw [List.getElem?_cons_succ, ih hl' _ (by simpa using hi), List.take_succ_cons, hp, add_assoc]

/-- C132. Along every line, cumsum and cumprod have NaN where the array has it, and elsewhere the sum and the product of
the numbers up to there; without an axis, or with one out of range, they raise ValueError. -/
theorem C132_running (x : NDArray RFlt) (hinf : ∀ idx, InB x.shape idx → (x.get idx).NoInf) :
    (∀ (a : Int) (k : Nat), Names x.ndim (some a) (some k) →
      ∃ s p, cumsumArr x (some a) = .ok s ∧ cumprodArr x (some a) = .ok p ∧ s.shape = x.shape ∧ p.shape = x.shape ∧
        ∀ rest, InB (x.shape.eraseIdx k) rest → ∀ i, i < x.shape.getD k 0 →
          ((walk x (some k) rest)[i]? = some .nan →
            (walk s (some k) rest)[i]? = some .nan ∧ (walk p (some k) rest)[i]? = some .nan) ∧
          (∀ r, (walk x (some k) rest)[i]? = some (.fin r) →
            (walk s (some k) rest)[i]? = some (.fin (numbers ((walk x (some k) rest).take (i + 1))).sum) ∧
            (walk p (some k) rest)[i]? = some (.fin (numbers ((walk x (some k) rest).take (i + 1))).prod))) ∧
    cumsumArr x none = .error .valueError ∧ cumprodArr x none = .error .valueError ∧
    (∀ a : Int, a < -(x.ndim : Int) ∨ (x.ndim : Int) ≤ a →
      cumsumArr x (some a) = .error .valueError ∧ cumprodArr x (some a) = .error .valueError) := by
  refine ⟨fun a k hax => ?_, rfl, rfl, fun a h => ?_⟩
  · refine ⟨x.mapLines (cumReal RFlt.add (.fin 0)) .nan k, x.mapLines (cumReal RFlt.mul (.fin 1)) .nan k,
      by simp only [cumsumArr, cumArr, hax.pyIdx], by simp only [cumprodArr, cumArr, hax.pyIdx], rfl, rfl,
      fun rest hr i hi => ?_⟩
    have hl : ∀ v ∈ walk x (some k) rest, v.NoInf := walk_noInf hax.lt hinf hr
    have hlen : i < (walk x (some k) rest).length := by simpa [walk] using hi
    rw [walk_cum _ _ hax.1 hr, walk_cum _ _ hax.1 hr]
    have h1 := running_add hl 0 hlen
    have h2 := running_mul hl 1 hlen
    rw [zero_add] at h1
    rw [one_mul] at h2
    simp only [cumReal, List.getElem?_zipWith]
    refine ⟨fun h => ?_, fun r h => ?_⟩
    · rw [h, h1, h2]
      exact ⟨rfl, rfl⟩
    · rw [h, h1, h2]
      exact ⟨rfl, rfl⟩
  · have : pyIdx x.ndim a = none := by
      unfold pyIdx
      split_ifs <;> first | rfl | omega
    simp only [cumsumArr, cumprodArr, cumArr, this, and_self]

/-! ## Negative elements -/

noncomputable def exLoss : NDArray RFlt := ⟨[2], fun idx => if idx = [0] then .fin 2 else .fin (-3)⟩

/-- C132. With a negative element the identity fails silently: its logarithm is NaN, which the sum takes for a missing
value.  For 2 and -3 the exponential of the sum of the logarithms is 2, and the product -6. -/
theorem C132_negative : ∃ s p, sumArr (logArr exLoss) none = .ok s ∧ prodArr exLoss none = .ok p ∧
    (expArr s).get [] = .fin 2 ∧ p.get [] = .fin (-6) := by
  have hv : exLoss.vals = [.fin 2, .fin (-3)] := by
    simp [NDArray.vals, exLoss, allIdx, List.range_succ]
  have hv' : (logArr exLoss).vals = [.fin (Real.log 2), .nan] := by
    have : (logArr exLoss).vals = exLoss.vals.map RFlt.log := by simp [NDArray.vals, logArr, NDArray.map]
    rw [this, hv]
    simp [RFlt.log]
  refine ⟨_, _, rfl, rfl, ?_, ?_⟩
  · show (RFlt.nansum (logArr exLoss).vals).exp = _
    rw [hv']
    simp [RFlt.nansum, RFlt.isNan, RFlt.sum, RFlt.add, RFlt.exp, Real.exp_log]
  · show prodReal exLoss.vals = _
    rw [hv]
    simp [prodReal, RFlt.isNan, RFlt.put, RFlt.mul]
    norm_num

/-! ## An example: 2, 8, 4 and 9, NaN, 1 -/

theorem exLines_amounts : Amounts exLines := fun idx h => by
  rcases exLines_cases idx h with h | h | h | h | h | h <;> rw [h] <;> simp [RFlt.Amount]

example : ∃ s p, sumArr (logArr exLines) (some 1) = .ok s ∧ prodArr exLines (some 1) = .ok p ∧
    (expArr s).get [0] = p.get [0] ∧ p.get [0] = .fin 64 := by
  obtain ⟨s, p, h1, h2, -, -, h4⟩ := C132_sum exLines exLines_amounts (axis := some 1) (ax := some 1) ⟨by decide, .inl rfl⟩
  obtain ⟨s', p', -, h2', h3', h4', h5⟩ := C132_prod exLines (axis := some 1) (ax := some 1) ⟨by decide, .inl rfl⟩
    (fun idx h => by rcases exLines_cases idx h with h | h | h | h | h | h <;> rw [h] <;> trivial)
  rw [h2] at h2'
  cases h2'
  have hn : numbers (walk exLines (some 1) [0]) = [2, 8, 4] := by
    simp only [walk, exLines, List.getD_cons_succ, List.getD_cons_zero, List.range_succ, List.range_zero]
    rfl
  have hb : InB p.shape [0] := by rw [h4', h3']; decide
  have := ((h5 [0] (by rw [← h4']; exact hb)).2 (by rw [hn]; simp)).2
  rw [hn] at this
  refine ⟨s, p, h1, h2, (h4 [0] hb).1, ?_⟩
  rw [this]
  norm_num

example : ∃ s p, cumsumArr (logArr exLines) (some (-1)) = .ok s ∧ cumprodArr exLines (some (-1)) = .ok p ∧
    walk (expArr s) (some 1) [1] = walk p (some 1) [1] := by
  obtain ⟨s, p, h1, h2, -, -, h3⟩ := C132_cumsum exLines exLines_amounts (a := -1) (k := 1) ⟨by decide, .inr rfl⟩
  exact ⟨s, p, h1, h2, (h3 [1] (by decide)).1⟩

example : ∃ m g, meanArr (logArr exLines) none = .ok m ∧ geometricMean exLines none false = .ok g ∧
    (expArr m).get [] = g.get [] := by
  obtain ⟨m, g, h1, h2, -, h4, h5⟩ := C132_mean exLines exLines_amounts (axis := none) (ax := none) trivial
  exact ⟨m, g, h1, h2, (h5 [] (by rw [h4]; trivial)).1⟩

example : ∃ s p, cumsumArr exLines (some 1) = .ok s ∧ cumprodArr exLines (some 1) = .ok p ∧
    (walk s (some 1) [1])[2]? = some (.fin 10) ∧ (walk p (some 1) [1])[1]? = some .nan := by
  obtain ⟨s, p, h1, h2, -, -, h3⟩ := (C132_running exLines
    (fun idx h => by rcases exLines_cases idx h with h | h | h | h | h | h <;> rw [h] <;> trivial)).1 1 1 ⟨by decide, .inl rfl⟩
  have hw : walk exLines (some 1) [1] = [.fin 9, .nan, .fin 1] := by
    simp only [walk, exLines, List.getD_cons_succ, List.getD_cons_zero, List.range_succ, List.range_zero]
    rfl
  have a2 := ((h3 [1] (by decide) 2 (by decide)).2 1 (by rw [hw]; rfl)).1
  have a1 := ((h3 [1] (by decide) 1 (by decide)).1 (by rw [hw]; rfl)).2
  refine ⟨s, p, h1, h2, ?_, a1⟩
  rw [a2, hw]
  have : numbers (List.take (2 + 1) [.fin 9, .nan, .fin 1]) = [9, 1] := rfl
  rw [this]
  norm_num

end La
