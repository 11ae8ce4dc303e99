import Verif.Props.Ranking

/-!
# Property C85: when `lastrank` is the last slice of `ranking`

The documentation of `larry.lastrank` says that "suitably slicing the output of the `ranking` method will
give the same result as `lastrank`" (la/deflarry.py:1590-1593).  The two count differently: `lastrank`
counts the finite values, `ranking` those that are not NaN, and only `ranking` treats a single value
apart.
-/

namespace La
open Larry
variable {L : Type _}

/-- The line ends with NaN; or it ends with a number, holds at least one more, and either it holds no
infinity or all its other values are larger. -/
def LastAgrees (xs : List Flt) : Prop :=
  xs.getLast? = some .nan ∨
  ∃ q, xs.getLast? = some (.fin q) ∧ 2 ≤ (finites xs).length ∧
    (NoInf xs ∨ ∀ x ∈ xs.dropLast, x = .nan ∨ LtX (.fin q) x)

theorem finites_le_present (xs : List Flt) : (finites xs).length ≤ (present xs).length ∧
    ((finites xs).length = (present xs).length ↔ NoInf xs) := by
  induction xs with
  | nil => simp [finites, present, NoInf]
  | cons x xs ih =>
    obtain ⟨h1, h2⟩ := ih
    have hni : NoInf (x :: xs) ↔ (x ≠ .pinf ∧ x ≠ .ninf) ∧ NoInf xs := by simp [NoInf]
    rw [present_cons, hni]
    cases x with
    | nan => rw [finites_cons_nan]; simpa using ⟨h1, h2⟩
    | fin q => rw [finites_cons_fin]; simpa using ⟨h1, h2⟩
    | pinf =>
      have : finites (Flt.pinf :: xs) = finites xs := rfl
      rw [this]; simp; omega
    | ninf =>
      have : finites (Flt.ninf :: xs) = finites xs := rfl
      rw [this]; simp; omega

theorem rank0_last {init : List Flt} {q : ℚ} :
    rank0 (init ++ [.fin q]) (.fin q) = (init.filter (fun y => LtX y (.fin q))).length +
      ((init.filter (fun y => EqX y (.fin q))).length : ℚ) / 2 := by
  unfold rank0
  have h1 : ¬ LtX (.fin q) (.fin q) := LtX.irrefl _
  have h2 : EqX (.fin q) (.fin q) := ⟨rfl, by simp⟩
  simp [h1, h2]

theorem rank0_zero {init : List Flt} {q : ℚ} :
    rank0 (init ++ [.fin q]) (.fin q) = 0 ↔ ∀ x ∈ init, x = .nan ∨ LtX (.fin q) x := by
  rw [rank0_last]
  constructor
  · intro h x hx
    have p1 : (0 : ℚ) ≤ (init.filter (fun y => LtX y (.fin q))).length := by positivity
    have p2 : (0 : ℚ) ≤ ((init.filter (fun y => EqX y (.fin q))).length : ℚ) / 2 := by positivity
    have z1 : (init.filter (fun y => LtX y (.fin q))).length = 0 := by
      have : ((init.filter (fun y => LtX y (.fin q))).length : ℚ) = 0 := by linarith
      exact_mod_cast this
    have z2 : (init.filter (fun y => EqX y (.fin q))).length = 0 := by
      have : ((init.filter (fun y => EqX y (.fin q))).length : ℚ) = 0 := by linarith
      exact_mod_cast this
    rw [List.length_eq_zero_iff, List.filter_eq_nil_iff] at z1 z2
    have n1 : ¬ LtX x (.fin q) := fun hh => z1 x hx (decide_eq_true hh)
    have n2 : ¬ EqX x (.fin q) := fun hh => z2 x hx (decide_eq_true hh)
    cases x with
    | nan => left; rfl
    | pinf => right; simp [LtX]
    | ninf => simp [LtX] at n1
    | fin p =>
      right
      simp [LtX, EqX] at n1 n2 ⊢
      exact lt_of_le_of_ne n1 (Ne.symm n2)
  · intro h
    have z1 : init.filter (fun y => LtX y (.fin q)) = [] := by
      rw [List.filter_eq_nil_iff]
      intro x hx
      rw [decide_eq_true_eq]
      intro hlt'
      rcases h x hx with rfl | hlt
      · exact hlt'
      · rw [← lt_iff] at hlt hlt'
        cases x <;> simp [Flt.lt] at hlt hlt'
        exact absurd hlt (not_lt.mpr hlt'.le)
    have z2 : init.filter (fun y => EqX y (.fin q)) = [] := by
      rw [List.filter_eq_nil_iff]
      intro x hx
      rcases h x hx with rfl | hlt
      · simp only [decide_eq_true_eq]; rintro ⟨hh, _⟩; cases hh
      · simp only [decide_eq_true_eq]
        rintro ⟨rfl, _⟩
        exact LtX.irrefl _ hlt
    rw [z1, z2]; simp

theorem lastrank_fin {vs : List Val} {q : ℚ} (h : (vs.map Val.num).getLast? = some (.fin q)) :
    lastrankLine vs = .flt (Flt.mul (.fin 2) (((Flt.fin (rank0 (vs.map Val.num) (.fin q))).div
      (.fin ((finites (vs.map Val.num)).length - 1))).sub (.fin (1 / 2)))) := by
  simp only [lastrankLine, h, Option.getD_some, length_finites]
  rw [if_pos (show (Flt.fin q).isFinite = true from rfl)]
  have e1 : (fun y : Flt => y.lt (.fin q)) = (fun y => decide (LtX y (.fin q))) := by
    funext y
    exact Bool.eq_iff_iff.mpr (by simp [lt_iff])
  have e2 : (fun y : Flt => (Flt.fin q).eq y) = (fun y => decide (EqX y (.fin q))) := by
    funext y
    rw [eq_comm_fin]
    exact Bool.eq_iff_iff.mpr (by simp [eq_iff])
  rw [e1, e2]
  congr 5
  unfold rank0
  ring

theorem agrees_line {vs : List Val} (hne : vs ≠ []) :
    (rankingLine .pm1 vs).getLast? = some (lastrankLine vs) ↔ LastAgrees (vs.map Val.num) := by
  obtain ⟨hlen, hcell⟩ := rankingLine_pm1 vs
  have hpos : 0 < vs.length := List.length_pos_of_ne_nil hne
  obtain ⟨x, hx⟩ : ∃ x, vs[vs.length - 1]? = some x := ⟨_, List.getElem?_eq_getElem (by omega)⟩
  obtain ⟨w, hw⟩ : ∃ w, (rankingLine .pm1 vs)[vs.length - 1]? = some w := ⟨_, List.getElem?_eq_getElem (by omega)⟩
  obtain ⟨c1, c2, c3⟩ := hcell _ x w hx hw
  have hlast : (rankingLine .pm1 vs).getLast? = some w := by rw [List.getLast?_eq_getElem?, hlen, hw]
  have hxl : (vs.map Val.num).getLast? = some x.num := by
    rw [List.getLast?_eq_getElem?, List.length_map, List.getElem?_map, hx]; rfl
  rw [hlast, Option.some.injEq]
  obtain ⟨hle, hiff⟩ := finites_le_present (vs.map Val.num)
  unfold LastAgrees
  cases hn : x.num with
  | nan =>
    rw [hn] at hxl
    have : lastrankLine vs = .flt .nan := by
      simp only [lastrankLine, hxl, Option.getD_some]
      rw [if_neg (by simp [Flt.isFinite])]
    rw [c1 hn, this]
    simp [hxl]
  | pinf =>
    rw [hn] at hxl
    have : lastrankLine vs = .flt .nan := by
      simp only [lastrankLine, hxl, Option.getD_some]
      rw [if_neg (by simp [Flt.isFinite])]
    rw [this, hxl]
    have hfin : ∃ a, w = .flt (.fin a) := by
      by_cases h1 : (present (vs.map Val.num)).length = 1
      · exact ⟨_, c2 (by rw [hn]; simp) h1⟩
      · exact ⟨_, c3 (by rw [hn]; simp) h1⟩
    obtain ⟨a, rfl⟩ := hfin
    simp
  | ninf =>
    rw [hn] at hxl
    have : lastrankLine vs = .flt .nan := by
      simp only [lastrankLine, hxl, Option.getD_some]
      rw [if_neg (by simp [Flt.isFinite])]
    rw [this, hxl]
    have hfin : ∃ a, w = .flt (.fin a) := by
      by_cases h1 : (present (vs.map Val.num)).length = 1
      · exact ⟨_, c2 (by rw [hn]; simp) h1⟩
      · exact ⟨_, c3 (by rw [hn]; simp) h1⟩
    obtain ⟨a, rfl⟩ := hfin
    simp
  | fin q =>
    have hne' : x.num ≠ .nan := by rw [hn]; simp
    rw [hn] at hxl c3
    obtain ⟨init, hinit⟩ : ∃ init, vs.map Val.num = init ++ [.fin q] := ⟨_, (List.dropLast_append_getLast? _ hxl).symm⟩
    have hq : 1 ≤ (finites (vs.map Val.num)).length := by
      rw [hinit]; simp [finites]
    have hz := rank0_zero (init := init) (q := q)
    rw [← hinit] at hz
    have hdrop : (vs.map Val.num).dropLast = init := by rw [hinit]; simp
    rw [lastrank_fin hxl, hxl, hdrop]
    simp only [Option.some.injEq, reduceCtorEq, false_or, Flt.fin.injEq, exists_eq_left']
    by_cases h2 : 2 ≤ (finites (vs.map Val.num)).length
    · have hc : (present (vs.map Val.num)).length ≠ 1 := by omega
      rw [c3 (by simp) hc]
      have q2 : (2 : ℚ) ≤ ((finites (vs.map Val.num)).length : ℚ) := by exact_mod_cast h2
      have q3 : ((finites (vs.map Val.num)).length : ℚ) ≤ ((present (vs.map Val.num)).length : ℚ) := by exact_mod_cast hle
      have hn0 : ((finites (vs.map Val.num)).length : ℚ) - 1 ≠ 0 := by intro h; linarith
      have hc0 : ((present (vs.map Val.num)).length : ℚ) - 1 ≠ 0 := by intro h; linarith
      simp only [Flt.div, if_neg hn0, Flt.sub, Flt.neg, Flt.add, Flt.mul, Val.flt.injEq, Flt.fin.injEq]
      rw [← hz, ← hiff]
      generalize rank0 (vs.map Val.num) (.fin q) = r at *
      generalize (finites (vs.map Val.num)).length = n at *
      generalize (present (vs.map Val.num)).length = c at *
      constructor
      · intro h
        refine ⟨h2, ?_⟩
        have h' : r / ((c : ℚ) - 1) = r / ((n : ℚ) - 1) := by linarith
        rw [div_eq_div_iff hc0 hn0] at h'
        have : r * ((n : ℚ) - c) = 0 := by linarith
        rcases mul_eq_zero.mp this with h0 | h0
        · exact .inr h0
        · left
          have : (n : ℚ) = c := by linarith
          exact_mod_cast this
      · rintro ⟨_, rfl | rfl⟩
        · ring
        · simp
    · have h1 : (finites (vs.map Val.num)).length = 1 := by omega
      constructor
      · intro h
        exfalso
        have hfin : ∃ a, w = .flt (.fin a) := by
          by_cases h1 : (present (vs.map Val.num)).length = 1
          · exact ⟨_, c2 hne' h1⟩
          · exact ⟨_, c3 (by simp) h1⟩
        obtain ⟨a, rfl⟩ := hfin
        rw [h1] at h
        have : ((1 : ℕ) : ℚ) - 1 = 0 := by norm_num
        rw [this] at h
        simp only [Flt.div, if_true] at h
        rcases lt_trichotomy (rank0 (vs.map Val.num) (.fin q)) 0 with h0 | h0 | h0
        · have : 0 ≤ rank0 (vs.map Val.num) (.fin q) := by rw [hinit, rank0_last]; positivity
          linarith
        · simp [Flt.infOf, h0, Flt.sub, Flt.neg, Flt.add, Flt.mul] at h
        · simp [Flt.infOf, h0.ne', h0, Flt.sub, Flt.neg, Flt.add, Flt.mul] at h
      · rintro ⟨h, _⟩
        exact absurd h h2

/-- C85. What `lastrank` returns in a cell is what `ranking` has there at the last label of the axis,
exactly if the line ends with NaN, or ends with one of at least two numbers and either holds no infinity
or no other value as small. -/
theorem C85_lastrank {y z r : Larry L} (hv : y.Valid) (hd : y.dtype ≠ .str ∧ y.dtype ≠ .object)
    (hsz : y.shape.prod ≠ 0) {axis : Int} {ax : Nat} (hax : pyIdx y.ndim axis = some ax) (h2 : 2 ≤ y.ndim)
    (hz : y.reduce lastrankRed (some axis) = .ok (.larry z)) (hr : y.ranking (some axis) .pm1 = .ok r)
    {l : List L} (hl : y.label[ax]? = some l) {b : L} (hb : l.getLast? = some b)
    {rest : List L} {vs : List Val} (hline : y.LineAt ax rest vs) {v w : Val}
    (hzv : z.Has rest v) (hrw : r.Has (rest.insertIdx ax b) w) :
    v = w ↔ LastAgrees (vs.map Val.num) := by
  have hd' : y.dtype.isNumeric = true := by cases h : y.dtype <;> simp_all [DType.isNumeric]
  have hdt : lastrankRed.dt y.dtype = .ok .float := by simp [lastrankRed, hd']
  obtain ⟨z', e, _, _, hlab, hcell⟩ := C42_reduce_axis lastrankRed hv hdt hsz hax h2
  rw [hz] at e
  cases e
  obtain ⟨hN, vs', hline', rfl⟩ := (hcell rest v).mp hzv
  have hre : r = y.along (rankingLine .pm1) .float ax := by
    simp [ranking, hax, hd'] at hr; exact hr.symm
  subst hre
  rw [hlab] at hN
  obtain ⟨ridx, hat⟩ := At_of_Named hN
  have u1 := Larry.LineAt.unique hv (line_at hv hl hat) hline
  have u2 := Larry.LineAt.unique hv (line_at hv hl hat) hline'
  have huv : vs' = vs := by rw [← u2, u1]
  subst huv
  have hne : vs' ≠ [] := by
    rintro rfl
    obtain ⟨l', hl', hlen, _⟩ := hline
    rw [hl] at hl'
    cases hl'
    have : l = [] := by simpa using hlen.symm
    rw [this] at hb; cases hb
  rw [← agrees_line hne]
  have hal := alongLine_mapLines (S := fun vs ws => ws = rankingLine .pm1 vs) hv hl (rankingLine .pm1) .float
    (fun vs => by simp [rankingLine]) (fun _ => rfl)
  have hzv' : (y.along (rankingLine .pm1) .float ax).Valid := hal.valid
  have hwl := line_at (y := y.along (rankingLine .pm1) .float ax) hzv' hl hat
  have hS := hal.line rest _ _ hN hline' hwl
  obtain ⟨l', hl', hlen, hc⟩ := hwl
  have : l' = l := by
    have : some l' = some l := by rw [← hl', ← hl]; rfl
    simpa using this
  subst this
  rw [← hS, List.getLast?_eq_getElem?, hlen]
  rw [List.getLast?_eq_getElem?] at hb
  have hlpos : l'.length - 1 < l'.length := (List.getElem?_eq_some_iff.mp hb).1
  obtain ⟨u, hu⟩ : ∃ u, ((y.along (rankingLine .pm1) .float ax).x.line ax ridx)[l'.length - 1]? = some u :=
    ⟨_, List.getElem?_eq_getElem (by rw [hlen]; exact hlpos)⟩
  have := Holds_unique hzv'.nodup (hc _ b u hb hu) hrw
  rw [hu, ← this, Option.some.injEq]
  exact ⟨fun h => h.symm, fun h => h.symm⟩

/-- C85. The same for a 1d larry, whose `lastrank` is a scalar. -/
theorem C85_lastrank_1d {y r : Larry L} (hv : y.Valid) (hd : y.dtype ≠ .str ∧ y.dtype ≠ .object)
    (hsz : y.shape.prod ≠ 0) (h1 : y.ndim = 1) {axis : Int} (hax : axis = 0 ∨ axis = -1) {v : Val}
    (hz : y.reduce lastrankRed (some axis) = .ok (.scalar v)) (hr : y.ranking (some axis) .pm1 = .ok r)
    {l : List L} (hl : y.label[0]? = some l) {b : L} (hb : l.getLast? = some b)
    {vs : List Val} (hline : y.LineAt 0 [] vs) {w : Val} (hrw : r.Has [b] w) :
    v = w ↔ LastAgrees (vs.map Val.num) := by
  have hd' : y.dtype.isNumeric = true := by cases h : y.dtype <;> simp_all [DType.isNumeric]
  have hdt : lastrankRed.dt y.dtype = .ok .float := by simp [lastrankRed, hd']
  have hax' : pyIdx y.ndim axis = some 0 := by
    rcases hax with rfl | rfl <;> simp [pyIdx, h1]
  obtain ⟨vs', hline', e⟩ := C42_reduce_1d lastrankRed hv hdt hsz h1 hax
  rw [hz] at e
  cases e
  have hre : r = y.along (rankingLine .pm1) .float 0 := by
    simp [ranking, hax', hd'] at hr; exact hr.symm
  subst hre
  have hlab : y.label.eraseIdx 0 = [] := by
    have : y.label.length = 1 := by rw [hv.label_length]; exact h1
    match hy : y.label, this with
    | [a], _ => rfl
  have hN : Named (y.label.eraseIdx 0) ([] : List L) := by rw [hlab]; trivial
  have hat : At (y.label.eraseIdx 0) [] ([] : List L) := by rw [hlab]; trivial
  have u1 := Larry.LineAt.unique hv (line_at hv hl hat) hline
  have u2 := Larry.LineAt.unique hv (line_at hv hl hat) hline'
  have huv : vs' = vs := by rw [← u2, u1]
  subst huv
  have hne : vs' ≠ [] := by
    rintro rfl
    obtain ⟨l', hl', hlen, _⟩ := hline
    rw [hl] at hl'
    cases hl'
    have : l = [] := by simpa using hlen.symm
    rw [this] at hb; cases hb
  rw [← agrees_line hne]
  have hal := alongLine_mapLines (S := fun vs ws => ws = rankingLine .pm1 vs) hv hl (rankingLine .pm1) .float
    (fun vs => by simp [rankingLine]) (fun _ => rfl)
  have hzv' : (y.along (rankingLine .pm1) .float 0).Valid := hal.valid
  have hwl := line_at (y := y.along (rankingLine .pm1) .float 0) hzv' hl hat
  have hS := hal.line [] _ _ hN hline' hwl
  obtain ⟨l', hl', hlen, hc⟩ := hwl
  have : l' = l := by
    have : some l' = some l := by rw [← hl', ← hl]; rfl
    simpa using this
  subst this
  rw [← hS, List.getLast?_eq_getElem?, hlen]
  rw [List.getLast?_eq_getElem?] at hb
  have hlpos : l'.length - 1 < l'.length := (List.getElem?_eq_some_iff.mp hb).1
  obtain ⟨u, hu⟩ : ∃ u, ((y.along (rankingLine .pm1) .float 0).x.line 0 [])[l'.length - 1]? = some u :=
    ⟨_, List.getElem?_eq_getElem (by rw [hlen]; exact hlpos)⟩
  have := Holds_unique hzv'.nodup (hc _ b u hb hu) hrw
  rw [hu, ← this, Option.some.injEq]
  exact ⟨fun h => h.symm, fun h => h.symm⟩

/-- C85: the sentence of the documentation is false of a line with a single value, and of one with an
infinity. -/
theorem C85_doc_claim :
    ((rankingLine .pm1 [.flt .nan, fl 4]).getLast? = some (fl 0) ∧ lastrankLine [.flt .nan, fl 4] = .flt .nan) ∧
    ((rankingLine .pm1 [fl 1, .flt .pinf, fl 4]).getLast? = some (fl 0) ∧
      lastrankLine [fl 1, .flt .pinf, fl 4] = fl 1) := by
  refine ⟨⟨by decide +kernel, by decide +kernel⟩, by decide +kernel, by decide +kernel⟩

example : exA.Valid ∧ exA.dtype ≠ .str ∧ exA.dtype ≠ .object ∧ exA.shape.prod ≠ 0 ∧ pyIdx exA.ndim (-1) = some 1 ∧
    2 ≤ exA.ndim ∧ LastAgrees [.fin 4, .nan, .fin 6] ∧ LastAgrees [.fin 4, .pinf, .fin 3] ∧
    ¬ LastAgrees [.nan, .fin 4] ∧ exV.Valid ∧ exV.ndim = 1 ∧ exV.shape.prod ≠ 0 := by
  refine ⟨exA_valid, by decide, by decide, by decide, rfl, by decide, .inr ⟨6, rfl, by decide, .inl ?_⟩,
    .inr ⟨3, rfl, by decide, .inr ?_⟩, ?_, exV_valid, rfl, by decide⟩
  · simp [NoInf]
  · simp [LtX]; norm_num
  · rintro (h | ⟨q, _, h, _⟩)
    · simp at h
    · simp [finites] at h

end La
