import Verif.KernelFacts
import Verif.SpecNum
import Verif.Props.Reduce
import Verif.Examples

/-!
# Properties C47, C48: lastrank and ranking
-/

namespace La
open Larry
variable {L : Type _}

theorem count_lt_fin {xs : List Flt} (h : NoInf xs) (q : ℚ) :
    (xs.filter (fun x => x.lt (.fin q))).length = (finites xs).countP (fun p => p < q) := by
  induction xs with
  | nil => rfl
  | cons x xs ih =>
    have ih := ih (fun x hx => h x (List.mem_cons_of_mem _ hx))
    have hx := h x List.mem_cons_self
    cases x with
    | nan => rw [finites_cons_nan, List.filter_cons_of_neg (by simp [Flt.lt]), ih]
    | pinf => exact absurd rfl hx.1
    | ninf => exact absurd rfl hx.2
    | fin p =>
      rw [finites_cons_fin, List.countP_cons, ← ih]
      by_cases hp : p < q
      · rw [List.filter_cons_of_pos (by simp [Flt.lt, hp])]; simp [hp]
      · rw [List.filter_cons_of_neg (by simpa [Flt.lt] using hp)]; simp [hp]

theorem count_eq_fin (xs : List Flt) (q : ℚ) :
    (xs.filter (fun x => x.eq (.fin q))).length = (finites xs).count q := by
  induction xs with
  | nil => rfl
  | cons x xs ih =>
    cases x with
    | nan => rw [finites_cons_nan, List.filter_cons_of_neg (by simp [Flt.eq]), ih]
    | pinf => rw [List.filter_cons_of_neg (by simp [Flt.eq]), ih]; simp [finites]
    | ninf => rw [List.filter_cons_of_neg (by simp [Flt.eq]), ih]; simp [finites]
    | fin p =>
      rw [finites_cons_fin, List.count_cons, ← ih]
      by_cases hp : p = q
      · rw [List.filter_cons_of_pos (by simp [Flt.eq, hp])]; simp [hp]
      · rw [List.filter_cons_of_neg (by simpa [Flt.eq] using hp)]; simp [hp]

theorem eq_comm_fin (q : ℚ) (x : Flt) : (Flt.fin q).eq x = x.eq (.fin q) := by
  cases x <;> simp [Flt.eq, eq_comm]

theorem length_finites (xs : List Flt) : (xs.filter Flt.isFinite).length = (finites xs).length := by
  induction xs with
  | nil => rfl
  | cons x xs ih =>
    cases x with
    | fin q =>
      rw [finites_cons_fin, List.filter_cons_of_pos (by rfl), List.length_cons, List.length_cons, ih]
    | _ =>
      rw [List.filter_cons_of_neg (by simp [Flt.isFinite]), ih]
      simp [finites]

/-! ## C47: lastrank -/

/-- The rank of `q` among `qs` (ties count half), scaled to `[-1, 1]`. -/
def scaledRank (qs : List ℚ) (q : ℚ) : ℚ :=
  2 * ((qs.countP (fun p => p < q) + ((qs.count q : ℚ) - 1) / 2) / ((qs.length : ℚ) - 1)) - 1

/-- What `lastrank` is to make of a line: the scaled rank of its last value among the finite values;
NaN when the last value is NaN or the only finite one. -/
def LastRanked (vs : List Val) (v : Val) : Prop :=
  (∀ q, (vs.map Val.num).getLast? = some (.fin q) → 2 ≤ (finites (vs.map Val.num)).length →
    v = .flt (.fin (scaledRank (finites (vs.map Val.num)) q))) ∧
  ((vs.map Val.num).getLast? = some .nan → v = .flt .nan) ∧
  ((finites (vs.map Val.num)).length ≤ 1 → v = .flt .nan)

theorem lastrank_line (vs : List Val) (hne : vs ≠ []) (hinf : NoInf (vs.map Val.num)) :
    LastRanked vs (lastrankLine vs) := by
  generalize hxs : vs.map Val.num = xs at *
  have hne' : xs ≠ [] := by rw [← hxs]; simpa using hne
  obtain ⟨last, hlast⟩ : ∃ f, xs.getLast? = some f := ⟨_, List.getLast?_eq_some_getLast hne'⟩
  unfold LastRanked
  rw [hxs]
  simp only [lastrankLine, hxs, hlast, Option.getD_some]
  cases last with
  | nan =>
    refine ⟨fun q h => by simp at h, fun _ => ?_, fun _ => ?_⟩ <;> simp [Flt.isFinite]
  | pinf => exact absurd rfl (hinf _ (List.mem_of_getLast? hlast)).1
  | ninf => exact absurd rfl (hinf _ (List.mem_of_getLast? hlast)).2
  | fin q =>
    have hmem : q ∈ finites xs := by
      simp only [finites, List.mem_filterMap]
      exact ⟨_, List.mem_of_getLast? hlast, rfl⟩
    have hpos : 1 ≤ (finites xs).length := List.length_pos_of_mem hmem
    have e1 := count_lt_fin hinf q
    have e2 : (xs.filter (fun x => (Flt.fin q).eq x)).length = (finites xs).count q := by
      rw [← count_eq_fin]; simp only [eq_comm_fin]
    have e3 := length_finites xs
    simp only [e1, e2, e3, Flt.isFinite, if_true]
    refine ⟨fun q' hq' h2 => ?_, fun h => by simp at h, fun h1 => ?_⟩
    · simp only [Option.some.injEq, Flt.fin.injEq] at hq'
      subst hq'
      have hn : ((finites xs).length : ℚ) - 1 ≠ 0 := by
        have : (2 : ℚ) ≤ ((finites xs).length : ℚ) := by exact_mod_cast h2
        intro h; linarith
      simp only [Flt.div, if_neg hn, Flt.sub, Flt.neg, Flt.add, Flt.mul, scaledRank, Val.flt.injEq, Flt.fin.injEq]
      field_simp
      ring
    · have hlen : (finites xs).length = 1 := by omega
      obtain ⟨p, hp⟩ := List.length_eq_one_iff.mp hlen
      have hpq : p = q := by rw [hp] at hmem; exact (List.mem_singleton.mp hmem).symm
      subst hpq
      simp [hp, Flt.div, Flt.infOf, Flt.sub, Flt.neg, Flt.add, Flt.mul]

/-- C47. `lastrank` along an axis. -/
theorem C47_lastrank {y : Larry L} (hv : y.Valid) (hd : y.dtype ≠ .str ∧ y.dtype ≠ .object)
    (hsz : y.shape.prod ≠ 0) {axis : Int} {ax : Nat} (hax : pyIdx y.ndim axis = some ax)
    (h2 : 2 ≤ y.ndim) :
    ∃ z, y.reduce lastrankRed (some axis) = .ok (.larry z) ∧ z.Valid ∧ z.dtype = .float ∧
      z.label = y.label.eraseIdx ax ∧
      ∀ rest v, z.Has rest v → ∃ vs, y.LineAt ax rest vs ∧ (NoInf (vs.map Val.num) → LastRanked vs v) := by
  have hd' : lastrankRed.dt y.dtype = .ok .float := by
    cases h : y.dtype <;> simp_all [lastrankRed, DType.isNumeric]
  obtain ⟨z, h1, hz, hzd, hzl, hh⟩ := C42_reduce_axis lastrankRed hv hd' hsz hax h2
  refine ⟨z, h1, hz, hzd, hzl, fun rest v hr => ?_⟩
  obtain ⟨_, vs, hline, rfl⟩ := (hh rest v).mp hr
  refine ⟨vs, hline, fun hinf => lastrank_line vs ?_ hinf⟩
  rintro rfl
  obtain ⟨l, hl, hlen, _⟩ := hline
  have : l.length ∈ y.shape := by
    have : y.shape = y.label.map List.length := hv.shape_eq
    rw [this]; exact List.mem_map_of_mem (List.mem_of_getElem? hl)
  simp at hlen
  rw [← hlen] at this
  exact hsz (prod_eq_zero_of_mem this)

/-- C47. A 1d larry gives a scalar. -/
theorem C47_lastrank_1d {y : Larry L} (hv : y.Valid) (hd : y.dtype ≠ .str ∧ y.dtype ≠ .object)
    (hsz : y.shape.prod ≠ 0) {axis : Int} (h1 : y.ndim = 1) (hax : axis = 0 ∨ axis = -1) :
    ∃ vs v, y.LineAt 0 [] vs ∧ y.reduce lastrankRed (some axis) = .ok (.scalar v) ∧
      (NoInf (vs.map Val.num) → LastRanked vs v) := by
  have hd' : lastrankRed.dt y.dtype = .ok .float := by
    cases h : y.dtype <;> simp_all [lastrankRed, DType.isNumeric]
  obtain ⟨vs, hline, h⟩ := C42_reduce_1d lastrankRed hv hd' hsz h1 hax
  refine ⟨vs, _, hline, h, fun hinf => lastrank_line vs ?_ hinf⟩
  rintro rfl
  obtain ⟨l, hl, hlen, _⟩ := hline
  have : l.length ∈ y.shape := by
    have : y.shape = y.label.map List.length := hv.shape_eq
    rw [this]; exact List.mem_map_of_mem (List.mem_of_getElem? hl)
  simp at hlen
  rw [← hlen] at this
  exact hsz (prod_eq_zero_of_mem this)

theorem countP_add_count_le (qs : List ℚ) (q : ℚ) : qs.countP (fun p => p < q) + qs.count q ≤ qs.length := by
  induction qs with
  | nil => simp
  | cons p qs ih =>
    rw [List.countP_cons, List.count_cons, List.length_cons]
    by_cases h1 : p < q
    · have : p ≠ q := ne_of_lt h1
      simp [h1, this]; omega
    · by_cases h2 : p = q <;> simp [h1, h2] <;> omega

/-- C47. The scaled rank of a member is in `[-1, 1]`. -/
theorem C47_range (qs : List ℚ) (q : ℚ) (hq : q ∈ qs) (h2 : 2 ≤ qs.length) :
    -1 ≤ scaledRank qs q ∧ scaledRank qs q ≤ 1 := by
  have h1 : 1 ≤ qs.count q := List.count_pos_iff.mpr hq
  have h3 := countP_add_count_le qs q
  have c1 : (1 : ℚ) ≤ (qs.count q : ℚ) := by exact_mod_cast h1
  have c2 : (2 : ℚ) ≤ (qs.length : ℚ) := by exact_mod_cast h2
  have c3 : ((qs.countP (fun p => p < q) : ℚ)) + (qs.count q : ℚ) ≤ (qs.length : ℚ) := by exact_mod_cast h3
  have c4 : (0 : ℚ) ≤ (qs.countP (fun p => p < q) : ℚ) := by positivity
  unfold scaledRank
  constructor
  · have : 0 ≤ (((qs.countP (fun p => p < q) : ℚ)) + ((qs.count q : ℚ) - 1) / 2) / ((qs.length : ℚ) - 1) :=
      div_nonneg (by linarith) (by linarith)
    linarith
  · have : (((qs.countP (fun p => p < q) : ℚ)) + ((qs.count q : ℚ) - 1) / 2) / ((qs.length : ℚ) - 1) ≤ 1 := by
      rw [div_le_one (by linarith)]; linarith
    linarith

/-- C47. It is -1 exactly for a unique minimum. -/
theorem C47_minimum (qs : List ℚ) (q : ℚ) (hq : q ∈ qs) (h2 : 2 ≤ qs.length) :
    scaledRank qs q = -1 ↔ qs.count q = 1 ∧ ∀ p ∈ qs, q ≤ p := by
  have h1 : 1 ≤ qs.count q := List.count_pos_iff.mpr hq
  have c1 : (1 : ℚ) ≤ (qs.count q : ℚ) := by exact_mod_cast h1
  have c2 : (2 : ℚ) ≤ (qs.length : ℚ) := by exact_mod_cast h2
  have c4 : (0 : ℚ) ≤ (qs.countP (fun p => p < q) : ℚ) := by positivity
  have hn : (qs.length : ℚ) - 1 ≠ 0 := by intro h; linarith
  have e0 : (∀ p ∈ qs, q ≤ p) ↔ qs.countP (fun p => p < q) = 0 := by
    rw [List.countP_eq_zero]; simp
  rw [e0]
  unfold scaledRank
  constructor
  · intro h
    have h' : (((qs.countP (fun p => p < q) : ℚ)) + ((qs.count q : ℚ) - 1) / 2) = 0 := by
      have : (((qs.countP (fun p => p < q) : ℚ)) + ((qs.count q : ℚ) - 1) / 2) / ((qs.length : ℚ) - 1) = 0 := by linarith
      rcases div_eq_zero_iff.mp this with h | h
      · exact h
      · exact absurd h hn
    have a1 : (qs.count q : ℚ) = 1 := by linarith
    have a2 : (qs.countP (fun p => p < q) : ℚ) = 0 := by linarith
    exact ⟨by exact_mod_cast a1, by exact_mod_cast a2⟩
  · rintro ⟨h, h'⟩
    rw [h, h']; simp

/-- C47. It is 1 exactly for a unique maximum. -/
theorem C47_maximum (qs : List ℚ) (q : ℚ) (hq : q ∈ qs) (h2 : 2 ≤ qs.length) :
    scaledRank qs q = 1 ↔ qs.count q = 1 ∧ ∀ p ∈ qs, p ≤ q := by
  have h1 : 1 ≤ qs.count q := List.count_pos_iff.mpr hq
  have h3 := countP_add_count_le qs q
  have c1 : (1 : ℚ) ≤ (qs.count q : ℚ) := by exact_mod_cast h1
  have c2 : (2 : ℚ) ≤ (qs.length : ℚ) := by exact_mod_cast h2
  have c3 : ((qs.countP (fun p => p < q) : ℚ)) + (qs.count q : ℚ) ≤ (qs.length : ℚ) := by exact_mod_cast h3
  have hn : (qs.length : ℚ) - 1 ≠ 0 := by intro h; linarith
  have e0 : (∀ p ∈ qs, p ≤ q) ↔ qs.countP (fun p => p < q) + qs.count q = qs.length := by
    clear hq h2 h1 h3 c1 c2 c3 hn
    induction qs with
    | nil => simp
    | cons p qs ih =>
      have h3 := countP_add_count_le qs q
      rw [List.countP_cons, List.count_cons, List.length_cons, List.forall_mem_cons, ih]
      by_cases h1 : p < q
      · have : p ≠ q := ne_of_lt h1
        simp [h1, this, le_of_lt h1]; omega
      · by_cases h2 : p = q
        · simp [h2]; omega
        · have : ¬ p ≤ q := fun h => h1 (lt_of_le_of_ne h h2)
          simp [h1, h2, this]; omega
  rw [e0]
  unfold scaledRank
  constructor
  · intro h
    have h' : (((qs.countP (fun p => p < q) : ℚ)) + ((qs.count q : ℚ) - 1) / 2) = (qs.length : ℚ) - 1 := by
      have : (((qs.countP (fun p => p < q) : ℚ)) + ((qs.count q : ℚ) - 1) / 2) / ((qs.length : ℚ) - 1) = 1 := by linarith
      rwa [div_eq_one_iff_eq hn] at this
    have a1 : (qs.count q : ℚ) = 1 := by linarith
    have a2 : (qs.countP (fun p => p < q) : ℚ) + (qs.count q : ℚ) = qs.length := by linarith
    exact ⟨by exact_mod_cast a1, by exact_mod_cast a2⟩
  · rintro ⟨h, h'⟩
    have a2 : (qs.countP (fun p => p < q) : ℚ) + (qs.count q : ℚ) = qs.length := by exact_mod_cast h'
    have a1 : (qs.count q : ℚ) = 1 := by exact_mod_cast h
    rw [← a2, a1]
    have : ((qs.countP (fun p => p < q) : ℚ)) ≠ 0 := by
      intro h0; rw [h0, a1] at a2; rw [← a2] at hn; simp at hn
    have e : ((qs.countP (fun p => p < q) : ℚ)) + (1 - 1) / 2 = (qs.countP (fun p => p < q) : ℚ) + 1 - 1 := by ring
    rw [e, div_self (by simpa using this)]
    norm_num

theorem wsum_snoc (p : Flt → Bool) (xs : List Flt) (w : List ℚ) (x : Flt) (a : ℚ) (h : xs.length = w.length) :
    wsum p (xs ++ [x]) (w ++ [a]) = wsum p xs w + (if p x then a else 0) := by
  simp [wsum, List.zipWith_append h]

theorem wsum_cons (p : Flt → Bool) (x : Flt) (xs : List Flt) (a : ℚ) (w : List ℚ) :
    wsum p (x :: xs) (a :: w) = (if p x then a else 0) + wsum p xs w := by
  simp [wsum]

theorem wsum_bounds {xs : List Flt} (hinf : NoInf xs) (w : List ℚ) (hw : ∀ a ∈ w, 0 < a) (q : ℚ) :
    0 ≤ wsum (fun x => x.lt (.fin q)) xs w ∧ 0 ≤ wsum (fun x => (Flt.fin q).eq x) xs w ∧
    wsum (fun x => x.lt (.fin q)) xs w + wsum (fun x => (Flt.fin q).eq x) xs w ≤ wsum Flt.isFinite xs w := by
  induction xs generalizing w with
  | nil => simp [wsum]
  | cons x xs ih =>
    cases w with
    | nil => simp [wsum]
    | cons a w =>
      obtain ⟨i1, i2, i3⟩ := ih (fun x hx => hinf x (List.mem_cons_of_mem _ hx)) w
        (fun b hb => hw b (List.mem_cons_of_mem _ hb))
      have ha := hw a List.mem_cons_self
      have hx := hinf x List.mem_cons_self
      rw [wsum_cons, wsum_cons, wsum_cons]
      generalize wsum (fun x => x.lt (.fin q)) xs w = g at *
      generalize wsum (fun x => (Flt.fin q).eq x) xs w = e at *
      generalize wsum Flt.isFinite xs w = n at *
      cases x with
      | pinf => exact absurd rfl hx.1
      | ninf => exact absurd rfl hx.2
      | nan => simp [Flt.lt, Flt.eq, Flt.isFinite]; exact ⟨i1, i2, i3⟩
      | fin p =>
        have hf : (Flt.fin p).isFinite = true := rfl
        rw [if_pos hf]
        by_cases h1 : p < q
        · have e1 : (Flt.fin p).lt (.fin q) = true := by simp [Flt.lt, h1]
          have e2 : ¬ (Flt.fin q).eq (.fin p) = true := by simp [Flt.eq, (ne_of_lt h1).symm]
          rw [if_pos e1, if_neg e2]
          exact ⟨by linarith, by linarith, by linarith⟩
        · have e1 : ¬ (Flt.fin p).lt (.fin q) = true := by simpa [Flt.lt] using h1
          rw [if_neg e1]
          split <;> exact ⟨by linarith, by linarith, by linarith⟩

theorem wsum_pos {xs : List Flt} (w : List ℚ) (hlen : xs.length = w.length) (hw : ∀ a ∈ w, 0 < a)
    (h : 1 ≤ (finites xs).length) : 0 < wsum Flt.isFinite xs w := by
  have hnn : ∀ (xs : List Flt) (w : List ℚ), (∀ a ∈ w, 0 < a) → 0 ≤ wsum Flt.isFinite xs w := by
    intro xs
    induction xs with
    | nil => simp [wsum]
    | cons x xs ih =>
      intro w hw
      cases w with
      | nil => simp [wsum]
      | cons a w =>
        have := ih w (fun b hb => hw b (List.mem_cons_of_mem _ hb))
        have ha := hw a List.mem_cons_self
        simp only [wsum, List.zipWith_cons_cons, List.sum_cons] at *
        split <;> linarith
  induction xs generalizing w with
  | nil => simp [finites] at h
  | cons x xs ih =>
    cases w with
    | nil => simp at hlen
    | cons a w =>
      have ha := hw a List.mem_cons_self
      have hw' : ∀ a ∈ w, 0 < a := fun b hb => hw b (List.mem_cons_of_mem _ hb)
      have h0 := hnn xs w hw'
      rw [wsum_cons]
      cases x with
      | fin p => rw [if_pos (show (Flt.fin p).isFinite = true from rfl)]; linarith
      | _ =>
        have := ih w (by simpa using hlen) hw' (by simpa [finites] using h)
        rw [if_neg (by simp [Flt.isFinite])]; linarith

/-- C47. With a decay (any positive weights) the result is still in `[-1, 1]` when the last value is
finite and not the only one, and NaN when it is NaN. -/
theorem C47_decay (w : List ℚ) (hw : ∀ a ∈ w, 0 < a) (vs : List Val) (hlen : vs.length = w.length)
    (hinf : NoInf (vs.map Val.num)) :
    (∀ q, (vs.map Val.num).getLast? = some (.fin q) → 2 ≤ (finites (vs.map Val.num)).length →
      ∃ r : ℚ, lastrankDecayLine w vs = .flt (.fin r) ∧ -1 ≤ r ∧ r ≤ 1) ∧
    ((vs.map Val.num).getLast? = some .nan → lastrankDecayLine w vs = .flt .nan) := by
  constructor
  · intro q hq h2
    simp only [lastrankDecayLine, hq, Option.getD_some]
    generalize hxs : vs.map Val.num = xs at *
    have hxl : xs.length = w.length := by rw [← hxs]; simpa using hlen
    obtain ⟨init, rfl⟩ : ∃ init, xs = init ++ [.fin q] := ⟨_, (List.dropLast_append_getLast? _ hq).symm⟩
    have hwne : w ≠ [] := by rintro rfl; simp at hxl
    obtain ⟨winit, wl, rfl⟩ : ∃ winit wl, w = winit ++ [wl] :=
      ⟨_, _, (List.dropLast_append_getLast hwne).symm⟩
    have hil : init.length = winit.length := by simpa using hxl
    have hwi : ∀ a ∈ winit, 0 < a := fun a ha => hw a (List.mem_append_left _ ha)
    have hii : NoInf init := fun x hx => hinf x (List.mem_append_left _ hx)
    have hfin : finites (init ++ [.fin q]) = finites init ++ [q] := by simp [finites]
    have h1 : 1 ≤ (finites init).length := by rw [hfin] at h2; simpa using h2
    obtain ⟨b1, b2, b3⟩ := wsum_bounds hii winit hwi q
    have b4 := wsum_pos winit hil hwi h1
    have f1 : ¬ (Flt.fin q).lt (.fin q) = true := by simp [Flt.lt]
    have f2 : (Flt.fin q).eq (.fin q) = true := by simp [Flt.eq]
    have f3 : (Flt.fin q).isFinite = true := rfl
    rw [if_pos f3]
    simp only [wsum_snoc _ _ _ _ _ hil, if_neg f1, if_pos f2, if_pos f3,
      List.getLast?_append, List.getLast?_singleton, Option.some_or, Option.getD_some, add_zero]
    generalize wsum (fun x => x.lt (.fin q)) init winit = g at *
    generalize wsum (fun x => (Flt.fin q).eq x) init winit = e' at *
    generalize wsum Flt.isFinite init winit = n at *
    have hn : n + wl - wl ≠ 0 := by linarith
    refine ⟨2 * ((g + g + (e' + wl) - wl) / 2 / (n + wl - wl) - 1 / 2), ?_, ?_, ?_⟩
    · simp only [Flt.div, if_neg hn, Flt.sub, Flt.neg, Flt.add, Flt.mul]
      simp only [sub_eq_add_neg]
    · have : 0 ≤ (g + g + (e' + wl) - wl) / 2 / (n + wl - wl) := div_nonneg (by linarith) (by linarith)
      linarith
    · have : (g + g + (e' + wl) - wl) / 2 / (n + wl - wl) ≤ 1 := by
        rw [div_le_one (by linarith)]; linarith
      linarith
  · intro h
    simp [lastrankDecayLine, h, Flt.isFinite]

example : exA.Valid ∧ exA.dtype ≠ .str ∧ exA.dtype ≠ .object ∧ exA.shape.prod ≠ 0 ∧ pyIdx exA.ndim 1 = some 1 ∧
    2 ≤ exA.ndim ∧ NoInf ([fl 4, .flt .nan, fl 6].map Val.num) ∧
    LastRanked [fl 4, .flt .nan, fl 6] (fl 1) :=
  ⟨exA_valid, by decide, by decide, by decide, rfl, by decide, by simp [NoInf, fl, Val.num],
    by
      have h := (lastrank_line [fl 4, .flt .nan, fl 6] (by simp) (by simp [NoInf, fl, Val.num]))
      have e : lastrankLine [fl 4, .flt .nan, fl 6] = fl 1 := by
        rw [h.1 6 rfl (by decide)]
        have : scaledRank (finites (List.map Val.num [fl 4, Val.flt Flt.nan, fl 6])) 6 = 1 := by decide +kernel
        rw [this, fl]
      rw [e] at h; exact h⟩

/-! ## C48: ranking -/

/-- The numbers of a line that are not NaN. -/
def present (xs : List Flt) : List Flt := xs.filter (fun x => x ≠ .nan)

/-- Zero-based rank of `x` in a line; ties share the mean of their ranks. -/
def rank0 (xs : List Flt) (x : Flt) : ℚ :=
  (xs.filter (fun y => LtX y x)).length + (((xs.filter (fun y => EqX y x)).length : ℚ) - 1) / 2

/-- A line `ws` of ranks of the line `vs`, spread over `[lo, hi]`: NaN for NaN; `mid` for a single value;
else the rank scaled to the range. -/
def RankedLine (lo hi mid : ℚ) (vs ws : List Val) : Prop :=
  ws.length = vs.length ∧ ∀ (i : Nat) x w, vs[i]? = some x → ws[i]? = some w →
    (x.num = .nan → w = .flt .nan) ∧
    (x.num ≠ .nan → (present (vs.map Val.num)).length = 1 → w = .flt (.fin mid)) ∧
    (x.num ≠ .nan → (present (vs.map Val.num)).length ≠ 1 →
      w = .flt (.fin (lo + (hi - lo) * (rank0 (vs.map Val.num) x.num /
        (((present (vs.map Val.num)).length : ℚ) - 1)))))

theorem present_cons (y : Flt) (xs : List Flt) :
    (present (y :: xs)).length = (present xs).length + if y = .nan then 0 else 1 := by
  by_cases h : y = .nan <;> simp [present, h]

theorem rank_le (xs : List Flt) (x : Flt) :
    (xs.filter (fun y => LtX y x)).length + (xs.filter (fun y => EqX y x)).length ≤ (present xs).length := by
  induction xs with
  | nil => simp
  | cons y xs ih =>
    rw [present_cons]
    by_cases h1 : LtX y x
    · have h2 : ¬ EqX y x := fun h => by rw [h.1] at h1; exact LtX.irrefl _ h1
      rw [List.filter_cons_of_pos (by simpa using h1), List.filter_cons_of_neg (by simpa using h2),
        if_neg (LtX.ne_nan h1).1, List.length_cons]
      omega
    · rw [List.filter_cons_of_neg (by simpa using h1)]
      by_cases h2 : EqX y x
      · rw [List.filter_cons_of_pos (by simpa using h2), if_neg h2.2, List.length_cons]; omega
      · rw [List.filter_cons_of_neg (by simpa using h2)]; omega

theorem nanrank_eq (xs : List Flt) {x : Flt} (h : x ≠ .nan) : nanrank xs x = .fin (rank0 xs x + 1) := by
  have h' : x.isNan = false := by cases x <;> simp_all [Flt.isNan]
  simp only [nanrank, h', Bool.false_eq_true, if_false, rank0]
  have e1 : (fun y : Flt => y.lt x) = (fun y => decide (LtX y x)) := by
    funext y
    exact Bool.eq_iff_iff.mpr (by simp [lt_iff])
  have e2 : (fun y : Flt => y.eq x) = (fun y => decide (EqX y x)) := by
    funext y
    exact Bool.eq_iff_iff.mpr (by simp [eq_iff])
  rw [e1, e2]
  congr 1
  ring

theorem present_eq (xs : List Flt) : xs.filter (fun x => !x.isNan) = present xs := by
  have : (fun x : Flt => !x.isNan) = (fun x => decide (x ≠ .nan)) := by
    funext x; cases x <;> simp [Flt.isNan]
  rw [this, present]

theorem self_mem_eq {xs : List Flt} {x : Flt} (h : x ∈ xs) (hn : x ≠ .nan) :
    1 ≤ (xs.filter (fun y => EqX y x)).length :=
  List.length_pos_of_mem (a := x) (by simp [h, EqX, hn])

theorem rankingLine_spec (norm : RankNorm) (lo hi mid : Nat → ℚ)
    (hmid : ∀ n, norm.middle n = .fin (mid n))
    (hnan : ∀ n c, norm.scale n c .nan = .nan)
    (hscale : ∀ (n c : Nat) (r : ℚ), c ≠ 1 → norm.scale n c (.fin (r + 1)) =
      .fin (lo n + (hi n - lo n) * (r / ((c : ℚ) - 1)))) (vs : List Val) :
    RankedLine (lo vs.length) (hi vs.length) (mid vs.length) vs (rankingLine norm vs) := by
  refine ⟨by simp [rankingLine], fun i x w hx hw => ?_⟩
  simp only [rankingLine, List.map_map, List.getElem?_map, hx, Option.map_some, Option.some.injEq,
    Function.comp_apply] at hw
  rw [present_eq, List.length_map] at hw
  subst hw
  refine ⟨fun h => ?_, fun h h1 => ?_, fun h h1 => ?_⟩
  · simp [h, Flt.isNan, nanrank, hnan]
  · have : x.num.isNan = false := by cases hx : x.num <;> simp_all [Flt.isNan]
    simp [h1, this, hmid]
  · simp only [h1, false_and, if_false]
    rw [nanrank_eq _ h, hscale _ _ _ h1]

theorem rankingLine_pm1 (vs : List Val) : RankedLine (-1) 1 0 vs (rankingLine .pm1 vs) := by
  refine rankingLine_spec .pm1 (fun _ => -1) (fun _ => 1) (fun _ => 0) (fun _ => rfl) (fun n c => rfl) ?_ vs
  intro n c r hc
  have : (c : ℚ) - 1 ≠ 0 := by
    intro h
    have : (c : ℚ) = 1 := by linarith
    exact hc (by exact_mod_cast this)
  simp only [RankNorm.scale, Flt.sub, Flt.neg, Flt.add, Flt.div, if_neg this, Flt.mul]
  congr 1
  field_simp
  ring

/-- C48. `ranking(axis, norm='-1,1')`: along the axis NaN stays NaN, a single value becomes 0, the
others their rank scaled to `[-1, 1]`. -/
theorem C48_ranking {y : Larry L} (hv : y.Valid) (hd : y.dtype ≠ .str ∧ y.dtype ≠ .object)
    {axis : Int} {ax : Nat} (hax : pyIdx y.ndim axis = some ax) :
    ∃ z, y.ranking (some axis) .pm1 = .ok z ∧ z.dtype = .float ∧ y.AlongLine z ax (RankedLine (-1) 1 0) := by
  obtain ⟨l, hl, _⟩ := label_at hv hax
  have hd' : y.dtype.isNumeric = true := by cases h : y.dtype <;> simp_all [DType.isNumeric]
  refine ⟨y.along (rankingLine .pm1) .float ax, by simp [ranking, hax, hd'], rfl,
    alongLine_mapLines hv hl _ _ (fun vs => by simp [rankingLine]) fun vs => ?_⟩
  exact rankingLine_pm1 vs

theorem rankingLine_n1 (vs : List Val) :
    RankedLine 0 ((vs.length : ℚ) - 1) (((vs.length : ℚ) - 1) / 2) vs (rankingLine .n1 vs) := by
  refine rankingLine_spec .n1 (fun _ => 0) (fun n => (n : ℚ) - 1) (fun n => ((n : ℚ) - 1) / 2)
    (fun n => by simp only [RankNorm.middle]; congr 1; ring) (fun n c => rfl) ?_ vs
  intro n c r hc
  have : (c : ℚ) - 1 ≠ 0 := by
    intro h
    have : (c : ℚ) = 1 := by linarith
    exact hc (by exact_mod_cast this)
  simp only [RankNorm.scale, Flt.sub, Flt.neg, Flt.add, Flt.div, if_neg this, Flt.mul]
  congr 1
  field_simp
  ring

/-- C48. `ranking(axis, norm='0,N-1')`: the ranks are spread over `[0, N-1]`. -/
theorem C48_ranking_n1 {y : Larry L} (hv : y.Valid) (hd : y.dtype ≠ .str ∧ y.dtype ≠ .object)
    {axis : Int} {ax : Nat} (hax : pyIdx y.ndim axis = some ax) :
    ∃ z, y.ranking (some axis) .n1 = .ok z ∧ z.dtype = .float ∧
      y.AlongLine z ax (fun vs ws => RankedLine 0 ((vs.length : ℚ) - 1) (((vs.length : ℚ) - 1) / 2) vs ws) := by
  obtain ⟨l, hl, _⟩ := label_at hv hax
  have hd' : y.dtype.isNumeric = true := by cases h : y.dtype <;> simp_all [DType.isNumeric]
  refine ⟨y.along (rankingLine .n1) .float ax, by simp [ranking, hax, hd'], rfl,
    alongLine_mapLines hv hl _ _ (fun vs => by simp [rankingLine]) fun vs => ?_⟩
  exact rankingLine_n1 vs

/-- C48. `ranking(axis=None)` ranks all elements together. -/
theorem C48_ranking_all {y : Larry L} (hv : y.Valid) (hd : y.dtype ≠ .str ∧ y.dtype ≠ .object) :
    ∃ z, y.ranking none .pm1 = .ok z ∧ z.dtype = .float ∧ y.AlongAllLine z (RankedLine (-1) 1 0) := by
  have hd' : y.dtype.isNumeric = true := by cases h : y.dtype <;> simp_all [DType.isNumeric]
  refine ⟨y.alongAll (rankingLine .pm1) .float, by simp [ranking, hd'], rfl,
    alongAllLine_spec hv _ _ (fun vs => by simp [rankingLine]) fun vs => ?_⟩
  exact rankingLine_pm1 vs

/-- C48. The same over all elements with norm '0,N-1'. -/
theorem C48_ranking_n1_all {y : Larry L} (hv : y.Valid) (hd : y.dtype ≠ .str ∧ y.dtype ≠ .object) :
    ∃ z, y.ranking none .n1 = .ok z ∧ z.dtype = .float ∧
      y.AlongAllLine z (fun vs ws => RankedLine 0 ((vs.length : ℚ) - 1) (((vs.length : ℚ) - 1) / 2) vs ws) := by
  have hd' : y.dtype.isNumeric = true := by cases h : y.dtype <;> simp_all [DType.isNumeric]
  exact ⟨y.alongAll (rankingLine .n1) .float, by simp [ranking, hd'], rfl,
    alongAllLine_spec hv _ _ (fun vs => by simp [rankingLine]) fun vs => rankingLine_n1 vs⟩

/-- C48. The gaussian norm hands `ndtri` a probability strictly between 0 and 1. -/
theorem C48_gaussian (ndtri : Flt → Flt) (vs : List Val) (i : Nat) (x : Val) (hx : vs[i]? = some x)
    (hn : x.num ≠ .nan) (h1 : (present (vs.map Val.num)).length ≠ 1) :
    ∃ p : ℚ, 0 < p ∧ p < 1 ∧ (rankingLine (.gaussian ndtri) vs)[i]? = some (.flt (ndtri (.fin p))) := by
  have hmem : x.num ∈ vs.map Val.num := List.mem_map_of_mem (List.mem_of_getElem? hx)
  have hle := rank_le (vs.map Val.num) x.num
  have heq := self_mem_eq hmem hn
  have hc : 2 ≤ (present (vs.map Val.num)).length := by omega
  have hcN : (present (vs.map Val.num)).length ≤ vs.length := by
    have := List.length_filter_le (fun x : Flt => decide (x ≠ .nan)) (vs.map Val.num)
    simpa [present] using this
  have q1 : (2 : ℚ) ≤ ((present (vs.map Val.num)).length : ℚ) := by exact_mod_cast hc
  have q2 : ((present (vs.map Val.num)).length : ℚ) ≤ (vs.length : ℚ) := by exact_mod_cast hcN
  have r0 : 0 ≤ rank0 (vs.map Val.num) x.num := by
    have : (1 : ℚ) ≤ (((vs.map Val.num).filter (fun y => EqX y x.num)).length : ℚ) := by exact_mod_cast heq
    have : (0 : ℚ) ≤ (((vs.map Val.num).filter (fun y => LtX y x.num)).length : ℚ) := by positivity
    unfold rank0; linarith
  have r1 : rank0 (vs.map Val.num) x.num ≤ ((present (vs.map Val.num)).length : ℚ) - 1 := by
    have a1 : (1 : ℚ) ≤ (((vs.map Val.num).filter (fun y => EqX y x.num)).length : ℚ) := by exact_mod_cast heq
    have a2 : ((((vs.map Val.num).filter (fun y => LtX y x.num)).length : ℚ) +
      (((vs.map Val.num).filter (fun y => EqX y x.num)).length : ℚ)) ≤ ((present (vs.map Val.num)).length : ℚ) := by
      exact_mod_cast hle
    unfold rank0; linarith
  generalize hr : rank0 (vs.map Val.num) x.num = r at *
  generalize hcc : (present (vs.map Val.num)).length = c at *
  have hc0 : (c : ℚ) - 1 ≠ 0 := by intro h; linarith
  have hn0 : (vs.length : ℚ) + 1 ≠ 0 := by intro h; linarith
  have s0 : 0 ≤ r * (((vs.length : ℚ) - 1) / ((c : ℚ) - 1)) :=
    mul_nonneg r0 (div_nonneg (by linarith) (by linarith))
  have s1 : r * (((vs.length : ℚ) - 1) / ((c : ℚ) - 1)) ≤ (vs.length : ℚ) - 1 := by
    rw [mul_div_assoc', div_le_iff₀ (by linarith), mul_comm]
    exact mul_le_mul_of_nonneg_left r1 (by linarith)
  refine ⟨(r * (((vs.length : ℚ) - 1) / ((c : ℚ) - 1)) + 1) / ((vs.length : ℚ) + 1),
    div_pos (by linarith) (by linarith), by rw [div_lt_one (by linarith)]; linarith, ?_⟩
  simp only [rankingLine, List.map_map, List.getElem?_map, hx, Option.map_some, Function.comp_apply]
  rw [present_eq, hcc]
  simp only [h1, false_and, if_false, List.length_map]
  rw [nanrank_eq _ hn, hr]
  simp only [RankNorm.scale, Flt.sub, Flt.neg, Flt.add, Flt.div, if_neg hc0, if_neg hn0, Flt.mul]
  simp

theorem rank_lt {xs : List Flt} {a b : Flt} (ha : a ∈ xs) (hb : b ∈ xs) (h : LtX a b) : rank0 xs a < rank0 xs b := by
  have key : ∀ xs : List Flt, (xs.filter (fun y => LtX y a)).length + (xs.filter (fun y => EqX y a)).length ≤
      (xs.filter (fun y => LtX y b)).length := by
    intro xs
    induction xs with
    | nil => simp
    | cons y xs ih =>
      simp only [List.filter_cons]
      by_cases h1 : LtX y a
      · have h2 : ¬ EqX y a := fun h => by rw [h.1] at h1; exact LtX.irrefl _ h1
        simp [h1, h2, h1.trans h]; omega
      · by_cases h2 : EqX y a
        · have : LtX y b := by rw [h2.1]; exact h
          simp [h1, h2, this]; omega
        · by_cases h3 : LtX y b <;> simp [h1, h2, h3] <;> omega
  have k := key xs
  have e1 := self_mem_eq ha h.ne_nan.1
  have e2 := self_mem_eq hb h.ne_nan.2
  have q1 : (1 : ℚ) ≤ ((xs.filter (fun y => EqX y a)).length : ℚ) := by exact_mod_cast e1
  have q2 : (1 : ℚ) ≤ ((xs.filter (fun y => EqX y b)).length : ℚ) := by exact_mod_cast e2
  have q3 : ((xs.filter (fun y => LtX y a)).length : ℚ) + ((xs.filter (fun y => EqX y a)).length : ℚ) ≤
      ((xs.filter (fun y => LtX y b)).length : ℚ) := by exact_mod_cast k
  unfold rank0; linarith

/-- C48. A line of ranks is within the range and ordered like the values: a larger value has a larger
rank, equal values have equal ranks. -/
theorem C48_order {lo hi mid : ℚ} (hlh : lo < hi) (hm1 : lo ≤ mid) (hm2 : mid ≤ hi) {vs ws : List Val}
    (h : RankedLine lo hi mid vs ws) :
    (∀ (i : Nat) x w, vs[i]? = some x → ws[i]? = some w → x.num ≠ .nan →
      ∃ q, w = .flt (.fin q) ∧ lo ≤ q ∧ q ≤ hi) ∧
    (∀ (i j : Nat) x x' w w', vs[i]? = some x → vs[j]? = some x' → ws[i]? = some w → ws[j]? = some w' →
      (LtX x.num x'.num → LtX w.num w'.num) ∧ (x.num = x'.num → w = w')) := by
  obtain ⟨hlen, hcell⟩ := h
  have bounds : ∀ x ∈ vs, x.num ≠ .nan → (present (vs.map Val.num)).length ≠ 1 →
      0 ≤ rank0 (vs.map Val.num) x.num ∧ rank0 (vs.map Val.num) x.num ≤ ((present (vs.map Val.num)).length : ℚ) - 1 ∧
      (2 : ℚ) ≤ ((present (vs.map Val.num)).length : ℚ) := by
    intro x hx hn h1
    have hmem : x.num ∈ vs.map Val.num := List.mem_map_of_mem hx
    have hle := rank_le (vs.map Val.num) x.num
    have heq := self_mem_eq hmem hn
    have hc : 2 ≤ (present (vs.map Val.num)).length := by omega
    have a1 : (1 : ℚ) ≤ (((vs.map Val.num).filter (fun y => EqX y x.num)).length : ℚ) := by exact_mod_cast heq
    have a2 : ((((vs.map Val.num).filter (fun y => LtX y x.num)).length : ℚ) +
      (((vs.map Val.num).filter (fun y => EqX y x.num)).length : ℚ)) ≤ ((present (vs.map Val.num)).length : ℚ) := by
      exact_mod_cast hle
    have a3 : (0 : ℚ) ≤ (((vs.map Val.num).filter (fun y => LtX y x.num)).length : ℚ) := by positivity
    refine ⟨?_, ?_, by exact_mod_cast hc⟩ <;> (unfold rank0; linarith)
  refine ⟨fun i x w hx hw hn => ?_, fun i j x x' w w' hx hx' hw hw' => ⟨fun hlt => ?_, fun heq => ?_⟩⟩
  · obtain ⟨_, c2, c3⟩ := hcell i x w hx hw
    by_cases h1 : (present (vs.map Val.num)).length = 1
    · exact ⟨mid, c2 hn h1, hm1, hm2⟩
    · obtain ⟨b1, b2, b3⟩ := bounds x (List.mem_of_getElem? hx) hn h1
      refine ⟨_, c3 hn h1, ?_, ?_⟩
      · have := mul_nonneg (sub_nonneg.mpr hlh.le)
          (div_nonneg b1 (by linarith : (0 : ℚ) ≤ ((present (vs.map Val.num)).length : ℚ) - 1))
        linarith
      · have d1 : rank0 (vs.map Val.num) x.num / (((present (vs.map Val.num)).length : ℚ) - 1) ≤ 1 := by
          rw [div_le_one (by linarith)]; exact b2
        have := mul_le_mul_of_nonneg_left d1 (sub_nonneg.mpr hlh.le)
        linarith
  · have hm := List.mem_of_getElem? hx
    have hm' := List.mem_of_getElem? hx'
    have hn := hlt.ne_nan.1
    have hn' := hlt.ne_nan.2
    by_cases h1 : (present (vs.map Val.num)).length = 1
    · exfalso
      obtain ⟨a, ha⟩ := List.length_eq_one_iff.mp h1
      have m1 : x.num ∈ present (vs.map Val.num) := by simp [present, hn]; exact ⟨x, hm, rfl⟩
      have m2 : x'.num ∈ present (vs.map Val.num) := by simp [present, hn']; exact ⟨x', hm', rfl⟩
      rw [ha, List.mem_singleton] at m1 m2
      rw [m1, m2] at hlt
      exact LtX.irrefl _ hlt
    · rw [(hcell i x w hx hw).2.2 hn h1, (hcell j x' w' hx' hw').2.2 hn' h1]
      obtain ⟨_, _, b3⟩ := bounds x hm hn h1
      have hr := rank_lt (List.mem_map_of_mem (f := Val.num) hm) (List.mem_map_of_mem (f := Val.num) hm') hlt
      have hd := div_lt_div_of_pos_right hr (by linarith : (0 : ℚ) < ((present (vs.map Val.num)).length : ℚ) - 1)
      have := mul_lt_mul_of_pos_left hd (sub_pos.mpr hlh)
      change _ < _
      linarith
  · obtain ⟨c1, c2, c3⟩ := hcell i x w hx hw
    obtain ⟨d1, d2, d3⟩ := hcell j x' w' hx' hw'
    by_cases hn : x.num = .nan
    · rw [c1 hn, d1 (heq ▸ hn)]
    · have hn' : x'.num ≠ .nan := heq ▸ hn
      by_cases h1 : (present (vs.map Val.num)).length = 1
      · rw [c2 hn h1, d2 hn' h1]
      · rw [c3 hn h1, d3 hn' h1, heq]

/-- C48: refusals. -/
theorem C48_errors (y : Larry L) (axis : Option Int) (norm : RankNorm) :
    (y.dtype = .str → y.ranking axis norm = .error .typeError) ∧
    (y.dtype = .float → y.ranking axis .unknown = .error .valueError) := by
  constructor
  · intro h; simp [ranking, h, DType.isNumeric]
  · intro h; simp [ranking, h, DType.isNumeric]

example : exA.Valid ∧ exA.dtype ≠ .str ∧ exA.dtype ≠ .object ∧ pyIdx exA.ndim 0 = some 0 ∧
    (present ([fl 4, .flt .nan, fl 6].map Val.num)).length = 2 ∧ rank0 ([fl 4, .flt .nan, fl 6].map Val.num) (.fin 6) = 1 :=
  ⟨exA_valid, by decide, by decide, rfl, by decide, by decide +kernel⟩

end La
