import Verif.MoveBn
import Verif.Props.Moving
import Verif.Props.Growth
import Verif.Props.GroupParts
import Verif.LookbackLines

/-!
# Property C107: the moving sum, mean, standard deviation, minimum and maximum
-/

namespace La

open Larry
variable {L : Type _}

/-- The elements that Bottleneck counts. -/
def there (xs : List Flt) : List Flt := xs.filter (· ≠ .nan)

/-- What the loop knows of a window. -/
def stateOf (xs : List Flt) : Flt × Nat := (Flt.sum (there xs), (there xs).length)

/-! ## The running sum -/

theorem there_cons_nan (xs : List Flt) : there (.nan :: xs) = there xs := by simp [there]

theorem there_cons {x : Flt} (h : x ≠ .nan) (xs : List Flt) : there (x :: xs) = x :: there xs := by simp [there, h]

theorem there_append (xs ys : List Flt) : there (xs ++ ys) = there xs ++ there ys := by simp [there]

theorem flt_isNan_iff (x : Flt) : x.isNan = true ↔ x = .nan := by cases x <;> simp [Flt.isNan]

theorem addIn_state (xs : List Flt) (x : Flt) : addIn (stateOf xs) x = stateOf (xs ++ [x]) := by
  by_cases h : x = .nan
  · subst h
    simp [addIn, Flt.isNan, stateOf, there]
  · have h' : x.isNan = false := by
      rw [Bool.eq_false_iff, ne_eq, flt_isNan_iff]; exact h
    have e : there [x] = [x] := there_cons h []
    simp [addIn, h', stateOf, there_append, e, Flt.sum, List.foldl_append]

theorem subOut_state {x : Flt} (h1 : x ≠ .pinf) (h2 : x ≠ .ninf) (xs : List Flt) : subOut (stateOf (x :: xs)) x = stateOf xs := by
  cases x with
  | nan => simp [subOut, Flt.isNan, stateOf, there_cons_nan]
  | pinf => exact absurd rfl h1
  | ninf => exact absurd rfl h2
  | fin q =>
    simp only [subOut, Flt.isNan, stateOf, there_cons (x := .fin q) (by simp), flt_sum_cons, List.length_cons]
    cases Flt.sum (there xs) <;> simp [Flt.add, Flt.sub, Flt.neg]

theorem foldl_addIn (ws xs : List Flt) : xs.foldl addIn (stateOf ws) = stateOf (ws ++ xs) := by
  induction xs generalizing ws with
  | nil => simp
  | cons x xs ih => rw [List.foldl_cons, addIn_state, ih, List.append_assoc]; rfl

theorem runWindow_length (out : Flt × Nat → Flt) (s : Flt × Nat) (ps : List (Flt × Flt)) :
    (runWindow out s ps).length = ps.length := by
  induction ps generalizing s with
  | nil => rfl
  | cons p ps ih => simp [runWindow, ih]

/-- Once the elements that have left the window are no infinities, the running values are those of the window. -/
theorem runWindow_get (out : Flt × Nat → Flt) (rem : List Flt) (w : List Flt) (hw : w ≠ []) (j : Nat) (hj : j < rem.length)
    (h : NoInf ((w ++ rem).take (j + 1))) :
    (runWindow out (stateOf w) (rem.zip (w ++ rem)))[j]? = some (out (stateOf (((w ++ rem).drop (j + 1)).take w.length))) := by
  induction rem generalizing w j with
  | nil => simp at hj
  | cons r rem ih =>
    cases w with
    | nil => exact absurd rfl hw
    | cons a w =>
      have ha : a ≠ .pinf ∧ a ≠ .ninf := h a (by simp)
      have hs : subOut (addIn (stateOf (a :: w)) r) a = stateOf (w ++ [r]) := by
        rw [addIn_state, List.cons_append, subOut_state ha.1 ha.2]
      have hz : (r :: rem).zip (a :: w ++ r :: rem) = (r, a) :: rem.zip ((w ++ [r]) ++ rem) := by simp
      have hl : w ++ r :: rem = (w ++ [r]) ++ rem := by simp
      rw [hz, runWindow]
      simp only [hs]
      cases j with
      | zero =>
        simp only [List.getElem?_cons_zero, List.cons_append, Nat.zero_add, List.drop_succ_cons, List.drop_zero, List.length_cons]
        rw [hl, List.take_append_of_le_length (by simp), List.take_of_length_le (by simp)]
      | succ j =>
        simp only [List.getElem?_cons_succ]
        rw [ih (w ++ [r]) (by simp) j (by simpa using hj) ?_]
        · simp only [List.cons_append, List.drop_succ_cons, List.length_cons, hl, List.length_append, List.length_nil]
        · intro x hx
          apply h x
          rw [List.cons_append, List.take_succ_cons, hl]
          exact List.mem_cons_of_mem _ hx

theorem stateOf_nil : stateOf [] = (.fin 0, 0) := rfl

theorem bnMoveLine_length (out : Flt × Nat → Flt) {window : Nat} {vs : List Val} (h1 : 1 ≤ window) (h2 : window ≤ vs.length) :
    (bnMoveLine out window vs).length = vs.length := by
  simp [bnMoveLine, runWindow_length]
  omega

theorem bnMoveLine_early (out : Flt × Nat → Flt) {window : Nat} (vs : List Val) {i : Nat} (hi : i + 1 < window) :
    (bnMoveLine out window vs)[i]? = some (.flt .nan) := by
  simp only [bnMoveLine, List.getElem?_map]
  rw [List.getElem?_append_left (by simp; omega), List.getElem?_replicate, if_pos (by omega)]
  rfl

/-- The running value at a place is that of the window ending there, if no infinity has left the window. -/
theorem bnMoveLine_get (out : Flt × Nat → Flt) {window : Nat} {vs : List Val} (h1 : 1 ≤ window) {i : Nat}
    (hi : window ≤ i + 1) (hn : i < vs.length) (h : NoInf ((vs.take (i + 1 - window)).map Val.num)) :
    (bnMoveLine out window vs)[i]? =
      some (.flt (out (stateOf ((vs.drop (i + 1 - window)).take window |>.map Val.num)))) := by
  simp only [bnMoveLine, List.getElem?_map]
  rw [List.getElem?_append_right (by simp; omega), List.length_replicate]
  have hs : ((vs.map Val.num).take window).foldl addIn (.fin 0, 0) = stateOf ((vs.map Val.num).take window) := by
    rw [← stateOf_nil, foldl_addIn, List.nil_append]
  rw [hs]
  rcases Nat.eq_or_lt_of_le hi with he | hlt
  · have : i - (window - 1) = 0 := by omega
    rw [this, List.getElem?_cons_zero]
    have : i + 1 - window = 0 := by omega
    simp [this, List.map_take]
  · obtain ⟨j, rfl⟩ : ∃ j, i = window + j := ⟨i - window, by omega⟩
    have e : window + j - (window - 1) = j + 1 := by omega
    have e2 : window + j + 1 - window = j + 1 := by omega
    rw [e2] at h ⊢
    rw [e, List.getElem?_cons_succ]
    have hsplit : (vs.map Val.num) = (vs.map Val.num).take window ++ (vs.map Val.num).drop window := (List.take_append_drop _ _).symm
    have hwl : ((vs.map Val.num).take window).length = window := by simp; omega
    have key := runWindow_get out ((vs.map Val.num).drop window) ((vs.map Val.num).take window)
      (by intro h0; rw [h0] at hwl; simp at hwl; omega) j (by simp; omega) (by
        rw [← hsplit, ← List.map_take]
        exact h)
    rw [← hsplit, hwl] at key
    rw [key]
    simp [List.map_take, List.map_drop]

/-! ## After an infinity -/

theorem add_nan (x : Flt) : Flt.add x .nan = .nan := by cases x <;> rfl

/-- An infinity in the window has turned the sum into itself or into NaN. -/
def Taken (w : List Flt) (s : Flt × Nat) : Prop := ∀ x ∈ w, x = .pinf ∨ x = .ninf → s.1 = x ∨ s.1 = .nan

theorem taken_addIn {w : List Flt} {s : Flt × Nat} (h : Taken w s) (x : Flt) : Taken (w ++ [x]) (addIn s x) := by
  intro z hz hi
  rw [List.mem_append, List.mem_singleton] at hz
  rcases hz with hz | rfl
  · rcases h z hz hi with e | e
    · rcases hi with rfl | rfl <;> cases x <;> simp [addIn, Flt.isNan, e, Flt.add]
    · cases x <;> simp [addIn, Flt.isNan, e, Flt.add]
  · rcases hi with rfl | rfl <;> simp only [addIn, Flt.isNan] <;> cases s.1 <;> simp [Flt.add]

theorem taken_subOut {w : List Flt} {a : Flt} {s : Flt × Nat} (h : Taken (a :: w) s) :
    Taken w (subOut s a) ∧ ((a = .pinf ∨ a = .ninf) → (subOut s a).1 = .nan) := by
  refine ⟨fun z hz hi => ?_, fun ha => ?_⟩
  · rcases h z (List.mem_cons_of_mem _ hz) hi with e | e
    · rcases hi with rfl | rfl <;> cases a <;> simp [subOut, Flt.isNan, e, Flt.sub, Flt.neg, Flt.add]
    · cases a <;> simp [subOut, Flt.isNan, e, Flt.sub, Flt.add]
  · rcases h a List.mem_cons_self ha with e | e <;> rcases ha with rfl | rfl <;>
      simp [subOut, Flt.isNan, e, Flt.sub, Flt.neg, Flt.add]

theorem runWindow_nan {out : Flt × Nat → Flt} (ho : ∀ s : Flt × Nat, s.1 = .nan → out s = .nan) (s : Flt × Nat) (hs : s.1 = .nan)
    (ps : List (Flt × Flt)) : ∀ v ∈ runWindow out s ps, v = .nan := by
  induction ps generalizing s with
  | nil => simp [runWindow]
  | cons p ps ih =>
    have e : (subOut (addIn s p.1) p.2).1 = .nan := by
      have h1 : (addIn s p.1).1 = .nan := by unfold addIn; split <;> simp [hs, Flt.add]
      unfold subOut; split <;> simp [h1, Flt.sub, Flt.add]
    intro v hv
    rw [runWindow, List.mem_cons] at hv
    rcases hv with rfl | hv
    · exact ho _ e
    · exact ih _ e v hv

theorem runWindow_after {out : Flt × Nat → Flt} (ho : ∀ s : Flt × Nat, s.1 = .nan → out s = .nan) (rem w : List Flt) (hw : w ≠ [])
    {s : Flt × Nat} (hs : Taken w s) {k j : Nat} (hkj : k ≤ j) (hj : j < rem.length) {x : Flt} (hk : (w ++ rem)[k]? = some x)
    (hx : x = .pinf ∨ x = .ninf) : (runWindow out s (rem.zip (w ++ rem)))[j]? = some .nan := by
  induction rem generalizing w s k j with
  | nil => simp at hj
  | cons r rem ih =>
    cases w with
    | nil => exact absurd rfl hw
    | cons a w =>
      have hz : (r :: rem).zip (a :: w ++ r :: rem) = (r, a) :: rem.zip ((w ++ [r]) ++ rem) := by simp
      have hl : w ++ r :: rem = (w ++ [r]) ++ rem := by simp
      obtain ⟨t1, t2⟩ := taken_subOut (w := w ++ [r]) (a := a) (taken_addIn hs r)
      rw [hz, runWindow]
      cases k with
      | zero =>
        obtain rfl : a = x := by simpa using hk
        have hn := t2 hx
        cases j with
        | zero => rw [List.getElem?_cons_zero, ho _ hn]
        | succ j =>
          rw [List.getElem?_cons_succ]
          have hlen : j < (runWindow out (subOut (addIn s r) a) (rem.zip ((w ++ [r]) ++ rem))).length := by
            rw [runWindow_length]
            simp at hj ⊢
            omega
          rw [List.getElem?_eq_getElem hlen, runWindow_nan ho _ hn _ _ (List.getElem_mem hlen)]
      | succ k =>
        cases j with
        | zero => omega
        | succ j =>
          rw [List.getElem?_cons_succ]
          exact ih (w ++ [r]) (by simp) t1 (k := k) (by omega) (by simpa using hj) (by
            rw [← hl]; simpa using hk)

theorem taken_foldl (ws xs : List Flt) (s : Flt × Nat) (h : Taken ws s) : Taken (ws ++ xs) (xs.foldl addIn s) := by
  induction xs generalizing ws s with
  | nil => simpa using h
  | cons x xs ih =>
    have := ih (ws ++ [x]) (addIn s x) (taken_addIn h x)
    simpa using this

/-- Once an infinity has left the window every running value is NaN. -/
theorem bnMoveLine_after {out : Flt × Nat → Flt} (ho : ∀ s : Flt × Nat, s.1 = .nan → out s = .nan) {window : Nat} {vs : List Val}
    (h1 : 1 ≤ window) {k i : Nat} (hk : k + window ≤ i) (hi : i < vs.length) {v : Val} (hv : vs[k]? = some v)
    (hx : v.num = .pinf ∨ v.num = .ninf) : (bnMoveLine out window vs)[i]? = some (.flt .nan) := by
  simp only [bnMoveLine, List.getElem?_map]
  rw [List.getElem?_append_right (by simp; omega), List.length_replicate]
  obtain ⟨j, rfl⟩ : ∃ j, i = window + j := ⟨i - window, by omega⟩
  have e : window + j - (window - 1) = j + 1 := by omega
  rw [e, List.getElem?_cons_succ]
  have hsplit : (vs.map Val.num) = (vs.map Val.num).take window ++ (vs.map Val.num).drop window := (List.take_append_drop _ _).symm
  have hwl : ((vs.map Val.num).take window).length = window := by simp; omega
  have ht := taken_foldl [] ((vs.map Val.num).take window) (.fin 0, 0) (by intro x hx; simp at hx)
  rw [List.nil_append] at ht
  have key := runWindow_after ho ((vs.map Val.num).drop window) ((vs.map Val.num).take window)
    (by intro h0; rw [h0] at hwl; simp at hwl; omega) ht (k := k) (j := j) (by omega) (by simp; omega) (x := v.num) (by
      rw [← hsplit, List.getElem?_map, hv]; rfl) hx
  rw [← hsplit] at key
  rw [key]
  rfl

/-! ## The methods -/

/-- The arguments of a call that is carried out. -/
structure CanSlide (y : Larry L) (window : Nat) (axis : Int) (ax : Nat) : Prop where
  valid : y.Valid
  typed : y.Typed
  dtype : y.dtype = .float ∨ y.dtype = .int
  pos : 1 ≤ window
  axis : pyIdx y.ndim axis = some ax
  fits : ∀ l, y.label[ax]? = some l → window ≤ l.length

/-- `z` holds a moving value for each element of `y`: NaN where the window is not full, and else a number that is as
`S` says of what lies before the window and of what lies in it. -/
structure Larry.MovesBy (y z : Larry L) (ax window : Nat) (S : List Flt → List Flt → Flt → Prop) : Prop where
  valid : z.Valid
  dtype : z.dtype = .float
  label : z.label = y.label
  cell : ∀ (l : List L) (i : Nat) (a : L) (rest : List L) (vs : List Val), y.label[ax]? = some l → l[i]? = some a →
    Named (y.label.eraseIdx ax) rest → y.LineAt ax rest vs → ∃ q : Flt, z.Has (rest.insertIdx ax a) (.flt q) ∧
      (i + 1 < window → q = .nan) ∧
      (window ≤ i + 1 → S ((vs.take (i + 1 - window)).map Val.num) (((vs.drop (i + 1 - window)).take window).map Val.num) q)

/-- A function on lines, kept to the lines of one length. -/
def onLength (n : Nat) (f : List Val → List Val) (vs : List Val) : List Val := if vs.length = n then f vs else vs

theorem along_onLength {y : Larry L} (hv : y.Valid) {ax : Nat} {l : List L} (hl : y.label[ax]? = some l)
    (f : List Val → List Val) (d : DType) : y.along f d ax = y.along (onLength l.length f) d ax := by
  have hn : y.x.shape.getD ax 0 = l.length := by rw [hv.shape_eq]; simp [hl]
  simp only [along, NDArray.mapLines, onLength, line_length, hn, if_true]

theorem onLength_length {n : Nat} {f : List Val → List Val} (h : ∀ vs, vs.length = n → (f vs).length = n) (vs : List Val) :
    (onLength n f vs).length = vs.length := by
  unfold onLength
  split
  · rename_i e; rw [h vs e, e]
  · rfl

theorem moveBn_eq {y : Larry L} {window : Nat} {axis : Int} {ax : Nat} (h : CanSlide y window axis ax)
    (f : Nat → List Val → List Val) : y.moveBn f window axis = .ok (y.along (f window) .float ax) := by
  obtain ⟨l, hl, -⟩ := label_at h.valid h.axis
  have hn : y.shape.getD ax 0 = l.length := by simp [Larry.shape, h.valid.shape_eq, hl]
  have hw := h.fits l hl
  have hp := h.pos
  have hd : y.dtype.isNumeric = true := by rcases h.dtype with e | e <;> rw [e] <;> rfl
  simp only [moveBn, h.axis, hd, hn]
  rw [if_neg (by simp), if_neg (by omega)]
  simp

theorem line_typed {y : Larry L} (ht : y.Typed) (hv : y.Valid) {ax : Nat} {rest : List L} {vs : List Val} (h : y.LineAt ax rest vs) :
    ∀ v ∈ vs, v.hasDType y.dtype = true := by
  intro v hm
  obtain ⟨names, idx, hat, rfl⟩ := line_mem_has h hm
  exact ht idx (by rw [hv.shape_eq]; exact At_inB hat)

/-- A function on lines that gives a moving value at each place makes a method that does. -/
theorem movesBy_moveBn {f : Nat → List Val → List Val} {S : List Flt → List Flt → Flt → Prop} {y : Larry L} {window : Nat}
    {axis : Int} {ax : Nat} (h : CanSlide y window axis ax)
    (hf : ∀ vs : List Val, window ≤ vs.length → (f window vs).length = vs.length)
    (hc : ∀ (vs : List Val) (i : Nat), window ≤ vs.length → (∀ v ∈ vs, v.hasDType y.dtype = true) → i < vs.length →
      ∃ q : Flt, (f window vs)[i]? = some (.flt q) ∧ (i + 1 < window → q = .nan) ∧
        (window ≤ i + 1 → S ((vs.take (i + 1 - window)).map Val.num) (((vs.drop (i + 1 - window)).take window).map Val.num) q)) :
    ∃ z, y.moveBn f window axis = .ok z ∧ y.MovesBy z ax window S := by
  refine ⟨_, moveBn_eq h f, ⟨h.valid.shape_eq, h.valid.nodup, h.valid.ndim_pos⟩, rfl, rfl, ?_⟩
  intro l i a rest vs hl ha hr hline
  have hw := h.fits l hl
  have hlen : vs.length = l.length := by
    obtain ⟨l', hl', e, -⟩ := hline
    rw [hl] at hl'
    cases hl'
    exact e
  have hi := (List.getElem?_eq_some_iff.mp ha).1
  obtain ⟨q, h1, h2, h3⟩ := hc vs i (by omega) (line_typed h.typed h.valid hline) (by omega)
  refine ⟨q, ?_, h2, h3⟩
  rw [along_onLength h.valid hl]
  have hax := (List.getElem?_eq_some_iff.mp hl).1
  have hrl : rest.length = y.label.length - 1 := by
    have := (Named_iff.mp hr).1
    rw [this, List.length_eraseIdx_of_lt hax]
  refine (holds_mapLines h.valid hl (onLength l.length (f window)) .none (onLength_length fun us hus => by rw [hf us (by rw [hus]; exact hw), hus]) _ _).mpr
    ⟨vs, i, a, ?_, named_insert hl hr ha, ?_, ha, ?_⟩
  · rw [List.eraseIdx_insertIdx_self]; exact hline
  · rw [List.getElem?_insertIdx_self, if_pos (by omega)]
  · rw [onLength, if_pos hlen, h1]

theorem out_cases {out : Flt × Nat → Flt} (hn : ∀ s : Flt × Nat, s.1 = .nan → out s = .nan) {T : List Flt → Flt → Prop}
    (ho : ∀ w : List Flt, T w (out (stateOf w))) {window : Nat} (h1 : 1 ≤ window) (vs : List Val) (i : Nat) (hi : i < vs.length) :
    ∃ q : Flt, (bnMoveLine out window vs)[i]? = some (.flt q) ∧ (i + 1 < window → q = .nan) ∧
      (window ≤ i + 1 → (NoInf ((vs.take (i + 1 - window)).map Val.num) →
          T (((vs.drop (i + 1 - window)).take window).map Val.num) q) ∧
        (¬ NoInf ((vs.take (i + 1 - window)).map Val.num) → q = .nan)) := by
  by_cases hs : i + 1 < window
  · exact ⟨_, bnMoveLine_early out vs hs, fun _ => rfl, fun h => absurd h (by omega)⟩
  · by_cases hno : NoInf ((vs.take (i + 1 - window)).map Val.num)
    · exact ⟨_, bnMoveLine_get out h1 (by omega) hi hno, fun h => absurd h hs, fun _ => ⟨fun _ => ho _, fun h => absurd hno h⟩⟩
    · refine ⟨.nan, ?_, fun _ => rfl, fun _ => ⟨fun h => absurd h hno, fun _ => rfl⟩⟩
      unfold NoInf at hno
      push Not at hno
      obtain ⟨x, hx, hinf⟩ := hno
      obtain ⟨v, hv, rfl⟩ := List.mem_map.mp hx
      obtain ⟨k, hk⟩ := List.mem_iff_getElem?.mp hv
      rw [List.getElem?_take] at hk
      split_ifs at hk with hlt
      refine bnMoveLine_after hn h1 (by omega) hi hk ?_
      by_cases hp : v.num = .pinf
      · exact .inl hp
      · exact .inr (hinf hp)

theorem sumOut_is (w : List Flt) : SumIs w (sumOut (stateOf w)) := by
  unfold sumOut stateOf
  by_cases h : there w = []
  · rw [if_pos (by simp [h])]
    exact .none fun f hf => by
      by_contra hne
      have : f ∈ there w := by simp [there, hf, hne]
      rw [h] at this
      simp at this
  · rw [if_neg (by simpa using h)]
    exact sumIs_sum w h

theorem meanOut_is (w : List Flt) : MeanIs w (meanOut (stateOf w)) := by
  have := mean_is w
  unfold nanmean at this
  rw [filter_nan_eq] at this
  unfold meanOut stateOf
  by_cases h : there w = []
  · rw [if_pos (by simp [h])]
    change there w = [] at h
    unfold there at h
    rw [h] at this
    simpa [Flt.sum, Flt.div, Flt.infOf] using this
  · rw [if_neg (by simpa using h)]
    exact this

theorem sumOut_nan (s : Flt × Nat) (h : s.1 = .nan) : sumOut s = .nan := by unfold sumOut; split <;> simp [h]

theorem meanOut_nan (s : Flt × Nat) (h : s.1 = .nan) : meanOut s = .nan := by unfold meanOut; split <;> simp [h, Flt.div]

/-- C107. `move_sum` returns a larry with the labels of the larry; each element is the sum of the window that ends
there, NaN left out, if there is no infinity before the window.  If there is one, it is NaN, however far back. -/
theorem C107_sum {y : Larry L} {window : Nat} {axis : Int} {ax : Nat} (h : CanSlide y window axis ax) :
    ∃ z, y.moveSum window axis = .ok z ∧ y.MovesBy z ax window fun before win q =>
      (NoInf before → SumIs win q) ∧ (¬ NoInf before → q = .nan) :=
  movesBy_moveBn h (fun _ hl => bnMoveLine_length _ h.pos hl) fun vs i _ _ hi => out_cases sumOut_nan sumOut_is h.pos vs i hi

/-- C107. `move_mean`, in the same way. -/
theorem C107_mean {y : Larry L} {window : Nat} {axis : Int} {ax : Nat} (h : CanSlide y window axis ax) :
    ∃ z, y.moveMean window axis = .ok z ∧ y.MovesBy z ax window fun before win q =>
      (NoInf before → MeanIs win q) ∧ (¬ NoInf before → q = .nan) :=
  movesBy_moveBn h (fun _ hl => bnMoveLine_length _ h.pos hl) fun vs i _ _ hi => out_cases meanOut_nan meanOut_is h.pos vs i hi

theorem toFloat_typed {d : DType} (hd : d = .float ∨ d = .int) {v : Val} (h : v.hasDType d = true) : v.toFloat = .flt v.num := by
  rcases hd with rfl | rfl <;> cases v <;> simp_all [Val.hasDType, Val.toFloat, Val.num]

theorem windowsLine_cases {f : List Val → Val} {T : List Flt → Flt → Prop} {d : DType} {window : Nat} (h1 : 1 ≤ window)
    (hT : ∀ ws : List Val, ws ≠ [] → (∀ v ∈ ws, v.hasDType d = true) → ∃ q, (f ws).toFloat = .flt q ∧ T (ws.map Val.num) q)
    (vs : List Val) (hvs : ∀ v ∈ vs, v.hasDType d = true) (i : Nat) (hi : i < vs.length) :
    ∃ q : Flt, (windowsLine f window vs)[i]? = some (.flt q) ∧ (i + 1 < window → q = .nan) ∧
      (window ≤ i + 1 → T (((vs.drop (i + 1 - window)).take window).map Val.num) q) := by
  simp only [windowsLine, List.getElem?_map, List.getElem?_range hi, Option.map_some, windowStat]
  split_ifs with hs
  · exact ⟨_, rfl, fun _ => rfl, fun h => absurd h (by omega)⟩
  · obtain ⟨q, e, hq⟩ := hT ((vs.drop (i + 1 - window)).take window) (by
      intro h0
      have := congrArg List.length h0
      simp at this
      omega) fun v hv => hvs v (List.mem_of_mem_drop (List.mem_of_mem_take hv))
    exact ⟨q, by rw [e], fun h => absurd h hs, fun _ => hq⟩

theorem windowsLine_length (f : List Val → Val) (window : Nat) (vs : List Val) : (windowsLine f window vs).length = vs.length := by
  simp [windowsLine]

theorem extreme_float {d : DType} (hd : d = .float ∨ d = .int) {ws : List Val} (hws : ∀ v ∈ ws, v.hasDType d = true) {v : Val}
    (h : v = .flt .nan ∨ v ∈ ws) : v.toFloat = .flt v.num := by
  rcases h with rfl | h
  · rfl
  · exact toFloat_typed hd (hws v h)

/-- C107. `move_min`: each element is the smallest of the window, NaN left out. -/
theorem C107_min {y : Larry L} {window : Nat} {axis : Int} {ax : Nat} (h : CanSlide y window axis ax) :
    ∃ z, y.moveMin window axis = .ok z ∧ y.MovesBy z ax window fun _ win q => MinIs win q :=
  movesBy_moveBn h (fun _ _ => windowsLine_length _ _ _) fun vs i _ ht hi =>
    windowsLine_cases (T := MinIs) h.pos (fun ws _ hws => ⟨_, extreme_float h.dtype hws (by
      rcases minOf_nanmin ws with ⟨-, e⟩ | ⟨e, -⟩
      · exact .inl e
      · exact .inr e), minIs_of (minOf_nanmin ws)⟩) vs ht i hi

/-- C107. `move_max`: each element is the largest of the window, NaN left out. -/
theorem C107_max {y : Larry L} {window : Nat} {axis : Int} {ax : Nat} (h : CanSlide y window axis ax) :
    ∃ z, y.moveMax window axis = .ok z ∧ y.MovesBy z ax window fun _ win q => MaxIs win q :=
  movesBy_moveBn h (fun _ _ => windowsLine_length _ _ _) fun vs i _ ht hi =>
    windowsLine_cases (T := MaxIs) h.pos (fun ws _ hws => ⟨_, extreme_float h.dtype hws (by
      rcases maxOf_nanmax ws with ⟨-, e⟩ | ⟨e, -⟩
      · exact .inl e
      · exact .inr e), maxIs_of (maxOf_nanmax ws)⟩) vs ht i hi

/-- C107. `move_std`: each element is the root of the variance of the window, with `ddof` zero. -/
theorem C107_std (root : Flt → Flt) {y : Larry L} {window : Nat} {axis : Int} {ax : Nat} (h : CanSlide y window axis ax) :
    ∃ z, y.moveStd root window axis = .ok z ∧ y.MovesBy z ax window fun _ win q => ∃ w, VarIs 0 win w ∧ q = root w :=
  movesBy_moveBn h (fun _ _ => windowsLine_length _ _ _) fun vs i _ ht hi =>
    windowsLine_cases (T := fun win q => ∃ w, VarIs 0 win w ∧ q = root w) h.pos
      (fun ws _ _ => ⟨_, rfl, _, var_is 0 (ws.map Val.num), rfl⟩) vs ht i hi

/-- C107. The calls that raise: an axis that does not exist, and a window that is empty or longer than the axis. -/
theorem C107_errors (root : Flt → Flt) (y : Larry L) (window axis : Int) :
    (pyIdx y.ndim axis = none → y.moveSum window axis = .error .valueError ∧ y.moveMean window axis = .error .valueError ∧
      y.moveStd root window axis = .error .valueError ∧ y.moveMin window axis = .error .valueError ∧
      y.moveMax window axis = .error .valueError) ∧
    (∀ ax l, y.Valid → y.dtype = .float ∨ y.dtype = .int → pyIdx y.ndim axis = some ax → y.label[ax]? = some l →
      window < 1 ∨ l.length < window → y.moveSum window axis = .error .valueError ∧ y.moveMean window axis = .error .valueError ∧
      y.moveStd root window axis = .error .valueError ∧ y.moveMin window axis = .error .valueError ∧
      y.moveMax window axis = .error .valueError) := by
  refine ⟨fun h => ?_, fun ax l hv hd h hl hw => ?_⟩
  · simp [moveSum, moveMean, moveStd, moveMin, moveMax, moveBn, h]
  · have hn : y.shape.getD ax 0 = l.length := by simp [Larry.shape, hv.shape_eq, hl]
    have hd' : y.dtype.isNumeric = true := by rcases hd with e | e <;> rw [e] <;> rfl
    have e : ∀ f, y.moveBn f window axis = .error .valueError := by
      intro f
      simp only [moveBn, h, hd', hn]
      rw [if_neg (by simp), if_pos hw]
    exact ⟨e _, e _, e _, e _, e _⟩

/-! ## The same as `move_func` -/

/-- A larry without infinities. -/
def Larry.NoInfs (y : Larry L) : Prop := ∀ names v, y.Has names v → v.num ≠ .pinf ∧ v.num ≠ .ninf

theorem Larry.NoInfs.line {y : Larry L} (h : y.NoInfs) {ax : Nat} {rest : List L} {vs : List Val} (hl : y.LineAt ax rest vs) :
    NoInf (vs.map Val.num) := by
  intro x hx
  obtain ⟨v, hv, rfl⟩ := List.mem_map.mp hx
  obtain ⟨names, hn⟩ := line_mem_has hl hv
  exact h names v hn

theorem sumIs_eq {fs : List Flt} {a : Flt} (h : SumIs fs a) : a = sumOut (stateOf fs) := by
  have inf : (.pinf ∈ fs ∨ .ninf ∈ fs) → (stateOf fs).2 ≠ 0 := by
    intro hm h0
    have h0 : fs.filter (· ≠ .nan) = [] := List.length_eq_zero_iff.mp h0
    rcases hm with hm | hm
    · exact ok_ne_nil hm (by simp) h0
    · exact ok_ne_nil hm (by simp) h0
  have e : (stateOf fs).1 = Flt.sum (fs.filter (· ≠ .nan)) := rfl
  cases h with
  | none h => simp only [sumOut, stateOf, there, ok_nil h, List.length_nil, if_true]
  | finite qs hq hf => simp only [sumOut, stateOf, there, hf, List.length_map, List.length_eq_zero_iff, hq, if_false, flt_sum_fin]
  | plus h1 h2 => rw [sumOut, if_neg (inf (.inl h1)), e, flt_sum_inf (.inl h1)]; simp [h1, h2]
  | minus h1 h2 => rw [sumOut, if_neg (inf (.inr h1)), e, flt_sum_inf (.inr h1)]; simp [h2]
  | both h1 h2 => rw [sumOut, if_neg (inf (.inl h1)), e, flt_sum_inf (.inl h1)]; simp [h1, h2]

theorem meanOut_eq (w : List Flt) : meanOut (stateOf w) = nanmean w := by
  unfold nanmean
  rw [filter_nan_eq]
  unfold meanOut stateOf
  by_cases h : there w = []
  · rw [if_pos (by simp [h])]
    unfold there at h
    rw [h]
    simp [Flt.sum, Flt.div, Flt.infOf]
  · rw [if_neg (by simpa using h)]
    rfl

theorem sum_toFloat {d : DType} (hd : d = .float ∨ d = .int) {ws : List Val} (hne : ws ≠ []) (ht : ∀ v ∈ ws, v.hasDType d = true) :
    (bnNansum.f ws).toFloat = .flt (sumOut (stateOf (ws.map Val.num))) := by
  have hs : SumOf d ws (bnNansum.f ws) := sumOf_nansum (d' := if d = .float then .float else .int)
    (by rcases hd with h | h <;> subst h <;> rfl) hne ht
  have e := sumIs_eq (sumIs_of hne hs)
  rw [← e]
  rcases hd with rfl | rfl
  · obtain ⟨q, hq, -⟩ := hs
    rw [hq]; rfl
  · obtain ⟨ns, -, hq⟩ := hs
    rw [hq]; rfl

theorem noInf_take {vs : List Val} (h : NoInf (vs.map Val.num)) (k : Nat) : NoInf ((vs.take k).map Val.num) := by
  intro x hx
  obtain ⟨v, hv, rfl⟩ := List.mem_map.mp hx
  exact h _ (List.mem_map_of_mem (List.mem_of_mem_take hv))

theorem bnMoveLine_windows {out : Flt × Nat → Flt} {f : List Val → Val} {d : DType} {window : Nat} (h1 : 1 ≤ window)
    (hf : ∀ ws : List Val, ws ≠ [] → (∀ v ∈ ws, v.hasDType d = true) → (f ws).toFloat = .flt (out (stateOf (ws.map Val.num))))
    {vs : List Val} (ht : ∀ v ∈ vs, v.hasDType d = true) (hn : NoInf (vs.map Val.num)) {i : Nat} (hi : i < vs.length) :
    (bnMoveLine out window vs)[i]? = some (windowStat f window vs i) := by
  unfold windowStat
  split_ifs with hs
  · exact bnMoveLine_early out vs hs
  · rw [bnMoveLine_get out h1 (by omega) hi (noInf_take hn _), hf _ ?_ fun v hv => ht v (List.mem_of_mem_drop (List.mem_of_mem_take hv))]
    intro h0
    have := congrArg List.length h0
    simp at this
    omega

/-- Where the line holds what `move_func` makes of each window, the two methods return the same. -/
theorem same_moveStat {r : Red} {f : Nat → List Val → List Val} {y : Larry L} {window : Nat} {axis : Int} {ax : Nat}
    {buf : Int → Val} {arr : Strided} {m : MoveMethod} (h : CanSlide y window axis ax) (hm : CanMove y buf arr window axis ax m)
    {d : DType} (hd : r.dt y.dtype = .ok d) (hf : ∀ vs : List Val, window ≤ vs.length → (f window vs).length = vs.length)
    (hc : ∀ rest vs i, y.LineAt ax rest vs → (∀ v ∈ vs, v.hasDType y.dtype = true) → i < vs.length →
      (f window vs)[i]? = some (windowStat r.f window vs i)) :
    ∃ z z', y.moveBn f window axis = .ok z ∧ y.moveStat r buf arr window (some axis) m = .ok z' ∧ z.Same z' := by
  obtain ⟨l, hl, -⟩ := label_at h.valid h.axis
  obtain ⟨z', e', hd', ha'⟩ := moveStat_ok r hm hd hl
  have hw := h.fits l hl
  refine ⟨_, z', moveBn_eq h f, e', same_of_has ⟨h.valid.shape_eq, h.valid.nodup, h.valid.ndim_pos⟩ ha'.valid hd'.symm
    ha'.label_eq.symm fun names hn => ?_⟩
  obtain ⟨i, a, rest, ha, hr, rfl⟩ := named_split hl hn
  obtain ⟨vs, hline⟩ := lineAt_exists h.valid hl hr
  have hlen : vs.length = l.length := by
    obtain ⟨l', hl', e, -⟩ := hline
    rw [hl] at hl'
    cases hl'
    exact e
  have hi := (List.getElem?_eq_some_iff.mp ha).1
  refine ⟨windowStat r.f window vs i, ?_, moved_has ha' hl ha hline hr⟩
  rw [along_onLength h.valid hl]
  have hax := (List.getElem?_eq_some_iff.mp hl).1
  have hrl : rest.length = y.label.length - 1 := by
    have := (Named_iff.mp hr).1
    rw [this, List.length_eraseIdx_of_lt hax]
  refine (holds_mapLines h.valid hl (onLength l.length (f window)) .none
    (onLength_length fun us hus => by rw [hf us (by rw [hus]; exact hw), hus]) _ _).mpr ⟨vs, i, a, ?_, named_insert hl hr ha, ?_, ha, ?_⟩
  · rw [List.eraseIdx_insertIdx_self]; exact hline
  · rw [List.getElem?_insertIdx_self, if_pos (by omega)]
  · rw [onLength, if_pos hlen, hc rest vs i hline (line_typed h.typed h.valid hline) (by omega)]

/-- C107. Without infinities, `move_sum` and `move_mean` return what `move_func` returns for the sum and the mean;
`move_min`, `move_max` and `move_std` do so in any case. -/
theorem C107_move_func (root : Flt → Flt) {y : Larry L} {window : Nat} {axis : Int} {ax : Nat} {buf : Int → Val} {arr : Strided}
    {m : MoveMethod} (h : CanSlide y window axis ax) (hm : CanMove y buf arr window axis ax m) :
    (y.NoInfs → ∃ z z', y.moveSum window axis = .ok z ∧ y.moveStat bnNansum buf arr window (some axis) m = .ok z' ∧ z.Same z') ∧
    (y.NoInfs → ∃ z z', y.moveMean window axis = .ok z ∧ y.moveStat bnNanmean buf arr window (some axis) m = .ok z' ∧ z.Same z') ∧
    (∃ z z', y.moveMin window axis = .ok z ∧ y.moveStat bnNanmin buf arr window (some axis) m = .ok z' ∧ z.Same z') ∧
    (∃ z z', y.moveMax window axis = .ok z ∧ y.moveStat bnNanmax buf arr window (some axis) m = .ok z' ∧ z.Same z') ∧
    (∃ z z', y.moveStd root window axis = .ok z ∧
      y.moveStat (bnNanstd root 0) buf arr window (some axis) m = .ok z' ∧ z.Same z') := by
  have dt : ∀ s : Statistic, ∃ d, s.red.dt y.dtype = .ok d := fun s => red_dt s (by rcases h.dtype with e | e <;> simp [e])
  have wl : ∀ (f : List Val → Val) (vs : List Val) (i : Nat), i < vs.length →
      (windowsLine f window vs)[i]? = some (windowStat f window vs i) := by
    intro f vs i hi
    simp [windowsLine, List.getElem?_range hi]
  refine ⟨fun hn => ?_, fun hn => ?_, ?_, ?_, ?_⟩
  · obtain ⟨d, hd⟩ := dt .sum
    exact same_moveStat h hm hd (fun _ hl => bnMoveLine_length _ h.pos hl) fun rest vs i hl ht hi =>
      bnMoveLine_windows h.pos (fun ws hne hws => sum_toFloat h.dtype hne hws) ht (NoInfs.line hn hl) hi
  · obtain ⟨d, hd⟩ := dt .mean
    exact same_moveStat h hm hd (fun _ hl => bnMoveLine_length _ h.pos hl) fun rest vs i hl ht hi =>
      bnMoveLine_windows h.pos (fun ws _ _ => by rw [meanOut_eq]; rfl) ht (NoInfs.line hn hl) hi
  · obtain ⟨d, hd⟩ := dt .min
    exact same_moveStat h hm hd (fun _ _ => windowsLine_length _ _ _) fun rest vs i _ _ hi => wl _ vs i hi
  · obtain ⟨d, hd⟩ := dt .max
    exact same_moveStat h hm hd (fun _ _ => windowsLine_length _ _ _) fun rest vs i _ _ hi => wl _ vs i hi
  · refine same_moveStat (d := .float) h hm ?_ (fun _ _ => windowsLine_length _ _ _) fun rest vs i _ _ hi => wl _ vs i hi
    rcases h.dtype with e | e <;> rw [e] <;> rfl

/-- C107. Without infinities, the moving mean lies between the moving minimum and the moving maximum, where they are not NaN. -/
theorem C107_between {y : Larry L} {window : Nat} {axis : Int} {ax : Nat} (h : CanSlide y window axis ax) (hn : y.NoInfs) :
    ∃ lo mid hi, y.moveMin window axis = .ok lo ∧ y.moveMean window axis = .ok mid ∧ y.moveMax window axis = .ok hi ∧
      ∀ names, Named y.label names → ∃ a b c : Flt, lo.Has names (.flt a) ∧ mid.Has names (.flt b) ∧ hi.Has names (.flt c) ∧
        ((a = .nan ∧ b = .nan ∧ c = .nan) ∨ (LeF a b ∧ LeF b c)) := by
  obtain ⟨lo, e1, m1⟩ := C107_min h
  obtain ⟨mid, e2, m2⟩ := C107_mean h
  obtain ⟨hi, e3, m3⟩ := C107_max h
  refine ⟨lo, mid, hi, e1, e2, e3, fun names hN => ?_⟩
  obtain ⟨l, hl, -⟩ := label_at h.valid h.axis
  obtain ⟨i, x, rest, hx, hr, rfl⟩ := named_split hl hN
  obtain ⟨vs, hline⟩ := lineAt_exists h.valid hl hr
  obtain ⟨a, h1, n1, s1⟩ := m1.cell l i x rest vs hl hx hr hline
  obtain ⟨b, h2, n2, s2⟩ := m2.cell l i x rest vs hl hx hr hline
  obtain ⟨c, h3, n3, s3⟩ := m3.cell l i x rest vs hl hx hr hline
  refine ⟨a, b, c, h1, h2, h3, ?_⟩
  by_cases hw : i + 1 < window
  · exact .inl ⟨n1 hw, n2 hw, n3 hw⟩
  · have hw' : window ≤ i + 1 := by omega
    have hni := NoInfs.line hn hline
    have t2 := (s2 hw').1 (noInf_take hni _)
    have hnw : NoInf (((vs.drop (i + 1 - window)).take window).map Val.num) := by
      intro q hq
      obtain ⟨v, hv, rfl⟩ := List.mem_map.mp hq
      exact hni _ (List.mem_map_of_mem (List.mem_of_mem_drop (List.mem_of_mem_take hv)))
    have k1 := min_nan (s1 hw')
    have k2 := mean_nan hnw t2
    have k3 := max_nan (s3 hw')
    by_cases ha : ∀ f ∈ ((vs.drop (i + 1 - window)).take window).map Val.num, f = .nan
    · exact .inl ⟨k1.mpr ha, k2.mpr ha, k3.mpr ha⟩
    · exact .inr ⟨min_le_mean (s1 hw') t2 (fun e => ha (k1.mp e)) (fun e => ha (k2.mp e)),
        mean_le_max t2 (s3 hw') (fun e => ha (k2.mp e)) (fun e => ha (k3.mp e))⟩

/-! ## No look-ahead -/

theorem runWindow_causal (out : Flt × Nat → Flt) (s : Flt × Nat) (ps qs : List (Flt × Flt)) (j : Nat)
    (h : ∀ k ≤ j, ps[k]? = qs[k]?) : (runWindow out s ps)[j]? = (runWindow out s qs)[j]? := by
  induction ps generalizing s qs j with
  | nil => cases qs with
    | nil => rfl
    | cons q qs => simpa using h 0 (Nat.zero_le _)
  | cons p ps ih => cases qs with
    | nil => simpa using h 0 (Nat.zero_le _)
    | cons q qs =>
      obtain rfl : p = q := by simpa using h 0 (Nat.zero_le _)
      cases j with
      | zero => simp [runWindow]
      | succ j =>
        simp only [runWindow, List.getElem?_cons_succ]
        exact ih _ _ _ fun k hk => by simpa using h (k + 1) (by omega)

theorem bnMoveLine_causal (out : Flt × Nat → Flt) {window : Nat} (h1 : 1 ≤ window) : Causal (bnMoveLine out window) := by
  intro vs ws i hl h
  by_cases hs : i + 1 < window
  · rw [bnMoveLine_early out vs hs, bnMoveLine_early out ws hs]
  · have hm : ∀ k ≤ i, (vs.map Val.num)[k]? = (ws.map Val.num)[k]? := fun k hk => by simp only [List.getElem?_map, h k hk]
    have ht : (vs.map Val.num).take window = (ws.map Val.num).take window := by
      apply List.ext_getElem?
      intro k
      rw [List.getElem?_take, List.getElem?_take]
      split
      · exact hm k (by omega)
      · rfl
    simp only [bnMoveLine, ht, List.getElem?_map]
    rw [List.getElem?_append_right (by simp; omega), List.getElem?_append_right (by simp; omega), List.length_replicate]
    cases hj : i - (window - 1) with
    | zero => simp
    | succ j =>
      rw [List.getElem?_cons_succ, List.getElem?_cons_succ, runWindow_causal out _ _ _ j]
      intro k hk
      simp only [List.zip_eq_zipWith, List.getElem?_zipWith, List.getElem?_drop]
      rw [hm _ (by omega), hm _ (by omega)]

theorem windowsLine_causal (f : List Val → Val) (window : Nat) : Causal (windowsLine f window) := by
  intro vs ws i hl h
  by_cases hi : i < vs.length
  · simp only [windowsLine, List.getElem?_map, List.getElem?_range hi, List.getElem?_range (hl ▸ hi), Option.map_some, windowStat]
    split_ifs with hs
    · rfl
    · have : (vs.drop (i + 1 - window)).take window = (ws.drop (i + 1 - window)).take window := by
        apply List.ext_getElem?
        intro k
        rw [List.getElem?_take, List.getElem?_take]
        split
        · rw [List.getElem?_drop, List.getElem?_drop, h _ (by omega)]
        · rfl
      rw [this]
  · rw [List.getElem?_eq_none (by rw [windowsLine_length]; omega), List.getElem?_eq_none (by rw [windowsLine_length]; omega)]

theorem onLength_causal {n : Nat} {f : List Val → List Val} (h : Causal f) : Causal (onLength n f) := by
  intro vs ws i hl hk
  unfold onLength
  rw [← hl]
  split
  · exact h vs ws i hl hk
  · exact hk i (le_refl _)

theorem moveBn_until {later : L → Prop} {f : Nat → List Val → List Val}
    (hf : ∀ (w : Nat) (vs : List Val), 1 ≤ w → w ≤ vs.length → (f w vs).length = vs.length) (hc : ∀ w, 1 ≤ w → Causal (f w))
    {y y' : Larry L} (hy : y.Valid) (hy' : y'.Valid) (h : y.Until later y') {window axis : Int}
    (hax : ∀ ax l, pyIdx y.ndim axis = some ax → y.label[ax]? = some l → InTime later l) :
    Res.Agree (Until later) (y.moveBn f window axis) (y'.moveBn f window axis) := by
  have hn : y'.ndim = y.ndim := by rw [← hy.label_length, ← hy'.label_length, h.label]
  simp only [moveBn, hn, ← h.dtype]
  cases hp : pyIdx y.ndim axis with
  | none => rfl
  | some ax =>
    obtain ⟨l, hl, -⟩ := label_at hy hp
    have hl' : y'.label[ax]? = some l := h.label ▸ hl
    have e1 : y.shape.getD ax 0 = l.length := by simp [Larry.shape, hy.shape_eq, hl]
    have e2 : y'.shape.getD ax 0 = l.length := by simp [Larry.shape, hy'.shape_eq, hl']
    simp only [e1, e2]
    by_cases hd : y.dtype.isNumeric = false
    · simp only [hd, if_true]; rfl
    · by_cases hw : window < 1 ∨ (l.length : Int) < window
      · simp only [if_neg hd, if_pos hw]; rfl
      · simp only [if_neg hd, if_neg hw]
        show Until later _ _
        rw [along_onLength hy hl, along_onLength hy' hl']
        exact along_until hy hy' h hl (onLength_length fun us hus => by rw [hf _ us (by omega) (by omega), hus]) _
          ((onLength_causal (hc _ (by omega))).looksBack (hax ax l hp hl))

theorem moveKind_until {later : L → Prop} (k : MoveKind) {y y' : Larry L} (hy : y.Valid) (hy' : y'.Valid)
    (h : y.Until later y') {window axis : Int}
    (hax : ∀ ax l, pyIdx y.ndim axis = some ax → y.label[ax]? = some l → InTime later l) :
    Res.Agree (Until later) (k.run y window axis) (k.run y' window axis) := by
  have run := fun out => moveBn_until (later := later) (f := bnMoveLine out) (fun _ _ h1 h2 => bnMoveLine_length out h1 h2)
    (fun _ h1 => bnMoveLine_causal out h1) hy hy' h (window := window) hax
  have win := fun g => moveBn_until (later := later) (f := windowsLine g) (fun _ _ _ _ => windowsLine_length _ _ _)
    (fun w _ => windowsLine_causal g w) hy hy' h (window := window) hax
  cases k
  · exact run _
  · exact run _
  · exact win _
  · exact win _
  · exact win _

/-- C107. The moving functions do not look ahead: where two larrys agree up to some label of the axis, so do the results. -/
theorem C107_no_look_ahead (k : MoveKind) {later : L → Prop} {y y' : Larry L} (hy : y.Valid) (hy' : y'.Valid)
    (h : y.Until later y') {window axis : Int}
    (hax : ∀ ax l, pyIdx y.ndim axis = some ax → y.label[ax]? = some l → InTime later l) :
    Res.Agree (Until later) (k.run y window axis) (k.run y' window axis) := moveKind_until k hy hy' h hax

/-! ## Backwards -/

theorem sumIs_noInf {w : List Flt} {q : Flt} (h : SumIs w q) (hn : NoInf w) :
    (finites w = [] → q = .nan) ∧ (finites w ≠ [] → q = .fin (finites w).sum) := by
  have e : there w = (finites w).map .fin := noInf_ok hn
  have := sumIs_eq h
  rw [sumOut, stateOf, e] at this
  constructor <;> intro hf
  · simpa [hf] using this
  · simpa [hf, flt_sum_fin] using this

theorem int_ne_nan {v : Val} (h : v.hasDType .int = true) : v.num ≠ .nan := by
  cases v <;> simp_all [Val.hasDType, Val.num]

theorem reverse_window (vs : List Val) {i window : Nat} (h : i + window ≤ vs.length) :
    (vs.reverse.drop (vs.length - i - window)).take window = ((vs.drop i).take window).reverse := by
  apply List.ext_getElem?
  intro k
  by_cases hk : k < window
  · rw [List.getElem?_take_of_lt hk, List.getElem?_drop, List.getElem?_reverse (by omega), List.getElem?_reverse (by simp; omega)]
    simp only [List.length_take, List.length_drop]
    rw [List.getElem?_take_of_lt (by omega), List.getElem?_drop]
    congr 1
    omega
  · rw [List.getElem?_eq_none (by simp; omega), List.getElem?_eq_none (by simp; omega)]

/-- C107. Without infinities, `movingsum_forward` with no skip is `move_sum` seen backwards: flip the axis, sum, flip back. -/
theorem C107_forward {y : Larry L} {window : Nat} {axis : Int} {ax : Nat} (h : CanSlide y window axis ax) (hn : y.NoInfs) :
    ∃ f s u z, y.flipaxis (some axis) = .ok f ∧ f.moveSum window axis = .ok s ∧ s.flipaxis (some axis) = .ok u ∧
      y.movingsumForward window 0 axis false = .ok z ∧ u.Same z := by
  obtain ⟨l, hl, hlt⟩ := label_at h.valid h.axis
  have hm : AxesMeant y.ndim (some axis) [ax] := by
    refine ⟨ax, rfl, pyIdx_lt h.axis, ?_⟩
    rcases (pyIdx_some.mp h.axis).2 with e | e <;> omega
  obtain ⟨f, ef, fv, fd, flen, flab, fhas⟩ := C25_flipaxis h.valid hm
  have fn : f.ndim = y.ndim := by rw [← fv.label_length, ← h.valid.label_length, flen]
  have hax := (List.getElem?_eq_some_iff.mp hl).1
  have fl : f.label = y.label.set ax l.reverse := by
    apply List.ext_getElem?
    intro k
    by_cases hk : k < y.label.length
    · have e1 := List.getElem?_eq_getElem hk
      have e2 := List.getElem?_eq_getElem (l := f.label) (i := k) (by omega)
      obtain ⟨g1, g2⟩ := flab k _ _ e1 e2
      rw [e2]
      by_cases hka : k = ax
      · subst hka
        rw [List.getElem?_set_self hk, g1 (by simp)]
        rw [e1] at hl
        cases hl
        rfl
      · rw [List.getElem?_set_ne (Ne.symm hka), e1, g2 (by simpa using hka)]
    · rw [List.getElem?_eq_none (by omega), List.getElem?_eq_none (by simp; omega)]
  have hfl : f.label[ax]? = some l.reverse := by rw [fl, List.getElem?_set_self hax]
  have hcs : CanSlide f window axis ax := by
    refine ⟨fv, ?_, fd ▸ h.dtype, h.pos, fn ▸ h.axis, fun l' hl' => ?_⟩
    · intro idx hi
      rw [fv.shape_eq] at hi
      obtain ⟨names, hat⟩ := At_of_inB hi
      obtain ⟨idx', hat', e⟩ := (fhas names _).mp ⟨idx, hat, rfl⟩
      rw [← e, fd]
      exact h.typed idx' (by rw [h.valid.shape_eq]; exact At_inB hat')
    · rw [hfl] at hl'
      cases hl'
      rw [List.length_reverse]
      exact h.fits l hl
  obtain ⟨s, es, hs⟩ := C107_sum hcs
  have sn : s.ndim = y.ndim := by rw [← hs.valid.label_length, hs.label, fv.label_length, fn]
  obtain ⟨u, eu, uv, ud, ulen, ulab, uhas⟩ := C25_flipaxis hs.valid (sn ▸ hm)
  obtain ⟨z, ez, zd, hz⟩ := C51_movingsum_forward (skip := 0) h.valid
    (by rcases h.dtype with e | e <;> rw [e] <;> exact ⟨by decide, by decide⟩) h.axis false h.pos fun l' hl' => ⟨h.fits l' hl', by omega⟩
  have hul : u.label = y.label := by
    apply List.ext_getElem?
    intro k
    by_cases hk : k < y.label.length
    · have hks : k < s.label.length := by rw [hs.label]; omega
      have e1 := List.getElem?_eq_getElem hks
      have e2 := List.getElem?_eq_getElem (l := u.label) (i := k) (by omega)
      obtain ⟨g1, g2⟩ := ulab k _ _ e1 e2
      have e3 : s.label[k]? = (y.label.set ax l.reverse)[k]? := by rw [hs.label, fl]
      rw [e2]
      by_cases hka : k = ax
      · subst hka
        rw [List.getElem?_set_self hk, e1] at e3
        rw [g1 (by simp), hl, Option.some.inj e3, List.reverse_reverse]
      · rw [List.getElem?_set_ne (Ne.symm hka), e1] at e3
        rw [g2 (by simpa using hka), e3]
    · rw [List.getElem?_eq_none (by rw [ulen, hs.label]; omega), List.getElem?_eq_none (by omega)]
  refine ⟨f, s, u, z, ef, es, eu, ez, same_of_has uv hz.valid (by rw [ud, hs.dtype, zd]) (by rw [hul, hz.label_eq])
    fun names hN => ?_⟩
  rw [hul] at hN
  obtain ⟨i, a, rest, ha, hr, rfl⟩ := named_split hl hN
  obtain ⟨vs, hline⟩ := lineAt_exists h.valid hl hr
  have hlen : vs.length = l.length := by
    obtain ⟨l', hl', e, -⟩ := hline
    rw [hl] at hl'
    cases hl'
    exact e
  have hi := (List.getElem?_eq_some_iff.mp ha).1
  -- the flipped line
  have hfline : f.LineAt ax rest vs.reverse := by
    refine ⟨_, hfl, by simp [hlen], fun k b w hb hw => ?_⟩
    have hk : k < l.length := by
      have := (List.getElem?_eq_some_iff.mp hb).1
      simpa using this
    rw [List.getElem?_reverse hk] at hb
    rw [List.getElem?_reverse (by omega)] at hw
    rw [hlen] at hw
    obtain ⟨l', hl', -, hh⟩ := hline
    rw [hl] at hl'
    cases hl'
    exact (fhas _ _).mpr (hh _ b w hb hw)
  have hfr : Named (f.label.eraseIdx ax) rest := by rw [fl, List.eraseIdx_set_eq]; exact hr
  obtain ⟨q, hq, q1, q2⟩ := hs.cell l.reverse (l.length - 1 - i) a rest vs.reverse hfl
    (by rw [List.getElem?_reverse (by omega)]; rw [← ha]; congr 1; omega) hfr hfline
  refine ⟨.flt q, (uhas _ _).mpr hq, ?_⟩
  -- the line of the result
  have hzl : z.label[ax]? = some l := by rw [hz.label_eq]; exact hl
  obtain ⟨ws, hws⟩ := lineAt_exists hz.valid hzl (by rw [hz.label_eq]; exact hr)
  have hni := NoInfs.line hn hline
  obtain ⟨m1, m2⟩ := hz.line rest vs ws hr hline hws hni (by
    rcases h.dtype with e | e
    · exact .inl e
    · refine .inr fun v hv => ?_
      have := line_typed h.typed h.valid hline v hv
      exact int_ne_nan (e ▸ this))
  have hiw : i < ws.length := by omega
  obtain ⟨p1, p2, p3⟩ := m2 i _ (List.getElem?_eq_getElem hiw)
  have hzh : z.Has (rest.insertIdx ax a) ws[i] := by
    obtain ⟨l', hl', -, hh⟩ := hws
    rw [hzl] at hl'
    cases hl'
    exact hh i a _ ha (List.getElem?_eq_getElem hiw)
  have key : ws[i] = .flt q := by
    simp only [Nat.add_zero] at p1 p2 p3
    by_cases hw : vs.length < i + window
    · rw [p1 hw, q1 (by omega)]
    · have hw' : i + window ≤ vs.length := by omega
      have q3 := (q2 (by omega)).1 (noInf_take (by rw [List.map_reverse]; exact fun x hx => hni x (List.mem_reverse.mp hx)) _)
      have ew : l.length - 1 - i + 1 - window = vs.length - i - window := by omega
      rw [ew, reverse_window vs hw', List.map_reverse] at q3
      have hnw : NoInf (((vs.drop i).take window).map Val.num).reverse := by
        intro x hx
        obtain ⟨v, hv, rfl⟩ := List.mem_map.mp (List.mem_reverse.mp hx)
        exact hni _ (List.mem_map_of_mem (List.mem_of_mem_drop (List.mem_of_mem_take hv)))
      obtain ⟨t1, t2⟩ := sumIs_noInf q3 hnw
      have ewin : windowAt vs i 0 window = ((vs.drop i).take window).map Val.num := by
        simp [windowAt, List.map_take, List.map_drop]
      rw [ewin] at p2 p3
      rw [finites_reverse] at t1 t2
      by_cases hfin : finites (((vs.drop i).take window).map Val.num) = []
      · rw [p2 hw' hfin, t1 (by rw [hfin]; rfl)]
      · rw [p3 hw' hfin, t2 (by rw [ne_eq, List.reverse_eq_nil_iff]; exact hfin), List.sum_reverse]
        simp
  rw [← key]
  exact hzh

/-! ### Cases -/

theorem exMoving_slides : CanSlide exMoving 2 (-1) 0 := by
  refine ⟨exMoving_can.valid, ?_, .inl rfl, by decide, rfl, exMoving_can.fits⟩
  intro idx hi
  match idx, hi with
  | [i], hi =>
    have h' : i < 5 := by simpa [exMoving, InB, NDArray.ofList] using hi
    interval_cases i <;> rfl

example : cellsOf (exMoving.moveSum 2) =
      some [.flt .nan, .flt (.fin 3), .flt (.fin 2), .flt (.fin 4), .flt (.fin 7)] ∧
    cellsOf (exMoving.moveMean 2) =
      some [.flt .nan, .flt (.fin (3 / 2)), .flt (.fin 2), .flt (.fin 4), .flt (.fin (7 / 2))] ∧
    cellsOf (exMoving.moveMin 2) =
      some [.flt .nan, .flt (.fin 1), .flt (.fin 2), .flt (.fin 4), .flt (.fin 3)] ∧
    cellsOf (exMoving.moveMax 2) =
      some [.flt .nan, .flt (.fin 2), .flt (.fin 2), .flt (.fin 4), .flt (.fin 4)] ∧
    cellsOf (exMoving.moveStd id 2) =
      some [.flt .nan, .flt (.fin (1 / 4)), .flt (.fin 0), .flt (.fin 0), .flt (.fin (1 / 4))] := by
  refine ⟨?_, ?_, ?_, ?_, ?_⟩ <;> decide +kernel

example : exMoving.NoInfs := by
  rintro names v ⟨idx, hat, rfl⟩
  have hi : InB exMoving.x.shape idx := by rw [exMoving_can.valid.shape_eq]; exact At_inB hat
  match idx, hi with
  | [i], hi =>
    have h' : i < 5 := by simpa [exMoving, InB, NDArray.ofList] using hi
    interval_cases i <;> exact ⟨by decide +kernel, by decide +kernel⟩

/-- `larry([1., inf, 2., 3., 4.])`. -/
def exSpike : Larry Nat :=
  ⟨NDArray.ofList [5] [.flt (.fin 1), .flt .pinf, .flt (.fin 2), .flt (.fin 3), .flt (.fin 4)], .float, [[0, 1, 2, 3, 4]]⟩

/-- It lies in memory with 8-byte elements. -/
def exSpikeBuf (a : Int) : Val := exSpike.x.get [a.toNat / 8]

/-- C107. One infinity spoils the running sum for the rest of the line, and only the windows that hold it when each is summed
afresh: `move_sum(2)` of 1, inf, 2, 3, 4 ends in NaN, NaN where `move_func(bn.nansum, 2)` ends in 5, 7. -/
theorem C107_spoilt :
    cellsOf (exSpike.moveSum 2) = some [.flt .nan, .flt .pinf, .flt .pinf, .flt .nan, .flt .nan] ∧
    cellsOf (exSpike.moveStat bnNansum exSpikeBuf exMovingAt 2 (some (-1)) .loop) =
      some [.flt .nan, .flt .pinf, .flt .pinf, .flt (.fin 5), .flt (.fin 7)] := by
  constructor <;> decide +kernel

end La
