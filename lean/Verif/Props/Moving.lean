import Verif.Moving
import Verif.Props.Move
import Verif.Props.Axes
import Verif.Props.Structure
import Verif.Props.Stats
import Verif.Props.Ranking
import Verif.Props.Normalize

/-!
# Property C97: moving statistics are the ordinary statistics of the last window
-/

namespace La

open Larry
variable {L : Type _}

/-- The arguments of a moving call that is carried out: a method that takes the number of axes, a window that
fits into the axis, and the larry as it lies in memory. -/
structure CanMove (y : Larry L) (buf : Int → Val) (arr : Strided) (window : Nat) (axis : Int) (ax : Nat)
    (m : MoveMethod) : Prop where
  valid : y.Valid
  stored : StoredAs y buf arr
  method : m = .loop ∨ m = .strides ∧ y.ndim ≤ 3
  pos : 1 ≤ window
  axis : pyIdx y.ndim axis = some ax
  fits : ∀ l, y.label[ax]? = some l → window ≤ l.length

/-- `indices = range(i + 1 - window, i + 1)`, the positions of the window that ends at `i`. -/
def windowEnding (i window : Nat) : List Int := (List.range' (i + 1 - window) window).map Int.ofNat

theorem named_insert {y : Larry L} {ax : Nat} {l : List L} (hl : y.label[ax]? = some l) {rest : List L}
    (hr : Named (y.label.eraseIdx ax) rest) {i : Nat} {a : L} (ha : l[i]? = some a) :
    Named y.label (rest.insertIdx ax a) := by
  obtain ⟨ridx, hat⟩ := At_of_Named hr
  obtain ⟨e1, e2⟩ := eraseIdx_insertIdx_label hl
  obtain ⟨h1, h2⟩ := At_length hat
  have hax := (List.getElem?_eq_some_iff.mp hl).1
  have : At y.label (ridx.insertIdx ax i) (rest.insertIdx ax a) := by
    rw [← e1, At_insertIdx (by omega) h1 h2]
    exact ⟨hat, ha⟩
  exact Named_of_At this

theorem named_split {label : List (List L)} {ax : Nat} {l : List L} (hl : label[ax]? = some l) {names : List L}
    (hn : Named label names) : ∃ (i : Nat) (a : L) (rest : List L), l[i]? = some a ∧
      Named (label.eraseIdx ax) rest ∧ names = rest.insertIdx ax a := by
  obtain ⟨idx, hat⟩ := At_of_Named hn
  obtain ⟨h1, h2⟩ := At_length hat
  have hax := (List.getElem?_eq_some_iff.mp hl).1
  obtain ⟨i, ridx, hi, hi', -⟩ := exists_insertIdx (l := idx) (k := ax) (by omega)
  obtain ⟨a, rest, ha, ha', -⟩ := exists_insertIdx (l := names) (k := ax) (by omega)
  obtain ⟨e1, e2⟩ := eraseIdx_insertIdx_label hl
  rw [hi, ha, ← e1, At_insertIdx (by omega) (by rw [hi', List.length_eraseIdx_of_lt (by omega)]; omega)
    (by rw [ha', List.length_eraseIdx_of_lt (by omega)]; omega)] at hat
  exact ⟨i, a, rest, hat.2, Named_of_At hat.1, ha⟩

theorem lineAt_exists {y : Larry L} (hv : y.Valid) {ax : Nat} {l : List L} (hl : y.label[ax]? = some l)
    {rest : List L} (hr : Named (y.label.eraseIdx ax) rest) : ∃ vs, y.LineAt ax rest vs := by
  obtain ⟨ridx, hat⟩ := At_of_Named hr
  exact ⟨_, line_at hv hl hat⟩

/-- The window as a larry of its own has the window of each line as its line. -/
theorem window_part [LinearOrder L] {y : Larry L} (hv : y.Valid) {axis : Int} {ax : Nat}
    (hax : pyIdx y.ndim axis = some ax) {l : List L} (hl : y.label[ax]? = some l) {i window : Nat}
    (h1 : window ≤ i + 1) (hi : i < l.length) :
    ∃ part, y.take (windowEnding i window) axis = .ok part ∧
      part.PartOf y (y.label.set ax ((l.drop (i + 1 - window)).take window)) ∧
      ∀ rest vs, y.LineAt ax rest vs → part.LineAt ax rest ((vs.drop (i + 1 - window)).take window) := by
  have hf : List.Forall₂ (fun (j : Int) k => pyIdx l.length j = some k) (windowEnding i window)
      (List.range' (i + 1 - window) window) := by
    unfold windowEnding
    rw [List.forall₂_map_left_iff, List.forall₂_same]
    intro k hk
    rw [List.mem_range'_1] at hk
    simp only [pyIdx, Int.ofNat_eq_natCast]
    split_ifs <;> first | omega | simp
  obtain ⟨part, lab, e, hlab, hp⟩ := C34_take hv hax hl hf List.nodup_range'
  have hlab' : lab = (l.drop (i + 1 - window)).take window := by
    apply List.ext_getElem?
    intro k
    have := congrArg (fun s => s[k]?) hlab
    simp only [List.getElem?_map] at this
    rw [List.getElem?_take, List.getElem?_drop]
    by_cases hk : k < window
    · rw [List.getElem?_range' hk, Option.map_some, if_pos hk] at *
      simp only [Nat.one_mul] at this
      cases hlk : lab[k]? with
      | none => rw [hlk] at this; simp at this
      | some b => rw [hlk] at this; simpa using this
    · rw [if_neg hk]
      rw [List.getElem?_eq_none (l := List.range' (i + 1 - window) window) (by simpa using hk)] at this
      cases hlk : lab[k]? with
      | none => rfl
      | some b => rw [hlk] at this; simp at this
  subst hlab'
  refine ⟨part, e, hp, fun rest vs hline => ?_⟩
  obtain ⟨l', hl', hlen, hh⟩ := hline
  rw [hl] at hl'
  cases hl'
  have haxlt := (List.getElem?_eq_some_iff.mp hl).1
  refine ⟨_, by rw [hp.label_eq, List.getElem?_set_self haxlt], by simp [hlen], fun j b w hb hw => ?_⟩
  rw [List.getElem?_take, List.getElem?_drop] at hb hw
  split_ifs at hb hw with hj
  have hy := hh _ b w hb hw
  refine (hp.has _ _).mpr ⟨?_, hy⟩
  obtain ⟨hx, n, hn, -⟩ := (Named_iff_except hl).mp (Named_of_Holds hy)
  refine (Named_set_iff haxlt).mpr ⟨hx, n, hn, ?_⟩
  have hn' : n = b := by
    rw [List.getElem?_insertIdx_self] at hn
    split_ifs at hn
    simpa using hn.symm
  subst hn'
  refine List.mem_of_getElem? (i := j) ?_
  rw [List.getElem?_take, List.getElem?_drop, if_pos hj, hb]

theorem moved_has {f : List Val → Val} {window : Nat} {y z : Larry L} {ax : Nat} (h : y.Along z ax (Moved f window)) {l : List L} (hl : y.label[ax]? = some l) {i : Nat} {a : L}
    (ha : l[i]? = some a) {rest : List L} {vs : List Val} (hline : y.LineAt ax rest vs)
    (hr : Named (y.label.eraseIdx ax) rest) :
    z.Has (rest.insertIdx ax a) (if i + 1 < window then .flt .nan
      else (f ((vs.drop (i + 1 - window)).take window)).toFloat) := by
  obtain ⟨v, hz⟩ := Holds_of_Named (x := z.x) (label := z.label) (names := rest.insertIdx ax a)
    (by rw [h.label_eq]; exact named_insert hl hr ha)
  have hm := h.cell rest vs l i a v hline hl ha hz
  split_ifs with hi
  · rw [← hm.1 hi]; exact hz
  · rw [← hm.2 (by omega)]; exact hz

theorem moveStat_ok (r : Red) {y : Larry L} {buf : Int → Val} {arr : Strided} {window : Nat} {axis : Int} {ax : Nat}
    {m : MoveMethod} (h : CanMove y buf arr window axis ax m) {d : DType} (hd : r.dt y.dtype = .ok d) {l : List L}
    (hl : y.label[ax]? = some l) :
    ∃ z, y.moveStat r buf arr window (some axis) m = .ok z ∧ z.dtype = .float ∧ y.Along z ax (Moved r.f window) := by
  obtain ⟨z, e, hz, ha⟩ := C50_move_func (f := r.f) h.valid h.stored h.method h.pos h.axis hl (h.fits l hl)
  exact ⟨z, by simp only [moveStat, e, hd], hz, ha⟩

theorem PartOf_size {y part : Larry L} (hv : y.Valid) {ax : Nat} {lab : List L}
    (hp : part.PartOf y (y.label.set ax lab)) (hne : lab ≠ []) (hsz : y.shape.prod ≠ 0) : part.shape.prod ≠ 0 := by
  have key : ∀ s : List Nat, (∀ n ∈ s, n ≠ 0) → s.prod ≠ 0 := by
    intro s
    induction s with
    | nil => simp
    | cons n s ih =>
      intro h
      rw [List.prod_cons]
      exact Nat.mul_ne_zero (h n List.mem_cons_self) (ih fun k hk => h k (List.mem_cons_of_mem _ hk))
  refine key _ fun n hn h0 => ?_
  subst h0
  have e : part.shape = part.label.map List.length := hp.valid.shape_eq
  rw [e, hp.label_eq, List.mem_map] at hn
  obtain ⟨ls, hm, h0⟩ := hn
  rcases List.mem_or_eq_of_mem_set hm with hm | rfl
  · refine hsz (prod_eq_zero_of_mem ?_)
    have e' : y.shape = y.label.map List.length := hv.shape_eq
    rw [e', List.mem_map]
    exact ⟨ls, hm, h0⟩
  · exact hne (List.length_eq_zero_iff.mp h0)

/-- C97. A moving statistic at a label is the ordinary statistic of the larry that holds the window ending there:
`y.move_func(f, window, axis)` under the names `rest` and the label `a` at position `i` is
`f(y.take(range(i+1-window, i+1), axis), axis)` under `rest`, as a float, and NaN where the window is not full. -/
theorem C97_window [LinearOrder L] (r : Red) {y : Larry L} {buf : Int → Val} {arr : Strided} {window : Nat} {axis : Int}
    {ax : Nat} {m : MoveMethod} (h : CanMove y buf arr window axis ax m) {d : DType} (hd : r.dt y.dtype = .ok d)
    (hsz : y.shape.prod ≠ 0) {l : List L} (hl : y.label[ax]? = some l) :
    ∃ z, y.moveStat r buf arr window (some axis) m = .ok z ∧ z.Valid ∧ z.dtype = .float ∧ z.label = y.label ∧
      ∀ (i : Nat) (a : L) (rest : List L), l[i]? = some a → Named (y.label.eraseIdx ax) rest →
        (i + 1 < window → z.Has (rest.insertIdx ax a) (.flt .nan)) ∧
        (window ≤ i + 1 → ∃ part, y.take (windowEnding i window) axis = .ok part ∧
          (2 ≤ y.ndim → ∃ s v, part.reduce r (some axis) = .ok (.larry s) ∧ s.Has rest v ∧
            z.Has (rest.insertIdx ax a) v.toFloat) ∧
          (y.ndim = 1 → ∃ v, part.reduce r (some axis) = .ok (.scalar v) ∧ z.Has [a] v.toFloat)) := by
  have hv := h.valid
  obtain ⟨z, e, hz, hal⟩ := moveStat_ok r h hd hl
  refine ⟨z, e, hal.valid, hz, hal.label_eq, fun i a rest ha hr => ?_⟩
  obtain ⟨vs, hline⟩ := lineAt_exists hv hl hr
  have hcell := moved_has hal hl ha hline hr
  refine ⟨fun hi => by rwa [if_pos hi] at hcell, fun hi => ?_⟩
  rw [if_neg (by omega)] at hcell
  have hil := (List.getElem?_eq_some_iff.mp ha).1
  obtain ⟨part, et, hp, hpl⟩ := window_part hv h.axis hl hi hil
  have hnd : part.ndim = y.ndim := by
    have e1 := hp.valid.label_length
    have e2 := hv.label_length
    rw [hp.label_eq, List.length_set] at e1
    omega
  have hsz' := PartOf_size hv hp (by
    have h1 := h.pos
    intro h0
    have := congrArg List.length h0
    simp at this
    omega) hsz
  have haxlt := (List.getElem?_eq_some_iff.mp hl).1
  refine ⟨part, et, fun h2 => ?_, fun h1 => ?_⟩
  · obtain ⟨s, es, -, -, hsl, hsc⟩ := C42_reduce_axis r hp.valid (by rw [hp.dtype_eq]; exact hd) hsz'
      (by rw [hnd]; exact h.axis) (by rw [hnd]; exact h2)
    refine ⟨s, _, es, (hsc rest _).mpr ⟨?_, _, hpl rest vs hline, rfl⟩, hcell⟩
    rw [hsl, hp.label_eq, List.eraseIdx_set_eq]
    exact hr
  · have hax0 : ax = 0 := by have := hv.label_length; omega
    subst hax0
    have hrest : rest = [] := by
      have := (Named_iff.mp hr).1
      rw [List.length_eraseIdx_of_lt haxlt, hv.label_length, h1] at this
      exact List.length_eq_zero_iff.mp this
    subst hrest
    obtain ⟨ws, hws, es⟩ := C42_reduce_1d r hp.valid (by rw [hp.dtype_eq]; exact hd) hsz' (by rw [hnd]; exact h1)
      (axis := axis) (by
        have := h.axis
        rw [h1] at this
        simp only [pyIdx] at this
        split_ifs at this <;> omega)
    rw [Larry.LineAt.unique hp.valid hws (hpl [] vs hline)] at es
    exact ⟨_, es, hcell⟩

/-- C97. `move_median`: NaN where the window is not full, then the median of the numbers in the window. -/
theorem C97_median {y : Larry L} {buf : Int → Val} {arr : Strided} {window : Nat} {axis : Int} {ax : Nat}
    {m : MoveMethod} (h : CanMove y buf arr window axis ax m)
    (hd : y.dtype = .float ∨ y.dtype = .int ∨ y.dtype = .bool) {l : List L} (hl : y.label[ax]? = some l) :
    ∃ z, y.moveMedian buf arr window (some axis) m = .ok z ∧ z.Valid ∧ z.dtype = .float ∧ z.label = y.label ∧
      ∀ (i : Nat) (a : L) (rest : List L) (vs : List Val), l[i]? = some a → Named (y.label.eraseIdx ax) rest →
        y.LineAt ax rest vs → ∃ q, z.Has (rest.insertIdx ax a) (.flt q) ∧ (i + 1 < window → q = .nan) ∧
          (window ≤ i + 1 → MedianIs (((vs.drop (i + 1 - window)).take window).map Val.num) q) := by
  obtain ⟨z, e, hz, hal⟩ := moveStat_ok bnNanmedian h (statDType_ok hd) hl
  refine ⟨z, e, hal.valid, hz, hal.label_eq, fun i a rest vs ha hr hline => ?_⟩
  have hcell := moved_has hal hl ha hline hr
  by_cases hi : i + 1 < window
  · rw [if_pos hi] at hcell
    exact ⟨_, hcell, fun _ => rfl, fun h => by omega⟩
  · rw [if_neg hi] at hcell
    exact ⟨_, hcell, fun h => absurd h hi, fun _ => median_is _⟩

theorem lastrankRed_dt {d : DType} (hd : d = .float ∨ d = .int ∨ d = .bool) : lastrankRed.dt d = .ok .float := by
  rcases hd with rfl | rfl | rfl <;> rfl

theorem lastrankLine_flt (vs : List Val) : ∃ q, lastrankLine vs = .flt q := by
  simp only [lastrankLine]
  split_ifs <;> exact ⟨_, rfl⟩

/-- C97. `move_ranking`: NaN where the window is not full, then the place of the newest value among the finite
numbers of the window, from -1 (smallest) to 1 (largest). -/
theorem C97_ranking {y : Larry L} {buf : Int → Val} {arr : Strided} {window : Nat} {axis : Int} {ax : Nat}
    {m : MoveMethod} (h : CanMove y buf arr window axis ax m)
    (hd : y.dtype = .float ∨ y.dtype = .int ∨ y.dtype = .bool) {l : List L} (hl : y.label[ax]? = some l) :
    ∃ z, y.moveRanking buf arr window (some axis) m = .ok z ∧ z.Valid ∧ z.dtype = .float ∧ z.label = y.label ∧
      ∀ (i : Nat) (a : L) (rest : List L) (vs : List Val), l[i]? = some a → Named (y.label.eraseIdx ax) rest →
        y.LineAt ax rest vs → ∃ q, z.Has (rest.insertIdx ax a) (.flt q) ∧ (i + 1 < window → q = .nan) ∧
          (window ≤ i + 1 → NoInf (((vs.drop (i + 1 - window)).take window).map Val.num) →
            LastRanked ((vs.drop (i + 1 - window)).take window) (.flt q)) := by
  obtain ⟨z, e, hz, hal⟩ := moveStat_ok lastrankRed h (lastrankRed_dt hd) hl
  refine ⟨z, e, hal.valid, hz, hal.label_eq, fun i a rest vs ha hr hline => ?_⟩
  have hcell := moved_has hal hl ha hline hr
  by_cases hi : i + 1 < window
  · rw [if_pos hi] at hcell
    exact ⟨_, hcell, fun _ => rfl, fun h => by omega⟩
  · rw [if_neg hi] at hcell
    obtain ⟨q, hq⟩ := lastrankLine_flt ((vs.drop (i + 1 - window)).take window)
    have e1 : lastrankRed.f ((vs.drop (i + 1 - window)).take window) = .flt q := hq
    rw [e1] at hcell
    refine ⟨q, hcell, fun h => absurd h hi, fun _ hinf => ?_⟩
    rw [← hq]
    refine lastrank_line _ ?_ hinf
    have h1 := h.pos
    have h2 := (List.getElem?_eq_some_iff.mp ha).1
    obtain ⟨l', hl', hlen, -⟩ := hline
    rw [hl] at hl'
    cases hl'
    intro h0
    have := congrArg List.length h0
    simp at this
    omega

/-- C97. Text and objects are refused with a TypeError, after the arguments have been accepted. -/
theorem C97_refused {y : Larry L} {buf : Int → Val} {arr : Strided} {window : Nat} {axis : Int} {ax : Nat}
    {m : MoveMethod} (h : CanMove y buf arr window axis ax m) (hd : y.dtype = .str ∨ y.dtype = .object) :
    y.moveMedian buf arr window (some axis) m = .error .typeError ∧
    y.moveRanking buf arr window (some axis) m = .error .typeError := by
  obtain ⟨l, hl, -⟩ := label_at h.valid h.axis
  constructor
  · obtain ⟨z, e, -⟩ := C50_move_func (f := bnNanmedian.f) h.valid h.stored h.method h.pos h.axis hl (h.fits l hl)
    simp only [moveMedian, moveStat, e]
    rcases hd with h | h <;> rw [h] <;> rfl
  · obtain ⟨z, e, -⟩ := C50_move_func (f := lastrankRed.f) h.valid h.stored h.method h.pos h.axis hl (h.fits l hl)
    simp only [moveRanking, moveStat, e]
    rcases hd with h | h <;> rw [h] <;> rfl

/-- C97. Arguments that are refused with a ValueError whatever the larry holds: a window below one or longer than
the axis, `axis=None`, 'strides' with more than three axes, and a method that is neither 'loop' nor 'strides'. -/
theorem C97_arguments (r : Red) (buf : Int → Val) (arr : Strided) (y : Larry L) (window : Int) (m : MoveMethod) :
    (∀ axis, window < 1 → y.moveStat r buf arr window axis m = .error .valueError) ∧
    (y.moveStat r buf arr window none m = .error .valueError) ∧
    (∀ axis ax, pyIdx arr.shape.length axis = some ax → (arr.shape.getD ax 0 : Int) < window →
      y.moveStat r buf arr window (some axis) m = .error .valueError) ∧
    (∀ axis ax, pyIdx arr.shape.length axis = some ax → 3 < arr.shape.length →
      y.moveStat r buf arr window (some axis) .strides = .error .valueError) ∧
    (∀ axis, y.moveStat r buf arr window axis .unknown = .error .valueError) := by
  obtain ⟨h1, h2, h3, -, h5⟩ := C50_errors r.f buf arr window m
  refine ⟨fun axis h => ?_, ?_, fun axis ax h h' => ?_, fun axis ax h h' => ?_, fun axis => rfl⟩
  · simp only [moveStat, Larry.moveFunc, h1 axis h]
  · simp only [moveStat, Larry.moveFunc, h2]
  · simp only [moveStat, Larry.moveFunc, h3 axis ax h h']
  · simp only [moveStat, Larry.moveFunc, h5 axis ax h h']

/-- C97. 'loop' and 'strides' give the same larry, wherever the larry lies in memory. -/
theorem C97_method (r : Red) {y : Larry L} {buf buf' : Int → Val} {arr arr' : Strided} {window : Nat} {axis : Int}
    {ax : Nat} {m m' : MoveMethod} (h : CanMove y buf arr window axis ax m) (h' : CanMove y buf' arr' window axis ax m')
    {d : DType} (hd : r.dt y.dtype = .ok d) :
    ∃ z z', y.moveStat r buf arr window (some axis) m = .ok z ∧ y.moveStat r buf' arr' window (some axis) m' = .ok z' ∧
      z.Same z' := by
  obtain ⟨l, hl, -⟩ := label_at h.valid h.axis
  obtain ⟨z, e, hz, hal⟩ := moveStat_ok r h hd hl
  obtain ⟨z', e', hz', hal'⟩ := moveStat_ok r h' hd hl
  refine ⟨z, z', e, e', hal.valid.same_of_has hal'.valid (hal.label_eq.trans hal'.label_eq.symm) (hz.trans hz'.symm) ?_⟩
  intro names v hv
  have hN : Named y.label names := by rw [← hal.label_eq]; exact Named_of_Holds hv
  obtain ⟨i, a, rest, ha, hr, rfl⟩ := named_split hl hN
  obtain ⟨vs, hline⟩ := lineAt_exists h.valid hl hr
  have h1 := moved_has hal hl ha hline hr
  have h2 := moved_has hal' hl ha hline hr
  rw [Holds_unique hal.valid.nodup hv h1]
  exact h2

/-! ### Windows of one element and of the whole axis -/

/-- C97. With a window of one `move_median` is the larry as floats, and `move_ranking` has nothing to compare the
value with: NaN everywhere. -/
theorem C97_one {y : Larry L} {buf : Int → Val} {arr : Strided} {axis : Int} {ax : Nat}
    {m : MoveMethod} (h : CanMove y buf arr 1 axis ax m) (hd : y.dtype = .float ∨ y.dtype = .int ∨ y.dtype = .bool) :
    (∃ z, y.moveMedian buf arr (1 : Nat) (some axis) m = .ok z ∧ z.label = y.label ∧
      ∀ names v, y.Has names v → z.Has names (.flt v.num)) ∧
    (∃ z, y.moveRanking buf arr (1 : Nat) (some axis) m = .ok z ∧ z.label = y.label ∧
      ∀ names, Named y.label names → z.Has names (.flt .nan)) := by
  obtain ⟨l, hl, -⟩ := label_at h.valid h.axis
  have key : ∀ {names v}, y.Has names v → ∃ (i : Nat) (a : L) (rest : List L) (vs : List Val), l[i]? = some a ∧
      Named (y.label.eraseIdx ax) rest ∧ names = rest.insertIdx ax a ∧ y.LineAt ax rest vs ∧
      (vs.drop (i + 1 - 1)).take 1 = [v] := by
    intro names v hv
    obtain ⟨i, a, rest, ha, hr, rfl⟩ := named_split hl (Named_of_Holds hv)
    obtain ⟨vs, hline⟩ := lineAt_exists h.valid hl hr
    refine ⟨i, a, rest, vs, ha, hr, rfl, hline, ?_⟩
    obtain ⟨l', hl', hlen, hh⟩ := hline
    rw [hl] at hl'
    cases hl'
    have hi : i < vs.length := by rw [hlen]; exact (List.getElem?_eq_some_iff.mp ha).1
    have hw := hh i a vs[i] ha (List.getElem?_eq_getElem hi)
    rw [Holds_unique h.valid.nodup hv hw, Nat.add_sub_cancel, List.drop_eq_getElem_cons hi]
    rfl
  constructor
  · obtain ⟨z, e, -, hal⟩ := moveStat_ok bnNanmedian h (statDType_ok hd) hl
    refine ⟨z, e, hal.label_eq, fun names v hv => ?_⟩
    obtain ⟨i, a, rest, vs, ha, hr, rfl, hline, hw⟩ := key hv
    have hcell := moved_has hal hl ha hline hr
    rw [if_neg (by omega), hw] at hcell
    have e1 : (bnNanmedian.f [v]).toFloat = .flt v.num := by
      show Val.flt (medianOf [v.num]) = _
      cases v.num <;> simp [medianOf, Flt.isNan]
    rwa [e1] at hcell
  · obtain ⟨z, e, -, hal⟩ := moveStat_ok lastrankRed h (lastrankRed_dt hd) hl
    refine ⟨z, e, hal.label_eq, fun names hN => ?_⟩
    obtain ⟨v, hv⟩ := Holds_of_Named (x := y.x) hN
    obtain ⟨i, a, rest, vs, ha, hr, rfl, hline, hw⟩ := key hv
    have hcell := moved_has hal hl ha hline hr
    rw [if_neg (by omega), hw] at hcell
    have e1 : (lastrankRed.f [v]).toFloat = .flt .nan := by
      show (lastrankLine [v]).toFloat = _
      cases hn : v.num with
      | fin q =>
        rw [(lastrank_line [v] (by simp) (by simp [NoInf, hn])).2.2 (by simp [hn, finites])]
        rfl
      | _ => simp [lastrankLine, hn, Flt.isFinite, Val.toFloat]
    rwa [e1] at hcell

/-- C97. With a window as long as the axis the value at the last label is the ordinary statistic of the larry. -/
theorem C97_whole (r : Red) {y : Larry L} {buf : Int → Val} {arr : Strided} {window : Nat} {axis : Int}
    {ax : Nat} {m : MoveMethod} (h : CanMove y buf arr window axis ax m) {d : DType} (hd : r.dt y.dtype = .ok d)
    (hsz : y.shape.prod ≠ 0) (h2 : 2 ≤ y.ndim) {l : List L} (hl : y.label[ax]? = some l) (hw : l.length = window)
    {a : L} (ha : l.getLast? = some a) :
    ∃ z s, y.moveStat r buf arr window (some axis) m = .ok z ∧ y.reduce r (some axis) = .ok (.larry s) ∧
      ∀ rest v, s.Has rest v → z.Has (rest.insertIdx ax a) v.toFloat := by
  obtain ⟨z, e, -, hal⟩ := moveStat_ok r h hd hl
  obtain ⟨s, es, -, -, hsl, hsc⟩ := C42_reduce_axis r h.valid hd hsz h.axis h2
  refine ⟨z, s, e, es, fun rest v hs => ?_⟩
  obtain ⟨hN, vs, hline, rfl⟩ := (hsc rest v).mp hs
  rw [hsl] at hN
  have hp := h.pos
  rw [List.getLast?_eq_getElem?] at ha
  have hcell := moved_has hal hl ha hline hN
  rw [if_neg (by omega)] at hcell
  have hlen : vs.length = window := by
    obtain ⟨l', hl', hlen, -⟩ := hline
    rw [hl] at hl'
    cases hl'
    omega
  have e0 : l.length - 1 + 1 - window = 0 := by omega
  rwa [e0, List.drop_zero, List.take_of_length_le (by omega)] at hcell

/-! ### Lags -/

theorem set_insertIdx {α : Type _} (l : List α) (ax : Nat) (a b : α) :
    (l.insertIdx ax a).set ax b = if ax ≤ l.length then l.insertIdx ax b else l := by
  induction l generalizing ax with
  | nil => cases ax <;> simp
  | cons c l ih =>
    cases ax with
    | zero => simp
    | succ ax =>
      simp only [List.insertIdx_succ_cons, List.set_cons_succ, ih, List.length_cons]
      split_ifs <;> first | rfl | omega

theorem eraseIdx_length_le {y : Larry L} {ax : Nat} {l : List L} (hl : y.label[ax]? = some l) {rest : List L}
    (hr : Named (y.label.eraseIdx ax) rest) : ax ≤ rest.length := by
  have := (Named_iff.mp hr).1
  have hax := (List.getElem?_eq_some_iff.mp hl).1
  rw [this, List.length_eraseIdx_of_lt hax]
  omega

/-- C97. Lagging and taking moving statistics commute: `y.lag(k).move_func(f, window)` is
`y.move_func(f, window).lag(k)` for `k >= 0`. -/
theorem C97_lag (r : Red) {y yl : Larry L} {buf buf' : Int → Val} {arr arr' : Strided} {window : Nat} {axis : Int}
    {ax : Nat} {m m' : MoveMethod} {k : Nat} (h : CanMove y buf arr window axis ax m)
    (hlag : y.lag k (some axis) = .ok yl) (h' : CanMove yl buf' arr' window axis ax m') {d : DType}
    (hd : r.dt y.dtype = .ok d) :
    ∃ z zl z', y.moveStat r buf arr window (some axis) m = .ok z ∧ z.lag k (some axis) = .ok zl ∧
      yl.moveStat r buf' arr' window (some axis) m' = .ok z' ∧ z'.Same zl := by
  have hv := h.valid
  obtain ⟨l, hl, -⟩ := label_at hv h.axis
  obtain ⟨z, e, hz, hal⟩ := moveStat_ok r h hd hl
  have hzl : z.label[ax]? = some l := by rw [hal.label_eq]; exact hl
  have hzax : pyIdx z.ndim axis = some ax := by
    rw [← hal.valid.label_length, hal.label_eq, hv.label_length]; exact h.axis
  rcases Nat.eq_zero_or_pos k with rfl | hk
  · rw [show ((0 : Nat) : Int) = 0 from rfl, (C26_lag hv h.axis hl).1] at hlag
    cases hlag
    obtain ⟨z', z1, e2, e1, hs⟩ := C97_method r h' h hd
    rw [e] at e1
    cases e1
    exact ⟨z, z, z', e, (C26_lag hal.valid hzax hzl).1, e2, hs⟩
  obtain ⟨yl', ey, hyv, hyd, hyl, hyh⟩ := (C26_lag hv h.axis hl).2.1 k hk
  rw [hlag] at ey
  cases ey
  obtain ⟨zl, ez, hzv, hzd, hzlab, hzh⟩ := (C26_lag hal.valid hzax hzl).2.1 k hk
  have haxlt := (List.getElem?_eq_some_iff.mp hl).1
  have hll : yl.label[ax]? = some (l.drop k) := by rw [hyl, List.getElem?_set_self haxlt]
  obtain ⟨z', e', hz', hal'⟩ := moveStat_ok r h' (by rw [hyd]; exact hd) hll
  refine ⟨z, zl, z', e, ez, e', hal'.valid.same_of_has hzv (by rw [hal'.label_eq, hyl, hzlab, hal.label_eq])
    (by rw [hz', hzd, hz]) fun names v hv' => ?_⟩
  have hN : Named yl.label names := by rw [← hal'.label_eq]; exact Named_of_Holds hv'
  obtain ⟨i, b, rest, hb, hr, rfl⟩ := named_split hll hN
  have hr' : Named (y.label.eraseIdx ax) rest := by
    rw [hyl, List.eraseIdx_set_eq] at hr; exact hr
  have hle := eraseIdx_length_le hl hr'
  obtain ⟨vs, hline⟩ := lineAt_exists hv hl hr'
  have hlen : vs.length = l.length := by
    obtain ⟨l', hl', hlen, -⟩ := hline
    rw [hl] at hl'
    cases hl'
    exact hlen
  have hline' : yl.LineAt ax rest (vs.take (l.length - k)) := by
    obtain ⟨l', hl', -, hh⟩ := hline
    rw [hl] at hl'
    cases hl'
    refine ⟨_, hll, by simp [hlen], fun j c w hc hw => ?_⟩
    rw [List.getElem?_drop, Nat.add_comm] at hc
    rw [List.getElem?_take] at hw
    split_ifs at hw with hj
    obtain ⟨c', hc'⟩ : ∃ c', l[j]? = some c' := ⟨_, List.getElem?_eq_getElem (by omega)⟩
    have := (hyh j c c' (rest.insertIdx ax c') w hc hc').mpr (by
      rw [set_insertIdx, if_pos hle]; exact hh j c' w hc' hw)
    rwa [set_insertIdx, if_pos hle] at this
  have h1 := moved_has hal' hll hb hline' hr
  rw [List.getElem?_drop, Nat.add_comm] at hb
  have hik := (List.getElem?_eq_some_iff.mp hb).1
  obtain ⟨c, hc⟩ : ∃ c, l[i]? = some c := ⟨_, List.getElem?_eq_getElem (by omega)⟩
  have h2 := moved_has hal hl hc hline hr'
  have h3 := (hzh i b c (rest.insertIdx ax c) _ hb hc).mpr (by
    rw [set_insertIdx, if_pos hle]; exact h2)
  rw [set_insertIdx, if_pos hle] at h3
  rw [Holds_unique hal'.valid.nodup hv' h1]
  have hw : i + 1 < window ∨ (((vs.take (l.length - k)).drop (i + 1 - window)).take window =
      (vs.drop (i + 1 - window)).take window) := by
    by_cases hi : i + 1 < window
    · exact .inl hi
    · right
      rw [List.drop_take, List.take_take]
      congr 1
      omega
  rcases hw with hi | hw
  · rw [if_pos hi] at h3 ⊢; exact h3
  · rw [hw]; exact h3

/-- C97. A negative lag moves values to earlier labels, where the window of the lagged larry may not be full any
more: the two orders agree from the first full window on. -/
theorem C97_lead (r : Red) {y yl : Larry L} {buf buf' : Int → Val} {arr arr' : Strided} {window : Nat} {axis : Int}
    {ax : Nat} {m m' : MoveMethod} {k : Nat} (hk : 0 < k) (h : CanMove y buf arr window axis ax m)
    (hlag : y.lag (-(k : Int)) (some axis) = .ok yl) (h' : CanMove yl buf' arr' window axis ax m') {d : DType}
    (hd : r.dt y.dtype = .ok d) {l : List L} (hl : y.label[ax]? = some l) :
    ∃ z zl z', y.moveStat r buf arr window (some axis) m = .ok z ∧ z.lag (-(k : Int)) (some axis) = .ok zl ∧
      yl.moveStat r buf' arr' window (some axis) m' = .ok z' ∧ z'.label = zl.label ∧
      ∀ (i : Nat) (b : L) (rest : List L) (v : Val), (l.take (l.length - k))[i]? = some b →
        Named (y.label.eraseIdx ax) rest →
        (window ≤ i + 1 → (z'.Has (rest.insertIdx ax b) v ↔ zl.Has (rest.insertIdx ax b) v)) ∧
        (i + 1 < window → z'.Has (rest.insertIdx ax b) (.flt .nan)) := by
  have hv := h.valid
  obtain ⟨z, e, hz, hal⟩ := moveStat_ok r h hd hl
  have hzl : z.label[ax]? = some l := by rw [hal.label_eq]; exact hl
  have hzax : pyIdx z.ndim axis = some ax := by
    rw [← hal.valid.label_length, hal.label_eq, hv.label_length]; exact h.axis
  obtain ⟨yl', ey, hyv, hyd, hyl, hyh⟩ := (C26_lag hv h.axis hl).2.2 k hk
  rw [hlag] at ey
  cases ey
  obtain ⟨zl, ez, hzv, hzd, hzlab, hzh⟩ := (C26_lag hal.valid hzax hzl).2.2 k hk
  have haxlt := (List.getElem?_eq_some_iff.mp hl).1
  have hll : yl.label[ax]? = some (l.take (l.length - k)) := by rw [hyl, List.getElem?_set_self haxlt]
  obtain ⟨z', e', hz', hal'⟩ := moveStat_ok r h' (by rw [hyd]; exact hd) hll
  refine ⟨z, zl, z', e, ez, e', by rw [hal'.label_eq, hyl, hzlab, hal.label_eq], fun i b rest v hb hr' => ?_⟩
  have hr : Named (yl.label.eraseIdx ax) rest := by rw [hyl, List.eraseIdx_set_eq]; exact hr'
  have hle := eraseIdx_length_le hl hr'
  obtain ⟨vs, hline⟩ := lineAt_exists hv hl hr'
  have hlen : vs.length = l.length := by
    obtain ⟨l', hl', hlen, -⟩ := hline
    rw [hl] at hl'
    cases hl'
    exact hlen
  have hline' : yl.LineAt ax rest (vs.drop k) := by
    obtain ⟨l', hl', -, hh⟩ := hline
    rw [hl] at hl'
    cases hl'
    refine ⟨_, hll, by simp [hlen], fun j c w hc hw => ?_⟩
    rw [List.getElem?_take] at hc
    rw [List.getElem?_drop, Nat.add_comm] at hw
    split_ifs at hc with hj
    obtain ⟨c', hc'⟩ : ∃ c', l[j + k]? = some c' := ⟨_, List.getElem?_eq_getElem (by omega)⟩
    have := (hyh j c c' (rest.insertIdx ax c') w hc hc').mpr (by
      rw [set_insertIdx, if_pos hle]; exact hh (j + k) c' w hc' hw)
    rwa [set_insertIdx, if_pos hle] at this
  have h1 := moved_has hal' hll hb hline' hr
  rw [List.getElem?_take] at hb
  split_ifs at hb with hik
  obtain ⟨c, hc⟩ : ∃ c, l[i + k]? = some c := ⟨_, List.getElem?_eq_getElem (by omega)⟩
  have h2 := moved_has hal hl hc hline hr'
  have h3 := (hzh i b c (rest.insertIdx ax c) _ hb hc).mpr (by
    rw [set_insertIdx, if_pos hle]; exact h2)
  rw [set_insertIdx, if_pos hle] at h3
  constructor
  · intro hi
    rw [if_neg (by omega)] at h1 h3
    have hw : ((vs.drop k).drop (i + 1 - window)).take window = (vs.drop (i + k + 1 - window)).take window := by
      rw [List.drop_drop]
      congr 2
      omega
    rw [hw] at h1
    constructor
    · intro hh; rw [Holds_unique hal'.valid.nodup hh h1]; exact h3
    · intro hh; rw [Holds_unique hzv.nodup hh h3]; exact h1
  · intro hi
    rwa [if_pos hi] at h1

/-! ### Forward moving sums -/

theorem finites_ints (ns : List Int) : finites ((ns.map Val.int).map Val.num) = ns.map (fun (n : Int) => (n : ℚ)) := by
  induction ns with
  | nil => rfl
  | cons n ns ih =>
    rw [List.map_cons, List.map_cons, List.map_cons, ← ih, ← finites_cons_fin]
    rfl

theorem finites_bools (bs : List Bool) :
    finites ((bs.map Val.bool).map Val.num) = bs.map (fun (b : Bool) => if b then (1 : ℚ) else 0) := by
  induction bs with
  | nil => rfl
  | cons b bs ih =>
    rw [List.map_cons, List.map_cons, List.map_cons, ← ih, ← finites_cons_fin]
    cases b <;> rfl

theorem nansum_window {d : DType} (hd : d = .float ∨ d = .int ∨ d = .bool) {vs : List Val} (hne : vs ≠ [])
    (ht : ∀ v ∈ vs, v.hasDType d = true) (hinf : NoInf (vs.map Val.num)) :
    (bnNansum.f vs).toFloat = .flt (if finites (vs.map Val.num) = [] then .nan
      else .fin (finites (vs.map Val.num)).sum) := by
  obtain ⟨d', hd'⟩ : ∃ d', sumDType d = .ok d' := by rcases hd with rfl | rfl | rfl <;> exact ⟨_, rfl⟩
  have := sumOf_nansum hd' hne ht
  have e : bnNansum.f vs = nanFold plusVal countVal vs := rfl
  rw [e]
  rcases hd with rfl | rfl | rfl
  · obtain ⟨s, hs, hsum⟩ := this
    rw [hs]
    have hok := noInf_ok hinf
    cases hsum with
    | none h =>
      have : finites (vs.map Val.num) = [] := by
        rw [List.filter_eq_nil_iff.mpr (by intro f hf; simpa using h f hf), eq_comm, List.map_eq_nil_iff] at hok
        exact hok
      rw [if_pos this]; rfl
    | finite qs hq hqs =>
      rw [hqs] at hok
      have : qs = finites (vs.map Val.num) := (List.map_inj_right (by intro a b h; cases h; rfl)).mp hok
      rw [← this, if_neg hq]; rfl
    | plus h => exact absurd rfl (hinf _ h).1
    | minus h => exact absurd rfl (hinf _ h).2
    | both h => exact absurd rfl (hinf _ h).1
  · obtain ⟨ns, rfl, hs⟩ := this
    rw [hs, finites_ints, if_neg (by simpa using hne)]
    show Val.flt (.fin ((ns.sum : Int) : ℚ)) = _
    congr 2
    clear hne ht hinf hs e
    induction ns with
    | nil => rfl
    | cons n ns ih => simp [ih]
  · obtain ⟨bs, rfl, hs⟩ := this
    rw [hs, finites_bools, if_neg (by simpa using hne)]
    show Val.flt (.fin (((bs.filter id).length : Int) : ℚ)) = _
    congr 2
    clear hne ht hinf hs e
    induction bs with
    | nil => rfl
    | cons b bs ih => cases b <;> simp_all [add_comm]

/-- C97. `movingsum_forward(window, skip)` looks ahead: under each label it has the moving sum of the label
`skip + window - 1` places on, that is the value of `y.move_func(bn.nansum, window).lag(-(skip+window-1))`, and NaN
under the last labels, which that larry does not have. -/
theorem C97_forward {y : Larry L} {buf : Int → Val} {arr : Strided} {window skip : Nat} {axis : Int}
    {ax : Nat} {m : MoveMethod} (h : CanMove y buf arr window axis ax m) (ht : y.Typed)
    (hd : y.dtype = .float ∨ y.dtype = .int ∨ y.dtype = .bool)
    (hinf : ∀ names v, y.Has names v → v.num ≠ .pinf ∧ v.num ≠ .ninf) {l : List L} (hl : y.label[ax]? = some l)
    (hs : skip ≤ l.length) :
    ∃ z w, y.moveStat bnNansum buf arr window (some axis) m = .ok z ∧
      y.movingsumForward window skip axis false = .ok w ∧ w.label = y.label ∧ w.dtype = .float ∧
      ∀ (t : Nat) (a : L) (rest : List L), l[t]? = some a → Named (y.label.eraseIdx ax) rest →
        (∀ b v, l[t + (skip + window - 1)]? = some b →
          (w.Has (rest.insertIdx ax a) v ↔ z.Has (rest.insertIdx ax b) v)) ∧
        (l.length ≤ t + (skip + window - 1) → w.Has (rest.insertIdx ax a) (.flt .nan)) := by
  have hv := h.valid
  have hp := h.pos
  obtain ⟨d, hd'⟩ : ∃ d, bnNansum.dt y.dtype = .ok d := by
    rcases hd with e | e | e <;> rw [e] <;> exact ⟨_, rfl⟩
  obtain ⟨z, e, hz, hal⟩ := moveStat_ok bnNansum h hd' hl
  obtain ⟨w, ew, hwd, hwl⟩ := C51_movingsum_forward (window := window) (skip := skip) hv
    (by rcases hd with e | e | e <;> rw [e] <;> decide) h.axis false hp
    (fun l' hl' => by rw [hl] at hl'; cases hl'; exact ⟨h.fits l hl, hs⟩)
  refine ⟨z, w, e, ew, hwl.label_eq, hwd, fun t a rest ha hr => ?_⟩
  obtain ⟨vs, hline⟩ := lineAt_exists hv hl hr
  have hwl' : w.label[ax]? = some l := by rw [hwl.label_eq]; exact hl
  obtain ⟨us, hus⟩ := lineAt_exists hwl.valid hwl' (rest := rest) (by rw [hwl.label_eq]; exact hr)
  have hcells : ∀ v ∈ vs, ∃ names, y.Has names v := by
    intro v hv'
    obtain ⟨j, hj, rfl⟩ := List.mem_iff_getElem.mp hv'
    obtain ⟨l', hl', hlen, hh⟩ := hline
    exact ⟨_, hh j _ _ (List.getElem?_eq_getElem (by omega)) (List.getElem?_eq_getElem hj)⟩
  have hni : NoInf (vs.map Val.num) := by
    intro f hf
    obtain ⟨v, hv', rfl⟩ := List.mem_map.mp hf
    obtain ⟨names, hn⟩ := hcells v hv'
    exact hinf names v hn
  have hty : ∀ v ∈ vs, v.hasDType y.dtype = true := by
    intro v hv'
    obtain ⟨names, hn⟩ := hcells v hv'
    exact (typed_iff hv).mp ht names v hn
  have hnn : y.dtype = .float ∨ ∀ v ∈ vs, v.num ≠ .nan := by
    rcases hd with e | e | e
    · exact .inl e
    all_goals
      right
      intro v hv'
      have := hty v hv'
      rw [e] at this
      cases v <;> first | (simp [Val.hasDType] at this; done) | skip
      all_goals exact fun h => by simp [Val.num] at h
  obtain ⟨hlen, hms⟩ := hwl.line rest vs us hr hline hus hni hnn
  have hvl : vs.length = l.length := by
    obtain ⟨l', hl', hlen, -⟩ := hline
    rw [hl] at hl'
    cases hl'
    exact hlen
  have htl := (List.getElem?_eq_some_iff.mp ha).1
  obtain ⟨u, hu⟩ : ∃ u, us[t]? = some u := ⟨_, List.getElem?_eq_getElem (by omega)⟩
  have hwu : w.Has (rest.insertIdx ax a) u := by
    obtain ⟨l', hl', -, hh⟩ := hus
    rw [hwl'] at hl'
    cases hl'
    exact hh t a u ha hu
  obtain ⟨g1, g2, g3⟩ := hms t u hu
  constructor
  · intro b v hb
    have hbl := (List.getElem?_eq_some_iff.mp hb).1
    have hcell := moved_has hal hl hb hline hr
    rw [if_neg (by omega)] at hcell
    have e0 : t + (skip + window - 1) + 1 - window = t + skip := by omega
    rw [e0, nansum_window hd (by
        intro h0
        have := congrArg List.length h0
        simp at this
        omega) (fun v hv' => hty v (List.mem_of_mem_drop (List.mem_of_mem_take hv'))) (by
        intro f hf
        obtain ⟨v, hv', rfl⟩ := List.mem_map.mp hf
        exact hni _ (List.mem_map_of_mem (List.mem_of_mem_drop (List.mem_of_mem_take hv'))))] at hcell
    have ew : (((vs.drop (t + skip)).take window).map Val.num) = windowAt vs t skip window := by
      simp [windowAt, List.map_take, List.map_drop]
    rw [ew] at hcell
    have hu' : u = .flt (if finites (windowAt vs t skip window) = [] then .nan
        else .fin (finites (windowAt vs t skip window)).sum) := by
      split_ifs with hf
      · exact g2 (by omega) hf
      · have := g3 (by omega) hf
        simpa using this
    rw [← hu'] at hcell
    constructor
    · intro hw'
      rw [Holds_unique hwl.valid.nodup hw' hwu]; exact hcell
    · intro hz'
      rw [Holds_unique hal.valid.nodup hz' hcell]; exact hwu
  · intro hn
    rw [← g1 (by omega)]
    exact hwu

/-! ### Cases -/

/-- `larry([1., 2., NaN, 4., 3.])`. -/
def exMoving : Larry Nat :=
  ⟨NDArray.ofList [5] [.flt (.fin 1), .flt (.fin 2), .flt .nan, .flt (.fin 4), .flt (.fin 3)], .float, [[0, 1, 2, 3, 4]]⟩

/-- It lies in memory with 8-byte elements. -/
def exMovingAt : Strided := ⟨[5], [8], 0⟩

def exMovingBuf (a : Int) : Val := exMoving.x.get [a.toNat / 8]

theorem exMoving_can : CanMove exMoving exMovingBuf exMovingAt 2 (-1) 0 .strides := by
  refine ⟨⟨rfl, by decide, by decide⟩, ⟨rfl, rfl, ?_⟩, .inr ⟨rfl, by decide⟩, by decide, rfl, ?_⟩
  · intro idx h
    match idx, h with
    | [i], h =>
      have h' : i < 5 := by simpa [exMovingAt, InB] using h
      interval_cases i <;> rfl
  · intro l hl
    cases hl
    decide

example : exMoving.dtype = .float ∧ exMoving.shape.prod ≠ 0 ∧ exMoving.label[0]? = some [0, 1, 2, 3, 4] ∧
    exMoving.ndim = 1 ∧ Named (exMoving.label.eraseIdx 0) [] := ⟨rfl, by decide, rfl, rfl, trivial⟩

/-- The cells of a result. -/
def cellsOf (r : Res (Larry Nat)) : Option (List Val) :=
  match r with
  | .ok z => some z.x.vals
  | .error _ => none

example : cellsOf (exMoving.moveMedian exMovingBuf exMovingAt 2 (some (-1)) .strides) =
      some [.flt .nan, .flt (.fin (3 / 2)), .flt (.fin 2), .flt (.fin 4), .flt (.fin (7 / 2))] ∧
    cellsOf (exMoving.moveRanking exMovingBuf exMovingAt 2 (some (-1)) .loop) =
      some [.flt .nan, .flt (.fin 1), .flt .nan, .flt .nan, .flt (.fin (-1))] := by
  constructor <;> decide +kernel

end La
