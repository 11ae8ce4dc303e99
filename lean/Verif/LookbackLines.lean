import Verif.LookbackAxes
import Verif.Props.Normalize
import Verif.Props.Move
import Verif.Props.Twice

/-! # Larrys that agree up to a moment: functions along an axis and reductions (property C106) -/

namespace La
variable {L : Type _} {later : L → Prop}

/-- Either all labels of the axis are later ones or none is: the axis is not the time axis. -/
def Timeless (later : L → Prop) (l : List L) : Prop := (∀ a ∈ l, later a) ∨ Early later l

/-- The element at a place depends on the elements up to there only. -/
def Causal (f : List Val → List Val) : Prop :=
  ∀ (vs ws : List Val) (i : Nat), vs.length = ws.length → (∀ k ≤ i, vs[k]? = ws[k]?) → (f vs)[i]? = (f ws)[i]?

/-- The element at a place depends on the elements from there on only. -/
def AntiCausal (f : List Val → List Val) : Prop :=
  ∀ (vs ws : List Val) (i : Nat), vs.length = ws.length → (∀ k, i ≤ k → vs[k]? = ws[k]?) → (f vs)[i]? = (f ws)[i]?

/-! ## Lines -/

theorem cumGo_causal {α : Type _} (op : α → α → α) (acc : α) (vs ws : List α) (i : Nat) (hl : vs.length = ws.length)
    (h : ∀ k ≤ i, vs[k]? = ws[k]?) : (cumGo op acc vs)[i]? = (cumGo op acc ws)[i]? := by
  induction vs generalizing acc ws i with
  | nil => cases ws with
    | nil => rfl
    | cons => simp at hl
  | cons v vs ih => cases ws with
    | nil => simp at hl
    | cons w ws =>
      obtain rfl : v = w := by simpa using h 0 (Nat.zero_le _)
      cases i with
      | zero => simp [cumGo]
      | succ i =>
        simp only [cumGo, List.getElem?_cons_succ]
        exact ih _ _ _ (by simpa using hl) fun k hk => by simpa using h (k + 1) (by omega)

theorem pushGo_causal (n : Int) (p : Nat) (recent : Val) (count : Option Nat) (vs ws : List Val) (i : Nat)
    (hl : vs.length = ws.length) (h : ∀ k ≤ i, vs[k]? = ws[k]?) :
    (pushGo n p recent count vs)[i]? = (pushGo n p recent count ws)[i]? := by
  induction vs generalizing p recent count ws i with
  | nil => cases ws with
    | nil => rfl
    | cons => simp at hl
  | cons v vs ih => cases ws with
    | nil => simp at hl
    | cons w ws =>
      obtain rfl : v = w := by simpa using h 0 (Nat.zero_le _)
      simp only [pushGo]
      split <;> (
        cases i with
        | zero => simp
        | succ i =>
          simp only [List.getElem?_cons_succ]
          exact ih _ _ _ _ _ (by simpa using hl) fun k hk => by simpa using h (k + 1) (by omega))

theorem pushGo_length (n : Int) (p : Nat) (recent : Val) (count : Option Nat) (vs : List Val) :
    (pushGo n p recent count vs).length = vs.length := by
  induction vs generalizing p recent count with
  | nil => rfl
  | cons v vs ih => simp only [pushGo]; split <;> simp [ih]

theorem pushLine_causal (n : Int) : Causal (pushLine n) := fun vs ws i => pushGo_causal n 0 _ _ vs ws i

theorem windowDiff_causal {α : Type _} (sub : α → α → α) {window : Nat} (hw : 1 ≤ window) (skip : Nat) (vs ws : List α) (j : Nat)
    (hl : vs.length = ws.length) (h : ∀ k ≤ j + window - 1, vs[k]? = ws[k]?) :
    (windowDiff sub window skip vs)[j]? = (windowDiff sub window skip ws)[j]? := by
  have get : ∀ cs : List α, (windowDiff sub window skip cs)[j]? =
      if j + window - 1 < cs.length - skip then
        (if j = 0 then cs[window - 1]? else
          match cs[j + window - 1]?, cs[j - 1]? with
          | some a, some b => some (sub a b)
          | _, _ => none)
      else none := by
    intro cs
    by_cases hj : j + window - 1 < cs.length - skip
    · rw [if_pos hj]
      unfold windowDiff
      by_cases h0 : j = 0
      · subst h0
        rw [if_pos rfl, List.getElem?_append_left (by simp; omega)]
        rw [List.getElem?_take_of_lt (by omega), List.getElem?_drop, List.getElem?_take_of_lt (by omega)]
        rfl
      · rw [if_neg h0, List.getElem?_append_right (by simp; omega), List.getElem?_zipWith]
        have hlen : (List.take 1 (List.drop (window - 1) (List.take (cs.length - skip) cs))).length = 1 := by simp; omega
        rw [hlen, List.getElem?_drop, List.getElem?_drop, List.getElem?_take_of_lt (by omega), List.getElem?_take_of_lt (by omega)]
        have e : window - 1 + (1 + (j - 1)) = j + window - 1 := by omega
        rw [e]
        cases cs[j + window - 1]? <;> cases cs[j - 1]? <;> rfl
    · rw [if_neg hj, List.getElem?_eq_none]
      rw [windowDiff_length _ _ _ _ hw]
      omega
  rw [get, get, hl]
  split
  · split
    · rename_i h0; subst h0; exact h _ (by omega)
    · rw [h _ (le_refl _), h (j - 1) (by omega)]
  · rfl

theorem movingsumLine_length (d : DType) {window : Nat} (hw : 1 ≤ window) (skip : Nat) (norm : Bool) (vs : List Val) :
    (movingsumLine d window skip norm vs).length = vs.length := by
  simp only [movingsumLine, List.length_append, List.length_replicate, List.length_map, List.length_zipWith,
    windowDiff_length _ _ _ _ hw, cumGo_length]
  omega

theorem movingsumLine_causal (d : DType) {window : Nat} (hw : 1 ≤ window) (skip : Nat) (norm : Bool) :
    Causal (movingsumLine d window skip norm) := by
  intro vs ws i hl h
  by_cases hi : i < vs.length
  · simp only [movingsumLine]
    rw [← hl]
    by_cases h1 : i < min vs.length (skip + window - 1)
    · rw [List.getElem?_append_left (by simpa using h1), List.getElem?_append_left (by simpa using h1)]
    · have hmin : min vs.length (skip + window - 1) = skip + window - 1 := by omega
      rw [List.getElem?_append_right (by simpa using Nat.le_of_not_lt h1), List.getElem?_append_right (by simpa using Nat.le_of_not_lt h1),
        List.length_replicate, hmin, List.getElem?_map, List.getElem?_map, List.getElem?_zipWith, List.getElem?_zipWith]
      have hm : ∀ k ≤ i, (vs.map (fun v => decide (d = .float) && v.isNan))[k]? = (ws.map (fun v => decide (d = .float) && v.isNan))[k]? :=
        fun k hk => by simp only [List.getElem?_map, h k hk]
      have e1 := windowDiff_causal Flt.sub hw skip
        (cumGo Flt.add (.fin 0) (List.zipWith (fun v (t : Bool) => if t then Flt.fin 0 else v.num) vs (vs.map (fun v => decide (d = .float) && v.isNan))))
        (cumGo Flt.add (.fin 0) (List.zipWith (fun v (t : Bool) => if t then Flt.fin 0 else v.num) ws (ws.map (fun v => decide (d = .float) && v.isNan))))
        (i - (skip + window - 1)) (by simp [cumGo_length, hl]) fun k hk => cumGo_causal _ _ _ _ _ (by simp [hl]) fun k' hk' => by
          rw [List.getElem?_zipWith, List.getElem?_zipWith, hm k' (by omega), h k' (by omega)]
      have e2 := windowDiff_causal (· - ·) hw skip
        (cumGo (· + ·) (0 : ℚ) ((vs.map (fun v => decide (d = .float) && v.isNan)).map (fun t => if t then 0 else 1)))
        (cumGo (· + ·) (0 : ℚ) ((ws.map (fun v => decide (d = .float) && v.isNan)).map (fun t => if t then 0 else 1)))
        (i - (skip + window - 1)) (by simp [cumGo_length, hl]) fun k hk => cumGo_causal _ _ _ _ _ (by simp [hl]) fun k' hk' => by
          rw [List.getElem?_map, List.getElem?_map (l := ws.map _), hm k' (by omega)]
      rw [e1, e2]
  · rw [List.getElem?_eq_none, List.getElem?_eq_none] <;> rw [movingsumLine_length d hw] <;> omega

theorem movingsumForwardLine_anticausal (d : DType) {window : Nat} (hw : 1 ≤ window) (skip : Nat) (norm : Bool) :
    AntiCausal (movingsumForwardLine d window skip norm) := by
  intro vs ws i hl h
  unfold movingsumForwardLine
  have hlen := movingsumLine_length d hw skip norm
  by_cases hi : i < vs.length
  · rw [List.getElem?_reverse (by rw [hlen, List.length_reverse]; exact hi), List.getElem?_reverse (by rw [hlen, List.length_reverse]; omega),
      hlen, hlen, List.length_reverse, List.length_reverse, ← hl]
    refine movingsumLine_causal d hw skip norm _ _ _ (by simp [hl]) fun k hk => ?_
    rw [List.getElem?_reverse (by omega), List.getElem?_reverse (by omega), ← hl]
    exact h _ (by omega)
  · rw [List.getElem?_eq_none, List.getElem?_eq_none] <;> rw [List.length_reverse, hlen, List.length_reverse] <;> omega

/-! ## A function along an axis -/

/-- What a function of a line may look at, given the labels of the line. -/
def LooksBack (later : L → Prop) (l : List L) (f : List Val → List Val) : Prop :=
  ∀ (W W' : L → Val) (b : L) (i : Nat), l[i]? = some b → ¬ later b → (∀ c ∈ l, ¬ later c → W c = W' c) →
    (f (l.map W))[i]? = (f (l.map W'))[i]?

theorem Causal.looksBack {f : List Val → List Val} (hf : Causal f) {l : List L} (hl : InTime later l) : LooksBack later l f := by
  intro W W' b i hi hb hW
  refine hf _ _ i (by simp) fun k hk => ?_
  rw [List.getElem?_map, List.getElem?_map]
  cases hc : l[k]? with
  | none => rfl
  | some c => rw [Option.map_some, Option.map_some, hW c (List.mem_of_getElem? hc) (hl.early hk hc hi hb)]

theorem AntiCausal.looksBack {f : List Val → List Val} (hf : AntiCausal f) {l : List L} (hl : BackInTime later l) :
    LooksBack later l f := by
  intro W W' b i hi hb hW
  refine hf _ _ i (by simp) fun k hk => ?_
  rw [List.getElem?_map, List.getElem?_map]
  cases hc : l[k]? with
  | none => rfl
  | some c => rw [Option.map_some, Option.map_some, hW c (List.mem_of_getElem? hc) (hl.early hk hi hc hb)]

theorem Timeless.looksBack (f : List Val → List Val) {l : List L} (hl : Timeless later l) : LooksBack later l f := by
  intro W W' b i hi hb hW
  rcases hl with h | h
  · exact absurd (h b (List.mem_of_getElem? hi)) hb
  · rw [List.map_congr_left fun c hc => hW c hc (h c hc)]

namespace Larry

theorem Until.valueAt {y y' : Larry L} (hy : y.Valid) (hy' : y'.Valid) (h : y.Until later y') {names : List L}
    (hN : Named y.label names) (he : Early later names) : y.valueAt names = y'.valueAt names := by
  obtain ⟨v, hv⟩ := Holds_of_Named (x := y.x) hN
  obtain ⟨v', hv'⟩ := Holds_of_Named (x := y'.x) (h.label ▸ hN)
  rw [valueAt_of hy hv, valueAt_of hy' hv', h.cells names v v' he hv hv']

theorem named_put {label : List (List L)} {ax : Nat} {l : List L} (hl : label[ax]? = some l) {rest : List L}
    (hN : Named (label.eraseIdx ax) rest) {c : L} (hc : c ∈ l) : Named label (rest.insertIdx ax c) := by
  induction label generalizing ax rest with
  | nil => simp at hl
  | cons a label ih =>
    cases ax with
    | zero =>
      obtain rfl : a = l := by simpa using hl
      exact ⟨hc, hN⟩
    | succ ax =>
      cases rest with
      | nil => exact hN.elim
      | cons r rest => exact ⟨hN.1, ih (by simpa using hl) hN.2⟩

theorem named_erase {label : List (List L)} {names : List L} (hN : Named label names) (ax : Nat) :
    Named (label.eraseIdx ax) (names.eraseIdx ax) := by
  induction label generalizing ax names with
  | nil => cases names with
    | nil => exact hN
    | cons => exact hN.elim
  | cons a label ih => cases names with
    | nil => exact hN.elim
    | cons n names => cases ax with
      | zero => exact hN.2
      | succ ax => exact ⟨hN.1, ih hN.2 ax⟩

theorem along_until {y y' : Larry L} (hy : y.Valid) (hy' : y'.Valid) (h : y.Until later y') {ax : Nat} {l : List L}
    (hl : y.label[ax]? = some l) {f : List Val → List Val} (hf : ∀ vs, (f vs).length = vs.length) (d : DType)
    (hff : LooksBack later l f) : (y.along f d ax).Until later (y'.along f d ax) := by
  refine ⟨h.label, rfl, fun names v v' he hv hv' => ?_⟩
  have hl' : y'.label[ax]? = some l := h.label ▸ hl
  obtain ⟨vs, i, b, h1, hN, h3, h4, h5⟩ := (holds_mapLines hy hl f .none hf names v).mp hv
  obtain ⟨vs', j, b', h1', -, h3', h4', h5'⟩ := (holds_mapLines hy' hl' f .none hf names v').mp hv'
  rw [h3] at h3'
  simp only [Option.some.injEq] at h3'
  subst h3'
  have hnd := hy.nodup l (List.mem_of_getElem? hl)
  obtain rfl : i = j := by
    obtain ⟨i1, e1⟩ := List.getElem?_eq_some_iff.mp h4
    obtain ⟨i2, e2⟩ := List.getElem?_eq_some_iff.mp h4'
    exact (List.Nodup.getElem_inj_iff hnd).mp (e1.trans e2.symm)
  rw [line_eq hy h1 hl] at h5
  rw [line_eq hy' h1' hl'] at h5'
  have hb : ¬ later b := he b (List.mem_of_getElem? h3)
  have hrest : Early later (names.eraseIdx ax) := he.of_subset fun _ => List.mem_of_mem_eraseIdx
  have hNr : Named (y.label.eraseIdx ax) (names.eraseIdx ax) := named_erase hN ax
  have := hff (fun b => y.valueAt ((names.eraseIdx ax).insertIdx ax b)) (fun b => y'.valueAt ((names.eraseIdx ax).insertIdx ax b)) b i h4 hb
    fun c hc hlc => h.valueAt hy hy' (named_put hl hNr hc) (hrest.insertIdx hlc ax)
  rw [h5, h5'] at this
  simpa using this

/-! ## Methods that work along an axis -/

theorem cumulate_until {y y' : Larry L} (hy : y.Valid) (hy' : y'.Valid) (h : y.Until later y') {axis : Option Int}
    (hax : ∀ a ax l, axis = some a → pyIdx y.ndim a = some ax → y.label[ax]? = some l → InTime later l)
    (op : DType → Val → Val → Val) (unit : Int) :
    Res.Agree (Until later) (y.cumulate op unit axis) (y'.cumulate op unit axis) := by
  unfold Larry.cumulate npAxis
  rw [← h.dtype, ← h.ndim hy hy']
  split
  · exact rfl
  · rename_i a
    split
    · exact rfl
    · cases ha : pyIdx y.ndim a with
      | none => exact rfl
      | some ax =>
        obtain ⟨l, hl, _⟩ := label_at hy ha
        have h1 := map_until hy h (replaceNan (ofInt y.dtype unit)) y.dtype
        have h2 := along_until (l := l) (y := ⟨y.x.map (replaceNan (ofInt y.dtype unit)), y.dtype, y.label⟩)
          (y' := ⟨y'.x.map (replaceNan (ofInt y.dtype unit)), y.dtype, y'.label⟩) ⟨hy.shape_eq, hy.nodup, hy.ndim_pos⟩
          ⟨hy'.shape_eq, hy'.nodup, hy'.ndim_pos⟩ h1 (ax := ax) hl
          (fun vs => cumGo_length (op y.dtype) (ofInt y.dtype unit) vs) y.dtype
          (Causal.looksBack (fun vs ws i => cumGo_causal (op y.dtype) (ofInt y.dtype unit) vs ws i) (hax a ax l rfl ha hl))
        refine until_of_get hy.nodup h.label rfl fun idx names hat he => ?_
        have e1 := h.get hat he
        have e2 := h2.get hat he
        simp only [Larry.along] at e2
        dsimp only
        rw [e1, e2]

theorem push_until {y y' : Larry L} (hy : y.Valid) (hy' : y'.Valid) (h : y.Until later y') {axis : Int}
    (hax : ∀ ax l, pyIdx y.ndim axis = some ax → y.label[ax]? = some l → InTime later l) (window : Int) :
    Res.Agree (Until later) (y.push window axis) (y'.push window axis) := by
  unfold Larry.push npAxis
  rw [← h.dtype, ← h.ndim hy hy']
  cases ha : pyIdx y.ndim axis with
  | none => exact rfl
  | some ax =>
    obtain ⟨l, hl, _⟩ := label_at hy ha
    dsimp only
    split
    · exact rfl
    · exact along_until hy hy' h hl (fun vs => pushGo_length _ _ _ _ vs) _ ((pushLine_causal window).looksBack (hax ax l ha hl))

theorem movingsumForward_until {y y' : Larry L} (hy : y.Valid) (hy' : y'.Valid) (h : y.Until later y') {axis : Int}
    (hax : ∀ ax l, pyIdx y.ndim axis = some ax → y.label[ax]? = some l → BackInTime later l) (window : Int) (skip : Nat)
    (norm : Bool) :
    Res.Agree (Until later) (y.movingsumForward window skip axis norm) (y'.movingsumForward window skip axis norm) := by
  unfold Larry.movingsumForward
  have hs : y'.shape = y.shape := (h.shape hy hy').symm
  rw [← h.dtype, ← h.ndim hy hy', hs]
  cases ha : pyIdx y.ndim axis with
  | none => exact rfl
  | some ax =>
    obtain ⟨l, hl, _⟩ := label_at hy ha
    dsimp only
    split
    · exact rfl
    · rename_i hw
      have hw' : 1 ≤ window.toNat := by omega
      split
      · exact rfl
      · split
        · exact rfl
        · split
          · exact rfl
          · refine along_until hy hy' h hl (fun vs => ?_) _ ((movingsumForwardLine_anticausal y.dtype hw' skip norm).looksBack (hax ax l ha hl))
            rw [movingsumForwardLine, List.length_reverse, movingsumLine_length _ hw', List.length_reverse]

theorem ranking_until {y y' : Larry L} (hy : y.Valid) (hy' : y'.Valid) (h : y.Until later y') {axis : Int}
    (hax : ∀ ax l, pyIdx y.ndim axis = some ax → y.label[ax]? = some l → Timeless later l) (norm : RankNorm) :
    Res.Agree (Until later) (y.ranking (some axis) norm) (y'.ranking (some axis) norm) := by
  unfold Larry.ranking
  rw [← h.dtype, ← h.ndim hy hy']
  split
  · exact rfl
  · split
    · exact rfl
    · dsimp only
      split
      · exact rfl
      · rename_i ha
        obtain ⟨l, hl, _⟩ := label_at hy ha
        exact along_until hy hy' h hl (rankingLine_length _) _ ((hax _ l ha hl).looksBack _)

theorem quantileLine_length (argsort : List ℚ → List Nat) (q : Nat) (vs : List Val) :
    (quantileLine argsort q vs).length = vs.length := by
  simp [quantileLine, quantileRaw, scatter_length]

theorem quantile_until {y y' : Larry L} (hy : y.Valid) (hy' : y'.Valid) (h : y.Until later y') {argsort : List ℚ → List Nat}
    {axis : Option Int} {q : Int} (hq : q ≤ 1 ∨ ∃ a, axis = some a ∧
      ∀ ax l, pyIdx y.ndim a = some ax → y.label[ax]? = some l → Timeless later l) :
    Res.Agree (Until later) (y.quantile argsort q axis) (y'.quantile argsort q axis) := by
  unfold Larry.quantile
  have hs : y'.shape = y.shape := (h.shape hy hy').symm
  rw [← h.dtype, ← h.ndim hy hy', hs]
  split
  · exact rfl
  · split
    · exact rfl
    · split
      · exact map_until hy h _ _
      · rcases hq with hq | ⟨a, rfl, hax⟩
        · omega
        · dsimp only
          split
          · exact rfl
          · rename_i ha
            split
            · exact rfl
            · obtain ⟨l, hl, _⟩ := label_at hy ha
              exact along_until hy hy' h hl (quantileLine_length _ _) _ ((hax _ l ha hl).looksBack _)

theorem demean_until {y y' : Larry L} (hy : y.Valid) (hy' : y'.Valid) (h : y.Until later y') {axis : Int}
    (hax : ∀ ax l, pyIdx y.ndim axis = some ax → y.label[ax]? = some l → Timeless later l) (center : List Flt → Flt) :
    Res.Agree (Until later) (y.demean center (some axis)) (y'.demean center (some axis)) := by
  unfold Larry.demean npAxis
  rw [← h.dtype, ← h.ndim hy hy']
  split
  · exact rfl
  · dsimp only
    cases ha : pyIdx y.ndim axis with
    | none => exact rfl
    | some ax =>
      obtain ⟨l, hl, _⟩ := label_at hy ha
      exact along_until hy hy' h hl (fun vs => by simp [demeanLine]) _ ((hax _ l ha hl).looksBack _)

theorem zscore_until {y y' : Larry L} (hy : y.Valid) (hy' : y'.Valid) (h : y.Until later y') {axis : Int}
    (hax : ∀ ax l, pyIdx y.ndim axis = some ax → y.label[ax]? = some l → Timeless later l) (std : List Flt → Flt) :
    Res.Agree (Until later) (y.zscore std (some axis)) (y'.zscore std (some axis)) := by
  unfold Larry.zscore npAxis
  rw [← h.dtype, ← h.ndim hy hy']
  split
  · exact rfl
  · dsimp only
    cases ha : pyIdx y.ndim axis with
    | none => exact rfl
    | some ax =>
      obtain ⟨l, hl, _⟩ := label_at hy ha
      exact along_until hy hy' h hl (fun vs => by simp [zscoreLine, demeanLine]) _ ((hax _ l ha hl).looksBack _)

theorem moved_unique {f : List Val → Val} {window : Nat} {vs ws : List Val} {i : Nat} {v v' : Val}
    (h : ∀ k ≤ i, vs[k]? = ws[k]?) (hv : Moved f window vs i v) (hv' : Moved f window ws i v') : v = v' := by
  by_cases hw : i + 1 < window
  · rw [hv.1 hw, hv'.1 hw]
  · rw [hv.2 (by omega), hv'.2 (by omega)]
    have : (vs.drop (i + 1 - window)).take window = (ws.drop (i + 1 - window)).take window := by
      refine List.ext_getElem? fun k => ?_
      by_cases hk : k < window
      · rw [List.getElem?_take_of_lt hk, List.getElem?_take_of_lt hk, List.getElem?_drop, List.getElem?_drop]
        exact h _ (by omega)
      · rw [List.getElem?_eq_none (by simp; omega), List.getElem?_eq_none (by simp; omega)]
    rw [this]

theorem along_moved {f : List Val → Val} {y y' z z' : Larry L} (hy : y.Valid) (hy' : y'.Valid) (h : y.Until later y') {ax : Nat}
    {l : List L} (hl : y.label[ax]? = some l) (hin : InTime later l) {window : Nat} (hd : z.dtype = z'.dtype)
    (hz : y.Along z ax (Moved f window)) (hz' : y'.Along z' ax (Moved f window)) : z.Until later z' := by
  have hl' : y'.label[ax]? = some l := h.label ▸ hl
  refine ⟨by rw [hz.label_eq, hz'.label_eq, h.label], hd, fun names v v' he hv hv' => ?_⟩
  have hN : Named y.label names := hz.label_eq ▸ Named_of_Holds hv
  obtain ⟨b, i, hb, hbn⟩ : ∃ b, ∃ i : Nat, l[i]? = some b ∧ names[ax]? = some b := by
    obtain ⟨hlen, hmem⟩ := Named_iff.mp hN
    have hax := (List.getElem?_eq_some_iff.mp hl).1
    have hn := List.getElem?_eq_getElem (l := names) (i := ax) (by omega)
    obtain ⟨i, hi⟩ := List.getElem?_of_mem (hmem ax _ _ hl hn)
    exact ⟨_, i, hi, hn⟩
  have e : (names.eraseIdx ax).insertIdx ax b = names := by
    obtain ⟨h1, rfl⟩ := List.getElem?_eq_some_iff.mp hbn
    exact List.insertIdx_eraseIdx_getElem h1
  have hNr := named_erase hN ax
  have hrest : Early later (names.eraseIdx ax) := he.of_subset fun _ => List.mem_of_mem_eraseIdx
  have line : ∀ {y : Larry L}, y.Valid → Named (y.label.eraseIdx ax) (names.eraseIdx ax) → y.label[ax]? = some l →
      y.LineAt ax (names.eraseIdx ax) (l.map fun b => y.valueAt ((names.eraseIdx ax).insertIdx ax b)) := by
    intro y hy hNr hl
    refine ⟨l, hl, by simp, fun j c w hc hw => ?_⟩
    rw [List.getElem?_map, hc] at hw
    obtain rfl : _ = w := by simpa using hw
    obtain ⟨u, hu⟩ := Holds_of_Named (x := y.x) (named_put hl hNr (List.mem_of_getElem? hc))
    rw [valueAt_of hy hu]
    exact hu
  have r1 := hz.cell _ _ l i b v (line hy hNr hl) hl hb (e.symm ▸ hv)
  have r2 := hz'.cell _ _ l i b v' (line hy' (h.label ▸ hNr) hl') hl' hb (e.symm ▸ hv')
  refine moved_unique (fun k hk => ?_) r1 r2
  rw [List.getElem?_map, List.getElem?_map]
  cases hc : l[k]? with
  | none => rfl
  | some c =>
    rw [Option.map_some, Option.map_some, h.valueAt hy hy' (named_put hl hNr (List.mem_of_getElem? hc))
      (hrest.insertIdx (hin.early hk hc hb (he b (List.mem_of_getElem? hbn))) ax)]

theorem moveFunc_until {f : List Val → Val} {y y' : Larry L} (hy : y.Valid) (hy' : y'.Valid) (h : y.Until later y')
    {buf buf' : Int → Val} {arr arr' : Strided} (hst : StoredAs y buf arr) (hst' : StoredAs y' buf' arr') {axis : Option Int}
    (hax : ∀ a ax l, axis = some a → pyIdx y.ndim a = some ax → y.label[ax]? = some l → InTime later l) (window : Int)
    (m : MoveMethod) :
    Res.Agree (Until later) (y.moveFunc f buf arr window axis m) (y'.moveFunc f buf' arr' window axis m) := by
  have er : ∀ {y : Larry L} {buf arr} {e : PyErr}, La.moveFunc f buf arr window axis m = .error e →
      y.moveFunc f buf arr window axis m = .error e := fun he => by unfold Larry.moveFunc; rw [he]
  obtain ⟨c1, c2, c3, c4, c5⟩ := C50_errors f buf arr window m
  obtain ⟨c1', c2', c3', c4', c5'⟩ := C50_errors f buf' arr' window m
  have hs : arr.shape = arr'.shape := by rw [hst.1, hst'.1, h.shape hy hy']
  have hn : y.ndim = arr.shape.length := by rw [hst.1]; rfl
  have hn' := h.ndim hy hy'
  by_cases hw : window < 1
  · exact .error (er (c1 _ hw)) (er (c1' _ hw))
  · cases axis with
    | none => exact .error (er c2) (er c2')
    | some a =>
      by_cases hu : m = .unknown
      · subst hu; exact .error (er rfl) (er rfl)
      · cases ha : pyIdx y.ndim a with
        | none => exact .error (er (c4 a hu (by omega) (hn ▸ ha))) (er (c4' a hu (by omega) (hs ▸ hn ▸ ha)))
        | some ax =>
          have ha1 := ha
          rw [hn] at ha1
          obtain ⟨l, hl, _⟩ := label_at hy ha
          have hlen : arr.shape.getD ax 0 = l.length := by
            rw [hst.1, hy.shape_eq, List.getD_eq_getElem?_getD, List.getElem?_map, hl]; rfl
          by_cases hwl : (l.length : Int) < window
          · exact .error (er (c3 a ax ha1 (by rw [hlen]; exact hwl))) (er (c3' a ax (hs ▸ ha1) (by rw [← hs, hlen]; exact hwl)))
          · by_cases hm : m = .loop ∨ m = .strides ∧ y.ndim ≤ 3
            · obtain ⟨w, rfl⟩ := Int.eq_ofNat_of_zero_le (a := window) (by omega)
              obtain ⟨z, e1, e2, e3⟩ := C50_move_func (f := f) hy hst hm (window := w) (by omega) ha hl (by omega)
              obtain ⟨z', e1', e2', e3'⟩ := C50_move_func (f := f) hy' hst' (hn' ▸ hm) (window := w) (by omega) (hn' ▸ ha)
                (h.label ▸ hl) (by omega)
              exact .ok e1 e1' (along_moved hy hy' h hl (hax a ax l rfl ha hl) (by rw [e2, e2']) e3 e3')
            · obtain ⟨rfl, h3⟩ : m = .strides ∧ ¬ y.ndim ≤ 3 := by
                cases m <;> simp_all
              exact .error (er (c5 a ax ha1 (by omega))) (er (c5' a ax (hs ▸ ha1) (by rw [← hs]; omega)))

/-! ## Groups -/

section
variable [LinearOrder L]

theorem group_until (sort f : List Val → List Val) {y y' g g' : Larry L} (hy : y.Valid) (hy' : y'.Valid) (h : y.Until later y')
    (hg : g.Valid) (hg' : g'.Valid) (hr : g.Until later g') {axis : Int}
    (hax : ∀ ax l, pyIdx y.ndim axis = some ax → y.label[ax]? = some l → Early later l) :
    Res.Agree (Until later) (y.groupBy sort f g axis) (y'.groupBy sort f g' axis) := by
  have hn := h.ndim hy hy'
  have hm := hr.ndim hg hg'
  obtain ⟨c1, c2, c3⟩ := C53_errors sort f y g axis
  obtain ⟨c1', c2', c3'⟩ := C53_errors sort f y' g' axis
  by_cases h1 : g.ndim = 1
  · have h1' : g'.ndim = 1 := by rw [← hm]; exact h1
    cases ha : pyIdx y.label.length axis with
    | none => exact .error (c2 h1 ha) (c2' h1' (h.label ▸ ha))
    | some ax =>
      have ha1 : pyIdx y.ndim axis = some ax := hy.label_length ▸ ha
      have ha' : pyIdx y'.label.length axis = some ax := h.label ▸ ha
      obtain ⟨l, hl⟩ := axis_label hy ha1
      have hl' : y'.label[ax]? = some l := h.label ▸ hl
      obtain ⟨gl, hgl⟩ := axis_label hg (ax := 0) (axis := 0) (by rw [h1]; rfl)
      have hgl' : g'.label[0]? = some gl := hr.label ▸ hgl
      by_cases hsub : ∀ b ∈ l, b ∈ gl
      · obtain ⟨gs, e1, e2⟩ := groupAlign_spec hg h1 ha hl (hy.nodup l (List.mem_of_getElem? hl)) hgl hsub
        obtain ⟨gs', e1', e2'⟩ := groupAlign_spec hg' h1' ha' hl' (hy'.nodup l (List.mem_of_getElem? hl')) hgl' hsub
        have he := hax ax l ha1 hl
        obtain rfl : gs = gs' := by
          rw [groupsOf_eq hg e2, groupsOf_eq hg' e2']
          refine List.map_congr_left fun b hb => hr.valueAt hg hg' ?_ fun n hn => ?_
          · have hlen : g.label.length = 1 := by rw [hg.label_length, h1]
            obtain ⟨a, ha⟩ := List.length_eq_one_iff.mp hlen
            rw [ha] at hgl ⊢
            obtain rfl : a = gl := by simpa using hgl
            exact ⟨hsub b hb, trivial⟩
          · obtain rfl : n = b := by simpa using hn
            exact he n hb
        unfold Larry.groupBy
        rw [e1, e1', ← h.dtype, ← hn]
        dsimp only
        split
        · exact rfl
        · rw [ha1]
          exact along_until hy hy' h hl (groupLine_length sort f gs) _ (Timeless.looksBack _ (Or.inr he))
      · push Not at hsub
        obtain ⟨b, hb, hb'⟩ := hsub
        exact .error (c3 ax l gl b h1 ha hl hgl hb hb') (c3' ax l gl b h1' ha' hl' hgl' hb hb')
  · exact .error (c1 h1) (c1' (by rw [← hm]; exact h1))

end

/-! ## Reductions -/

theorem reduceAx_until {y y' : Larry L} (hy : y.Valid) (hy' : y'.Valid) (h : y.Until later y') {ax : Nat} {l : List L}
    (hl : y.label[ax]? = some l) (he : Early later l) {β : Type _} (f : List Val → β) {idx : List Nat} {rest : List L}
    (hat : At (y.label.eraseIdx ax) idx rest) (hr : Early later rest) :
    (y.x.reduceAx f ax).get idx = (y'.x.reduceAx f ax).get idx := by
  have hl' : y'.label[ax]? = some l := h.label ▸ hl
  obtain ⟨hN, vs, h1, h2⟩ := (holds_reduceAx hy hl f rest _).mp ⟨idx, hat, rfl⟩
  obtain ⟨-, vs', h1', h2'⟩ := (holds_reduceAx hy' hl' f rest _).mp ⟨idx, h.label ▸ hat, rfl⟩
  rw [h2, h2', line_eq hy h1 hl, line_eq hy' h1' hl']
  congr 1
  exact List.map_congr_left fun c hc => h.valueAt hy hy' (named_put hl hN hc) (hr.insertIdx (he c hc) ax)

theorem reduce_until {y y' : Larry L} (hy : y.Valid) (hy' : y'.Valid) (h : y.Until later y') (r : Red) {axis : Option Int}
    (hax : ∀ a ax l, axis = some a → y.ndim ≠ 1 → pyIdx y.ndim a = some ax → y.label[ax]? = some l → Early later l) :
    Res.Agree (Out.Until later) (y.reduce r axis) (y'.reduce r axis) := by
  have hs : y'.shape = y.shape := (h.shape hy hy').symm
  have hz : y'.size = y.size := by unfold Larry.size NDArray.size; rw [h.shape hy hy']
  unfold Larry.reduce
  rw [← h.dtype, ← h.ndim hy hy', hs, hz, ← h.label]
  split
  · split
    · trivial
    · split
      · exact rfl
      · split
        · trivial
        · dsimp only
          generalize (if r.logical = true then DType.bool else y.dtype) = d
          split
          · exact rfl
          · split
            · exact rfl
            · exact ⟨rfl, rfl, by
                rintro names v v' - ⟨idx, -, rfl⟩ ⟨idx', -, rfl⟩
                rfl⟩
  · split
    · exact rfl
    · split
      · trivial
      · rename_i a
        split
        · exact rfl
        · rename_i ax ha
          have hsx : (y.x.reduceAx r.f ax).shape = (y'.x.reduceAx r.f ax).shape := by
            simp [NDArray.reduceAx, h.shape hy hy']
          dsimp only
          rw [← hsx]
          split
          · trivial
          · rename_i hnz
            split
            · exact rfl
            · rename_i hp
              obtain ⟨l, hl, hlt⟩ := label_at hy ha
              have hlab := hp
              unfold pyPop at hlab
              rw [hy.label_length, ha] at hlab
              cases hlab
              refine until_of_get (fun l hl => hy.nodup l (List.mem_of_mem_eraseIdx hl)) rfl rfl fun idx names hat he => ?_
              refine reduceAx_until hy hy' h hl (hax a ax l rfl (fun h1 => hnz ?_) ha hl) r.f hat he
              have := pyIdx_lt ha
              have hlen : y.x.shape.length = 1 := h1
              simp [NDArray.reduceAx, List.length_eraseIdx, hlen]
              omega

theorem prod_until [LinearOrder L] {y y' : Larry L} (hy : y.Valid) (hy' : y'.Valid) (h : y.Until later y') {axis : Option Int}
    (hax : ∀ a ax l, axis = some a → y.ndim ≠ 1 → pyIdx y.ndim a = some ax → y.label[ax]? = some l → Early later l) :
    Res.Agree (Out.Until later) (y.prod axis) (y'.prod axis) := by
  have hn := h.ndim hy hy'
  unfold Larry.prod
  rw [← h.dtype]
  split
  · exact rfl
  · dsimp only
    have h1 := map_until hy h (fun v => if v.isNan = true then Val.flt (Flt.fin 1) else v) y.dtype
    have v1 : (⟨y.x.map (fun v => if v.isNan = true then Val.flt (Flt.fin 1) else v), y.dtype, y.label⟩ : Larry L).Valid :=
      ⟨hy.shape_eq, hy.nodup, hy.ndim_pos⟩
    have v1' : (⟨y'.x.map (fun v => if v.isNan = true then Val.flt (Flt.fin 1) else v), y.dtype, y'.label⟩ : Larry L).Valid :=
      ⟨hy'.shape_eq, hy'.nodup, hy'.ndim_pos⟩
    have hr := reduce_until v1 v1' h1 (prodRed y.dtype) (axis := axis) hax
    rcases hr.cases with ⟨a, b, e1, e2, hab⟩ | ⟨e, e1, e2⟩
    · rw [e1, e2]
      cases a with
      | scalar v => cases b with
        | scalar v' => trivial
        | larry z' => cases hab
      | larry z => cases b with
        | scalar v' => cases hab
        | larry z' =>
          have hz : z.Until later z' := hab
          obtain ⟨a, ax, rfl, ha, hlab⟩ := reduce_larry v1 e1
          have ha2 : pyIdx y.ndim a = some ax := ha
          have ha3 : pyIdx y'.ndim a = some ax := hn ▸ ha2
          simp only [ha2, ha3]
          obtain ⟨l, hl, _⟩ := label_at hy ha2
          have hnd : ∀ l ∈ z.label, l.Nodup := by
            rw [hlab]; exact fun l hl => hy.nodup l (List.mem_of_mem_eraseIdx hl)
          refine until_of_get hnd hz.label hz.dtype fun idx names hat he => ?_
          have hx := hz.get hat he
          have hlab2 : z.label = y.label.eraseIdx ax := hlab
          have hne : y.ndim ≠ 1 := by
            intro h1
            have := (reduce_valid v1 e1).ndim_pos
            rw [hlab2] at this
            refine this (List.length_eq_zero_iff.mp ?_)
            have := pyIdx_lt ha2
            have := hy.label_length
            rw [List.length_eraseIdx]; split <;> omega
          have hm := reduceAx_until hy hy' h hl (hax a ax l rfl hne ha2 hl) (fun l : List Val => (l.map Val.isNan).all id)
            (hlab2 ▸ hat) he
          simp only [maskNan, map_reduceAx, hx, hm, hz.dtype]
    · rw [e1, e2]; exact rfl

end Larry
end La
