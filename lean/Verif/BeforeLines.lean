import Verif.BeforeAxes

/-! # Before the later data came in: the methods that work along an axis (property C108) -/

namespace La
variable {L : Type _} {later : L → Prop} [DecidablePred later]

/-! ## Functions of a line -/

/-- What stands at a place of the result depends on the line up to there only, however long the line is. -/
def PrefixCausal (f : List Val → List Val) : Prop :=
  ∀ (vs ws : List Val) (i : Nat), i < vs.length → i < ws.length → (∀ k ≤ i, vs[k]? = ws[k]?) → (f vs)[i]? = (f ws)[i]?

theorem cumGo_prefix {α : Type _} (op : α → α → α) (acc : α) (vs ws : List α) (i : Nat) (h : ∀ k ≤ i, vs[k]? = ws[k]?) :
    (cumGo op acc vs)[i]? = (cumGo op acc ws)[i]? := by
  induction vs generalizing acc ws i with
  | nil => cases ws with
    | nil => rfl
    | cons w ws => simpa using h 0 (Nat.zero_le _)
  | cons v vs ih => cases ws with
    | nil => simpa using h 0 (Nat.zero_le _)
    | cons w ws =>
      obtain rfl : v = w := by simpa using h 0 (Nat.zero_le _)
      cases i with
      | zero => rfl
      | succ i => exact ih _ ws i fun k hk => h (k + 1) (by omega)

theorem pushGo_prefix (n : Int) (p : Nat) (recent : Val) (count : Option Nat) (vs ws : List Val) (i : Nat)
    (h : ∀ k ≤ i, vs[k]? = ws[k]?) : (pushGo n p recent count vs)[i]? = (pushGo n p recent count ws)[i]? := by
  induction vs generalizing p recent count ws i with
  | nil => cases ws with
    | nil => rfl
    | cons w ws => simpa using h 0 (Nat.zero_le _)
  | cons v vs ih => cases ws with
    | nil => simpa using h 0 (Nat.zero_le _)
    | cons w ws =>
      obtain rfl : v = w := by simpa using h 0 (Nat.zero_le _)
      simp only [pushGo]
      split
      · cases i with
        | zero => rfl
        | succ i => exact ih _ _ _ ws i fun k hk => h (k + 1) (by omega)
      · cases i with
        | zero => rfl
        | succ i => exact ih _ _ _ ws i fun k hk => h (k + 1) (by omega)

theorem pushLine_prefix (n : Int) : PrefixCausal (pushLine n) := fun vs ws i _ _ h => pushGo_prefix n 0 _ _ vs ws i h

theorem windowsLine_prefix (f : List Val → Val) (window : Nat) : PrefixCausal (windowsLine f window) := by
  intro vs ws i hi hi' h
  simp only [windowsLine, List.getElem?_map, List.getElem?_range hi, List.getElem?_range hi', Option.map_some, windowStat]
  split_ifs with hs
  · rfl
  · have : (vs.drop (i + 1 - window)).take window = (ws.drop (i + 1 - window)).take window := by
      apply List.ext_getElem?
      intro k
      rw [List.getElem?_take, List.getElem?_take]
      split
      · rw [List.getElem?_drop, List.getElem?_drop, h _ (by omega)]
      · rfl
    rw [this]

theorem bnMoveLine_prefix (out : Flt × Nat → Flt) {window : Nat} (h1 : 1 ≤ window) : PrefixCausal (bnMoveLine out window) := by
  intro vs ws i _ _ h
  by_cases hs : i + 1 < window
  · rw [bnMoveLine_early out vs hs, bnMoveLine_early out ws hs]
  · have hm : ∀ k ≤ i, (vs.map Val.num)[k]? = (ws.map Val.num)[k]? := fun k hk => by simp only [List.getElem?_map, h k hk]
    have ht : (vs.map Val.num).take window = (ws.map Val.num).take window := by
      apply List.ext_getElem?
      intro k
      rw [List.getElem?_take, List.getElem?_take]
      split
      · exact hm k (by omega)
      · rfl
    simp only [bnMoveLine, ht, List.getElem?_map]
    rw [List.getElem?_append_right (by simp; omega), List.getElem?_append_right (by simp; omega), List.length_replicate]
    cases hj : i - (window - 1) with
    | zero => simp
    | succ j =>
      rw [List.getElem?_cons_succ, List.getElem?_cons_succ, runWindow_causal out _ _ _ j]
      intro k hk
      simp only [List.zip_eq_zipWith, List.getElem?_zipWith, List.getElem?_drop]
      rw [hm _ (by omega), hm _ (by omega)]

theorem windowDiff_at {α : Type _} (sub : α → α → α) {window : Nat} (hw : 1 ≤ window) (skip : Nat) (cs : List α) {j : Nat}
    (hj : j + window - 1 < cs.length - skip) : (windowDiff sub window skip cs)[j]? =
      if j = 0 then cs[window - 1]? else (cs[j + window - 1]?).bind fun a => (cs[j - 1]?).map fun b => sub a b := by
  unfold windowDiff
  by_cases h0 : j = 0
  · subst h0
    rw [if_pos rfl, List.getElem?_append_left (by simp; omega)]
    rw [List.getElem?_take_of_lt (by omega), List.getElem?_drop, List.getElem?_take_of_lt (by omega)]
    rfl
  · rw [if_neg h0, List.getElem?_append_right (by simp; omega), List.getElem?_zipWith]
    have hlen : (List.take 1 (List.drop (window - 1) (List.take (cs.length - skip) cs))).length = 1 := by simp; omega
    rw [hlen, List.getElem?_drop, List.getElem?_drop, List.getElem?_take_of_lt (by omega), List.getElem?_take_of_lt (by omega)]
    have e : window - 1 + (1 + (j - 1)) = j + window - 1 := by omega
    rw [e]
    cases cs[j + window - 1]? <;> cases cs[j - 1]? <;> rfl

theorem movingsumLine_prefix (d : DType) {window : Nat} (hw : 1 ≤ window) (skip : Nat) (norm : Bool) :
    PrefixCausal (movingsumLine d window skip norm) := by
  intro vs ws i hi hi' h
  simp only [movingsumLine]
  by_cases h1 : i < skip + window - 1
  · rw [List.getElem?_append_left (by simp; omega), List.getElem?_append_left (by simp; omega), List.getElem?_replicate,
      List.getElem?_replicate, if_pos (by omega), if_pos (by omega)]
  · rw [List.getElem?_append_right (by simp; omega), List.getElem?_append_right (by simp; omega),
      List.length_replicate, List.length_replicate, Nat.min_eq_right (by omega), Nat.min_eq_right (by omega),
      List.getElem?_map, List.getElem?_map, List.getElem?_zipWith, List.getElem?_zipWith]
    have hm : ∀ k ≤ i, (vs.map (fun v => decide (d = .float) && v.isNan))[k]? = (ws.map (fun v => decide (d = .float) && v.isNan))[k]? :=
      fun k hk => by simp only [List.getElem?_map, h k hk]
    rw [windowDiff_at _ hw _ _ (by simp [cumGo_length]; omega), windowDiff_at _ hw _ _ (by simp [cumGo_length]; omega),
      windowDiff_at _ hw _ _ (by simp [cumGo_length]; omega), windowDiff_at _ hw _ _ (by simp [cumGo_length]; omega)]
    have c1 := fun k (hk : k ≤ i) => cumGo_prefix Flt.add (.fin 0)
      (List.zipWith (fun v (t : Bool) => if t then Flt.fin 0 else v.num) vs (vs.map (fun v => decide (d = .float) && v.isNan)))
      (List.zipWith (fun v (t : Bool) => if t then Flt.fin 0 else v.num) ws (ws.map (fun v => decide (d = .float) && v.isNan))) k
      fun k' hk' => by rw [List.getElem?_zipWith, List.getElem?_zipWith, hm k' (by omega), h k' (by omega)]
    have c2 := fun k (hk : k ≤ i) => cumGo_prefix (· + ·) (0 : ℚ)
      ((vs.map (fun v => decide (d = .float) && v.isNan)).map (fun t => if t then 0 else 1))
      ((ws.map (fun v => decide (d = .float) && v.isNan)).map (fun t => if t then 0 else 1)) k
      fun k' hk' => by rw [List.getElem?_map, List.getElem?_map (l := ws.map _), hm k' (by omega)]
    rw [c1 _ (by omega), c1 _ (by omega), c1 _ (by omega), c2 _ (by omega), c2 _ (by omega), c2 _ (by omega)]

/-- A function of a line gives for the labels so far what it gives for all labels. -/
def SeesSoFar (later : L → Prop) [DecidablePred later] (l : List L) (f' f : List Val → List Val) : Prop :=
  ∀ (W : L → Val) (i' i : Nat) (b : L), (sofar later l)[i']? = some b → l[i]? = some b →
    (f' ((sofar later l).map W))[i']? = (f (l.map W))[i]?

theorem nodup_place {l : List L} (h : l.Nodup) {i j : Nat} {b : L} (hi : l[i]? = some b) (hj : l[j]? = some b) : i = j := by
  obtain ⟨i1, e1⟩ := List.getElem?_eq_some_iff.mp hi
  obtain ⟨i2, e2⟩ := List.getElem?_eq_some_iff.mp hj
  exact (List.Nodup.getElem_inj_iff h).mp (e1.trans e2.symm)

theorem Early.sees {l : List L} (hn : l.Nodup) (h : Early later l) (f : List Val → List Val) : SeesSoFar later l f f := by
  intro W i' i b h1 h2
  rw [sofar_early h] at h1 ⊢
  rw [nodup_place hn h1 h2]

theorem InTime.sees {l : List L} (hn : l.Nodup) (h : InTime later l) {f : List Val → List Val} (hf : PrefixCausal f) :
    SeesSoFar later l f f := by
  intro W i' i b h1 h2
  obtain ⟨k, hk, e⟩ := h.sofar
  rw [e] at h1 ⊢
  have hlt := (List.getElem?_eq_some_iff.mp h1).1
  rw [List.length_take] at hlt
  rw [List.getElem?_take_of_lt (by omega)] at h1
  obtain rfl := nodup_place hn h1 h2
  refine hf _ _ i' (by simp; omega) (by simp; omega) fun j hj => ?_
  rw [List.getElem?_map, List.getElem?_map, List.getElem?_take_of_lt (by omega)]

theorem BackInTime.sees {l : List L} (hn : l.Nodup) (h : BackInTime later l) {f : List Val → List Val} (hf : PrefixCausal f)
    (hl : ∀ vs, (f vs).length = vs.length) :
    SeesSoFar later l (fun vs => (f vs.reverse).reverse) (fun vs => (f vs.reverse).reverse) := by
  intro W i' i b h1 h2
  obtain ⟨k, hk, e⟩ := h.sofar
  rw [e] at h1 ⊢
  have hlt := (List.getElem?_eq_some_iff.mp h1).1
  rw [List.length_drop] at hlt
  rw [List.getElem?_drop] at h1
  obtain rfl := nodup_place hn h1 h2
  simp only
  rw [List.getElem?_reverse (by simp [hl]; omega), List.getElem?_reverse (by simp [hl]; omega)]
  simp only [hl, List.length_reverse, List.length_map, List.length_drop]
  rw [show l.length - 1 - (k + i') = l.length - k - 1 - i' by omega]
  refine hf _ _ _ (by simp; omega) (by simp; omega) fun j hj => ?_
  rw [List.getElem?_reverse (by simp; omega), List.getElem?_reverse (by simp; omega), List.getElem?_map, List.getElem?_map,
    List.getElem?_drop]
  simp only [List.length_map, List.length_drop]
  rw [show k + (l.length - k - 1 - j) = l.length - 1 - j by omega]

namespace Larry

theorem Before.valueAt {y' y : Larry L} (hy' : y'.Valid) (hy : y.Valid) (h : y'.Before later y) {names : List L}
    (hN : Named y'.label names) : y'.valueAt names = y.valueAt names := by
  obtain ⟨v, hv⟩ := Holds_of_Named (x := y'.x) hN
  rw [valueAt_of hy' hv, valueAt_of hy (h.cells _ _ hv)]

/-- The line of a larry through a place. -/
theorem lineAt_of {y : Larry L} (hy : y.Valid) {ax : Nat} {l : List L} (hl : y.label[ax]? = some l) {rest : List L}
    (hN : Named (y.label.eraseIdx ax) rest) : y.LineAt ax rest (l.map fun b => y.valueAt (rest.insertIdx ax b)) := by
  refine ⟨l, hl, by simp, fun j c w hc hw => ?_⟩
  rw [List.getElem?_map, hc] at hw
  obtain rfl : _ = w := by simpa using hw
  obtain ⟨u, hu⟩ := Holds_of_Named (x := y.x) (named_put hl hN (List.mem_of_getElem? hc))
  rw [valueAt_of hy hu]
  exact hu

theorem along_before {y' y : Larry L} (hy' : y'.Valid) (hy : y.Valid) (h : y'.Before later y) {ax : Nat} {l : List L}
    (hl : y.label[ax]? = some l) {f' f : List Val → List Val} (hf' : ∀ vs, (f' vs).length = vs.length)
    (hf : ∀ vs, (f vs).length = vs.length) (d : DType) (hff : SeesSoFar later l f' f) :
    (y'.along f' d ax).Before later (y.along f d ax) := by
  refine ⟨h.label, rfl, fun names v hv => ?_⟩
  have hl' := h.label_at hl
  obtain ⟨vs', i', b, h1, hN, h3, h4, h5⟩ := (holds_mapLines hy' hl' f' .none hf' names v).mp hv
  have hN2 : Named y.label names := (h.named.mp hN).1
  have hb := mem_sofar.mp (List.mem_of_getElem? h4)
  obtain ⟨i, hi⟩ := List.mem_iff_getElem?.mp hb.1
  have hE := named_erase hN ax
  refine (holds_mapLines hy hl f .none hf names v).mpr ⟨_, i, b, lineAt_of hy hl (named_erase hN2 ax), hN2, h3, hi, ?_⟩
  rw [← hff _ i' i b h4 hi, ← h5, line_eq hy' h1 hl']
  refine congrArg (fun l : List Val => (f' l)[i']?) (List.map_congr_left fun c hc => ?_)
  exact (h.valueAt hy' hy (named_put hl' hE hc)).symm

/-! ## The methods -/

theorem cumulate_before {y' y : Larry L} (hy' : y'.Valid) (hy : y.Valid) (h : y'.Before later y) {axis : Option Int}
    (hax : ∀ a ax l, axis = some a → pyIdx y.ndim a = some ax → y.label[ax]? = some l → InTime later l)
    (op : DType → Val → Val → Val) (unit : Int) :
    Res.Both (Before later) (y'.cumulate op unit axis) (y.cumulate op unit axis) := by
  unfold Larry.cumulate npAxis
  rw [h.dtype, h.ndim hy' hy]
  split
  · exact .right
  · rename_i a
    split
    · exact .right
    · cases ha : pyIdx y.ndim a with
      | none => exact .right
      | some ax =>
        obtain ⟨l, hl, _⟩ := label_at hy ha
        have h1 := map_before hy h (replaceNan (ofInt y.dtype unit)) y.dtype
        have v1 : (⟨y.x.map (replaceNan (ofInt y.dtype unit)), y.dtype, y.label⟩ : Larry L).Valid := ⟨hy.shape_eq, hy.nodup, hy.ndim_pos⟩
        have h2 := along_before (l := l) (y' := ⟨y'.x.map (replaceNan (ofInt y.dtype unit)), y.dtype, y'.label⟩)
          (y := ⟨y.x.map (replaceNan (ofInt y.dtype unit)), y.dtype, y.label⟩) ⟨hy'.shape_eq, hy'.nodup, hy'.ndim_pos⟩ v1
          h1 (ax := ax) hl (fun vs => cumGo_length (op y.dtype) (ofInt y.dtype unit) vs)
          (fun vs => cumGo_length (op y.dtype) (ofInt y.dtype unit) vs) y.dtype
          (InTime.sees (hy.nodup l (List.mem_of_getElem? hl)) (hax a ax l rfl ha hl)
            fun vs ws i _ _ h => cumGo_prefix (op y.dtype) (ofInt y.dtype unit) vs ws i h)
        refine .ok (before_of_get h.label rfl fun idx' idx names hat' hat => ?_)
        have e1 := h.get hy hat' hat
        have e2 := Holds_unique (label := y.label) hy.nodup (h2.cells names _ ⟨idx', hat', rfl⟩) ⟨idx, hat, rfl⟩
        simp only [Larry.along] at e2
        dsimp only
        rw [e1, e2]

theorem push_before {y' y : Larry L} (hy' : y'.Valid) (hy : y.Valid) (h : y'.Before later y) {axis : Int}
    (hax : ∀ ax l, pyIdx y.ndim axis = some ax → y.label[ax]? = some l → InTime later l) (window : Int) :
    Res.Both (Before later) (y'.push window axis) (y.push window axis) := by
  unfold Larry.push npAxis
  rw [h.dtype, h.ndim hy' hy]
  cases ha : pyIdx y.ndim axis with
  | none => exact .right
  | some ax =>
    obtain ⟨l, hl, _⟩ := label_at hy ha
    dsimp only
    split
    · exact .right
    · exact .ok (along_before hy' hy h hl (fun vs => pushGo_length _ _ _ _ vs) (fun vs => pushGo_length _ _ _ _ vs) _
        ((hax ax l ha hl).sees (hy.nodup l (List.mem_of_getElem? hl)) (pushLine_prefix window)))

theorem movingsumForward_before {y' y : Larry L} (hy' : y'.Valid) (hy : y.Valid) (h : y'.Before later y) {axis : Int}
    (hax : ∀ ax l, pyIdx y.ndim axis = some ax → y.label[ax]? = some l → BackInTime later l) (window : Int) (skip : Nat)
    (norm : Bool) :
    Res.Both (Before later) (y'.movingsumForward window skip axis norm) (y.movingsumForward window skip axis norm) := by
  unfold Larry.movingsumForward
  rw [h.dtype, h.ndim hy' hy]
  cases ha : pyIdx y.ndim axis with
  | none => exact .right
  | some ax =>
    obtain ⟨l, hl, _⟩ := label_at hy ha
    dsimp only
    by_cases hw : window < 1
    · rw [if_pos hw, if_pos hw]; exact .right
    · have hw' : 1 ≤ window.toNat := by omega
      rw [if_neg hw, if_neg hw]
      have ln : ∀ vs : List Val, (movingsumForwardLine y.dtype window.toNat skip norm vs).length = vs.length := fun vs => by
        rw [movingsumForwardLine, List.length_reverse, movingsumLine_length _ hw', List.length_reverse]
      have := along_before hy' hy h hl ln ln .float ((hax ax l ha hl).sees (hy.nodup l (List.mem_of_getElem? hl))
        (movingsumLine_prefix y.dtype hw' skip norm) (movingsumLine_length _ hw' _ _))
      split_ifs <;> first | exact .left | exact .right | exact .ok this

theorem ranking_before {y' y : Larry L} (hy' : y'.Valid) (hy : y.Valid) (h : y'.Before later y) {axis : Int}
    (hax : ∀ ax l, pyIdx y.ndim axis = some ax → y.label[ax]? = some l → Early later l) (norm : RankNorm) :
    Res.Both (Before later) (y'.ranking (some axis) norm) (y.ranking (some axis) norm) := by
  unfold Larry.ranking
  rw [h.dtype, h.ndim hy' hy]
  split
  · exact .right
  · split
    · exact .right
    · dsimp only
      split
      · exact .right
      · rename_i ha
        obtain ⟨l, hl, _⟩ := label_at hy ha
        exact .ok (along_before hy' hy h hl (rankingLine_length _) (rankingLine_length _) _
          ((hax _ l ha hl).sees (hy.nodup l (List.mem_of_getElem? hl)) _))

theorem quantile_before {y' y : Larry L} (hy' : y'.Valid) (hy : y.Valid) (h : y'.Before later y) {argsort : List ℚ → List Nat}
    {axis : Option Int} {q : Int} (hq : q ≤ 1 ∨ ∃ a, axis = some a ∧
      ∀ ax l, pyIdx y.ndim a = some ax → y.label[ax]? = some l → Early later l) :
    Res.Both (Before later) (y'.quantile argsort q axis) (y.quantile argsort q axis) := by
  unfold Larry.quantile
  rw [h.dtype, h.ndim hy' hy]
  split
  · exact .right
  · split
    · exact .right
    · split
      · exact .ok (map_before hy h _ _)
      · rcases hq with hq | ⟨a, rfl, hax⟩
        · omega
        · dsimp only
          split
          · exact .right
          · rename_i ha
            obtain ⟨l, hl, _⟩ := label_at hy ha
            have := along_before hy' hy h hl (quantileLine_length argsort q.toNat) (quantileLine_length argsort q.toNat) .float
              ((hax _ l ha hl).sees (hy.nodup l (List.mem_of_getElem? hl)) _)
            split_ifs <;> first | exact .left | exact .right | exact .ok this

theorem demean_before {y' y : Larry L} (hy' : y'.Valid) (hy : y.Valid) (h : y'.Before later y) {axis : Int}
    (hax : ∀ ax l, pyIdx y.ndim axis = some ax → y.label[ax]? = some l → Early later l) (center : List Flt → Flt) :
    Res.Both (Before later) (y'.demean center (some axis)) (y.demean center (some axis)) := by
  unfold Larry.demean npAxis
  rw [h.dtype, h.ndim hy' hy]
  split
  · exact .right
  · dsimp only
    cases ha : pyIdx y.ndim axis with
    | none => exact .right
    | some ax =>
      obtain ⟨l, hl, _⟩ := label_at hy ha
      exact .ok (along_before hy' hy h hl (fun vs => by simp [demeanLine]) (fun vs => by simp [demeanLine]) _
        ((hax _ l ha hl).sees (hy.nodup l (List.mem_of_getElem? hl)) _))

theorem zscore_before {y' y : Larry L} (hy' : y'.Valid) (hy : y.Valid) (h : y'.Before later y) {axis : Int}
    (hax : ∀ ax l, pyIdx y.ndim axis = some ax → y.label[ax]? = some l → Early later l) (std : List Flt → Flt) :
    Res.Both (Before later) (y'.zscore std (some axis)) (y.zscore std (some axis)) := by
  unfold Larry.zscore npAxis
  rw [h.dtype, h.ndim hy' hy]
  split
  · exact .right
  · dsimp only
    cases ha : pyIdx y.ndim axis with
    | none => exact .right
    | some ax =>
      obtain ⟨l, hl, _⟩ := label_at hy ha
      exact .ok (along_before hy' hy h hl (fun vs => by simp [zscoreLine, demeanLine]) (fun vs => by simp [zscoreLine, demeanLine]) _
        ((hax _ l ha hl).sees (hy.nodup l (List.mem_of_getElem? hl)) _))

theorem moveBn_before {f : Nat → List Val → List Val}
    (hf : ∀ (w : Nat) (vs : List Val), 1 ≤ w → w ≤ vs.length → (f w vs).length = vs.length) (hc : ∀ w, 1 ≤ w → PrefixCausal (f w))
    {y' y : Larry L} (hy' : y'.Valid) (hy : y.Valid) (h : y'.Before later y) {window axis : Int}
    (hax : ∀ ax l, pyIdx y.ndim axis = some ax → y.label[ax]? = some l → InTime later l) :
    Res.Both (Before later) (y'.moveBn f window axis) (y.moveBn f window axis) := by
  simp only [moveBn, h.ndim hy' hy, h.dtype]
  cases hp : pyIdx y.ndim axis with
  | none => exact .right
  | some ax =>
    obtain ⟨l, hl, -⟩ := label_at hy hp
    have hl' := h.label_at hl
    have e1 : y.shape.getD ax 0 = l.length := by simp [Larry.shape, hy.shape_eq, hl]
    have e2 : y'.shape.getD ax 0 = (sofar later l).length := by simp [Larry.shape, hy'.shape_eq, hl']
    simp only [e1, e2]
    by_cases hd : y.dtype.isNumeric = false
    · simp only [hd, if_true]; exact .right
    · by_cases hw : window < 1 ∨ (l.length : Int) < window
      · simp only [if_neg hd, if_pos hw]; exact .right
      · by_cases hw' : window < 1 ∨ ((sofar later l).length : Int) < window
        · simp only [if_neg hd, if_pos hw']; exact .left
        · simp only [if_neg hd, if_neg hw, if_neg hw']
          refine .ok ?_
          rw [along_onLength hy hl, along_onLength hy' hl']
          refine along_before hy' hy h hl (onLength_length fun us hus => by rw [hf _ us (by omega) (by omega), hus])
            (onLength_length fun us hus => by rw [hf _ us (by omega) (by omega), hus]) _ ?_
          have := (hax ax l hp hl).sees (hy.nodup l (List.mem_of_getElem? hl)) (hc window.toNat (by omega))
          intro W i' i b k1 k2
          unfold onLength
          rw [if_pos (by simp), if_pos (by simp)]
          exact this W i' i b k1 k2

theorem moveKind_before (k : MoveKind) {y' y : Larry L} (hy' : y'.Valid) (hy : y.Valid) (h : y'.Before later y) {window axis : Int}
    (hax : ∀ ax l, pyIdx y.ndim axis = some ax → y.label[ax]? = some l → InTime later l) :
    Res.Both (Before later) (k.run y' window axis) (k.run y window axis) := by
  have run := fun out => moveBn_before (later := later) (f := bnMoveLine out) (fun _ _ h1 h2 => bnMoveLine_length out h1 h2)
    (fun _ h1 => bnMoveLine_prefix out h1) hy' hy h (window := window) hax
  have win := fun g => moveBn_before (later := later) (f := windowsLine g) (fun _ _ _ _ => windowsLine_length _ _ _)
    (fun w _ => windowsLine_prefix g w) hy' hy h (window := window) hax
  cases k
  · exact run _
  · exact run _
  · exact win _
  · exact win _
  · exact win _

/-! ## A function given by the user -/

theorem along_moved_before {f : List Val → Val} {y' y z' z : Larry L} (hy' : y'.Valid) (hy : y.Valid) (h : y'.Before later y) {ax : Nat}
    {l : List L} (hl : y.label[ax]? = some l) (hin : InTime later l) {window : Nat} (hd : z'.dtype = z.dtype)
    (hz' : y'.Along z' ax (Moved f window)) (hz : y.Along z ax (Moved f window)) : z'.Before later z := by
  have hl' := h.label_at hl
  refine ⟨by rw [hz.label_eq, hz'.label_eq, h.label], hd, fun names v' hv' => ?_⟩
  have hN' : Named y'.label names := hz'.label_eq ▸ Named_of_Holds hv'
  have hN := (h.named.mp hN').1
  obtain ⟨v, hv⟩ := Holds_of_Named (x := z.x) (hz.label_eq.symm ▸ hN : Named z.label names)
  obtain ⟨b, i', hb', hbn⟩ : ∃ b, ∃ i : Nat, (sofar later l)[i]? = some b ∧ names[ax]? = some b := by
    obtain ⟨hlen, hmem⟩ := Named_iff.mp hN'
    have hax := (List.getElem?_eq_some_iff.mp hl').1
    have hn := List.getElem?_eq_getElem (l := names) (i := ax) (by omega)
    obtain ⟨i, hi⟩ := List.getElem?_of_mem (hmem ax _ _ hl' hn)
    exact ⟨_, i, hi, hn⟩
  obtain ⟨k, hk, e0⟩ := hin.sofar
  have up : ∀ {j : Nat}, j ≤ i' → (sofar later l)[j]? = l[j]? := by
    intro j hj
    rw [e0] at hb' ⊢
    have := (List.getElem?_eq_some_iff.mp hb').1
    rw [List.length_take] at this
    rw [List.getElem?_take_of_lt (by omega)]
  have hb : l[i']? = some b := (up (le_refl _)).symm.trans hb'
  have e : (names.eraseIdx ax).insertIdx ax b = names := by
    obtain ⟨h1, rfl⟩ := List.getElem?_eq_some_iff.mp hbn
    exact List.insertIdx_eraseIdx_getElem h1
  have hNr := named_erase hN ax
  have hNr' := named_erase hN' ax
  have r' := hz'.cell _ _ _ i' b v' (lineAt_of hy' hl' hNr') hl' hb' (e.symm ▸ hv')
  have r := hz.cell _ _ l i' b v (lineAt_of hy hl hNr) hl hb (e.symm ▸ hv)
  obtain rfl : v' = v := by
    refine moved_unique (fun j hj => ?_) r' r
    rw [List.getElem?_map, List.getElem?_map, up hj]
    cases hc : l[j]? with
    | none => rfl
    | some c =>
      have hc' := List.mem_of_getElem? ((up hj).trans hc)
      rw [Option.map_some, Option.map_some, h.valueAt hy' hy (named_put hl' hNr' hc')]
  exact hv

theorem moveFunc_before {f : List Val → Val} {y' y : Larry L} (hy' : y'.Valid) (hy : y.Valid) (h : y'.Before later y)
    {buf' buf : Int → Val} {arr' arr : Strided} (hst' : StoredAs y' buf' arr') (hst : StoredAs y buf arr) {axis : Option Int}
    (hax : ∀ a ax l, axis = some a → pyIdx y.ndim a = some ax → y.label[ax]? = some l → InTime later l) (window : Int)
    (m : MoveMethod) :
    Res.Both (Before later) (y'.moveFunc f buf' arr' window axis m) (y.moveFunc f buf arr window axis m) := by
  have er : ∀ {y : Larry L} {buf arr} {e : PyErr}, La.moveFunc f buf arr window axis m = .error e →
      y.moveFunc f buf arr window axis m = .error e := fun he => by unfold Larry.moveFunc; rw [he]
  obtain ⟨c1, c2, c3, c4, c5⟩ := C50_errors f buf arr window m
  obtain ⟨-, -, c3', -, -⟩ := C50_errors f buf' arr' window m
  have hn : y.ndim = arr.shape.length := by rw [hst.1]; rfl
  have hn'' : y'.ndim = arr'.shape.length := by rw [hst'.1]; rfl
  have hn' := h.ndim hy' hy
  by_cases hw : window < 1
  · rw [er (c1 _ hw)]; exact .right
  · cases axis with
    | none => rw [er c2]; exact .right
    | some a =>
      by_cases hu : m = .unknown
      · subst hu
        rw [er (y := y) (buf := buf) (arr := arr) (e := .valueError) rfl]; exact .right
      · cases ha : pyIdx y.ndim a with
        | none => rw [er (c4 a hu (by omega) (hn ▸ ha))]; exact .right
        | some ax =>
          have ha1 := ha
          rw [hn] at ha1
          have ha1' := ha
          rw [← hn', hn''] at ha1'
          obtain ⟨l, hl, _⟩ := label_at hy ha
          have hl' := h.label_at hl
          have hlen : arr.shape.getD ax 0 = l.length := by
            rw [hst.1, hy.shape_eq, List.getD_eq_getElem?_getD, List.getElem?_map, hl]; rfl
          have hlen' : arr'.shape.getD ax 0 = (sofar later l).length := by
            rw [hst'.1, hy'.shape_eq, List.getD_eq_getElem?_getD, List.getElem?_map, hl']; rfl
          by_cases hwl : (l.length : Int) < window
          · rw [er (c3 a ax ha1 (by rw [hlen]; exact hwl))]; exact .right
          · by_cases hwl' : ((sofar later l).length : Int) < window
            · rw [er (c3' a ax ha1' (by rw [hlen']; exact hwl'))]; exact .left
            · by_cases hm : m = .loop ∨ m = .strides ∧ y.ndim ≤ 3
              · obtain ⟨w, rfl⟩ := Int.eq_ofNat_of_zero_le (a := window) (by omega)
                obtain ⟨z, e1, e2, e3⟩ := C50_move_func (f := f) hy hst hm (window := w) (by omega) ha hl (by omega)
                obtain ⟨z', e1', e2', e3'⟩ := C50_move_func (f := f) hy' hst' (hn' ▸ hm) (window := w) (by omega) (hn' ▸ ha)
                  hl' (by omega)
                rw [e1, e1']
                exact .ok (along_moved_before hy' hy h hl (hax a ax l rfl ha hl) (by rw [e2, e2']) e3' e3)
              · obtain ⟨rfl, h3⟩ : m = .strides ∧ ¬ y.ndim ≤ 3 := by
                  cases m <;> simp_all
                rw [er (c5 a ax ha1 (by omega))]; exact .right

/-! ## Groups -/

section
variable [LinearOrder L]

theorem group_before (sort f : List Val → List Val) {y' y g' g : Larry L} (hy' : y'.Valid) (hy : y.Valid) (h : y'.Before later y)
    (hg' : g'.Valid) (hg : g.Valid) (hr : g'.Before later g) {axis : Int}
    (hax : ∀ ax l, pyIdx y.ndim axis = some ax → y.label[ax]? = some l → Early later l) :
    Res.Both (Before later) (y'.groupBy sort f g' axis) (y.groupBy sort f g axis) := by
  have hn := h.ndim hy' hy
  have hm := hr.ndim hg' hg
  obtain ⟨c1, c2, c3⟩ := C53_errors sort f y g axis
  by_cases h1 : g.ndim = 1
  · have h1' : g'.ndim = 1 := by rw [hm]; exact h1
    cases ha : pyIdx y.label.length axis with
    | none => rw [c2 h1 ha]; exact .right
    | some ax =>
      have ha1 : pyIdx y.ndim axis = some ax := hy.label_length ▸ ha
      have ha' : pyIdx y'.label.length axis = some ax := by rw [h.naxes]; exact ha
      obtain ⟨l, hl⟩ := axis_label hy ha1
      have he := hax ax l ha1 hl
      have hl' := h.label_at hl
      rw [sofar_early he] at hl'
      obtain ⟨gl, hgl⟩ := axis_label hg (ax := 0) (axis := 0) (by rw [h1]; rfl)
      have hgl' := hr.label_at hgl
      by_cases hsub : ∀ b ∈ l, b ∈ gl
      · have hsub' : ∀ b ∈ l, b ∈ sofar later gl := fun b hb => mem_sofar.mpr ⟨hsub b hb, he b hb⟩
        obtain ⟨gs, e1, e2⟩ := groupAlign_spec hg h1 ha hl (hy.nodup l (List.mem_of_getElem? hl)) hgl hsub
        obtain ⟨gs', e1', e2'⟩ := groupAlign_spec hg' h1' ha' hl' (hy'.nodup l (List.mem_of_getElem? hl')) hgl' hsub'
        obtain rfl : gs' = gs := by
          rw [groupsOf_eq hg e2, groupsOf_eq hg' e2']
          refine List.map_congr_left fun b hb => hr.valueAt hg' hg ?_
          have hlen : g'.label.length = 1 := by rw [hg'.label_length, h1']
          obtain ⟨a, ha⟩ := List.length_eq_one_iff.mp hlen
          rw [ha] at hgl' ⊢
          obtain rfl : a = _ := by simpa using hgl'
          exact ⟨hsub' b hb, trivial⟩
        unfold Larry.groupBy
        rw [e1, e1', h.dtype, hn]
        dsimp only
        split
        · exact .right
        · rw [ha1]
          exact .ok (along_before hy' hy h hl (groupLine_length sort f gs') (groupLine_length sort f gs') _
            (he.sees (hy.nodup l (List.mem_of_getElem? hl)) _))
      · push Not at hsub
        obtain ⟨b, hb, hb'⟩ := hsub
        rw [c3 ax l gl b h1 ha hl hgl hb hb']; exact .right
  · rw [c1 h1]; exact .right

end

/-! ## Reductions -/

theorem reduceAx_before {y' y : Larry L} (hy' : y'.Valid) (hy : y.Valid) (h : y'.Before later y) {ax : Nat} {l : List L}
    (hl : y.label[ax]? = some l) (he : Early later l) {β : Type _} (f : List Val → β) {idx' idx : List Nat} {rest : List L}
    (hat' : At (y'.label.eraseIdx ax) idx' rest) (hat : At (y.label.eraseIdx ax) idx rest) :
    (y'.x.reduceAx f ax).get idx' = (y.x.reduceAx f ax).get idx := by
  have hl' := h.label_at hl
  rw [sofar_early he] at hl'
  obtain ⟨hN', vs', h1', h2'⟩ := (holds_reduceAx hy' hl' f rest _).mp ⟨idx', hat', rfl⟩
  obtain ⟨-, vs, h1, h2⟩ := (holds_reduceAx hy hl f rest _).mp ⟨idx, hat, rfl⟩
  rw [h2, h2', line_eq hy h1 hl, line_eq hy' h1' hl']
  congr 1
  exact List.map_congr_left fun c hc => h.valueAt hy' hy (named_put hl' hN' hc)

theorem nonempty_prod {l : List Nat} : l.prod ≠ 0 ↔ ∀ n ∈ l, n ≠ 0 := by
  induction l with
  | nil => simp
  | cons a l ih => rw [List.prod_cons, List.forall_mem_cons, ← ih]; exact Nat.mul_ne_zero_iff

theorem size_before {y' y : Larry L} (hy' : y'.Valid) (hy : y.Valid) (h : y'.Before later y) (hs : y'.size ≠ 0) : y.size ≠ 0 := by
  unfold Larry.size NDArray.size at *
  rw [nonempty_prod, hy'.shape_eq, h.label] at hs
  rw [nonempty_prod, hy.shape_eq]
  intro n hn
  obtain ⟨l, hl, rfl⟩ := List.mem_map.mp hn
  have := hs (sofar later l).length (List.mem_map.mpr ⟨_, List.mem_map.mpr ⟨l, hl, rfl⟩, rfl⟩)
  intro h0
  rw [List.length_eq_zero_iff] at h0
  subst h0
  exact this rfl

/-- A reduction over an axis without later labels, or over everything, of data that are not empty. -/
theorem reduce_before {y' y : Larry L} (hy' : y'.Valid) (hy : y.Valid) (h : y'.Before later y) (hs : y'.size ≠ 0) (r : Red)
    {axis : Option Int}
    (hax : ∀ a ax l, axis = some a → y.ndim ≠ 1 → pyIdx y.ndim a = some ax → y.label[ax]? = some l → Early later l) :
    Res.Both (Out.Before later) (y'.reduce r axis) (y.reduce r axis) := by
  have hs2 := size_before hy' hy h hs
  have hn := h.ndim hy' hy
  unfold Larry.reduce
  rw [if_neg hs, if_neg hs2, h.dtype, hn]
  split
  · exact .right
  · split
    · exact .ok trivial
    · rename_i a
      cases ha : pyIdx y.ndim a with
      | none => exact .right
      | some ax =>
        have hlt := pyIdx_lt ha
        have len : ∀ {y : Larry L}, ax < y.ndim → (y.x.reduceAx r.f ax).shape.length = y.ndim - 1 := by
          intro y hlt
          have hlt' : ax < y.x.shape.length := hlt
          simp only [NDArray.reduceAx, NDArray.ndim, Larry.ndim, List.length_eraseIdx, if_pos hlt']
        dsimp only
        rw [len hlt, len (hn ▸ hlt), hn]
        split
        · exact .ok (show Out.Before later (.scalar _) (.scalar _) from trivial)
        · rename_i hnz
          have hp : pyPop y.label a = .ok (y.label.eraseIdx ax) := by
            unfold pyPop
            rw [hy.label_length, ha]
          have hp' : pyPop y'.label a = .ok (y'.label.eraseIdx ax) := by
            unfold pyPop
            rw [hy'.label_length, hn, ha]
          rw [hp, hp']
          obtain ⟨l, hl, _⟩ := label_at hy ha
          have he := hax a ax l rfl (fun h1 => hnz (by omega)) ha hl
          refine .ok (show Before later ⟨_, _, y'.label.eraseIdx ax⟩ ⟨_, _, y.label.eraseIdx ax⟩ from before_of_get ?_ rfl
            fun idx' idx names h1 h2 => reduceAx_before hy' hy h hl he r.f h1 h2)
          show y'.label.eraseIdx ax = (y.label.eraseIdx ax).map _
          rw [h.label, List.eraseIdx_map]

theorem prod_before [LinearOrder L] {y' y : Larry L} (hy' : y'.Valid) (hy : y.Valid) (h : y'.Before later y) (hs : y'.size ≠ 0)
    {axis : Option Int}
    (hax : ∀ a ax l, axis = some a → y.ndim ≠ 1 → pyIdx y.ndim a = some ax → y.label[ax]? = some l → Early later l) :
    Res.Both (Out.Before later) (y'.prod axis) (y.prod axis) := by
  have hn := h.ndim hy' hy
  unfold Larry.prod
  rw [h.dtype]
  split
  · exact .right
  · dsimp only
    have h1 := map_before hy h (fun v => if v.isNan = true then Val.flt (Flt.fin 1) else v) y.dtype
    have v1 : (⟨y.x.map (fun v => if v.isNan = true then Val.flt (Flt.fin 1) else v), y.dtype, y.label⟩ : Larry L).Valid :=
      ⟨hy.shape_eq, hy.nodup, hy.ndim_pos⟩
    have v1' : (⟨y'.x.map (fun v => if v.isNan = true then Val.flt (Flt.fin 1) else v), y.dtype, y'.label⟩ : Larry L).Valid :=
      ⟨hy'.shape_eq, hy'.nodup, hy'.ndim_pos⟩
    have hr := reduce_before v1' v1 h1 hs (prodRed y.dtype) (axis := axis) hax
    generalize e2 : reduce (prodRed y.dtype) ⟨y'.x.map (fun v => if v.isNan = true then Val.flt (Flt.fin 1) else v), y.dtype, y'.label⟩ axis = r2 at hr ⊢
    generalize e1 : reduce (prodRed y.dtype) ⟨y.x.map (fun v => if v.isNan = true then Val.flt (Flt.fin 1) else v), y.dtype, y.label⟩ axis = r1 at hr ⊢
    cases r2 with
    | error e => exact .left
    | ok a => cases r1 with
      | error e => exact .right
      | ok b =>
        have hab := hr a b rfl rfl
        cases a with
        | scalar v' => cases b with
          | scalar v => exact .ok trivial
          | larry z => exact hab.elim
        | larry z' => cases b with
          | scalar v => exact hab.elim
          | larry z =>
            have hz : z'.Before later z := hab
            obtain ⟨a, ax, rfl, ha, hlab⟩ := reduce_larry v1 e1
            obtain ⟨a', ax', haa, ha', hlab'⟩ := reduce_larry v1' e2
            obtain rfl : a = a' := by simpa using haa
            have ha2 : pyIdx y.ndim a = some ax := ha
            have ha3 : pyIdx y'.ndim a = some ax := hn.symm ▸ ha2
            obtain rfl : ax = ax' := by
              have : pyIdx y'.ndim a = some ax' := ha'
              rw [ha3] at this; simpa using this
            simp only [ha2, ha3]
            obtain ⟨l, hl, _⟩ := label_at hy ha2
            have hlab2 : z.label = y.label.eraseIdx ax := hlab
            have hlab2' : z'.label = y'.label.eraseIdx ax := hlab'
            have hne : y.ndim ≠ 1 := by
              intro h1
              have := (reduce_valid v1 e1).ndim_pos
              rw [hlab2] at this
              refine this (List.length_eq_zero_iff.mp ?_)
              have := pyIdx_lt ha2
              have := hy.label_length
              rw [List.length_eraseIdx]; split <;> omega
            have he := hax a ax l rfl hne ha2 hl
            refine .ok (show Before later _ _ from before_of_get hz.label hz.dtype fun idx' idx names k1 k2 => ?_)
            have hx := hz.get (reduce_valid v1 e1) k1 k2
            have hm := reduceAx_before hy' hy h hl he (fun l : List Val => (l.map Val.isNan).all id)
              (hlab2' ▸ k1) (hlab2 ▸ k2)
            simp only [maskNan, map_reduceAx, hx, hm, hz.dtype]

/-! ## A number, and stacking -/

section
variable [LinearOrder L]

theorem bfits_nil (s : List Nat) : BFits s [] := ⟨s, [], by simp, .nil⟩

theorem breads_nil {idx k : List Nat} : BReads [] idx k ↔ k = [] := by
  constructor
  · rintro ⟨_, _, _, _, h, _⟩
    exact List.length_eq_zero_iff.mp h
  · rintro rfl
    exact ⟨idx, [], by simp, rfl, rfl, fun k n i i' h => by simp at h⟩

/-- An operation with a number. -/
theorem binopArray_before (uf : UFunc2) {y' y : Larry L} (hy' : y'.Valid) (hy : y.Valid) (h : y'.Before later y)
    {x : NDArray Val} (hx : x.shape = []) (d : DType) :
    Res.Both (Before later) (binopArray uf y' x d) (binopArray uf y x d) := by
  cases hd : uf.dt y.dtype d with
  | error e => rw [show binopArray uf y x d = .error e by unfold binopArray; rw [npBinop_dtError hd]]; exact .right
  | ok d' =>
    obtain ⟨w, e1, -, e3, e4, e5⟩ := C12_broadcast hy x d uf hd (by rw [hx]; exact bfits_nil _)
    obtain ⟨w', e1', -, e3', e4', e5'⟩ := C12_broadcast hy' x d uf (h.dtype ▸ hd) (by rw [hx]; exact bfits_nil _)
    rw [e1, e1']
    refine .ok ⟨by rw [e4, e4', h.label], by rw [e3, e3'], fun names v hv => ?_⟩
    obtain ⟨idx', k', hat', hb', rfl⟩ := (e5' names v).mp hv
    have hN := (h.named.mp (Named_of_At hat')).1
    obtain ⟨idx, hat⟩ := At_of_Named hN
    rw [hx] at hb'
    obtain rfl := breads_nil.mp hb'
    refine (e5 names _).mpr ⟨idx, [], hat, by rw [hx]; exact breads_nil.mpr rfl, ?_⟩
    rw [h.get hy hat' hat]

omit [LinearOrder L] in
/-- Whether a label is on the merged axis, of the larrys so far and of all of them. -/
theorem merged_before (m : Bool) {lars' lars : List (Larry L)} (h : List.Forall₂ (Before later) lars' lars) (hne : m = false → lars ≠ [])
    (k : Nat) (a : L) : Merged m lars' k a ↔ Merged m lars k a ∧ ¬ later a := by
  have on : ∀ {y' y : Larry L}, y'.Before later y → (OnAxis y' k a ↔ OnAxis y k a ∧ ¬ later a) := by
    intro y' y h
    constructor
    · rintro ⟨l, hl, ha⟩
      rw [h.label, List.getElem?_map] at hl
      obtain ⟨l', hl', rfl⟩ := Option.map_eq_some_iff.mp hl
      exact ⟨⟨l', hl', (mem_sofar.mp ha).1⟩, (mem_sofar.mp ha).2⟩
    · rintro ⟨⟨l, hl, ha⟩, hb⟩
      exact ⟨_, h.label_at hl, mem_sofar.mpr ⟨ha, hb⟩⟩
  have fwd : ∀ lar' ∈ lars', ∃ lar ∈ lars, lar'.Before later lar := by
    clear hne
    induction h with
    | nil => intro _ h; cases h
    | cons hab _ ih =>
      intro lar' hm
      cases hm with
      | head => exact ⟨_, List.mem_cons_self, hab⟩
      | tail _ hm => obtain ⟨c, hc, h⟩ := ih _ hm; exact ⟨c, List.mem_cons_of_mem _ hc, h⟩
  have bwd : ∀ lar ∈ lars, ∃ lar' ∈ lars', lar'.Before later lar := by
    clear hne fwd
    induction h with
    | nil => intro _ h; cases h
    | cons hab _ ih =>
      intro lar hm
      cases hm with
      | head => exact ⟨_, List.mem_cons_self, hab⟩
      | tail _ hm => obtain ⟨c, hc, h⟩ := ih _ hm; exact ⟨c, List.mem_cons_of_mem _ hc, h⟩
  cases m with
  | true =>
    constructor
    · rintro ⟨lar', hm, ho⟩
      obtain ⟨lar, hm', hb⟩ := fwd _ hm
      exact ⟨⟨lar, hm', ((on hb).mp ho).1⟩, ((on hb).mp ho).2⟩
    · rintro ⟨⟨lar, hm, ho⟩, hl⟩
      obtain ⟨lar', hm', hb⟩ := bwd _ hm
      exact ⟨lar', hm', (on hb).mpr ⟨ho, hl⟩⟩
  | false =>
    constructor
    · intro (hall : ∀ lar ∈ lars', OnAxis lar k a)
      obtain ⟨l0, hl0⟩ := List.exists_mem_of_ne_nil _ (hne rfl)
      obtain ⟨l0', hl0', hb0⟩ := bwd _ hl0
      refine ⟨show ∀ lar ∈ lars, OnAxis lar k a from fun lar hm => ?_, ((on hb0).mp (hall _ hl0')).2⟩
      obtain ⟨lar', hm', hb⟩ := bwd _ hm
      exact ((on hb).mp (hall _ hm')).1
    · rintro ⟨hall, hl⟩
      have hall : ∀ lar ∈ lars, OnAxis lar k a := hall
      show ∀ lar ∈ lars', OnAxis lar k a
      intro lar' hm
      obtain ⟨lar, hm', hb⟩ := fwd _ hm
      exact (on hb).mpr ⟨hall _ hm', hl⟩

theorem stack_before (mode : Option Bool) {kw' kw : List (L × Larry L)}
    (h : List.Forall₂ (fun p q => p.1 = q.1 ∧ p.2.Before later q.2) kw' kw) (hk : (kw.map Prod.fst).Nodup)
    (hkl : ∀ p ∈ kw, ¬ later p.1) (hv' : ∀ p ∈ kw', p.2.Valid) (hv : ∀ p ∈ kw, p.2.Valid ∧ p.2.dtype.IsNum) :
    Res.Both (Before later) (stack mode kw') (stack mode kw) := by
  cases mode with
  | none => rw [(C62_errors kw).2.1]; exact .right
  | some m =>
    by_cases hn : ∃ p ∈ kw, p.2.ndim ≠ 2
    · rw [(C62_errors kw).1 _ hn]; exact .right
    · push Not at hn
      have fst : kw'.map Prod.fst = kw.map Prod.fst := by
        clear hk hkl hv' hv hn
        induction h with
        | nil => rfl
        | cons hab _ ih => simp [hab.1, ih]
      have snd : List.Forall₂ (Before later) (kw'.map Prod.snd) (kw.map Prod.snd) := by
        clear hk hkl hv' hv hn fst
        induction h with
        | nil => exact .nil
        | cons hab _ ih => exact .cons hab.2 ih
      have fwd : ∀ p' ∈ kw', ∃ p ∈ kw, p'.1 = p.1 ∧ p'.2.Before later p.2 := by
        clear hk hkl hv' hv hn fst snd
        induction h with
        | nil => intro _ h; cases h
        | cons hab _ ih =>
          intro p' hm
          cases hm with
          | head => exact ⟨_, List.mem_cons_self, hab⟩
          | tail _ hm => obtain ⟨c, hc, h⟩ := ih _ hm; exact ⟨c, List.mem_cons_of_mem _ hc, h⟩
      by_cases hne : m = false → kw ≠ []
      · have hne' : m = false → kw' ≠ [] := fun e e' => hne e (by subst e'; cases h; rfl)
        obtain ⟨z, keys, row, col, e1, zv, zd, zl, zk, zks, zr, zc, zrow, zcol, zin, zout⟩ :=
          C62_stack m hk (fun p hp => ⟨(hv p hp).1, hn p hp, (hv p hp).2⟩) hne
        obtain ⟨z', keys', row', col', e1', zv', zd', zl', zk', zks', zr', zc', zrow', zcol', zin', zout'⟩ :=
          C62_stack m (kw := kw') (fst ▸ hk) (fun p' hp' => by
            obtain ⟨p, hp, -, hb⟩ := fwd p' hp'
            exact ⟨hv' p' hp', (hb.ndim (hv' p' hp') (hv p hp).1).trans (hn p hp), hb.dtype ▸ (hv p hp).2⟩) hne'
        rw [e1, e1']
        have hne2 : m = false → kw.map Prod.snd ≠ [] := fun e e' => hne e (List.map_eq_nil_iff.mp e')
        have cut : ∀ {l' l : List L} {k : Nat}, l.Pairwise (· < ·) → l'.Pairwise (· < ·) →
            (∀ a, a ∈ l ↔ Merged m (kw.map Prod.snd) k a) → (∀ a, a ∈ l' ↔ Merged m (kw'.map Prod.snd) k a) →
            l' = sofar later l := by
          intro l' l k h1 h2 h3 h4
          refine ascending_ext h2 (h1.filter _) fun a => ?_
          rw [h4, merged_before m snd hne2, ← h3]
          exact mem_sofar.symm
        have ekeys : keys' = sofar later keys := by
          rw [sofar_early (fun a ha => by
            obtain ⟨p, hp, rfl⟩ := List.mem_map.mp (zk.mem_iff.mp ha)
            exact hkl p hp)]
          refine ascending_ext zks' zks fun a => ?_
          rw [zk'.mem_iff, zk.mem_iff, fst]
        have erow := cut zr zr' zrow zrow'
        have ecol := cut zc zc' zcol zcol'
        refine .ok ⟨by rw [zl, zl', ekeys, erow, ecol]; rfl, by rw [zd, zd'], fun names v hv1 => ?_⟩
        have hN' := Named_of_Holds hv1
        rw [zl'] at hN'
        obtain ⟨key, r, c, rfl, hkey, hrow, hcol⟩ : ∃ key r c, names = [key, r, c] ∧ key ∈ keys' ∧ r ∈ row' ∧ c ∈ col' := by
          match names, hN' with
          | [key, r, c], ⟨a, b, d, _⟩ => exact ⟨key, r, c, rfl, a, b, d⟩
        obtain ⟨⟨key, lar'⟩, hm', rfl⟩ := List.mem_map.mp (zk'.mem_iff.mp hkey)
        obtain ⟨⟨key2, lar⟩, hm, hkk, hb⟩ := fwd _ hm'
        obtain rfl : key = key2 := hkk
        have hb : lar'.Before later lar := hb
        have hr1 := mem_sofar.mp (erow ▸ hrow)
        have hc1 := mem_sofar.mp (ecol ▸ hcol)
        by_cases hNl : Named lar.label [r, c]
        · have hNl' : Named lar'.label [r, c] := hb.named.mpr ⟨hNl, fun a ha => by
            simp only [List.mem_cons, List.not_mem_nil, or_false] at ha
            rcases ha with rfl | rfl
            · exact hr1.2
            · exact hc1.2⟩
          obtain ⟨w, hw⟩ := Holds_of_Named (x := lar'.x) hNl'
          have h1 := zin' _ _ hm' r c w hw hrow hcol
          have h2 := zin _ _ hm r c w (hb.cells _ _ hw) hr1.1 hc1.1
          rwa [Holds_unique zv'.nodup hv1 h1]
        · have h1 := zout' _ _ hm' r c hrow hcol fun hh => hNl (hb.named.mp hh).1
          have h2 := zout _ _ hm r c hr1.1 hc1.1 hNl
          rwa [Holds_unique zv'.nodup hv1 h1]
      · push Not at hne
        obtain ⟨rfl, rfl⟩ := hne
        rw [(C62_errors (L := L) []).2.2]; exact .right

end

end Larry
end La
