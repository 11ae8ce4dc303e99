import Verif.Props.AnyAxis
import Verif.Props.Totals
import Verif.Props.Align
import Verif.Props.Missing
import Verif.Props.Stats
import Verif.Props.Numeric
import Verif.Props.Normalize
import Verif.Props.History

/-!
# C117: labels with nothing under them do not count

A larry to which labels were added whose cells are all NaN (by `morph`, by an outer `align`), or from which `vacuum` took such
labels away, has the same statistics.
-/

namespace La
open Larry
variable {L : Type _}

/-- `w` is the float larry `y` with labels added, on any axes and anywhere between the others, whose cells are all NaN. -/
structure WithEmpty (y w : Larry L) : Prop where
  dtypes : y.dtype = .float ∧ w.dtype = .float
  labels : List.Forall₂ (fun l l' : List L => ∀ b ∈ l, b ∈ l') y.label w.label
  cells : ∀ names v, y.Has names v → w.Has names v
  rest : ∀ names v, w.Has names v → Named y.label names ∨ v = .flt .nan
  floats : ∀ names v, w.Has names v → ∃ f, v = .flt f

/-- The labels of axis `ax` that both have are in the same order. -/
def SameOrder (ax : Nat) (y w : Larry L) : Prop :=
  ∀ l l', y.label[ax]? = some l → w.label[ax]? = some l' → l.Sublist l'

/-! ## Lists -/

/-- The values of a list that are not NaN. -/
def solid (vs : List Val) : List Val := vs.filter (fun v => !v.isNan)

theorem isNan_nan : (Val.flt .nan).isNan = true := rfl

theorem solid_map {α : Type _} (f : α → Val) (l : List α) :
    solid (l.map f) = (l.filter (fun b => !(f b).isNan)).map f := by
  unfold solid
  rw [List.filter_map]
  rfl

theorem solid_perm {α : Type _} {f : α → Val} {l l' : List α} (nd : l.Nodup) (nd' : l'.Nodup) (hs : ∀ b ∈ l, b ∈ l')
    (hp : ∀ b ∈ l', b ∉ l → f b = .flt .nan) : (solid (l.map f)).Perm (solid (l'.map f)) := by
  rw [solid_map, solid_map]
  refine List.Perm.map _ ?_
  rw [List.perm_ext_iff_of_nodup (nd.filter _) (nd'.filter _)]
  intro b
  simp only [List.mem_filter, Bool.not_eq_true', and_congr_left_iff]
  intro hb
  refine ⟨hs b, fun h => ?_⟩
  by_contra hn
  rw [hp b h hn] at hb
  cases hb

theorem solid_eq {α : Type _} {f : α → Val} {l l' : List α} (hs : l.Sublist l') : l'.Nodup →
    (∀ b ∈ l', b ∉ l → f b = .flt .nan) → solid (l.map f) = solid (l'.map f) := by
  intro nd hp
  induction hs with
  | slnil => rfl
  | @cons l l' a hs ih =>
    obtain ⟨n1, n2⟩ := List.nodup_cons.mp nd
    have : f a = .flt .nan := hp a (by simp) (fun h => n1 (hs.subset h))
    rw [ih n2 (fun b hb hn => hp b (by simp [hb]) hn)]
    simp [solid, this, isNan_nan]
  | @cons_cons l l' a hs ih =>
    obtain ⟨n1, n2⟩ := List.nodup_cons.mp nd
    have := ih n2 (fun b hb hn => hp b (by simp [hb]) (by
      simp only [List.mem_cons, not_or]
      exact ⟨fun e => n1 (e ▸ hb), hn⟩))
    simp only [solid, List.map_cons, List.filter_cons] at this ⊢
    rw [this]

theorem solid_take {α : Type _} {f : α → Val} {l l' : List α} (hs : l.Sublist l') : l'.Nodup →
    (∀ b ∈ l', b ∉ l → f b = .flt .nan) → ∀ {b : α} {i j : Nat}, l[i]? = some b → l'[j]? = some b →
    solid ((l.take i).map f) = solid ((l'.take j).map f) := by
  intro nd hp
  induction hs with
  | slnil => intro b i j hi; simp at hi
  | @cons l l' a hs ih =>
    intro b i j hi hj
    obtain ⟨n1, n2⟩ := List.nodup_cons.mp nd
    have : f a = .flt .nan := hp a (by simp) (fun h => n1 (hs.subset h))
    cases j with
    | zero =>
      simp only [List.getElem?_cons_zero, Option.some.injEq] at hj
      subst hj
      exact absurd (hs.subset (List.mem_of_getElem? hi)) n1
    | succ j =>
      rw [ih n2 (fun b hb hn => hp b (by simp [hb]) hn) hi (by simpa using hj)]
      simp [solid, this, isNan_nan]
  | @cons_cons l l' a hs ih =>
    intro b i j hi hj
    obtain ⟨n1, n2⟩ := List.nodup_cons.mp nd
    cases i with
    | zero =>
      simp only [List.getElem?_cons_zero, Option.some.injEq] at hi
      subst hi
      cases j with
      | zero => rfl
      | succ j => exact absurd (List.mem_of_getElem? (by simpa using hj)) n1
    | succ i =>
      cases j with
      | zero =>
        simp only [List.getElem?_cons_zero, Option.some.injEq] at hj
        subst hj
        exact absurd (hs.subset (List.mem_of_getElem? (by simpa using hi))) n1
      | succ j =>
        have := ih n2 (fun b hb hn => hp b (by simp [hb]) (by
          simp only [List.mem_cons, not_or]
          exact ⟨fun e => n1 (e ▸ hb), hn⟩)) (by simpa using hi) (by simpa using hj)
        simp only [solid, List.take_succ_cons, List.map_cons, List.filter_cons] at this ⊢
        rw [this]

/-! ## Lines and cells -/

namespace WithEmpty

theorem label_get {y w : Larry L} (h : WithEmpty y w) {ax : Nat} {l : List L} (hl : y.label[ax]? = some l) :
    ∃ l', w.label[ax]? = some l' ∧ ∀ b ∈ l, b ∈ l' := by
  have hax := (List.getElem?_eq_some_iff.mp hl).1
  have hax' : ax < w.label.length := by rw [← h.labels.length_eq]; exact hax
  refine ⟨w.label[ax], List.getElem?_eq_getElem hax', ?_⟩
  have := List.Forall₂.get h.labels hax hax'
  have e : y.label[ax] = l := by simpa [List.getElem?_eq_getElem hax] using hl
  simpa [e] using this

theorem ndim_eq {y w : Larry L} (h : WithEmpty y w) (hy : y.Valid) (hw : w.Valid) : w.ndim = y.ndim := by
  rw [← hy.label_length, ← hw.label_length, h.labels.length_eq]

theorem named {y w : Larry L} (h : WithEmpty y w) {names : List L} (hN : Named y.label names) : Named w.label names := by
  obtain ⟨v, hv⟩ := Holds_of_Named (x := y.x) hN
  exact Named_of_Holds (h.cells _ _ hv)

theorem value {y w : Larry L} (h : WithEmpty y w) (hy : y.Valid) (hw : w.Valid) {names : List L}
    (hN : Named y.label names) : w.valueAt names = y.valueAt names := by
  obtain ⟨v, hv⟩ := Holds_of_Named (x := y.x) hN
  have hv' : y.Has names v := hv
  rw [valueAt_of hw (h.cells _ _ hv), valueAt_of hy hv']

theorem value_rest {y w : Larry L} (h : WithEmpty y w) (hw : w.Valid) {names : List L}
    (hN : Named w.label names) (hn : ¬ Named y.label names) : w.valueAt names = .flt .nan := by
  obtain ⟨v, hv⟩ := Holds_of_Named (x := w.x) hN
  have hv' : w.Has names v := hv
  rw [valueAt_of hw hv']
  exact (h.rest _ _ hv).resolve_left hn

/-- Two results, of `y` and of `w`. -/
theorem results {y w z z' : Larry L} (h : WithEmpty y w) (e : z.label = y.label) (e' : z'.label = w.label)
    (hd : z.dtype = .float ∧ z'.dtype = .float)
    (hc : ∀ names v v', Named y.label names → z.Has names v → z'.Has names v' → v = v')
    (hn : ∀ names v', w.Has names (.flt .nan) → z'.Has names v' → v' = .flt .nan)
    (hf : ∀ names v', z'.Has names v' → ∃ f, v' = .flt f) : WithEmpty z z' := by
  refine ⟨hd, by rw [e, e']; exact h.labels, fun names v hv => ?_, fun names v hv => ?_, hf⟩
  · have hN : Named y.label names := e ▸ Named_of_Holds hv
    obtain ⟨v', hv'⟩ := Holds_of_Named (x := z'.x) (label := z'.label) (e' ▸ h.named hN)
    rw [hc names v v' hN hv hv']
    exact hv'
  · rw [e]
    by_cases hN : Named y.label names
    · exact .inl hN
    · obtain ⟨u, hu⟩ := Holds_of_Named (x := w.x) (label := w.label) (e' ▸ Named_of_Holds hv)
      have hu' : w.Has names u := hu
      have := (h.rest _ _ hu').resolve_left hN
      rw [this] at hu'
      exact .inr (hn names v hu' hv)

theorem named_erase {label : List (List L)} {names : List L} (ax : Nat) (h : Named label names) :
    Named (label.eraseIdx ax) (names.eraseIdx ax) := by
  obtain ⟨h1, h2⟩ := Named_iff.mp h
  refine Named_iff.mpr ⟨by simp [List.length_eraseIdx, h1], fun k l n hl hn => ?_⟩
  rw [List.getElem?_eraseIdx] at hl hn
  split at hl
  · rename_i hk
    rw [if_pos hk] at hn
    exact h2 _ _ _ hl hn
  · rename_i hk
    rw [if_neg hk] at hn
    exact h2 _ _ _ hl hn

theorem names_line {label : List (List L)} {ax : Nat} {l : List L} (hl : label[ax]? = some l) {rest : List L}
    (hN : Named (label.eraseIdx ax) rest) {b : L} : Named label (rest.insertIdx ax b) ↔ b ∈ l := by
  obtain ⟨e1, e2⟩ := eraseIdx_insertIdx_label hl
  have hax := (List.getElem?_eq_some_iff.mp hl).1
  obtain ⟨ridx, hr⟩ := At_of_Named hN
  obtain ⟨h1, h2⟩ := At_length hr
  constructor
  · intro h
    have := (Named_iff.mp h).2 ax l b hl (by rw [List.getElem?_insertIdx_self, if_pos (by omega)])
    exact this
  · intro hb
    obtain ⟨i, hi⟩ := List.mem_iff_getElem?.mp hb
    have : At label (ridx.insertIdx ax i) (rest.insertIdx ax b) := by
      rw [← e1, At_insertIdx (by omega) (by omega) (by omega)]
      exact ⟨hr, hi⟩
    exact Named_of_At this

theorem labels_erase {y w : Larry L} (h : WithEmpty y w) (ax : Nat) :
    List.Forall₂ (fun l l' : List L => ∀ b ∈ l, b ∈ l') (y.label.eraseIdx ax) (w.label.eraseIdx ax) := by
  have hh := h.labels
  generalize y.label = a at hh
  generalize w.label = b at hh
  induction hh generalizing ax with
  | nil => exact .nil
  | cons h1 h2 ih => cases ax with
    | zero => exact h2
    | succ k => exact .cons h1 (ih k)

theorem named_rest {y w : Larry L} (h : WithEmpty y w) (ax : Nat) {rest : List L}
    (hN : Named (y.label.eraseIdx ax) rest) : Named (w.label.eraseIdx ax) rest := by
  have := h.labels_erase ax
  rw [Named_iff] at hN ⊢
  refine ⟨hN.1.trans this.length_eq, fun k l' n hl' hn => ?_⟩
  have hk' := (List.getElem?_eq_some_iff.mp hl').1
  have hk : k < (y.label.eraseIdx ax).length := by rw [this.length_eq]; exact hk'
  have h2 := List.Forall₂.get this hk hk'
  have e : (w.label.eraseIdx ax)[k] = l' := by simpa [List.getElem?_eq_getElem hk'] using hl'
  have h3 := hN.2 k _ n (List.getElem?_eq_getElem hk) hn
  have := h2 n (by simpa using h3)
  simpa [e] using this

/-- The two lines that go together, as functions of the label. -/
theorem lines {y w : Larry L} (h : WithEmpty y w) (hy : y.Valid) (hw : w.Valid) {ax : Nat} {l l' : List L}
    (hl : y.label[ax]? = some l) (hl' : w.label[ax]? = some l') {rest : List L} (hN : Named (y.label.eraseIdx ax) rest)
    {vs ws : List Val} (hvs : y.LineAt ax rest vs) (hws : w.LineAt ax rest ws) :
    ∃ W : L → Val, vs = l.map W ∧ ws = l'.map W ∧ ∀ b ∈ l', b ∉ l → W b = .flt .nan := by
  refine ⟨fun b => w.valueAt (rest.insertIdx ax b), ?_, line_eq hw hws hl', fun b hb hn => ?_⟩
  · rw [line_eq hy hvs hl]
    refine List.map_congr_left fun b hb => ?_
    exact (h.value hy hw ((names_line hl hN).mpr hb)).symm
  · exact h.value_rest hw ((names_line hl' (h.named_rest ax hN)).mpr hb) (fun hc => hn ((names_line hl hN).mp hc))

theorem line_perm {y w : Larry L} (h : WithEmpty y w) (hy : y.Valid) (hw : w.Valid) {ax : Nat} {rest : List L}
    (hN : Named (y.label.eraseIdx ax) rest) {vs ws : List Val} (hvs : y.LineAt ax rest vs) (hws : w.LineAt ax rest ws) :
    (solid vs).Perm (solid ws) := by
  obtain ⟨l, hl, -⟩ := id hvs
  obtain ⟨l', hl', hs⟩ := h.label_get hl
  obtain ⟨W, rfl, rfl, hp⟩ := h.lines hy hw hl hl' hN hvs hws
  exact solid_perm (hy.nodup l (List.mem_of_getElem? hl)) (hw.nodup l' (List.mem_of_getElem? hl')) hs hp

theorem vals_perm {y w : Larry L} (h : WithEmpty y w) (hy : y.Valid) (hw : w.Valid) :
    (solid y.x.vals).Perm (solid w.x.vals) := by
  have e : y.x.vals = ((allIdx y.x.shape).map (namesOf y.label)).map w.valueAt := by
    rw [vals_eq hy]
    exact List.map_congr_left fun names hm => (h.value hy hw ((mem_allNames hy).mp hm)).symm
  rw [e, vals_eq hw]
  refine solid_perm (allNames_nodup hy) (allNames_nodup hw) (fun names hm => ?_) (fun names hm hn => ?_)
  · exact (mem_allNames hw).mpr (h.named ((mem_allNames hy).mp hm))
  · exact h.value_rest hw ((mem_allNames hw).mp hm) (fun hN => hn ((mem_allNames hy).mpr hN))

end WithEmpty

/-! ## Functions that skip NaN -/

/-- Every value is a float. -/
def OnlyFloats (vs : List Val) : Prop := ∀ v ∈ vs, ∃ x, v = .flt x

/-- `f` of a list of floats is a float, which depends on the values that are not NaN, in any order, and is NaN if there is
none. -/
structure SkipsNan (f : List Val → Val) : Prop where
  same : ∀ vs ws, OnlyFloats vs → OnlyFloats ws → (solid vs).Perm (solid ws) → f vs = f ws
  none : f [] = .flt .nan
  float : ∀ vs, OnlyFloats vs → ∃ x, f vs = .flt x

/-- Both are the same number, or the second is the first with labels added. -/
def OutWithEmpty : Out L → Out L → Prop
  | .scalar v, .scalar v' => v = v'
  | .larry z, .larry z' => WithEmpty z z'
  | _, _ => False

/-- What the method `m` does to a float larry, of any size, in terms of `f`. -/
structure Reduces (m : Larry L → Option Int → Res (Out L)) (f : List Val → Val) : Prop where
  whole : ∀ y : Larry L, y.Valid → y.dtype = .float → m y none = .ok (.scalar (f y.x.vals))
  along : ∀ (y : Larry L) a, y.Valid → y.dtype = .float → y.ndim = 1 → (a = 0 ∨ a = -1) →
    ∃ vs, y.LineAt 0 [] vs ∧ m y (some a) = .ok (.scalar (f vs))
  step : ∀ (y : Larry L) a ax, y.Valid → y.dtype = .float → 2 ≤ y.ndim → pyIdx y.ndim a = some ax →
    ∃ z, m y (some a) = .ok (.larry z) ∧ z.dtype = .float ∧ z.label = y.label.eraseIdx ax ∧
      ∀ rest v, z.Has rest v ↔ Named z.label rest ∧ ∃ vs, y.LineAt ax rest vs ∧ v = f vs

theorem SkipsNan.empty {f : List Val → Val} (hf : SkipsNan f) {vs : List Val} (h : ∀ v ∈ vs, v = .flt .nan) :
    f vs = .flt .nan := by
  rw [← hf.none]
  refine hf.same _ _ (fun v hv => ⟨_, h v hv⟩) (fun v hv => nomatch hv) (List.Perm.of_eq ?_)
  show solid vs = []
  unfold solid
  rw [List.filter_eq_nil_iff]
  intro v hv
  rw [h v hv]
  decide

theorem axis_of_one {a : Int} {ax n : Nat} (h1 : n = 1) (h : pyIdx n a = some ax) : ax = 0 ∧ (a = 0 ∨ a = -1) := by
  unfold pyIdx at h
  subst h1
  split_ifs at h with h2 h3
  · simp only [Option.some.injEq] at h; omega
  · simp only [Option.some.injEq] at h; omega

theorem WithEmpty.floats_left {y w : Larry L} (h : WithEmpty y w) {names : List L} {v : Val} (hv : y.Has names v) :
    ∃ f, v = .flt f := h.floats _ _ (h.cells _ _ hv)

theorem floats_line {y : Larry L} (hf : ∀ names v, y.Has names v → ∃ f, v = .flt f) {ax : Nat} {rest : List L}
    {vs : List Val} (h : y.LineAt ax rest vs) : OnlyFloats vs := by
  intro v hv
  obtain ⟨l, hl, hlen, hh⟩ := h
  obtain ⟨i, hi⟩ := List.mem_iff_getElem?.mp hv
  have hlt : i < l.length := by rw [← hlen]; exact (List.getElem?_eq_some_iff.mp hi).1
  exact hf _ _ (hh i _ v (List.getElem?_eq_getElem hlt) hi)

theorem floats_vals {y : Larry L} (hy : y.Valid) (hf : ∀ names v, y.Has names v → ∃ f, v = .flt f) :
    OnlyFloats y.x.vals := by
  intro v hv
  obtain ⟨names, h⟩ := mem_vals_has hy hv
  exact hf _ _ h

theorem reduces_empty {m : Larry L → Option Int → Res (Out L)} {f : List Val → Val} (hm : Reduces m f)
    (hf : SkipsNan f) {y w : Larry L} (hy : y.Valid) (hw : w.Valid) (h : WithEmpty y w) {axis : Option Int}
    (hax : ∀ a, axis = some a → ∃ ax, pyIdx y.ndim a = some ax) :
    ∃ o o', m y axis = .ok o ∧ m w axis = .ok o' ∧ OutWithEmpty o o' := by
  have fl1 : ∀ names v, y.Has names v → ∃ f, v = .flt f := fun _ _ => h.floats_left
  cases axis with
  | none =>
    refine ⟨_, _, hm.whole y hy h.dtypes.1, hm.whole w hw h.dtypes.2, ?_⟩
    exact hf.same _ _ (floats_vals hy fl1) (floats_vals hw h.floats) (h.vals_perm hy hw)
  | some a =>
    obtain ⟨ax, ha⟩ := hax a rfl
    have hn := h.ndim_eq hy hw
    have hlt := pyIdx_lt ha
    by_cases h1 : y.ndim = 1
    · obtain ⟨e, ha'⟩ := axis_of_one h1 ha
      subst e
      obtain ⟨vs, l1, e1⟩ := hm.along y a hy h.dtypes.1 h1 ha'
      obtain ⟨ws, l2, e2⟩ := hm.along w a hw h.dtypes.2 (hn.trans h1) ha'
      refine ⟨_, _, e1, e2, ?_⟩
      have hN : Named (y.label.eraseIdx 0) [] := by
        have : y.label.length = 1 := by rw [hy.label_length]; exact h1
        match hh : y.label, this with
        | [l], _ => trivial
      exact hf.same _ _ (floats_line fl1 l1) (floats_line h.floats l2) (h.line_perm hy hw hN l1 l2)
    · have h2 : 2 ≤ y.ndim := by
        have : ax < y.ndim := hlt
        omega
      obtain ⟨z, e1, d1, b1, c1⟩ := hm.step y a ax hy h.dtypes.1 h2 ha
      obtain ⟨z', e2, d2, b2, c2⟩ := hm.step w a ax hw h.dtypes.2 (by omega) (by rw [hn]; exact ha)
      refine ⟨_, _, e1, e2, ?_⟩
      obtain ⟨l, hl, -⟩ := label_at hy ha
      obtain ⟨l', hl', hs⟩ := h.label_get hl
      refine ⟨⟨d1, d2⟩, ?_, fun rest v hv => ?_, fun rest v hv => ?_, fun rest v hv => ?_⟩
      · rw [b1, b2]; exact h.labels_erase ax
      · obtain ⟨hN, vs, l1, rfl⟩ := (c1 rest v).mp hv
        rw [b1] at hN
        have hN' := h.named_rest ax hN
        obtain ⟨ridx, hr⟩ := At_of_Named hN'
        refine (c2 rest _).mpr ⟨by rw [b2]; exact hN', _, line_at hw hl' hr, ?_⟩
        exact hf.same _ _ (floats_line fl1 l1) (floats_line h.floats (line_at hw hl' hr))
          (h.line_perm hy hw hN l1 (line_at hw hl' hr))
      · obtain ⟨hN, ws, l2, rfl⟩ := (c2 rest v).mp hv
        rw [b1]
        by_cases hN0 : Named (y.label.eraseIdx ax) rest
        · exact .inl hN0
        · refine .inr (hf.empty fun v hv => ?_)
          rw [b2] at hN
          rw [line_eq hw l2 hl'] at hv
          obtain ⟨b, hb, rfl⟩ := List.mem_map.mp hv
          refine h.value_rest hw ((WithEmpty.names_line hl' hN).mpr hb) (fun hc => hN0 ?_)
          have e : (rest.insertIdx ax b).eraseIdx ax = rest := by
            exact List.eraseIdx_insertIdx_self _
          rw [← e]
          exact WithEmpty.named_erase ax hc
      · obtain ⟨hN, ws, l2, rfl⟩ := (c2 rest v).mp hv
        exact hf.float _ (floats_line h.floats l2)

/-- `c` depends on the numbers that are not NaN, in any order. -/
def SkipsNanF (c : List Flt → Flt) : Prop :=
  ∀ xs zs : List Flt, (xs.filter (fun x => !x.isNan)).Perm (zs.filter (fun x => !x.isNan)) → c xs = c zs

theorem solid_num (vs : List Val) : (vs.map Val.num).filter (fun x => !x.isNan) = (solid vs).map Val.num := by
  rw [List.filter_map]; rfl

theorem SkipsNanF.lift {c : List Flt → Flt} (h : SkipsNanF c) (h0 : c [] = .nan) :
    SkipsNan (fun vs => .flt (c (vs.map Val.num))) := by
  refine ⟨fun vs ws _ _ hp => ?_, congrArg Val.flt h0, fun vs _ => ⟨_, rfl⟩⟩
  show Val.flt _ = Val.flt _
  rw [h (vs.map Val.num) (ws.map Val.num) (by rw [solid_num, solid_num]; exact hp.map _)]

theorem nanmean_skips : SkipsNanF nanmean := by
  intro xs zs h
  unfold nanmean
  simp only [h.length_eq, sum_unordered _ _ h]

theorem leF_antisymm {a b : Flt} (h : LeF a b) (h' : LeF b a) : a = b := by
  cases a <;> cases b <;> simp_all [LeF]
  exact le_antisymm h h'

theorem medianOf_skips : SkipsNanF medianOf := by
  intro xs zs h
  unfold medianOf
  have : (xs.filter fun x => !x.isNan).insertionSort (fun a b => a.le b = true) =
      (zs.filter fun x => !x.isNan).insertionSort (fun a b => a.le b = true) := by
    refine List.Perm.eq_of_pairwise (le := LeF) (fun a b _ _ h1 h2 => leF_antisymm h1 h2)
      (sort_leF _ (by rw [filter_nan_eq]; simp)) (sort_leF _ (by rw [filter_nan_eq]; simp)) ?_
    exact (List.perm_insertionSort _ _).trans (h.trans (List.perm_insertionSort _ _).symm)
  simp only [this]

theorem varOf_skips (ddof : Int) : SkipsNanF (varOf ddof) := by
  intro xs zs h
  unfold varOf
  simp only [h.length_eq, sum_unordered _ _ h]
  split
  · rfl
  · rw [sum_unordered _ _ (h.map _)]

theorem SkipsNanF.after {c : List Flt → Flt} (h : SkipsNanF c) (g : Flt → Flt) : SkipsNanF (fun xs => g (c xs)) :=
  fun xs zs hp => congrArg g (h xs zs hp)

theorem mean_skips : SkipsNan bnNanmean.f := nanmean_skips.lift (by decide +kernel)
theorem median_skips : SkipsNan bnNanmedian.f := medianOf_skips.lift (by decide +kernel)
theorem var_skips (ddof : Int) : SkipsNan (bnNanvar ddof).f := (varOf_skips ddof).lift rfl
theorem std_skips {root : Flt → Flt} (hr : root .nan = .nan) (ddof : Int) : SkipsNan (bnNanstd root ddof).f :=
  ((varOf_skips ddof).after root).lift hr

theorem prod_skips : SkipsNan prodSpec := by
  have key : SkipsNanF (fun xs => if ∀ x ∈ xs, x = .nan then .nan else nanProd xs) := by
    intro xs zs h
    have hall : ∀ xs : List Flt, (∀ x ∈ xs, x = .nan) ↔ xs.filter (fun x => !x.isNan) = [] := by
      intro xs
      rw [List.filter_eq_nil_iff]
      refine forall₂_congr fun x _ => ?_
      cases x <;> simp [Flt.isNan]
    have e : (∀ x ∈ xs, x = .nan) ↔ ∀ x ∈ zs, x = .nan := by
      rw [hall, hall, ← List.length_eq_zero_iff, ← List.length_eq_zero_iff, h.length_eq]
    show (if _ then _ else _) = if _ then _ else _
    simp only [nanProd, prod_unordered _ _ h]
    by_cases hx : ∀ x ∈ xs, x = .nan
    · rw [if_pos hx, if_pos (e.mp hx)]
    · rw [if_neg hx, if_neg (fun hz => hx (e.mpr hz))]
  have := key.lift (by simp)
  have e : (fun vs : List Val => Val.flt (if ∀ x ∈ vs.map Val.num, x = .nan then .nan else nanProd (vs.map Val.num))) =
      prodSpec := by
    funext vs
    simp only [prodSpec, List.forall_mem_map]
  rwa [e] at this

theorem sum_floats {vs : List Val} (h : OnlyFloats vs) : bnNansum.f vs =
    .flt (if (vs.map Val.num).filter (fun x => !x.isNan) = [] then .nan
      else Flt.sum ((vs.map Val.num).filter (fun x => !x.isNan))) := by
  have e1 : vs.map countVal = vs := by
    conv_rhs => rw [← List.map_id vs]
    refine List.map_congr_left fun v hv => ?_
    obtain ⟨x, rfl⟩ := h v hv
    rfl
  show nanFold plusVal countVal vs = _
  unfold nanFold
  rw [e1, solid_num]
  show (match solid vs with | [] => _ | v :: vs => _) = _
  have hs : OnlyFloats (solid vs) := fun v hv => h v (List.mem_filter.mp hv).1
  generalize solid vs = ws at hs
  match ws with
  | [] => rfl
  | v :: ws =>
    obtain ⟨x, rfl⟩ := hs v (by simp)
    rw [if_neg (by simp)]
    have key : ∀ (l : List Val) (a : Flt), OnlyFloats l → l.foldl plusVal (.flt a) = .flt ((l.map Val.num).foldl Flt.add a) := by
      intro l
      induction l with
      | nil => intro a _; rfl
      | cons b l ih =>
        intro a hb
        obtain ⟨y, rfl⟩ := hb b (by simp)
        exact ih _ (fun v hv => hb v (by simp [hv]))
    show ws.foldl plusVal (.flt x) = _
    rw [key ws x (fun v hv => hs v (by simp [hv]))]
    unfold Flt.sum
    simp only [List.map_cons, List.foldl_cons]
    congr 2
    cases x <;> simp [Val.num, Flt.add]

theorem sum_skips : SkipsNan bnNansum.f := by
  refine ⟨fun vs ws h1 h2 hp => ?_, rfl, fun vs h => ⟨_, sum_floats h⟩⟩
  rw [sum_floats h1, sum_floats h2, solid_num, solid_num]
  have hp' := hp.map Val.num
  rw [sum_unordered _ _ hp']
  have : ((solid vs).map Val.num = []) ↔ ((solid ws).map Val.num = []) := by
    rw [← List.length_eq_zero_iff, ← List.length_eq_zero_iff, hp'.length_eq]
  simp only [this]

theorem extreme_skips {op : Val → Val → Val} (hop : CommOn op id (Ordered .float)) : SkipsNan (nanFold op id) := by
  have hQ : ∀ vs, OnlyFloats vs → ∀ v ∈ solid vs, Ordered .float v := by
    intro vs h v hv
    obtain ⟨hv, hn⟩ := List.mem_filter.mp hv
    obtain ⟨x, rfl⟩ := h v hv
    exact ⟨rfl, by simpa using hn⟩
  refine ⟨fun vs ws h1 h2 hp => ?_, rfl, fun vs h => ?_⟩
  · rw [gather_fold?, gather_fold?, List.map_id, List.map_id]
    show (fold? op (solid vs)).getD _ = (fold? op (solid ws)).getD _
    rw [hop.fold?_perm hp (hQ vs h1)]
  · rw [gather_fold?, List.map_id]
    show ∃ x, (fold? op (solid vs)).getD _ = _
    have := hQ vs h
    generalize solid vs = us at this
    match us with
    | [] => exact ⟨_, rfl⟩
    | a :: l =>
      have h1 := (hop.foldl_closed l a (this a (by simp)) (fun v hv => this v (by simp [hv]))).1
      show ∃ x, l.foldl op a = _
      cases hh : l.foldl op a <;> rw [hh] at h1 <;> first | exact ⟨_, rfl⟩ | cases h1

theorem max_skips : SkipsNan bnNanmax.f := extreme_skips (commOn_max (.inl rfl))
theorem min_skips : SkipsNan bnNanmin.f := extreme_skips (commOn_min (.inl rfl))

/-! ## The reductions -/

theorem vals_nil {y : Larry L} (h : y.size = 0) : y.x.vals = [] := by
  have : (allIdx y.x.shape).length = 0 := by rw [length_allIdx]; exact h
  unfold NDArray.vals
  rw [List.length_eq_zero_iff.mp this]
  rfl

theorem line_some {y : Larry L} (hy : y.Valid) {ax : Nat} {l : List L} (hl : y.label[ax]? = some l) {rest : List L}
    (hN : Named (y.label.eraseIdx ax) rest) : ∃ vs, y.LineAt ax rest vs := by
  obtain ⟨ridx, hr⟩ := At_of_Named hN
  exact ⟨_, line_at hy hl hr⟩

/-- A line of a larry of size 0 is empty. -/
theorem line_nil {y : Larry L} (hy : y.Valid) (h : y.size = 0) {ax : Nat} {rest : List L} {vs : List Val} (hl : y.LineAt ax rest vs) : vs = [] := by
  obtain ⟨l, hl, hlen, hh⟩ := hl
  cases vs with
  | nil => rfl
  | cons v vs =>
    cases l with
    | nil => simp at hlen
    | cons b l =>
      have := hh 0 b v rfl rfl
      obtain ⟨idx, hat, -⟩ := this
      have hin : InB y.x.shape idx := by rw [hy.shape_eq]; exact At_inB hat
      have : (allIdx y.x.shape).length = 0 := by rw [length_allIdx]; exact h
      have hm := mem_allIdx.mpr hin
      rw [List.length_eq_zero_iff.mp this] at hm
      cases hm

theorem reduces_reduce (r : Red) (hf : r.f [] = .flt .nan) (hd : r.dt .float = .ok .float)
    (h0 : r.default = .flt .nan) (hl : r.logical = false) : Reduces (L := L) (fun y a => y.reduce r a) r.f := by
  refine ⟨fun y hy hy' => ?_, fun y a hy hy' h1 ha => ?_, fun y a ax hy hy' h2 ha => ?_⟩
  · by_cases hs : y.size = 0
    · show y.reduce r none = _
      rw [(C42_reduce_empty r hy hs).1, h0, vals_nil hs, hf]
    · exact reduce_none_eq r (by rw [hy']; exact hd) hs
  · have hax' : pyIdx y.ndim a = some 0 := by
      rcases ha with rfl | rfl <;> simp [pyIdx, h1]
    by_cases hs : y.size = 0
    · obtain ⟨l, hl, -⟩ := label_at hy hax'
      have hN : Named (y.label.eraseIdx 0) [] := by
        have : y.label.length = 1 := by rw [hy.label_length]; exact h1
        match hh : y.label, this with
        | [l], _ => trivial
      obtain ⟨vs, hvs⟩ := line_some hy hl hN
      refine ⟨vs, hvs, ?_⟩
      rw [line_nil hy hs hvs, hf, ← h0]
      exact (C42_reduce_empty r hy hs).2.1 a h1 ha
    · exact C42_reduce_1d r hy (by rw [hy']; exact hd) hs h1 ha
  · by_cases hs : y.size = 0
    · obtain ⟨z, e, -, b, d, c⟩ := (C42_reduce_empty r hy hs).2.2.1 a ax (.flt .nan) h2 ha (by
        rw [hl, hy', h0]; rfl)
      refine ⟨z, e, by rw [d, hl]; exact hy', b, fun rest v => ?_⟩
      rw [c rest v]
      refine and_congr_right fun hN => ?_
      rw [b] at hN
      obtain ⟨l, hl, -⟩ := label_at hy ha
      constructor
      · rintro rfl
        obtain ⟨vs, hvs⟩ := line_some hy hl hN
        exact ⟨vs, hvs, by rw [line_nil hy hs hvs, hf]⟩
      · rintro ⟨vs, hvs, rfl⟩
        rw [line_nil hy hs hvs, hf]
    · obtain ⟨z, e, -, d, b, c⟩ := C42_reduce_axis r hy (by rw [hy']; exact hd) hs ha h2
      exact ⟨z, e, d, b, c⟩

theorem reduces_prod : Reduces (L := L) Larry.prod prodSpec := by
  have hone : ∀ y : Larry L, y.Valid → ({ y with x := y.x.map (fun v => if v.isNan then .flt (.fin 1) else v) } : Larry L).Valid :=
    fun y hy => mapped_valid hy _ _
  have h0 : prodSpec [] = .flt .nan := by simp [prodSpec]
  refine ⟨fun y hy hy' => ?_, fun y a hy hy' h1 ha => ?_, fun y a ax hy hy' h2 ha => ?_⟩
  · by_cases hs : y.size = 0
    · unfold Larry.prod
      rw [if_neg (by simp [hy']), vals_nil hs, h0]
      simp only
      rw [(C42_reduce_empty (prodRed y.dtype) (hone y hy) hs).1]
      simp [prodRed]
    · refine prod_scalar hy' ?_ rfl
      rw [reduce_none_eq (prodRed y.dtype) (y := { y with x := y.x.map (fun v =>
        if v.isNan then .flt (.fin 1) else v) }) (d := .float) (by simp [prodRed, prodDType, hy']) hs]
      simp [NDArray.vals, NDArray.map, Function.comp_def]
  · have hax' : pyIdx y.ndim a = some 0 := by
      rcases ha with rfl | rfl <;> simp [pyIdx, h1]
    by_cases hs : y.size = 0
    · obtain ⟨l, hl, -⟩ := label_at hy hax'
      have hN : Named (y.label.eraseIdx 0) [] := by
        have : y.label.length = 1 := by rw [hy.label_length]; exact h1
        match hh : y.label, this with
        | [l], _ => trivial
      obtain ⟨vs, hvs⟩ := line_some hy hl hN
      refine ⟨vs, hvs, ?_⟩
      rw [line_nil hy hs hvs, h0]
      unfold Larry.prod
      rw [if_neg (by simp [hy'])]
      simp only
      rw [(C42_reduce_empty (prodRed y.dtype) (hone y hy) hs).2.1 a h1 ha]
      simp [prodRed]
    · exact C44_prod_1d hy hy' hs h1 ha
  · by_cases hs : y.size = 0
    · obtain ⟨z, e, -, b, d, c⟩ := (C42_reduce_empty (prodRed y.dtype) (hone y hy) hs).2.2.1 a ax (.flt .nan) h2 ha (by
        show fillVal? y.dtype _ = _
        rw [hy']; rfl)
      refine ⟨⟨maskNan z.dtype z.x ((y.x.map Val.isNan).reduceAx (fun l => l.all id) ax), z.dtype, z.label⟩, ?_,
        by rw [d]; exact hy', b, fun rest v => ?_⟩
      · unfold Larry.prod
        rw [if_neg (by simp [hy'])]
        simp only
        rw [e]
        simp only
        rw [ha]
      · have hz : ∀ v, (⟨maskNan z.dtype z.x ((y.x.map Val.isNan).reduceAx (fun l => l.all id) ax), z.dtype, z.label⟩ :
            Larry L).Has rest v ↔ Named z.label rest ∧ v = .flt .nan := by
          intro v
          constructor
          · rintro ⟨idx, hat, rfl⟩
            refine ⟨Named_of_At hat, ?_⟩
            have := ((c rest (z.x.get idx)).mp ⟨idx, hat, rfl⟩).2
            show (if _ then _ else _) = _
            split
            · rfl
            · exact this
          · rintro ⟨hN, rfl⟩
            obtain ⟨idx, hat⟩ := At_of_Named hN
            refine ⟨idx, hat, ?_⟩
            have := ((c rest (z.x.get idx)).mp ⟨idx, hat, rfl⟩).2
            show (if _ then _ else _) = _
            split
            · rfl
            · exact this
        rw [hz v]
        refine and_congr_right fun hN => ?_
        have b' : z.label = y.label.eraseIdx ax := b
        rw [b'] at hN
        obtain ⟨l, hl, -⟩ := label_at hy ha
        constructor
        · rintro rfl
          obtain ⟨vs, hvs⟩ := line_some hy hl hN
          exact ⟨vs, hvs, by rw [line_nil hy hs hvs, h0]⟩
        · rintro ⟨vs, hvs, rfl⟩
          rw [line_nil hy hs hvs, h0]
    · obtain ⟨z, e, -, d, b, c⟩ := C44_prod_axis hy hy' hs ha h2
      exact ⟨z, e, d, b, c⟩

/-- The axis is one the larry has. -/
def HasAxis (y : Larry L) (axis : Option Int) : Prop := ∀ a, axis = some a → ∃ ax, pyIdx y.ndim a = some ax

/-- The two calls give the same number, or larrys of which the second is the first with labels added. -/
def SameBut (a b : Res (Out L)) : Prop := ∃ o o', a = .ok o ∧ b = .ok o' ∧ OutWithEmpty o o'

/-- C117. Reducing over all elements, or along an axis: labels with nothing but NaN under them make no difference. -/
theorem C117_reductions {y w : Larry L} (hy : y.Valid) (hw : w.Valid) (h : WithEmpty y w) {axis : Option Int}
    (hax : HasAxis y axis) :
    SameBut (y.sum axis) (w.sum axis) ∧ SameBut (y.prod axis) (w.prod axis) ∧
    SameBut (y.max axis) (w.max axis) ∧ SameBut (y.min axis) (w.min axis) ∧
    SameBut (y.mean axis) (w.mean axis) ∧ SameBut (y.median axis) (w.median axis) ∧
    (∀ ddof, SameBut (y.var axis ddof) (w.var axis ddof)) ∧
    (∀ root : Flt → Flt, root .nan = .nan → ∀ ddof, SameBut (y.std root axis ddof) (w.std root axis ddof)) :=
  ⟨reduces_empty (reduces_reduce bnNansum sum_skips.none rfl rfl rfl) sum_skips hy hw h hax,
   reduces_empty reduces_prod prod_skips hy hw h hax,
   reduces_empty (reduces_reduce bnNanmax max_skips.none rfl rfl rfl) max_skips hy hw h hax,
   reduces_empty (reduces_reduce bnNanmin min_skips.none rfl rfl rfl) min_skips hy hw h hax,
   reduces_empty (reduces_reduce bnNanmean mean_skips.none rfl rfl rfl) mean_skips hy hw h hax,
   reduces_empty (reduces_reduce bnNanmedian median_skips.none rfl rfl rfl) median_skips hy hw h hax,
   fun ddof => reduces_empty (reduces_reduce (bnNanvar ddof) (var_skips ddof).none rfl rfl rfl) (var_skips ddof) hy hw h hax,
   fun _ hr ddof => reduces_empty (reduces_reduce _ (std_skips hr ddof).none rfl rfl rfl) (std_skips hr ddof) hy hw h hax⟩

/-! ## Calculations along an axis -/

/-- Both calls return valid larrys, of which the second is the first with labels added. -/
def StillEmpty (a b : Res (Larry L)) : Prop :=
  ∃ z z', a = .ok z ∧ b = .ok z' ∧ z.Valid ∧ z'.Valid ∧ WithEmpty z z'

/-- What a calculation makes of a line depends on the values that are not NaN. -/
theorem WithEmpty.alongs {y w z z' : Larry L} (h : WithEmpty y w) (hy : y.Valid) (hw : w.Valid) {ax : Nat}
    {l l' : List L} (hl : y.label[ax]? = some l) (hl' : w.label[ax]? = some l') {R : List Val → Nat → Val → Prop}
    (hz : y.Along z ax R) (hz' : w.Along z' ax R) (hd : z.dtype = .float ∧ z'.dtype = .float)
    (hc : ∀ (W : L → Val) (b : L) (i j : Nat) v v', (∀ c ∈ l', c ∉ l → W c = .flt .nan) →
      OnlyFloats (l'.map W) → l[i]? = some b → l'[j]? = some b → R (l.map W) i v → R (l'.map W) j v' → v = v')
    (hn : ∀ vs i v, OnlyFloats vs → vs[i]? = some (.flt .nan) → R vs i v → v = .flt .nan)
    (hf : ∀ vs (i : Nat) v, OnlyFloats vs → i < vs.length → R vs i v → ∃ f, v = .flt f) : WithEmpty z z' := by
  have split : ∀ names, Named w.label names → ∃ (b : L) (j : Nat) (rest : List L), names = rest.insertIdx ax b ∧ l'[j]? = some b ∧
      Named (w.label.eraseIdx ax) rest := by
    intro names hN
    have hax := (List.getElem?_eq_some_iff.mp hl').1
    have hlen := (Named_iff.mp hN).1
    have hb := (Named_iff.mp hN).2 ax l' names[ax] hl' (List.getElem?_eq_getElem (by omega))
    obtain ⟨j, hj⟩ := List.mem_iff_getElem?.mp hb
    refine ⟨names[ax], j, names.eraseIdx ax, ?_, hj, WithEmpty.named_erase ax hN⟩
    rw [List.insertIdx_eraseIdx_self (by omega), List.set_getElem_self]
  have line : ∀ rest, Named (w.label.eraseIdx ax) rest → ∃ ws, w.LineAt ax rest ws := fun rest => line_some hw hl'
  refine h.results hz.label_eq hz'.label_eq hd ?_ ?_ ?_
  · intro names v v' hN hv hv'
    obtain ⟨b, j, rest, rfl, hj, hr'⟩ := split names (h.named hN)
    have hr : Named (y.label.eraseIdx ax) rest := by
      have := WithEmpty.named_erase ax hN
      rwa [List.eraseIdx_insertIdx_self] at this
    obtain ⟨ws, hws⟩ := line rest hr'
    obtain ⟨vs, hvs⟩ := line_some hy hl hr
    obtain ⟨i, hi⟩ := List.mem_iff_getElem?.mp ((WithEmpty.names_line hl hr).mp hN)
    obtain ⟨W, e1, e2, hp⟩ := h.lines hy hw hl hl' hr hvs hws
    have r1 := hz.cell rest vs l i b v hvs hl hi hv
    have r2 := hz'.cell rest ws l' j b v' hws hl' hj hv'
    have fw := floats_line h.floats hws
    subst e1 e2
    exact hc W b i j v v' hp fw hi hj r1 r2
  · intro names v' hv hv'
    obtain ⟨b, j, rest, rfl, hj, hr'⟩ := split names (Named_of_Holds hv)
    obtain ⟨ws, hws⟩ := line rest hr'
    have r2 := hz'.cell rest ws l' j b v' hws hl' hj hv'
    refine hn ws j v' (floats_line h.floats hws) ?_ r2
    rw [line_eq hw hws hl']
    simp only [List.getElem?_map, hj, Option.map_some, Option.some.injEq]
    exact valueAt_of hw hv
  · intro names v' hv'
    have hN : Named w.label names := hz'.label_eq ▸ Named_of_Holds hv'
    obtain ⟨b, j, rest, rfl, hj, hr'⟩ := split names hN
    obtain ⟨ws, hws⟩ := line rest hr'
    have r2 := hz'.cell rest ws l' j b v' hws hl' hj hv'
    refine hf ws j v' (floats_line h.floats hws) ?_ r2
    rw [line_eq hw hws hl', List.length_map]
    exact (List.getElem?_eq_some_iff.mp hj).1

/-- Element by element, with the help of the values of the line that are not NaN, in any order. -/
structure SkipsLine (f : List Val → List Val) (g : List Val → Val → Val) : Prop where
  each : ∀ vs, f vs = vs.map (g vs)
  same : ∀ vs ws, (solid vs).Perm (solid ws) → g vs = g ws
  nan : ∀ vs, g vs (.flt .nan) = .flt .nan
  float : ∀ vs v, ∃ x, g vs v = .flt x

theorem SkipsLine.along {f : List Val → List Val} {g : List Val → Val → Val} (hf : SkipsLine f g) {y w : Larry L}
    (hy : y.Valid) (hw : w.Valid) (h : WithEmpty y w) {axis : Int} {ax : Nat} (hax : pyIdx y.ndim axis = some ax) :
    WithEmpty (y.along f .float ax) (w.along f .float ax) := by
  obtain ⟨l, hl, -⟩ := label_at hy hax
  obtain ⟨l', hl', hs⟩ := h.label_get hl
  have key : ∀ (u : Larry L) m, u.Valid → u.label[ax]? = some m → u.Along (u.along f .float ax) ax
      (fun vs i v => ∃ x, vs[i]? = some x ∧ v = g vs x) := by
    intro u m hu hm
    refine along_mapLines hu hm f .float fun vs i hi => ⟨g vs vs[i], ?_, vs[i], List.getElem?_eq_getElem hi, rfl⟩
    rw [hf.each]
    simp [List.getElem?_eq_getElem hi]
  refine h.alongs hy hw hl hl' (key y l hy hl) (key w l' hw hl') ⟨rfl, rfl⟩ ?_ ?_ ?_
  · rintro W b i j v v' hp - hi hj ⟨x, hx, rfl⟩ ⟨x', hx', rfl⟩
    simp only [List.getElem?_map, hi, hj, Option.map_some, Option.some.injEq] at hx hx'
    subst hx hx'
    rw [hf.same _ _ (solid_perm (hy.nodup l (List.mem_of_getElem? hl)) (hw.nodup l' (List.mem_of_getElem? hl')) hs hp)]
  · rintro vs i v - hi ⟨x, hx, rfl⟩
    rw [hi] at hx
    simp only [Option.some.injEq] at hx
    rw [← hx, hf.nan]
  · rintro vs i v - - ⟨x, -, rfl⟩
    exact hf.float _ _

theorem SkipsLine.all {f : List Val → List Val} {g : List Val → Val → Val} (hf : SkipsLine f g) {y w : Larry L}
    (hy : y.Valid) (hw : w.Valid) (h : WithEmpty y w) :
    WithEmpty (y.alongAll f .float) (w.alongAll f .float) := by
  have key : ∀ (w : Larry L), w.Valid → ∀ names v, (w.alongAll f .float).Has names v → v = g w.x.vals (w.valueAt names) := by
    rintro w hw names v ⟨idx, hat, rfl⟩
    have hat' : At w.label idx names := hat
    have hin : InB w.x.shape idx := by rw [hw.shape_eq]; exact At_inB hat'
    have hval : w.x.vals[rowMajor w.x.shape idx]? = some (w.x.get idx) := by
      simp only [NDArray.vals, List.getElem?_map, allIdx_getElem? hin, Option.map_some]
    rw [valueAt_of hw ⟨idx, hat', rfl⟩]
    simp only [Larry.alongAll, ravelC_eq, List.getD, hf.each, List.getElem?_map, hval, Option.map_some, Option.getD_some]
  refine h.results (z := y.alongAll f .float) (z' := w.alongAll f .float) rfl rfl ⟨rfl, rfl⟩ ?_ ?_ ?_
  · intro names v v' hN hv hv'
    rw [key y hy names v hv, key w hw names v' hv', h.value hy hw hN, hf.same _ _ (h.vals_perm hy hw)]
  · intro names v' hv hv'
    rw [key w hw names v' hv', valueAt_of hw hv, hf.nan]
  · intro names v' hv'
    rw [key w hw names v' hv']
    exact hf.float _ _

theorem ranking_skips : SkipsLine (rankingLine .pm1) (fun vs v => .flt (if ((vs.map Val.num).filter (fun x => !x.isNan)).length = 1 ∧
    v.num.isNan = false then .fin 0 else RankNorm.scale 0 ((vs.map Val.num).filter (fun x => !x.isNan)).length
      (nanrank (vs.map Val.num) v.num) .pm1)) := by
  refine ⟨fun vs => ?_, fun vs ws h => ?_, fun vs => ?_, fun vs v => ⟨_, rfl⟩⟩
  · simp [rankingLine, Function.comp_def, RankNorm.middle, RankNorm.scale]
  · have h1 := h.map Val.num
    rw [← solid_num, ← solid_num] at h1
    have lt : ∀ (x : Flt) (xs : List Flt), (xs.filter (fun y => y.lt x)).length =
        ((xs.filter (fun x => !x.isNan)).filter (fun y => y.lt x)).length := by
      intro x xs
      rw [List.filter_filter]
      congr 1
      refine List.filter_congr fun y _ => ?_
      cases y <;> cases x <;> simp [Flt.lt, Flt.isNan]
    have eq : ∀ (x : Flt) (xs : List Flt), (xs.filter (fun y => y.eq x)).length =
        ((xs.filter (fun x => !x.isNan)).filter (fun y => y.eq x)).length := by
      intro x xs
      rw [List.filter_filter]
      congr 1
      refine List.filter_congr fun y _ => ?_
      cases y <;> cases x <;> simp [Flt.eq, Flt.isNan]
    funext v
    have e : nanrank (vs.map Val.num) v.num = nanrank (ws.map Val.num) v.num := by
      unfold nanrank
      rw [lt, eq, lt v.num (ws.map Val.num), eq v.num (ws.map Val.num), (h1.filter _).length_eq, (h1.filter _).length_eq]
    rw [e, h1.length_eq]
  · simp [Val.num, Flt.isNan, nanrank, RankNorm.scale, Flt.sub, Flt.add, Flt.div, Flt.mul]

theorem demean_skips {center : List Flt → Flt} (hc : SkipsNanF center) :
    SkipsLine (demeanLine center) (fun vs v => .flt (v.num.sub (center (vs.map Val.num)))) := by
  refine ⟨fun vs => rfl, fun vs ws h => ?_, fun vs => by simp [Val.num, Flt.sub, Flt.add], fun vs v => ⟨_, rfl⟩⟩
  funext v
  rw [hc (vs.map Val.num) (ws.map Val.num) (by rw [solid_num, solid_num]; exact h.map _)]

theorem zscore_skips {std : List Flt → Flt} (hs : SkipsNanF std) :
    SkipsLine (zscoreLine std) (fun vs v => .flt ((v.num.sub (nanmean (vs.map Val.num))).div
      (std ((demeanLine nanmean vs).map Val.num)))) := by
  refine ⟨fun vs => ?_, fun vs ws h => ?_, fun vs => ?_, fun vs v => ⟨_, rfl⟩⟩
  · simp only [zscoreLine, demeanLine, List.map_map]
    rfl
  · have h1 : ((vs.map Val.num).filter (fun x => !x.isNan)).Perm ((ws.map Val.num).filter (fun x => !x.isNan)) := by
      rw [solid_num, solid_num]; exact h.map _
    have e := nanmean_skips _ _ h1
    have strict : ∀ (m : Flt) (us : List Val), ((us.map (fun v => Val.flt (v.num.sub m))).map Val.num).filter (fun x => !x.isNan) =
        (((us.map Val.num).filter (fun x => !x.isNan)).map (fun x => x.sub m)).filter (fun x => !x.isNan) := by
      intro m us
      induction us with
      | nil => rfl
      | cons u us ih =>
        have e0 : (Val.flt (u.num.sub m)).num = u.num.sub m := rfl
        simp only [List.map_cons, List.filter_cons, e0]
        rw [ih]
        cases hu : u.num with
        | nan => simp [Flt.sub, Flt.add, Flt.isNan]
        | _ => simp [Flt.isNan, List.filter_cons]
    funext v
    simp only [e]
    rw [hs ((demeanLine nanmean vs).map Val.num) ((demeanLine nanmean ws).map Val.num) ?_]
    unfold demeanLine
    rw [e, strict, strict]
    exact (h1.map _).filter _
  · simp [Val.num, Flt.sub, Flt.add, Flt.div]

/-- C117. `ranking` (with the norm '-1,1'), `demean`, `demedian` and `zscore`, of the whole larry or along an axis: the values that
were there come out as before, and those added are NaN. -/
theorem C117_normalize {y w : Larry L} (hy : y.Valid) (hw : w.Valid) (h : WithEmpty y w) {axis : Option Int}
    (hax : HasAxis y axis) :
    StillEmpty (y.ranking axis .pm1) (w.ranking axis .pm1) ∧
    (∀ center, SkipsNanF center → StillEmpty (y.demean center axis) (w.demean center axis)) ∧
    (∀ std, SkipsNanF std → StillEmpty (y.zscore std axis) (w.zscore std axis)) := by
  have hn := h.ndim_eq hy hw
  have num : y.dtype.isNumeric = true ∧ w.dtype.isNumeric = true := by rw [h.dtypes.1, h.dtypes.2]; exact ⟨rfl, rfl⟩
  cases axis with
  | none =>
    refine ⟨⟨y.alongAll (rankingLine .pm1) .float, w.alongAll (rankingLine .pm1) .float, ?_, ?_, hy, hw,
      ranking_skips.all hy hw h⟩, fun center hc => ⟨y.alongAll (demeanLine center) .float,
      w.alongAll (demeanLine center) .float, ?_, ?_, hy, hw,
      (demean_skips hc).all hy hw h⟩, fun std hs => ⟨y.alongAll (zscoreLine std) .float,
      w.alongAll (zscoreLine std) .float, ?_, ?_, hy, hw, (zscore_skips hs).all hy hw h⟩⟩
    all_goals simp [Larry.ranking, Larry.demean, Larry.zscore, num.1, num.2]
  | some a =>
    obtain ⟨ax, ha⟩ := hax a rfl
    have ha' : pyIdx w.ndim a = some ax := by rw [hn]; exact ha
    refine ⟨⟨y.along (rankingLine .pm1) .float ax, w.along (rankingLine .pm1) .float ax, ?_, ?_, hy, hw,
      ranking_skips.along hy hw h ha⟩, fun center hc => ⟨y.along (demeanLine center) .float ax,
      w.along (demeanLine center) .float ax, ?_, ?_, hy, hw,
      (demean_skips hc).along hy hw h ha⟩, fun std hs => ⟨y.along (zscoreLine std) .float ax,
      w.along (zscoreLine std) .float ax, ?_, ?_, hy, hw, (zscore_skips hs).along hy hw h ha⟩⟩
    all_goals simp [Larry.ranking, Larry.demean, Larry.zscore, num.1, num.2, npAxis, ha, ha']

theorem running_empty {total : List Flt → Flt} {y w z z' : Larry L} (hy : y.Valid) (hw : w.Valid) (h : WithEmpty y w)
    {axis : Int} {ax : Nat} (hax : pyIdx y.ndim axis = some ax) (ho : SameOrder ax y w)
    (hz : y.Along z ax (RunningFloat total)) (hz' : w.Along z' ax (RunningFloat total))
    (hd : z.dtype = .float ∧ z'.dtype = .float) : WithEmpty z z' := by
  obtain ⟨l, hl, -⟩ := label_at hy hax
  obtain ⟨l', hl', hs⟩ := h.label_get hl
  have sub := ho l l' hl hl'
  refine h.alongs hy hw hl hl' hz hz' hd ?_ ?_ ?_
  · intro W b i j v v' hp hfl hi hj r1 r2
    have hb := r1 (W b) (by simp [hi])
    have hb' := r2 (W b) (by simp [hj])
    by_cases hnan : (W b).num = .nan
    · rw [hb.1 hnan, hb'.1 hnan]
    · rw [hb.2 hnan, hb'.2 hnan]
      have e : ∀ (m : List L) (k : Nat), m[k]? = some b →
          soFar (m.map W) k = (solid ((m.take k).map W) ++ solid [W b]).map Val.num := by
        intro m k hk
        have hlt := (List.getElem?_eq_some_iff.mp hk).1
        unfold soFar
        rw [solid_num, ← List.map_take, List.take_succ_eq_append_getElem hlt, List.map_append]
        have : m[k] = b := (List.getElem?_eq_some_iff.mp hk).2
        simp [solid, this]
      rw [e l i hi, e l' j hj, solid_take sub (hw.nodup l' (List.mem_of_getElem? hl')) hp hi hj]
  · intro vs i v _ hi r
    exact (r _ hi).1 rfl
  · intro vs i v _ hi r
    have := r _ (List.getElem?_eq_getElem hi)
    by_cases hnan : vs[i].num = .nan
    · exact ⟨_, this.1 hnan⟩
    · exact ⟨_, this.2 hnan⟩

/-- C117. `cumsum` and `cumprod`, when the labels of that axis that were there are in the order they were. -/
theorem C117_running {y w : Larry L} (hy : y.Valid) (hw : w.Valid) (h : WithEmpty y w) {axis : Int} {ax : Nat}
    (hax : pyIdx y.ndim axis = some ax) (ho : SameOrder ax y w) :
    StillEmpty (y.cumsum (some axis)) (w.cumsum (some axis)) ∧ StillEmpty (y.cumprod (some axis)) (w.cumprod (some axis)) := by
  have hax' : pyIdx w.ndim axis = some ax := by rw [h.ndim_eq hy hw]; exact hax
  obtain ⟨z, a1, a2, a3⟩ := C43_cumsum hy h.dtypes.1 hax
  obtain ⟨z', b1, b2, b3⟩ := C43_cumsum hw h.dtypes.2 hax'
  obtain ⟨u, c1, c2, c3⟩ := C43_cumprod hy h.dtypes.1 hax
  obtain ⟨u', d1, d2, d3⟩ := C43_cumprod hw h.dtypes.2 hax'
  exact ⟨⟨z, z', a1, b1, a3.valid, b3.valid, running_empty hy hw h hax ho a3 b3 ⟨a2, b2⟩⟩,
    ⟨u, u', c1, d1, c3.valid, d3.valid, running_empty hy hw h hax ho c3 d3 ⟨c2, d2⟩⟩⟩

theorem finites_solid (vs : List Val) : (vs.map Val.num).filter Flt.isFinite = ((solid vs).map Val.num).filter Flt.isFinite := by
  rw [← solid_num, List.filter_filter]
  refine List.filter_congr fun x _ => ?_
  cases x <;> rfl

theorem scatter_at (xs ms : List Flt) (i : Nat) (x : Flt) (h : xs[i]? = some x) :
    (scatter xs ms)[i]? = some (if x.isFinite then (ms.drop ((xs.take i).filter Flt.isFinite).length).headD .nan else .nan) := by
  induction xs generalizing ms i with
  | nil => simp at h
  | cons y xs ih =>
    cases i with
    | zero =>
      simp only [List.getElem?_cons_zero, Option.some.injEq] at h
      subst h
      simp only [scatter]
      split <;> simp_all
    | succ i =>
      simp only [List.getElem?_cons_succ] at h
      simp only [scatter]
      by_cases hy : y.isFinite = true
      · rw [if_pos hy, List.getElem?_cons_succ, ih _ _ h]
        simp [hy, List.drop_tail]
      · rw [if_neg hy, List.getElem?_cons_succ, ih _ _ h]
        simp [hy]

/-- C117. `quantile` along an axis with no fewer labels than there are bins, when its labels are in the order they were. -/
theorem C117_quantile {argsort : List ℚ → List Nat} {y w : Larry L} (hy : y.Valid) (hw : w.Valid) (h : WithEmpty y w)
    {axis : Int} {ax : Nat} (hax : pyIdx y.ndim axis = some ax) (ho : SameOrder ax y w) {q : Int} (hq : 1 ≤ q)
    {l : List L} (hl : y.label[ax]? = some l) (hql : q ≤ l.length) :
    StillEmpty (y.quantile argsort q (some axis)) (w.quantile argsort q (some axis)) := by
  have hax' : pyIdx w.ndim axis = some ax := by rw [h.ndim_eq hy hw]; exact hax
  obtain ⟨l', hl', hs⟩ := h.label_get hl
  have sub := ho l l' hl hl'
  have num : y.dtype.isNumeric = true ∧ w.dtype.isNumeric = true := by rw [h.dtypes.1, h.dtypes.2]; exact ⟨rfl, rfl⟩
  have len : ∀ (u : Larry L) m, u.Valid → u.label[ax]? = some m → u.shape.getD ax 0 = m.length := by
    intro u m hu hm
    show u.x.shape.getD ax 0 = _
    rw [hu.shape_eq]
    simp [List.getD, hm]
  have run : ∀ (u : Larry L) m, u.Valid → u.dtype.isNumeric = true → pyIdx u.ndim axis = some ax → u.label[ax]? = some m →
      q ≤ m.length → u.quantile argsort q (some axis) = .ok (if q = 1 then
        u.mapped (fun v => if v.isNan then .flt .nan else .flt (.fin 0)) .float
        else u.along (quantileLine argsort q.toNat) .float ax) := by
    intro u m hu hd ha hm hqm
    unfold Larry.quantile
    rw [if_neg (by omega), if_neg (by simp [hd])]
    simp only [ha, len u m hu hm]
    split
    · rfl
    · rw [if_neg (by omega)]
  have hql' : q ≤ l'.length := by have := sub.length_le; omega
  rw [run y l hy num.1 hax hl hql, run w l' hw num.2 hax' hl' hql']
  by_cases h1 : q = 1
  · rw [if_pos h1, if_pos h1]
    refine ⟨_, _, rfl, rfl, mapped_valid hy _ _, mapped_valid hw _ _, ?_⟩
    refine h.results rfl rfl ⟨rfl, rfl⟩ ?_ ?_ ?_
    · rintro names v v' - hv hv'
      obtain ⟨x, hx, rfl⟩ := (mapped_has _ .float).mp hv
      obtain ⟨x', hx', rfl⟩ := (mapped_has _ .float).mp hv'
      rw [Holds_unique hw.nodup (h.cells _ _ hx) hx']
    · rintro names v' hv hv'
      obtain ⟨x', hx', rfl⟩ := (mapped_has _ .float).mp hv'
      rw [← Holds_unique hw.nodup hv hx']
      rfl
    · rintro names v' hv'
      obtain ⟨x', hx', rfl⟩ := (mapped_has _ .float).mp hv'
      split <;> exact ⟨_, rfl⟩
  · rw [if_neg h1, if_neg h1]
    refine ⟨_, _, rfl, rfl, hy, hw, ?_⟩
    have key : ∀ (u : Larry L) m, u.Valid → u.label[ax]? = some m → u.Along (u.along (quantileLine argsort q.toNat) .float ax) ax
        (fun vs i v => (quantileLine argsort q.toNat vs)[i]? = some v) := by
      intro u m hu hm
      refine along_mapLines hu hm _ .float fun vs i hi => ?_
      have : i < (quantileLine argsort q.toNat vs).length := by
        simp only [quantileLine, quantileRaw, List.length_map, scatter_length]; exact hi
      exact ⟨_, List.getElem?_eq_getElem this, List.getElem?_eq_getElem this⟩
    refine h.alongs hy hw hl hl' (key y l hy hl) (key w l' hw hl') ⟨rfl, rfl⟩ ?_ ?_ ?_
    · intro W b i j v v' hp _ hi hj r1 r2
      have nd' := hw.nodup l' (List.mem_of_getElem? hl')
      have e1 := solid_eq (f := W) sub nd' hp
      have e2 := solid_take (f := W) sub nd' hp hi hj
      simp only [quantileLine, quantileRaw, List.getElem?_map] at r1 r2
      rw [scatter_at _ _ i (W b).num (by simp [hi])] at r1
      rw [scatter_at _ _ j (W b).num (by simp [hj])] at r2
      rw [← List.map_take, ← List.map_take, finites_solid (List.map W l), finites_solid, e1, e2] at r1
      rw [← List.map_take, ← List.map_take, finites_solid (List.map W l'), finites_solid] at r2
      rw [r1] at r2
      exact Option.some.inj r2
    · intro vs i v _ hi r
      simp only [quantileLine, quantileRaw, List.getElem?_map] at r
      rw [scatter_at _ _ i .nan (by simp [hi, Val.num])] at r
      simp only [Flt.isFinite, Option.map_some, Option.some.injEq] at r
      rw [← r]
      simp [Flt.sub, Flt.add, Flt.div, Flt.mul]
    · intro vs i v _ _ r
      simp only [quantileLine, List.getElem?_map, Option.map_eq_some_iff] at r
      obtain ⟨x, -, rfl⟩ := r
      exact ⟨_, rfl⟩

/-! ## Elementwise calls -/

/-- C117. An elementwise method that leaves NaN alone: `log`, `exp` and `sqrt` (of NaN they are NaN), `sign`, `power` with a
positive exponent, negation, `+y` and `abs`. -/
theorem C117_elementwise {y w : Larry L} (hy : y.Valid) (hw : w.Valid) (h : WithEmpty y w) {m : ElemMethod}
    (hm : (∃ f, m = .log f ∧ f .nan = .nan) ∨ m = .sign ∨ (∃ q, m = .power (q + 1)) ∨ m = .neg ∨ m = .pos ∨ m = .abs) :
    StillEmpty (y.elem m) (w.elem m) := by
  have key : ∀ g : Val → Val, g (.flt .nan) = .flt .nan → (∀ f, ∃ f', g (.flt f) = .flt f') →
      WithEmpty (y.mapped g .float) (w.mapped g .float) := by
    intro g h1 h2
    refine h.results rfl rfl ⟨rfl, rfl⟩ ?_ ?_ ?_
    · rintro names v v' - hv hv'
      obtain ⟨x, hx, rfl⟩ := (mapped_has _ .float).mp hv
      obtain ⟨x', hx', rfl⟩ := (mapped_has _ .float).mp hv'
      rw [Holds_unique hw.nodup (h.cells _ _ hx) hx']
    · rintro names v' hv hv'
      obtain ⟨x', hx', rfl⟩ := (mapped_has _ .float).mp hv'
      rw [← Holds_unique hw.nodup hv hx', h1]
    · rintro names v' hv'
      obtain ⟨x', hx', rfl⟩ := (mapped_has _ .float).mp hv'
      obtain ⟨f, rfl⟩ := h.floats _ _ hx'
      exact h2 f
  have out : ∀ g : Val → Val, g = m.fn → y.elem m = .ok (y.mapped g .float) → w.elem m = .ok (w.mapped g .float) →
      g (.flt .nan) = .flt .nan → (∀ f, ∃ f', g (.flt f) = .flt f') → StillEmpty (y.elem m) (w.elem m) :=
    fun g _ e1 e2 h1 h2 => ⟨_, _, e1, e2, mapped_valid hy _ _, mapped_valid hw _ _, key g h1 h2⟩
  rcases hm with ⟨f, rfl, hf⟩ | rfl | ⟨q, rfl⟩ | rfl | rfl | rfl <;>
    refine out _ rfl (by simp [Larry.elem, DType.isNumeric, ElemMethod.dt, h.dtypes.1])
      (by simp [Larry.elem, DType.isNumeric, ElemMethod.dt, h.dtypes.2]) ?_ (fun f => ⟨_, rfl⟩)
  · simp [ElemMethod.fn, Elem.viaFloat, Val.num, hf]
  · simp [ElemMethod.fn, Elem.sign, Flt.sign]
  · simp [ElemMethod.fn, Elem.power, Flt.pow]
  · simp [ElemMethod.fn, Elem.neg, Flt.neg]
  · rfl
  · simp [ElemMethod.fn, Elem.abs, Flt.abs]

/-- On floats the operation gives a float, and NaN if one of the two is. -/
structure NanStrict (uf : UFunc2) : Prop where
  dt : uf.dt .float .float = .ok .float
  float : ∀ a b, ∃ x, uf.f (.flt a) (.flt b) = .flt x
  left : ∀ b, uf.f (.flt .nan) (.flt b) = .flt .nan
  right : ∀ a, uf.f (.flt a) (.flt .nan) = .flt .nan

/-- C117. The arithmetic operators are such. -/
theorem C117_arith : NanStrict Arith.npAdd ∧ NanStrict Arith.npSubtract ∧ NanStrict Arith.npMultiply ∧
    NanStrict Arith.npDivide ∧ NanStrict Arith.npTrueDivide ∧ NanStrict Arith.npFloorDivide := by
  refine ⟨⟨rfl, fun a b => ⟨_, rfl⟩, fun b => ?_, fun a => ?_⟩, ⟨rfl, fun a b => ⟨_, rfl⟩, fun b => ?_, fun a => ?_⟩,
    ⟨rfl, fun a b => ⟨_, rfl⟩, fun b => ?_, fun a => ?_⟩, ⟨rfl, fun a b => ⟨_, rfl⟩, fun b => ?_, fun a => ?_⟩,
    ⟨rfl, fun a b => ⟨_, rfl⟩, fun b => ?_, fun a => ?_⟩, ⟨rfl, fun a b => ⟨_, rfl⟩, fun b => ?_, fun a => ?_⟩⟩
  all_goals first | (cases b <;> rfl) | (cases a <;> rfl)

/-- C117. `a op b` of two larrys, each with labels added under which there is nothing. -/
theorem C117_binop [LinearOrder L] {a b a' b' : Larry L} (ha : a.Valid) (hb : b.Valid) (ha' : a'.Valid) (hb' : b'.Valid)
    (hn : a.ndim = b.ndim) (h : WithEmpty a a') (g : WithEmpty b b') {uf : UFunc2} (hu : NanStrict uf) :
    StillEmpty (Larry.binop uf a b) (Larry.binop uf a' b') := by
  obtain ⟨z, e1, v1, d1, j1, c1⟩ := C09_binop ha hb hn uf (d := .float) (by rw [h.dtypes.1, g.dtypes.1]; exact hu.dt)
  obtain ⟨z', e2, v2, d2, j2, c2⟩ := C09_binop ha' hb' (by rw [h.ndim_eq ha ha', g.ndim_eq hb hb', hn]) uf (d := .float)
    (by rw [h.dtypes.2, g.dtypes.2]; exact hu.dt)
  have k1 : ∀ names v, z.Has names v ↔ ∃ u w, a.Has names u ∧ b.Has names w ∧ v = uf.f u w := by
    intro names v
    rw [← Larry.get_ok_iff v1, c1]
    simp only [Larry.get_ok_iff ha, Larry.get_ok_iff hb]
  have k2 : ∀ names v, z'.Has names v ↔ ∃ u w, a'.Has names u ∧ b'.Has names w ∧ v = uf.f u w := by
    intro names v
    rw [← Larry.get_ok_iff v2, c2]
    simp only [Larry.get_ok_iff ha', Larry.get_ok_iff hb']
  refine ⟨z, z', e1, e2, v1, v2, ⟨d1, d2⟩, ?_, ?_, ?_, ?_⟩
  · rw [List.forall₂_iff_get]
    have l1 := j1.lengths
    have l2 := j2.lengths
    have l3 := h.labels.length_eq
    refine ⟨by rw [l1.1, l2.1, l3], fun k hk hk' x hx => ?_⟩
    simp only [List.get_eq_getElem] at hx ⊢
    have hka : k < a.label.length := by rw [← l1.1]; exact hk
    have hkb : k < b.label.length := by rw [← l1.2]; exact hk
    have ea := List.getElem?_eq_getElem hka
    have eb := List.getElem?_eq_getElem hkb
    obtain ⟨la', ea', sa⟩ := h.label_get ea
    obtain ⟨lb', eb', sb⟩ := g.label_get eb
    obtain ⟨c, f1, f2⟩ := j1.get k _ _ ea eb
    obtain ⟨c', f1', f2'⟩ := j2.get k _ _ ea' eb'
    rw [List.getElem?_eq_getElem hk] at f1
    rw [List.getElem?_eq_getElem hk'] at f1'
    simp only [Option.some.injEq] at f1 f1'
    rw [f1, f2.mem] at hx
    rw [f1', f2'.mem]
    exact ⟨sa _ hx.1, sb _ hx.2⟩
  · intro names v hv
    obtain ⟨u, w, hu1, hw1, rfl⟩ := (k1 names v).mp hv
    exact (k2 names _).mpr ⟨u, w, h.cells _ _ hu1, g.cells _ _ hw1, rfl⟩
  · intro names v hv
    obtain ⟨u, w, hu1, hw1, rfl⟩ := (k2 names v).mp hv
    obtain ⟨p, rfl⟩ := h.floats _ _ hu1
    obtain ⟨q, rfl⟩ := g.floats _ _ hw1
    rcases h.rest _ _ hu1 with hN | hN
    · rcases g.rest _ _ hw1 with gN | gN
      · left
        obtain ⟨x, hx⟩ := Holds_of_Named (x := a.x) hN
        obtain ⟨y, hy⟩ := Holds_of_Named (x := b.x) gN
        exact Named_of_Holds ((k1 names _).mpr ⟨x, y, hx, hy, rfl⟩)
      · right
        rw [gN]; exact hu.right p
    · right
      rw [hN]; exact hu.left q
  · intro names v hv
    obtain ⟨u, w, hu1, hw1, rfl⟩ := (k2 names v).mp hv
    obtain ⟨p, rfl⟩ := h.floats _ _ hu1
    obtain ⟨q, rfl⟩ := g.floats _ _ hw1
    exact hu.float p q

/-! ## Where such larrys come from -/

theorem WithEmpty.refl {y : Larry L} (hd : y.dtype = .float) (hf : ∀ names v, y.Has names v → ∃ f, v = .flt f) :
    WithEmpty y y :=
  ⟨⟨hd, hd⟩, List.forall₂_same.mpr fun _ _ _ hb => hb, fun _ _ h => h, fun _ _ h => .inl (Named_of_Holds h), hf⟩

theorem WithEmpty.trans {a b c : Larry L} (hc : c.Valid) (h : WithEmpty a b) (g : WithEmpty b c) :
    WithEmpty a c := by
  refine ⟨⟨h.dtypes.1, g.dtypes.2⟩, ?_, fun n v hv => g.cells n v (h.cells n v hv), fun n v hv => ?_, g.floats⟩
  · have h1 := h.labels
    have h2 := g.labels
    generalize a.label = x at h1
    generalize b.label = y at h1 h2
    generalize c.label = z at h2
    induction h1 generalizing z with
    | nil => cases h2; exact .nil
    | cons p q ih => cases h2 with
      | cons p' q' => exact .cons (fun b hb => p' b (p b hb)) (ih _ q')
  · rcases g.rest n v hv with hN | hN
    · obtain ⟨u, hu⟩ := Holds_of_Named (x := b.x) hN
      have := Holds_unique hc.nodup (g.cells n u hu) hv
      rw [← this]
      exact h.rest n u hu
    · exact .inr hN

theorem typed_floats {y : Larry L} (hy : y.Valid) (ht : y.Typed) (hd : y.dtype = .float) :
    ∀ names v, y.Has names v → ∃ f, v = .flt f := by
  intro names v hv
  have := (typed_iff hy).mp ht names v hv
  rw [hd] at this
  cases v <;> first | exact ⟨_, rfl⟩ | cases this

theorem carried_empty [LinearOrder L] {y z : Larry L} (hf : ∀ names v, y.Has names v → ∃ f, v = .flt f)
    (v : z.Valid) (hd : y.dtype = .float) (dz : z.dtype = .float)
    (hsub : List.Forall₂ (fun l l' : List L => ∀ b ∈ l, b ∈ l') y.label z.label) (hc : CarriedOver y z) : WithEmpty y z := by
  obtain ⟨c1, c2⟩ := hc
  have hcell : ∀ names u, y.Has names u → Named z.label names → z.Has names u := by
    intro names u hu hN
    have := c1 names u hu hN
    rw [if_pos (dz.trans hd.symm)] at this
    exact (Larry.get_ok_iff v).mp this
  have hnew : ∀ names u, z.Has names u → ¬ Named y.label names → u = .flt .nan := by
    intro names u hu hN
    obtain ⟨m, h1, h2⟩ := c2 names (Named_of_Holds hu) hN
    rw [dz] at h2
    cases h2
    exact Holds_unique v.nodup hu ((Larry.get_ok_iff v).mp h1)
  refine ⟨⟨hd, dz⟩, hsub, fun names u hu => hcell names u hu ?_, fun names u hu => ?_, fun names u hu => ?_⟩
  · have := Named_of_Holds hu
    rw [Named_iff] at this ⊢
    refine ⟨this.1.trans hsub.length_eq, fun k m n hm hn => ?_⟩
    have hk' := (List.getElem?_eq_some_iff.mp hm).1
    have hk : k < y.label.length := by rw [hsub.length_eq]; exact hk'
    have h2 := List.Forall₂.get hsub hk hk'
    have e : z.label[k] = m := by simpa [List.getElem?_eq_getElem hk'] using hm
    have := h2 n (by simpa using this.2 k _ n (List.getElem?_eq_getElem hk) hn)
    simpa [e] using this
  · by_cases hN : Named y.label names
    · exact .inl hN
    · exact .inr (hnew names u hu hN)
  · by_cases hN : Named y.label names
    · obtain ⟨x, hx⟩ := Holds_of_Named (x := y.x) hN
      rw [Holds_unique v.nodup hu (hcell names x hx (Named_of_Holds hu))]
      exact hf _ _ hx
    · exact ⟨_, hnew names u hu hN⟩

/-- C117. `morph` of a float larry onto the labels of an axis and more of them. -/
theorem C117_morph [LinearOrder L] {y : Larry L} (hy : y.Valid) (ht : y.Typed) (hd : y.dtype = .float) {lab : List L}
    (hnd : lab.Nodup) {axis : Int} {ax : Nat} (hax : pyIdx y.ndim axis = some ax) {l : List L}
    (hl : y.label[ax]? = some l) (hs : ∀ b ∈ l, b ∈ lab) :
    ∃ z, y.morph lab axis = .ok z ∧ z.Valid ∧ z.label = y.label.set ax lab ∧ WithEmpty y z := by
  obtain ⟨z, e, v, lz, dz, c⟩ := C13_morph hy hnd hax hl
  refine ⟨z, e, v, lz, carried_empty (typed_floats hy ht hd) v hd (by rw [dz]; simp [hd]) ?_ c⟩
  rw [lz, List.forall₂_iff_get]
  refine ⟨by simp, fun k hk hk' x hx => ?_⟩
  simp only [List.get_eq_getElem, List.getElem_set] at hx ⊢
  split
  · rename_i he
    subst he
    rw [List.getElem?_eq_getElem hk] at hl
    simp only [Option.some.injEq] at hl
    exact hs x (hl ▸ hx)
  · exact hx

/-- C117. An outer `align` of two float larrys: each result is its argument with labels added. -/
theorem C117_align [LinearOrder L] {a b z1 z2 : Larry L} (ha : a.Valid) (hb : b.Valid) (ta : a.Typed) (tb : b.Typed)
    (hda : a.dtype = .float) (hdb : b.dtype = .float) {cast : Bool} (h : align a b (.one .outer) cast = .ok (z1, z2)) :
    z1.Valid ∧ z2.Valid ∧ WithEmpty a z1 ∧ WithEmpty b z2 := by
  have hn : a.ndim = b.ndim := by
    by_contra hn
    rw [C16_align_shape (.inl hn)] at h
    cases h
  have hj : JoinsFor b.ndim (.one .outer) (List.replicate b.ndim .outer) := rfl
  have hok : ∀ e, ¬ FailsAt a b (List.replicate b.ndim .outer) cast e := by
    intro e he
    obtain ⟨e', h1, -⟩ := C16_align_fails ha hb hn hj ⟨e, he⟩
    rw [h1] at h
    cases h
  obtain ⟨u1, u2, e, v1, v2, hl, c1, c2⟩ := C16_align ha hb hn hj hok
  rw [e] at h
  cases h
  obtain ⟨⟨-, d1⟩, ⟨-, d2⟩⟩ := C17_align_dtype ha hb hn hj e
  have d1 := d1 (by simp [hda])
  have d2 := d2 (by simp [hdb])
  have sub : ∀ {js : List Join} {l1 l2 r1 r2 : List (List L)}, AllJoined js l1 l2 r1 r2 → (∀ j ∈ js, j = .outer) →
      List.Forall₂ (fun l l' : List L => ∀ b ∈ l, b ∈ l') l1 r1 ∧ List.Forall₂ (fun l l' : List L => ∀ b ∈ l, b ∈ l') l2 r2 := by
    intro js l1 l2 r1 r2 hl
    induction hl with
    | nil => intro _; exact ⟨.nil, .nil⟩
    | cons h1 h2 ih =>
      intro hjs
      obtain ⟨i1, i2⟩ := ih (fun j hj => hjs j (by simp [hj]))
      rw [hjs _ (List.mem_cons_self ..)] at h1
      obtain ⟨o, rfl⟩ := h1
      exact ⟨.cons (fun b hb => o.mem.mpr (.inl hb)) i1, .cons (fun b hb => o.mem.mpr (.inr hb)) i2⟩
  obtain ⟨s1, s2⟩ := sub hl (fun j hj => (List.mem_replicate.mp hj).2)
  exact ⟨v1, v2, carried_empty (typed_floats ha ta hda) v1 hda (d1.trans hda) s1 c1,
    carried_empty (typed_floats hb tb hdb) v2 hdb (d2.trans hdb) s2 c2⟩

/-- C117. A float larry without infinities is what `vacuum` makes of it, with labels added. -/
theorem C117_vacuum {y : Larry L} (hy : y.Valid) (ht : y.Typed) (hd : y.dtype = .float)
    (hi : ∀ names v, y.Has names v → v ≠ .flt .pinf ∧ v ≠ .flt .ninf) (axis : Option (List Int)) :
    ∃ z, y.vacuum axis = .ok z ∧ z.Valid ∧ WithEmpty z y ∧ ∀ k, SameOrder k z y := by
  obtain ⟨z, e, hz⟩ := C39_vacuum hy (by simp [hd]) axis
  have hf := typed_floats hy ht hd
  have sub : ∀ (k : Nat) l l', z.label[k]? = some l → y.label[k]? = some l' → l.Sublist l' := by
    intro k l l' hl hl'
    by_cases hv : Vacuumed axis k
    · exact (hz.vacuumed k l' l hl' hl hv).1
    · rw [hz.others k l' l hl' hl hv]
  refine ⟨z, e, hz.part.valid, ⟨⟨hz.part.dtype_eq.trans hd, hd⟩, ?_, fun names v hv => ?_, fun names v hv => ?_, hf⟩,
    sub⟩
  · rw [List.forall₂_iff_get]
    refine ⟨hz.naxes, fun k hk hk' x hx => ?_⟩
    simp only [List.get_eq_getElem] at hx ⊢
    exact (sub k _ _ (List.getElem?_eq_getElem hk) (List.getElem?_eq_getElem hk')).subset hx
  · exact ((hz.part.has names v).mp hv).2
  · by_cases hN : Named z.label names
    · exact .inl hN
    · right
      by_contra hn
      refine hN (Named_iff.mpr ⟨(Named_iff.mp (Named_of_Holds hv)).1.trans hz.naxes.symm, fun k l n hl hk => ?_⟩)
      have hk' := (List.getElem?_eq_some_iff.mp hl).1
      have hl' : y.label[k]? = some (y.label[k]'(by rw [← hz.naxes]; exact hk')) := List.getElem?_eq_getElem _
      have hmem := (Named_iff.mp (Named_of_Holds hv)).2 k _ n hl' hk
      by_cases hvac : Vacuumed axis k
      · refine ((hz.vacuumed k _ l hl' hl hvac).2 n).mpr ⟨hmem, names, v, hk, hv, ?_⟩
        obtain ⟨f, rfl⟩ := hf _ _ hv
        cases f with
        | fin q => trivial
        | nan => exact absurd rfl hn
        | pinf => exact absurd rfl (hi _ _ hv).1
        | ninf => exact absurd rfl (hi _ _ hv).2
      · rw [hz.others k _ l hl' hl hvac]
        exact hmem

/-! ## Chains of calls -/

/-- One call of a chain. -/
inductive Stage
  | ranking (axis : Option Int)
  | demean (center : List Flt → Flt) (axis : Option Int)
  | zscore (std : List Flt → Flt) (axis : Option Int)
  | cumsum (axis : Int)
  | cumprod (axis : Int)
  | elem (m : ElemMethod)

/-- The call. -/
def Stage.run (y : Larry L) : Stage → Res (Larry L)
  | .ranking axis => y.ranking axis .pm1
  | .demean c axis => y.demean c axis
  | .zscore s axis => y.zscore s axis
  | .cumsum axis => y.cumsum (some axis)
  | .cumprod axis => y.cumprod (some axis)
  | .elem m => y.elem m

/-- The axis is one of `n`, the centre or scale skips NaN, and the elementwise method leaves NaN alone. -/
def Stage.Fine (n : Nat) : Stage → Prop
  | .ranking axis => ∀ a, axis = some a → ∃ ax, pyIdx n a = some ax
  | .demean c axis => SkipsNanF c ∧ ∀ a, axis = some a → ∃ ax, pyIdx n a = some ax
  | .zscore s axis => SkipsNanF s ∧ ∀ a, axis = some a → ∃ ax, pyIdx n a = some ax
  | .cumsum axis => ∃ ax, pyIdx n axis = some ax
  | .cumprod axis => ∃ ax, pyIdx n axis = some ax
  | .elem m => (∃ f, m = .log f ∧ f .nan = .nan) ∨ m = .sign ∨ (∃ q, m = .power (q + 1)) ∨ m = .neg ∨ m = .pos ∨ m = .abs

/-- The calls, each on the result of the one before. -/
def runStages : List Stage → Larry L → Res (Larry L)
  | [], y => .ok y
  | s :: P, y => match s.run y with
    | .error e => .error e
    | .ok z => runStages P z

theorem stage_label {y z : Larry L} {s : Stage} (h : s.run y = .ok z) : z.label = y.label := by
  cases s with
  | ranking axis =>
    simp only [Stage.run, Larry.ranking] at h
    split at h
    · cases h
    · cases axis with
      | none => cases h; rfl
      | some a =>
        simp only at h
        cases ha : pyIdx y.ndim a <;> rw [ha] at h <;> cases h
        rfl
  | demean c axis =>
    simp only [Stage.run, Larry.demean] at h
    split at h
    · cases h
    · cases axis with
      | none => cases h; rfl
      | some a =>
        simp only at h
        cases ha : npAxis y.ndim a <;> rw [ha] at h <;> cases h
        rfl
  | zscore c axis =>
    simp only [Stage.run, Larry.zscore] at h
    split at h
    · cases h
    · cases axis with
      | none => cases h; rfl
      | some a =>
        simp only at h
        cases ha : npAxis y.ndim a <;> rw [ha] at h <;> cases h
        rfl
  | cumsum a =>
    simp only [Stage.run, Larry.cumsum, Larry.cumulate] at h
    split at h
    · cases h
    · cases ha : npAxis y.ndim a <;> rw [ha] at h <;> cases h
      rfl
  | cumprod a =>
    simp only [Stage.run, Larry.cumprod, Larry.cumulate] at h
    split at h
    · cases h
    · cases ha : npAxis y.ndim a <;> rw [ha] at h <;> cases h
      rfl
  | elem m =>
    cases m <;> simp only [Stage.run, Larry.elem] at h <;> split at h <;> cases h <;> rfl

/-- C117. A chain of such calls: what was there comes out as before, and what was added stays NaN. -/
theorem C117_chain {P : List Stage} {y w : Larry L} (hy : y.Valid) (hw : w.Valid) (h : WithEmpty y w)
    (ho : ∀ k, SameOrder k y w) (hP : ∀ s ∈ P, s.Fine y.ndim) : StillEmpty (runStages P y) (runStages P w) := by
  induction P generalizing y w with
  | nil => exact ⟨y, w, rfl, rfl, hy, hw, h⟩
  | cons s P ih =>
    have hs := hP s (by simp)
    have step : StillEmpty (s.run y) (s.run w) := by
      cases s with
      | ranking axis => exact (C117_normalize hy hw h hs).1
      | demean c axis => exact (C117_normalize hy hw h hs.2).2.1 c hs.1
      | zscore c axis => exact (C117_normalize hy hw h hs.2).2.2 c hs.1
      | cumsum a =>
        obtain ⟨ax, ha⟩ := hs
        exact (C117_running hy hw h ha (ho ax)).1
      | cumprod a =>
        obtain ⟨ax, ha⟩ := hs
        exact (C117_running hy hw h ha (ho ax)).2
      | elem m => exact C117_elementwise hy hw h hs
    obtain ⟨z, z', e1, e2, v1, v2, g⟩ := step
    have l1 := stage_label e1
    have l2 := stage_label e2
    simp only [runStages, e1, e2]
    refine ih v1 v2 g (fun k l l' hl hl' => ho k l l' (l1 ▸ hl) (l2 ▸ hl')) (fun t ht => ?_)
    have : z.ndim = y.ndim := by rw [← v1.label_length, l1, hy.label_length]
    rw [this]
    exact hP t (by simp [ht])

/-! ## Where an empty label does count -/

/-- One number, 0. -/
def exZero : Larry Nat := ⟨⟨[1], fun _ => fl 0⟩, .float, [[1]]⟩
/-- The same and a label with nothing under it. -/
def exZeroAnd : Larry Nat := ⟨⟨[2], fun idx => if idx = [0] then fl 0 else .flt .nan⟩, .float, [[1, 2]]⟩

theorem exZero_empty : exZero.Valid ∧ exZeroAnd.Valid ∧ WithEmpty exZero exZeroAnd ∧ SameOrder 0 exZero exZeroAnd := by
  refine ⟨⟨rfl, by decide, by decide⟩, ⟨rfl, by decide, by decide⟩, ⟨⟨rfl, rfl⟩, ?_, ?_, ?_, ?_⟩, ?_⟩
  · exact .cons (by decide) .nil
  · rintro names v ⟨idx, h1, rfl⟩
    match idx, names, h1 with
    | [0], [_], h => exact ⟨[0], ⟨by simpa [exZero, exZeroAnd] using h.1, trivial⟩, rfl⟩
    | [n + 1], [_], h => exact absurd h.1 (by simp)
    | _ :: _ :: _, _ :: _, h => exact absurd h.2 (by simp [At])
  · rintro names v ⟨idx, h1, rfl⟩
    match idx, names, h1 with
    | [0], [_], h =>
      left
      have := h.1
      simp only [List.getElem?_cons_zero, Option.some.injEq] at this
      subst this
      exact ⟨by simp, trivial⟩
    | [1], [_], _ => exact .inr rfl
    | [n + 2], [_], h => exact absurd h.1 (by simp)
    | _ :: _ :: _, _ :: _, h => exact absurd h.2 (by simp [At])
  · rintro names v ⟨idx, h1, rfl⟩
    simp only [exZeroAnd]
    split <;> exact ⟨_, rfl⟩
  · intro l l' hl hl'
    cases hl
    cases hl'
    decide

/-- C117. `any` and `all` do count NaN, which is true in numpy: adding a label with nothing under it changes `any`. -/
theorem C117_any_counts_nan : exZero.any none = .ok (.scalar (.bool false)) ∧ exZeroAnd.any none = .ok (.scalar (.bool true)) :=
  ⟨rfl, rfl⟩

/-- C117. The norm `'0,N-1'` of `ranking` counts positions: the rank of 2 in [1, 2] is 1, in [1, 2, NaN] it is 2. -/
theorem C117_ranking_counts : rankingLine .n1 [fl 1, fl 2] = [fl 0, fl 1] ∧
    rankingLine .n1 [fl 1, fl 2, .flt .nan] = [fl 0, fl 2, .flt .nan] := by decide +kernel

/-- C117. `lastrank` ranks whatever is last: a NaN put there makes the result NaN. -/
theorem C117_lastrank_counts : lastrankLine [fl 1, fl 2] = fl 1 ∧ lastrankLine [fl 1, fl 2, .flt .nan] = .flt .nan := by
  decide +kernel

/-- C117. `push` fills what was added, and counts it against the window. -/
theorem C117_push_fills : pushLine 1 [fl 1, .flt .nan] = [fl 1, fl 1] ∧
    pushLine 1 [fl 1, .flt .nan, .flt .nan] = [fl 1, fl 1, .flt .nan] := by decide +kernel

/-- An infinity and a number. -/
def exInfAnd : Larry Nat := ⟨⟨[2], fun idx => if idx = [0] then .flt .pinf else fl 1⟩, .float, [[1, 2]]⟩

/-- C117. `vacuum` also drops a label under which there are infinities only, and the sum is another one. -/
theorem C117_vacuum_infinity : ∃ z, exInfAnd.vacuum none = .ok z ∧ z.label = [[2]] ∧
    z.sum none = .ok (.scalar (fl 1)) ∧ exInfAnd.sum none = .ok (.scalar (.flt .pinf)) :=
  ⟨_, rfl, by decide, by rfl, by rfl⟩

/-! ## The hypotheses are met -/

theorem exA_floats : exA.Typed := by
  rw [typed_iff exA_valid]
  rintro names v ⟨idx, h1, rfl⟩
  have hm : idx ∈ allIdx [2, 3] := mem_allIdx.mpr (At_inB h1)
  clear h1
  revert idx
  decide +kernel

/-- A 2x3 larry with a NaN, and the same with a label put between its rows: valid, `WithEmpty`, in the same order on both axes. -/
theorem exA_wider : ∃ w, exA.morph [10, 15, 20] 0 = .ok w ∧ w.Valid ∧ WithEmpty exA w ∧ ∀ k, SameOrder k exA w := by
  obtain ⟨w, e, v, lw, h⟩ := C117_morph exA_valid exA_floats rfl (lab := [10, 15, 20]) (by decide) (axis := 0) (ax := 0) rfl
    (l := [10, 20]) rfl (by decide)
  refine ⟨w, e, v, h, fun k l l' hl hl' => ?_⟩
  rw [lw] at hl'
  match k with
  | 0 => cases hl; cases hl'; decide
  | 1 => cases hl; cases hl'; decide
  | k + 2 => cases hl

/-- What the theorems ask for, all of it at once: axes, centres and scales, a chain of five calls, two larrys for `+`. -/
example : ∃ w, exA.morph [10, 15, 20] 0 = .ok w ∧ w.Valid ∧ WithEmpty exA w ∧ (∀ k, SameOrder k exA w) ∧
    HasAxis exA (some (-1)) ∧ HasAxis exA none ∧ SkipsNanF nanmean ∧ SkipsNanF medianOf ∧ SkipsNanF (varOf 0) ∧
    NanStrict Arith.npAdd ∧ (2 : Int) ≤ ([10, 20] : List Nat).length ∧
    StillEmpty (runStages [.ranking (some 0), .demean nanmean none, .cumsum 1, .zscore (varOf 0) (some (-1)), .elem .sign] exA)
      (runStages [.ranking (some 0), .demean nanmean none, .cumsum 1, .zscore (varOf 0) (some (-1)), .elem .sign] w) := by
  obtain ⟨w, e, v, h, ho⟩ := exA_wider
  refine ⟨w, e, v, h, ho, ?_, (fun a ha => nomatch ha), nanmean_skips, medianOf_skips, varOf_skips 0, C117_arith.1,
    by decide, C117_chain exA_valid v h ho ?_⟩
  · intro a ha
    cases ha
    exact ⟨1, rfl⟩
  · intro s hs
    simp only [List.mem_cons, List.not_mem_nil, or_false] at hs
    rcases hs with rfl | rfl | rfl | rfl | rfl
    · exact fun a ha => by cases ha; exact ⟨0, rfl⟩
    · exact ⟨nanmean_skips, fun a ha => nomatch ha⟩
    · exact ⟨1, rfl⟩
    · exact ⟨varOf_skips 0, fun a ha => by cases ha; exact ⟨1, rfl⟩⟩
    · exact .inr (.inl rfl)

/-- `align` gives two such larrys, and `vacuum` takes the empty label away again. -/
example : ∃ z1 z2, align exZero exZeroAnd (.one .outer) true = .ok (z1, z2) ∧ WithEmpty exZero z1 := by
  have hok : ∀ e, ¬ FailsAt exZero exZeroAnd [.outer] true e := by
    rintro e ⟨p, hp, hf⟩
    simp only [exZero, exZeroAnd, List.zip_cons_cons, List.zip_nil_left, List.mem_cons, List.not_mem_nil, or_false] at hp
    subst hp
    cases hf <;> simp_all
  obtain ⟨z1, z2, e, -⟩ := C16_align exZero_empty.1 exZero_empty.2.1 rfl (join := .one .outer) (js := [.outer]) rfl hok
  have t1 : exZero.Typed := (typed_iff exZero_empty.1).mpr fun names v hv => by
    obtain ⟨idx, -, rfl⟩ := hv; rfl
  have t2 : exZeroAnd.Typed := (typed_iff exZero_empty.2.1).mpr fun names v hv => by
    obtain ⟨f, rfl⟩ := exZero_empty.2.2.1.floats _ _ hv; rfl
  exact ⟨z1, z2, e, (C117_align exZero_empty.1 exZero_empty.2.1 t1 t2 rfl rfl e).2.2.1⟩

example : ∃ z, exZeroAnd.vacuum none = .ok z ∧ z.label = [[1]] ∧ ∀ names v, exZeroAnd.Has names v → v ≠ .flt .pinf ∧ v ≠ .flt .ninf := by
  refine ⟨_, rfl, by decide, ?_⟩
  rintro names v ⟨idx, -, rfl⟩
  simp only [exZeroAnd]
  split <;> simp [fl]

end La
