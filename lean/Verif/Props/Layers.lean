import Verif.Props.Stack
import Verif.Props.Axes
import Verif.Props.Stats
import Verif.Props.Flatten
import Verif.Props.MergeMany
import Verif.Props.MoveBn
import Verif.Props.Reorder

/-!
# C124: what can be done with larrys stacked on each other

`stack` against `pull`, `morph_like`, the statistics along the axis of the keywords, `la.add`, `la.multiply`, `insertaxis` with
`merge`, and `panel`.
-/

namespace La
open Larry
variable {L : Type _} [LinearOrder L]

/-! ## Specification -/

/-- `v` is what the larry given for the keyword has under the names, as a float; NaN if it does not have these names. -/
def Layer (kw : List (L × Larry L)) (names : List L) (key : L) (v : Val) : Prop :=
  ∃ lar, (key, lar) ∈ kw ∧
    ((∃ w, lar.Has names w ∧ v = w.toFloat) ∨ (¬ Named lar.label names ∧ v = .flt .nan))

/-! ## The cells of a stack -/

theorem key_unique {kw : List (L × Larry L)} (hk : (kw.map Prod.fst).Nodup) {key : L} {a b : Larry L} (ha : (key, a) ∈ kw)
    (hb : (key, b) ∈ kw) : a = b := by
  have h1 := kwGet_of hk ha
  have h2 := kwGet_of hk hb
  exact Except.ok.inj (h1.symm.trans h2)

/-- What C62 says, with the cells in one clause. -/
theorem stacked (m : Bool) {kw : List (L × Larry L)} (hk : (kw.map Prod.fst).Nodup)
    (hv : ∀ p ∈ kw, p.2.Valid ∧ p.2.ndim = 2 ∧ p.2.dtype.IsNum) (hne : m = false → kw ≠ []) :
    ∃ z keys row col, stack (some m) kw = .ok z ∧ z.Valid ∧ z.dtype = .float ∧ z.label = [keys, row, col] ∧
      keys.Perm (kw.map Prod.fst) ∧ keys.Pairwise (· < ·) ∧ row.Pairwise (· < ·) ∧ col.Pairwise (· < ·) ∧
      (∀ a, a ∈ row ↔ Merged m (kw.map Prod.snd) 0 a) ∧ (∀ a, a ∈ col ↔ Merged m (kw.map Prod.snd) 1 a) ∧
      ∀ key r c v, z.Has [key, r, c] v ↔ r ∈ row ∧ c ∈ col ∧ Layer kw [r, c] key v := by
  obtain ⟨z, keys, row, col, h1, h2, h3, h4, h5, h6, h7, h8, h9, h10, h11, h12⟩ := C62_stack m hk hv hne
  have key : ∀ key r c v, r ∈ row → c ∈ col → Layer kw [r, c] key v → z.Has [key, r, c] v := by
    rintro key r c v hr hc ⟨lar, hm, ⟨w, hw, rfl⟩ | ⟨hn, rfl⟩⟩
    · exact h11 key lar hm r c w hw hr hc
    · exact h12 key lar hm r c hr hc hn
  refine ⟨z, keys, row, col, h1, h2, h3, h4, h5, h6, h7, h8, h9, h10, fun k r c v => ⟨fun h => ?_, fun h => key k r c v h.1 h.2.1 h.2.2⟩⟩
  have hn : Named z.label [k, r, c] := Named_of_Holds h
  rw [h4] at hn
  obtain ⟨hkm, hr, hc, -⟩ := hn
  obtain ⟨p, hp, rfl⟩ := List.mem_map.mp (h5.mem_iff.mp hkm)
  refine ⟨hr, hc, ?_⟩
  by_cases hn : Named p.2.label [r, c]
  · obtain ⟨w, hw⟩ := Holds_of_Named (x := p.2.x) hn
    have hl : Layer kw [r, c] p.1 w.toFloat := ⟨p.2, hp, .inl ⟨w, hw, rfl⟩⟩
    rw [Holds_unique h2.nodup h (key _ _ _ _ hr hc hl)]
    exact hl
  · have hl : Layer kw [r, c] p.1 (.flt .nan) := ⟨p.2, hp, .inr ⟨hn, rfl⟩⟩
    rw [Holds_unique h2.nodup h (key _ _ _ _ hr hc hl)]
    exact hl

/-- C124. `stack(...).pull(key, 0)` is the larry of that keyword on the rows and columns of the stack, as floats, NaN in the cells
it does not have. -/
theorem C124_page (m : Bool) {kw : List (L × Larry L)} (hk : (kw.map Prod.fst).Nodup)
    (hv : ∀ p ∈ kw, p.2.Valid ∧ p.2.ndim = 2 ∧ p.2.dtype.IsNum) (hne : m = false → kw ≠ []) :
    ∃ z keys row col, stack (some m) kw = .ok z ∧ z.label = [keys, row, col] ∧
      ∀ key lar, (key, lar) ∈ kw → ∃ w, z.pull key (some 0) = .ok (.larry w) ∧ w.Valid ∧ w.dtype = .float ∧
        w.label = [row, col] ∧ ∀ names v, w.Has names v ↔ Named [row, col] names ∧
          ((∃ u, lar.Has names u ∧ v = u.toFloat) ∨ (¬ Named lar.label names ∧ v = .flt .nan)) := by
  obtain ⟨z, keys, row, col, h1, h2, h3, h4, h5, -, -, -, -, -, h11⟩ := stacked m hk hv hne
  refine ⟨z, keys, row, col, h1, h4, fun key lar hm => ?_⟩
  have hn : z.ndim = 3 := by rw [← h2.label_length, h4]; rfl
  have hkm : key ∈ keys := h5.mem_iff.mpr (List.mem_map.mpr ⟨_, hm, rfl⟩)
  obtain ⟨-, -, h⟩ := C31_pull h2 (a := 0) (ax := 0) (l := keys) (name := key) (by rw [hn]; rfl) (by rw [h4]; rfl) hkm
  obtain ⟨w, e, w1, w2, w3, w4⟩ := h (by omega) (by rw [h4]; simp)
  refine ⟨w, e, w1, w2.trans h3, by rw [w3, h4]; rfl, fun names v => ?_⟩
  rw [w4, hn]
  constructor
  · rintro ⟨hl, hh⟩
    obtain ⟨r, c, rfl⟩ := List.length_eq_two.mp (show names.length = 2 by omega)
    obtain ⟨hr, hc, lar', hm', hd⟩ := (h11 key r c v).mp hh
    rw [key_unique hk hm hm']
    exact ⟨⟨hr, hc, trivial⟩, hd⟩
  · rintro ⟨hN, hd⟩
    match names, hN with
    | [r, c], hN => exact ⟨rfl, (h11 key r c v).mpr ⟨hN.1, hN.2.1, lar, hm, hd⟩⟩

/-- C124. `stack('union', ...).pull(key, 0).morph_like(lar)` is the larry given for the keyword, as floats: nothing was lost. -/
theorem C124_roundtrip {kw : List (L × Larry L)} (hk : (kw.map Prod.fst).Nodup)
    (hv : ∀ p ∈ kw, p.2.Valid ∧ p.2.ndim = 2 ∧ p.2.dtype.IsNum) :
    ∃ z, stack (some true) kw = .ok z ∧
      ∀ key lar, (key, lar) ∈ kw → ∃ w u, z.pull key (some 0) = .ok (.larry w) ∧ w.morphLike lar = .ok u ∧ u.Valid ∧
        u.label = lar.label ∧ u.dtype = .float ∧ (∀ names v, u.Has names v ↔ ∃ w, lar.Has names w ∧ v = w.toFloat) ∧
        (lar.dtype = .float → lar.Typed → u.Same lar) := by
  obtain ⟨z, keys, row, col, h1, h2, h3, h4, -, -, -, -, h9, h10, -⟩ := stacked true hk hv (by simp)
  obtain ⟨z', keys', row', col', e1, e2, hp⟩ := C124_page true hk hv (by simp)
  obtain rfl := Except.ok.inj (h1.symm.trans e1)
  rw [h4] at e2
  obtain ⟨rfl, rfl, rfl⟩ : keys = keys' ∧ row = row' ∧ col = col' := by simpa using e2
  refine ⟨z, h1, fun key lar hm => ?_⟩
  obtain ⟨w, p1, p2, p3, p4, p5⟩ := hp key lar hm
  obtain ⟨lv, ln, ld⟩ := hv _ hm
  have hwn : w.ndim = lar.ndim := by rw [← p2.label_length, p4, ln]; rfl
  obtain ⟨u, q1, q2, q3, ⟨-, q4⟩, q5, -⟩ := C15_morph_like p2 lv hwn
  have hud : u.dtype = .float := by rw [q4 (by simp [p3]), p3]
  have hhas : ∀ names v, u.Has names v ↔ ∃ w, lar.Has names w ∧ v = w.toFloat := by
    intro names v
    have fwd : ∀ t, lar.Has names t → u.Has names t.toFloat := by
      intro t ht
      have hN := Named_of_Holds ht
      have hN2 : Named [row, col] names := by
        obtain ⟨la, lb, hl⟩ := List.length_eq_two.mp (by rw [lv.label_length]; exact ln)
        rw [hl] at hN
        match names, hN with
        | [r, c], hN =>
          exact ⟨(h9 r).mpr ⟨lar, List.mem_map.mpr ⟨_, hm, rfl⟩, la, by rw [hl]; rfl, hN.1⟩,
            (h10 c).mpr ⟨lar, List.mem_map.mpr ⟨_, hm, rfl⟩, lb, by rw [hl]; rfl, hN.2.1⟩, trivial⟩
      have := q5 names _ ((p5 names _).mpr ⟨hN2, .inl ⟨t, ht, rfl⟩⟩) hN
      rw [if_pos (hud.trans p3.symm)] at this
      exact (get_ok_iff q2).mp this
    refine ⟨fun h => ?_, fun ⟨t, ht, e⟩ => e ▸ fwd t ht⟩
    have hN := Named_of_Holds h
    rw [q3] at hN
    obtain ⟨t, ht⟩ := Holds_of_Named (x := lar.x) hN
    exact ⟨t, ht, Holds_unique q2.nodup h (fwd t ht)⟩
  refine ⟨w, u, p1, q1, q2, q3, hud, hhas, fun hf ht => q2.same_of_has lv q3 (hud.trans hf.symm) fun names v h => ?_⟩
  obtain ⟨t, h', rfl⟩ := (hhas names v).mp h
  have := (typed_iff lv).mp ht names t h'
  rw [hf] at this
  cases t <;> simp [Val.hasDType] at this
  exact h'

/-! ## Statistics over the keywords -/

omit [LinearOrder L] in
/-- A stack of typed larrys is typed. -/
theorem stacked_typed {kw : List (L × Larry L)} {z : Larry L} (hz : z.Valid) (hd : z.dtype = .float) {keys row col : List L}
    (hl : z.label = [keys, row, col]) (hv : ∀ p ∈ kw, p.2.Valid ∧ p.2.ndim = 2 ∧ p.2.dtype.IsNum) (ht : ∀ p ∈ kw, p.2.Typed)
    (hc : ∀ key r c v, z.Has [key, r, c] v ↔ r ∈ row ∧ c ∈ col ∧ Layer kw [r, c] key v) : z.Typed := by
  rw [typed_iff hz]
  intro names v h
  have hN := Named_of_Holds h
  rw [hl] at hN
  match names, hN, h with
  | [k, r, c], hN, h =>
    obtain ⟨-, -, lar, hm, ⟨w, hw, rfl⟩ | ⟨-, rfl⟩⟩ := (hc k r c v).mp h
    · have := (typed_iff (hv _ hm).1).mp (ht _ hm) _ _ hw
      rw [hd]
      rcases (hv _ hm).2.2 with h | h | h <;> rw [h] at this <;> cases w <;> simp [Val.hasDType] at this <;> rfl
    · rw [hd]; rfl

omit [LinearOrder L] in
/-- The line of a stack along the axis of the keywords holds what each larry has under the names, in the order of the keywords. -/
theorem stacked_line {kw : List (L × Larry L)} {z : Larry L} {keys row col : List L} (hl : z.label = [keys, row, col])
    (hc : ∀ key r c v, z.Has [key, r, c] v ↔ r ∈ row ∧ c ∈ col ∧ Layer kw [r, c] key v) {r c : L} {vs : List Val}
    (h : z.LineAt 0 [r, c] vs) : List.Forall₂ (Layer kw [r, c]) keys vs := by
  obtain ⟨l, h1, h2, h3⟩ := h
  rw [hl] at h1
  obtain rfl : keys = l := by simpa using h1
  refine List.forall₂_iff_get.mpr ⟨h2.symm, fun i hi hi' => ?_⟩
  exact ((hc _ _ _ _).mp (h3 i _ _ (List.getElem?_eq_getElem hi) (List.getElem?_eq_getElem hi'))).2.2

/-- C124. A statistic along the axis of the keywords (any that computes what `S` says of its lines: C91) gives, for each row and
column, the statistic of what the larrys have there. -/
theorem C124_statistics (m : Bool) {kw : List (L × Larry L)} (hk : (kw.map Prod.fst).Nodup) (hne : kw ≠ [])
    (hv : ∀ p ∈ kw, p.2.Valid ∧ p.2.ndim = 2 ∧ p.2.dtype.IsNum) (ht : ∀ p ∈ kw, p.2.Typed) :
    ∃ z keys row col, stack (some m) kw = .ok z ∧ z.Valid ∧ z.Typed ∧ z.dtype = .float ∧ z.label = [keys, row, col] ∧
      keys.Perm (kw.map Prod.fst) ∧ keys.Pairwise (· < ·) ∧
      ∀ (stat : Option Int → Res (Out L)) S d, Computes stat S d z →
        ∃ w, stat (some 0) = .ok (.larry w) ∧ w.Valid ∧ w.dtype = d ∧ w.label = [row, col] ∧
          ∀ r ∈ row, ∀ c ∈ col, ∃ vs v, List.Forall₂ (Layer kw [r, c]) keys vs ∧ w.Has [r, c] v ∧ S vs v := by
  obtain ⟨z, keys, row, col, h1, h2, h3, h4, h5, h6, -, -, -, -, h11⟩ := stacked m hk hv (fun _ => hne)
  refine ⟨z, keys, row, col, h1, h2, stacked_typed h2 h3 h4 hv ht h11, h3, h4, h5, h6, fun stat S d hS => ?_⟩
  have hn : z.ndim = 3 := by rw [← h2.label_length, h4]; rfl
  obtain ⟨w, e, w1, w2, w3, w4⟩ := hS.2.2 0 0 (by omega) (by rw [hn]; rfl)
  have hw : w.label = [row, col] := by rw [w3, h4]; rfl
  refine ⟨w, e, w1, w2, hw, fun r hr c hc => ?_⟩
  obtain ⟨vs, v, g1, g2, g3⟩ := w4 [r, c] (by rw [hw]; exact ⟨hr, hc, trivial⟩)
  exact ⟨vs, v, stacked_line h4 h11 g1, g2, g3⟩

/-! ## Totals -/

/-- The number of the larry of a keyword. -/
def keyNumber (kw : List (L × Larry L)) (names : List L) (key : L) : Option ℚ :=
  match kwGet kw key with
  | .ok lar => numberAt lar names
  | .error _ => none

theorem layer_number {n : Nat} {kw : List (L × Larry L)} (hk : (kw.map Prod.fst).Nodup) (ht : ∀ p ∈ kw, Totalled n p.2)
    {names : List L} {key : L} {v : Val} (h : Layer kw names key v) : v.num = fltOf (keyNumber kw names key) := by
  obtain ⟨lar, hm, h⟩ := h
  have e : keyNumber kw names key = numberAt lar names := by simp only [keyNumber, kwGet_of hk hm]
  rw [e]
  have hl : Totalled n lar := ht _ hm
  rcases h with ⟨w, hw, rfl⟩ | ⟨hn, rfl⟩
  · obtain ⟨q, h1, h2⟩ := hl.read (Named_of_Holds hw)
    rw [h2, Holds_unique hl.valid.nodup hw ((get_ok_iff hl.valid).mp h1)]
    rfl
  · rw [numberAt_none hl.valid hn]; rfl

theorem finites_fltOf (qs : List (Option ℚ)) : NoInf (qs.map fltOf) ∧ finites (qs.map fltOf) = qs.filterMap id := by
  constructor
  · intro x hx
    obtain ⟨q, -, rfl⟩ := List.mem_map.mp hx
    cases q <;> simp [fltOf]
  · induction qs with
    | nil => rfl
    | cons q qs ih => cases q <;> simp [fltOf, finites] at ih ⊢ <;> exact ih

theorem layer_numbers {n : Nat} {kw : List (L × Larry L)} (hk : (kw.map Prod.fst).Nodup) (ht : ∀ p ∈ kw, Totalled n p.2)
    {names keys : List L} (hp : keys.Perm (kw.map Prod.fst)) {vs : List Val} (h : List.Forall₂ (Layer kw names) keys vs) :
    NoInf (vs.map Val.num) ∧ (finites (vs.map Val.num)).Perm (kw.filterMap fun p => numberAt p.2 names) := by
  have e : vs.map Val.num = (keys.map (keyNumber kw names)).map fltOf := by
    clear hp
    induction h with
    | nil => rfl
    | cons h1 _ ih => simp [layer_number hk ht h1, ih]
  obtain ⟨h1, h2⟩ := finites_fltOf (keys.map (keyNumber kw names))
  rw [e]
  refine ⟨h1, ?_⟩
  rw [h2, List.filterMap_map]
  refine (hp.filterMap _).trans (List.Perm.of_eq ?_)
  rw [List.filterMap_map]
  refine List.filterMap_congr fun p hp => ?_
  simp only [Function.comp, id, keyNumber, kwGet_of hk hp]

theorem total_perm (f : FArith) {l m : List ℚ} (h : l.Perm m) : f.total l = f.total m := by
  unfold FArith.total; split
  · exact h.prod_eq
  · exact h.sum_eq

theorem range_bind {α β : Type _} (l : List α) (f : α → Option β) :
    ((List.range l.length).filterMap fun i => l[i]?.bind f) = l.filterMap f := by
  induction l with
  | nil => rfl
  | cons a l ih =>
    rw [List.length_cons, List.range_succ_eq_map, List.filterMap_cons, List.filterMap_cons, List.filterMap_map]
    simp only [Function.comp_def, List.getElem?_cons_zero, List.getElem?_cons_succ, Option.bind_some, ih]

/-- The cells of a larry totalled, with the calls or along the stack. -/
theorem total_reordered {f : FArith} (hf : f = .add ∨ f = .multiply) {cv : DType → Val → Val} (py3 : Bool)
    {kw : List (L × Larry L)} (hne : kw ≠ []) (ht : ∀ p ∈ kw, Totalled 2 p.2) {row col : List L} (hr : row.Nodup) (hc : col.Nodup)
    (hrow : ∀ a, a ∈ row ↔ Merged true (kw.map Prod.snd) 0 a) (hcol : ∀ a, a ∈ col ↔ Merged true (kw.map Prod.snd) 1 a)
    {w : Larry L} (hw : w.Valid) (hd : w.dtype = .float) (hl : w.label = [row, col])
    (hcell : ∀ r ∈ row, ∀ c ∈ col, w.Has [r, c] (.flt (fltOf (f.cell false (kw.filterMap fun p => numberAt p.2 [r, c])))))
    {m : Val} (hm : cv .float m = .flt (.fin f.neutral)) {t : Expr} (hp : t.vars.Perm (List.range kw.length)) :
    ∃ z, t.outer f cv py3 (some m) none (kw.map Prod.snd) = .ok z ∧ z.Valid ∧ w.Reordered z ∧
      ((∀ p ∈ kw, ∀ l ∈ p.2.label, l.Pairwise (· < ·)) → row.Pairwise (· < ·) → col.Pairwise (· < ·) → w.Same z) := by
  have hvars : ∀ i ∈ t.vars, i < (kw.map Prod.snd).length := fun i hi => by
    have := hp.mem_iff.mp hi; simpa using this
  have henv : ∀ y ∈ kw.map Prod.snd, Totalled 2 y := by
    intro y hy; obtain ⟨p, hp, rfl⟩ := List.mem_map.mp hy; exact ht p hp
  obtain ⟨z, e, zv, zn, zd, zl, zc⟩ := C96_outer hf py3 henv hm (misstwo := none) (by simp) hvars
  have hzl : z.label.length = 2 := by rw [zv.label_length, zn]
  obtain ⟨a, b, hab⟩ := List.length_eq_two.mp hzl
  have hall : ((t.vars.filterMap fun i => (kw.map Prod.snd)[i]?)).Perm (kw.map Prod.snd) := by
    have := range_bind (kw.map Prod.snd) (some : Larry L → Option (Larry L))
    refine (hp.filterMap _).trans (List.Perm.of_eq ?_)
    rw [List.length_map] at this
    simpa using this
  have hmem : ∀ (k : Nat) x, k < 2 → ((∃ ys ∈ ((t.vars.filterMap fun i => (kw.map Prod.snd)[i]?).map fun y => y.label.getD k []), x ∈ ys) ↔
      Merged true (kw.map Prod.snd) k x) := by
    intro k x hk
    simp only [Merged, if_true, OnAxis]
    constructor
    · rintro ⟨ys, hys, hx⟩
      obtain ⟨y, hy, rfl⟩ := List.mem_map.mp hys
      have hy' := hall.mem_iff.mp hy
      have hlen : k < y.label.length := by rw [(henv y hy').valid.label_length, (henv y hy').ndim]; exact hk
      exact ⟨y, hy', _, by rw [List.getD_eq_getElem?_getD, List.getElem?_eq_getElem hlen]; rfl, hx⟩
    · rintro ⟨y, hy, l, hl', hx⟩
      exact ⟨_, List.mem_map.mpr ⟨y, hall.mem_iff.mpr hy, rfl⟩, by rw [List.getD_eq_getElem?_getD, hl']; exact hx⟩
  have hA := zl 0 a (by rw [hab]; rfl)
  have hB := zl 1 b (by rw [hab]; rfl)
  have hpa : row.Perm a := (List.perm_ext_iff_of_nodup hr (zv.nodup a (by rw [hab]; simp))).mpr fun x => by
    rw [hrow, hA.2.2, hmem 0 x (by omega)]
  have hpb : col.Perm b := (List.perm_ext_iff_of_nodup hc (zv.nodup b (by rw [hab]; simp))).mpr fun x => by
    rw [hcol, hB.2.2, hmem 1 x (by omega)]
  have hhas : ∀ names v, w.Has names v → z.Has names v := by
    intro names v h
    have hN := Named_of_Holds h
    rw [hl] at hN
    match names, hN, h with
    | [r, c], hN, h =>
      rw [Holds_unique hw.nodup h (hcell r hN.1 c hN.2.1)]
      have hNz : Named z.label [r, c] := by rw [hab]; exact ⟨hpa.mem_iff.mp hN.1, hpb.mem_iff.mp hN.2.1, trivial⟩
      obtain ⟨g1, g2⟩ := zc [r, c] hNz
      have hpres : (presentIn (kw.map Prod.snd) t.vars [r, c]).Perm (kw.filterMap fun p => numberAt p.2 [r, c]) := by
        refine (hp.filterMap _).trans (List.Perm.of_eq ?_)
        have := range_bind (kw.map Prod.snd) fun y => numberAt y [r, c]
        rw [List.length_map, List.filterMap_map] at this
        exact this
      refine (get_ok_iff zv).mp ?_
      by_cases he : presentIn (kw.map Prod.snd) t.vars [r, c] = []
      · rw [g2 he]
        rw [he] at hpres
        simp [FArith.cell, hpres.symm.eq_nil, fltOf]
      · have he' : (kw.filterMap fun p => numberAt p.2 [r, c]) ≠ [] := fun h => he (by rw [h] at hpres; exact hpres.eq_nil)
        rw [g1 he, total_perm f hpres]
        simp only [FArith.cell, if_neg he', fltOf]
  have hhas' : ∀ names v, z.Has names v → w.Has names v := by
    intro names v h
    have hN := Named_of_Holds h
    rw [hab] at hN
    have hN' : Named w.label names := by
      rw [hl]
      match names, hN with
      | [r, c], hN => exact ⟨hpa.mem_iff.mpr hN.1, hpb.mem_iff.mpr hN.2.1, trivial⟩
    obtain ⟨u, hu⟩ := Holds_of_Named (x := w.x) hN'
    rw [Holds_unique zv.nodup h (hhas _ _ hu)]
    exact hu
  refine ⟨z, e, zv, ⟨hd.trans zd.symm, by rw [hl, hab]; exact .cons hpa (.cons hpb .nil), fun names v => ⟨hhas names v, hhas' names v⟩⟩,
    fun hs h1 h2 => hw.same_of_has zv ?_ (hd.trans zd.symm) hhas⟩
  have hsort : ∀ (k : Nat) r, k < 2 → AllOuter ((t.vars.filterMap fun i => (kw.map Prod.snd)[i]?).map fun y => y.label.getD k []) r →
      r.Pairwise (· < ·) := by
    intro k r hk hr
    by_cases hu : ∃ x ∈ ((t.vars.filterMap fun i => (kw.map Prod.snd)[i]?).map fun y => y.label.getD k []),
        ∃ y ∈ ((t.vars.filterMap fun i => (kw.map Prod.snd)[i]?).map fun y => y.label.getD k []), x ≠ y
    · exact hr.2.1 hu
    · push Not at hu
      obtain ⟨p, hp⟩ := List.exists_mem_of_ne_nil _ hne
      have hy : p.2 ∈ t.vars.filterMap fun i => (kw.map Prod.snd)[i]? := hall.mem_iff.mpr (List.mem_map.mpr ⟨p, hp, rfl⟩)
      have hy' := List.mem_map_of_mem (f := fun y : Larry L => y.label.getD k []) hy
      rw [hr.1 _ fun x hx => hu x hx _ hy']
      have hlen : k < p.2.label.length := by rw [(ht p hp).valid.label_length, (ht p hp).ndim]; exact hk
      refine hs p hp _ ?_
      rw [List.getD_eq_getElem?_getD, List.getElem?_eq_getElem hlen]
      exact List.getElem_mem hlen
  rw [hl, hab, hpa.eq_of_pairwise (fun _ _ _ _ h h' => absurd h (lt_asymm h')) h1 (hsort 0 a (by omega) hA),
    hpb.eq_of_pairwise (fun _ _ _ _ h h' => absurd h (lt_asymm h')) h2 (hsort 1 b (by omega) hB)]

theorem totalled_num {n : Nat} {y : Larry L} (h : Totalled n y) : y.Valid ∧ y.ndim = n ∧ y.dtype.IsNum :=
  ⟨h.valid, h.ndim, .inr (.inr h.float)⟩

/-- A union of larrys with elements has elements. -/
theorem stacked_size {kw : List (L × Larry L)} (hne : kw ≠ []) (ht : ∀ p ∈ kw, Totalled 2 p.2) {z : Larry L} (hz : z.Valid)
    {keys row col : List L} (hl : z.label = [keys, row, col]) (hp : keys.Perm (kw.map Prod.fst))
    (hrow : ∀ a, a ∈ row ↔ Merged true (kw.map Prod.snd) 0 a) (hcol : ∀ a, a ∈ col ↔ Merged true (kw.map Prod.snd) 1 a) :
    z.shape.prod ≠ 0 := by
  obtain ⟨p, hpm⟩ := List.exists_mem_of_ne_nil _ hne
  have h := ht p hpm
  obtain ⟨la, lb, hlab⟩ := List.length_eq_two.mp (by rw [h.valid.label_length]; exact h.ndim)
  obtain ⟨a, ha⟩ := List.exists_mem_of_ne_nil _ (h.ne la (by rw [hlab]; simp))
  obtain ⟨b, hb⟩ := List.exists_mem_of_ne_nil _ (h.ne lb (by rw [hlab]; simp))
  have h0 := List.length_pos_of_mem (hp.mem_iff.mpr (List.mem_map.mpr ⟨p, hpm, rfl⟩))
  have h1 := List.length_pos_of_mem ((hrow a).mpr ⟨p.2, List.mem_map.mpr ⟨p, hpm, rfl⟩, la, by rw [hlab]; rfl, ha⟩)
  have h2 := List.length_pos_of_mem ((hcol b).mpr ⟨p.2, List.mem_map.mpr ⟨p, hpm, rfl⟩, lb, by rw [hlab]; rfl, hb⟩)
  have : z.shape = [keys.length, row.length, col.length] := by
    have := hz.shape_eq; rw [hl] at this; exact this
  rw [this]
  simp only [List.prod_cons, List.prod_nil, mul_one]
  positivity

/-- C124. The sum of a stack along the axis of the keywords is what `la.add` makes of the larrys with `join='outer'` and
`missone=0`, one call after the other in any order and with any parentheses: the same value under every pair of names, and the same
larry if the labels are in ascending order. -/
theorem C124_add {cv : DType → Val → Val} (py3 : Bool) {kw : List (L × Larry L)} (hk : (kw.map Prod.fst).Nodup) (hne : kw ≠ [])
    (ht : ∀ p ∈ kw, Totalled 2 p.2) {zero : Val} (hz : cv .float zero = .flt (.fin 0)) {t : Expr}
    (hp : t.vars.Perm (List.range kw.length)) :
    ∃ z s a, stack (some true) kw = .ok z ∧ z.sum (some 0) = .ok (.larry s) ∧
      t.outer .add cv py3 (some zero) none (kw.map Prod.snd) = .ok a ∧ s.Valid ∧ a.Valid ∧ s.Reordered a ∧
      ((∀ p ∈ kw, ∀ l ∈ p.2.label, l.Pairwise (· < ·)) → s.Same a) := by
  obtain ⟨z, keys, row, col, h1, h2, h3, h4, h5, -, h7, h8, h9, h10, h11⟩ := stacked true hk (fun p hp => totalled_num (ht p hp)) (by simp)
  have hty := stacked_typed h2 h3 h4 (fun p hp => totalled_num (ht p hp)) (fun p hp => (ht p hp).typed) h11
  have hn : z.ndim = 3 := by rw [← h2.label_length, h4]; rfl
  obtain ⟨s, e, s1, s2, s3, s4⟩ := (C91_sum h2 hty (stacked_size hne ht h2 h4 h5 h9 h10) (.inl h3)).2.2 0 0 (by omega) (by rw [hn]; rfl)
  have hsl : s.label = [row, col] := by rw [s3, h4]; rfl
  rw [if_pos h3] at s2
  obtain ⟨a, a1, a2, a3, a4⟩ := total_reordered (f := .add) (.inl rfl) py3 hne ht (h7.imp ne_of_lt) (h8.imp ne_of_lt) h9 h10 s1 s2 hsl
    (fun r hr c hc => by
      obtain ⟨vs, v, g1, g2, g3⟩ := s4 [r, c] (by rw [hsl]; exact ⟨hr, hc, trivial⟩)
      obtain ⟨n1, n2⟩ := layer_numbers hk ht h5 (stacked_line h4 h11 g1)
      rw [h3] at g3
      obtain ⟨q, rfl, g4⟩ := g3
      obtain ⟨i1, i2⟩ := sumIs_noInf g4 n1
      by_cases hf : finites (vs.map Val.num) = []
      · have : (kw.filterMap fun p => numberAt p.2 [r, c]) = [] := by rw [hf] at n2; exact n2.symm.eq_nil
        rw [this]
        rw [i1 hf] at g2
        exact g2
      · have : (kw.filterMap fun p => numberAt p.2 [r, c]) ≠ [] := fun h => hf (by rw [h] at n2; exact n2.eq_nil)
        rw [i2 hf] at g2
        simpa [FArith.cell, if_neg this, fltOf, FArith.total, n2.sum_eq] using g2)
    (cv := cv) (m := zero) (by rw [hz]; rfl) hp
  exact ⟨z, s, a, h1, e, a1, s1, a2, a3, fun hs => a4 hs h7 h8⟩

theorem prodSpec_noInf {vs : List Val} (h : NoInf (vs.map Val.num)) :
    (finites (vs.map Val.num) = [] → prodSpec vs = .flt .nan) ∧
    (finites (vs.map Val.num) ≠ [] → prodSpec vs = .flt (.fin (finites (vs.map Val.num)).prod)) := by
  have e := noInf_ok h
  constructor
  · intro hf
    rw [hf, List.map_nil, List.filter_eq_nil_iff] at e
    have : ∀ v ∈ vs, v.num = .nan := fun v hv => by
      have := e v.num (List.mem_map.mpr ⟨v, hv, rfl⟩)
      simpa using this
    unfold prodSpec
    rw [if_pos this]
  · intro hf
    refine C44_finite _ vs ?_ hf
    rw [← e]
    refine List.filter_congr fun f _ => ?_
    cases f <;> simp [Flt.isNan]

/-- C124. The product of a stack along the axis of the keywords is what `la.multiply` makes of the larrys with `join='outer'` and
`missone=1`. -/
theorem C124_multiply {cv : DType → Val → Val} (py3 : Bool) {kw : List (L × Larry L)} (hk : (kw.map Prod.fst).Nodup) (hne : kw ≠ [])
    (ht : ∀ p ∈ kw, Totalled 2 p.2) {one : Val} (h1v : cv .float one = .flt (.fin 1)) {t : Expr}
    (hp : t.vars.Perm (List.range kw.length)) :
    ∃ z s a, stack (some true) kw = .ok z ∧ z.prod (some 0) = .ok (.larry s) ∧
      t.outer .multiply cv py3 (some one) none (kw.map Prod.snd) = .ok a ∧ s.Valid ∧ a.Valid ∧ s.Reordered a ∧
      ((∀ p ∈ kw, ∀ l ∈ p.2.label, l.Pairwise (· < ·)) → s.Same a) := by
  obtain ⟨z, keys, row, col, h1, h2, h3, h4, h5, -, h7, h8, h9, h10, h11⟩ := stacked true hk (fun p hp => totalled_num (ht p hp)) (by simp)
  have hn : z.ndim = 3 := by rw [← h2.label_length, h4]; rfl
  obtain ⟨s, e, s1, s2, s3, s4⟩ := C44_prod_axis h2 h3 (stacked_size hne ht h2 h4 h5 h9 h10) (axis := 0) (ax := 0) (by rw [hn]; rfl) (by omega)
  have hsl : s.label = [row, col] := by rw [s3, h4]; rfl
  obtain ⟨a, a1, a2, a3, a4⟩ := total_reordered (f := .multiply) (.inr rfl) py3 hne ht (h7.imp ne_of_lt) (h8.imp ne_of_lt) h9 h10 s1 s2 hsl
    (fun r hr c hc => by
      have hN : Named s.label [r, c] := by rw [hsl]; exact ⟨hr, hc, trivial⟩
      obtain ⟨v, g2⟩ : ∃ v, s.Has [r, c] v := Holds_of_Named (x := s.x) hN
      obtain ⟨-, vs, g1, rfl⟩ := (s4 _ _).mp g2
      obtain ⟨n1, n2⟩ := layer_numbers hk ht h5 (stacked_line h4 h11 g1)
      obtain ⟨i1, i2⟩ := prodSpec_noInf n1
      by_cases hf : finites (vs.map Val.num) = []
      · have : (kw.filterMap fun p => numberAt p.2 [r, c]) = [] := by rw [hf] at n2; exact n2.symm.eq_nil
        rw [this]
        rw [i1 hf] at g2
        exact g2
      · have : (kw.filterMap fun p => numberAt p.2 [r, c]) ≠ [] := fun h => hf (by rw [h] at n2; exact n2.eq_nil)
        rw [i2 hf] at g2
        simpa [FArith.cell, if_neg this, fltOf, FArith.total, n2.prod_eq] using g2)
    (cv := cv) (m := one) (by rw [h1v]; rfl) hp
  exact ⟨z, s, a, h1, e, a1, s1, a2, a3, fun hs => a4 hs h7 h8⟩

/-! ## insertaxis and merge -/

theorem allOuter_sorted {xs : List (List L)} {r : List L} (hne : xs ≠ []) (h : AllOuter xs r) (hs : ∀ x ∈ xs, x.Pairwise (· < ·)) :
    r.Pairwise (· < ·) := by
  by_cases hu : ∃ x ∈ xs, ∃ y ∈ xs, x ≠ y
  · exact h.2.1 hu
  · push Not at hu
    obtain ⟨x, hx⟩ := List.exists_mem_of_ne_nil _ hne
    rw [h.1 x fun y hy => hu y hy x hx]
    exact hs x hx

/-- C124. A stack is the larrys with an axis for the keyword inserted, `lar.insertaxis(0, key)`, and merged, in any order and with
any parentheses: the same value under all names, and the same larry if the labels are in ascending order. -/
theorem C124_merge {kw : List (L × Larry L)} (hk : (kw.map Prod.fst).Nodup) (hm : ∀ p ∈ kw, Mergeable .float 2 p.2)
    (hf : ∀ p ∈ kw, FiniteCells p.2) {pages : List (Larry L)}
    (hpg : List.Forall₂ (fun p q => p.2.insertaxis (some 0) p.1 = .ok q) kw pages) {t : Merges L} (ht : t.leaves.Perm pages) :
    ∃ z w, stack (some true) kw = .ok z ∧ t.run = .ok w ∧ z.Valid ∧ w.Valid ∧ z.Reordered w ∧
      ((∀ p ∈ kw, ∀ l ∈ p.2.label, l.Pairwise (· < ·)) → z.Same w) := by
  have hnum : ∀ p ∈ kw, p.2.Valid ∧ p.2.ndim = 2 ∧ p.2.dtype.IsNum := fun p hp => ⟨(hm p hp).valid, (hm p hp).ndim, .inr (.inr (hm p hp).dtype)⟩
  obtain ⟨z, keys, row, col, h1, h2, h3, h4, h5, h6, h7, h8, h9, h10, h11⟩ := stacked true hk hnum (by simp)
  -- one page
  have hone : ∀ p ∈ kw, ∀ q, p.2.insertaxis (some 0) p.1 = .ok q → q.Valid ∧ q.dtype = .float ∧ q.label = [p.1] :: p.2.label ∧
      ∀ names v, q.Has names v ↔ ∃ rest, names = p.1 :: rest ∧ p.2.Has rest v := by
    intro p hp q hq
    obtain ⟨q', e, i1, i2, i3, i4⟩ := C31_insertaxis (hm p hp).valid (axis := 0) (p := 0) p.1 (.inl ⟨le_refl _, by simp⟩)
    obtain rfl := Except.ok.inj (hq.symm.trans e)
    refine ⟨i1, i2.trans (hm p hp).dtype, i3, fun names v => ?_⟩
    have hlen := (hm p hp).valid.label_length
    constructor
    · intro h
      have hN := Named_of_Holds h
      rw [i3] at hN
      match names, hN with
      | k :: rest, hN =>
        have hk : k = p.1 := by simpa using hN.1
        subst hk
        exact ⟨rest, rfl, (i4 rest v (by rw [← hlen]; exact Named_length hN.2)).mp h⟩
    · rintro ⟨rest, rfl, h⟩
      exact (i4 rest v (by rw [← hlen]; exact Named_length (Named_of_Holds h))).mpr h
  have hpages : ∀ q ∈ pages, ∃ p ∈ kw, p.2.insertaxis (some 0) p.1 = .ok q := by
    clear ht h11 h9 h10 h5 h1 hone hnum hf hm hk
    induction hpg with
    | nil => simp
    | cons h _ ih =>
      intro q hq
      rcases List.mem_cons.mp hq with rfl | hq
      · exact ⟨_, by simp, h⟩
      · obtain ⟨p, hp, e⟩ := ih q hq; exact ⟨p, by simp [hp], e⟩
  have hpages' : ∀ p ∈ kw, ∃ q ∈ pages, p.2.insertaxis (some 0) p.1 = .ok q := by
    clear ht h11 h9 h10 h5 h1 hone hnum hf hm hk hpages
    induction hpg with
    | nil => simp
    | cons h _ ih =>
      intro q hq
      rcases List.mem_cons.mp hq with rfl | hq
      · exact ⟨_, by simp, h⟩
      · obtain ⟨p, hp, e⟩ := ih q hq; exact ⟨p, by simp [hp], e⟩
  have hgood : ∀ q ∈ t.leaves, Mergeable .float 3 q := by
    intro q hq
    obtain ⟨p, hp, e⟩ := hpages q (ht.mem_iff.mp hq)
    obtain ⟨i1, i2, i3, i4⟩ := hone p hp q e
    refine ⟨i1, (typed_iff i1).mpr fun names v h => ?_, i2, ?_⟩
    · obtain ⟨rest, -, h⟩ := (i4 names v).mp h
      have := (typed_iff (hm p hp).valid).mp (hm p hp).typed _ _ h
      rw [(hm p hp).dtype] at this
      rw [i2]; exact this
    · rw [← i1.label_length, i3, List.length_cons, (hm p hp).valid.label_length, (hm p hp).ndim]
  have hno : NoOverlap pages := by
    have hpw : kw.Pairwise fun p p' => p.1 ≠ p'.1 := List.pairwise_map.mp hk
    clear ht h11 h9 h10 h5 h1 hnum hf hpages hpages' hgood hk hm
    induction hpg with
    | nil => exact .nil
    | @cons p q kw pages h htl ih =>
      obtain ⟨g1, g2⟩ := List.pairwise_cons.mp hpw
      refine .cons (fun q' hq' names ⟨v, hv, _⟩ ⟨v', hv', _⟩ => ?_) (ih (fun p hp => hone p (by simp [hp])) g2)
      obtain ⟨i, hi, rfl⟩ := List.mem_iff_getElem.mp hq'
      have hi2 : i < kw.length := by rw [htl.length_eq]; exact hi
      have e := (List.forall₂_iff_get.mp htl).2 i hi2 hi
      obtain ⟨r1, rfl, -⟩ := ((hone p (by simp) q h).2.2.2 _ _).mp hv
      obtain ⟨r2, e2, -⟩ := ((hone _ (List.mem_cons_of_mem _ (List.getElem_mem hi2)) _ e).2.2.2 _ _).mp hv'
      exact g1 _ (List.getElem_mem hi2) (List.cons.inj e2).1
  have hno' : NoOverlap t.leaves := disjoint_perm hno ht.symm
  obtain ⟨w, e, wv, wd, wn, wl, wc, wm⟩ := C98_merge (.inl rfl) t hgood (clash_free_disjoint hno')
  have hfin : ∀ q ∈ t.leaves, FiniteCells q := by
    intro q hq names f h
    obtain ⟨p, hp, e⟩ := hpages q (ht.mem_iff.mp hq)
    obtain ⟨rest, -, h⟩ := ((hone p hp q e).2.2.2 _ _).mp h
    exact hf p hp rest f h
  obtain ⟨ks, a, b, hab⟩ : ∃ ks a b, w.label = [ks, a, b] := by
    have : w.label.length = 3 := by rw [wv.label_length, wn]
    match w.label, this with
    | [x, y, z], _ => exact ⟨x, y, z, rfl⟩
  have hlabs : ∀ (k : Nat) (ls : List (List L)) , (∀ x, x ∈ t.leaves.map (fun y => y.label.getD k []) ↔ x ∈ ls) → ∀ r s : List L, r.Nodup →
      s.Nodup → AllOuter (t.leaves.map fun y => y.label.getD k []) s → (∀ x, x ∈ r ↔ ∃ l ∈ ls, x ∈ l) → r.Perm s := by
    intro k ls hls r s hr hs ho hx
    refine (List.perm_ext_iff_of_nodup hr hs).mpr fun x => ?_
    rw [hx, ho.2.2]
    constructor <;> rintro ⟨l, hl, hxl⟩
    · exact ⟨l, (hls l).mpr hl, hxl⟩
    · exact ⟨l, (hls l).mp hl, hxl⟩
  have hmem0 : ∀ x, x ∈ t.leaves.map (fun y => y.label.getD 0 []) ↔ x ∈ kw.map fun p => [p.1] := by
    intro x
    simp only [List.mem_map]
    constructor
    · rintro ⟨q, hq, rfl⟩
      obtain ⟨p, hp, e⟩ := hpages q (ht.mem_iff.mp hq)
      exact ⟨p, hp, by rw [(hone p hp q e).2.2.1]; rfl⟩
    · rintro ⟨p, hp, rfl⟩
      obtain ⟨q, hq, e⟩ := hpages' p hp
      exact ⟨q, ht.mem_iff.mpr hq, by rw [(hone p hp q e).2.2.1]; rfl⟩
  have hmemS : ∀ (k : Nat) x, x ∈ t.leaves.map (fun y => y.label.getD (k + 1) []) ↔ x ∈ kw.map fun p => p.2.label.getD k [] := by
    intro k x
    simp only [List.mem_map]
    constructor
    · rintro ⟨q, hq, rfl⟩
      obtain ⟨p, hp, e⟩ := hpages q (ht.mem_iff.mp hq)
      exact ⟨p, hp, by rw [(hone p hp q e).2.2.1]; rfl⟩
    · rintro ⟨p, hp, rfl⟩
      obtain ⟨q, hq, e⟩ := hpages' p hp
      exact ⟨q, ht.mem_iff.mpr hq, by rw [(hone p hp q e).2.2.1]; rfl⟩
  have hmerged : ∀ (k : Nat) x, k < 2 → (Merged true (kw.map Prod.snd) k x ↔ ∃ l ∈ kw.map (fun p => p.2.label.getD k []), x ∈ l) := by
    intro k x hk2
    simp only [Merged, if_true, OnAxis, List.mem_map]
    constructor
    · rintro ⟨_, ⟨p, hp, rfl⟩, l, hl, hx⟩
      exact ⟨_, ⟨p, hp, rfl⟩, by rw [List.getD_eq_getElem?_getD, hl]; exact hx⟩
    · rintro ⟨_, ⟨p, hp, rfl⟩, hx⟩
      have hlen : k < p.2.label.length := by rw [(hm p hp).valid.label_length, (hm p hp).ndim]; exact hk2
      exact ⟨_, ⟨p, hp, rfl⟩, _, by rw [List.getD_eq_getElem?_getD, List.getElem?_eq_getElem hlen]; rfl, hx⟩
  have o0 := wl 0 ks (by rw [hab]; rfl)
  have o1 := wl 1 a (by rw [hab]; rfl)
  have o2 := wl 2 b (by rw [hab]; rfl)
  have p0 : keys.Perm ks := hlabs 0 _ hmem0 keys ks (h6.imp ne_of_lt) (wv.nodup ks (by rw [hab]; simp)) o0 fun x => by
    rw [h5.mem_iff]; simp [eq_comm]
  have p1 : row.Perm a := hlabs 1 _ (hmemS 0) row a (h7.imp ne_of_lt) (wv.nodup a (by rw [hab]; simp)) o1 fun x => by
    rw [h9, hmerged 0 x (by omega)]
  have p2 : col.Perm b := hlabs 2 _ (hmemS 1) col b (h8.imp ne_of_lt) (wv.nodup b (by rw [hab]; simp)) o2 fun x => by
    rw [h10, hmerged 1 x (by omega)]
  have hNw : ∀ names, Named z.label names ↔ Named w.label names := by
    intro names
    rw [h4, hab]
    match names with
    | [] | [_] | [_, _] | _ :: _ :: _ :: _ :: _ => simp [Named]
    | [k, r, c] => simp only [Named, p0.mem_iff, p1.mem_iff, p2.mem_iff]
  have hnew : ∀ names v, Newest .float t.leaves names v ↔ ∃ p ∈ kw, ∃ rest, names = p.1 :: rest ∧ p.2.Has rest v ∧ Present .float v := by
    intro names v
    rw [newest_disjoint (fun y hy => (hgood y hy).dtype) hno']
    constructor
    · rintro ⟨q, hq, hh, hpv⟩
      obtain ⟨p, hp, e⟩ := hpages q (ht.mem_iff.mp hq)
      obtain ⟨rest, e1, h⟩ := ((hone p hp q e).2.2.2 _ _).mp hh
      exact ⟨p, hp, rest, e1, h, hpv⟩
    · rintro ⟨p, hp, rest, e1, h, hpv⟩
      obtain ⟨q, hq, e⟩ := hpages' p hp
      exact ⟨q, ht.mem_iff.mpr hq, ((hone p hp q e).2.2.2 _ _).mpr ⟨rest, e1, h⟩, hpv⟩
  have habs : ∀ names, (¬ ∃ v, Newest .float t.leaves names v) → ∀ v, w.Has names v → v = .flt .nan := by
    intro names hn v hv
    have := wm (fun _ => hfin) names v hv (fun q hq hpr => hn ((newest_exists (fun y hy => (hgood y hy).dtype) names).mpr ⟨q, hq, hpr⟩))
    simpa [missingMarker] using this.symm
  have hhas : ∀ names v, z.Has names v → w.Has names v := by
    intro names v h
    have hN := Named_of_Holds h
    obtain ⟨u, hu⟩ := Holds_of_Named (x := w.x) ((hNw names).mp hN)
    rw [h4] at hN
    match names, hN, h, hu with
    | [k, r, c], hN, h, hu =>
      obtain ⟨hr, hc, lar, hmem, hd⟩ := (h11 k r c v).mp h
      by_cases hn : ∃ v, Newest .float t.leaves [k, r, c] v
      · obtain ⟨v', hv'⟩ := hn
        obtain ⟨p, hp, rest, e1, hh, hpv⟩ := (hnew _ _).mp hv'
        obtain ⟨rfl, rfl⟩ := List.cons.inj e1
        rw [key_unique hk hmem hp] at hd
        rcases hd with ⟨t', ht', rfl⟩ | ⟨hnn, -⟩
        · rw [Holds_unique (hm p hp).valid.nodup ht' hh]
          have hty := (typed_iff (hm p hp).valid).mp (hm p hp).typed _ _ hh
          rw [(hm p hp).dtype] at hty
          have : v'.toFloat = v' := by cases v' <;> simp [Val.hasDType] at hty; rfl
          rw [this]
          exact ((wc _ _).mpr hv').1
        · exact absurd (Named_of_Holds hh) hnn
      · have hunan := habs _ hn u hu
        subst hunan
        rcases hd with ⟨t', ht', rfl⟩ | ⟨-, rfl⟩
        · have hM := hm _ hmem
          have hty := (typed_iff hM.valid).mp hM.typed _ _ ht'
          rw [hM.dtype] at hty
          have hnp : ¬ Present .float t' := fun hpv => hn ⟨t', (hnew _ _).mpr ⟨_, hmem, _, rfl, ht', hpv⟩⟩
          have := marker_of_absent (.inl rfl) hty hnp (fun _ f e => hf _ hmem _ f (e ▸ ht'))
          have : t' = .flt .nan := by simpa [missingMarker] using this.symm
          subst this
          exact hu
        · exact hu
  have hhas' : ∀ names v, w.Has names v → z.Has names v := by
    intro names v h
    obtain ⟨u, hu⟩ := Holds_of_Named (x := z.x) ((hNw names).mpr (Named_of_Holds h))
    rw [Holds_unique wv.nodup h (hhas _ _ hu)]
    exact hu
  refine ⟨z, w, h1, e, h2, wv, ⟨h3.trans wd.symm, by rw [h4, hab]; exact .cons p0 (.cons p1 (.cons p2 .nil)),
    fun names v => ⟨hhas names v, hhas' names v⟩⟩, fun hs => h2.same_of_has wv ?_ (h3.trans wd.symm) hhas⟩
  have hne : t.leaves ≠ [] := leaves_ne t
  have hsort : ∀ (k : Nat), k < 2 → ∀ x ∈ t.leaves.map (fun y => y.label.getD (k + 1) []), x.Pairwise (· < ·) := by
    intro k hk2 x hx
    obtain ⟨p, hp, rfl⟩ := List.mem_map.mp ((hmemS k x).mp hx)
    have hlen : k < p.2.label.length := by rw [(hm p hp).valid.label_length, (hm p hp).ndim]; exact hk2
    refine hs p hp _ ?_
    rw [List.getD_eq_getElem?_getD, List.getElem?_eq_getElem hlen]
    exact List.getElem_mem hlen
  have uniq : ∀ {r s : List L}, r.Perm s → r.Pairwise (· < ·) → s.Pairwise (· < ·) → r = s := fun hp h h' =>
    hp.eq_of_pairwise (fun _ _ _ _ h h' => absurd h (lt_asymm h')) h h'
  rw [h4, hab, uniq p0 h6 (allOuter_sorted (by simpa using hne) o0 fun x hx => by
      obtain ⟨p, -, rfl⟩ := List.mem_map.mp ((hmem0 x).mp hx); simp),
    uniq p1 h7 (allOuter_sorted (by simpa using hne) o1 (hsort 0 (by omega))),
    uniq p2 h8 (allOuter_sorted (by simpa using hne) o2 (hsort 1 (by omega)))]

/-! ## panel -/

/-- C124. `panel(stack(...))` is a table with a column for each keyword and a row for each pair of names, the row (r, c) holding what
the larrys have under r and c. -/
theorem C124_panel (m : Bool) {kw : List (L × Larry L)} (hk : (kw.map Prod.fst).Nodup) (hne : kw ≠ [])
    (hv : ∀ p ∈ kw, p.2.Valid ∧ p.2.ndim = 2 ∧ p.2.dtype.IsNum) :
    ∃ z keys row col, stack (some m) kw = .ok z ∧ z.label = [keys, row, col] ∧
      ∃ (w : Larry (L ⊕ List L)) (ts : List (List L)), panel z = .ok w ∧ w.Valid ∧ w.dtype = .float ∧
        w.label = [ts.map Sum.inr, keys.map Sum.inl] ∧ (∀ t, t ∈ ts ↔ ∃ r c, t = [r, c] ∧ r ∈ row ∧ c ∈ col) ∧
        ∀ key r c v, w.Has [Sum.inr [r, c], Sum.inl key] v ↔ r ∈ row ∧ c ∈ col ∧ Layer kw [r, c] key v := by
  obtain ⟨z, keys, row, col, h1, h2, h3, h4, h5, -, -, -, -, -, h11⟩ := stacked m hk hv (fun _ => hne)
  have hkne : keys ≠ [] := fun h => hne (by rw [h] at h5; simpa using h5.symm.eq_nil)
  obtain ⟨w, ts, w1, w2, w3, w4, w5, w6⟩ := C30_panel h2 h4 hkne
  exact ⟨z, keys, row, col, h1, h4, w, ts, w1, w3, w2.trans h3, w4, w5, fun key r c v => by rw [w6, h11]⟩

/-! ## Witnesses and examples -/

/-- A row of two float cells under the names `(1, a)` and `(1, b)`. -/
def exRow (f g : Flt) (a b : Nat) : Larry Nat :=
  ⟨⟨[1, 2], fun i => .flt (if i.getD 1 0 = 0 then f else g)⟩, .float, [[1], [a, b]]⟩

theorem exRow_totalled {f g : Flt} {a b : Nat} (hab : a ≠ b) (hf : f ≠ .pinf ∧ f ≠ .ninf) (hg : g ≠ .pinf ∧ g ≠ .ninf) :
    Totalled 2 (exRow f g a b) := by
  have hv : (exRow f g a b).Valid := ⟨rfl, by simp [exRow, hab], by simp [exRow]⟩
  have hcell : ∀ names v, (exRow f g a b).Has names v → v = .flt f ∨ v = .flt g := by
    rintro names v ⟨idx, -, rfl⟩
    by_cases h : idx.getD 1 0 = 0 <;> simp [exRow]
    · by_cases h' : idx[1]?.getD 0 = 0 <;> simp [h']
    · by_cases h' : idx[1]?.getD 0 = 0 <;> simp [h']
  refine ⟨hv, (typed_iff hv).mpr fun names v h => ?_, rfl, rfl, by simp [exRow], fun names => ⟨fun h => ?_, fun h => ?_⟩⟩
  · rcases hcell names v h with rfl | rfl <;> rfl
  · rcases hcell names _ ((get_ok_iff hv).mp h) with h | h
    · exact hf.1 (Val.flt.inj h).symm
    · exact hg.1 (Val.flt.inj h).symm
  · rcases hcell names _ ((get_ok_iff hv).mp h) with h | h
    · exact hf.2 (Val.flt.inj h).symm
    · exact hg.2 (Val.flt.inj h).symm

/-- Two larrys with one column in common, the second keyword first. -/
def exStackTwo : List (Nat × Larry Nat) := [(8, exRow (.fin 1) .nan 5 6), (7, exRow (.fin 4) (.fin 2) 6 9)]

example : (exStackTwo.map Prod.fst).Nodup ∧ exStackTwo ≠ [] ∧ (∀ p ∈ exStackTwo, Totalled 2 p.2) ∧
    (Expr.op (.var 1) (.var 0)).vars.Perm (List.range exStackTwo.length) ∧ ∀ p ∈ exStackTwo, ∀ l ∈ p.2.label, l.Pairwise (· < ·) := by
  refine ⟨by decide, by simp [exStackTwo], fun p hp => ?_, by decide, by decide⟩
  rcases List.mem_cons.mp hp with rfl | hp
  · exact exRow_totalled (by decide) (by simp) (by simp)
  · rcases List.mem_cons.mp hp with rfl | hp
    · exact exRow_totalled (by decide) (by simp) (by simp)
    · simp at hp

example : (stack (some true) exStackTwo).map (fun z => (z.label, z.x.vals)) =
    .ok ([[7, 8], [1], [5, 6, 9]], [.flt .nan, fl 4, fl 2, fl 1, .flt .nan, .flt .nan]) := by decide +kernel

theorem totalled_mergeable {n : Nat} {y : Larry L} (h : Totalled n y) : Mergeable .float n y ∧ FiniteCells y :=
  ⟨⟨h.valid, h.typed, h.float, h.ndim⟩, fun names _ hf =>
    ⟨fun e => (h.finite names).1 ((get_ok_iff h.valid).mpr (e ▸ hf)), fun e => (h.finite names).2 ((get_ok_iff h.valid).mpr (e ▸ hf))⟩⟩

example : ∃ pages, List.Forall₂ (fun p q => p.2.insertaxis (some 0) p.1 = .ok q) exStackTwo pages ∧
    ∃ t : Merges Nat, t.leaves.Perm pages ∧ pages.length = 2 :=
  ⟨[_, _], .cons rfl (.cons rfl .nil), .call (.larry _) (.larry _) false, .refl _, rfl⟩

/-- C124. `stack` sorts the labels even if all larrys have the same, `la.add` and `merge` keep such labels as they are: so the order
of the labels can differ. -/
theorem C124_unsorted : ∃ z a, stack (some true) [(7, exRow (.fin 1) (.fin 2) 6 5), (8, exRow (.fin 3) (.fin 4) 6 5)] = .ok z ∧
    FArith.add.call (fun _ _ => fl 0) false (exRow (.fin 1) (.fin 2) 6 5) (exRow (.fin 3) (.fin 4) 6 5) (.one .outer) true (some (fl 0)) none = .ok a ∧
    z.label = [[7, 8], [1], [5, 6]] ∧ a.label = [[1], [6, 5]] := by
  refine ⟨_, _, rfl, rfl, ?_, ?_⟩ <;> decide +kernel

/-- C124. `stack` keeps infinite numbers, `merge` takes those of its argument for missing. -/
theorem C124_infinity : ∃ z p q w, stack (some true) [(7, exRow (.fin 1) (.fin 2) 5 6), (8, exRow .pinf (.fin 4) 5 6)] = .ok z ∧
    (exRow (.fin 1) (.fin 2) 5 6).insertaxis (some 0) 7 = .ok p ∧ (exRow .pinf (.fin 4) 5 6).insertaxis (some 0) 8 = .ok q ∧
    merge p q false = .ok w ∧ z.get [8, 1, 5] = .ok (.flt .pinf) ∧ w.get [8, 1, 5] = .ok (.flt .nan) := by
  refine ⟨_, _, _, _, rfl, rfl, rfl, rfl, ?_, ?_⟩ <;> decide +kernel

end La
