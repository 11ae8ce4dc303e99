import Verif.Yahoo
import Verif.Props.Axes
import Verif.Props.Index
import Verif.Props.Merge

/-!
# Property C81: the quotes downloaded from Yahoo

`quotes` of la/data/yahoo.py.  What the server sends for each ticker is arbitrary; the theorems say which
larry is made of it.
-/

namespace La
namespace Yahoo
open Larry
open Csv (Text)
variable {L : Type _}

/-! ## Specification -/

/-- One day of one ticker. -/
structure Quote (L : Type _) where
  date : L
  opn : ℚ
  high : ℚ
  low : ℚ
  close : ℚ
  volume : Int
  adj : ℚ

/-- The line is `Date,Open,High,Low,Close,Volume,Adj Close` of that day. -/
def LineOf (C : Conv L) (line : Text) (q : Quote L) : Prop :=
  ∃ d o h l c v a : Text, (∀ f ∈ [d, o, h, l, c, v, a], ',' ∉ f) ∧
    line = d ++ ',' :: (o ++ ',' :: (h ++ ',' :: (l ++ ',' :: (c ++ ',' :: (v ++ ',' :: a))))) ∧
    C.date d = .ok q.date ∧ C.float o = .ok (.fin q.opn) ∧ C.float h = .ok (.fin q.high) ∧
    C.float l = .ok (.fin q.low) ∧ C.float c = .ok (.fin q.close) ∧ C.int v = .ok q.volume ∧
    C.float a = .ok (.fin q.adj)

/-- The lines carry these days, in this order; lines that have not seven fields are passed over. -/
inductive Carry (C : Conv L) : List Text → List (Quote L) → Prop
  | nil : Carry C [] []
  | skip {line ls qs} : line.count ',' ≠ 6 → Carry C ls qs → Carry C (line :: ls) qs
  | day {line ls q qs} : LineOf C line q → Carry C ls qs → Carry C (line :: ls) (q :: qs)

/-- The server sends a heading and then these days. -/
def Sends (C : Conv L) (sent : List Text) (qs : List (Quote L)) : Prop :=
  ∃ heading ls, sent = heading :: ls ∧ Carry C ls qs

/-- The server sends some days for a ticker, none of them twice. -/
structure Good (C : Conv L) (sent : List Text) (qs : List (Quote L)) : Prop where
  sends : Sends C sent qs
  some : qs ≠ []
  once : (qs.map Quote.date).Nodup

/-- The number in row `k` of the items open, close, high, low, volume, adjclose. -/
def Quote.item (q : Quote L) (k : Nat) : ℚ := [q.opn, q.close, q.high, q.low, (q.volume : ℚ), q.adj].getD k 0

/-- The adjusted number in row `k` of the items open, close, high, low, volume. -/
def Quote.adjItem (q : Quote L) (k : Nat) : ℚ :=
  [q.opn * (q.adj / q.close), q.adj, q.high * (q.adj / q.close), q.low * (q.adj / q.close), (q.volume : ℚ)].getD k 0

/-- `v` is `num` of the day `d`, NaN if there is no such day. -/
def DayValue (qs : List (Quote L)) (num : Quote L → ℚ) (d : L) (v : Val) : Prop :=
  (∀ q ∈ qs, q.date = d → v = .flt (.fin (num q))) ∧ ((∀ q ∈ qs, q.date ≠ d) → v = .flt .nan)

/-- `z` has the tickers, the items and the dates in order, and under each name the number `num k`. -/
def Table [LinearOrder L] (z : Larry L) (tickers items : List L) (days : L → List (Quote L))
    (num : Nat → Quote L → ℚ) : Prop :=
  z.Valid ∧ z.dtype = .float ∧ ∃ T D, z.label = [T, items, D] ∧
    T.Pairwise (· < ·) ∧ (∀ t, t ∈ T ↔ t ∈ tickers) ∧
    D.Pairwise (· < ·) ∧ (∀ d, d ∈ D ↔ ∃ t ∈ tickers, ∃ q ∈ days t, q.date = d) ∧
    ∀ t ∈ T, ∀ d ∈ D, ∀ k a, items[k]? = some a → ∃ v, z.Has [t, a, d] v ∧ DayValue (days t) (num k) d v

/-! ## Lines -/

theorem split_none {c : Char} {f : Text} (h : c ∉ f) : split c f = [f] := by
  induction f with
  | nil => rfl
  | cons a as ih =>
    rw [List.mem_cons, not_or] at h
    simp only [split, ih h.2]
    rw [if_neg (fun e => h.1 e.symm)]

theorem split_sep {c : Char} {f : Text} (h : c ∉ f) (rest : Text) :
    split c (f ++ c :: rest) = f :: split c rest := by
  induction f with
  | nil => simp [split]
  | cons a as ih =>
    rw [List.mem_cons, not_or] at h
    rw [List.cons_append]
    simp only [split, ih h.2]
    rw [if_neg (fun e => h.1 e.symm)]

theorem split_length (c : Char) (s : Text) : (split c s).length = s.count c + 1 := by
  induction s with
  | nil => rfl
  | cons a as ih =>
    simp only [split]
    by_cases h : a = c
    · subst h; rw [if_pos rfl, List.length_cons, ih, List.count_cons_self]
    · rw [if_neg h, List.count_cons_of_ne h]
      cases hs : split c as with
      | nil => rw [hs] at ih; simp at ih
      | cons w ws => rw [hs] at ih; simpa using ih

/-- The row of a day. -/
def rowOf (q : Quote L) : L × List Val :=
  (q.date, [.flt (.fin q.opn), .flt (.fin q.close), .flt (.fin q.high), .flt (.fin q.low), .int q.volume,
    .flt (.fin q.adj)])

theorem parseLine_skip {C : Conv L} {line : Text} (h : line.count ',' ≠ 6) : parseLine C line = .ok none := by
  have hl := split_length ',' line
  unfold parseLine
  split
  · rename_i e; rw [e] at hl; simp at hl; omega
  · rfl

theorem parseLine_day {C : Conv L} {line : Text} {q : Quote L} (h : LineOf C line q) :
    parseLine C line = .ok (some (rowOf q)) := by
  obtain ⟨d, o, hi, l, c, v, a, hf, rfl, h1, h2, h3, h4, h5, h6, h7⟩ := h
  simp only [List.mem_cons, List.not_mem_nil, or_false, forall_eq_or_imp, forall_eq] at hf
  obtain ⟨f1, f2, f3, f4, f5, f6, f7⟩ := hf
  unfold parseLine
  rw [split_sep f1, split_sep f2, split_sep f3, split_sep f4, split_sep f5, split_sep f6, split_none f7]
  simp only [h1, h2, h3, h4, h5, h6, h7]
  rfl

theorem carry_rows {C : Conv L} {ls : List Text} {qs : List (Quote L)} (h : Carry C ls qs) :
    ∃ rs, mapRes (parseLine C) ls = .ok rs ∧ rs.filterMap id = qs.map rowOf := by
  induction h with
  | nil => exact ⟨[], rfl, rfl⟩
  | skip h _ ih =>
    obtain ⟨rs, h1, h2⟩ := ih
    exact ⟨none :: rs, by simp [mapRes, parseLine_skip h, h1], by simpa using h2⟩
  | @day line ls q qs h _ ih =>
    obtain ⟨rs, h1, h2⟩ := ih
    exact ⟨some (rowOf q) :: rs, by simp [mapRes, parseLine_day h, h1], by simpa using h2⟩

theorem parse_sends {C : Conv L} {sent : List Text} {qs : List (Quote L)} (h : Sends C sent qs) :
    parse C sent = .ok (qs.map rowOf) := by
  obtain ⟨hd, ls, rfl, h⟩ := h
  obtain ⟨rs, h1, h2⟩ := carry_rows h
  simp only [parse, List.drop_succ_cons, List.drop_zero, h1, h2]

/-! ## One ticker -/

theorem dataT_get {qs : List (Quote L)} {k j : Nat} {q : Quote L} (hq : qs[j]? = some q) (hk : k < 6) :
    (dataT (qs.map rowOf)).get [k, j] = .flt (.fin (q.item k)) := by
  have : ((qs.map rowOf).map Prod.snd).getD j [] = (rowOf q).2 := by
    simp [List.getD_eq_getElem?_getD, hq]
  simp only [dataT, List.getD_cons_zero, List.getD_cons_succ, this]
  obtain rfl | rfl | rfl | rfl | rfl | rfl : k = 0 ∨ k = 1 ∨ k = 2 ∨ k = 3 ∨ k = 4 ∨ k = 5 := by omega
  all_goals simp [rowOf, Quote.item, Val.toFloat]

variable [LinearOrder L]

theorem load_ok {C : Conv L} {items : List L} {fetch : L → List Text} {t : L} {qs : List (Quote L)}
    (hi : items.length = 6) (hin : items.Nodup) (hs : Sends C (fetch t) qs) (hne : qs ≠ [])
    (hd : (qs.map Quote.date).Nodup) :
    ∃ y, load C items fetch t = .ok y ∧ y.Valid ∧ y.dtype = .float ∧ y.label = [[t], items, qs.map Quote.date] ∧
      ∀ k a q, items[k]? = some a → q ∈ qs → y.Has [t, a, q.date] (.flt (.fin (q.item k))) := by
  have hm : (qs.map rowOf).map Prod.fst = qs.map Quote.date := by simp [rowOf, Function.comp_def]
  have hvl : ValidLabels [items, qs.map Quote.date] (dataT (qs.map rowOf)).shape :=
    ⟨by simp [dataT, hi], by simp [hin, hd], by simp⟩
  have hmk := (C06_constructor (dataT (qs.map rowOf)) .float [items, qs.map Quote.date]).1 hvl
  have hv : (⟨dataT (qs.map rowOf), .float, [items, qs.map Quote.date]⟩ : Larry L).Valid := hvl
  obtain ⟨y, h1, h2, h3, h4, h5⟩ := C31_insertaxis hv (axis := 0) (p := 0) t (.inl ⟨by omega, by simp⟩)
  refine ⟨y, ?_, h2, h3, by simpa using h4, ?_⟩
  · unfold load
    simp only [parse_sends hs, List.length_map, hm, hmk]
    rw [if_neg (by simpa using hne), h1]
  · intro k a q hk hq
    obtain ⟨j, hj⟩ := List.mem_iff_getElem?.mp hq
    have hk6 : k < 6 := hi ▸ (List.getElem?_eq_some_iff.mp hk).1
    have := (h5 [a, q.date] (.flt (.fin (q.item k))) rfl).mpr
      ⟨[k, j], by simp [At, hk, hj], dataT_get hj hk6⟩
    simpa using this

/-! ## The loop -/

/-- What holds after some tickers. -/
structure Loaded (items : List L) (days : L → List (Quote L)) (done : List L) (y : Larry L) : Prop where
  valid : y.Valid
  dtype : y.dtype = .float
  rest : ∃ T D, y.label = [T, items, D] ∧ T.Pairwise (· < ·) ∧ (∀ t, t ∈ T ↔ t ∈ done) ∧
    (∀ d, d ∈ D ↔ ∃ t ∈ done, ∃ q ∈ days t, q.date = d) ∧
    ∀ t ∈ T, ∀ d ∈ D, ∀ k a, items[k]? = some a →
      ∃ v, y.Has [t, a, d] v ∧ DayValue (days t) (fun q => q.item k) d v

omit [LinearOrder L] in
theorem DayValue.isFlt {qs : List (Quote L)} {num : Quote L → ℚ} {d : L} {v : Val} (h : DayValue qs num d v) :
    ∃ f, v = .flt f := by
  by_cases hq : ∃ q ∈ qs, q.date = d
  · obtain ⟨q, hq, hd⟩ := hq; exact ⟨_, h.1 q hq hd⟩
  · push Not at hq; exact ⟨_, h.2 hq⟩

omit [LinearOrder L] in
theorem named3 {A B D : List L} {names : List L} : Named [A, B, D] names ↔
    ∃ a b d, names = [a, b, d] ∧ a ∈ A ∧ b ∈ B ∧ d ∈ D := by
  constructor
  · intro h
    match names, h with
    | [a, b, d], ⟨h1, h2, h3, _⟩ => exact ⟨a, b, d, rfl, h1, h2, h3⟩
  · rintro ⟨a, b, d, rfl, h1, h2, h3⟩
    exact ⟨h1, h2, h3, trivial⟩

theorem Loaded.typed {items : List L} {days : L → List (Quote L)} {done : List L} {y : Larry L}
    (h : Loaded items days done y) : y.Typed := by
  obtain ⟨T, D, hl, _, _, _, hc⟩ := h.rest
  rw [typed_iff h.valid, h.dtype]
  intro names v hv
  have hn := Named_of_Holds hv
  rw [hl] at hn
  obtain ⟨t, a, d, rfl, h1, h2, h3⟩ := named3.mp hn
  obtain ⟨k, hk⟩ := List.mem_iff_getElem?.mp h2
  obtain ⟨w, hw, hd⟩ := hc t h1 d h3 k a hk
  obtain ⟨f, rfl⟩ := hd.isFlt
  rw [Holds_unique h.valid.nodup hv hw]
  rfl

omit [LinearOrder L] in
theorem date_inj {qs : List (Quote L)} (h : (qs.map Quote.date).Nodup) {q q' : Quote L} (hq : q ∈ qs)
    (hq' : q' ∈ qs) (e : q.date = q'.date) : q = q' := List.inj_on_of_nodup_map h hq hq' e

theorem load_loaded {C : Conv L} {items : List L} {fetch : L → List Text} {days : L → List (Quote L)} {t : L}
    (hi : items.length = 6) (hin : items.Nodup) (hg : Good C (fetch t) (days t)) :
    ∃ y, load C items fetch t = .ok y ∧ Loaded items days [t] y ∧
      y.label = [[t], items, (days t).map Quote.date] ∧
      ∀ k a q, items[k]? = some a → q ∈ days t → y.Has [t, a, q.date] (.flt (.fin (q.item k))) := by
  obtain ⟨y, h1, h2, h3, h4, h5⟩ := load_ok hi hin hg.sends hg.some hg.once
  refine ⟨y, h1, ⟨h2, h3, [t], _, h4, by simp, by simp, by simp, ?_⟩, h4, h5⟩
  intro t' ht' d hd k a hk
  obtain rfl : t' = t := by simpa using ht'
  obtain ⟨q, hq, rfl⟩ := List.mem_map.mp hd
  refine ⟨_, h5 k a q hk hq, fun q' hq' e => by rw [date_inj hg.once hq' hq e], fun h => absurd rfl (h q hq)⟩

theorem merge_loaded {items : List L} {days : L → List (Quote L)} {t : L}
    {done : List L} {y q : Larry L} (hy : Loaded items days done y) (ht : t ∉ done)
    (hq : Loaded items days [t] q) (hql : q.label = [[t], items, (days t).map Quote.date])
    (hqh : ∀ k a d, items[k]? = some a → d ∈ days t → q.Has [t, a, d.date] (.flt (.fin (d.item k)))) :
    ∃ z, merge y q false = .ok z ∧ Loaded items days (done ++ [t]) z := by
  obtain ⟨T, D, hl, hT, hTm, hDm, hc⟩ := hy.rest
  have e1 : ∀ {a b : Larry L}, a.dtype = .float → extDType a b = .float := by
    intro a b h
    unfold extDType; rw [h]; exact floatIf_of_marker (m := .flt .nan) rfl
  have hov : ∀ names, y.label.length = 3 → Named y.label names → ¬ Named q.label names := by
    intro names _ h h'
    rw [hl] at h; rw [hql] at h'
    obtain ⟨a, b, d, rfl, g1, _⟩ := named3.mp h
    obtain ⟨a', b', d', e, g2, _⟩ := named3.mp h'
    obtain ⟨rfl, rfl, rfl⟩ : a = a' ∧ b = b' ∧ d = d' := by simpa using e
    exact ht (by rw [← hTm, ← List.mem_singleton.mp g2]; exact g1)
  have h3 : y.label.length = 3 := by rw [hl]; rfl
  obtain ⟨z, m1, m2, m3, m4, m5⟩ := C20_merge (update := false) hy.valid hq.valid hy.typed hq.typed
    (by rw [← hy.valid.label_length, ← hq.valid.label_length, hl, hql]; rfl)
    (.inl (hy.dtype.trans hq.dtype.symm))
    (.inr (by
      rintro ⟨names, ⟨w, hw, _⟩, ⟨w', hw', _⟩⟩
      exact hov names h3 (Named_of_Holds hw) (Named_of_Holds hw')))
    (.inl (.inl (by rw [e1 hy.dtype, e1 hq.dtype])))
  rw [e1 hy.dtype] at m3
  rw [hl, hql] at m4
  obtain ⟨T', D', hzl, hT', hD'⟩ : ∃ T' D', z.label = [T', items, D'] ∧ OuterJoined T [t] T' ∧
      OuterJoined D ((days t).map Quote.date) D' := by
    cases hz : z.label with
    | nil => rw [hz] at m4; cases m4
    | cons A As =>
      rw [hz] at m4
      cases m4 with
      | cons j1 m4 => cases m4 with
        | cons j2 m4 => cases m4 with
          | cons j3 m4 =>
            cases m4
            rw [j2.1 rfl]
            exact ⟨_, _, rfl, j1, j3⟩
  have hTne : T ≠ [t] := by
    rintro rfl
    exact ht ((hTm t).mp (by simp))
  refine ⟨z, m1, m2, m3, T', D', hzl, (hT'.2 hTne).1, ?_, ?_, ?_⟩
  · intro a
    rw [(hT'.2 hTne).2 a, hTm]; simp
  · intro d
    rw [hD'.mem, hDm]
    simp only [List.mem_append, List.mem_singleton, List.mem_map]
    constructor
    · rintro (⟨t', h, h'⟩ | h)
      · exact ⟨t', .inl h, h'⟩
      · exact ⟨t, .inr rfl, h⟩
    · rintro ⟨t', h | rfl, h'⟩
      · exact .inl ⟨t', h, h'⟩
      · exact .inr h'
  · intro t' ht' d hd k a hk
    have hnm : Named z.label [t', a, d] := by
      rw [hzl]; exact named3.mpr ⟨_, _, _, rfl, ht', List.mem_of_getElem? hk, hd⟩
    obtain ⟨n1, n2, n3⟩ := m5 _ hnm
    have fin : ∀ v, z.get [t', a, d] = .ok v → z.Has [t', a, d] v := fun v h => (get_ok_iff m2).mp h
    by_cases htt : t' = t
    · subst t'
      by_cases hq' : ∃ r ∈ days t, r.date = d
      · obtain ⟨r, hr, rfl⟩ := hq'
        have hv := hqh k a r hk hr
        have := n1 _ hv (by rw [hq.dtype]; exact ⟨by simp, by simp, by rintro _ _ ⟨⟩; simp⟩)
        rw [m3] at this
        refine ⟨_, fin _ this, fun r' hr' e => ?_, fun h => absurd rfl (h r hr)⟩
        have hnd : ((days t).map Quote.date).Nodup := hq.valid.nodup _ (by rw [hql]; simp)
        rw [date_inj hnd hr' hr e]
        rfl
      · have hno : ¬ HasPresent q [t, a, d] := by
          rintro ⟨w, hw, _⟩
          have hn := Named_of_Holds hw
          rw [hql] at hn
          obtain ⟨_, _, d', e, _, _, h⟩ := named3.mp hn
          obtain ⟨rfl, rfl, rfl⟩ : _ ∧ _ ∧ d = d' := by simpa using e
          exact hq' (by simpa using h)
        obtain ⟨m, g1, g2⟩ := n3 hno (by
          rw [hl]; intro h
          obtain ⟨_, _, _, e, h, _⟩ := named3.mp h
          obtain ⟨rfl, _⟩ := List.cons.inj e
          exact ht ((hTm t).mp h))
        rw [m3] at g2
        obtain rfl : Val.flt .nan = m := by simpa [missingMarker] using g2
        push Not at hq'
        exact ⟨_, fin _ g1, fun r hr e => absurd e (hq' r hr), fun _ => rfl⟩
    · have htT : t' ∈ T := by
        have := ((hT'.2 hTne).2 t').mp ht'
        simpa [htt] using this
      have hno : ¬ HasPresent q [t', a, d] := by
        rintro ⟨w, hw, _⟩
        have hn := Named_of_Holds hw
        rw [hql] at hn
        obtain ⟨_, _, d', e, h, _⟩ := named3.mp hn
        obtain ⟨rfl, _⟩ := List.cons.inj e
        exact htt (List.mem_singleton.mp h)
      by_cases hdD : d ∈ D
      · obtain ⟨v, hv, hdv⟩ := hc t' htT d hdD k a hk
        have := n2 hno v hv
        rw [m3] at this
        refine ⟨_, fin _ this, ?_⟩
        obtain ⟨f, rfl⟩ := hdv.isFlt
        exact hdv
      · obtain ⟨m, g1, g2⟩ := n3 hno (by
          rw [hl]; intro h
          obtain ⟨_, _, d', e, _, _, h⟩ := named3.mp h
          obtain ⟨rfl, rfl, rfl⟩ : _ ∧ _ ∧ d = d' := by simpa using e
          exact hdD h)
        rw [m3] at g2
        obtain rfl : Val.flt .nan = m := by simpa [missingMarker] using g2
        refine ⟨_, fin _ g1, fun r hr e => absurd ((hDm d).mpr ⟨t', (hTm t').mp htT, r, hr, e⟩) hdD, fun _ => rfl⟩

theorem loadAll_some {C : Conv L} {items : List L} {fetch : L → List Text} {days : L → List (Quote L)}
    (hi : items.length = 6) (hin : items.Nodup) (ts : List L) :
    ∀ (done : List L) (y : Larry L), Loaded items days done y → (done ++ ts).Nodup →
      (∀ t ∈ ts, Good C (fetch t) (days t)) →
      ∃ z, loadAll C items fetch ts (some y) = .ok (some z) ∧ Loaded items days (done ++ ts) z := by
  induction ts with
  | nil => intro done y hy _ _; exact ⟨y, rfl, by simpa using hy⟩
  | cons t ts ih =>
    intro done y hy hnd hg
    obtain ⟨q, q1, q2, q3, q4⟩ := load_loaded hi hin (hg t (by simp))
    have ht : t ∉ done := by
      intro h
      exact (List.nodup_append.mp hnd).2.2 t h t (by simp) rfl
    obtain ⟨z, z1, z2⟩ := merge_loaded hy ht q2 q3 q4
    obtain ⟨w, w1, w2⟩ := ih (done ++ [t]) z z2 (by simpa using hnd) (fun a ha => hg a (by simp [ha]))
    exact ⟨w, by simp only [loadAll, q1, z1, w1], by simpa using w2⟩

theorem loadAll_ok {C : Conv L} {items : List L} {fetch : L → List Text} {days : L → List (Quote L)}
    (hi : items.length = 6) (hin : items.Nodup) {ts : List L} (hne : ts ≠ []) (hnd : ts.Nodup)
    (hg : ∀ t ∈ ts, Good C (fetch t) (days t)) :
    ∃ z, loadAll C items fetch ts none = .ok (some z) ∧ Loaded items days ts z := by
  cases ts with
  | nil => exact absurd rfl hne
  | cons t ts =>
    obtain ⟨q, q1, q2, _, _⟩ := load_loaded hi hin (hg t (by simp))
    obtain ⟨w, w1, w2⟩ := loadAll_some (C := C) (fetch := fetch) hi hin ts [t] q q2 hnd
      (fun a ha => hg a (by simp [ha]))
    exact ⟨w, by simp only [loadAll, q1, w1], w2⟩

theorem sorted_table {items : List L} {days : L → List (Quote L)} {ts : List L} {y : Larry L}
    (h : Loaded items days ts y) :
    ∃ z, y.sortaxis (some (-1)) false = .ok z ∧ Table z ts items days (fun k q => q.item k) := by
  obtain ⟨T, D, hl, hT, hTm, hDm, hc⟩ := h.rest
  have hn : y.ndim = 3 := by rw [← h.valid.label_length, hl]; rfl
  obtain ⟨z, h1, h2, h3, h4, h5, h6⟩ := C24_sortaxis h.valid false (axis := some (-1)) (axes := [2])
    ⟨2, rfl, by omega, .inr (by omega)⟩
  rw [hl] at h4 h5
  obtain ⟨A, B, E, hz⟩ : ∃ A B E, z.label = [A, B, E] := by
    match hz : z.label with
    | [A, B, E] => exact ⟨A, B, E, rfl⟩
    | [] | [_] | [_, _] | _ :: _ :: _ :: _ :: _ => rw [hz] at h4; simp at h4
  rw [hz] at h5
  obtain rfl := (h5 0 T A rfl rfl).2 (by simp)
  obtain rfl := (h5 1 items B rfl rfl).2 (by simp)
  obtain ⟨hp, ho⟩ := (h5 2 D E rfl rfl).1 (by simp)
  refine ⟨z, h1, h2, h3.trans h.dtype, _, _, hz, hT, hTm, by simpa [InOrder] using ho, fun d => ?_, ?_⟩
  · rw [hp.mem_iff, hDm]
  · intro t ht d hd k a hk
    obtain ⟨v, hv, hdv⟩ := hc t ht d (hp.mem_iff.mp hd) k a hk
    exact ⟨v, (h6 _ _).mpr hv, hdv⟩

/-- C81. `quotes(tickers, adjust=False)`: for distinct tickers, each with some days and none of them twice, the
labels are the tickers in order, the six items and all dates of all tickers in order, and the value of a
ticker, an item and a date is that number of that day, NaN if the ticker has no such day. -/
theorem C81_quotes {C : Conv L} {items : List L} {fetch : L → List Text} {days : L → List (Quote L)}
    {tickers : List L} (hi : items.length = 6) (hin : items.Nodup) (hne : tickers ≠ []) (hnd : tickers.Nodup)
    (hg : ∀ t ∈ tickers, Good C (fetch t) (days t)) :
    ∃ z, quotes C items fetch tickers false = .ok z ∧ Table z tickers items days (fun k q => q.item k) := by
  obtain ⟨y, h1, h2⟩ := loadAll_ok hi hin hne hnd hg
  obtain ⟨z, h3, h4⟩ := sorted_table h2
  exact ⟨z, by simp [quotes, h1, h3], h4⟩

/-! ## The adjustment -/

omit [LinearOrder L] in
theorem adjusted_shape (x : NDArray Val) : (adjusted x).shape = x.shape := rfl

omit [LinearOrder L] in
theorem adjusted_get {x : NDArray Val} {m n : Nat} (hs : x.shape = [m, 6, n]) (i j : Nat) :
    (∀ k, k = 0 ∨ k = 2 ∨ k = 3 → (adjusted x).get [i, k, j] =
      .flt ((x.get [i, k, j]).num.mul ((x.get [i, 5, j]).num.div (x.get [i, 1, j]).num))) ∧
    (adjusted x).get [i, 1, j] = x.get [i, 5, j] ∧ (adjusted x).get [i, 4, j] = x.get [i, 4, j] := by
  refine ⟨?_, ?_, ?_⟩
  · rintro k (rfl | rfl | rfl) <;> simp [adjusted, scaleItem, scaleOf, item1, NDArray.putAx, hs, Val.num]
  · simp [adjusted, scaleItem, scaleOf, item1, NDArray.putAx, hs]
  · simp [adjusted, scaleItem, scaleOf, item1, NDArray.putAx, hs]

omit [LinearOrder L] in
theorem at3 {A B D : List L} {idx : List Nat} {a b d : L} (h : At [A, B, D] idx [a, b, d]) :
    ∃ i k j, idx = [i, k, j] ∧ A[i]? = some a ∧ B[k]? = some b ∧ D[j]? = some d := by
  match idx, h with
  | [i, k, j], ⟨h1, h2, h3, _⟩ => exact ⟨i, k, j, rfl, h1, h2, h3⟩

omit [LinearOrder L] in
/-- The adjusted value of a cell of the table. -/
theorem adjusted_day {items : List L} (hi : items.length = 6) {z : Larry L} {T D : List L}
    (hv : z.Valid) (hl : z.label = [T, items, D]) {t d : L} (ht : t ∈ T) (hd : d ∈ D) {qs : List (Quote L)}
    (hnz : ∀ q ∈ qs, q.close ≠ 0)
    (hc : ∀ k a, items[k]? = some a → ∃ v, z.Has [t, a, d] v ∧ DayValue qs (fun q => q.item k) d v)
    {k : Nat} (hk : k < 5) {a : L} (ha : items[k]? = some a) :
    ∃ v, (⟨adjusted z.x, z.dtype, z.label⟩ : Larry L).Has [t, a, d] v ∧ DayValue qs (fun q => q.adjItem k) d v := by
  obtain ⟨i, hti⟩ := List.mem_iff_getElem?.mp ht
  obtain ⟨j, hdj⟩ := List.mem_iff_getElem?.mp hd
  have cell : ∀ k < 6, DayValue qs (fun q => q.item k) d (z.x.get [i, k, j]) := by
    intro k hk
    obtain ⟨v, ⟨idx, hat, rfl⟩, hdv⟩ := hc k _ (List.getElem?_eq_getElem (hi ▸ hk))
    rw [hl] at hat
    obtain ⟨i', k', j', rfl, g1, g2, g3⟩ := at3 hat
    have n := hv.nodup
    rw [hl] at n
    simp only [List.mem_cons, List.not_mem_nil, or_false, forall_eq_or_imp, forall_eq] at n
    have inj : ∀ {l : List L} {a b : Nat} {x : L}, l.Nodup → l[a]? = some x → l[b]? = some x → a = b := by
      intro l a b x hn h1 h2
      exact (List.getElem?_inj (List.getElem?_eq_some_iff.mp h1).1 hn).mp (h1.trans h2.symm)
    obtain rfl := inj n.1 g1 hti
    obtain rfl := inj n.2.1 g2 (List.getElem?_eq_getElem (hi ▸ hk))
    obtain rfl := inj n.2.2 g3 hdj
    exact hdv
  have hsh : z.x.shape = [T.length, 6, D.length] := by rw [hv.shape_eq, hl]; simp [hi]
  obtain ⟨a1, a2, a3⟩ := adjusted_get hsh i j
  refine ⟨(adjusted z.x).get [i, k, j], ⟨[i, k, j], by rw [hl]; exact ⟨hti, ha, hdj, trivial⟩, rfl⟩, ?_⟩
  have c1 := cell 1 (by omega)
  have c5 := cell 5 (by omega)
  have ck := cell k (by omega)
  have scaled : k = 0 ∨ k = 2 ∨ k = 3 → ∀ num, (∀ q, num q = q.item k * (q.adj / q.close)) →
      DayValue qs num d ((adjusted z.x).get [i, k, j]) := by
    intro h3 num hnum
    rw [a1 k h3]
    constructor
    · intro q hq e
      rw [ck.1 q hq e, c1.1 q hq e, c5.1 q hq e, hnum]
      have : q.item 1 ≠ 0 := hnz q hq
      simp only [Val.num, Flt.div, if_neg this, Flt.mul]
      rfl
    · intro h
      rw [ck.2 h]; rfl
  obtain rfl | rfl | rfl | rfl | rfl : k = 0 ∨ k = 1 ∨ k = 2 ∨ k = 3 ∨ k = 4 := by omega
  · exact scaled (by simp) _ (fun q => rfl)
  · rw [a2]; exact c5
  · exact scaled (by simp) _ (fun q => rfl)
  · exact scaled (by simp) _ (fun q => rfl)
  · rw [a3]; exact ck

theorem but_last {items T D : List L} (hi : items.length = 6) {y : Larry L} (hv : y.Valid)
    (hl : y.label = [T, items, D]) :
    ∃ z, y.getitem (.tuple [.slice {}, .slice ⟨none, some (-1), none⟩]) = .ok (.larry z) ∧ z.Valid ∧
      z.dtype = y.dtype ∧ z.label = [T, items.take 5, D] ∧
      ∀ names v, z.Has names v ↔ Named z.label names ∧ y.Has names v := by
  have whole : ∀ l : List L, (List.range l.length).map (fun i => l[i]?) = l.map some := by
    intro l
    apply List.ext_getElem?
    intro n
    rcases Nat.lt_or_ge n l.length with h | h
    · simp [h]
    · simp [h]
  have five : (List.range 5).map (fun i => items[i]?) = (items.take 5).map some := by
    match items, hi with
    | [a, b, c, d, e, f], _ => rfl
  have tk : TakesParts y.label [.slice {}, .slice ⟨none, some (-1), none⟩]
      [.many T, .many (items.take 5), .many D] := by
    rw [hl]
    refine .cons ⟨_, sliceIndices_all _, whole T⟩ (.cons ⟨List.range 5, ?_, five⟩
      (.cons ⟨_, sliceIndices_all _, whole D⟩ .nil))
    have := sliceIndices_dropLast' items.length 1 (by omega)
    rw [hi] at this ⊢
    exact this
  have hn : y.ndim = 3 := by rw [← hv.label_length, hl]; rfl
  have hs : ¬ Scrambled ([.slice {}, .slice ⟨none, some (-1), none⟩] : List (Item L)) := by
    rintro ⟨⟨s, p, a, b, _, _, hp, _, hb⟩, _⟩
    match p, hp with
    | 0, hp | 1, hp =>
      obtain rfl := Option.some.inj hp
      exact hb.2 ⟨_, rfl⟩
  have hone : OneList ([.slice {}, .slice ⟨none, some (-1), none⟩] : List (Item L)) := by
    intro p q a b hp _ ha _
    match p, hp with
    | 0, hp | 1, hp =>
      obtain rfl := Option.some.inj hp
      exact absurd ⟨_, rfl⟩ ha.2
  obtain ⟨r, hr⟩ := (C33_succeeds hv (idx := .tuple [.slice {}, .slice ⟨none, some (-1), none⟩])
    (by simp [Index.items]) hs).mpr ⟨by simp [Index.items, hn], hone, _, tk, by
      have n := hv.nodup
      rw [hl] at n
      simp only [List.mem_cons, List.not_mem_nil, or_false, forall_eq_or_imp, forall_eq] at n
      simp [Part.labels, n, (List.take_sublist 5 items).nodup n.2.1]⟩
  obtain ⟨ps, hp, hsh⟩ := C33_getitem hv (idx := .tuple _) (by simp [Index.items]) hs hr
  obtain rfl := takesParts_unique hv.nodup hp tk
  obtain ⟨k1, k2⟩ := C33_kind hv (idx := .tuple _) (by simp [Index.items]) hs hr
  cases r with
  | scalar v => exact absurd (k1.mp ⟨v, rfl⟩).1 (by simp [Index.items, Item.IsInt])
  | array x =>
    obtain ⟨its, e, h, _⟩ := k2.mp ⟨x, rfl⟩
    cases e
    exact absurd h (by simp [Item.IsInt])
  | larry z =>
    obtain ⟨h1, h2, h3, h4⟩ := hsh
    refine ⟨z, hr, h3, h2, h1, fun names v => ?_⟩
    rw [h4, h1]
    constructor
    · rintro ⟨g1, g2⟩
      refine ⟨g1, ?_⟩
      obtain ⟨a, b, d, rfl, _⟩ := named3.mp g1
      exact g2
    · rintro ⟨g1, g2⟩
      refine ⟨g1, ?_⟩
      obtain ⟨a, b, d, rfl, _⟩ := named3.mp g1
      exact g2

/-- C81, adjusted: `quotes(tickers)` has no item adjclose; open, high and low are multiplied by
adjclose / close, close is adjclose, volume is as sent. -/
theorem C81_adjusted {C : Conv L} {items : List L} {fetch : L → List Text} {days : L → List (Quote L)}
    {tickers : List L} (hi : items.length = 6) (hin : items.Nodup) (hne : tickers ≠ []) (hnd : tickers.Nodup)
    (hg : ∀ t ∈ tickers, Good C (fetch t) (days t)) (hnz : ∀ t ∈ tickers, ∀ q ∈ days t, q.close ≠ 0) :
    ∃ z, quotes C items fetch tickers true = .ok z ∧
      Table z tickers (items.take 5) days (fun k q => q.adjItem k) := by
  obtain ⟨y, h1, h2⟩ := loadAll_ok hi hin hne hnd hg
  obtain ⟨z, h3, hv, hdt, T, D, hl, hT, hTm, hD, hDm, hc⟩ := sorted_table h2
  have hva : (⟨adjusted z.x, z.dtype, z.label⟩ : Larry L).Valid := hv
  obtain ⟨w, w1, w2, w3, w4, w5⟩ := but_last hi hva hl
  refine ⟨w, by simp [quotes, h1, h3, w1], w2, w3.trans hdt, T, D, w4, hT, hTm, hD, hDm, ?_⟩
  intro t ht d hd k a hk
  rw [List.getElem?_take] at hk
  split_ifs at hk with hk5
  obtain ⟨v, g1, g2⟩ := adjusted_day hi hv hl ht hd (hnz t ((hTm t).mp ht)) (hc t ht d hd) hk5 hk
  refine ⟨v, (w5 _ _).mpr ⟨?_, g1⟩, g2⟩
  rw [w4]
  exact named3.mpr ⟨_, _, _, rfl, ht, List.mem_of_getElem? (by rw [List.getElem?_take, if_pos hk5, hk]), hd⟩

/-! ## Consequences -/

theorem Table.same {z z' : Larry L} {tickers tickers' items : List L} {days : L → List (Quote L)}
    {num : Nat → Quote L → ℚ} (h : Table z tickers items days num) (h' : Table z' tickers' items days num)
    (hp : ∀ t, t ∈ tickers ↔ t ∈ tickers') : z.Same z' := by
  obtain ⟨hv, hdt, T, D, hl, hT, hTm, hD, hDm, hc⟩ := h
  obtain ⟨hv', hdt', T', D', hl', hT', hTm', hD', hDm', hc'⟩ := h'
  have eq : ∀ {a b : List L}, a.Pairwise (· < ·) → b.Pairwise (· < ·) → (∀ x, x ∈ a ↔ x ∈ b) → a = b := by
    intro a b ha hb hab
    exact List.Perm.eq_of_pairwise (fun _ _ _ _ h h' => absurd h (lt_asymm h'))
      ha hb ((List.perm_ext_iff_of_nodup (ha.imp (fun h => ne_of_lt h)) (hb.imp (fun h => ne_of_lt h))).mpr hab)
  obtain rfl : T = T' := eq hT hT' (fun t => by rw [hTm, hTm', hp])
  obtain rfl : D = D' := eq hD hD' (fun d => by rw [hDm, hDm']; simp only [hp])
  refine hv.same_of_has hv' (hl.trans hl'.symm) (hdt.trans hdt'.symm) (fun names v hh => ?_)
  have hn := Named_of_Holds hh
  rw [hl] at hn
  obtain ⟨t, a, d, rfl, g1, g2, g3⟩ := named3.mp hn
  obtain ⟨k, hk⟩ := List.mem_iff_getElem?.mp g2
  obtain ⟨w, hw, hdw⟩ := hc t g1 d g3 k a hk
  obtain ⟨w', hw', hdw'⟩ := hc' t g1 d g3 k a hk
  rw [Holds_unique hv.nodup hh hw]
  have : w = w' := by
    by_cases hq : ∃ q ∈ days t, q.date = d
    · obtain ⟨q, hq, e⟩ := hq
      rw [hdw.1 q hq e, hdw'.1 q hq e]
    · push Not at hq
      rw [hdw.2 hq, hdw'.2 hq]
  rw [this]; exact hw'

/-- C81, order: the order of the tickers does not matter. -/
theorem C81_order {C : Conv L} {items : List L} {fetch : L → List Text} {days : L → List (Quote L)}
    {tickers tickers' : List L} (hi : items.length = 6) (hin : items.Nodup) (hne : tickers ≠ [])
    (hnd : tickers.Nodup) (hg : ∀ t ∈ tickers, Good C (fetch t) (days t))
    (hp : tickers.Perm tickers') :
    ∃ z z', quotes C items fetch tickers false = .ok z ∧ quotes C items fetch tickers' false = .ok z' ∧
      z.Same z' := by
  obtain ⟨z, h1, h2⟩ := C81_quotes hi hin hne hnd hg
  obtain ⟨z', h3, h4⟩ := C81_quotes hi hin (fun e => hne (by rw [e] at hp; exact hp.eq_nil))
    (hp.nodup_iff.mp hnd) (fun t ht => hg t (hp.mem_iff.mpr ht))
  exact ⟨z, z', h1, h3, h2.same h4 (fun t => hp.mem_iff)⟩

/-- C81, order, adjusted. -/
theorem C81_order_adjusted {C : Conv L} {items : List L} {fetch : L → List Text} {days : L → List (Quote L)}
    {tickers tickers' : List L} (hi : items.length = 6) (hin : items.Nodup) (hne : tickers ≠ [])
    (hnd : tickers.Nodup) (hg : ∀ t ∈ tickers, Good C (fetch t) (days t))
    (hnz : ∀ t ∈ tickers, ∀ q ∈ days t, q.close ≠ 0) (hp : tickers.Perm tickers') :
    ∃ z z', quotes C items fetch tickers true = .ok z ∧ quotes C items fetch tickers' true = .ok z' ∧
      z.Same z' := by
  obtain ⟨z, h1, h2⟩ := C81_adjusted hi hin hne hnd hg hnz
  obtain ⟨z', h3, h4⟩ := C81_adjusted hi hin (fun e => hne (by rw [e] at hp; exact hp.eq_nil))
    (hp.nodup_iff.mp hnd) (fun t ht => hg t (hp.mem_iff.mpr ht)) (fun t ht => hnz t (hp.mem_iff.mpr ht))
  exact ⟨z, z', h1, h3, h2.same h4 (fun t => hp.mem_iff)⟩

theorem loadAll_append {C : Conv L} {items : List L} {fetch : L → List Text} (ts us : List L) :
    ∀ lar, loadAll C items fetch (ts ++ us) lar = match loadAll C items fetch ts lar with
      | .error e => .error e
      | .ok lar' => loadAll C items fetch us lar' := by
  induction ts with
  | nil => intro lar; rfl
  | cons t ts ih =>
    intro lar
    simp only [List.cons_append, loadAll]
    split
    · rfl
    · split
      · exact ih _
      · split
        · rfl
        · exact ih _

theorem quotes_stop {C : Conv L} {items : List L} {fetch : L → List Text} {days : L → List (Quote L)}
    {ts us : List L} {t : L} {e : PyErr} (hi : items.length = 6) (hin : items.Nodup) (hnd : ts.Nodup)
    (hg : ∀ t ∈ ts, Good C (fetch t) (days t)) (h : load C items fetch t = .error e) (adjust : Bool) :
    quotes C items fetch (ts ++ t :: us) adjust = .error e := by
  have key : ∃ lar, loadAll C items fetch ts none = .ok lar := by
    cases ts with
    | nil => exact ⟨none, rfl⟩
    | cons a as =>
      obtain ⟨z, h1, _⟩ := loadAll_ok (C := C) (fetch := fetch) hi hin (by simp) hnd hg
      exact ⟨_, h1⟩
  obtain ⟨lar, hlar⟩ := key
  simp [quotes, loadAll_append, hlar, loadAll, h]

/-- C81, errors: without tickers an AttributeError.  The first ticker the server sends no days for is a
TypeError, the first with a date twice a ValueError, and so is a ticker given twice. -/
theorem C81_errors {C : Conv L} {items : List L} {fetch : L → List Text} {days : L → List (Quote L)}
    (adjust : Bool) (hi : items.length = 6) (hin : items.Nodup) :
    quotes C items fetch [] adjust = .error .attributeError ∧
    ∀ ts us t, ts.Nodup → (∀ a ∈ ts, Good C (fetch a) (days a)) →
      (Sends C (fetch t) [] → quotes C items fetch (ts ++ t :: us) adjust = .error .typeError) ∧
      (∀ qs, Sends C (fetch t) qs → ¬ (qs.map Quote.date).Nodup →
        quotes C items fetch (ts ++ t :: us) adjust = .error .valueError) ∧
      (t ∈ ts → quotes C items fetch (ts ++ t :: us) adjust = .error .valueError) := by
  refine ⟨rfl, fun ts us t hnd hg => ⟨fun h => ?_, fun qs h hd => ?_, fun h => ?_⟩⟩
  · exact quotes_stop hi hin hnd hg (by simp [load, parse_sends h]) adjust
  · refine quotes_stop hi hin hnd hg ?_ adjust
    have hne : qs ≠ [] := by rintro rfl; simp at hd
    have hm : (qs.map rowOf).map Prod.fst = qs.map Quote.date := by simp [rowOf, Function.comp_def]
    have := (C06_constructor (dataT (qs.map rowOf)) .float [items, qs.map Quote.date]).2
      (fun hv => hd (hv.nodup _ (by simp)))
    unfold load
    simp only [parse_sends h, List.length_map, hm, this]
    rw [if_neg (by simpa using hne)]
  · obtain ⟨z, h1, h2⟩ := loadAll_ok (C := C) (fetch := fetch) hi hin (List.ne_nil_of_mem h) hnd hg
    obtain ⟨q, q1, q2, q3, q4⟩ := load_loaded hi hin (hg t h)
    have hm : merge z q false = .error .valueError := by
      obtain ⟨T, D, hl, _, hTm, hDm, hc⟩ := h2.rest
      refine ((C20_merge_errors false).2 h2.valid q2.valid h2.typed q2.typed
        (by rw [← h2.valid.label_length, ← q2.valid.label_length, hl, q3]; rfl)).2.1
        (.inl (h2.dtype.trans q2.dtype.symm)) rfl ?_
      obtain ⟨r, hr⟩ := List.exists_mem_of_ne_nil _ (hg t h).some
      have h0 : items[0]? = some (items[0]'(by omega)) := List.getElem?_eq_getElem _
      obtain ⟨v, hv, hdv⟩ := hc t ((hTm t).mpr h) r.date ((hDm _).mpr ⟨t, h, r, hr, rfl⟩) 0 _ h0
      rw [hdv.1 r hr rfl] at hv
      exact ⟨_, ⟨_, hv, by rw [h2.dtype]; exact ⟨by simp, by simp, by rintro _ _ ⟨⟩; simp⟩⟩,
        ⟨_, q4 0 _ r h0 hr, by rw [q2.dtype]; exact ⟨by simp, by simp, by rintro _ _ ⟨⟩; simp⟩⟩⟩
    simp [quotes, loadAll_append, h1, loadAll, q1, hm]

/-! ## The hypotheses are met -/

/-- Fields that are numbers written in strokes. -/
def exConv : Conv Nat := ⟨fun s => .ok s.length, fun s => .ok (.fin s.length), fun s => .ok s.length⟩

/-- Two tickers; the second has one day more and a line that is no day. -/
def exSent : Nat → List Text
  | 8 => ["Date,…".toList, "|||,||,|||||,|,||||,|||||||,||".toList]
  | _ => ["Date,…".toList, "||||,|,||,|,||,||||,||".toList, "".toList, "|||,||,||,||,||,||,|".toList]

def exDays : Nat → List (Quote Nat)
  | 8 => [⟨3, 2, 5, 1, 4, 7, 2⟩]
  | _ => [⟨4, 1, 2, 1, 2, 4, 2⟩, ⟨3, 2, 2, 2, 2, 2, 1⟩]

theorem exGood : ∀ t ∈ [8, 7], Good exConv (exSent t) (exDays t) := by
  intro t ht
  have h : t = 8 ∨ t = 7 := by simpa using ht
  rcases h with rfl | rfl
  · refine ⟨⟨_, _, rfl, .day ⟨"|||".toList, "||".toList, "|||||".toList, "|".toList, "||||".toList,
      "|||||||".toList, "||".toList, by decide +kernel, by decide +kernel, rfl, rfl, rfl, rfl, rfl, rfl, rfl⟩ .nil⟩,
      by simp [exDays], by decide⟩
  · refine ⟨⟨_, _, rfl, .day ⟨"||||".toList, "|".toList, "||".toList, "|".toList, "||".toList,
      "||||".toList, "||".toList, by decide +kernel, by decide +kernel, rfl, rfl, rfl, rfl, rfl, rfl, rfl⟩
      (.skip (by decide) (.day ⟨"|||".toList, "||".toList, "||".toList, "||".toList, "||".toList,
      "||".toList, "|".toList, by decide +kernel, by decide +kernel, rfl, rfl, rfl, rfl, rfl, rfl, rfl⟩ .nil))⟩,
      by simp [exDays], by decide⟩

theorem exClose : ∀ t ∈ [8, 7], ∀ q ∈ exDays t, q.close ≠ 0 := by
  intro t ht q hq
  have h : t = 8 ∨ t = 7 := by simpa using ht
  rcases h with rfl | rfl <;> simp [exDays] at hq <;> rcases hq with rfl | rfl <;> norm_num

/-- The adjusted open of ticker 8 on day 3 is 2 · (2 / 4), and it has no value on day 4. -/
example : ∃ z, quotes exConv [1, 2, 3, 4, 5, 6] exSent [8, 7] true = .ok z ∧
    z.Has [8, 1, 3] (.flt (.fin 1)) ∧ z.Has [8, 1, 4] (.flt .nan) := by
  obtain ⟨z, h, _, _, T, D, _, _, hT, _, hD, hc⟩ :=
    C81_adjusted (items := [1, 2, 3, 4, 5, 6]) rfl (by decide) (by decide) (by decide) exGood exClose
  have h8 : 8 ∈ T := (hT 8).mpr (by simp)
  have d3 : 3 ∈ D := (hD 3).mpr ⟨8, by simp, _, List.mem_singleton.mpr rfl, rfl⟩
  have d4 : 4 ∈ D := (hD 4).mpr ⟨7, by simp, ⟨4, 1, 2, 1, 2, 4, 2⟩, by simp [exDays], rfl⟩
  obtain ⟨v, hv, g⟩ := hc 8 h8 3 d3 0 1 rfl
  obtain ⟨w, hw, g'⟩ := hc 8 h8 4 d4 0 1 rfl
  refine ⟨z, h, ?_, ?_⟩
  · rw [g.1 _ (List.mem_singleton.mpr rfl) rfl] at hv
    norm_num [Quote.adjItem] at hv
    exact hv
  · rw [g'.2 (by simp [exDays])] at hw
    exact hw

end Yahoo
end La
