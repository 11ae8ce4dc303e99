import Verif.Props.Merge
import Verif.Props.FlarryArith

/-!
# Property C98: putting many larrys together with merge
-/

namespace La
open Larry
variable {L : Type _}

/-! ## Specification -/

/-- Larrys put together with calls of `merge`, with any parentheses.  Each larry occurs as an object of its own,
since `merge` may write into the larry it is called on (C23). -/
inductive Merges (L : Type _)
  | larry (y : Larry L)
  | call (s t : Merges L) (update : Bool)

namespace Merges

/-- The larrys put together, from left to right. -/
def leaves : Merges L → List (Larry L)
  | larry y => [y]
  | call s t _ => s.leaves ++ t.leaves

/-- What Python evaluates. -/
def run [LinearOrder L] : Merges L → Res (Larry L)
  | larry y => .ok y
  | call s t update => match s.run with
    | .error e => .error e
    | .ok a => match t.run with
      | .error e => .error e
      | .ok b => merge a b update

/-- Somewhere in the tree a call without `update` puts together two larrys with a value for the same names. -/
def Clash : Merges L → Prop
  | larry _ => False
  | call s t update => s.Clash ∨ t.Clash ∨
      (update = false ∧ ∃ names, (∃ a ∈ s.leaves, HasPresent a names) ∧ ∃ b ∈ t.leaves, HasPresent b names)

/-- Every call updates. -/
def Updates : Merges L → Prop
  | larry _ => True
  | call s t update => s.Updates ∧ t.Updates ∧ update = true

end Merges

/-- The larrys: well-formed, of one of the dtypes with a missing value, with `n` axes. -/
structure Mergeable (d : DType) (n : Nat) (y : Larry L) : Prop where
  valid : y.Valid
  typed : y.Typed
  dtype : y.dtype = d
  ndim : y.ndim = n

/-- `v` is the value of the last larry that has one under these names. -/
def Newest (d : DType) (ys : List (Larry L)) (names : List L) (v : Val) : Prop :=
  ∃ as y bs, ys = as ++ y :: bs ∧ y.Has names v ∧ Present d v ∧ ∀ b ∈ bs, ¬ HasPresent b names

/-- No infinite number in the larry. -/
def FiniteCells (y : Larry L) : Prop := ∀ names f, y.Has names (.flt f) → f ≠ .pinf ∧ f ≠ .ninf

/-! ## Proof -/

theorem newest_append (d : DType) (as bs : List (Larry L)) (names : List L) (v : Val) :
    Newest d (as ++ bs) names v ↔
      Newest d bs names v ∨ ((∀ b ∈ bs, ¬ HasPresent b names) ∧ Newest d as names v) := by
  constructor
  · rintro ⟨ps, y, qs, e, hy, hp, hq⟩
    rcases List.append_eq_append_iff.mp e with ⟨cs, rfl, h2⟩ | ⟨cs, rfl, h2⟩
    · exact .inl ⟨cs, y, qs, h2, hy, hp, hq⟩
    · cases cs with
      | nil => exact .inl ⟨[], y, qs, by simpa using h2.symm, hy, hp, hq⟩
      | cons c cs =>
        obtain ⟨rfl, rfl⟩ := List.cons.inj h2
        exact .inr ⟨fun b hb => hq b (by simp [hb]), ps, y, cs, rfl, hy, hp, fun b hb => hq b (by simp [hb])⟩
  · rintro (⟨ps, y, qs, rfl, hy, hp, hq⟩ | ⟨hn, ps, y, qs, rfl, hy, hp, hq⟩)
    · exact ⟨as ++ ps, y, qs, by simp, hy, hp, hq⟩
    · exact ⟨ps, y, qs ++ bs, by simp, hy, hp, fun b hb => (List.mem_append.mp hb).elim (hq b) (hn b)⟩

theorem newest_exists {d : DType} {ys : List (Larry L)} (hd : ∀ y ∈ ys, y.dtype = d) (names : List L) :
    (∃ v, Newest d ys names v) ↔ ∃ y ∈ ys, HasPresent y names := by
  constructor
  · rintro ⟨v, as, y, bs, rfl, hy, hp, -⟩
    exact ⟨y, by simp, v, hy, by rw [hd y (by simp)]; exact hp⟩
  · intro h
    induction ys with
    | nil => simp at h
    | cons y ys ih =>
      by_cases h' : ∃ z ∈ ys, HasPresent z names
      · obtain ⟨v, hv⟩ := ih (fun z hz => hd z (by simp [hz])) h'
        exact ⟨v, (newest_append d [y] ys names v).mpr (.inl hv)⟩
      · obtain ⟨z, hz, hzp⟩ := h
        rcases List.mem_cons.mp hz with rfl | hz
        · obtain ⟨w, hw, hwp⟩ := hzp
          exact ⟨w, [], z, ys, rfl, hw, by rw [← hd z (by simp)]; exact hwp, fun b hb hbp => h' ⟨b, hb, hbp⟩⟩
        · exact absurd ⟨z, hz, hzp⟩ h'

theorem asDType_keep {d : DType} (hd : d = .float ∨ d = .str ∨ d = .object) {v : Val} (h : v.hasDType d = true) :
    asDType d v = v := by
  rcases hd with rfl | rfl | rfl <;> cases v <;> first | rfl | simp [Val.hasDType] at h

theorem marker_dtype {d : DType} {m : Val} (h : missingMarker d = some m) : m.hasDType d = true ∧ ¬ Present d m := by
  cases d <;> simp [missingMarker] at h <;> subst h <;> simp [Val.hasDType, Present]

theorem marker_of_absent {d : DType} (hd : d = .float ∨ d = .str ∨ d = .object) {v : Val} (ht : v.hasDType d = true)
    (h : ¬ Present d v) (hf : d = .float → ∀ f, v = .flt f → f ≠ .pinf ∧ f ≠ .ninf) : missingMarker d = some v := by
  rcases hd with rfl | rfl | rfl
  · cases v <;> simp [Val.hasDType] at ht
    rename_i f
    have := hf rfl f rfl
    simp only [Present, reduceCtorEq, IsEmpty.forall_iff, true_or, true_and, forall_const, Val.flt.injEq,
      forall_eq', not_and, not_not] at h
    by_cases hn : f = .nan
    · subst hn; rfl
    · exact absurd (h hn this.1) this.2
  · simp only [Present, reduceCtorEq, IsEmpty.forall_iff, or_self, and_true, true_and, forall_const, not_not] at h
    subst h; rfl
  · simp only [Present, reduceCtorEq, IsEmpty.forall_iff, or_self, and_true, forall_const, not_not] at h
    subst h; rfl

variable [LinearOrder L]

omit [LinearOrder L] in
theorem extDType_marker {d : DType} (hd : d = .float ∨ d = .str ∨ d = .object) {a b : Larry L} (ha : a.dtype = d) :
    extDType a b = d := by
  unfold extDType
  rw [ha]
  rcases hd with rfl | rfl | rfl
  · exact floatIf_of_marker (m := .flt .nan) rfl
  · exact floatIf_of_marker (m := .str "") rfl
  · exact floatIf_of_marker (m := .none) rfl

/-- One call. -/
theorem merge_two {d : DType} (hd : d = .float ∨ d = .str ∨ d = .object) {n : Nat} {a b : Larry L}
    (ha : Mergeable d n a) (hb : Mergeable d n b) {update : Bool}
    (hup : update = true ∨ ¬ ∃ names, HasPresent a names ∧ HasPresent b names) :
    ∃ z, merge a b update = .ok z ∧ Mergeable d n z ∧ Joined OuterJoined a.label b.label z.label ∧
      (∀ names v, z.Has names v ∧ Present d v ↔
        (b.Has names v ∧ Present d v) ∨ (¬ HasPresent b names ∧ a.Has names v ∧ Present d v)) ∧
      (d = .float → FiniteCells a → FiniteCells b → FiniteCells z) := by
  obtain ⟨z, e, hv, hzd, hj, hc⟩ := C20_merge (update := update) ha.valid hb.valid ha.typed hb.typed
    (ha.ndim.trans hb.ndim.symm) (.inl (ha.dtype.trans hb.dtype.symm)) hup
    (.inl (.inl (by rw [extDType_marker hd ha.dtype, extDType_marker hd hb.dtype])))
  rw [extDType_marker hd ha.dtype] at hzd
  have cells : ∀ names v, z.Has names v →
      (b.Has names v ∧ Present d v) ∨ (¬ HasPresent b names ∧ a.Has names v) ∨
      (¬ HasPresent b names ∧ ¬ Named a.label names ∧ missingMarker d = some v) := by
    intro names v hz
    have hN := Named_of_Holds hz
    obtain ⟨c1, c2, c3⟩ := hc names hN
    rw [hzd] at c1 c2 c3
    have hg := (get_ok_iff hv).mpr hz
    by_cases hbp : HasPresent b names
    · obtain ⟨w, hw, hwp⟩ := hbp
      have := c1 w hw hwp
      rw [hg, asDType_keep hd (hb.dtype ▸ (typed_iff hb.valid).mp hb.typed names w hw)] at this
      obtain rfl := Except.ok.inj this
      exact .inl ⟨hw, hb.dtype ▸ hwp⟩
    · by_cases hna : Named a.label names
      · obtain ⟨w, hw⟩ := Holds_of_Named (x := a.x) hna
        have := c2 hbp w hw
        rw [hg, asDType_keep hd (ha.dtype ▸ (typed_iff ha.valid).mp ha.typed names w hw)] at this
        obtain rfl := Except.ok.inj this
        exact .inr (.inl ⟨hbp, hw⟩)
      · obtain ⟨m, hm, hmm⟩ := c3 hbp hna
        rw [hg] at hm
        obtain rfl := Except.ok.inj hm
        exact .inr (.inr ⟨hbp, hna, hmm⟩)
  have hasz : ∀ names, Named a.label names ∨ Named b.label names → ∃ v, z.Has names v := fun names h =>
    Holds_of_Named (x := z.x) (outer_named hj h)
  refine ⟨z, e, ⟨hv, ?_, hzd, ?_⟩, hj, fun names v => ⟨?_, ?_⟩, fun hdf hfa hfb names f hz => ?_⟩
  · rw [typed_iff hv]
    intro names v hz
    rw [hzd]
    rcases cells names v hz with ⟨h, -⟩ | ⟨-, h⟩ | ⟨-, -, h⟩
    · exact hb.dtype ▸ (typed_iff hb.valid).mp hb.typed names v h
    · exact ha.dtype ▸ (typed_iff ha.valid).mp ha.typed names v h
    · exact (marker_dtype h).1
  · rw [← hv.label_length, hj.lengths.1, ha.valid.label_length, ha.ndim]
  · rintro ⟨hz, hp⟩
    rcases cells names v hz with h | ⟨h1, h2⟩ | ⟨-, -, h⟩
    · exact .inl h
    · exact .inr ⟨h1, h2, hp⟩
    · exact absurd hp (marker_dtype h).2
  · rintro (⟨hb', hp⟩ | ⟨hn, ha', hp⟩)
    · obtain ⟨w, hw⟩ := hasz names (.inr (Named_of_Holds hb'))
      rcases cells names w hw with ⟨h, -⟩ | ⟨h1, -⟩ | ⟨h1, -⟩
      · rw [Holds_unique hb.valid.nodup hb' h]
        exact ⟨hw, by rwa [← Holds_unique hb.valid.nodup hb' h]⟩
      · exact absurd ⟨v, hb', by rw [hb.dtype]; exact hp⟩ h1
      · exact absurd ⟨v, hb', by rw [hb.dtype]; exact hp⟩ h1
    · obtain ⟨w, hw⟩ := hasz names (.inl (Named_of_Holds ha'))
      rcases cells names w hw with ⟨h, hwp⟩ | ⟨-, h⟩ | ⟨-, h, -⟩
      · exact absurd ⟨w, h, by rw [hb.dtype]; exact hwp⟩ hn
      · rw [Holds_unique ha.valid.nodup ha' h]
        exact ⟨hw, by rwa [← Holds_unique ha.valid.nodup ha' h]⟩
      · exact absurd (Named_of_Holds ha') h
  · subst hdf
    rcases cells names _ hz with ⟨h, -⟩ | ⟨-, h⟩ | ⟨-, -, h⟩
    · exact hfb names f h
    · exact hfa names f h
    · simp only [missingMarker, Option.some.injEq, Val.flt.injEq] at h
      subst h
      simp

/-! ## Trees -/

structure MergedFrom (d : DType) (n : Nat) (t : Merges L) (z : Larry L) : Prop where
  good : Mergeable d n z
  label : ∀ k r, z.label[k]? = some r → AllOuter (t.leaves.map fun y => y.label.getD k []) r
  cell : ∀ names v, z.Has names v ∧ Present d v ↔ Newest d t.leaves names v
  finite : d = .float → (∀ y ∈ t.leaves, FiniteCells y) → FiniteCells z

theorem MergedFrom.present {d : DType} {n : Nat} {t : Merges L} {z : Larry L} (h : MergedFrom d n t z)
    (hd : ∀ y ∈ t.leaves, y.dtype = d) (names : List L) :
    HasPresent z names ↔ ∃ y ∈ t.leaves, HasPresent y names := by
  rw [← newest_exists hd names]
  constructor
  · rintro ⟨v, hv, hp⟩
    exact ⟨v, (h.cell names v).mp ⟨hv, h.good.dtype ▸ hp⟩⟩
  · rintro ⟨v, hv⟩
    obtain ⟨h1, h2⟩ := (h.cell names v).mpr hv
    exact ⟨v, h1, h.good.dtype.symm ▸ h2⟩

theorem merged_run {d : DType} (hd : d = .float ∨ d = .str ∨ d = .object) {n : Nat} (t : Merges L)
    (hl : ∀ y ∈ t.leaves, Mergeable d n y) :
    (¬ t.Clash → ∃ z, t.run = .ok z ∧ MergedFrom d n t z) ∧ (t.Clash → t.run = .error .valueError) := by
  induction t with
  | larry y =>
    refine ⟨fun _ => ⟨y, rfl, hl y (by simp [Merges.leaves]), fun k r hr => ?_, fun names v => ?_, fun _ h => ?_⟩,
      fun h => h.elim⟩
    · have e : y.label.getD k [] = r := by simp [hr]
      simp only [Merges.leaves, List.map_cons, List.map_nil, e]
      exact ⟨fun l h => h r (by simp), fun ⟨x, hx, z, hz, hne⟩ => by simp_all, fun a => by simp⟩
    · constructor
      · rintro ⟨h1, h2⟩; exact ⟨[], y, [], rfl, h1, h2, by simp⟩
      · rintro ⟨as, y', bs, e, h1, h2, -⟩
        have hm : y' ∈ [y] := by
          have : y' ∈ (Merges.larry y).leaves := by rw [e]; simp
          exact this
        rw [List.mem_singleton] at hm
        subst hm
        exact ⟨h1, h2⟩
    · exact h y (by simp [Merges.leaves])
  | call s t update ihs iht =>
    obtain ⟨s1, s2⟩ := ihs fun y hy => hl y (by simp [Merges.leaves, hy])
    obtain ⟨t1, t2⟩ := iht fun y hy => hl y (by simp [Merges.leaves, hy])
    have hsd : ∀ y ∈ s.leaves, y.dtype = d := fun y hy => (hl y (by simp [Merges.leaves, hy])).dtype
    have htd : ∀ y ∈ t.leaves, y.dtype = d := fun y hy => (hl y (by simp [Merges.leaves, hy])).dtype
    by_cases cs : s.Clash
    · refine ⟨fun h => absurd (.inl cs) h, fun _ => ?_⟩
      simp only [Merges.run, s2 cs]
    obtain ⟨a, ea, ha⟩ := s1 cs
    by_cases ct : t.Clash
    · refine ⟨fun h => absurd (.inr (.inl ct)) h, fun _ => ?_⟩
      simp only [Merges.run, ea, t2 ct]
    obtain ⟨b, eb, hb⟩ := t1 ct
    constructor
    · intro hc
      have hup : update = true ∨ ¬ ∃ names, HasPresent a names ∧ HasPresent b names := by
        cases update with
        | true => exact .inl rfl
        | false =>
          right
          rintro ⟨names, h1, h2⟩
          exact hc (.inr (.inr ⟨rfl, names, (ha.present hsd names).mp h1, (hb.present htd names).mp h2⟩))
      obtain ⟨z, ez, hz, hj, hcell, hfin⟩ := merge_two hd ha.good hb.good hup
      refine ⟨z, by simp only [Merges.run, ea, eb, ez], hz, fun k r hr => ?_, fun names v => ?_, fun hdf h => ?_⟩
      · rcases joined_get hj k with ⟨_, _, h0⟩ | ⟨x, y, c, e1, e2, e3, hjk⟩
        · rw [h0] at hr; simp at hr
        · rw [e3] at hr
          obtain rfl := Option.some.inj hr
          simp only [Merges.leaves, List.map_append]
          exact (ha.label k x e1).join (hb.label k y e2) hjk
      · rw [hcell names v, Merges.leaves, newest_append, ← hb.cell names v, ← ha.cell names v, hb.present htd names]
        push Not
        rfl
      · exact hfin hdf (ha.finite hdf fun y hy => h y (by simp [Merges.leaves, hy]))
          (hb.finite hdf fun y hy => h y (by simp [Merges.leaves, hy]))
    · rintro (h | h | ⟨rfl, names, h1, h2⟩)
      · exact absurd h cs
      · exact absurd h ct
      · have := ((C20_merge_errors (y := a) (other := b) false).2 ha.good.valid hb.good.valid ha.good.typed hb.good.typed
          (ha.good.ndim.trans hb.good.ndim.symm)).2.1 (.inl (ha.good.dtype.trans hb.good.dtype.symm)) rfl
          ⟨names, (ha.present hsd names).mpr h1, (hb.present htd names).mpr h2⟩
        simp only [Merges.run, ea, eb, this]

omit [LinearOrder L] in
theorem clash_free_updates {t : Merges L} (h : t.Updates) : ¬ t.Clash := by
  induction t with
  | larry y => exact id
  | call s t u ihs iht =>
    obtain ⟨h1, h2, rfl⟩ := h
    rintro (h | h | ⟨h, -⟩)
    · exact ihs h1 h
    · exact iht h2 h
    · cases h

/-- No two of the larrys have a value for the same names. -/
def NoOverlap (ys : List (Larry L)) : Prop := ys.Pairwise fun a b => ∀ names, HasPresent a names → ¬ HasPresent b names

omit [LinearOrder L] in
theorem clash_free_disjoint {t : Merges L} (h : NoOverlap t.leaves) : ¬ t.Clash := by
  induction t with
  | larry y => exact id
  | call s t u ihs iht =>
    obtain ⟨h1, h2, h3⟩ := List.pairwise_append.mp h
    rintro (h | h | ⟨-, names, ⟨a, ha, hap⟩, b, hb, hbp⟩)
    · exact ihs h1 h
    · exact iht h2 h
    · exact h3 a ha b hb names hap hbp

/-! ## C98 -/

/-- C98. Any number of float, str or object larrys put together with `merge`, with any parentheses: the labels are
all labels, and under each names the value is that of the last larry that has one there. -/
theorem C98_merge {d : DType} (hd : d = .float ∨ d = .str ∨ d = .object) {n : Nat} (t : Merges L)
    (hl : ∀ y ∈ t.leaves, Mergeable d n y) (hc : ¬ t.Clash) :
    ∃ z, t.run = .ok z ∧ z.Valid ∧ z.dtype = d ∧ z.ndim = n ∧
      (∀ k r, z.label[k]? = some r → AllOuter (t.leaves.map fun y => y.label.getD k []) r) ∧
      (∀ names v, z.Has names v ∧ Present d v ↔ Newest d t.leaves names v) ∧
      ((d = .float → ∀ y ∈ t.leaves, FiniteCells y) → ∀ names v, z.Has names v →
        (∀ y ∈ t.leaves, ¬ HasPresent y names) → missingMarker d = some v) := by
  obtain ⟨z, e, h⟩ := (merged_run hd t hl).1 hc
  refine ⟨z, e, h.good.valid, h.good.dtype, h.good.ndim, h.label, h.cell, fun hf names v hz hn => ?_⟩
  refine marker_of_absent hd (h.good.dtype ▸ (typed_iff h.good.valid).mp h.good.typed names v hz) (fun hp => ?_)
    (fun hdf f hvf => h.finite hdf (hf hdf) names f (hvf ▸ hz))
  have : ∃ y ∈ t.leaves, HasPresent y names :=
    (newest_exists (fun y hy => (hl y hy).dtype) names).mp ⟨v, (h.cell names v).mp ⟨hz, hp⟩⟩
  obtain ⟨y, hy, hyp⟩ := this
  exact hn y hy hyp

/-- C98. It raises ValueError exactly when a call without `update` meets two larrys with a value for the same names. -/
theorem C98_clash {d : DType} (hd : d = .float ∨ d = .str ∨ d = .object) {n : Nat} (t : Merges L)
    (hl : ∀ y ∈ t.leaves, Mergeable d n y) : t.run = .error .valueError ↔ t.Clash := by
  refine ⟨fun h => ?_, (merged_run hd t hl).2⟩
  by_contra hc
  obtain ⟨z, e, -⟩ := (merged_run hd t hl).1 hc
  rw [h] at e
  cases e

theorem merged_same {d : DType} (hd : d = .float ∨ d = .str ∨ d = .object) {n : Nat} {t t' : Merges L} {z z' : Larry L}
    (h : MergedFrom d n t z) (h' : MergedFrom d n t' z') (hne : t.leaves ≠ []) (hm : ∀ y, y ∈ t.leaves ↔ y ∈ t'.leaves)
    (hf : d = .float → ∀ y ∈ t.leaves, FiniteCells y)
    (hN : ∀ names v, Newest d t.leaves names v ↔ Newest d t'.leaves names v) : z.Same z' := by
  have hlab : z.label = z'.label := by
    have e1 : z.label.length = n := by rw [h.good.valid.label_length, h.good.ndim]
    have e2 : z'.label.length = n := by rw [h'.good.valid.label_length, h'.good.ndim]
    refine List.ext_getElem (e1.trans e2.symm) fun k h1 h2 => ?_
    refine AllOuter.unique (by simpa using hne) (h.label k _ (List.getElem?_eq_getElem h1))
      (h'.label k _ (List.getElem?_eq_getElem h2)) fun x => ?_
    simp only [List.mem_map, hm]
  refine h.good.valid.same_of_has h'.good.valid hlab (h.good.dtype.trans h'.good.dtype.symm) fun names v hv => ?_
  have ht := h.good.dtype ▸ (typed_iff h.good.valid).mp h.good.typed names v hv
  by_cases hp : Present d v
  · exact ((h'.cell names v).mpr ((hN names v).mp ((h.cell names v).mp ⟨hv, hp⟩))).1
  · obtain ⟨w, hw⟩ := Holds_of_Named (x := z'.x) (hlab ▸ Named_of_Holds hv)
    have ht' := h'.good.dtype ▸ (typed_iff h'.good.valid).mp h'.good.typed names w hw
    have hp' : ¬ Present d w := by
      intro hp'
      have := ((h.cell names w).mpr ((hN names w).mpr ((h'.cell names w).mp ⟨hw, hp'⟩))).1
      rw [Holds_unique h.good.valid.nodup hv this] at hp
      exact hp hp'
    have m1 := marker_of_absent hd ht hp fun hdf f hvf => h.finite hdf (hf hdf) names f (hvf ▸ hv)
    have m2 := marker_of_absent hd ht' hp' fun hdf f hvf => h'.finite hdf
      (fun y hy => hf hdf y ((hm y).mpr hy)) names f (hvf ▸ hw)
    rw [m1] at m2
    obtain rfl := Option.some.inj m2
    exact hw

omit [LinearOrder L] in
theorem leaves_ne (t : Merges L) : t.leaves ≠ [] := by
  induction t with
  | larry y => simp [Merges.leaves]
  | call s t u ihs iht => simp [Merges.leaves, ihs]

/-- C98. Parentheses do not matter to updates: two expressions that put the same larrys together in the same order,
with `update=True`, give the same larry. -/
theorem C98_parentheses {d : DType} (hd : d = .float ∨ d = .str ∨ d = .object) {n : Nat} (t t' : Merges L)
    (hl : ∀ y ∈ t.leaves, Mergeable d n y) (hf : d = .float → ∀ y ∈ t.leaves, FiniteCells y) (hu : t.Updates)
    (hu' : t'.Updates) (he : t.leaves = t'.leaves) :
    ∃ z z', t.run = .ok z ∧ t'.run = .ok z' ∧ z.Same z' := by
  obtain ⟨z, e, h⟩ := (merged_run hd t hl).1 (clash_free_updates hu)
  obtain ⟨z', e', h'⟩ := (merged_run hd t' (he ▸ hl)).1 (clash_free_updates hu')
  exact ⟨z, z', e, e', merged_same hd h h' (leaves_ne t) (fun y => by rw [he]) hf (fun names v => by rw [he])⟩

omit [LinearOrder L] in
theorem newest_disjoint {d : DType} {ys : List (Larry L)} (hd : ∀ y ∈ ys, y.dtype = d) (h : NoOverlap ys) (names : List L)
    (v : Val) : Newest d ys names v ↔ ∃ y ∈ ys, y.Has names v ∧ Present d v := by
  constructor
  · rintro ⟨as, y, bs, rfl, h1, h2, -⟩
    exact ⟨y, by simp, h1, h2⟩
  · rintro ⟨y, hy, h1, h2⟩
    obtain ⟨as, bs, rfl⟩ := List.append_of_mem hy
    refine ⟨as, y, bs, rfl, h1, h2, fun b hb => ?_⟩
    have := (List.pairwise_append.mp h).2.1
    exact (List.pairwise_cons.mp this).1 b hb names ⟨v, h1, by rw [hd y hy]; exact h2⟩

omit [LinearOrder L] in
theorem disjoint_perm {ys zs : List (Larry L)} (h : NoOverlap ys) (hp : ys.Perm zs) : NoOverlap zs :=
  (hp.pairwise_iff (fun h names h1 h2 => h names h2 h1)).mp h

/-- C98. Order does not matter to larrys without overlap: any two expressions that put the same larrys together, in
any order, with or without `update`, give the same larry. -/
theorem C98_any_order {d : DType} (hd : d = .float ∨ d = .str ∨ d = .object) {n : Nat} (t t' : Merges L)
    (hl : ∀ y ∈ t.leaves, Mergeable d n y) (hf : d = .float → ∀ y ∈ t.leaves, FiniteCells y)
    (hdis : NoOverlap t.leaves) (hp : t.leaves.Perm t'.leaves) :
    ∃ z z', t.run = .ok z ∧ t'.run = .ok z' ∧ z.Same z' := by
  have hl' : ∀ y ∈ t'.leaves, Mergeable d n y := fun y hy => hl y (hp.mem_iff.mpr hy)
  have hdis' := disjoint_perm hdis hp
  obtain ⟨z, e, h⟩ := (merged_run hd t hl).1 (clash_free_disjoint hdis)
  obtain ⟨z', e', h'⟩ := (merged_run hd t' hl').1 (clash_free_disjoint hdis')
  refine ⟨z, z', e, e', merged_same hd h h' (leaves_ne t) (fun y => hp.mem_iff) hf fun names v => ?_⟩
  rw [newest_disjoint (fun y hy => (hl y hy).dtype) hdis, newest_disjoint (fun y hy => (hl' y hy).dtype) hdis']
  simp only [hp.mem_iff]

/-- C98. Parts of a larry that cover its values, put together again in any order (overlapping parts with
`update=True`), give back its values under their names. -/
theorem C98_pieces {d : DType} (hd : d = .float ∨ d = .str ∨ d = .object) {n : Nat} {y : Larry L} (hyv : y.Valid) (t : Merges L)
    (hl : ∀ p ∈ t.leaves, Mergeable d n p) (hpart : ∀ p ∈ t.leaves, ∃ lab, p.PartOf y lab)
    (hcover : ∀ names, HasPresent y names → ∃ p ∈ t.leaves, Named p.label names) (hc : ¬ t.Clash) :
    ∃ z, t.run = .ok z ∧ ∀ names v, Present d v → (z.Has names v ↔ y.Has names v) := by
  obtain ⟨z, e, h⟩ := (merged_run hd t hl).1 hc
  have hyd : y.dtype = d := by
    obtain ⟨p, hp⟩ := List.exists_mem_of_ne_nil _ (leaves_ne t)
    obtain ⟨lab, hpo⟩ := hpart p hp
    rw [← hpo.dtype_eq, (hl p hp).dtype]
  refine ⟨z, e, fun names v hpv => ⟨fun hz => ?_, fun hy => ?_⟩⟩
  · obtain ⟨as, p, bs, hs, hpn, -, -⟩ := (h.cell names v).mp ⟨hz, hpv⟩
    obtain ⟨lab, hpo⟩ := hpart p (by rw [hs]; simp)
    exact ((hpo.has names v).mp hpn).2
  · obtain ⟨p, hp, hpN⟩ := hcover names ⟨v, hy, by rw [hyd]; exact hpv⟩
    obtain ⟨lab, hpo⟩ := hpart p hp
    have hpv' : p.Has names v := (hpo.has names v).mpr ⟨hpo.label_eq ▸ hpN, hy⟩
    obtain ⟨w, hw⟩ := (newest_exists (fun y hy => (hl y hy).dtype) names).mpr
      ⟨p, hp, v, hpv', by rw [(hl p hp).dtype]; exact hpv⟩
    obtain ⟨hz, -⟩ := (h.cell names w).mpr hw
    obtain ⟨as, q, bs, hs, hqn, -, -⟩ := hw
    obtain ⟨lab', hqo⟩ := hpart q (by rw [hs]; simp)
    rw [Holds_unique hyv.nodup hy ((hqo.has names w).mp hqn).2]
    exact hz

/-! ### Example: three float larrys -/

def exMergeA : Larry Nat := ⟨⟨[2], fun i => if i = [0] then .flt (.fin 1) else .flt .nan⟩, .float, [[10, 20]]⟩
def exMergeB : Larry Nat := ⟨⟨[2], fun i => if i = [0] then .flt (.fin 2) else .flt (.fin 3)⟩, .float, [[20, 30]]⟩
def exMergeC : Larry Nat := ⟨⟨[1], fun _ => .flt (.fin 5)⟩, .float, [[30]]⟩

/-- `exMergeA.merge(exMergeB).merge(exMergeC, update=True)`. -/
def exMerges : Merges Nat := .call (.call (.larry exMergeA) (.larry exMergeB) false) (.larry exMergeC) true

theorem exMerges_good : ∀ y ∈ exMerges.leaves, Mergeable .float 1 y := by
  have h : exMerges.leaves = [exMergeA, exMergeB, exMergeC] := rfl
  rw [h]
  intro y hy
  simp only [List.mem_cons, List.not_mem_nil, or_false] at hy
  rcases hy with rfl | rfl | rfl
  · refine ⟨⟨by decide, by decide, by decide⟩, fun i hi => ?_, rfl, rfl⟩
    simp only [exMergeA]; split <;> rfl
  · refine ⟨⟨by decide, by decide, by decide⟩, fun i hi => ?_, rfl, rfl⟩
    simp only [exMergeB]; split <;> rfl
  · exact ⟨⟨by decide, by decide, by decide⟩, fun i hi => rfl, rfl, rfl⟩

theorem exMerges_calm : ¬ exMerges.Clash := by
  rintro ((h | h | ⟨-, names, ⟨a, ha, v, hav, hap⟩, b, hb, w, hbw, -⟩) | h | ⟨h, -⟩)
  · exact h
  · exact h
  · simp only [Merges.leaves, List.mem_singleton] at ha hb
    subst ha hb
    obtain ⟨i, hi, rfl⟩ := hav
    obtain ⟨j, hj, -⟩ := hbw
    match i, names, hi, j, hj with
    | [0], [m], hi, [j], hj =>
      obtain rfl : 10 = m := by simpa [At, exMergeA] using hi
      match j, hj with
      | 0, hj => simp [At, exMergeB] at hj
      | 1, hj => simp [At, exMergeB] at hj
      | j + 2, hj => simp [At, exMergeB] at hj
    | [i + 1], [m], hi, _, _ => simp [exMergeA, Present] at hap
    | _ :: _ :: _, [], hi, _, _ => exact hi.elim
    | _ :: _ :: _, [_], hi, _, _ => exact hi.2.elim
    | _ :: _ :: _, _ :: _ :: _, hi, _, _ => exact hi.2.elim
  · exact h
  · cases h

/-- Under 30 the third larry has overwritten the second. -/
example : ∃ z, exMerges.run = .ok z ∧ z.label = [[10, 20, 30]] ∧ z.Has [10] (.flt (.fin 1)) ∧
    z.Has [20] (.flt (.fin 2)) ∧ z.Has [30] (.flt (.fin 5)) := by
  obtain ⟨z, e, hv, -, hn, hlab, hcell, -⟩ := C98_merge (.inl rfl) exMerges exMerges_good exMerges_calm
  have hl1 : z.label.length = 1 := by rw [hv.label_length, hn]
  match hz : z.label, hl1 with
  | [r], _ =>
    have hr := hlab 0 r (by rw [hz]; rfl)
    have hr' : AllOuter [[10, 20], [20, 30], [30]] r := hr
    obtain rfl : r = [10, 20, 30] := by
      refine AllOuter.unique (by simp) hr' ⟨fun l hl => ?_, fun _ => by decide, fun a => ?_⟩ fun _ => Iff.rfl
      · have h1 := hl [10, 20] (by simp)
        have h2 := hl [30] (by simp)
        rw [← h1] at h2; simp at h2
      · simp; omega
    have hC : ∀ m, HasPresent exMergeC [m] → m = 30 := by
      rintro m ⟨v, ⟨i, hi, -⟩, -⟩
      match i, hi with
      | [0], hi => simpa [At, exMergeC, eq_comm] using hi
      | [i + 1], hi => simp [At, exMergeC] at hi
    have hB : ∀ m, HasPresent exMergeB [m] → m = 20 ∨ m = 30 := by
      rintro m ⟨v, ⟨i, hi, -⟩, -⟩
      match i, hi with
      | [0], hi => simp [At, exMergeB] at hi; simp [hi]
      | [1], hi => simp [At, exMergeB] at hi; simp [hi]
      | [i + 2], hi => simp [At, exMergeB] at hi
    refine ⟨z, e, hz, ((hcell _ _).mpr ⟨[], exMergeA, [exMergeB, exMergeC], rfl, ⟨[0], by simp [At, exMergeA], rfl⟩,
      by simp [Present, exMergeA], ?_⟩).1, ((hcell _ _).mpr ⟨[exMergeA], exMergeB, [exMergeC], rfl,
      ⟨[0], by simp [At, exMergeB], rfl⟩, by simp [Present, exMergeB], ?_⟩).1,
      ((hcell _ _).mpr ⟨[exMergeA, exMergeB], exMergeC, [], rfl, ⟨[0], by simp [At, exMergeC], rfl⟩,
      by simp [Present, exMergeC], by simp⟩).1⟩
    · intro b hb hp
      simp only [List.mem_cons, List.not_mem_nil, or_false] at hb
      rcases hb with rfl | rfl
      · rcases hB _ hp with h | h <;> omega
      · have := hC _ hp; omega
    · intro b hb hp
      obtain rfl := List.mem_singleton.mp hb
      have := hC _ hp
      omega

/-- Without `update` the third larry clashes with the second. -/
example : (Merges.call (.call (.larry exMergeA) (.larry exMergeB) false) (.larry exMergeC) false).run =
    .error .valueError := by
  refine (C98_clash (.inl rfl)
    (Merges.call (.call (.larry exMergeA) (.larry exMergeB) false) (.larry exMergeC) false) exMerges_good).mpr (.inr (.inr ⟨rfl, [30], ⟨exMergeB, by simp [Merges.leaves],
    .flt (.fin 3), ⟨[1], by simp [At, exMergeB], rfl⟩, by simp [Present]⟩, exMergeC, by simp [Merges.leaves],
    .flt (.fin 5), ⟨[0], by simp [At, exMergeC], rfl⟩, by simp [Present]⟩))

/-- The first two do not overlap: the first has a missing value under 20. -/
example : NoOverlap [exMergeA, exMergeB] := by
  refine List.pairwise_pair.mpr fun names ha hb => exMerges_calm (.inl (.inr (.inr ⟨rfl, names, ⟨exMergeA, ?_, ha⟩,
    exMergeB, ?_, hb⟩)))
  · simp [Merges.leaves]
  · simp [Merges.leaves]

/-- All three hold finite numbers, so both ways to set the parentheses with `update=True` agree. -/
example : ∃ z z', (Merges.call (.call (.larry exMergeA) (.larry exMergeB) true) (.larry exMergeC) true).run = .ok z ∧
    (Merges.call (.larry exMergeA) (.call (.larry exMergeB) (.larry exMergeC) true) true).run = .ok z' ∧ z.Same z' := by
  refine C98_parentheses (.inl rfl) _ _ exMerges_good (fun _ y hy => ?_) ⟨⟨trivial, trivial, rfl⟩, trivial, rfl⟩
    ⟨trivial, ⟨trivial, trivial, rfl⟩, rfl⟩ rfl
  have hy' : y ∈ [exMergeA, exMergeB, exMergeC] := hy
  simp only [List.mem_cons, List.not_mem_nil, or_false] at hy'
  rcases hy' with rfl | rfl | rfl <;> rintro names f ⟨i, -, hf⟩ <;>
    simp only [exMergeA, exMergeB, exMergeC] at hf <;> (try split at hf) <;> obtain rfl := Val.flt.inj hf <;> simp

end La
