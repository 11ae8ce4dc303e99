import Verif.Props.Align

/-!
# Properties C20, C21: merge
-/

namespace La
open Larry
variable {L : Type _} [LinearOrder L]

/-! ## Specification -/

/-- A value counts as present: not None in an object array, not '' in a string array, finite
otherwise. -/
def Present (d : DType) (v : Val) : Prop :=
  (d = .object → v ≠ .none) ∧ (d = .str → v ≠ .str "") ∧
  ((d = .float ∨ d = .int ∨ d = .bool) → ∀ f, v = .flt f → f ≠ .nan ∧ f ≠ .pinf ∧ f ≠ .ninf)

/-- `b` has a label that `a` does not have on that axis. -/
def NewLabels (a b : Larry L) : Prop := ∃ p ∈ a.label.zip b.label, ∃ l ∈ p.2, l ∉ p.1

/-- dtype of `a` after its axes have been extended by the labels of `b`. -/
noncomputable def extDType (a b : Larry L) : DType := floatIf a.dtype (NewLabels a b)

/-- numpy's safe casts between the modelled dtypes. -/
def SafeCast (s t : DType) : Prop :=
  s = t ∨ (s = .bool ∧ t = .int) ∨ (s = .bool ∧ t = .float) ∨ (s = .int ∧ t = .float)

/-- A value stored in an array of dtype `d`. -/
def asDType (d : DType) (v : Val) : Val :=
  match d, v with
  | .float, .int n => .flt (.fin n)
  | .float, .bool b => .flt (.fin (if b then 1 else 0))
  | .int, .bool b => .int (if b then 1 else 0)
  | _, v => v

/-- Both numeric/bool, or the same dtype. -/
def Mixable (d d' : DType) : Prop := d = d' ∨ (d ∉ [.str, .object] ∧ d' ∉ [.str, .object])

/-- `y` has a present value under `names`. -/
def HasPresent (y : Larry L) (names : List L) : Prop := ∃ w, y.Has names w ∧ Present y.dtype w

/-! ## Helper lemmas -/

omit [LinearOrder L] in
theorem anyAt_iff {shape : List Nat} {p : List Nat → Bool} :
    anyAt shape p = true ↔ ∃ idx, InB shape idx ∧ p idx = true := by
  induction shape generalizing p with
  | nil =>
    simp only [anyAt]
    constructor
    · intro h; exact ⟨[], trivial, h⟩
    · rintro ⟨idx, h, h'⟩
      cases idx with
      | nil => exact h'
      | cons => simp [InB] at h
  | cons n ns ih =>
    simp only [anyAt, List.any_eq_true, List.mem_range, ih]
    constructor
    · rintro ⟨i, hi, is, h, h'⟩; exact ⟨i :: is, ⟨hi, h⟩, h'⟩
    · rintro ⟨idx, h, h'⟩
      cases idx with
      | nil => simp [InB] at h
      | cons i is => exact ⟨i, h.1, is, h.2, h'⟩

theorem presentVal_iff {d : DType} {v : Val} (h : v.hasDType d = true) :
    presentVal d v = true ↔ Present d v := by
  cases d <;> cases v <;> simp_all [presentVal, Present, Val.hasDType, Flt.isFinite]
  rename_i f; cases f <;> simp

theorem presentVal_cast {d : DType} {c : Prop} {v : Val} (h : v.hasDType d = true) :
    presentVal d (castVal d (floatIf d c) v) = true ↔ Present d v := by
  by_cases hc : NoMarker d ∧ c
  · have : floatIf d c = .float := by simp [floatIf, hc]
    rw [this]
    rcases hc.1 with rfl | rfl <;> cases v <;>
      simp_all [castVal, presentVal, Present, Val.hasDType, Val.toFloat, Flt.isFinite]
  · have : floatIf d c = d := by simp only [floatIf, if_neg hc]
    rw [this, castVal_self]; exact presentVal_iff h

theorem presentVal_marker {d : DType} {c : Prop} {m : Val} (h : missingMarker (floatIf d c) = some m) :
    presentVal d m = false := by
  by_cases hc : NoMarker d ∧ c
  · have : floatIf d c = .float := by simp [floatIf, hc]
    rw [this] at h
    simp only [missingMarker, Option.some.injEq] at h
    subst h
    rcases hc.1 with rfl | rfl <;> simp [presentVal, Flt.isFinite]
  · have : floatIf d c = d := by simp only [floatIf, if_neg hc]
    rw [this] at h
    cases d <;> simp_all [missingMarker, presentVal] <;> subst h <;> simp [Flt.isFinite]

theorem canCast_iff {s t : DType} : canCast s t = true ↔ SafeCast s t := by
  cases s <;> cases t <;> simp [canCast, SafeCast]

theorem castSafe_as {d2 d1 : DType} {c : Prop} {w : Val} (hw : w.hasDType d2 = true)
    (hc : SafeCast (floatIf d2 c) d1) :
    castSafe (floatIf d2 c) d1 (castVal d2 (floatIf d2 c) w) = asDType d1 w := by
  by_cases h : NoMarker d2 ∧ c
  · have : floatIf d2 c = .float := by simp [floatIf, h]
    rw [this] at hc ⊢
    have hd1 : d1 = .float := by simpa [SafeCast, eq_comm] using hc
    subst hd1
    rcases h.1 with rfl | rfl <;> cases w <;>
      simp_all [castVal, castSafe, asDType, Val.hasDType, Val.toFloat]
  · have : floatIf d2 c = d2 := by simp only [floatIf, if_neg h]
    rw [this] at hc ⊢
    rw [castVal_self]
    rcases hc with rfl | ⟨rfl, rfl⟩ | ⟨rfl, rfl⟩ | ⟨rfl, rfl⟩ <;> cases w <;>
      simp_all [castSafe, asDType, Val.hasDType, Val.toFloat] <;> cases d2 <;>
      simp_all [asDType]

theorem castVal_as {d : DType} {c : Prop} {w : Val} (hw : w.hasDType d = true) :
    castVal d (floatIf d c) w = asDType (floatIf d c) w := by
  by_cases h : NoMarker d ∧ c
  · have : floatIf d c = .float := by simp [floatIf, h]
    rw [this]
    rcases h.1 with rfl | rfl <;> cases w <;>
      simp_all [castVal, asDType, Val.hasDType, Val.toFloat]
  · have : floatIf d c = d := by simp only [floatIf, if_neg h]
    rw [this, castVal_self]
    cases d <;> cases w <;> simp_all [asDType, Val.hasDType]

/-- The label lists `merge` morphs both larrys to. -/
def mergeTarget (a b : List (List L)) : List (List L) :=
  List.zipWith (fun l1 l2 => if l1 = l2 then l1 else pySorted (setUnion l1 l2)) a b

theorem mergeTarget_joined : ∀ {a b : List (List L)}, a.length = b.length →
    Joined OuterJoined a b (mergeTarget a b)
  | [], [], _ => .nil
  | l1 :: a, l2 :: b, h => by
    refine .cons ?_ (mergeTarget_joined (by simpa using h))
    by_cases he : l1 = l2
    · simp only [if_pos he]; exact ⟨fun _ => rfl, fun hn => absurd he hn⟩
    · simp only [if_neg he]; exact outerJoined_sorted he

theorem Joined.symm_outer {as bs cs : List (List L)}
    (h : Joined OuterJoined as bs cs) : Joined OuterJoined bs as cs := by
  induction h with
  | nil => exact .nil
  | cons hr _ ih => exact .cons hr.symm ih

theorem needsFloat_joined {as bs cs : List (List L)} (h : Joined OuterJoined as bs cs) :
    NeedsFloat (as.zip cs) ↔ ∃ p ∈ as.zip bs, ∃ l ∈ p.2, l ∉ p.1 := by
  unfold NeedsFloat
  induction h with
  | nil => simp
  | @cons a b c as bs cs hr _ ih =>
    simp only [List.zip_cons_cons, List.mem_cons, exists_eq_or_imp, ih]
    refine or_congr ?_ Iff.rfl
    constructor
    · rintro ⟨hne, h | ⟨l, hl, hn⟩⟩
      · exfalso
        apply hne
        rw [h]
        apply List.eq_nil_iff_forall_not_mem.mpr
        intro l hl
        have := hr.mem.mpr (.inl hl)
        rw [h] at this; simp at this
      · exact ⟨l, (hr.mem.mp hl).resolve_left hn, hn⟩
    · rintro ⟨l, hl, hn⟩
      have hc := hr.mem.mpr (.inr hl)
      refine ⟨?_, .inr ⟨l, hc, hn⟩⟩
      rintro rfl
      exact hn hc

theorem MorphedTo.skip {y z : Larry L} (hv : y.Valid) {tgt : List (List L)} {i : Nat}
    (h : MorphedTo y tgt i z) (hlen : tgt.length = y.ndim) {lab : List L}
    (hlab : tgt[i]? = some lab) (hsame : z.label[i]? = some lab) (hnd : lab.Nodup) :
    MorphedTo y tgt (i + 1) z := by
  obtain ⟨z', h1, h2⟩ := h.step hv hlen hlab hnd
  have hzn : z.label.length = z.ndim := h.valid.label_length
  have hi := (List.getElem?_eq_some_iff.mp hsame).1
  have : z.morph lab i = .ok z := by
    unfold morph
    rw [if_neg (by omega), pyIdx_ofNat hi]
    have : z.label.getD i [] = lab := by simp [List.getD, hsame]
    simp only [this, if_true, copy]
  rw [this] at h1
  cases h1
  exact h2

theorem mergeLoop_spec {y other : Larry L} (hv : y.Valid) (ho : other.Valid) (hn : y.ndim = other.ndim)
    (m i : Nat) (him : i + m = y.ndim) {z1 z2 : Larry L}
    (h1 : MorphedTo y (mergeTarget y.label other.label) i z1)
    (h2 : MorphedTo other (mergeTarget y.label other.label) i z2) :
    ∃ z1' z2', mergeLoop (List.range' i m) z1 z2 = .ok (z1', z2') ∧
      MorphedTo y (mergeTarget y.label other.label) y.ndim z1' ∧
      MorphedTo other (mergeTarget y.label other.label) y.ndim z2' := by
  induction m generalizing i z1 z2 with
  | zero => exact ⟨z1, z2, rfl, by rw [← him]; exact h1, by rw [← him]; exact h2⟩
  | succ m ih =>
    have hyl := hv.label_length
    have hol := ho.label_length
    have hj := mergeTarget_joined (a := y.label) (b := other.label) (by omega)
    have htl : (mergeTarget y.label other.label).length = y.ndim := by rw [hj.lengths.1, hyl]
    have hiy : i < y.label.length := by omega
    have hio : i < other.label.length := by omega
    obtain ⟨lab, hlab, hR⟩ := hj.get i y.label[i] other.label[i] (by simp) (by simp)
    have hnd : lab.Nodup := hR.nodup (hv.nodup _ (List.getElem_mem hiy))
    have hz1 : z1.label[i]? = some y.label[i] := by
      rw [h1.label_eq, List.getElem?_append_right (by simp)]
      simp [Nat.min_eq_left (Nat.le_of_lt (by omega : i < (mergeTarget y.label other.label).length)), hiy]
    have hz2 : z2.label[i]? = some other.label[i] := by
      rw [h2.label_eq, List.getElem?_append_right (by simp)]
      simp [Nat.min_eq_left (Nat.le_of_lt (by omega : i < (mergeTarget y.label other.label).length)), hio]
    have g1 : z1.label.getD i [] = y.label[i] := by simp [List.getD, hz1]
    have g2 : z2.label.getD i [] = other.label[i] := by simp [List.getD, hz2]
    have hlab' : lab = if y.label[i] = other.label[i] then y.label[i] else
        pySorted (setUnion y.label[i] other.label[i]) := by
      unfold mergeTarget at hlab
      rw [List.getElem?_zipWith] at hlab
      simp [hiy, hio] at hlab
      exact hlab.symm
    rw [List.range'_succ]
    by_cases he : y.label[i] = other.label[i]
    · rw [if_pos he] at hlab'
      obtain ⟨z1', z2', k1, k2, k3⟩ := ih (i + 1) (by omega)
        (h1.skip hv htl hlab (by rw [hz1, hlab']) hnd)
        (h2.skip ho (by rw [htl, hn]) hlab (by rw [hz2, hlab', he]) hnd)
      refine ⟨z1', z2', ?_, k2, k3⟩
      simp only [mergeLoop, g1, g2, if_pos he, k1]
    · rw [if_neg he] at hlab'
      obtain ⟨w1, a1, a2⟩ := h1.step hv htl hlab hnd
      obtain ⟨w2, b1, b2⟩ := h2.step ho (by rw [htl, hn]) hlab hnd
      obtain ⟨z1', z2', k1, k2, k3⟩ := ih (i + 1) (by omega) a2 b2
      refine ⟨z1', z2', ?_, k2, k3⟩
      rw [hlab'] at a1 b1
      simp only [mergeLoop, g1, g2, if_neg he, a1, b1, k1]

/-- One morphed side of a merge. -/
structure MergeSide (a b : Larry L) (tgt : List (List L)) (z : Larry L) : Prop where
  label_eq : z.label = tgt
  valid : z.Valid
  dtype_eq : z.dtype = extDType a b
  re : Reindexed a.label a.x tgt z.x (castVal a.dtype (extDType a b)) (missingMarker (extDType a b))

theorem MergeSide.of {a b z : Larry L} (ha : a.Valid) {tgt : List (List L)}
    (hj : Joined OuterJoined a.label b.label tgt) (h : MorphedTo a tgt a.ndim z) :
    MergeSide a b tgt z := by
  have hl := hj.lengths.1
  have hal := ha.label_length
  have hlabel : z.label = tgt := by
    rw [h.label_eq, List.take_of_length_le (by omega), ← hal, List.drop_length, List.append_nil]
  have hd : z.dtype = extDType a b := by
    rw [h.dtype_eq, List.take_of_length_le (by simp; omega)]
    have hc : NeedsFloat (a.label.zip tgt) ↔ NewLabels a b := needsFloat_joined hj
    unfold likeDType extDType floatIf
    by_cases h : NoMarker a.dtype ∧ NewLabels a b
    · rw [if_pos h, if_pos ⟨h.1, hc.mpr h.2⟩]
    · rw [if_neg h, if_neg (fun h' => h ⟨h'.1, hc.mp h'.2⟩)]
  exact ⟨hlabel, h.valid, hd, by rw [← hd, ← hlabel]; exact h.re⟩

/-- The presence mask of one side at the position of `names`. -/
theorem MergeSide.mask {a b z : Larry L} (ht : a.Typed) (ha : a.Valid) {tgt : List (List L)}
    (h : MergeSide a b tgt z) {idx : List Nat} {names : List L} (hat : At tgt idx names) :
    presentVal a.dtype (z.x.get idx) = true ↔ HasPresent a names := by
  obtain ⟨_, ⟨w, hw, he⟩ | ⟨hno, hm⟩⟩ := (h.re names _).mp ⟨idx, hat, rfl⟩
  · have hwt := (typed_iff ha).mp ht names w hw
    rw [he, extDType, presentVal_cast hwt]
    constructor
    · intro hp; exact ⟨w, hw, hp⟩
    · rintro ⟨w', hw', hp⟩
      rw [Holds_unique ha.nodup hw hw']; exact hp
  · rw [presentVal_marker hm]
    constructor
    · intro h; simp at h
    · rintro ⟨w, hw, _⟩; exact absurd (Named_of_Holds hw) hno

theorem mixable_iff (d d' : DType) : Mixable d d' ↔
    ¬ ((d = .object ∨ d' = .object ∨ d = .str ∨ d' = .str) ∧ d ≠ d') := by
  cases d <;> cases d' <;> simp [Mixable]

theorem merge_sides {y other : Larry L} (hv : y.Valid) (ho : other.Valid) (hn : y.ndim = other.ndim) :
    ∃ tgt z1 z2, Joined OuterJoined y.label other.label tgt ∧
      mergeLoop (List.range y.ndim) y other = .ok (z1, z2) ∧
      MergeSide y other tgt z1 ∧ MergeSide other y tgt z2 := by
  have hyl := hv.label_length
  have hol := ho.label_length
  have hj := mergeTarget_joined (a := y.label) (b := other.label) (by omega)
  obtain ⟨z1, z2, h1, h2, h3⟩ := mergeLoop_spec hv ho hn y.ndim 0 (by omega) (.zero hv _) (.zero ho _)
  refine ⟨_, z1, z2, hj, by rw [List.range_eq_range']; exact h1, .of hv hj h2, .of ho hj.symm_outer ?_⟩
  rw [← hn]; exact h3

theorem named_outer {as bs cs : List (List L)} (hj : Joined OuterJoined as bs cs) {names : List L}
    (h : Named as names) : Named cs names := by
  induction hj generalizing names with
  | nil => exact h
  | cons hr _ ih =>
    cases names with
    | nil => simp [Named] at h
    | cons n ns => exact ⟨hr.mem.mpr (.inl h.1), ih h.2⟩

/-! ## C20 -/

/-- C20. `y.merge(other, update)`, when it succeeds: the labels are the outer join on every axis; the
value under each names is `other`'s if present, else `y`'s if `y` has the cell, else missing. -/
theorem C20_merge {y other : Larry L} (hv : y.Valid) (ho : other.Valid) (ht : y.Typed) (hto : other.Typed)
    (hn : y.ndim = other.ndim) (hmix : Mixable y.dtype other.dtype) {update : Bool}
    (hup : update = true ∨ ¬ ∃ names, HasPresent y names ∧ HasPresent other names)
    (hcast : SafeCast (extDType other y) (extDType y other) ∨ ¬ ∃ names, HasPresent other names) :
    ∃ z, merge y other update = .ok z ∧ z.Valid ∧ z.dtype = extDType y other ∧
      Joined OuterJoined y.label other.label z.label ∧
      ∀ names, Named z.label names →
        (∀ w, other.Has names w → Present other.dtype w → z.get names = .ok (asDType z.dtype w)) ∧
        (¬ HasPresent other names → ∀ w, y.Has names w → z.get names = .ok (asDType z.dtype w)) ∧
        (¬ HasPresent other names → ¬ Named y.label names →
          ∃ m, z.get names = .ok m ∧ missingMarker z.dtype = some m) := by
  obtain ⟨tgt, z1, z2, hj, h1, s1, s2⟩ := merge_sides hv ho hn
  have hz1 : z1.x.shape = tgt.map List.length := s1.label_eq ▸ s1.valid.shape_eq
  have hany : anyAt z1.x.shape (fun i => presentVal y.dtype (z1.x.get i) &&
      presentVal other.dtype (z2.x.get i)) = true ↔
        ∃ names, HasPresent y names ∧ HasPresent other names := by
    rw [anyAt_iff, hz1]
    constructor
    · rintro ⟨idx, hb, h⟩
      obtain ⟨names, hat⟩ := At_of_inB hb
      rw [Bool.and_eq_true, s1.mask ht hv hat, s2.mask hto ho hat] at h
      exact ⟨names, h⟩
    · rintro ⟨names, hp1, hp2⟩
      obtain ⟨w, hw, _⟩ := id hp1
      obtain ⟨idx, hat⟩ := At_of_Named (named_outer hj (Named_of_Holds hw))
      refine ⟨idx, At_inB hat, ?_⟩
      rw [Bool.and_eq_true, s1.mask ht hv hat, s2.mask hto ho hat]
      exact ⟨hp1, hp2⟩
  have hany2 : anyAt z1.x.shape (fun i => presentVal other.dtype (z2.x.get i)) = true →
        ∃ names, HasPresent other names := by
    rw [anyAt_iff, hz1]
    rintro ⟨idx, hb, h⟩
    obtain ⟨names, hat⟩ := At_of_inB hb
    exact ⟨names, (s2.mask hto ho hat).mp h⟩
  have hnotover : ¬ ((!update && anyAt z1.x.shape (fun i => presentVal y.dtype (z1.x.get i) &&
      presentVal other.dtype (z2.x.get i))) = true) := by
    rw [Bool.and_eq_true, hany]
    rintro ⟨h, h'⟩
    rcases hup with hup | hup
    · simp [hup] at h
    · exact hup h'
  -- the merged array, whichever branch is taken
  have hres : ∃ z, merge y other update = .ok z ∧ z.x.shape = z1.x.shape ∧ z.dtype = extDType y other ∧
      z.label = tgt ∧ ∀ idx, InB z1.x.shape idx → z.x.get idx =
        if presentVal other.dtype (z2.x.get idx) then
          castSafe (extDType other y) (extDType y other) (z2.x.get idx) else z1.x.get idx := by
    have hm : merge y other update = (if anyAt z1.x.shape (fun i => presentVal other.dtype (z2.x.get i)) then
          if canCast z2.dtype z1.dtype then
            .ok { z1 with x := ⟨z1.x.shape, fun i =>
              if presentVal other.dtype (z2.x.get i) then castSafe z2.dtype z1.dtype (z2.x.get i)
              else z1.x.get i⟩ }
          else .error .typeError
        else .ok z1) := by
      unfold merge
      rw [if_neg (by simp [hn]), h1]
      simp only
      rw [if_neg ((mixable_iff _ _).mp hmix), if_neg hnotover]
    rw [hm]
    by_cases hA : anyAt z1.x.shape (fun i => presentVal other.dtype (z2.x.get i)) = true
    · have hc := hcast.resolve_right (fun h => h (hany2 hA))
      rw [if_pos hA, if_pos (by rw [s1.dtype_eq, s2.dtype_eq]; exact canCast_iff.mpr hc)]
      refine ⟨_, rfl, rfl, s1.dtype_eq, s1.label_eq, ?_⟩
      intro idx _
      simp only [s1.dtype_eq, s2.dtype_eq]
    · rw [if_neg hA]
      refine ⟨z1, rfl, rfl, s1.dtype_eq, s1.label_eq, ?_⟩
      intro idx hb
      rw [if_neg]
      intro h
      exact hA (anyAt_iff.mpr ⟨idx, hb, h⟩)
  obtain ⟨z, hz, hsh, hd, hlab, hval⟩ := hres
  have hzv : z.Valid := by
    show ValidLabels _ _
    rw [hlab, hsh]
    have := s1.valid
    unfold Larry.Valid at this
    rw [s1.label_eq] at this
    exact this
  refine ⟨z, hz, hzv, hd, hlab ▸ hj, ?_⟩
  intro names hN
  rw [hlab] at hN
  obtain ⟨idx, hat⟩ := At_of_Named hN
  have hb : InB z1.x.shape idx := hz1 ▸ At_inB hat
  have hget : ∀ v, z.x.get idx = v → z.get names = .ok v := fun v h =>
    (get_ok_iff hzv).mpr ⟨idx, hlab ▸ hat, h⟩
  refine ⟨?_, ?_, ?_⟩
  · intro w hw hp
    apply hget
    have hp' : HasPresent other names := ⟨w, hw, hp⟩
    rw [hval idx hb, if_pos ((s2.mask hto ho hat).mpr hp'), hd]
    have hc := hcast.resolve_right (fun h => h ⟨names, hp'⟩)
    obtain ⟨_, ⟨w', hw', he⟩ | ⟨hno, _⟩⟩ := (s2.re names _).mp ⟨idx, hat, rfl⟩
    · rw [Holds_unique ho.nodup hw' hw] at he
      rw [he]
      exact castSafe_as ((typed_iff ho).mp hto names w hw) hc
    · exact absurd (Named_of_Holds hw) hno
  · intro hno w hw
    apply hget
    rw [hval idx hb, if_neg (fun h => hno ((s2.mask hto ho hat).mp h)), hd]
    obtain ⟨_, ⟨w', hw', he⟩ | ⟨hno', _⟩⟩ := (s1.re names _).mp ⟨idx, hat, rfl⟩
    · rw [Holds_unique hv.nodup hw' hw] at he
      rw [he]
      exact castVal_as ((typed_iff hv).mp ht names w hw)
    · exact absurd (Named_of_Holds hw) hno'
  · intro hno hny
    refine ⟨_, hget _ rfl, ?_⟩
    rw [hval idx hb, if_neg (fun h => hno ((s2.mask hto ho hat).mp h)), hd]
    obtain ⟨_, ⟨w', hw', he⟩ | ⟨_, hm⟩⟩ := (s1.re names _).mp ⟨idx, hat, rfl⟩
    · exact absurd (Named_of_Holds hw') hny
    · exact hm

/-- C20: the ways `merge` fails.  Different ndim: IndexError.  Mixing str or object with another dtype:
TypeError.  Without `update`, a cell present in both: ValueError.  Present values that would have to be
stored in an array of smaller dtype: TypeError. -/
theorem C20_merge_errors {y other : Larry L} (update : Bool) :
    (y.ndim ≠ other.ndim → merge y other update = .error .indexError) ∧
    (y.Valid → other.Valid → y.Typed → other.Typed → y.ndim = other.ndim →
      (¬ Mixable y.dtype other.dtype → merge y other update = .error .typeError) ∧
      (Mixable y.dtype other.dtype → update = false →
        (∃ names, HasPresent y names ∧ HasPresent other names) →
        merge y other update = .error .valueError) ∧
      (Mixable y.dtype other.dtype → (update = true ∨ ¬ ∃ names, HasPresent y names ∧ HasPresent other names) →
        ¬ SafeCast (extDType other y) (extDType y other) → (∃ names, HasPresent other names) →
        merge y other update = .error .typeError)) := by
  refine ⟨fun h => by simp [merge, h], fun hv ho ht hto hn => ?_⟩
  obtain ⟨tgt, z1, z2, hj, h1, s1, s2⟩ := merge_sides hv ho hn
  have hz1 : z1.x.shape = tgt.map List.length := s1.label_eq ▸ s1.valid.shape_eq
  refine ⟨fun hmix => ?_, fun hmix hup ⟨names, hp1, hp2⟩ => ?_, fun hmix hup hcast ⟨names, hp2⟩ => ?_⟩
  · unfold merge
    rw [if_neg (by simp [hn]), h1]
    simp only
    rw [if_pos (by rw [mixable_iff, not_not] at hmix; exact hmix)]
  · unfold merge
    rw [if_neg (by simp [hn]), h1]
    simp only
    rw [if_neg ((mixable_iff _ _).mp hmix), if_pos]
    rw [Bool.and_eq_true, anyAt_iff]
    obtain ⟨w, hw, _⟩ := id hp1
    obtain ⟨idx, hat⟩ := At_of_Named (named_outer hj (Named_of_Holds hw))
    exact ⟨by simp [hup], idx, hz1 ▸ At_inB hat, by
      rw [Bool.and_eq_true, s1.mask ht hv hat, s2.mask hto ho hat]; exact ⟨hp1, hp2⟩⟩
  · unfold merge
    rw [if_neg (by simp [hn]), h1]
    simp only
    rw [if_neg ((mixable_iff _ _).mp hmix), if_neg, if_pos, if_neg]
    · rw [s1.dtype_eq, s2.dtype_eq, canCast_iff]; exact hcast
    · rw [anyAt_iff]
      obtain ⟨w, hw, _⟩ := id hp2
      obtain ⟨idx, hat⟩ := At_of_Named (named_outer hj.symm_outer (Named_of_Holds hw))
      exact ⟨idx, hz1 ▸ At_inB hat, (s2.mask hto ho hat).mpr hp2⟩
    · rw [Bool.and_eq_true, anyAt_iff]
      rintro ⟨h, idx, hb, h'⟩
      rcases hup with hup | hup
      · simp [hup] at h
      · rw [hz1] at hb
        obtain ⟨names, hat⟩ := At_of_inB hb
        rw [Bool.and_eq_true, s1.mask ht hv hat, s2.mask hto ho hat] at h'
        exact hup ⟨names, h'⟩

/-- The hypotheses can be met: the int larry `exB` merged into the float larry `exA` with update. -/
example : Mixable exA.dtype exB.dtype ∧ SafeCast (extDType exB exA) (extDType exA exB) := by
  refine ⟨.inr (by decide), ?_⟩
  have h1 : extDType exA exB = .float := floatIf_of_marker (m := .flt .nan) rfl
  have h2 : extDType exB exA = .float := by
    unfold extDType floatIf
    rw [if_pos]
    exact ⟨.inl rfl, ([20, 30], [10, 20]), by simp [exA, exB], 10, by simp, by simp⟩
  rw [h1, h2]; exact .inl rfl
/-- and the cast really can be unsafe: a float larry merged into an int larry with all its labels. -/
example : ¬ SafeCast (extDType (⟨exB.x, .float, exB.label⟩ : Larry Nat) exB)
    (extDType exB ⟨exB.x, .float, exB.label⟩) := by
  have h1 : extDType (⟨exB.x, .float, exB.label⟩ : Larry Nat) exB = .float :=
    floatIf_of_marker (m := .flt .nan) rfl
  have h2 : extDType exB (⟨exB.x, .float, exB.label⟩ : Larry Nat) = .int := by
    unfold extDType
    rw [floatIf_false]
    · rfl
    · rintro ⟨p, hp, l, hl, hn⟩
      simp [exB] at hp
      rcases hp with rfl | rfl <;> exact hn hl
  rw [h1, h2]; simp [SafeCast]

/-! ## C21 -/

/-- C21. Two float larrys with no cell present in both can be merged either way round, with the same
labels and the same present values. -/
theorem C21_merge_symmetric {y other : Larry L} (hv : y.Valid) (ho : other.Valid) (ht : y.Typed)
    (hto : other.Typed) (hn : y.ndim = other.ndim) (hd : y.dtype = .float) (hdo : other.dtype = .float)
    (hover : ¬ ∃ names, HasPresent y names ∧ HasPresent other names) (update update' : Bool) :
    ∃ z z', merge y other update = .ok z ∧ merge other y update' = .ok z' ∧ z.label = z'.label ∧
      z.dtype = .float ∧ z'.dtype = .float ∧
      (∀ names v, Present .float v → (z.get names = .ok v ↔ z'.get names = .ok v)) ∧
      (∀ names, (∃ v, z.get names = .ok v ∧ Present .float v) ↔ HasPresent y names ∨ HasPresent other names) := by
  have e1 : ∀ {a b : Larry L}, a.dtype = .float → extDType a b = .float := fun h => by
    unfold extDType; rw [h]; exact floatIf_of_marker (m := .flt .nan) rfl
  have hover' : ¬ ∃ names, HasPresent other names ∧ HasPresent y names :=
    fun ⟨n, h, h'⟩ => hover ⟨n, h', h⟩
  obtain ⟨z, h1, h2, h3, h4, h5⟩ := C20_merge (update := update) hv ho ht hto hn
    (.inl (hd.trans hdo.symm)) (.inr hover) (.inl (.inl (by rw [e1 hd, e1 hdo])))
  obtain ⟨z', g1, g2, g3, g4, g5⟩ := C20_merge (update := update') ho hv hto ht hn.symm
    (.inl (hdo.trans hd.symm)) (.inr hover') (.inl (.inl (by rw [e1 hd, e1 hdo])))
  rw [e1 hd] at h3
  rw [e1 hdo] at g3
  have hlab : z.label = z'.label := by
    have := h4.symm_outer
    exact Joined.unique (R := OuterJoined) (fun a b c c' h h' => OuterJoined.unique h h') this g4
  -- present values of a merge, exactly
  have key : ∀ {a b m : Larry L}, a.dtype = .float → b.dtype = .float → a.Typed → b.Typed →
      a.Valid → b.Valid → m.Valid → m.dtype = .float →
      Joined OuterJoined a.label b.label m.label →
      (¬ ∃ names, HasPresent a names ∧ HasPresent b names) →
      (∀ names, Named m.label names →
        (∀ w, b.Has names w → Present b.dtype w → m.get names = .ok (asDType m.dtype w)) ∧
        (¬ HasPresent b names → ∀ w, a.Has names w → m.get names = .ok (asDType m.dtype w)) ∧
        (¬ HasPresent b names → ¬ Named a.label names →
          ∃ v, m.get names = .ok v ∧ missingMarker m.dtype = some v)) →
      ∀ names v, Present .float v → (m.get names = .ok v ↔ (a.Has names v ∨ b.Has names v)) := by
    intro a b m ha hb hta htb hva hvb hm hmd hj hov hval names v hp
    have hid : ∀ {c : Larry L} {w : Val}, c.dtype = .float → c.Typed → c.Valid → c.Has names w →
        asDType .float w = w := by
      intro c w hc htc hvc hw
      have := (typed_iff hvc).mp htc names w hw
      rw [hc] at this
      cases w <;> simp_all [Val.hasDType, asDType]
    constructor
    · intro hg
      have hN : Named m.label names := Named_of_Holds ((get_ok_iff hm).mp hg)
      obtain ⟨k1, k2, k3⟩ := hval names hN
      by_cases hb' : HasPresent b names
      · obtain ⟨w, hw, hwp⟩ := hb'
        have := k1 w hw hwp
        rw [hg, hmd, hid hb htb hvb hw] at this
        cases this
        exact .inr hw
      · by_cases hNa : Named a.label names
        · obtain ⟨w, hw⟩ := Holds_of_Named (x := a.x) hNa
          have := k2 hb' w hw
          rw [hg, hmd, hid ha hta hva hw] at this
          cases this
          exact .inl hw
        · obtain ⟨mm, q1, q2⟩ := k3 hb' hNa
          rw [hg] at q1
          cases q1
          rw [hmd] at q2
          simp only [missingMarker, Option.some.injEq] at q2
          subst q2
          exact absurd rfl ((hp.2.2 (.inl rfl) .nan rfl).1)
    · rintro (hw | hw)
      · have hN := named_outer hj (Named_of_Holds hw)
        have hpa : HasPresent a names := ⟨v, hw, by rw [ha]; exact hp⟩
        have := (hval names hN).2.1 (fun h => hov ⟨names, hpa, h⟩) v hw
        rw [this, hmd, hid ha hta hva hw]
      · have hN := named_outer hj.symm_outer (Named_of_Holds hw)
        have := (hval names hN).1 v hw (by rw [hb]; exact hp)
        rw [this, hmd, hid hb htb hvb hw]
  have k1 := key hd hdo ht hto hv ho h2 h3 h4 hover h5
  have k2 := key hdo hd hto ht ho hv g2 g3 g4 hover' g5
  refine ⟨z, z', h1, g1, hlab, h3, g3, ?_, ?_⟩
  · intro names v hp
    rw [k1 names v hp, k2 names v hp, or_comm]
  · intro names
    constructor
    · rintro ⟨v, hg, hp⟩
      rcases (k1 names v hp).mp hg with h | h
      · exact .inl ⟨v, h, by rw [hd]; exact hp⟩
      · exact .inr ⟨v, h, by rw [hdo]; exact hp⟩
    · rintro (⟨v, h, hp⟩ | ⟨v, h, hp⟩)
      · rw [hd] at hp; exact ⟨v, (k1 names v hp).mpr (.inl h), hp⟩
      · rw [hdo] at hp; exact ⟨v, (k1 names v hp).mpr (.inr h), hp⟩

end La
