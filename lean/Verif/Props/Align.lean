import Verif.AlignFacts
import Verif.Examples

/-!
# Properties C16–C19, C22: align, align_axis, union, intersection, binaryop
-/

namespace La
open Larry
variable {L : Type _}

/-! ## Specification -/

/-- The list of per-axis joins meant by a `join` argument for `n` axes: one string stands for all
axes, a list must have one entry per axis. -/
def JoinsFor (n : Nat) : JoinArg → List Join → Prop
  | .one j, js => js = List.replicate n j
  | .many js', js => js = js' ∧ js.length = n

/-- `z` is `y` re-labelled: where the names existed in `y` the value is `y`'s (converted if the dtype
changed), elsewhere it is the missing marker of the dtype of `z`. -/
def CarriedOver [LinearOrder L] (y z : Larry L) : Prop :=
  (∀ names v, y.Has names v → Named z.label names →
    z.get names = .ok (if z.dtype = y.dtype then v else v.toFloat)) ∧
  (∀ names, Named z.label names → ¬ Named y.label names →
    ∃ m, z.get names = .ok m ∧ missingMarker z.dtype = some m)

theorem carriedOver_of_reindexed [LinearOrder L] {y z : Larry L} (hz : z.Valid)
    (h : Reindexed y.label y.x z.label z.x (castVal y.dtype z.dtype) (missingMarker z.dtype)) :
    CarriedOver y z := by
  constructor
  · intro names v hh hN
    rw [get_ok_iff hz]
    refine (h names _).mpr ⟨hN, .inl ⟨v, hh, ?_⟩⟩
    simp [castVal, eq_comm]
  · intro names hN hno
    obtain ⟨m, hm⟩ := Holds_of_Named (x := z.x) hN
    refine ⟨m, (get_ok_iff hz).mpr hm, ?_⟩
    rcases ((h names m).mp hm).2 with ⟨w, hw, _⟩ | ⟨_, h⟩
    · exact absurd (Named_of_Holds hw) hno
    · exact h

/-- Axis `ax` of the call fails with exception `e`. -/
def FailsAt [LinearOrder L] (lar1 lar2 : Larry L) (js : List Join) (cast : Bool) (e : PyErr) : Prop :=
  ∃ p ∈ js.zip (lar1.label.zip lar2.label), AxisFails cast lar1.dtype lar2.dtype p.1 p.2.1 p.2.2 e

theorem AllJoined.nodup [LinearOrder L] {js : List Join} {l1 l2 r1 r2 : List (List L)}
    (h : AllJoined js l1 l2 r1 r2) (h1 : ∀ l ∈ l1, l.Nodup) (h2 : ∀ l ∈ l2, l.Nodup) :
    (∀ l ∈ r1, l.Nodup) ∧ (∀ l ∈ r2, l.Nodup) := by
  induction h with
  | nil => simp
  | @cons j a b r s js as bs rs ss hj _ ih =>
    simp only [List.mem_cons, forall_eq_or_imp] at h1 h2 ⊢
    have := ih h1.2 h2.2
    have hr : r.Nodup ∧ s.Nodup := by
      cases j <;> simp only [AxisJoined] at hj
      · obtain ⟨h, rfl⟩ := hj; exact ⟨h.nodup h1.1, h.nodup h1.1⟩
      · obtain ⟨h, rfl⟩ := hj; exact ⟨h.nodup h1.1, h.nodup h1.1⟩
      · rw [hj.1, hj.2]; exact ⟨h1.1, h1.1⟩
      · rw [hj.1, hj.2]; exact ⟨h2.1, h2.1⟩
      · rw [hj.1, hj.2]; exact ⟨h1.1, h2.1⟩
    exact ⟨⟨hr.1, this.1⟩, hr.2, this.2⟩

theorem AllJoined.lengths [LinearOrder L] {js : List Join} {l1 l2 r1 r2 : List (List L)}
    (h : AllJoined js l1 l2 r1 r2) :
    l1.length = js.length ∧ l2.length = js.length ∧ r1.length = js.length ∧ r2.length = js.length := by
  induction h with
  | nil => simp
  | cons _ _ ih => simp [ih]

theorem AllJoined.same [LinearOrder L] {js : List Join} {l1 l2 r1 r2 : List (List L)}
    (h : AllJoined js l1 l2 r1 r2) (hs : ∀ j ∈ js, j ≠ .skip) : r1 = r2 := by
  induction h with
  | nil => rfl
  | @cons j a b r s js as bs rs ss hj _ ih =>
    simp only [List.mem_cons, forall_eq_or_imp] at hs
    rw [ih hs.2]
    have : r = s := by
      cases j <;> simp only [AxisJoined] at hj
      · exact hj.2.symm
      · exact hj.2.symm
      · rw [hj.1, hj.2]
      · rw [hj.1, hj.2]
      · exact absurd rfl hs.1
    rw [this]

theorem alignRaw_loop [LinearOrder L] {lar1 lar2 : Larry L}
    (hn : lar1.ndim = lar2.ndim) {join : JoinArg} {js : List Join}
    (hj : JoinsFor lar2.ndim join js) (cast : Bool) :
    alignRaw lar1 lar2 join cast = alignRawLoop cast (js.zip (lar1.label.zip lar2.label)) 0
      ⟨lar1.x, lar1.dtype, true, lar2.x, lar2.dtype, true⟩ := by
  unfold alignRaw
  rw [if_neg (by simp [hn])]
  cases join with
  | one j => simp only [JoinsFor] at hj; subst hj; rfl
  | many js' =>
    simp only [JoinsFor] at hj
    obtain ⟨rfl, h⟩ := hj
    simp only
    rw [if_neg (by simp [h])]

theorem JoinsFor.length {n : Nat} {join : JoinArg} {js : List Join} (hj : JoinsFor n join js) :
    js.length = n := by
  cases join with
  | one j => simp only [JoinsFor] at hj; simp [hj]
  | many js' => exact hj.2

/-- Everything about a successful `align_raw`. -/
theorem alignRaw_ok [LinearOrder L] {lar1 lar2 : Larry L} (h1 : lar1.Valid) (h2 : lar2.Valid)
    (hn : lar1.ndim = lar2.ndim) {join : JoinArg} {js : List Join}
    (hj : JoinsFor lar2.ndim join js) {cast : Bool} (hok : ∀ e, ¬ FailsAt lar1 lar2 js cast e) :
    ∃ s labs r1 r2, alignRaw lar1 lar2 join cast = .ok (s, labs) ∧
      AllJoined js lar1.label lar2.label r1 r2 ∧ r1 = pickLabel lar1.label labs ∧
      r2 = pickLabel lar2.label labs ∧ ((∀ j ∈ js, j ≠ .skip) → labs = r1.map some) ∧
      ValidLabels r1 s.x1.shape ∧ ValidLabels r2 s.x2.shape ∧
      s.d1 = floatIf lar1.dtype (∃ p ∈ js.zip (lar1.label.zip lar2.label), NewIn1 p.1 p.2.1 p.2.2) ∧
      s.d2 = floatIf lar2.dtype (∃ p ∈ js.zip (lar1.label.zip lar2.label), NewIn2 p.1 p.2.1 p.2.2) ∧
      Reindexed lar1.label lar1.x r1 s.x1 (castVal lar1.dtype s.d1) (missingMarker s.d1) ∧
      Reindexed lar2.label lar2.x r2 s.x2 (castVal lar2.dtype s.d2) (missingMarker s.d2) := by
  have hl1 := h1.label_length
  have hl2 := h2.label_length
  have hjl := hj.length
  obtain ⟨s, labs, r1, r2, a1, a2, a3, a4, a5, a6, a7, a8, a9, a10, a11⟩ :=
    alignRawLoop_ok (cast := cast) js lar1.label lar2.label [] []
      ⟨lar1.x, lar1.dtype, true, lar2.x, lar2.dtype, true⟩ (by omega) (by omega) rfl
      (by simpa using h1.shape_eq) (by simpa using h2.shape_eq) (by simpa using h1.nodup)
      (by simpa using h2.nodup) (fun p hp e hf => hok e ⟨p, hp, hf⟩)
  have hnd := a2.nodup h1.nodup h2.nodup
  have hlen := a2.lengths
  have p1 := h1.ndim_pos
  have : 0 < lar1.label.length := List.length_pos_iff.mpr p1
  refine ⟨s, labs, r1, r2, by rw [alignRaw_loop hn hj]; exact a1, a2, a3, a4, a5,
    ⟨by simpa using a6, hnd.1, List.length_pos_iff.mp (by omega)⟩,
    ⟨by simpa using a7, hnd.2, List.length_pos_iff.mp (by omega)⟩, a8, a9, ?_, ?_⟩
  · simpa using a10
  · simpa using a11

theorem alignRaw_fail [LinearOrder L] {lar1 lar2 : Larry L} (h1 : lar1.Valid) (h2 : lar2.Valid)
    (hn : lar1.ndim = lar2.ndim) {join : JoinArg} {js : List Join}
    (hj : JoinsFor lar2.ndim join js) {cast : Bool} (hf : ∃ e, FailsAt lar1 lar2 js cast e) :
    ∃ e, alignRaw lar1 lar2 join cast = .error e ∧
      FirstRaises cast lar1.dtype lar2.dtype (js.zip (lar1.label.zip lar2.label)) e := by
  have hl1 := h1.label_length
  have hl2 := h2.label_length
  have hjl := hj.length
  obtain ⟨e0, p, hp, hf⟩ := hf
  obtain ⟨e, a1, a2⟩ :=
    alignRawLoop_fail (cast := cast) js lar1.label lar2.label [] []
      ⟨lar1.x, lar1.dtype, true, lar2.x, lar2.dtype, true⟩ (by omega) (by omega) rfl
      (by simpa using h1.shape_eq) (by simpa using h2.shape_eq) (by simpa using h1.nodup)
      (by simpa using h2.nodup) ⟨p, hp, e0, hf⟩
  exact ⟨e, by rw [alignRaw_loop hn hj]; exact a1, a2⟩

/-! ## C16 -/

/-- C16. When no axis fails, `align` succeeds; the labels of the two results are those of the
requested join on every axis; both results are valid and carry over the values of their inputs, with
the missing marker in the cells that are new. -/
theorem C16_align [LinearOrder L] {lar1 lar2 : Larry L} (h1 : lar1.Valid) (h2 : lar2.Valid)
    (hn : lar1.ndim = lar2.ndim) {join : JoinArg} {js : List Join}
    (hj : JoinsFor lar2.ndim join js) {cast : Bool} (hok : ∀ e, ¬ FailsAt lar1 lar2 js cast e) :
    ∃ z1 z2, align lar1 lar2 join cast = .ok (z1, z2) ∧ z1.Valid ∧ z2.Valid ∧
      AllJoined js lar1.label lar2.label z1.label z2.label ∧
      CarriedOver lar1 z1 ∧ CarriedOver lar2 z2 := by
  obtain ⟨s, labs, r1, r2, a1, a2, rfl, rfl, _, a6, a7, a8, a9, a10, a11⟩ :=
    alignRaw_ok h1 h2 hn hj hok
  refine ⟨⟨s.x1, s.d1, pickLabel lar1.label labs⟩, ⟨s.x2, s.d2, pickLabel lar2.label labs⟩, ?_,
    a6, a7, a2, ?_, ?_⟩
  · simp only [align, a1]
  · exact carriedOver_of_reindexed (z := ⟨s.x1, s.d1, pickLabel lar1.label labs⟩) a6 a10
  · exact carriedOver_of_reindexed (z := ⟨s.x2, s.d2, pickLabel lar2.label labs⟩) a7 a11

/-- C16. When some axis fails, `align` raises, and the exception is one of a failing axis: ValueError
for an unknown join string, IndexError for an empty axis that would have to be filled, TypeError
for a forbidden cast. -/
theorem C16_align_fails [LinearOrder L] {lar1 lar2 : Larry L} (h1 : lar1.Valid) (h2 : lar2.Valid)
    (hn : lar1.ndim = lar2.ndim) {join : JoinArg} {js : List Join}
    (hj : JoinsFor lar2.ndim join js) {cast : Bool} (hf : ∃ e, FailsAt lar1 lar2 js cast e) :
    ∃ e, align lar1 lar2 join cast = .error e ∧ FailsAt lar1 lar2 js cast e := by
  obtain ⟨e, a1, a2⟩ := alignRaw_fail h1 h2 hn hj hf
  exact ⟨e, by simp only [align, a1], a2.fails⟩

/-- C16. Which exception: that of the first failing axis, and there an empty axis (IndexError) comes before
a forbidden cast (TypeError). -/
theorem C16_align_first [LinearOrder L] {lar1 lar2 : Larry L} (h1 : lar1.Valid) (h2 : lar2.Valid)
    (hn : lar1.ndim = lar2.ndim) {join : JoinArg} {js : List Join}
    (hj : JoinsFor lar2.ndim join js) {cast : Bool} (e : PyErr) :
    align lar1 lar2 join cast = .error e ↔
      FirstRaises cast lar1.dtype lar2.dtype (js.zip (lar1.label.zip lar2.label)) e := by
  by_cases hf : ∃ e, FailsAt lar1 lar2 js cast e
  · obtain ⟨e', a1, a2⟩ := alignRaw_fail h1 h2 hn hj hf
    simp only [align, a1, Except.error.injEq]
    exact ⟨fun h => h ▸ a2, fun h => a2.unique h⟩
  · push Not at hf
    obtain ⟨z1, z2, a1, -⟩ := C16_align h1 h2 hn hj hf
    rw [a1]
    exact ⟨fun h => by simp at h, fun h => absurd h.fails (hf e)⟩

/-- C16. Different numbers of dimensions, or a join list of the wrong length, raise ValueError. -/
theorem C16_align_shape [LinearOrder L] {lar1 lar2 : Larry L} {join : JoinArg} {cast : Bool}
    (h : lar1.ndim ≠ lar2.ndim ∨ ∃ js, join = .many js ∧ js.length ≠ lar2.ndim) :
    align lar1 lar2 join cast = .error .valueError := by
  by_cases hn : lar1.ndim = lar2.ndim
  · obtain ⟨js, rfl, hl⟩ := h.resolve_left (by simp [hn])
    simp [align, alignRaw, hn, hl]
  · simp [align, alignRaw, hn]

/-- The hypotheses of C16 hold for an outer/left join of the two example larrys (one of them int). -/
example : ∀ e, ¬ FailsAt exA exB [.outer, .left] true e := by
  rintro e ⟨p, hp, hf⟩
  simp only [exA, exB, List.zip_cons_cons, List.zip_nil_left, List.mem_cons, List.not_mem_nil,
    or_false] at hp
  rcases hp with rfl | rfl <;> cases hf <;> simp_all
example : JoinsFor exB.ndim (.many [.outer, .left]) [.outer, .left] := ⟨rfl, rfl⟩
example : ∃ e, FailsAt exA exB [.outer, .left] false e :=
  ⟨.typeError, (.outer, [10, 20], [20, 30]), by simp [exA, exB],
    .cast2 rfl (.inl rfl) ⟨.inl rfl, 10, by simp, by simp⟩⟩
/-- The first axis is fine, the second one decides. -/
example : FirstRaises false exA.dtype exB.dtype ([Join.inner, .left].zip (exA.label.zip exB.label)) .typeError := by
  refine .later (fun e' h => ?_) (.here ⟨.cast2 rfl (.inl rfl) ⟨.inr rfl, 1, by simp [exA], by simp [exB]⟩, fun h => ?_⟩)
  · cases h <;> simp_all [NewIn1, NewIn2]
  · cases h <;> simp_all [exA, exB]

/-! ## C17 -/

/-- Some axis gets a label that the first larry does not have there. -/
def SomeNew1 (lar1 lar2 : Larry L) (js : List Join) : Prop :=
  ∃ p ∈ js.zip (lar1.label.zip lar2.label), (p.1 = .outer ∨ p.1 = .right) ∧ ∃ b ∈ p.2.2, b ∉ p.2.1

/-- Some axis gets a label that the second larry does not have there. -/
def SomeNew2 (lar1 lar2 : Larry L) (js : List Join) : Prop :=
  ∃ p ∈ js.zip (lar1.label.zip lar2.label), (p.1 = .outer ∨ p.1 = .left) ∧ ∃ b ∈ p.2.1, b ∉ p.2.2

/-- C17. In a successful `align` the dtype of each result is float if the input is int or bool and
gets new labels, and the input's dtype otherwise. -/
theorem C17_align_dtype [LinearOrder L] {lar1 lar2 z1 z2 : Larry L} (h1 : lar1.Valid) (h2 : lar2.Valid)
    (hn : lar1.ndim = lar2.ndim) {join : JoinArg} {js : List Join}
    (hj : JoinsFor lar2.ndim join js) {cast : Bool}
    (hz : align lar1 lar2 join cast = .ok (z1, z2)) :
    (((lar1.dtype = .int ∨ lar1.dtype = .bool) ∧ SomeNew1 lar1 lar2 js → z1.dtype = .float) ∧
     (¬ ((lar1.dtype = .int ∨ lar1.dtype = .bool) ∧ SomeNew1 lar1 lar2 js) → z1.dtype = lar1.dtype)) ∧
    (((lar2.dtype = .int ∨ lar2.dtype = .bool) ∧ SomeNew2 lar1 lar2 js → z2.dtype = .float) ∧
     (¬ ((lar2.dtype = .int ∨ lar2.dtype = .bool) ∧ SomeNew2 lar1 lar2 js) → z2.dtype = lar2.dtype)) := by
  have hok : ∀ e, ¬ FailsAt lar1 lar2 js cast e := by
    intro e hf
    obtain ⟨e', h, _⟩ := C16_align_fails h1 h2 hn hj ⟨e, hf⟩
    rw [h] at hz; simp at hz
  obtain ⟨s, labs, r1, r2, a1, a2, rfl, rfl, _, a6, a7, a8, a9, a10, a11⟩ :=
    alignRaw_ok h1 h2 hn hj hok
  simp only [align, a1, Except.ok.injEq, Prod.mk.injEq] at hz
  obtain ⟨rfl, rfl⟩ := hz
  refine ⟨⟨fun h => ?_, fun h => ?_⟩, ⟨fun h => ?_, fun h => ?_⟩⟩
  · show s.d1 = _
    rw [a8, floatIf]; exact if_pos h
  · show s.d1 = _
    rw [a8, floatIf]; exact if_neg h
  · show s.d2 = _
    rw [a9, floatIf]; exact if_pos h
  · show s.d2 = _
    rw [a9, floatIf]; exact if_neg h

/-- C17. With `cast=False`, known joins and no empty axis, `align` raises TypeError exactly when
`align` with `cast=True` would have changed a dtype, and succeeds otherwise. -/
theorem C17_cast_false [LinearOrder L] {lar1 lar2 : Larry L} (h1 : lar1.Valid) (h2 : lar2.Valid)
    (hn : lar1.ndim = lar2.ndim) {join : JoinArg} {js : List Join}
    (hj : JoinsFor lar2.ndim join js) (hknown : ∀ j ∈ js, j ≠ .other)
    (hne1 : ∀ l ∈ lar1.label, l ≠ []) (hne2 : ∀ l ∈ lar2.label, l ≠ []) :
    ((((lar1.dtype = .int ∨ lar1.dtype = .bool) ∧ SomeNew1 lar1 lar2 js) ∨
      ((lar2.dtype = .int ∨ lar2.dtype = .bool) ∧ SomeNew2 lar1 lar2 js)) →
      align lar1 lar2 join false = .error .typeError) ∧
    (¬ (((lar1.dtype = .int ∨ lar1.dtype = .bool) ∧ SomeNew1 lar1 lar2 js) ∨
      ((lar2.dtype = .int ∨ lar2.dtype = .bool) ∧ SomeNew2 lar1 lar2 js)) →
      ∃ z1 z2, align lar1 lar2 join false = .ok (z1, z2)) := by
  have hmem : ∀ p ∈ js.zip (lar1.label.zip lar2.label),
      p.1 ∈ js ∧ p.2.1 ∈ lar1.label ∧ p.2.2 ∈ lar2.label := by
    rintro ⟨j, a, b⟩ hp
    have := List.of_mem_zip hp
    exact ⟨this.1, (List.of_mem_zip this.2).1, (List.of_mem_zip this.2).2⟩
  constructor
  · intro h
    have hf : ∃ e, FailsAt lar1 lar2 js false e := by
      rcases h with ⟨hd, p, hp, hnew⟩ | ⟨hd, p, hp, hnew⟩
      · exact ⟨_, p, hp, .cast1 rfl hd hnew⟩
      · exact ⟨_, p, hp, .cast2 rfl hd hnew⟩
    obtain ⟨e, h3, p, hp, h4⟩ := C16_align_fails h1 h2 hn hj hf
    rw [h3]
    obtain ⟨m1, m2, m3⟩ := hmem p hp
    cases h4 with
    | unknown h => exact absurd h (hknown _ m1)
    | empty1 _ h => exact absurd h (hne1 _ m2)
    | empty2 _ h => exact absurd h (hne2 _ m3)
    | cast1 => rfl
    | cast2 => rfl
  · intro h
    obtain ⟨z1, z2, h3, _⟩ := C16_align (cast := false) h1 h2 hn hj (by
      rintro e ⟨p, hp, hf⟩
      obtain ⟨m1, m2, m3⟩ := hmem p hp
      cases hf with
      | unknown h => exact hknown _ m1 h
      | empty1 _ h => exact hne1 _ m2 h
      | empty2 _ h => exact hne2 _ m3 h
      | cast1 _ hd hnew => exact h (.inl ⟨hd, p, hp, hnew⟩)
      | cast2 _ hd hnew => exact h (.inr ⟨hd, p, hp, hnew⟩))
    exact ⟨z1, z2, h3⟩

/-- C17. An inner join always succeeds and never changes a dtype. -/
theorem C17_inner [LinearOrder L] {lar1 lar2 : Larry L} (h1 : lar1.Valid) (h2 : lar2.Valid)
    (hn : lar1.ndim = lar2.ndim) (cast : Bool) :
    ∃ z1 z2, align lar1 lar2 (.one .inner) cast = .ok (z1, z2) ∧
      z1.dtype = lar1.dtype ∧ z2.dtype = lar2.dtype := by
  have hj : JoinsFor lar2.ndim (.one .inner) (List.replicate lar2.ndim .inner) := rfl
  have hin : ∀ p ∈ (List.replicate lar2.ndim Join.inner).zip (lar1.label.zip lar2.label),
      p.1 = .inner := fun p hp => List.eq_of_mem_replicate (List.of_mem_zip hp).1
  have hN1 : ¬ SomeNew1 lar1 lar2 (List.replicate lar2.ndim .inner) := by
    rintro ⟨p, hp, h, _⟩; simp [hin p hp] at h
  have hN2 : ¬ SomeNew2 lar1 lar2 (List.replicate lar2.ndim .inner) := by
    rintro ⟨p, hp, h, _⟩; simp [hin p hp] at h
  obtain ⟨z1, z2, h3, _⟩ := C16_align (cast := cast) h1 h2 hn hj (by
      rintro e ⟨p, hp, hf⟩
      cases hf with
      | unknown h => simp [hin p hp] at h
      | empty1 h _ => exact hN1 ⟨p, hp, h⟩
      | empty2 h _ => exact hN2 ⟨p, hp, h⟩
      | cast1 _ _ h => exact hN1 ⟨p, hp, h⟩
      | cast2 _ _ h => exact hN2 ⟨p, hp, h⟩)
  have h4 := C17_align_dtype h1 h2 hn hj h3
  exact ⟨z1, z2, h3, h4.1.2 (fun h => hN1 h.2), h4.2.2 (fun h => hN2 h.2)⟩

example : (exB.dtype = .int ∨ exB.dtype = .bool) ∧ SomeNew2 exA exB [.outer, .left] :=
  ⟨.inl rfl, (.outer, [10, 20], [20, 30]), by simp [exA, exB], .inl rfl, 10, by simp, by simp⟩
example : ¬ SomeNew2 exA exB [.inner, .right] := by
  rintro ⟨p, hp, h, _⟩
  simp only [exA, exB, List.zip_cons_cons, List.zip_nil_left, List.mem_cons, List.not_mem_nil,
    or_false] at hp
  rcases hp with rfl | rfl <;> simp at h

/-! ## C19 -/

/-- What a list of label lists joins to. -/
def JoinedAll [LinearOrder L] (j : Join) (ls : List (List L)) (lab : List L) : Prop :=
  match j with
  | .inner => lab.Pairwise (· < ·) ∧ ∀ a, a ∈ lab ↔ ∀ l ∈ ls, a ∈ l
  | .outer => lab.Pairwise (· < ·) ∧ ∀ a, a ∈ lab ↔ ∃ l ∈ ls, a ∈ l
  | .left => ls.head? = some lab
  | .right => ls.getLast? = some lab
  | _ => False

/-- `ls` are the label lists of the larrys along the given axes (Python indexing of axes). -/
def LabelsAlong (ps : List (Larry L × Int)) (ls : List (List L)) : Prop :=
  List.Forall₂ (fun p l => ∃ ax, pyIdx p.1.label.length p.2 = some ax ∧ p.1.label[ax]? = some l) ps ls

theorem mem_foldl_setInter [LinearOrder L] (ls : List (List L)) (acc : List L) (a : L) :
    a ∈ ls.foldl setInter acc ↔ a ∈ acc ∧ ∀ l ∈ ls, a ∈ l := by
  induction ls generalizing acc with
  | nil => simp
  | cons l ls ih => simp only [List.foldl_cons, ih, mem_setInter, List.mem_cons, forall_eq_or_imp]; tauto

theorem mem_foldl_setUnion [LinearOrder L] (ls : List (List L)) (acc : List L) (a : L) :
    a ∈ ls.foldl setUnion acc ↔ a ∈ acc ∨ ∃ l ∈ ls, a ∈ l := by
  induction ls generalizing acc with
  | nil => simp
  | cons l ls ih =>
    simp only [List.foldl_cons, ih, mem_setUnion, List.mem_cons, exists_eq_or_imp]; tauto

theorem nodup_foldl [LinearOrder L] {op : List L → List L → List L} (hop : ∀ a b, (op a b).Nodup)
    (ls : List (List L)) (acc : List L) (h : acc.Nodup) : (ls.foldl op acc).Nodup := by
  induction ls generalizing acc with
  | nil => exact h
  | cons l ls ih => exact ih _ (hop _ _)

theorem labelFold_ok {op : List L → List L → List L} {axis : Int} {lars : List (Larry L)}
    {ls : List (List L)} (h : LabelsAlong (lars.map (·, axis)) ls) (acc : List L) :
    labelFold op axis lars acc = .ok (ls.foldl op acc) := by
  induction lars generalizing acc ls with
  | nil => cases h; rfl
  | cons lar lars ih =>
    simp only [List.map_cons] at h
    cases h with
    | @cons _ l _ ls h1 h2 =>
      simp only [labelFold, pyGet_ok.mpr h1, List.foldl_cons]
      exact ih h2 _

theorem labelFold_error {op : List L → List L → List L} {axis : Int} {lars : List (Larry L)}
    (h : ∃ lar ∈ lars, pyIdx lar.label.length axis = none) (acc : List L) :
    labelFold op axis lars acc = .error .indexError := by
  induction lars generalizing acc with
  | nil => simp at h
  | cons lar lars ih =>
    simp only [labelFold]
    cases hp : pyIdx lar.label.length axis with
    | none => rw [pyGet_error hp]
    | some k =>
      rw [pyGet_of hp]
      simp only
      apply ih
      obtain ⟨lar', hm, hn⟩ := h
      rcases List.mem_cons.mp hm with rfl | hm
      · rw [hp] at hn; simp at hn
      · exact ⟨lar', hm, hn⟩

/-- C19, union: the strictly increasing list of the labels found in at least one of the larrys along
the axis. -/
theorem C19_union [LinearOrder L] {lars : List (Larry L)} {axis : Int} {ls : List (List L)}
    (h : LabelsAlong (lars.map (·, axis)) ls) :
    ∃ r, union axis lars = .ok r ∧ r.Pairwise (· < ·) ∧ ∀ a, a ∈ r ↔ ∃ l ∈ ls, a ∈ l := by
  refine ⟨pySorted (ls.foldl setUnion []), by simp only [union, labelFold_ok h], ?_, ?_⟩
  · exact pySorted_lt (nodup_foldl (fun _ _ => nodup_setUnion) _ _ (by simp))
  · intro a; rw [mem_pySorted, mem_foldl_setUnion]; simp

/-- C19, intersection: the strictly increasing list of the labels found in all of the larrys. -/
theorem C19_intersection [LinearOrder L] {lars : List (Larry L)} (hne : lars ≠ []) {axis : Int}
    {ls : List (List L)} (h : LabelsAlong (lars.map (·, axis)) ls) :
    ∃ r, intersection axis lars = .ok r ∧ r.Pairwise (· < ·) ∧ ∀ a, a ∈ r ↔ ∀ l ∈ ls, a ∈ l := by
  obtain ⟨lar, lars, rfl⟩ := List.exists_cons_of_ne_nil hne
  simp only [List.map_cons] at h
  cases h with
  | @cons _ l _ ls h1 h2 =>
    refine ⟨pySorted (ls.foldl setInter l.dedup), by
      simp only [intersection, pyGet_ok.mpr h1, labelFold_ok h2], ?_, ?_⟩
    · exact pySorted_lt (nodup_foldl (fun _ _ => nodup_setInter) _ _ (List.nodup_dedup _))
    · intro a; rw [mem_pySorted, mem_foldl_setInter]; simp

theorem labelsAlong_total {ps : List (Larry L × Int)}
    (h : ∀ p ∈ ps, pyIdx p.1.label.length p.2 ≠ none) : ∃ ls, LabelsAlong ps ls := by
  induction ps with
  | nil => exact ⟨[], .nil⟩
  | cons p ps ih =>
    obtain ⟨ls, hls⟩ := ih (fun q hq => h q (by simp [hq]))
    obtain ⟨k, hk⟩ := Option.ne_none_iff_exists'.mp (h p (by simp))
    exact ⟨p.1.label[k]'(pyIdx_lt hk) :: ls, .cons ⟨k, hk, by simp [pyIdx_lt hk]⟩ hls⟩

/-- C19: an axis that some larry does not have raises IndexError (intersection: also no argument). -/
theorem C19_error [LinearOrder L] {lars : List (Larry L)} {axis : Int}
    (h : ∃ lar ∈ lars, pyIdx lar.label.length axis = none) :
    union axis lars = .error .indexError ∧ intersection axis lars = .error .indexError := by
  constructor
  · simp only [union, labelFold_error h]
  · cases lars with
    | nil => simp at h
    | cons lar lars =>
      simp only [intersection]
      cases hp : pyIdx lar.label.length axis with
      | none => rw [pyGet_error hp]
      | some k =>
        rw [pyGet_of hp]
        simp only
        rw [labelFold_error]
        obtain ⟨lar', hm, hn⟩ := h
        rcases List.mem_cons.mp hm with rfl | hm
        · rw [hp] at hn; simp at hn
        · exact ⟨lar', hm, hn⟩

theorem LabelsAlong.mem_iff {ps : List (Larry L × Int)} {ls : List (List L)} (h : LabelsAlong ps ls)
    (l : List L) : l ∈ ls ↔ ∃ p ∈ ps, ∃ ax, pyIdx p.1.label.length p.2 = some ax ∧
      p.1.label[ax]? = some l := by
  induction h with
  | nil => simp
  | @cons p l' ps ls h1 _ ih =>
    simp only [List.mem_cons, exists_eq_or_imp, ih]
    constructor
    · rintro (rfl | h)
      · exact .inl h1
      · exact .inr h
    · rintro (⟨ax, h, h'⟩ | h)
      · obtain ⟨ax', k, k'⟩ := h1
        rw [k] at h; cases h; rw [k'] at h'; cases h'; exact .inl rfl
      · exact .inr h

/-- C19: the order of the arguments never matters (also for the exceptions). -/
theorem C19_order_independent [LinearOrder L] {lars lars' : List (Larry L)} (hp : lars.Perm lars')
    (axis : Int) : union axis lars = union axis lars' ∧
      intersection axis lars = intersection axis lars' := by
  by_cases hbad : ∃ lar ∈ lars, pyIdx lar.label.length axis = none
  · have hbad' : ∃ lar ∈ lars', pyIdx lar.label.length axis = none := by
      obtain ⟨lar, hm, hn⟩ := hbad; exact ⟨lar, hp.mem_iff.mp hm, hn⟩
    have h1 := C19_error hbad
    have h2 := C19_error hbad'
    exact ⟨h1.1.trans h2.1.symm, h1.2.trans h2.2.symm⟩
  · obtain ⟨ls, hls⟩ := labelsAlong_total (ps := lars.map (·, axis)) (by
      intro p hp hn
      obtain ⟨lar, hm, rfl⟩ := List.mem_map.mp hp
      exact hbad ⟨lar, hm, hn⟩)
    obtain ⟨ls', hls'⟩ := labelsAlong_total (ps := lars'.map (·, axis)) (by
      intro p hp' hn
      obtain ⟨lar, hm, rfl⟩ := List.mem_map.mp hp'
      exact hbad ⟨lar, hp.mem_iff.mpr hm, hn⟩)
    have hmem : ∀ l, l ∈ ls ↔ l ∈ ls' := by
      intro l
      rw [hls.mem_iff, hls'.mem_iff]
      constructor
      · rintro ⟨p, hm, h⟩; exact ⟨p, (hp.map (·, axis)).mem_iff.mp hm, h⟩
      · rintro ⟨p, hm, h⟩; exact ⟨p, (hp.map (·, axis)).mem_iff.mpr hm, h⟩
    constructor
    · obtain ⟨r, h1, h2, h3⟩ := C19_union hls
      obtain ⟨r', h1', h2', h3'⟩ := C19_union hls'
      rw [h1, h1', eq_of_mem_iff_of_lt h2 h2' (fun a => by rw [h3, h3']; simp only [hmem])]
    · by_cases hne : lars = []
      · subst hne; rw [hp.nil_eq]
      · have hne' : lars' ≠ [] := by rintro rfl; exact hne hp.eq_nil
        obtain ⟨r, h1, h2, h3⟩ := C19_intersection hne hls
        obtain ⟨r', h1', h2', h3'⟩ := C19_intersection hne' hls'
        rw [h1, h1', eq_of_mem_iff_of_lt h2 h2' (fun a => by rw [h3, h3']; simp only [hmem])]

example : LabelsAlong ([exA, exB].map (·, -1)) [[3, 1, 2], [2, 3]] :=
  .cons ⟨1, by decide, by decide⟩ (.cons ⟨1, by decide, by decide⟩ .nil)

/-! ## C18 -/

/-- The full claim of C18 for one call: every larry has its axis morphed to the one label list that
the join of the label lists along the *given* axes determines. -/
def AlignedAlong [LinearOrder L] (join : Join) (ps : List (Larry L × Int)) (ls : List (List L))
    (zs : List (Larry L)) : Prop :=
  ∃ lab, JoinedAll join ls lab ∧ List.Forall₂ (fun p z => z.Valid ∧ CarriedOver p.1 z ∧
    ∃ ax, pyIdx p.1.ndim p.2 = some ax ∧ z.label = p.1.label.set ax lab) ps zs

theorem alignAxisFold_ok {op : List L → List L → List L} {ps : List (Larry L × Int)}
    {ls : List (List L)} (h : LabelsAlong ps ls) (acc : List L) :
    alignAxisFold op ps acc = .ok (ls.foldl op acc) := by
  induction h generalizing acc with
  | nil => rfl
  | @cons p l ps ls h1 _ ih =>
    obtain ⟨lar, a⟩ := p
    simp only [alignAxisFold, pyGet_ok.mpr h1, List.foldl_cons]
    exact ih _

theorem alignAxisFold_error {op : List L → List L → List L} {ps : List (Larry L × Int)}
    (h : ¬ ∃ ls, LabelsAlong ps ls) (acc : List L) : alignAxisFold op ps acc = .error .indexError := by
  induction ps generalizing acc with
  | nil => exact absurd ⟨[], .nil⟩ h
  | cons p ps ih =>
    obtain ⟨lar, a⟩ := p
    unfold alignAxisFold
    cases hg : pyGet lar.label a with
    | error e =>
      cases hp : pyIdx lar.label.length a with
      | none => rw [pyGet_error hp] at hg; rw [← hg]
      | some k => rw [pyGet_of hp] at hg; simp at hg
    | ok l => exact ih (fun ⟨ls, hls⟩ => h ⟨l :: ls, .cons (pyGet_ok.mp hg) hls⟩) _

theorem mapRes_of_forall {α β : Type _} {f : α → Res β} {R : α → β → Prop} {l : List α}
    (h : ∀ a ∈ l, ∃ b, f a = .ok b ∧ R a b) : ∃ bs, mapRes f l = .ok bs ∧ List.Forall₂ R l bs := by
  induction l with
  | nil => exact ⟨[], rfl, .nil⟩
  | cons a l ih =>
    obtain ⟨b, h1, h2⟩ := h a (by simp)
    obtain ⟨bs, h3, h4⟩ := ih (fun a ha => h a (by simp [ha]))
    exact ⟨b :: bs, by simp only [mapRes, h1, h3], .cons h2 h4⟩

theorem alignAxisMorph_ok [LinearOrder L] {ps : List (Larry L × Int)} {ls : List (List L)}
    (hv : ∀ p ∈ ps, p.1.Valid) (h : LabelsAlong ps ls) {lab : List L} (hnd : lab.Nodup) :
    ∃ zs, alignAxisMorph lab ps = .ok zs ∧ List.Forall₂ (fun p z => z.Valid ∧ CarriedOver p.1 z ∧
      ∃ ax, pyIdx p.1.ndim p.2 = some ax ∧ z.label = p.1.label.set ax lab) ps zs := by
  apply mapRes_of_forall
  intro p hp
  obtain ⟨ls', hls'⟩ : ∃ l ax, pyIdx p.1.label.length p.2 = some ax ∧ p.1.label[ax]? = some l := by
    have : ∀ (ps : List (Larry L × Int)) ls, LabelsAlong ps ls → ∀ p ∈ ps, ∃ l ax,
        pyIdx p.1.label.length p.2 = some ax ∧ p.1.label[ax]? = some l := by
      intro ps ls h
      induction h with
      | nil => simp
      | cons h1 _ ih =>
        intro p hp
        rcases List.mem_cons.mp hp with rfl | hp
        · exact ⟨_, h1⟩
        · exact ih p hp
    exact this ps ls h p hp
  obtain ⟨ax, h1, h2⟩ := hls'
  rw [(hv p hp).label_length] at h1
  obtain ⟨z, g1, g2, g3, g4, g5⟩ := morph_spec (hv p hp) hnd h1 h2
  exact ⟨z, g1, g3, carriedOver_of_reindexed g3 g5, ax, h1, g2⟩

theorem labelsAlong_bounds {ps : List (Larry L × Int)} {ls : List (List L)}
    (hv : ∀ p ∈ ps, p.1.Valid) (h : LabelsAlong ps ls) :
    ps.any (fun p => decide (p.2 ≥ p.1.ndim) || decide (p.2 < -(p.1.ndim : Int))) = false := by
  induction h with
  | nil => rfl
  | @cons p l ps ls h1 _ ih =>
    rw [List.any_cons, ih (fun p hp => hv p (by simp [hp]))]
    obtain ⟨ax, h1, _⟩ := h1
    rw [(hv p (by simp)).label_length] at h1
    have : ¬ (p.2 ≥ p.1.ndim) ∧ ¬ (p.2 < -(p.1.ndim : Int)) := by
      unfold pyIdx at h1
      split at h1
      · split at h1 <;> [skip; simp at h1]
        omega
      · split at h1 <;> [skip; simp at h1]
        omega
    simp [this]

/-- The labels `align_axis` joins: for 'left' and 'right' those of `lars[j]` along `axis[j]`; for 'inner' and
'outer' those of `lars[0]` along `axis[0]` and of each later larry along the axis given for the larry
before it. -/
def axesRead (join : Join) (lars : List (Larry L)) (axis : List Int) : List (Larry L × Int) :=
  if join = .inner ∨ join = .outer then lars.zip (axis.take 1 ++ axis) else lars.zip axis

/-- C18: what `align_axis` does with valid larrys and axes in range. -/
theorem C18_align_axis [LinearOrder L] {lars : List (Larry L)} {axis : List Int} {join : Join}
    (hne : lars ≠ []) (hlen : axis.length = lars.length) (hv : ∀ lar ∈ lars, lar.Valid)
    (hin : ∀ p ∈ lars.zip axis, -(p.1.ndim : Int) ≤ p.2 ∧ p.2 < p.1.ndim)
    (hj : join = .left ∨ join = .right ∨ join = .inner ∨ join = .outer) :
    (∀ ls, LabelsAlong (axesRead join lars axis) ls →
      ∃ zs, alignAxisN lars axis join = .ok zs ∧ AlignedAlong join (lars.zip axis) ls zs) ∧
    ((¬ ∃ ls, LabelsAlong (axesRead join lars axis) ls) → alignAxisN lars axis join = .error .indexError) := by
  have hvz : ∀ p ∈ lars.zip axis, p.1.Valid := fun p hp => hv _ (List.of_mem_zip hp).1
  obtain ⟨ls0, hls⟩ := labelsAlong_total (ps := lars.zip axis) (by
    intro p hp
    obtain ⟨h1, h2⟩ := hin p hp
    rw [(hvz p hp).label_length]
    intro hn
    unfold pyIdx at hn
    split at hn <;> simp at hn)
  have hany := labelsAlong_bounds hvz hls
  have hsk : ¬ (join = .skip ∨ join = .other) := by
    rcases hj with rfl | rfl | rfl | rfl <;> simp
  have hun : alignAxisN lars axis join = match alignAxisLabel lars axis join with
      | .error e => .error e
      | .ok label => alignAxisMorph label (lars.zip axis) := by
    unfold alignAxisN
    rw [if_neg (by omega), if_neg (by rw [hany]; simp), if_neg hsk]
    rfl
  -- it is enough to know the label
  suffices H : (∀ ls, LabelsAlong (axesRead join lars axis) ls →
      ∃ lab, lab.Nodup ∧ JoinedAll join ls lab ∧ alignAxisLabel lars axis join = .ok lab) ∧
      ((¬ ∃ ls, LabelsAlong (axesRead join lars axis) ls) → alignAxisLabel lars axis join = .error .indexError) by
    refine ⟨fun ls h => ?_, fun h => ?_⟩
    · obtain ⟨lab, h1, h2, h3⟩ := H.1 ls h
      obtain ⟨zs, h4, h5⟩ := alignAxisMorph_ok hvz hls h1
      exact ⟨zs, by rw [hun, h3]; exact h4, lab, h2, h5⟩
    · rw [hun, H.2 h]
  obtain ⟨lar0, lars', rfl⟩ := List.exists_cons_of_ne_nil hne
  obtain ⟨a0, axis', rfl⟩ := List.exists_cons_of_ne_nil (l := axis) (by
    rintro rfl; simp at hlen)
  have hlab : ∀ ls, LabelsAlong ((lar0, a0) :: lars'.zip axis') ls → ∀ l ∈ ls, l.Nodup := by
    intro ls hls l hl
    obtain ⟨p, hp, ax, _, h⟩ := (hls.mem_iff l).mp hl
    exact (hvz p (by simpa using hp)).nodup l (List.mem_of_getElem? h)
  rcases hj with rfl | rfl | hio
  · refine ⟨fun ls h => ?_, fun h => absurd ⟨ls0, by simpa [axesRead] using hls⟩ h⟩
    rw [axesRead, if_neg (by simp), List.zip_cons_cons] at h
    have hl := hlab ls h
    cases h with
    | @cons _ l _ ls h1 h2 =>
      exact ⟨l, hl l (by simp), by simp [JoinedAll], by simp [alignAxisLabel, pyGet_ok.mpr h1]⟩
  · refine ⟨fun ls h => ?_, fun h => absurd ⟨ls0, by simpa [axesRead] using hls⟩ h⟩
    rw [axesRead, if_neg (by simp), List.zip_cons_cons] at h
    have hl := hlab ls h
    cases h with
    | @cons _ l _ ls h1 h2 =>
      obtain ⟨llast, hll⟩ : ∃ t, (l :: ls).getLast? = some t := by
        simp [List.getLast?_cons]
      refine ⟨llast, hl _ (List.mem_of_getLast? hll), hll, ?_⟩
      have hlast : ∀ (lars : List (Larry L)) (axis : List Int) (ls : List (List L)) (t : List L),
          lars.length = axis.length → LabelsAlong (lars.zip axis) ls → ls.getLast? = some t →
          ∃ lar a, lars.getLast? = some lar ∧ axis.getLast? = some a ∧ pyGet lar.label a = .ok t := by
        intro lars axis ls t hle hL hg
        have h3 : (lars.zip axis).length = ls.length := hL.length_eq
        have hpos : 0 < ls.length := by
          cases ls with
          | nil => simp at hg
          | cons => simp
        simp only [List.length_zip, hle, Nat.min_self] at h3
        rw [List.getLast?_eq_getElem?] at hg
        have hL' := List.forall₂_iff_get.mp hL
        have hlt : ls.length - 1 < (lars.zip axis).length := by simp; omega
        obtain ⟨ax, q1, q2⟩ := hL'.2 (ls.length - 1) hlt (by omega)
        refine ⟨lars[ls.length - 1]'(by omega), axis[ls.length - 1]'(by omega), ?_, ?_, ?_⟩
        · rw [List.getLast?_eq_getElem?, List.getElem?_eq_some_iff]; exact ⟨by omega, by congr 1; omega⟩
        · rw [List.getLast?_eq_getElem?, List.getElem?_eq_some_iff]; exact ⟨by omega, by congr 1; omega⟩
        · rw [pyGet_ok]
          refine ⟨ax, by simpa using q1, ?_⟩
          rw [← hg]
          have : ls[ls.length - 1]? = some (ls.get ⟨ls.length - 1, by omega⟩) := by simp
          rw [this]
          simpa using q2
      obtain ⟨lar, a, q1, q2, q3⟩ := hlast (lar0 :: lars') (a0 :: axis') (l :: ls) llast
        hlen.symm (.cons h1 h2) hll
      simp [alignAxisLabel, q1, q2, q3]
  · have hz : axesRead join (lar0 :: lars') (a0 :: axis') = (lar0, a0) :: lars'.zip (a0 :: axis') := by
      rw [axesRead, if_pos hio]; rfl
    rw [hz]
    rw [List.zip_cons_cons] at hls
    cases hls with
    | @cons _ l _ ls h1 h2 =>
    have hg0 : pyGet lar0.label a0 = .ok l := pyGet_ok.mpr h1
    refine ⟨fun ls' h => ?_, fun h => ?_⟩
    · cases h with
      | @cons _ l' _ ls' h1' h2' =>
      obtain rfl : l' = l := by
        have := pyGet_ok.mpr h1'
        dsimp only at this
        rw [hg0] at this
        exact (Except.ok.inj this).symm
      rcases hio with rfl | rfl
      · refine ⟨pySorted (ls'.foldl setInter l'.dedup), ?_, ?_, by
          simp [alignAxisLabel, hg0, alignAxisFold_ok h2']⟩
        · exact pySorted_nodup (nodup_foldl (fun _ _ => nodup_setInter) _ _ (List.nodup_dedup _))
        · refine ⟨pySorted_lt (nodup_foldl (fun _ _ => nodup_setInter) _ _ (List.nodup_dedup _)), ?_⟩
          intro a; rw [mem_pySorted, mem_foldl_setInter]; simp
      · refine ⟨pySorted (ls'.foldl setUnion l'.dedup), ?_, ?_, by
          simp [alignAxisLabel, hg0, alignAxisFold_ok h2']⟩
        · exact pySorted_nodup (nodup_foldl (fun _ _ => nodup_setUnion) _ _ (List.nodup_dedup _))
        · refine ⟨pySorted_lt (nodup_foldl (fun _ _ => nodup_setUnion) _ _ (List.nodup_dedup _)), ?_⟩
          intro a; rw [mem_pySorted, mem_foldl_setUnion]; simp
    · have hno : ¬ ∃ ls, LabelsAlong (lars'.zip (a0 :: axis')) ls := fun ⟨ls, hh⟩ => h ⟨l :: ls, .cons h1 hh⟩
      rcases hio with rfl | rfl <;> simp [alignAxisLabel, hg0, alignAxisFold_error hno]

/-- `axis` given as an integer, or 'left', or 'right': the labels joined are those along the axes given. -/
theorem C18_align_axis_given [LinearOrder L] {lars : List (Larry L)} {axis : List Int} {join : Join}
    {ls : List (List L)} (hne : lars ≠ []) (hlen : axis.length = lars.length)
    (hv : ∀ lar ∈ lars, lar.Valid) (hls : LabelsAlong (lars.zip axis) ls)
    (hj : join = .left ∨ join = .right ∨
      ((join = .inner ∨ join = .outer) ∧ ∃ a, axis = List.replicate lars.length a)) :
    ∃ zs, alignAxisN lars axis join = .ok zs ∧ AlignedAlong join (lars.zip axis) ls zs := by
  refine (C18_align_axis hne hlen hv ?_ (by tauto)).1 ls ?_
  · intro p hp
    have := labelsAlong_bounds (fun p hp => hv _ (List.of_mem_zip hp).1) hls
    rw [List.any_eq_false] at this
    have := this p hp
    simp only [ge_iff_le, Bool.or_eq_true, decide_eq_true_eq, not_or, not_le, not_lt] at this
    exact ⟨this.2, this.1⟩
  · unfold axesRead
    split
    · rename_i hio
      rcases hj with rfl | rfl | ⟨-, a, rfl⟩
      · simp at hio
      · simp at hio
      · have key : ∀ t : List (Larry L), t.zip (a :: List.replicate t.length a) = t.zip (List.replicate t.length a) := by
          intro t
          induction t with
          | nil => rfl
          | cons x t ih => simp only [List.length_cons, List.replicate_succ, List.zip_cons_cons, ih]
        have : (List.replicate lars.length a).take 1 = [a] := by
          cases lars with
          | nil => exact absurd rfl hne
          | cons => rfl
        rw [this, List.singleton_append, key lars]
        exact hls
    · exact hls

/-- The other calls raise: a list of axes too short, an axis out of range, an unknown join, no larry. -/
theorem C18_errors [LinearOrder L] (lars : List (Larry L)) (axis : List Int) (join : Join) :
    (axis.length < lars.length → alignAxisN lars axis join = .error .indexError) ∧
    (lars.length ≤ axis.length → (∃ p ∈ lars.zip axis, p.2 < -(p.1.ndim : Int) ∨ (p.1.ndim : Int) ≤ p.2) →
      alignAxisN lars axis join = .error .valueError) ∧
    (lars.length ≤ axis.length → (join = .skip ∨ join = .other) → alignAxisN lars axis join = .error .valueError) ∧
    (lars = [] → ¬ (join = .skip ∨ join = .other) → alignAxisN lars axis join = .error .indexError) := by
  refine ⟨fun h => ?_, fun h ⟨p, hp, hr⟩ => ?_, fun h hj => ?_, fun h hj => ?_⟩
  · unfold alignAxisN; rw [if_pos h]
  · unfold alignAxisN
    rw [if_neg (by omega), if_pos]
    rw [List.any_eq_true]
    exact ⟨p, hp, by simp only [ge_iff_le, Bool.or_eq_true, decide_eq_true_eq]; tauto⟩
  · unfold alignAxisN
    rw [if_neg (by omega), if_pos hj]
    split <;> rfl
  · subst h
    unfold alignAxisN
    rw [if_neg (by simp), if_neg (by simp), if_neg hj]
    rfl

example : (∀ p ∈ [exA, exB].zip [0, 1], -(p.1.ndim : Int) ≤ p.2 ∧ p.2 < p.1.ndim) ∧
    LabelsAlong (axesRead .outer [exA, exB] [0, 1]) [[10, 20], [20, 30]] :=
  ⟨by decide, .cons ⟨0, by decide, by decide⟩ (.cons ⟨0, by decide, by decide⟩ .nil)⟩

example : LabelsAlong ([exA, exB].zip [0, 0]) [[10, 20], [20, 30]] :=
  .cons ⟨0, by decide, by decide⟩ (.cons ⟨0, by decide, by decide⟩ .nil)

/-- What one would expect is false of the code when the entries of `axis` differ: aligning axis 0 of one larry
(labels 10, 20) with axis 1 of another (labels 9, 10) by 'inner' gives an empty axis instead of `[10]`,
because the code reads axis 0 of the second larry. -/
theorem C18_wrong_axis : ∃ (lar1 lar2 z1 z2 : Larry Nat), lar1.Valid ∧ lar2.Valid ∧
    LabelsAlong ([lar1, lar2].zip [0, 1]) [[10, 20], [9, 10]] ∧
    JoinedAll .inner [[10, 20], [9, 10]] [10] ∧
    alignAxisN [lar1, lar2] [0, 1] .inner = .ok [z1, z2] ∧ z1.label[0]? = some [] ∧
    ¬ AlignedAlong .inner ([lar1, lar2].zip [0, 1]) [[10, 20], [9, 10]] [z1, z2] := by
  let lar2 : Larry Nat := ⟨NDArray.ofList [1, 2] [fl 1, fl 2], .float, [[7], [9, 10]]⟩
  have hJ : JoinedAll .inner [[10, 20], [9, 10]] [10] := by
    refine ⟨by simp, fun a => ?_⟩
    simp only [List.mem_cons, List.not_mem_nil, or_false, forall_eq_or_imp, forall_eq]
    omega
  obtain ⟨z1, z2, h, hl⟩ : ∃ z1 z2, alignAxisN [exA, lar2] [0, 1] .inner = .ok [z1, z2] ∧
      z1.label = [[], [3, 1, 2]] := ⟨_, _, rfl, by decide⟩
  refine ⟨exA, lar2, z1, z2, exA_valid, ⟨rfl, by decide, by decide⟩, ?_, hJ, h, by simp [hl], ?_⟩
  · exact .cons ⟨0, by decide, by decide⟩ (.cons ⟨1, by decide, by decide⟩ .nil)
  · rintro ⟨lab, hlab, hF⟩
    have : lab = [10] := eq_of_mem_iff_of_lt hlab.1 hJ.1 (fun a => by rw [hlab.2, hJ.2])
    subst this
    cases hF with
    | cons h1 _ =>
      obtain ⟨_, _, ax, hax, hset⟩ := h1
      have : ax = 0 := by
        have h0 : pyIdx exA.ndim 0 = some 0 := by decide
        rw [h0] at hax; exact (Option.some.inj hax).symm
      subst this
      rw [hl] at hset
      simp [exA] at hset

/-! ## C22 -/

/-- What `binaryop` replaces an aligned value `u` (dtype `d`) by, when the other operand's aligned value
is `w` (dtype `d'`): `missone` if exactly this one is missing, `misstwo` if both are, `u` itself
otherwise or when the fill is 'ignore' (`none`).  `cv d v` is the fill value converted to dtype `d`. -/
def Refilled (cv : DType → Val → Val) (missone misstwo : Option Val) (d : DType) (u : Val) (d' : DType)
    (w : Val) (r : Val) : Prop :=
  (missingMarker d = some u → missingMarker d' ≠ some w → r = (missone.map (cv d)).getD u) ∧
  (missingMarker d = some u → missingMarker d' = some w → r = (misstwo.map (cv d)).getD u) ∧
  (missingMarker d ≠ some u → r = u)

theorem isMissingVal_iff {d : DType} {v : Val} : isMissingVal d v = true ↔ missingMarker d = some v := by
  cases d <;> simp only [isMissingVal, missingMarker, decide_eq_true_eq, Option.some.injEq,
    Bool.false_eq_true, reduceCtorEq]
  · split
    · simp
    · rename_i h; simp only [Bool.false_eq_true, false_iff]; exact fun h' => h h'.symm
  · exact eq_comm
  · exact eq_comm

theorem fillMiss_refilled (cv : DType → Val → Val) (m1 m2 : Option Val) (s : AlignSt) (i : List Nat) :
    Refilled cv m1 m2 s.d1 (s.x1.get i) s.d2 (s.x2.get i) ((fillMiss cv m1 m2 s).x1.get i) ∧
    Refilled cv m1 m2 s.d2 (s.x2.get i) s.d1 (s.x1.get i) ((fillMiss cv m1 m2 s).x2.get i) := by
  unfold Refilled
  simp only [← isMissingVal_iff, ne_eq, Bool.not_eq_true]
  cases h1 : isMissingVal s.d1 (s.x1.get i) <;> cases h2 : isMissingVal s.d2 (s.x2.get i) <;>
    cases m1 <;> cases m2 <;> simp [fillMiss, putmask, NDArray.zipWith, NDArray.map, h1, h2]

theorem fillMiss_meta (cv : DType → Val → Val) (m1 m2 : Option Val) (s : AlignSt) :
    (fillMiss cv m1 m2 s).x1.shape = s.x1.shape ∧ (fillMiss cv m1 m2 s).x2.shape = s.x2.shape ∧
    (fillMiss cv m1 m2 s).d1 = s.d1 ∧ (fillMiss cv m1 m2 s).d2 = s.d2 := by
  cases m1 <;> cases m2 <;> simp [fillMiss, putmask]

/-- C22. For joins without 'skip': `binaryop` gives the larry with the labels of `align`'s results whose
value under each names is `func` of the two aligned values after the documented replacement. -/
theorem C22_binaryop [LinearOrder L] {lar1 lar2 z1 z2 : Larry L} (h1 : lar1.Valid) (h2 : lar2.Valid)
    (hn : lar1.ndim = lar2.ndim) {join : JoinArg} {js : List Join} (hj : JoinsFor lar2.ndim join js)
    (hskip : ∀ j ∈ js, j ≠ .skip) {cast : Bool} (cv : DType → Val → Val) (uf : UFunc2)
    (missone misstwo : Option Val) (hz : align lar1 lar2 join cast = .ok (z1, z2)) {d : DType}
    (hd : uf.dt z1.dtype z2.dtype = .ok d) :
    ∃ x, binaryop cv uf lar1 lar2 join cast missone misstwo = .ok (x, d, z1.label.map some) ∧
      z1.label = z2.label ∧ ValidLabels z1.label x.shape ∧
      ∀ names v, Holds z1.label x names v ↔ ∃ u w u' w', z1.Has names u ∧ z2.Has names w ∧
        Refilled cv missone misstwo z1.dtype u z2.dtype w u' ∧
        Refilled cv missone misstwo z2.dtype w z1.dtype u w' ∧ v = uf.f u' w' := by
  have hok : ∀ e, ¬ FailsAt lar1 lar2 js cast e := by
    intro e hf
    obtain ⟨e', h, _⟩ := C16_align_fails h1 h2 hn hj ⟨e, hf⟩
    rw [h] at hz; simp at hz
  obtain ⟨s, labs, r1, r2, a1, a2, a3, a4, a5, a6, a7, _⟩ := alignRaw_ok h1 h2 hn hj hok
  have hr := a2.same hskip
  have hlabs := a5 hskip
  subst hr
  simp only [align, a1, Except.ok.injEq, Prod.mk.injEq] at hz
  obtain ⟨rfl, rfl⟩ := hz
  simp only at hd
  rw [← a3, ← a4]
  obtain ⟨m1, m2, m3, m4⟩ := fillMiss_meta cv missone misstwo s
  have hsh : s.x1.shape = s.x2.shape := a6.shape_eq.trans a7.shape_eq.symm
  obtain ⟨x, b1, b2, b3⟩ := npBinop_same (uf := uf) (a := (fillMiss cv missone misstwo s).x1)
    (b := (fillMiss cv missone misstwo s).x2) (da := (fillMiss cv missone misstwo s).d1)
    (db := (fillMiss cv missone misstwo s).d2) (by rw [m1, m2, hsh]) (by rw [m3, m4]; exact hd)
  refine ⟨x, ?_, rfl, by rw [b2, m1]; exact a6, ?_⟩
  · simp only [binaryop, a1]
    rw [if_neg (by simp [hsh])]
    simp only [b1, hlabs]
  · have key : ∀ cv m1 m2 d u d' w r r', Refilled cv m1 m2 d u d' w r → Refilled cv m1 m2 d u d' w r' →
        r = r' := by
      intro cv m1 m2 d u d' w r r' h h'
      by_cases c1 : missingMarker d = some u
      · by_cases c2 : missingMarker d' = some w
        · rw [h.2.1 c1 c2, h'.2.1 c1 c2]
        · rw [h.1 c1 c2, h'.1 c1 c2]
      · rw [h.2.2 c1, h'.2.2 c1]
    intro names v
    constructor
    · rintro ⟨idx, hat, rfl⟩
      have hb : InB (fillMiss cv missone misstwo s).x1.shape idx := by
        rw [m1, a6.shape_eq]; exact At_inB hat
      have hf := fillMiss_refilled cv missone misstwo s idx
      exact ⟨_, _, _, _, ⟨idx, hat, rfl⟩, ⟨idx, hat, rfl⟩, hf.1, hf.2, b3 idx hb⟩
    · rintro ⟨u, w, u', w', ⟨idx, hat, hu⟩, ⟨idx', hat', hw⟩, hu', hw', rfl⟩
      simp only at hat hat' hu hw hu' hw'
      have he := At_unique a6.nodup hat hat'
      subst he
      have hb : InB (fillMiss cv missone misstwo s).x1.shape idx := by
        rw [m1, a6.shape_eq]; exact At_inB hat
      have hf := fillMiss_refilled cv missone misstwo s idx
      refine ⟨idx, hat, ?_⟩
      rw [b3 idx hb]
      rw [← hu, ← hw] at hu' hw'
      rw [key _ _ _ _ _ _ _ _ _ hu' hf.1, key _ _ _ _ _ _ _ _ _ hw' hf.2]

/-- C22: exceptions of the alignment are passed on. -/
theorem C22_binaryop_align_error [LinearOrder L] {lar1 lar2 : Larry L} {join : JoinArg} {cast : Bool}
    {e : PyErr} (cv : DType → Val → Val) (uf : UFunc2) (missone misstwo : Option Val)
    (h : align lar1 lar2 join cast = .error e) :
    binaryop cv uf lar1 lar2 join cast missone misstwo = .error e := by
  unfold align at h
  unfold binaryop
  split at h
  · simpa using h
  · simp at h

/-- The replacement is not vacuous: NaN against 3 with missone = 0 becomes 0, NaN against NaN with
misstwo ignored stays NaN. -/
example : Refilled (fun _ v => v) (some (fl 0)) none .float (.flt .nan) .float (fl 3) (fl 0) ∧
    Refilled (fun _ v => v) (some (fl 0)) none .float (.flt .nan) .float (.flt .nan) (.flt .nan) := by
  simp [Refilled, missingMarker]

end La
