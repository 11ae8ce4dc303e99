import Verif.Create
import Verif.KernelFacts
import Verif.Props.Core

/-!
# C77: the functions that create larrys
-/

namespace La
open Larry
variable {L : Type _} [DecidableEq L]

/-- The call says which labels to use: label lists without duplicates (at least one), or else a shape
with at least one axis. -/
def GoodAsk (shape : Option (List Nat)) (label : Option (List (List L))) : Prop :=
  (∃ l, label = some l ∧ l ≠ [] ∧ ∀ a ∈ l, a.Nodup) ∨ (label = none ∧ ∃ s, shape = some s ∧ s ≠ [])

/-- The label lists `lab` are the ones given, or else 0, 1, 2, ... on the axes of the shape given. -/
def AskedLabels (num : Nat → L) (shape : Option (List Nat)) (label : Option (List (List L)))
    (lab : List (List L)) : Prop :=
  (∀ l, label = some l → lab = l) ∧
  (label = none → ∀ s, shape = some s → lab.length = s.length ∧
    ∀ (k : Nat) l n, lab[k]? = some l → s[k]? = some n → l.length = n ∧ ∀ i < n, l[i]? = some (num i))

/-- The label lists that a good call asks for. -/
def theLabels (num : Nat → L) (shape : Option (List Nat)) (label : Option (List (List L))) :
    List (List L) := label.getD ((shape.getD []).map fun n => (List.range n).map num)

omit [DecidableEq L] in
theorem theLabels_asked (num : Nat → L) (shape : Option (List Nat)) (label : Option (List (List L))) :
    AskedLabels num shape label (theLabels num shape label) := by
  refine ⟨?_, ?_⟩
  · rintro l rfl; rfl
  · rintro rfl s rfl
    refine ⟨by simp [theLabels], ?_⟩
    intro k l n hl hn
    simp only [theLabels, Option.getD_none, Option.getD_some, List.getElem?_map, hn, Option.map_some,
      Option.some.injEq] at hl
    subst hl
    refine ⟨by simp, fun i hi => by simp [hi]⟩

omit [DecidableEq L] in
theorem asked_shape {num : Nat → L} {shape : Option (List Nat)} {label : Option (List (List L))}
    (h : GoodAsk shape label) :
    askedShape shape label = .ok ((theLabels num shape label).map List.length) := by
  rcases h with ⟨l, rfl, -, -⟩ | ⟨rfl, s, rfl, -⟩
  · rfl
  · simp [askedShape, theLabels, Function.comp_def]

theorem larryOf_good {num : Nat → L} (hnum : Function.Injective num) {shape : Option (List Nat)}
    {label : Option (List (List L))} (h : GoodAsk shape label) (f : List Nat → Val) (d : DType) :
    ValidLabels (theLabels num shape label) ((theLabels num shape label).map List.length) ∧
    larryOf num ⟨(theLabels num shape label).map List.length, f⟩ d label =
      .ok ⟨⟨(theLabels num shape label).map List.length, f⟩, d, theLabels num shape label⟩ := by
  have hv : ValidLabels (theLabels num shape label) ((theLabels num shape label).map List.length) := by
    refine ⟨rfl, ?_, ?_⟩
    · rcases h with ⟨l, rfl, -, h⟩ | ⟨rfl, s, rfl, -⟩
      · exact h
      · intro a ha
        simp only [theLabels, Option.getD_none, Option.getD_some, List.mem_map] at ha
        obtain ⟨n, -, rfl⟩ := ha
        exact List.Nodup.map hnum List.nodup_range
    · rcases h with ⟨l, rfl, h, -⟩ | ⟨rfl, s, rfl, h⟩
      · exact h
      · simpa [theLabels] using h
  refine ⟨hv, ?_⟩
  have e : label.getD (((theLabels num shape label).map List.length).map fun n => (List.range n).map num) =
      theLabels num shape label := by
    rcases h with ⟨l, rfl, -, -⟩ | ⟨rfl, s, rfl, -⟩
    · rfl
    · simp [theLabels, Function.comp_def]
  unfold larryOf
  rw [if_pos rfl]
  simp only [e]
  exact (C06_constructor _ d _).1 hv

theorem larryOf_bad {num : Nat → L} {shape : Option (List Nat)} {label : Option (List (List L))}
    (h : ¬ GoodAsk shape label) {s : List Nat} (hs : askedShape shape label = .ok s) (f : List Nat → Val)
    (d : DType) : larryOf num ⟨s, f⟩ d label = .error .valueError := by
  unfold larryOf
  rw [if_pos rfl]
  refine (C06_constructor _ d _).2 fun hv => h ?_
  match label, hs, hv with
  | some l, _, hv => exact .inl ⟨l, rfl, hv.ndim_pos, hv.nodup⟩
  | none, hs, hv =>
    match shape, hs with
    | some s', hs =>
      refine .inr ⟨rfl, s', rfl, ?_⟩
      have : s' = s := by simpa [askedShape] using hs
      subst this
      simpa using hv.ndim_pos

/-- The number `n` in an array of dtype `d`. -/
def NumberOf (d : DType) (n : Int) (v : Val) : Prop :=
  (d = .float → v = .flt (.fin n)) ∧ (d = .int → v = .int n) ∧ (d = .bool → v = .bool (decide (n ≠ 0)))

theorem intAs_number (d : DType) (n : Int) : NumberOf d n (intAs d n) := by
  refine ⟨?_, ?_, ?_⟩ <;> rintro rfl <;> simp [intAs, bne]
  by_cases h : n = 0 <;> simp [h]

theorem arangeLen_eq (start step : Int) (n : Nat) (h : step ≠ 0) :
    arangeLen start (step * n + start) step = n := by
  have h' : (step : ℚ) ≠ 0 := by exact_mod_cast h
  unfold arangeLen
  have : (((step * n + start - start : Int) : ℚ) / (step : ℚ)) = ((n : Int) : ℚ) := by
    rw [div_eq_iff h']; push_cast; ring
  rw [this, Int.ceil_intCast]
  simp

/-- C77. `lrange` numbers the cells consecutively in row-major order: the cell at position `idx` holds
`start + step * (its position in row-major order)`, under the labels asked for. -/
theorem C77_lrange {num : Nat → L} (hnum : Function.Injective num) {shape : Option (List Nat)}
    {label : Option (List (List L))} (h : GoodAsk shape label) (start step : Int) (hstep : step ≠ 0)
    {dtype : Option DType} (hd : dtype = none ∨ dtype = some .int ∨ dtype = some .float) :
    ∃ z, lrange num shape label start step dtype = .ok z ∧ z.Valid ∧ z.dtype = dtype.getD .int ∧
      AskedLabels num shape label z.label ∧
      ∀ idx names, At z.label idx names →
        ∃ v, z.Has names v ∧ NumberOf z.dtype (start + step * rowMajor z.shape idx) v := by
  obtain ⟨hv, hl⟩ := larryOf_good hnum h
    (fun idx => intAs (dtype.getD .int)
      (start + (ravelC ((theLabels num shape label).map List.length) idx : Int) * step)) (dtype.getD .int)
  refine ⟨⟨⟨_, fun idx => intAs (dtype.getD .int)
      (start + (ravelC ((theLabels num shape label).map List.length) idx : Int) * step)⟩, dtype.getD .int,
      theLabels num shape label⟩, ?_, hv, rfl, theLabels_asked num shape label, ?_⟩
  · unfold lrange
    simp only [asked_shape (num := num) h]
    rw [if_neg hstep, if_neg (not_not.mpr hd), if_neg (by
      rw [arangeLen_eq _ _ _ hstep]; simp)]
    exact hl
  · intro idx names hat
    refine ⟨_, ⟨idx, hat, rfl⟩, ?_⟩
    simp only [ravelC_eq, mul_comm step]
    exact intAs_number _ _

/-- C77. In an `lrange` no two cells hold the same number. -/
theorem C77_lrange_distinct {num : Nat → L} (hnum : Function.Injective num) {shape : Option (List Nat)}
    {label : Option (List (List L))} (h : GoodAsk shape label) {start step : Int} (hstep : step ≠ 0)
    {dtype : Option DType} (hd : dtype = none ∨ dtype = some .int ∨ dtype = some .float) {z : Larry L}
    (hz : lrange num shape label start step dtype = .ok z) {names names' : List L} {v : Val}
    (h1 : z.Has names v) (h2 : z.Has names' v) : names = names' := by
  obtain ⟨z', hz', hv, hdt, -, hcell⟩ := C77_lrange hnum h start step hstep hd
  rw [hz] at hz'
  obtain rfl : z = z' := by simpa using hz'
  obtain ⟨idx, hat, -⟩ := id h1
  obtain ⟨idx', hat', -⟩ := id h2
  obtain ⟨w, hw, hn⟩ := hcell idx names hat
  obtain ⟨w', hw', hn'⟩ := hcell idx' names' hat'
  have e1 := Holds_unique hv.nodup h1 hw
  have e2 := Holds_unique hv.nodup h2 hw'
  subst e1
  subst e2
  have key : start + step * rowMajor z.shape idx = start + step * rowMajor z.shape idx' := by
    rcases hd with rfl | rfl | rfl
    · simpa using (hn.2.1 hdt).symm.trans (hn'.2.1 hdt)
    · simpa using (hn.2.1 hdt).symm.trans (hn'.2.1 hdt)
    · have := (hn.1 hdt).symm.trans (hn'.1 hdt)
      simp only [Val.flt.injEq, Flt.fin.injEq] at this
      exact_mod_cast this
  have hr : rowMajor z.shape idx = rowMajor z.shape idx' := by
    have := add_left_cancel key
    exact_mod_cast mul_left_cancel₀ hstep this
  have hb : InB z.shape idx := by unfold Larry.shape; rw [hv.shape_eq]; exact At_inB hat
  have hb' : InB z.shape idx' := by unfold Larry.shape; rw [hv.shape_eq]; exact At_inB hat'
  have := rowMajor_inj hb hb' hr
  subst this
  exact At_names_unique hat hat'

/-- C77. `ones` and `zeros` make a larry with the labels asked for and the number in every cell,
whatever the memory held before. -/
theorem C77_filled (mem : List Nat → Val) {num : Nat → L} (hnum : Function.Injective num) (n : Int)
    {shape : Option (List Nat)} {label : Option (List (List L))} (h : GoodAsk shape label)
    (dtype : Option DType) :
    ∃ z, filled mem num n shape label dtype = .ok z ∧ z.Valid ∧ z.dtype = dtype.getD .float ∧
      AskedLabels num shape label z.label ∧ ∀ names v, z.Has names v → NumberOf z.dtype n v := by
  obtain ⟨hv, hl⟩ := larryOf_good hnum h mem (dtype.getD .float)
  refine ⟨Larry.fill ⟨⟨(theLabels num shape label).map List.length, mem⟩, dtype.getD .float,
      theLabels num shape label⟩ n, ?_, ?_, ?_, theLabels_asked num shape label, ?_⟩
  · unfold filled emptyLike
    simp only [asked_shape (num := num) h, hl]
  · exact hv
  · rfl
  · rintro names v ⟨idx, -, rfl⟩
    exact intAs_number _ _

/-- C77. `empty` makes a larry with the labels asked for. -/
theorem C77_empty (mem : List Nat → Val) {num : Nat → L} (hnum : Function.Injective num)
    {shape : Option (List Nat)} {label : Option (List (List L))} (h : GoodAsk shape label)
    (dtype : Option DType) :
    ∃ z, emptyLike mem num shape label dtype = .ok z ∧ z.Valid ∧ z.dtype = dtype.getD .float ∧
      AskedLabels num shape label z.label := by
  obtain ⟨hv, hl⟩ := larryOf_good hnum h mem (dtype.getD .float)
  refine ⟨⟨⟨(theLabels num shape label).map List.length, mem⟩, dtype.getD .float, theLabels num shape label⟩,
    ?_, hv, rfl, theLabels_asked num shape label⟩
  unfold emptyLike
  simp only [asked_shape (num := num) h, hl]

/-- C77. Without a shape or labels, with no axes, or with a label twice on an axis, these functions
raise ValueError. -/
theorem C77_errors (mem : List Nat → Val) (num : Nat → L) {shape : Option (List Nat)}
    {label : Option (List (List L))} (h : ¬ GoodAsk shape label) (dtype : Option DType) :
    emptyLike mem num shape label dtype = .error .valueError ∧
    (∀ n, filled mem num n shape label dtype = .error .valueError) ∧
    ∀ start step, step ≠ 0 → (dtype = none ∨ dtype = some .int ∨ dtype = some .float) →
      lrange num shape label start step dtype = .error .valueError := by
  cases hs : askedShape shape label with
  | error e =>
    have : e = .valueError := by
      unfold askedShape at hs
      split at hs
      · simp at hs
      · split at hs <;> simp at hs; exact hs.symm
    subst this
    refine ⟨by simp [emptyLike, hs], fun n => by simp [filled, emptyLike, hs], ?_⟩
    intro start step _ _
    simp [lrange, hs]
  | ok s =>
    have he := larryOf_bad (num := num) h hs
    refine ⟨by simp [emptyLike, hs, he], fun n => by simp [filled, emptyLike, hs, he], ?_⟩
    intro start step hstep hd
    unfold lrange
    simp only [hs]
    rw [if_neg hstep, if_neg (not_not.mpr hd), if_neg (by
      rw [arangeLen_eq _ _ _ hstep]; simp)]
    exact he _ _

/-- C77. If labels are given the shape is not looked at: it may even contradict them. -/
theorem C77_shape_ignored (mem : List Nat → Val) (num : Nat → L) (shape : Option (List Nat))
    (label : List (List L)) (start step : Int) (dtype : Option DType) :
    lrange num shape (some label) start step dtype = lrange num none (some label) start step dtype ∧
    emptyLike mem num shape (some label) dtype = emptyLike mem num none (some label) dtype ∧
    ∀ n, filled mem num n shape (some label) dtype = filled mem num n none (some label) dtype :=
  ⟨rfl, rfl, fun _ => rfl⟩

/-- C77. `rand` and `randn`: the numbers drawn for the shape asked for, under the labels asked for;
sizes that contradict the labels are a ValueError, unlike in `ones`. -/
theorem C77_rand {num : Nat → L} (hnum : Function.Injective num) {draw : List Nat → NDArray Val}
    (hdraw : ∀ s, (draw s).shape = s) (args : List Nat) (label : Option (List (List L))) :
    (args ≠ [] → label = none → ∃ z, rand num draw args label none = .ok (.larry z) ∧ z.Valid ∧
      z.dtype = .float ∧ AskedLabels num (some args) none z.label ∧ z.x = draw args) ∧
    (∀ l, label = some l → (∀ a ∈ l, a.Nodup) → l ≠ [] → (args = [] ∨ args = l.map List.length) →
      ∃ z, rand num draw args label none = .ok (.larry z) ∧ z.Valid ∧ z.dtype = .float ∧ z.label = l ∧
        z.x = draw (l.map List.length)) ∧
    (∀ l, label = some l → args ≠ [] → args ≠ l.map List.length →
      rand num draw args label none = .error .valueError) ∧
    (args = [] → label = none → rand num draw args label none = .ok (.number ((draw []).get []))) := by
  have heta : ∀ s, draw s = ⟨s, (draw s).get⟩ := by
    intro s
    conv_lhs => rw [show draw s = ⟨(draw s).shape, (draw s).get⟩ from rfl, hdraw s]
  refine ⟨?_, ?_, ?_, ?_⟩
  · rintro hne rfl
    obtain ⟨hv, hl⟩ := larryOf_good (L := L) hnum (shape := some args) (label := none)
      (.inr ⟨rfl, args, rfl, hne⟩) (draw args).get .float
    have hs : (theLabels num (some args) none).map List.length = args := by
      simp [theLabels, Function.comp_def]
    rw [hs, ← heta] at hl
    rw [hs] at hv
    refine ⟨⟨draw args, .float, theLabels num (some args) none⟩, ?_, ?_, rfl,
      theLabels_asked num (some args) none, rfl⟩
    · unfold rand
      rw [if_pos (List.length_pos_iff.mpr hne)]
      simp only [Option.getD_none, hl]
    · change ValidLabels _ (draw args).shape
      rw [hdraw]; exact hv
  · rintro l rfl hnd hne hargs
    obtain ⟨hv, hl⟩ := larryOf_good (L := L) hnum (shape := none) (label := some l)
      (.inl ⟨l, rfl, hne, hnd⟩) (draw (l.map List.length)).get .float
    change larryOf num ⟨l.map List.length, _⟩ .float (some l) = .ok ⟨_, .float, l⟩ at hl
    rw [← heta] at hl
    refine ⟨⟨draw (l.map List.length), .float, l⟩, ?_, ?_, rfl, rfl, rfl⟩
    · unfold rand
      rcases hargs with rfl | rfl
      · rw [if_neg (by simp)]
        simp only [Option.getD_none, hl]
        exact congrArg (fun x => (Except.ok (RandOut.larry (⟨x, .float, l⟩ : Larry L)) : Res (RandOut L)))
          (heta _).symm
      · rw [if_pos (by simpa using List.length_pos_iff.mpr hne)]
        simp only [Option.getD_none, hl]
        exact congrArg (fun x => (Except.ok (RandOut.larry (⟨x, .float, l⟩ : Larry L)) : Res (RandOut L)))
          (heta _).symm
    · change ValidLabels _ (draw _).shape
      rw [hdraw]; exact hv
  · rintro l rfl hne hbad
    have : larryOf num (draw args) .float (some l) = .error .valueError := by
      unfold larryOf
      rw [if_pos rfl]
      refine (C06_constructor _ _ _).2 fun hv => hbad ?_
      have := hv.shape_eq
      rwa [hdraw] at this
    unfold rand
    rw [if_pos (List.length_pos_iff.mpr hne)]
    simp only [Option.getD_none, this]
  · rintro rfl rfl
    rfl

/-- C77. `rand` with `validate`: True changes nothing if there are sizes or labels, False gives the larry
without a check, and with `validate` alone it is a ValueError. -/
theorem C77_rand_validate (num : Nat → L) (draw : List Nat → NDArray Val) (args : List Nat)
    (label : Option (List (List L))) :
    (args ≠ [] ∨ label ≠ none → rand num draw args label (some true) = rand num draw args label none) ∧
    (∀ l, label = some l → args ≠ [] →
      rand num draw args label (some false) = .ok (.larry ⟨draw args, .float, l⟩)) ∧
    (∀ l, label = some l → args = [] →
      rand num draw args label (some false) = .ok (.larry ⟨draw (l.map List.length), .float, l⟩)) ∧
    (∀ b, args = [] → label = none → rand num draw args label (some b) = .error .valueError) := by
  refine ⟨?_, ?_, ?_, ?_⟩
  · intro h
    cases args with
    | cons n ns => rfl
    | nil => cases label with
      | some l => rfl
      | none => simp at h
  · rintro l rfl h
    unfold rand
    rw [if_pos (List.length_pos_iff.mpr h)]
    rfl
  · rintro l rfl rfl
    rfl
  · rintro b rfl rfl
    rfl

/-- Labels that are not valid get through with `validate=False`. -/
example : rand id (fun s => ⟨s, fun _ => fl 1⟩) [2] (some [[5, 5]]) none = .error .valueError ∧
    ∃ z, rand id (fun s => ⟨s, fun _ => fl 1⟩) [2] (some [[5, 5]]) (some false) = .ok (.larry z) ∧ z.label = [[5, 5]] :=
  ⟨rfl, _, rfl, rfl⟩

/-- A label type with the integers and some texts. -/
example : GoodAsk (L := ℕ ⊕ String) (some [2, 3]) none ∧
    GoodAsk (L := ℕ ⊕ String) none (some [[.inr "a", .inr "b"], [.inl 0]]) ∧
    ¬ GoodAsk (L := ℕ ⊕ String) none (some [[.inr "a", .inr "a"]]) ∧
    Function.Injective (Sum.inl : ℕ → ℕ ⊕ String) := by
  refine ⟨.inr ⟨rfl, [2, 3], rfl, by simp⟩, .inl ⟨_, rfl, by simp, by simp⟩, ?_, Sum.inl_injective⟩
  rintro (⟨l, h, -, h2⟩ | ⟨h, -⟩)
  · simp only [Option.some.injEq] at h
    subst h
    simp at h2
  · simp at h

end La
