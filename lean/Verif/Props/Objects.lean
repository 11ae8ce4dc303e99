import Verif.Objects
import Verif.SpecNum
import Verif.Props.Index

/-! # C111: what an object used as an index means -/

namespace La
variable {L : Type _}

/-! ## Specification -/

/-- Python's integers and numpy's signed ones. -/
def PyClass.Signed (c : PyClass) : Prop :=
  c = .int ∨ c = .long ∨ c = .np .int8 ∨ c = .np .int16 ∨ c = .np .int32 ∨ c = .np .int64 ∨ c = .np .timedelta64

/-- Floats. -/
def PyClass.Floating (c : PyClass) : Prop := c = .float ∨ c = .np .float16 ∨ c = .np .float32 ∨ c = .np .float64

/-- A bool in a list of positions counts as 0 or 1. -/
inductive CountsAs : Bool ⊕ Int → Int → Prop
  | no : CountsAs (.inl false) 0
  | yes : CountsAs (.inl true) 1
  | int (i : Int) : CountsAs (.inr i) i

/-- What an object between the brackets means. -/
inductive IdxObj.Means : IdxObj L → Item L → Prop
  | number {c q i} : c.Signed ∨ c.Floating → Truncates q i → Means (.number c q) (.int i)
  | noNumber {c q} : ¬ (c.Signed ∨ c.Floating) → Means (.number c q) .other
  | slice (s) : Means (.slice s) (.slice s)
  | list {es is} : List.Forall₂ CountsAs es is → Means (.list es) (.seq is)
  | boolArray (bs) : Means (.boolArray bs) (.mask bs)
  | intArray (is) : Means (.intArray is) (.seq is)
  | arrayN : Means .arrayN .nd
  | lar (m) : Means (.lar m) (.lar m)
  | other : Means .other .other

/-- What an object in a lix expression means. -/
inductive LixObj.Means : LixObj L → LItem L → Prop
  | number {c q i} : c.Signed ∨ c.Floating → Truncates q i → Means (.number c q) (.int i)
  | noNumber {c q} : ¬ (c.Signed ∨ c.Floating) → Means (.number c q) .other
  | list (ls) : Means (.list ls) (.list ls)
  | slice (s) : Means (.slice s) (.slice s)
  | other : Means .other .other

/-! ## Types -/

theorem signed_cases (c : PyClass) : (isint c = true ↔ c.Signed) ∧ (isfloat c = true ↔ c.Floating) := by
  unfold PyClass.Signed PyClass.Floating
  cases c with
  | np t => cases t <;> simp [isint, isfloat, issubdtype, PyClass.npType, NpType.mro, NpType.above]
  | _ => simp [isint, isfloat, issubdtype, PyClass.npType, NpType.mro, NpType.above]

/-- C111. `isint` is true of signed integers only, `isfloat` of floats only, `isscalar` of both: not of bools, unsigned integers,
complex numbers and anything else. -/
theorem C111_types (c : PyClass) :
    (isint c = true ↔ c.Signed) ∧ (isfloat c = true ↔ c.Floating) ∧ (isscalar c = true ↔ c.Signed ∨ c.Floating) := by
  obtain ⟨h1, h2⟩ := signed_cases c
  refine ⟨h1, h2, ?_⟩
  unfold isscalar
  rw [Bool.or_eq_true, h1, h2]
  exact Or.comm

/-- C111. Which numpy strings `isstring` knows depends on the version of Python, although its documentation names `np.string_`. -/
theorem C111_isstring : isstring false (.np .string_) = true ∧ isstring true (.np .string_) = false := ⟨rfl, rfl⟩

theorem truncates_pyInt (q : ℚ) : Truncates q (pyInt q) := by
  unfold pyInt
  constructor <;> intro h
  · rw [if_pos h]
    exact ⟨Int.floor_le q, Int.lt_floor_add_one q⟩
  · rw [if_neg (not_le.mpr h)]
    refine ⟨?_, Int.le_ceil q⟩
    have := Int.ceil_lt_add_one q
    linarith

theorem truncates_unique {q : ℚ} {i j : Int} (hi : Truncates q i) (hj : Truncates q j) : i = j := by
  rcases le_or_gt 0 q with h | h
  · obtain ⟨a, b⟩ := hi.1 h
    obtain ⟨c, d⟩ := hj.1 h
    have h1 : (i : ℚ) < j + 1 := by linarith
    have h2 : (j : ℚ) < i + 1 := by linarith
    have h1 : i < j + 1 := by exact_mod_cast h1
    have h2 : j < i + 1 := by exact_mod_cast h2
    omega
  · obtain ⟨a, b⟩ := hi.2 h
    obtain ⟨c, d⟩ := hj.2 h
    have h1 : (i : ℚ) < j + 1 := by linarith
    have h2 : (j : ℚ) < i + 1 := by linarith
    have h1 : i < j + 1 := by exact_mod_cast h1
    have h2 : j < i + 1 := by exact_mod_cast h2
    omega

theorem pyInt_ge (q : ℚ) {n : Nat} (hn0 : 0 < n) : pyInt q ≥ (n : Int) ↔ q ≥ (n : ℚ) := by
  obtain ⟨h1, h2⟩ := truncates_pyInt q
  rcases le_or_gt 0 q with h | h
  · obtain ⟨a, b⟩ := h1 h
    constructor
    · intro k
      have : ((n : Int) : ℚ) ≤ (pyInt q : ℚ) := by exact_mod_cast k
      push_cast at this
      linarith
    · intro k
      have : ((n : Int) : ℚ) < (pyInt q : ℚ) + 1 := by push_cast; linarith
      have : (n : Int) < pyInt q + 1 := by exact_mod_cast this
      omega
  · obtain ⟨a, b⟩ := h2 h
    have hn : (0 : ℚ) ≤ n := Nat.cast_nonneg n
    constructor
    · intro k
      have h3 : (pyInt q : ℚ) < 1 := by linarith
      have h3 : pyInt q < 1 := by exact_mod_cast h3
      omega
    · intro k; linarith

/-! ## `y[...]` -/

theorem means_item (o : IdxObj L) : o.Means o.item := by
  cases o with
  | number c q =>
    by_cases h : isscalar c = true
    · have e : (IdxObj.number c q : IdxObj L).item = .int (pyInt q) := if_pos h
      rw [e]; exact .number ((C111_types c).2.2.mp h) (truncates_pyInt q)
    · have e : (IdxObj.number c q : IdxObj L).item = .other := if_neg h
      rw [e]; exact .noNumber fun k => h ((C111_types c).2.2.mpr k)
  | slice s => exact .slice s
  | list es =>
    refine .list ?_
    induction es with
    | nil => exact .nil
    | cons e es ih =>
      refine .cons ?_ ih
      match e with
      | .inl true => exact .yes
      | .inl false => exact .no
      | .inr i => exact .int i
  | boolArray bs => exact .boolArray bs
  | intArray is => exact .intArray is
  | arrayN => exact .arrayN
  | lar m => exact .lar m
  | other => exact .other

theorem countsAs_unique {es : List (Bool ⊕ Int)} {is js : List Int} (h1 : List.Forall₂ CountsAs es is) (h2 : List.Forall₂ CountsAs es js) :
    is = js := by
  induction h1 generalizing js with
  | nil => cases h2; rfl
  | cons a _ ih =>
    cases h2 with
    | cons b t => rw [ih t]; cases a <;> cases b <;> rfl

/-- An object means one thing only. -/
theorem obj_means_unique {o : IdxObj L} {a b : Item L} (h1 : o.Means a) (h2 : o.Means b) : a = b := by
  cases h1 with
  | number c t => cases h2 with
    | number _ t' => rw [truncates_unique t t']
    | noNumber c' => exact absurd c c'
  | noNumber c => cases h2 with
    | number c' _ => exact absurd c' c
    | noNumber _ => rfl
  | list h => cases h2 with
    | list h' => rw [countsAs_unique h h']
  | slice => cases h2; rfl
  | boolArray => cases h2; rfl
  | intArray => cases h2; rfl
  | arrayN => cases h2; rfl
  | lar => cases h2; rfl
  | other => cases h2; rfl

theorem means_items {os : List (IdxObj L)} {its : List (Item L)} (h : List.Forall₂ IdxObj.Means os its) : os.map IdxObj.item = its := by
  induction h with
  | nil => rfl
  | cons h1 _ ih => rw [List.map_cons, ih, obj_means_unique (means_item _) h1]

section
variable [DecidableEq L]

/-- C111. `y[o]` for any object that is no tuple: a float means its integer part, a list of bools a list of zeros and ones, an array
of bools a mask, and what is neither a number for `isscalar` nor one of the other kinds means nothing. -/
theorem C111_getitem (y : Larry L) {o : IdxObj L} {it : Item L} (h : o.Means it) : y.getObj o = y.getitem (.one it) := by
  unfold Larry.getObj
  rw [obj_means_unique (means_item o) h]

/-- C111. An object that means nothing raises IndexError: a bool, an unsigned integer, a complex number, None, an ellipsis, a string. -/
theorem C111_refused (y : Larry L) {c : PyClass} (hc : ¬ (c.Signed ∨ c.Floating)) (q : ℚ) :
    y.getObj (.number c q) = .error .indexError ∧ y.getObj .other = .error .indexError :=
  ⟨C111_getitem y (.noNumber hc), C111_getitem y .other⟩

/-- C111. The same in a tuple, if no axis is empty. -/
theorem C111_tuple {y : Larry L} (h0 : 0 ∉ y.shape) {os : List (IdxObj L)} {its : List (Item L)} (h : List.Forall₂ IdxObj.Means os its) :
    y.getObjs os = y.getitem (.tuple its) := by
  obtain rfl := means_items h
  have hk : ∀ (ps : List ((List L × Nat) × IdxObj L)), (∀ p ∈ ps, p.1.2 ≠ 0) →
      mapRes (fun p : (List L × Nat) × IdxObj L => p.2.keep p.1.1 p.1.2) ps =
        mapRes (fun p : (List L × Nat) × Item L => p.2.keep p.1.1 p.1.2) (ps.map fun p => (p.1, p.2.item)) := by
    intro ps hp
    induction ps with
    | nil => rfl
    | cons p ps ih =>
      have hn := hp p List.mem_cons_self
      have he : p.2.keep p.1.1 p.1.2 = p.2.item.keep p.1.1 p.1.2 := by
        obtain ⟨⟨l, n⟩, o⟩ := p
        cases o with
        | number c q =>
          by_cases h : isscalar c = true
          · have e : (IdxObj.number c q : IdxObj L).item = .int (pyInt q) := if_pos h
            have := pyInt_ge q (Nat.pos_of_ne_zero hn)
            simp only [IdxObj.keep, e, h, Item.keep, this, if_true]
          · have e : (IdxObj.number c q : IdxObj L).item = .other := if_neg h
            simp only [IdxObj.keep, e, h, Item.keep]
            rfl
        | _ => rfl
      rw [List.map_cons, mapRes, mapRes, ih fun p hm => hp p (List.mem_cons_of_mem _ hm), he]
  unfold Larry.getObjs Larry.getitem Larry.getTuple Larry.keepAll
  rw [hk]
  · congr 1
    have hz : ∀ (as : List (List L × Nat)) (bs : List (IdxObj L)), (as.zip bs).map (fun p => (p.1, p.2.item)) = as.zip (bs.map IdxObj.item) :=
      fun as bs => (List.zip_map_right ..).symm
    rw [hz, List.map_append, List.map_replicate, List.length_map]
    rfl
  · rintro ⟨⟨l, n⟩, o⟩ hm rfl
    exact h0 (List.of_mem_zip (List.of_mem_zip hm).1).2

/-- C111. A list of bools is not a mask: with three or more of them `y[[True, False, True]]` raises IndexError. -/
theorem C111_list_of_bools (y : Larry L) {bs : List Bool} (h : 3 ≤ bs.length) : y.getObj (.list (bs.map .inl)) = .error .indexError := by
  have hdup : ∀ lab, pyItems (y.label.getD 0 []) ((bs.map Sum.inl).map position) = .ok lab → hasDup lab = true := by
    intro lab hl
    rw [hasDup_true]
    match bs, h with
    | a :: b :: c :: rest, _ =>
      have hf := mapRes_ok.mp hl
      match lab, hf with
      | n0 :: n1 :: n2 :: ns, .cons h0 (.cons h1 (.cons h2 _)) =>
        intro hn
        have e01 : a = b → n0 = n1 := fun e => by rw [e] at h0; rw [h0] at h1; simpa using h1
        have e02 : a = c → n0 = n2 := fun e => by rw [e] at h0; rw [h0] at h2; simpa using h2
        have e12 : b = c → n1 = n2 := fun e => by rw [e] at h1; rw [h1] at h2; simpa using h2
        simp only [List.nodup_cons, List.mem_cons, not_or] at hn
        have : a = b ∨ a = c ∨ b = c := by cases a <;> cases b <;> cases c <;> simp
        rcases this with e | e | e
        · exact hn.1.1 (e01 e)
        · exact hn.1.2.1 (e02 e)
        · exact hn.2.1.1 (e12 e)
  show y.getSeq ((bs.map Sum.inl).map position) = _
  unfold Larry.getSeq
  cases hl : pyItems (y.label.getD 0 []) ((bs.map Sum.inl).map position) with
  | error e => rfl
  | ok lab => exact if_pos (hdup lab hl)

/-- C111. `y[[True, False]]` is the second row followed by the first. -/
theorem C111_two_bools (y : Larry L) : y.getObj (.list [.inl true, .inl false]) = y.getitem (.one (.seq [1, 0])) := rfl

end

/-! ## `y.lix[...]` -/

theorem lix_means_item (o : LixObj L) : o.Means o.item := by
  cases o with
  | number c q =>
    by_cases h : isscalar c = true
    · have e : (LixObj.number c q : LixObj L).item = .int (pyInt q) := if_pos h
      rw [e]; exact .number ((C111_types c).2.2.mp h) (truncates_pyInt q)
    · have e : (LixObj.number c q : LixObj L).item = .other := if_neg h
      rw [e]; exact .noNumber fun k => h ((C111_types c).2.2.mpr k)
  | list ls => exact .list ls
  | slice s => exact .slice s
  | other => exact .other

theorem lix_means_unique {o : LixObj L} {a b : LItem L} (h1 : o.Means a) (h2 : o.Means b) : a = b := by
  cases h1 with
  | number c t => cases h2 with
    | number _ t' => rw [truncates_unique t t']
    | noNumber c' => exact absurd c c'
  | noNumber c => cases h2 with
    | number c' _ => exact absurd c' c
    | noNumber _ => rfl
  | list => cases h2; rfl
  | slice => cases h2; rfl
  | other => cases h2; rfl

theorem lix_means_items {os : List (LixObj L)} {its : List (LItem L)} (h : List.Forall₂ LixObj.Means os its) : os.map LixObj.item = its := by
  induction h with
  | nil => rfl
  | cons h1 _ ih => rw [List.map_cons, ih, lix_means_unique (lix_means_item _) h1]

section
variable [LinearOrder L]

/-- C111. `y.lix[o]` reads numbers as `y[o]` does. -/
theorem C111_lix (y : Larry L) {o : LixObj L} {it : LItem L} (h : o.Means it) : y.lixObj o = y.lixGet (.one it) := by
  unfold Larry.lixObj
  rw [lix_means_unique (lix_means_item o) h]

/-- C111. So does `y.lix[o0, o1, ...]` if there is no float among them. -/
theorem C111_lix_tuple (y : Larry L) {os : List (LixObj L)} {its : List (LItem L)} (h : List.Forall₂ LixObj.Means os its)
    (hf : ∀ c q, c.Floating → LixObj.number c q ∉ os) : y.lixObjs os = y.lixGet (.tuple its) := by
  have ha : os.any LixObj.isFlt = false := by
    rw [List.any_eq_false]
    intro o ho
    cases o with
    | number c q => exact fun k => hf c q ((C111_types c).2.1.mp k) ho
    | _ => simp [LixObj.isFlt]
  unfold Larry.lixObjs
  rw [lix_means_items h, ha]
  split
  · rfl
  · rename_i h0
    cases hs : lixSel y its with
    | error e =>
      have h1 : y.shape ≠ [0] := fun k => h0 (by rw [k]; simp)
      unfold Larry.lixGet
      simp only [h0, h1, hs, if_false]
    | ok s => rfl

/-- C111. With a float in a tuple `lix` raises, although it takes the float alone. -/
theorem C111_lix_float (y : Larry L) (h0 : 0 ∉ y.shape) {os : List (LixObj L)} {c : PyClass} {q : ℚ} (hc : c.Floating)
    (hm : LixObj.number c q ∈ os) : ∃ e, y.lixObjs os = .error e := by
  have ha : os.any LixObj.isFlt = true := List.any_eq_true.mpr ⟨_, hm, (C111_types c).2.1.mpr hc⟩
  unfold Larry.lixObjs
  rw [if_neg h0, ha]
  cases lixSel y (os.map LixObj.item) with
  | error e => exact ⟨e, rfl⟩
  | ok s => exact ⟨_, rfl⟩

end

/-! ## Examples -/

/-- Three rows, two columns. -/
def exGrid : Larry Nat :=
  ⟨NDArray.ofList [3, 2] [.int 1, .int 2, .int 3, .int 4, .int 5, .int 6], .int, [[10, 20, 30], [7, 8]]⟩

/-- `y[1.9, -1.5]` is `y[1, -1]`, and `y[[True, False], 0]` the second and the first row. -/
example : List.Forall₂ (IdxObj.Means (L := Nat)) [.number .float (19/10), .number .float (-3/2)] [.int 1, .int (-1)] ∧
    List.Forall₂ (IdxObj.Means (L := Nat)) [.list [.inl true, .inl false], .number (.np .int8) 0] [.seq [1, 0], .int 0] ∧
    0 ∉ exGrid.shape ∧
    (exGrid.getObjs [.number .float (19/10), .number .float (-3/2)]).toOption.map (fun o => match o with | .scalar v => some v | _ => none) =
      some (some (.int 4)) := by
  refine ⟨.cons (.number (.inr (.inl rfl)) ⟨fun _ => by norm_num, fun h => by norm_num at h⟩)
    (.cons (.number (.inr (.inl rfl)) ⟨fun h => by norm_num at h, fun _ => by norm_num⟩) .nil),
    .cons (.list (.cons .yes (.cons .no .nil))) (.cons (.number (.inl (by simp [PyClass.Signed]))
      ⟨fun _ => by norm_num, fun h => by norm_num at h⟩) .nil), by simp [exGrid, Larry.shape, NDArray.ofList], by decide +kernel⟩

/-- A bool and an unsigned integer are no numbers here. -/
example : ¬ (PyClass.bool.Signed ∨ PyClass.bool.Floating) ∧ ¬ ((PyClass.np .uint8).Signed ∨ (PyClass.np .uint8).Floating) := by
  simp [PyClass.Signed, PyClass.Floating]

/-- `y.lix[1.0, [7]]` raises, `y.lix[1.0]` is the second row. -/
example : PyClass.float.Floating ∧ (LixObj.number .float 1 : LixObj Nat) ∈ [.number .float 1, .list [7]] ∧
    (exGrid.lixObj (.number .float 1)).toOption.isSome = true := ⟨.inl rfl, by simp, by decide +kernel⟩

end La
