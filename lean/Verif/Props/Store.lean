import Verif.Store
import Verif.Props.Lix
import Verif.Props.Numeric
import Verif.Props.Core
import Verif.Props.Missing

/-! # C116: what an assignment stores -/

namespace La
variable {L : Type _}

/-! ## Specification -/

/-- A value one can ask a larry of dtype `d` to hold: a number for a larry of numbers (finite for ints), a string for a string
larry, anything for a larry of objects. -/
def CanHold (d : DType) (v : Val) : Prop :=
  match d with
  | .object => True
  | .str => ∃ s, v = .str s
  | .int => ∃ q, v.num = .fin q
  | _ => v.isNumber = true

/-- What a larry of dtype `d` holds for `v`. -/
def HeldAs (d : DType) (v w : Val) : Prop :=
  match d with
  | .object => w = v
  | .str => w = v
  | .float => w = .flt v.num
  | .int => ∃ q i, v.num = .fin q ∧ w = .int i ∧ Truncates q i
  | .bool => (v.num = .fin 0 ∧ w = .bool false) ∨ (v.num ≠ .fin 0 ∧ w = .bool true)

/-- Dtype `d` has a place for `v` as it is. -/
def Exactly (d : DType) (v : Val) : Prop :=
  match d with
  | .int => ∃ n : ℤ, v.num = .fin n
  | .bool => v.num = .fin 0 ∨ v.num = .fin 1
  | _ => True

/-! ## Facts -/

theorem written_held {d : DType} {v : Val} (h : CanHold d v) : HeldAs d v (written d v) := by
  cases d
  case bool =>
    by_cases k : v.num = .fin 0
    · exact .inl ⟨k, by simp [written, Larry.storeAs, k]⟩
    · exact .inr ⟨k, by simp [written, Larry.storeAs, k]⟩
  case int =>
    obtain ⟨q, hq⟩ := h
    exact ⟨q, _, hq, rfl, by rw [hq]; exact truncInt_spec q⟩
  all_goals rfl

theorem held_typed {d : DType} {v w : Val} (hc : CanHold d v) (h : HeldAs d v w) : w.hasDType d = true := by
  cases d
  case bool => rcases h with ⟨-, rfl⟩ | ⟨-, rfl⟩ <;> rfl
  case int => obtain ⟨q, i, -, rfl, -⟩ := h; rfl
  case float => subst h; rfl
  case str => obtain ⟨s, rfl⟩ := hc; subst h; rfl
  case object => cases w <;> rfl

theorem held_own {d : DType} {v : Val} (h : v.hasDType d = true) : written d v = v := by
  cases d <;> cases v <;> simp [Val.hasDType] at h <;> try rfl
  case bool.bool b => cases b <;> rfl
  case int.int n => simp only [written, Larry.storeAs, Val.num]; rw [truncInt_whole]

theorem canHold_own {d : DType} {v : Val} (h : v.hasDType d = true) : CanHold d v := by
  cases d <;> cases v <;> simp [Val.hasDType] at h <;> simp [CanHold, Val.isNumber, Val.num]

/-- A larry that differs from a typed one only in cells holding typed values is typed. -/
theorem typed_of_cells {y z : Larry L} (hy : y.Valid) (ht : y.Typed) (hz : z.Valid) (hl : z.label = y.label)
    (hd : z.dtype = y.dtype) (P : List L → Prop)
    (h1 : ∀ names, Named y.label names → P names → ∃ w, z.Has names w ∧ w.hasDType y.dtype = true)
    (h2 : ∀ names w, y.Has names w → ¬ P names → z.Has names w) : z.Typed := by
  rw [Larry.typed_iff hz]
  intro names v hv
  have hN : Named y.label names := hl ▸ Named_of_Holds hv
  rw [hd]
  by_cases hp : P names
  · obtain ⟨w, hw, htw⟩ := h1 names hN hp
    rw [Holds_unique hz.nodup hv hw]
    exact htw
  · obtain ⟨w, hw⟩ := Holds_of_Named (x := y.x) hN
    rw [Holds_unique hz.nodup hv (h2 names w hw hp)]
    exact (Larry.typed_iff hy).mp ht names w hw

/-! ## C116 -/

/-- C116. `y.set(names, v)`: the cell then holds `v` in the dtype of `y`; nothing else changes. -/
theorem C116_set [LinearOrder L] {y : Larry L} (hv : y.Valid) (ht : y.Typed) {names : List L} (hN : Named y.label names) {v : Val}
    (hc : CanHold y.dtype v) :
    ∃ z w, y.setTo names v = .ok z ∧ z.Valid ∧ z.Typed ∧ z.label = y.label ∧ z.dtype = y.dtype ∧ HeldAs y.dtype v w ∧
      z.get names = .ok w ∧ ∀ other, other ≠ names → z.get other = y.get other := by
  obtain ⟨z, h1, h2, h3, h4, h5, h6, h7⟩ := (C08_set hv names (written y.dtype v)).1 hN
  have hh := written_held hc
  have hnn : ¬ (y.dtype = .int ∧ v.num = .nan) := by
    rintro ⟨a, b⟩
    rw [a] at hc
    obtain ⟨q, hq⟩ := hc
    rw [b] at hq
    cases hq
  refine ⟨z, _, ?_, h2, ?_, h3, h5, hh, h6, h7⟩
  · obtain ⟨idx, hat⟩ := At_of_Named hN
    unfold Larry.setTo
    rw [(Larry.labelIdx_ok hv).mpr hat]
    exact (if_neg hnn).trans h1
  · refine typed_of_cells hv ht h2 h3 h5 (fun n => n = names) (fun n _ hn => ?_) (fun n w hw hn => ?_)
    · subst hn
      exact ⟨_, (Larry.get_ok_iff h2).mp h6, held_typed hc hh⟩
    · rw [← Larry.get_ok_iff h2, h7 n hn, Larry.get_ok_iff hv]
      exact hw

/-- C116. What `set` raises: as `get` for names that are not there, ValueError for a NaN in an int larry. -/
theorem C116_set_errors [LinearOrder L] {y : Larry L} (hv : y.Valid) (names : List L) (v : Val) :
    (∀ e, y.get names = .error e → y.setTo names v = .error e) ∧
    (Named y.label names → y.dtype = .int → y.setTo names (.flt .nan) = .error .valueError) := by
  constructor
  · intro e he
    unfold Larry.setTo
    cases hi : y.labelIdx names with
    | error e' =>
      simp only [Larry.get, hi, Except.error.injEq] at he
      rw [he]
    | ok idx =>
      exfalso
      have hat := (Larry.labelIdx_ok hv).mp hi
      have : y.get names = .ok (y.x.get idx) := (Larry.get_ok_iff hv).mpr ⟨idx, hat, rfl⟩
      rw [this] at he
      cases he
  · intro hN hd
    obtain ⟨idx, hat⟩ := At_of_Named hN
    unfold Larry.setTo
    rw [(Larry.labelIdx_ok hv).mpr hat]
    exact if_pos ⟨hd, rfl⟩

/-- C116. Writing back what was read changes nothing. -/
theorem C116_own [LinearOrder L] {y : Larry L} (hv : y.Valid) (ht : y.Typed) {names : List L} {v : Val}
    (h : y.get names = .ok v) : ∃ z, y.setTo names v = .ok z ∧ z.Same y := by
  have hh := (Larry.get_ok_iff hv).mp h
  have htv := (Larry.typed_iff hv).mp ht names v hh
  obtain ⟨z, w, h1, h2, -, h3, h4, h5, h6, h7⟩ := C116_set hv ht (Named_of_Holds hh) (canHold_own htv)
  refine ⟨z, h1, h2.same_of_has hv h3 h4 fun n u hu => ?_⟩
  have hu' := (Larry.get_ok_iff h2).mpr hu
  by_cases hn : n = names
  · subst hn
    have hw : w = v := by
      have e := held_own htv
      cases hd : y.dtype
      case int =>
        rw [hd] at h5 htv
        cases v <;> simp [Val.hasDType] at htv
        obtain ⟨q, i, hq, rfl, htr⟩ := h5
        simp only [Val.num, Flt.fin.injEq] at hq
        subst hq
        rw [htr.whole]
      case bool =>
        rw [hd] at h5 htv
        cases v <;> simp [Val.hasDType] at htv
        rename_i b
        cases b <;> rcases h5 with ⟨a, rfl⟩ | ⟨a, rfl⟩ <;> simp [Val.num] at a ⊢
      case float =>
        rw [hd] at h5 htv
        cases v <;> simp [Val.hasDType] at htv
        exact h5
      all_goals rw [hd] at h5; exact h5
    rw [h6] at hu'
    cases hu'
    rw [hw]
    exact hh
  · rw [h7 n hn] at hu'
    exact (Larry.get_ok_iff hv).mp hu'

/-- C116. A number reads back as the number it was exactly when the dtype has a place for it. -/
theorem C116_exact {d : DType} {v w : Val} (hn : v.isNumber = true) (hc : CanHold d v) (h : HeldAs d v w) :
    w.num = v.num ↔ Exactly d v := by
  cases d
  case bool =>
    have e0 : (Val.bool false).num = .fin 0 := rfl
    have e1 : (Val.bool true).num = .fin 1 := rfl
    rcases h with ⟨a, rfl⟩ | ⟨a, rfl⟩
    · rw [e0]
      exact ⟨fun k => .inl k.symm, fun _ => a.symm⟩
    · rw [e1]
      exact ⟨fun k => .inr k.symm, fun k => (k.resolve_left a).symm⟩
  case int =>
    obtain ⟨q, i, hq, rfl, ht⟩ := h
    have e : (Val.int i).num = .fin i := rfl
    rw [e]
    constructor
    · exact fun k => ⟨i, k.symm⟩
    · rintro ⟨n, k⟩
      rw [hq, Flt.fin.injEq] at k
      subst k
      rw [hq, ht.whole]
  case float => subst h; simp [Exactly, Val.num]
  case str => obtain ⟨s, rfl⟩ := hc; cases hn
  case object => cases h; simp [Exactly]

/-- C116. After any sequence of writes every cell holds the last value written to it, in the dtype of the larry. -/
theorem C116_history [LinearOrder L] {y : Larry L} (hv : y.Valid) (ht : y.Typed) (ops : List (List L × Val))
    (hops : ∀ p ∈ ops, Named y.label p.1 ∧ CanHold y.dtype p.2) :
    ∃ z, y.setToAll ops = .ok z ∧ z.Valid ∧ z.Typed ∧ z.label = y.label ∧ z.dtype = y.dtype ∧
      (∀ before names v after, ops = before ++ (names, v) :: after → (∀ p ∈ after, p.1 ≠ names) →
        ∃ w, HeldAs y.dtype v w ∧ z.get names = .ok w) ∧
      ∀ names, (∀ p ∈ ops, p.1 ≠ names) → z.get names = y.get names := by
  induction ops generalizing y with
  | nil => exact ⟨y, rfl, hv, ht, rfl, rfl, fun b n v a h => by simp at h, fun _ _ => rfl⟩
  | cons p ops ih =>
    obtain ⟨ns, u⟩ := p
    obtain ⟨y1, w, h1, h2, h3, h4, h5, h6, h7, h8⟩ :=
      C116_set hv ht (hops (ns, u) (by simp)).1 (hops (ns, u) (by simp)).2
    obtain ⟨z, k1, k2, k3, k4, k5, k6, k7⟩ := ih h2 h3
      (fun p hp => by rw [h4, h5]; exact hops p (by simp [hp]))
    refine ⟨z, by simp only [Larry.setToAll, h1, k1], k2, k3, k4.trans h4, k5.trans h5, ?_, ?_⟩
    · intro before names v after he hlast
      cases before with
      | nil =>
        simp only [List.nil_append, List.cons.injEq, Prod.mk.injEq] at he
        obtain ⟨⟨rfl, rfl⟩, rfl⟩ := he
        exact ⟨w, h6, (k7 ns hlast).trans h7⟩
      | cons b before =>
        simp only [List.cons_append, List.cons.injEq] at he
        rw [← h5]
        exact k6 before names v after he.2 hlast
    · intro names hno
      rw [k7 names (fun p hp => hno p (by simp [hp]))]
      exact h8 names (fun e => hno (ns, u) (by simp) e.symm)

/-- C116. `y.fill(v)`. -/
theorem C116_fill {y : Larry L} (hv : y.Valid) {v : Val} (hc : CanHold y.dtype v) :
    (y.fillWith v).Valid ∧ (y.fillWith v).Typed ∧ (y.fillWith v).label = y.label ∧ (y.fillWith v).dtype = y.dtype ∧
      ∃ w, HeldAs y.dtype v w ∧ ∀ names u, (y.fillWith v).Has names u ↔ Named y.label names ∧ u = w := by
  refine ⟨⟨hv.shape_eq, hv.nodup, hv.ndim_pos⟩, fun idx _ => held_typed hc (written_held hc), rfl, rfl, _, written_held hc, ?_⟩
  intro names u
  constructor
  · rintro ⟨idx, hat, rfl⟩; exact ⟨Named_of_Holds ⟨idx, hat, rfl⟩ (x := y.x), rfl⟩
  · rintro ⟨hN, rfl⟩
    obtain ⟨idx, hat⟩ := At_of_Named hN
    exact ⟨idx, hat, rfl⟩

section
variable [DecidableEq L]

/-- C116. `y[index] = v`: the cells of `y[index]` hold `v` in the dtype of `y`; nothing else changes. -/
theorem C116_setitem {y z : Larry L} (hv : y.Valid) (ht : y.Typed) {idx : NpIndex}
    (h1 : OneList (idx.items.map (NpItem.toItem (L := L)))) {v : Val} (hc : CanHold y.dtype v)
    (h : y.assign idx (.scalar v) = .ok z) :
    ∃ parts w, TakesParts y.label (idx.items.map NpItem.toItem) parts ∧ HeldAs y.dtype v w ∧
      z.Valid ∧ z.Typed ∧ z.label = y.label ∧ z.dtype = y.dtype ∧
      (∀ names, Named y.label names → InParts parts names → z.Has names w) ∧
      ∀ names u, y.Has names u → ¬ InParts parts names → z.Has names u := by
  obtain ⟨parts, a1, a2, a3, a4, a5, a6⟩ := (C37_scalar (written y.dtype) hv h1 (written y.dtype v)).2 z h
  exact ⟨parts, _, a1, written_held hc, a2,
    typed_of_cells hv ht a2 a3 a4 (InParts parts) (fun n hn hp => ⟨_, a5 n hn hp, held_typed hc (written_held hc)⟩) a6,
    a3, a4, a5, a6⟩

/-- C116. `y[index] = z` for a larry `z` with the labels of `y[index]`: each value lands under its labels in the dtype of `y`. -/
theorem C116_setitem_larry {y z r : Larry L} (hv : y.Valid) (ht : y.Typed) {idx : NpIndex}
    (hs : ¬ Scrambled (idx.items.map (NpItem.toItem (L := L)))) (hc : ∀ names w, z.Has names w → CanHold y.dtype w)
    (h : y.assign idx (.lar z) = .ok r) :
    ∃ parts, TakesParts y.label (idx.items.map NpItem.toItem) parts ∧ z.label = Part.labels parts ∧
      r.Valid ∧ r.Typed ∧ r.label = y.label ∧ r.dtype = y.dtype ∧
      (∀ names w, z.Has names w → ∃ u, HeldAs y.dtype w u ∧ r.Has (Part.names parts names) u) ∧
      ∀ names w, y.Has names w → ¬ InParts parts names → r.Has names w := by
  obtain ⟨parts, a1, a2, a3, a4, a5, a6, a7⟩ := C37_larry (written y.dtype) hv hs h
  refine ⟨parts, a1, a2, a3, ?_, a4, a5, fun n w hw => ⟨_, written_held (hc n w hw), a6 n w hw⟩, a7⟩
  refine typed_of_cells hv ht a3 a4 a5 (InParts parts) (fun n hn hp => ?_) a7
  obtain ⟨ns, hns, rfl⟩ := inParts_iff.mp hp
  obtain ⟨w, hw⟩ := Holds_of_Named (x := z.x) (a2 ▸ hns)
  exact ⟨_, a6 ns w hw, held_typed (hc ns w hw) (written_held (hc ns w hw))⟩

/-- C116. `y[mask] = v` for a boolean larry with the labels of `y`. -/
theorem C116_mask {y m : Larry L} (hv : y.Valid) (ht : y.Typed) (h : y.label = m.label) (hd : m.dtype = .bool) {v : Val}
    (hc : CanHold y.dtype v) :
    ∃ z w, y.assignMask m v = .ok z ∧ HeldAs y.dtype v w ∧ z.Valid ∧ z.Typed ∧ z.label = y.label ∧ z.dtype = y.dtype ∧
      (∀ names, m.Has names (.bool true) → z.Has names w) ∧
      ∀ names u, y.Has names u → ¬ m.Has names (.bool true) → z.Has names u := by
  obtain ⟨z, a1, a2, a3, a4, a5, a6⟩ := C37_mask hv h hd (written y.dtype v)
  exact ⟨z, _, a1, written_held hc, a2,
    typed_of_cells hv ht a2 a3 a4 (fun n => m.Has n (.bool true))
      (fun n _ hp => ⟨_, a5 n hp, held_typed hc (written_held hc)⟩) a6, a3, a4, a5, a6⟩

end

section
variable [LinearOrder L]

/-- C116. `y.lix[...] = v`. -/
theorem C116_lix {y z : Larry L} (hv : y.Valid) (ht : y.Typed) (h0 : 0 ∉ y.shape) {its : List (LItem L)} {v : Val}
    (hc : CanHold y.dtype v) (h : y.assignLix (.tuple its) (.scalar v) = .ok z) :
    ∃ pls w, LTakes y.label its pls ∧ HeldAs y.dtype v w ∧ z.Valid ∧ z.Typed ∧ z.label = y.label ∧ z.dtype = y.dtype ∧
      (∀ names, Named y.label names → Named pls names → z.Has names w) ∧
      ∀ names u, y.Has names u → ¬ Named pls names → z.Has names u := by
  obtain ⟨pls, a1, a2, a3, a4, a5, a6⟩ := (C36_scalar (written y.dtype) hv h0 (written y.dtype v)).2 z h
  exact ⟨pls, _, a1, written_held hc, a2,
    typed_of_cells hv ht a2 a3 a4 (Named pls) (fun n hn hp => ⟨_, a5 n hn hp, held_typed hc (written_held hc)⟩) a6,
    a3, a4, a5, a6⟩

/-- C116. `y.lix[...] = z`. -/
theorem C116_lix_larry {y z r : Larry L} (hv : y.Valid) (ht : y.Typed) (hz : z.Valid) (h0 : 0 ∉ y.shape) {its : List (LItem L)}
    (hc : ∀ names w, z.Has names w → CanHold y.dtype w) (h : y.assignLix (.tuple its) (.lar z) = .ok r) :
    LTakes y.label its z.label ∧ r.Valid ∧ r.Typed ∧ r.label = y.label ∧ r.dtype = y.dtype ∧
      (∀ names w, z.Has names w → ∃ u, HeldAs y.dtype w u ∧ r.Has names u) ∧
      ∀ names w, y.Has names w → ¬ Named z.label names → r.Has names w := by
  obtain ⟨hiff, hres⟩ := C36_larry (written y.dtype) hv hz h0 (its := its)
  obtain ⟨a1, a2, a3, a4, a5⟩ := hres r h
  refine ⟨(hiff.mp ⟨r, h⟩).2.1, a1, ?_, a2, a3, fun n w hw => ⟨_, written_held (hc n w hw), a4 n w hw⟩, a5⟩
  refine typed_of_cells hv ht a1 a2 a3 (Named z.label) (fun n _ hp => ?_) a5
  obtain ⟨w, hw⟩ := Holds_of_Named (x := z.x) hp
  exact ⟨_, a4 n w hw, held_typed (hc n w hw) (written_held (hc n w hw))⟩

end

/-! ## Cases -/

/-- C116. `larry([1, 2])` set to 2.75 and -2.75 holds 2 and -2, and raises for a NaN; `larry([True])` set to NaN holds True. -/
theorem C116_truncates :
    ((exOneTwo.setToAll [([0], fl (11 / 4)), ([1], fl (-11 / 4))]).toOption.map (fun z => z.x.vals)) = some [.int 2, .int (-2)] ∧
    (match exOneTwo.setTo [0] (.flt .nan) with | .error e => some e | .ok _ => none) = some .valueError ∧
    (exOneTwo.fillWith (fl (-1 / 2))).x.vals = [.int 0, .int 0] := by
  refine ⟨by decide +kernel, by decide +kernel, by decide +kernel⟩

example : exOneTwo.Valid ∧ exOneTwo.Typed ∧ CanHold exOneTwo.dtype (fl (11 / 4)) ∧ ¬ Exactly exOneTwo.dtype (fl (11 / 4)) ∧
    (∀ p ∈ [([0], fl (11 / 4)), ([1], fl (-11 / 4))], Named exOneTwo.label p.1 ∧ CanHold exOneTwo.dtype p.2) := by
  refine ⟨⟨rfl, by decide, by decide⟩, (C45_int_below).2.1, ⟨_, rfl⟩, ?_, ?_⟩
  · rintro ⟨n, h⟩
    have h : Flt.fin (11 / 4) = .fin n := h
    rw [Flt.fin.injEq] at h
    have h4 : (11 : ℚ) = 4 * n := by rw [← h]; norm_num
    have h4 : (11 : ℤ) = 4 * n := by exact_mod_cast h4
    omega
  · intro p hp
    simp only [List.mem_cons, List.not_mem_nil, or_false] at hp
    rcases hp with rfl | rfl
    · exact ⟨by simp [exOneTwo, Named], _, rfl⟩
    · exact ⟨by simp [exOneTwo, Named], _, rfl⟩

/-- The same larry as floats. -/
def exTwoHalves : Larry Nat := ⟨NDArray.ofList [2] [fl (5 / 2), fl (-5 / 2)], .float, [[0, 1]]⟩

example : (∀ names w, exTwoHalves.Has names w → CanHold exOneTwo.dtype w) ∧
    ((exOneTwo.assign (.one (.slice {})) (.lar exTwoHalves)).toOption.map (fun z => z.x.vals)) = some [.int 2, .int (-2)] ∧
    ((exOneTwo.assignLix (.tuple [.slice {}]) (.lar exTwoHalves)).toOption.map (fun z => z.x.vals)) = some [.int 2, .int (-2)] ∧
    ((exOneTwo.assignLix (.tuple [.list [1]]) (.scalar (fl (5 / 2)))).toOption.map (fun z => z.x.vals)) = some [.int 1, .int 2] ∧
    ((exOneTwo.assign (.one (.int 0)) (.scalar (fl (5 / 2)))).toOption.map (fun z => z.x.vals)) = some [.int 2, .int 2] ∧
    ((exOneTwo.assignMask ⟨NDArray.ofList [2] [.bool true, .bool false], .bool, [[0, 1]]⟩ (.bool true)).toOption.map
      (fun z => z.x.vals)) = some [.int 1, .int 2] := by
  refine ⟨?_, by decide +kernel, by decide +kernel, by decide +kernel, by decide +kernel, by decide +kernel⟩
  rintro names w ⟨idx, h, rfl⟩
  have hb : InB [2] idx := At_inB h
  match idx, hb with
  | [], hb => exact hb.elim
  | [0], _ => exact ⟨_, rfl⟩
  | [1], _ => exact ⟨_, rfl⟩
  | [i + 2], hb => have := hb.1; omega
  | _ :: _ :: _, hb => exact hb.2.elim

/-- C38. In a bool larry there is no NaN to put: the values that fail the comparison become True. -/
theorem C38_keep_x_bool {y : Larry L} (hv : y.Valid) (hd : y.dtype = .bool) (op : CmpOp) (hop : op ≠ .unknown) (value : Flt) :
    ∃ z, y.keepX op value false = .ok z ∧ z.Valid ∧ z.label = y.label ∧ z.dtype = .bool ∧
      ∀ names v, y.Has names v → (Passes op v.num value → z.Has names v) ∧ (¬ Passes op v.num value → z.Has names (.bool true)) := by
  refine ⟨{ y with x := y.x.map (fun v => if op.test v.num value then v else .bool true) }, ?_,
    ⟨hv.shape_eq, hv.nodup, hv.ndim_pos⟩, rfl, hd, ?_⟩
  · simp [Larry.keepX, hop, hd, Larry.nanAs]
  · rintro names v ⟨idx, h, rfl⟩
    exact ⟨fun k => ⟨idx, h, if_pos ((cmp_iff _ _ _).mpr k)⟩, fun k => ⟨idx, h, if_neg (fun e => k ((cmp_iff _ _ _).mp e))⟩⟩

end La
