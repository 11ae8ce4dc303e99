import Verif.Queries
import Verif.Props.Align
import Verif.Props.Core

/-!
# C71: maxlabel, minlabel and isaligned
-/

namespace La
variable {L : Type _}

/-! ## Specification -/

/-- The label lists a query with this axis looks at: all of them for None, else that of the axis (negative ones count
from the end). -/
def Asked (ls : List (List L)) (axis : Option Int) (qs : List (List L)) : Prop :=
  match axis with
  | none => qs = ls
  | some a => ∃ (k : Nat) (l : List L), ls[k]? = some l ∧ (a = k ∨ a = (k : Int) - ls.length) ∧ qs = [l]

/-- `m` is the greatest of all labels in `qs`. -/
def Greatest [LinearOrder L] (qs : List (List L)) (m : L) : Prop := (∃ l ∈ qs, m ∈ l) ∧ ∀ l ∈ qs, ∀ a ∈ l, a ≤ m

/-- `m` is the least of all labels in `qs`. -/
def Least [LinearOrder L] (qs : List (List L)) (m : L) : Prop := (∃ l ∈ qs, m ∈ l) ∧ ∀ l ∈ qs, ∀ a ∈ l, m ≤ a

/-! ## max and min of a list -/

theorem pyMax_spec [LinearOrder L] {l : List L} (h : l ≠ []) : ∃ m, pyMax l = .ok m ∧ m ∈ l ∧ ∀ a ∈ l, a ≤ m := by
  have key : ∀ (l : List L) (a : L), (l.foldl (fun m b => if m < b then b else m) a) ∈ a :: l ∧
      ∀ b ∈ a :: l, b ≤ l.foldl (fun m b => if m < b then b else m) a := by
    intro l
    induction l with
    | nil => intro a; simp
    | cons c l ih =>
      intro a
      obtain ⟨h1, h2⟩ := ih (if a < c then c else a)
      rw [List.foldl_cons]
      have hle : a ≤ (if a < c then c else a) ∧ c ≤ (if a < c then c else a) := by
        split
        · next h => exact ⟨h.le, le_refl _⟩
        · next h => exact ⟨le_refl _, not_lt.mp h⟩
      refine ⟨?_, fun b hb => ?_⟩
      · rcases List.mem_cons.mp h1 with h | h
        · rw [h]; split <;> simp
        · simp [h]
      · have h3 := h2 _ (List.mem_cons_self ..)
        rcases List.mem_cons.mp hb with rfl | hb
        · exact hle.1.trans h3
        · rcases List.mem_cons.mp hb with rfl | hb
          · exact hle.2.trans h3
          · exact h2 b (by simp [hb])
  match l, h with
  | a :: l, _ => exact ⟨_, rfl, (key l a).1, (key l a).2⟩

theorem pyMin_spec [LinearOrder L] {l : List L} (h : l ≠ []) : ∃ m, pyMin l = .ok m ∧ m ∈ l ∧ ∀ a ∈ l, m ≤ a := by
  have : pyMin l = pyMax (L := Lᵒᵈ) l := by cases l <;> rfl
  rw [this]
  exact pyMax_spec (L := Lᵒᵈ) h

theorem mapRes_pyMax [LinearOrder L] {ls : List (List L)} (h : ∀ l ∈ ls, l ≠ []) :
    ∃ ms, mapRes pyMax ls = .ok ms ∧ List.Forall₂ (fun l m => m ∈ l ∧ ∀ a ∈ l, a ≤ m) ls ms := by
  induction ls with
  | nil => exact ⟨[], rfl, .nil⟩
  | cons l ls ih =>
    obtain ⟨m, h1, h2⟩ := pyMax_spec (h l (by simp))
    obtain ⟨ms, h3, h4⟩ := ih fun k hk => h k (by simp [hk])
    exact ⟨m :: ms, by simp [mapRes, h1, h3], .cons h2 h4⟩

theorem mapRes_pyMax_empty [LinearOrder L] {ls : List (List L)} (h : [] ∈ ls) : mapRes pyMax ls = .error .valueError := by
  induction ls with
  | nil => simp at h
  | cons l ls ih =>
    by_cases hl : l = []
    · subst hl; rfl
    · obtain ⟨m, h1, -⟩ := pyMax_spec hl
      simp [mapRes, h1, ih ((List.mem_cons.mp h).resolve_left (Ne.symm hl))]

theorem pyGet_asked {ls : List (List L)} {a : Int} {qs : List (List L)} (h : Asked ls (some a) qs) :
    ∃ l, pyGet ls a = .ok l ∧ qs = [l] := by
  obtain ⟨k, l, h1, h2, rfl⟩ := h
  refine ⟨l, ?_, rfl⟩
  have hk := (List.getElem?_eq_some_iff.mp h1).1
  have hp : pyIdx ls.length a = some k := by
    unfold pyIdx
    rcases h2 with rfl | rfl
    · simp [hk]
    · rw [if_neg (by omega), if_pos (by omega)]
      congr 1
      omega
  simp [pyGet, hp, h1]

theorem pyGet_not_asked {ls : List (List L)} {a : Int} (h : ¬ ∃ qs, Asked ls (some a) qs) : pyGet ls a = .error .indexError := by
  cases hp : pyIdx ls.length a with
  | none => simp [pyGet, hp]
  | some k =>
    have hk := pyIdx_lt hp
    refine absurd ⟨_, k, ls[k], by simp [hk], ?_, rfl⟩ h
    unfold pyIdx at hp
    split at hp <;> split at hp <;> simp at hp <;> omega

/-- C71. maxlabel is the greatest label of the axis, or of all axes; ValueError if such an axis is empty. -/
theorem C71_maxlabel [LinearOrder L] {y : Larry L} (hv : y.Valid) {axis : Option Int} {qs : List (List L)}
    (hq : Asked y.label axis qs) :
    ((∀ l ∈ qs, l ≠ []) → ∃ m, y.maxlabel axis = .ok m ∧ Greatest qs m) ∧
    ([] ∈ qs → y.maxlabel axis = .error .valueError) := by
  match axis with
  | none =>
    obtain rfl : qs = y.label := hq
    constructor
    · intro h
      obtain ⟨ms, h1, h2⟩ := mapRes_pyMax h
      have hne : ms ≠ [] := fun e => by
        subst e
        cases hy : y.label with
        | nil => exact hv.ndim_pos hy
        | cons l ls => rw [hy] at h2; cases h2
      obtain ⟨m, h3, h4, h5⟩ := pyMax_spec hne
      refine ⟨m, by simp [Larry.maxlabel, h1, h3], ?_, ?_⟩
      · obtain ⟨i, hi, rfl⟩ := List.getElem_of_mem h4
        obtain ⟨hlen, hg⟩ := List.forall₂_iff_get.mp h2
        exact ⟨y.label[i]'(hlen ▸ hi), List.getElem_mem _, (hg i (hlen ▸ hi) hi).1⟩
      · intro l hl a ha
        obtain ⟨i, hi, rfl⟩ := List.getElem_of_mem hl
        obtain ⟨hlen, hg⟩ := List.forall₂_iff_get.mp h2
        exact ((hg i hi (hlen ▸ hi)).2 a ha).trans (h5 _ (List.getElem_mem _))
    · intro h
      simp [Larry.maxlabel, mapRes_pyMax_empty h]
  | some a =>
    obtain ⟨l, h1, rfl⟩ := pyGet_asked hq
    constructor
    · intro h
      obtain ⟨m, h3, h4, h5⟩ := pyMax_spec (h l (by simp))
      exact ⟨m, by simp [Larry.maxlabel, h1, h3], ⟨l, by simp, h4⟩, by simpa using h5⟩
    · intro h
      obtain rfl : [] = l := by simpa using h
      simp [Larry.maxlabel, h1, pyMax]

theorem minlabel_dual [LinearOrder L] (y : Larry L) (axis : Option Int) :
    y.minlabel axis = Larry.maxlabel (L := Lᵒᵈ) ⟨y.x, y.dtype, y.label⟩ axis := by
  have : (pyMin : List L → Res L) = pyMax (L := Lᵒᵈ) := by funext l; cases l <;> rfl
  unfold Larry.minlabel Larry.maxlabel
  rw [this]
  rfl

/-- C71. minlabel is the least label of the axis, or of all axes; ValueError if such an axis is empty. -/
theorem C71_minlabel [LinearOrder L] {y : Larry L} (hv : y.Valid) {axis : Option Int} {qs : List (List L)}
    (hq : Asked y.label axis qs) :
    ((∀ l ∈ qs, l ≠ []) → ∃ m, y.minlabel axis = .ok m ∧ Least qs m) ∧
    ([] ∈ qs → y.minlabel axis = .error .valueError) := by
  rw [minlabel_dual]
  exact C71_maxlabel (L := Lᵒᵈ) (y := ⟨y.x, y.dtype, y.label⟩) hv hq

/-- C71. An axis that does not exist is an IndexError of all three. -/
theorem C71_axis [LinearOrder L] {y z : Larry L} {a : Int} (h : ¬ ∃ qs, Asked y.label (some a) qs) :
    y.maxlabel (some a) = .error .indexError ∧ y.minlabel (some a) = .error .indexError ∧
      isaligned y z (some a) = .error .indexError := by
  simp [Larry.maxlabel, Larry.minlabel, isaligned, pyGet_not_asked h]

/-- C71. isaligned answers whether the label lists are equal, in the same order. -/
theorem C71_isaligned [LinearOrder L] {y z : Larry L} {axis : Option Int} {qs rs : List (List L)}
    (hq : Asked y.label axis qs) (hr : Asked z.label axis rs) :
    ∃ b, isaligned y z axis = .ok b ∧ (b = true ↔ qs = rs) := by
  match axis with
  | none =>
    obtain rfl : qs = y.label := hq
    obtain rfl : rs = z.label := hr
    exact ⟨_, rfl, by simp⟩
  | some a =>
    obtain ⟨l, h1, rfl⟩ := pyGet_asked hq
    obtain ⟨m, h2, rfl⟩ := pyGet_asked hr
    exact ⟨decide (l = m), by simp [isaligned, h1, h2], by simp⟩

/-- C71. What align returns is aligned, along every axis not skipped. -/
theorem C71_align [LinearOrder L] {lar1 lar2 z1 z2 : Larry L} (h1 : lar1.Valid) (h2 : lar2.Valid)
    (hn : lar1.ndim = lar2.ndim) {join : JoinArg} {js : List Join} (hj : JoinsFor lar2.ndim join js)
    (hs : ∀ j ∈ js, j ≠ .skip) {cast : Bool} (hz : align lar1 lar2 join cast = .ok (z1, z2)) :
    isaligned z1 z2 none = .ok true := by
  have hok : ∀ e, ¬ FailsAt lar1 lar2 js cast e := by
    intro e he
    obtain ⟨e', h, -⟩ := C16_align_fails h1 h2 hn hj ⟨e, he⟩
    rw [h] at hz
    cases hz
  obtain ⟨w1, w2, g1, -, -, g2, -⟩ := C16_align h1 h2 hn hj hok
  rw [hz] at g1
  obtain ⟨rfl, rfl⟩ : z1 = w1 ∧ z2 = w2 := by simpa using g1
  simp [isaligned, g2.same hs]

/-- C71. For aligned larrys an arithmetic operation works position by position and keeps labels and their order. -/
theorem C71_aligned_op [LinearOrder L] {a b : Larry L} (ha : a.Valid) (hb : b.Valid) (h : isaligned a b none = .ok true)
    (uf : UFunc2) {d : DType} (hd : uf.dt a.dtype b.dtype = .ok d) :
    ∃ z, Larry.binop uf a b = .ok z ∧ z.label = a.label ∧ z.dtype = d ∧ z.x.shape = a.x.shape ∧
      ∀ idx, InB a.x.shape idx → z.x.get idx = uf.f (a.x.get idx) (b.x.get idx) := by
  have hl : a.label = b.label := by simpa [isaligned] using h
  have hs : a.x.shape = b.x.shape := by rw [ha.shape_eq, hb.shape_eq, hl]
  obtain ⟨z, h1, h2, h3, h4, h5⟩ := C09_binop ha hb (by rw [← ha.label_length, ← hb.label_length, hl]) uf hd
  have hzl : z.label = a.label := by
    have := Joined.refl_inner a.label
    exact h4.unique (fun _ _ _ _ h h' => h.unique h') (hl ▸ this)
  have hzs : z.x.shape = a.x.shape := by rw [h2.shape_eq, ha.shape_eq, hzl]
  refine ⟨z, h1, hzl, h3, hzs, fun idx hi => ?_⟩
  obtain ⟨names, hat⟩ := At_of_inB (ha.shape_eq ▸ hi)
  have g1 : z.Has names (z.x.get idx) := ⟨idx, hzl ▸ hat, rfl⟩
  rw [← Larry.get_ok_iff h2, h5] at g1
  obtain ⟨u, w, hu, hw, e⟩ := g1
  rw [e]
  rw [Larry.get_ok_iff ha] at hu
  rw [Larry.get_ok_iff hb] at hw
  rw [Holds_unique ha.nodup hu ⟨idx, hat, rfl⟩, Holds_unique hb.nodup hw ⟨idx, hl ▸ hat, rfl⟩]

example : Asked exA.label (some (-1)) [[3, 1, 2]] ∧ (∀ l ∈ exA.label, l ≠ []) ∧ exA.maxlabel (some (-1)) = .ok 3 ∧
    exA.maxlabel none = .ok 20 ∧ exA.minlabel none = .ok 1 ∧ isaligned exA exB none = .ok false :=
  ⟨⟨1, _, rfl, .inr (by decide), rfl⟩, by decide, by decide, by decide, by decide, by decide⟩

end La
