import Verif.LarryFacts

/-! # Concrete larrys used to show that the hypotheses of the theorems can be met -/

namespace La

/-- An array from its elements in row-major order. -/
def NDArray.ofList (shape : List Nat) (vals : List Val) : NDArray Val :=
  ⟨shape, fun i => vals.getD (rowMajor shape i) .none⟩

/-- Abbreviation for a finite float element. -/
abbrev fl (q : ℚ) : Val := .flt (.fin q)

/-- 2x3 float larry with one NaN; labels `[[10, 20], [3, 1, 2]]`. -/
def exA : Larry Nat :=
  ⟨NDArray.ofList [2, 3] [fl 1, fl 2, fl 3, fl 4, .flt .nan, fl 6], .float, [[10, 20], [3, 1, 2]]⟩

/-- 2x2 int larry; labels `[[20, 30], [2, 3]]`. -/
def exB : Larry Nat :=
  ⟨NDArray.ofList [2, 2] [.int 1, .int 2, .int 3, .int 4], .int, [[20, 30], [2, 3]]⟩

/-- 1d float larry with labels `[5, 7, 6]`. -/
def exV : Larry Nat := ⟨NDArray.ofList [3] [fl 1, .flt .nan, fl 3], .float, [[5, 7, 6]]⟩

/-- 2x1x2 float larry. -/
def exC : Larry Nat :=
  ⟨NDArray.ofList [2, 1, 2] [fl 1, fl 2, fl 3, .flt .pinf], .float, [[1, 2], [5], [9, 8]]⟩

theorem exA_valid : exA.Valid := ⟨rfl, by decide, by decide⟩
theorem exB_valid : exB.Valid := ⟨rfl, by decide, by decide⟩
theorem exV_valid : exV.Valid := ⟨rfl, by decide, by decide⟩
theorem exC_valid : exC.Valid := ⟨rfl, by decide, by decide⟩

end La
