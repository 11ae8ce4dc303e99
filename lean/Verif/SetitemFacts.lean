import Verif.Setitem
import Verif.Props.Index

/-! # Facts about assignment -/

namespace La
namespace NDArray
variable {α : Type _}

theorem foldl_setItem_shape (ps : List (List Nat)) (p : List Nat → List Nat) (v : List Nat → α) (a : NDArray α) :
    (ps.foldl (fun b idx => b.setItem (p idx) (v idx)) a).shape = a.shape := by
  induction ps generalizing a with
  | nil => rfl
  | cons q ps ih => rw [List.foldl_cons, ih]; rfl

theorem foldl_setItem_ne {ps : List (List Nat)} {p : List Nat → List Nat} {v : List Nat → α} {a : NDArray α}
    {c : List Nat} (h : ∀ idx ∈ ps, p idx ≠ c) :
    (ps.foldl (fun b idx => b.setItem (p idx) (v idx)) a).get c = a.get c := by
  induction ps generalizing a with
  | nil => rfl
  | cons q ps ih =>
    rw [List.foldl_cons, ih (fun idx hi => h idx (List.mem_cons_of_mem _ hi))]
    have := h q (by simp)
    simp [setItem, Ne.symm this]

theorem foldl_setItem_eq {ps : List (List Nat)} {p : List Nat → List Nat} {v : List Nat → α} {a : NDArray α}
    {c : List Nat} {w : α} (h : ∀ idx ∈ ps, p idx = c → v idx = w) (h' : ∃ idx ∈ ps, p idx = c) :
    (ps.foldl (fun b idx => b.setItem (p idx) (v idx)) a).get c = w := by
  induction ps generalizing a with
  | nil => simp at h'
  | cons q ps ih =>
    rw [List.foldl_cons]
    by_cases h2 : ∃ idx ∈ ps, p idx = c
    · exact ih (fun idx hi => h idx (List.mem_cons_of_mem _ hi)) h2
    · rw [foldl_setItem_ne (fun idx hi hc => h2 ⟨idx, hi, hc⟩)]
      obtain ⟨idx, hi, hc⟩ := h'
      rcases List.mem_cons.mp hi with rfl | hi
      · simp [setItem, hc, h idx (by simp) hc]
      · exact absurd ⟨idx, hi, hc⟩ h2

theorem assignGrid_shape (a : NDArray α) (g : NDArray (List Nat)) (v : List Nat → α) :
    (a.assignGrid g v).shape = a.shape := foldl_setItem_shape _ _ _ _

theorem assignGrid_ne {a : NDArray α} {g : NDArray (List Nat)} {v : List Nat → α} {c : List Nat}
    (h : ∀ idx, InB g.shape idx → g.get idx ≠ c) : (a.assignGrid g v).get c = a.get c :=
  foldl_setItem_ne (fun idx hi => h idx (mem_allIdx.mp hi))

theorem assignGrid_eq {a : NDArray α} {g : NDArray (List Nat)} {v : List Nat → α} {c : List Nat} {w : α}
    (h : ∀ idx, InB g.shape idx → g.get idx = c → v idx = w) (h' : ∃ idx, InB g.shape idx ∧ g.get idx = c) :
    (a.assignGrid g v).get c = w := by
  obtain ⟨idx, h1, h2⟩ := h'
  exact foldl_setItem_eq (fun idx hi => h idx (mem_allIdx.mp hi)) ⟨idx, mem_allIdx.mpr h1, h2⟩

end NDArray

/-! ## The positions selected -/

/-- The position is among those the entry selects. -/
def NpSel.Takes : NpSel → Nat → Prop
  | .int k, i => i = k
  | .slice ids, i => i ∈ ids
  | .fancy ids, i => i ∈ ids

theorem getD_of_lt {ids : List Nat} {i : Nat} (h : i < ids.length) : ids.getD i 0 ∈ ids := by
  simp [List.getD, List.getElem?_eq_getElem h]

theorem exists_getD {ids : List Nat} {k : Nat} (h : k ∈ ids) : ∃ i, i < ids.length ∧ ids.getD i 0 = k := by
  obtain ⟨i, hi, he⟩ := List.getElem_of_mem h
  exact ⟨i, hi, by simp [List.getD, List.getElem?_eq_getElem hi, he]⟩

theorem place_takes {ss : List NpSel} {b : Nat} (hb : ∀ n ∈ fancyLens ss, b < n) {rest : List Nat}
    (h : InB (sliceLens ss) rest) : List.Forall₂ NpSel.Takes ss (place b ss rest) := by
  induction ss generalizing rest with
  | nil => exact .nil
  | cons s ss ih =>
    cases s with
    | int k => exact .cons rfl (ih hb h)
    | slice ids =>
      cases rest with
      | nil => simp [sliceLens, InB] at h
      | cons i rest =>
        exact .cons (getD_of_lt h.1) (ih hb h.2)
    | fancy ids =>
      have h1 := hb ids.length (by simp [fancyLens])
      refine .cons ?_ (ih (fun n hn => hb n (by simp [fancyLens, hn])) h)
      split
      · rename_i h2
        exact getD_of_lt (by omega)
      · exact getD_of_lt h1

theorem exists_place_no_fancy {ss : List NpSel} (hf : fancyLens ss = []) {p : List Nat} (b : Nat)
    (h : List.Forall₂ NpSel.Takes ss p) : ∃ rest, InB (sliceLens ss) rest ∧ place b ss rest = p := by
  induction h with
  | nil => exact ⟨[], by simp [sliceLens, InB], rfl⟩
  | @cons s i ss p h0 _ ih =>
    cases s with
    | int k =>
      obtain ⟨rest, h1, h2⟩ := ih hf
      exact ⟨rest, h1, by simp [place, h2, show i = k from h0]⟩
    | slice ids =>
      obtain ⟨rest, h1, h2⟩ := ih hf
      obtain ⟨j, hj, he⟩ := exists_getD h0
      exact ⟨j :: rest, ⟨hj, h1⟩, by simp [place, h2] ; simpa using he⟩
    | fancy ids => simp [fancyLens] at hf

theorem exists_place_fancy {ss : List NpSel} {n : Nat} (hf : fancyLens ss = [n]) {p : List Nat}
    (h : List.Forall₂ NpSel.Takes ss p) : ∃ b rest, b < n ∧ InB (sliceLens ss) rest ∧ place b ss rest = p := by
  induction h with
  | nil => simp [fancyLens] at hf
  | @cons s i ss p h0 hs ih =>
    cases s with
    | int k =>
      obtain ⟨b, rest, hb, h1, h2⟩ := ih hf
      exact ⟨b, rest, hb, h1, by simp [place, h2, show i = k from h0]⟩
    | slice ids =>
      obtain ⟨b, rest, hb, h1, h2⟩ := ih hf
      obtain ⟨j, hj, he⟩ := exists_getD h0
      exact ⟨b, j :: rest, hb, ⟨hj, h1⟩, by simp [place, h2] ; simpa using he⟩
    | fancy ids =>
      simp only [fancyLens, List.cons.injEq] at hf
      obtain ⟨j, hj, he⟩ := exists_getD h0
      obtain ⟨rest, h1, h2⟩ := exists_place_no_fancy hf.2 j hs
      refine ⟨j, rest, by omega, h1, ?_⟩
      simp only [place, h2, List.cons.injEq, and_true]
      by_cases h3 : ids.length = 1
      · rw [if_pos h3, ← he]; congr 1; omega
      · rw [if_neg h3, he]

theorem InB_insertIdx {l : List Nat} {pos n : Nat} (hp : pos ≤ l.length) {idx : List Nat} :
    InB (l.insertIdx pos n) idx ↔ idx.getD pos 0 < n ∧ pos < idx.length ∧ InB l (idx.eraseIdx pos) := by
  induction pos generalizing l idx with
  | zero =>
    cases idx with
    | nil => simp [InB]
    | cons i idx => simp [InB]
  | succ pos ih =>
    cases l with
    | nil => simp at hp
    | cons a l =>
      cases idx with
      | nil => simp [InB]
      | cons i idx =>
        simp only [List.insertIdx_succ_cons, InB, List.eraseIdx_cons_succ, List.getD_cons_succ, List.length_cons]
        rw [ih (by simpa using hp)]
        constructor
        · rintro ⟨h1, h2, h3, h4⟩; exact ⟨h2, by omega, h1, h4⟩
        · rintro ⟨h2, h3, h1, h4⟩; exact ⟨h1, h2, by omega, h4⟩

/-- With at most one list, the positions selected are the combinations of the positions selected on each
axis. -/
theorem npGrid_range {ss : List NpSel} (h1 : (fancyLens ss).length ≤ 1) :
    ∃ g, npGrid ss = .ok g ∧ ∀ p, (∃ idx, InB g.shape idx ∧ g.get idx = p) ↔ List.Forall₂ NpSel.Takes ss p := by
  rcases hf : fancyLens ss with _ | ⟨n, ns⟩
  · refine ⟨⟨sliceLens ss, fun idx => place 0 ss idx⟩, by simp [npGrid, hf], fun p => ⟨?_, ?_⟩⟩
    · rintro ⟨idx, h1, rfl⟩
      exact place_takes (by simp [hf]) h1
    · exact exists_place_no_fancy hf 0
  · rw [hf] at h1
    have : ns = [] := by
      cases ns with
      | nil => rfl
      | cons a b => simp at h1
    subst this
    have hb : bcastLens [n] = .ok n := by
      simp only [bcastLens, bdim]
      split <;> simp_all
    refine ⟨⟨(sliceLens ss).insertIdx (advPos ss) n,
        fun idx => place (idx.getD (advPos ss) 0) ss (idx.eraseIdx (advPos ss))⟩, by simp [npGrid, hf, hb], fun p => ⟨?_, ?_⟩⟩
    · rintro ⟨idx, h1, rfl⟩
      obtain ⟨h2, -, h3⟩ := (InB_insertIdx (advPos_le ss)).mp h1
      exact place_takes (by simpa [hf] using h2) h3
    · intro h
      obtain ⟨b, rest, h2, h3, h4⟩ := exists_place_fancy hf h
      have hlen : advPos ss ≤ rest.length := by rw [InB_length h3]; exact advPos_le ss
      refine ⟨rest.insertIdx (advPos ss) b, (InB_insertIdx (advPos_le ss)).mpr ⟨?_, ?_, ?_⟩, ?_⟩
      · simp [List.getD, List.getElem?_insertIdx_self, hlen, h2]
      · rw [List.length_insertIdx_of_le_length hlen]; omega
      · rw [List.eraseIdx_insertIdx_self]; exact h3
      · simp only [List.eraseIdx_insertIdx_self]
        simp [List.getD, List.getElem?_insertIdx_self, hlen, h4]

end La
