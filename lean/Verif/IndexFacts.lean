import Verif.Index
import Verif.ReduceFacts

/-! # Facts about indexing -/

namespace La
variable {L : Type _}

/-- Lengths of the axes that stay. -/
def keptLens : List NpSel → List Nat
  | [] => []
  | .int _ :: ss => keptLens ss
  | .slice ids :: ss => ids.length :: keptLens ss
  | .fancy ids :: ss => ids.length :: keptLens ss

/-- Position in the indexed array when all kept axes are in order. -/
def fill : List NpSel → List Nat → List Nat
  | [], _ => []
  | .int k :: ss, idx => k :: fill ss idx
  | .slice ids :: ss, idx => ids.getD (idx.headD 0) 0 :: fill ss idx.tail
  | .fancy ids :: ss, idx => ids.getD (idx.headD 0) 0 :: fill ss idx.tail

theorem place_no_fancy {ss : List NpSel} (h : fancyLens ss = []) (b : Nat) (idx : List Nat) :
    place b ss idx = fill ss idx := by
  induction ss generalizing idx with
  | nil => rfl
  | cons s ss ih =>
    cases s with
    | int k => simp only [place, fill]; rw [ih h]
    | slice ids => simp only [place, fill]; rw [ih h]
    | fancy ids => simp [fancyLens] at h

theorem sliceLens_no_fancy {ss : List NpSel} (h : fancyLens ss = []) : sliceLens ss = keptLens ss := by
  induction ss with
  | nil => rfl
  | cons s ss ih =>
    cases s with
    | int k => exact ih h
    | slice ids => simp only [sliceLens, keptLens]; rw [ih h]
    | fancy ids => simp [fancyLens] at h

theorem fancyLens_append (ss ts : List NpSel) : fancyLens (ss ++ ts) = fancyLens ss ++ fancyLens ts := by
  induction ss with
  | nil => rfl
  | cons s ss ih => cases s <;> simp [fancyLens, ih]

theorem sliceLens_append (ss ts : List NpSel) : sliceLens (ss ++ ts) = sliceLens ss ++ sliceLens ts := by
  induction ss with
  | nil => rfl
  | cons s ss ih => cases s <;> simp [sliceLens, ih]

theorem keptLens_append (ss ts : List NpSel) : keptLens (ss ++ ts) = keptLens ss ++ keptLens ts := by
  induction ss with
  | nil => rfl
  | cons s ss ih => cases s <;> simp [keptLens, ih]

/-- A single list splits the index. -/
theorem split_fancy {ss : List NpSel} {n : Nat} (h : fancyLens ss = [n]) :
    ∃ pre ids post, ss = pre ++ .fancy ids :: post ∧ ids.length = n ∧ fancyLens pre = [] ∧ fancyLens post = [] := by
  induction ss with
  | nil => simp [fancyLens] at h
  | cons s ss ih =>
    cases s with
    | int k =>
      obtain ⟨pre, ids, post, rfl, h1, h2, h3⟩ := ih h
      exact ⟨.int k :: pre, ids, post, rfl, h1, h2, h3⟩
    | slice js =>
      obtain ⟨pre, ids, post, rfl, h1, h2, h3⟩ := ih h
      exact ⟨.slice js :: pre, ids, post, rfl, h1, h2, h3⟩
    | fancy ids =>
      simp only [fancyLens, List.cons.injEq] at h
      exact ⟨[], ids, ss, rfl, h.1, rfl, h.2⟩

theorem place_fancy {pre post : List NpSel} {ids : List Nat} (hpre : fancyLens pre = []) (hpost : fancyLens post = [])
    {idx : List Nat} (hin : InB (keptLens (pre ++ .fancy ids :: post)) idx) :
    place (idx.getD (sliceLens pre).length 0) (pre ++ .fancy ids :: post) (idx.eraseIdx (sliceLens pre).length) =
      fill (pre ++ .fancy ids :: post) idx := by
  induction pre generalizing idx with
  | nil =>
    cases idx with
    | nil => simp [keptLens, InB] at hin
    | cons i idx =>
      simp only [List.nil_append, keptLens, InB] at hin
      simp only [sliceLens, List.length_nil, List.nil_append, place, fill, List.getD_cons_zero, List.eraseIdx_cons_zero,
        List.headD_cons, List.tail_cons]
      rw [place_no_fancy hpost]
      congr 1
      split
      · have : i = 0 := by omega
        rw [this]
      · rfl
  | cons s pre ih =>
    cases s with
    | int k => simp only [sliceLens, List.cons_append, place, fill]; rw [ih hpre hin]
    | slice js =>
      cases idx with
      | nil => simp [keptLens, InB] at hin
      | cons i idx =>
        simp only [List.cons_append, keptLens, InB] at hin
        simp only [sliceLens, List.cons_append, place, fill, List.length_cons, List.getD_cons_succ,
          List.eraseIdx_cons_succ, List.headD_cons, List.tail_cons]
        rw [ih hpre hin.2]
    | fancy js => simp [fancyLens] at hpre

/-- Some slice stands before position `p`. -/
theorem adjacent_pos {pre post : List NpSel} {ids : List Nat} (hpre : fancyLens pre = [])
    (h : adjacent (pre ++ .fancy ids :: post) = true) :
    ((pre ++ .fancy ids :: post).takeWhile (fun s => !s.isAdv)).length = (sliceLens pre).length := by
  induction pre with
  | nil => rfl
  | cons s pre ih =>
    cases s with
    | slice js =>
      have : adjacent (pre ++ .fancy ids :: post) = true := by
        simpa [adjacent, List.dropWhile_cons, NpSel.isAdv] using h
      have := ih hpre this
      rw [List.cons_append, List.takeWhile_cons_of_pos (by rfl)]
      simp only [List.length_cons, sliceLens, this]
    | int k =>
      rw [List.cons_append, List.takeWhile_cons_of_neg (by simp [NpSel.isAdv])]
      simp only [List.length_nil, sliceLens]
      have h' : ((pre ++ .fancy ids :: post).dropWhile NpSel.isAdv).all (fun s => !s.isAdv) = true := by
        simpa [adjacent, List.dropWhile_cons, NpSel.isAdv] using h
      clear h ih
      induction pre with
      | nil => rfl
      | cons s pre ih =>
        cases s with
        | int k => exact ih hpre (by simpa [List.dropWhile_cons, NpSel.isAdv] using h')
        | slice js => simp [List.dropWhile_cons, NpSel.isAdv] at h'
        | fancy js => simp [fancyLens] at hpre
    | fancy js => simp [fancyLens] at hpre

/-- A list comes after a slice, and some slice stands between two lists or integers: then numpy puts
the axis of the list first although it does not belong there. -/
def ScrambledSel (ss : List NpSel) : Prop :=
  (∃ (s p : Nat) (js ids : List Nat), s < p ∧ ss[s]? = some (NpSel.slice js) ∧ ss[p]? = some (NpSel.fancy ids)) ∧
  ∃ (a t b : Nat) (x : NpSel) (js : List Nat) (z : NpSel), a < t ∧ t < b ∧ ss[a]? = some x ∧ x.isAdv = true ∧ ss[t]? = some (NpSel.slice js) ∧ ss[b]? = some z ∧
    z.isAdv = true

theorem exists_of_not_adjacent {ss : List NpSel} (h : adjacent ss = false) :
    ∃ (a t b : Nat) (x : NpSel) (js : List Nat) (z : NpSel), a < t ∧ t < b ∧ ss[a]? = some x ∧ x.isAdv = true ∧ ss[t]? = some (NpSel.slice js) ∧ ss[b]? = some z ∧
    z.isAdv = true := by
  have key2 : ∀ l : List NpSel, (l.dropWhile NpSel.isAdv).all (fun s => !s.isAdv) = false →
      ∃ (t b : Nat) (js : List Nat) (z : NpSel), t < b ∧ l[t]? = some (NpSel.slice js) ∧ l[b]? = some z ∧ z.isAdv = true := by
    intro l hl
    induction l with
    | nil => simp at hl
    | cons s l ih =>
      cases hs : s with
      | slice js =>
        subst hs
        rw [List.dropWhile_cons_of_neg (by simp [NpSel.isAdv])] at hl
        rw [List.all_eq_false] at hl
        obtain ⟨z, hz, hz'⟩ := hl
        obtain ⟨b, hb⟩ := List.mem_iff_getElem?.mp hz
        have hadv : z.isAdv = true := by simpa using hz'
        cases b with
        | zero => simp at hb; subst hb; simp [NpSel.isAdv] at hadv
        | succ b => exact ⟨0, b + 1, js, z, by omega, by simp, hb, hadv⟩
      | int k =>
        subst hs
        rw [List.dropWhile_cons_of_pos (by simp [NpSel.isAdv])] at hl
        obtain ⟨t, b, js, z, h1, h2, h3, h4⟩ := ih hl
        exact ⟨t + 1, b + 1, js, z, by omega, by simpa using h2, by simpa using h3, h4⟩
      | fancy k =>
        subst hs
        rw [List.dropWhile_cons_of_pos (by simp [NpSel.isAdv])] at hl
        obtain ⟨t, b, js, z, h1, h2, h3, h4⟩ := ih hl
        exact ⟨t + 1, b + 1, js, z, by omega, by simpa using h2, by simpa using h3, h4⟩
  unfold adjacent at h
  induction ss with
  | nil => simp at h
  | cons s ss ih =>
    cases hs : s.isAdv with
    | false =>
      rw [List.dropWhile_cons_of_pos (by simp [hs])] at h
      obtain ⟨a, t, b, x, js, z, h1, h2, h3, h4, h5, h6, h7⟩ := ih h
      exact ⟨a + 1, t + 1, b + 1, x, js, z, by omega, by omega, by simpa using h3, h4, by simpa using h5,
        by simpa using h6, h7⟩
    | true =>
      rw [List.dropWhile_cons_of_neg (by simp [hs]), List.dropWhile_cons_of_pos hs] at h
      obtain ⟨t, b, js, z, h1, h2, h3, h4⟩ := key2 _ h
      exact ⟨0, t + 1, b + 1, s, js, z, by omega, by omega, by simp, hs, by simpa using h2, by simpa using h3, h4⟩

theorem sliceLens_pos {ss : List NpSel} (h : (sliceLens ss).length ≠ 0) : ∃ (s : Nat) (js : List Nat), ss[s]? = some (NpSel.slice js) := by
  induction ss with
  | nil => simp [sliceLens] at h
  | cons s ss ih =>
    cases s with
    | slice js => exact ⟨0, js, by simp⟩
    | int k => obtain ⟨s, js, hs⟩ := ih h; exact ⟨s + 1, js, by simpa using hs⟩
    | fancy k => obtain ⟨s, js, hs⟩ := ih h; exact ⟨s + 1, js, by simpa using hs⟩

theorem insertIdx_append_length {α : Type _} (l m : List α) (a : α) : (l ++ m).insertIdx l.length a = l ++ a :: m := by
  induction l with
  | nil => rfl
  | cons b l ih => simp [ih]

/-- With at most one list and the axes not scrambled, the selection is what it looks like. -/
theorem npGrid_ok {ss : List NpSel} (h1 : (fancyLens ss).length ≤ 1) (h2 : ¬ ScrambledSel ss) :
    ∃ g, npGrid ss = .ok g ∧ g.shape = keptLens ss ∧ ∀ idx, InB (keptLens ss) idx → g.get idx = fill ss idx := by
  rcases hf : fancyLens ss with _ | ⟨n, ns⟩
  · refine ⟨_, by simp [npGrid, hf]; rfl, sliceLens_no_fancy hf, fun idx _ => place_no_fancy hf 0 idx⟩
  · rw [hf] at h1
    have : ns = [] := by
      cases ns with
      | nil => rfl
      | cons a b => simp at h1
    subst this
    obtain ⟨pre, ids, post, rfl, hn, hpre, hpost⟩ := split_fancy hf
    have hb : bcastLens [n] = .ok n := by
      simp only [bcastLens, bdim]
      split <;> simp_all
    have hp : advPos (pre ++ .fancy ids :: post) = (sliceLens pre).length := by
      unfold advPos
      by_cases hadj : adjacent (pre ++ .fancy ids :: post) = true
      · rw [if_pos hadj]; exact adjacent_pos hpre hadj
      · rw [if_neg hadj]
        by_contra h0
        obtain ⟨s, js, hs⟩ := sliceLens_pos (ss := pre) (fun h => h0 h.symm)
        have hlt := (List.getElem?_eq_some_iff.mp hs).1
        refine h2 ⟨⟨s, pre.length, js, ids, hlt, ?_, by simp⟩, exists_of_not_adjacent (by simpa using hadj)⟩
        rw [List.getElem?_append_left hlt]; exact hs
    refine ⟨⟨(sliceLens (pre ++ .fancy ids :: post)).insertIdx (sliceLens pre).length n,
        fun idx => place (idx.getD (sliceLens pre).length 0) (pre ++ .fancy ids :: post)
          (idx.eraseIdx (sliceLens pre).length)⟩, ?_, ?_, ?_⟩
    · simp only [npGrid, hf, hb, hp]
    · have e1 := sliceLens_no_fancy hpre
      have e2 := sliceLens_no_fancy hpost
      simp only [sliceLens_append, sliceLens, keptLens_append, keptLens, e2, ← e1, hn]
      exact insertIdx_append_length _ _ _
    · intro idx hin
      exact place_fancy hpre hpost hin

end La
