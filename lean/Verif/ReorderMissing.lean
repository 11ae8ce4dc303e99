import Verif.ReorderLines
import Verif.Props.Missing

/-! # Order of labels: methods that drop missing values (property C66) -/

namespace La
open Larry
variable {L : Type _}

namespace Larry

theorem hasFinite_agree {y y' : Larry L} (h : y.Reordered y') (k : Nat) (b : L) :
    HasFinite y k b ↔ HasFinite y' k b := by
  simp only [HasFinite, h.has]

theorem enough_agree {y y' : Larry L} (h : y.Reordered y') (fraction : ℚ) (k : Nat) (b : L) :
    Enough y fraction k b ↔ Enough y' fraction k b := by
  have h1 : InSlice y k b = InSlice y' k b := by
    funext names
    simp only [InSlice, named_congr h.label]
  have h2 : InSliceFin y k b = InSliceFin y' k b := by
    funext names
    simp only [InSliceFin, h1, h.has]
  simp only [Enough, h1, h2]

/-- Axes cut down to the labels with some property keep the same labels. -/
theorem cutLabels_agree {y y' : Larry L} (hy : y.Valid) (hy' : y'.Valid) (h : y.Reordered y')
    {lab lab' : List (List L)} {isCut : Nat → Prop} {P : Nat → L → Prop}
    (n : lab.length = y.label.length) (n' : lab'.length = y'.label.length)
    (c : ∀ (k : Nat) l l', y.label[k]? = some l → lab[k]? = some l' → isCut k →
      l'.Sublist l ∧ ∀ b, b ∈ l' ↔ b ∈ l ∧ P k b)
    (c' : ∀ (k : Nat) l l', y'.label[k]? = some l → lab'[k]? = some l' → isCut k →
      l'.Sublist l ∧ ∀ b, b ∈ l' ↔ b ∈ l ∧ P k b)
    (o : ∀ (k : Nat) l l', y.label[k]? = some l → lab[k]? = some l' → ¬ isCut k → l' = l)
    (o' : ∀ (k : Nat) l l', y'.label[k]? = some l → lab'[k]? = some l' → ¬ isCut k → l' = l) :
    List.Forall₂ List.Perm lab lab' := by
  rw [List.forall₂_iff_get]
  have hlen : lab.length = lab'.length := by rw [n, n', h.label.length_eq]
  refine ⟨hlen, fun k h1 h2 => ?_⟩
  have hk : k < y.label.length := n ▸ h1
  obtain ⟨l', hl', hp⟩ := h.get? (List.getElem?_eq_getElem hk)
  have hl := List.getElem?_eq_getElem hk
  have e := List.getElem?_eq_getElem h1
  have e' := List.getElem?_eq_getElem h2
  by_cases hc : isCut k
  · obtain ⟨s, m⟩ := c k _ _ hl e hc
    obtain ⟨s', m'⟩ := c' k _ _ hl' e' hc
    exact wanted_congr hp (hy.nodup _ (List.mem_of_getElem? hl)) (hy'.nodup _ (List.mem_of_getElem? hl')) s s' m m'
  · simp only [List.get_eq_getElem]
    rw [o k _ _ hl e hc, o' k _ _ hl' e' hc]
    exact hp

theorem vacuum_agree {y y' : Larry L} (hy : y.Valid) (hy' : y'.Valid) (h : y.Reordered y')
    (axis : Option (List Int)) : Res.Agree Reordered (y.vacuum axis) (y'.vacuum axis) := by
  have hn := h.ndim_eq hy hy'
  by_cases hd : ∀ k < y.ndim, Vacuumed axis k → y.dtype ≠ .str ∧ y.dtype ≠ .object
  · obtain ⟨z, h1, h2⟩ := vacuum_spec hy axis hd
    obtain ⟨z', h1', h2'⟩ := vacuum_spec hy' axis (hn ▸ h.dtype_eq ▸ hd)
    refine .ok h1 h1' (PartOf.reordered h ?_ h2.part h2'.part)
    refine cutLabels_agree hy hy' h h2.naxes h2'.naxes h2.vacuumed ?_ h2.others h2'.others
    simpa only [← hasFinite_agree h] using h2'.vacuumed
  · push Not at hd
    obtain ⟨k, hk, hvac, hd⟩ := hd
    have hd1 : y.dtype = .str ∨ y.dtype = .object := by
      by_cases hs : y.dtype = .str
      · exact .inl hs
      · exact .inr (hd hs)
    exact .error (C39_vacuum_errors hd1 axis k hk hvac) (C39_vacuum_errors (h.dtype_eq ▸ hd1) axis k (hn ▸ hk) hvac)

theorem cutMissing_agree {y y' : Larry L} (hy : y.Valid) (hy' : y'.Valid) (h : y.Reordered y')
    (fraction : ℚ) (axis : Option Int) :
    Res.Agree Reordered (y.cutMissing fraction axis) (y'.cutMissing fraction axis) := by
  have hn := h.ndim_eq hy hy'
  cases haxes : cutAxes y.ndim axis with
  | error e =>
    have haxes' : cutAxes y'.ndim axis = .error e := hn ▸ haxes
    exact .error (e := e) (by simp [cutMissing, haxes]) (by simp [cutMissing, haxes'])
  | ok axes =>
    have haxes' : cutAxes y'.ndim axis = .ok axes := hn ▸ haxes
    by_cases hd : ∀ k < y.ndim, k ∉ axes → y.dtype ≠ .str ∧ y.dtype ≠ .object
    · obtain ⟨lab, c, r⟩ := cut_main hy fraction axis haxes hd
      obtain ⟨lab', c', r'⟩ := cut_main hy' fraction axis haxes' (hn ▸ h.dtype_eq ▸ hd)
      have hp : List.Forall₂ List.Perm lab lab' :=
        cutLabels_agree hy hy' h c.naxes c'.naxes c.cut
          (by simpa only [← enough_agree h] using c'.cut) c.others c'.others
      have hmem : [] ∈ lab ↔ [] ∈ lab' := by
        clear r r' c c'
        induction hp with
        | nil => simp
        | cons h1 _ ih =>
          simp only [List.mem_cons, ih]
          constructor
          · rintro (rfl | h2)
            · exact .inl (List.nil_perm.mp h1).symm
            · exact .inr h2
          · rintro (rfl | h2)
            · exact .inl (List.perm_nil.mp h1).symm
            · exact .inr h2
      rcases r with ⟨r1, r2⟩ | ⟨r1, z, r2, -, r3⟩
      · rcases r' with ⟨r1', r2'⟩ | ⟨r1', -⟩
        · rw [r2, r2']
          exact Reordered.refl _
        · exact absurd (hmem.mp r1) r1'
      · rcases r' with ⟨r1', r2'⟩ | ⟨r1', z', r2', -, r3'⟩
        · exact absurd (hmem.mpr r1') r1
        · exact .ok r2 r2' (PartOf.reordered h hp r3 r3')
    · push Not at hd
      obtain ⟨k, hk, hka, hd⟩ := hd
      have hd1 : y.dtype = .str ∨ y.dtype = .object := by
        by_cases hs : y.dtype = .str
        · exact .inl hs
        · exact .inr (hd hs)
      cases axis with
      | none =>
        obtain rfl : List.range y.ndim = axes := by simpa [cutAxes] using haxes
        exact absurd (List.mem_range.mpr hk) hka
      | some a =>
        cases ha : pyIdx y.ndim a with
        | none => simp [cutAxes, ha] at haxes
        | some ax =>
          obtain rfl : [ax] = axes := by simpa [cutAxes, ha] using haxes
          have hax : ax < y.ndim := pyIdx_lt ha
          have h2 : 2 ≤ y.ndim := by
            have : k ≠ ax := by simpa using hka
            omega
          exact .error (C40_cut_dtype hd1 fraction a ha h2)
            (C40_cut_dtype (h.dtype_eq ▸ hd1) fraction a (hn ▸ ha) (hn ▸ h2))

theorem keepX_agree {y y' : Larry L} (hy : y.Valid) (hy' : y'.Valid) (h : y.Reordered y') (op : CmpOp)
    (value : Flt) (vac : Bool) : Res.Agree Reordered (y.keepX op value vac) (y'.keepX op value vac) := by
  have hn := h.ndim_eq hy hy'
  unfold Larry.keepX
  rw [← hn, ← h.dtype_eq]
  split
  · exact rfl
  · split
    · exact rfl
    · cases nanAs y.dtype with
      | error e => exact rfl
      | ok w =>
        dsimp only
        have hm := map_agree hy' h (fun v => if op.test v.num value then v else w) y.dtype
        split
        · refine vacuum_agree ?_ ?_ hm none
          · exact ⟨hy.shape_eq, hy.nodup, hy.ndim_pos⟩
          · exact ⟨hy'.shape_eq, hy'.nodup, hy'.ndim_pos⟩
        · exact hm

end Larry

end La
