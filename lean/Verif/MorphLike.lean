import Verif.MorphFacts

/-! # Morphing several axes in turn (used by `morph_like` and `merge`) -/

namespace La
open Larry
variable {L : Type _} [LinearOrder L]

/-- Some axis in the list of (old labels, new labels) pairs forces a dtype without missing marker to
become float. -/
def NeedsFloat (ps : List (List L × List L)) : Prop :=
  ∃ p ∈ ps, p.1 ≠ p.2 ∧ (p.2 = [] ∨ ∃ b ∈ p.2, b ∉ p.1)

open Classical in
/-- dtype after morphing the axes in `ps`. -/
noncomputable def likeDType (d : DType) (ps : List (List L × List L)) : DType :=
  if (d = .int ∨ d = .bool) ∧ NeedsFloat ps then .float else d

/-- `z` is `y` with the first `i` axes morphed to the target labels. -/
structure MorphedTo (y : Larry L) (tgt : List (List L)) (i : Nat) (z : Larry L) : Prop where
  label_eq : z.label = tgt.take i ++ y.label.drop i
  valid : z.Valid
  dtype_eq : z.dtype = likeDType y.dtype ((y.label.zip tgt).take i)
  re : Reindexed y.label y.x z.label z.x (castVal y.dtype z.dtype) (missingMarker z.dtype)

theorem MorphedTo.zero {y : Larry L} (hv : y.Valid) (tgt : List (List L)) : MorphedTo y tgt 0 y where
  label_eq := by simp
  valid := hv
  dtype_eq := by simp [likeDType, NeedsFloat]
  re := by rw [castVal_self]; exact Reindexed.refl _ _ _

theorem toFloat_idem (v : Val) : v.toFloat.toFloat = v.toFloat := by cases v <;> rfl

theorem likeDType_cases (d : DType) (ps : List (List L × List L)) :
    likeDType d ps = d ∨ ((d = .int ∨ d = .bool) ∧ likeDType d ps = .float) := by
  unfold likeDType; split
  · rename_i h; exact .inr ⟨h.1, rfl⟩
  · exact .inl rfl

theorem MorphedTo.step {y z : Larry L} (hv : y.Valid) {tgt : List (List L)} {i : Nat}
    (h : MorphedTo y tgt i z) (hlen : tgt.length = y.ndim) {lab : List L}
    (hlab : tgt[i]? = some lab) (hnd : lab.Nodup) :
    ∃ z', z.morph lab i = .ok z' ∧ MorphedTo y tgt (i + 1) z' := by
  have hi : i < tgt.length := (List.getElem?_eq_some_iff.mp hlab).1
  have hyl : y.label.length = y.ndim := hv.label_length
  have hiy : i < y.label.length := by omega
  have hzl : z.label.length = y.ndim := by rw [h.label_eq]; simp; omega
  have hzn : z.ndim = y.ndim := by rw [← h.valid.label_length, hzl]
  have hol : z.label[i]? = some y.label[i] := by
    rw [h.label_eq, List.getElem?_append_right (by simp)]
    simp [Nat.min_eq_left (Nat.le_of_lt hi), hiy]
  obtain ⟨z', g1, g2, g3, g4, g5⟩ := morph_spec h.valid hnd
    (axis := (i : Int)) (ax := i) (pyIdx_ofNat (by omega)) hol
  have hlab' : tgt[i] = lab := (List.getElem?_eq_some_iff.mp hlab).2
  have hlabel : z'.label = tgt.take (i + 1) ++ y.label.drop (i + 1) := by
    rw [g2, h.label_eq, List.set_append_right _ _ (by simp), List.take_add_one, hlab]
    simp only [List.length_take, Nat.min_eq_left (Nat.le_of_lt hi), Nat.sub_self, Option.toList_some]
    rw [List.drop_eq_getElem_cons hiy, List.set_cons_zero, List.append_assoc, List.singleton_append]
  have hzip : (y.label.zip tgt).take (i + 1) =
      (y.label.zip tgt).take i ++ [(y.label[i], lab)] := by
    rw [List.take_add_one]
    have : (y.label.zip tgt)[i]? = some (y.label[i], lab) := by
      rw [List.getElem?_zip_eq_some]; exact ⟨by simp [hiy], hlab⟩
    rw [this]; rfl
  have hneeds : NeedsFloat ((y.label.zip tgt).take (i + 1)) ↔
      NeedsFloat ((y.label.zip tgt).take i) ∨
        (y.label[i] ≠ lab ∧ (lab = [] ∨ ∃ b ∈ lab, b ∉ y.label[i])) := by
    rw [hzip]; unfold NeedsFloat
    constructor
    · rintro ⟨p, hp, hh⟩
      rcases List.mem_append.mp hp with hp | hp
      · exact .inl ⟨p, hp, hh⟩
      · simp only [List.mem_singleton] at hp; subst hp; exact .inr hh
    · rintro (⟨p, hp, hh⟩ | hh)
      · exact ⟨p, by simp [hp], hh⟩
      · exact ⟨(y.label[i], lab), by simp, hh⟩
  have hdt : z'.dtype = likeDType y.dtype ((y.label.zip tgt).take (i + 1)) := by
    rw [g4, h.dtype_eq]
    unfold likeDType morphDType
    rw [hneeds]
    by_cases a : (y.dtype = .int ∨ y.dtype = .bool) <;>
      by_cases b : NeedsFloat ((y.label.zip tgt).take i) <;> simp [a, b]
  have hcast : castVal z.dtype z'.dtype ∘ castVal y.dtype z.dtype = castVal y.dtype z'.dtype := by
    funext v
    have h1 := likeDType_cases y.dtype ((y.label.zip tgt).take i)
    rw [← h.dtype_eq] at h1
    have h2 : z'.dtype = z.dtype ∨ ((z.dtype = .int ∨ z.dtype = .bool) ∧ z'.dtype = .float) := by
      rw [g4]; unfold morphDType; split
      · rename_i hh; exact .inr ⟨hh.1, rfl⟩
      · exact .inl rfl
    rcases h1 with h1 | ⟨h1, h1'⟩
    · rw [h1]; simp [castVal]
    · have : z'.dtype = .float := by
        rcases h2 with h2 | ⟨_, h2⟩
        · rw [h2, h1']
        · exact h2
      rw [this, h1']; simp [castVal]
  refine ⟨z', g1, hlabel, g3, hdt, ?_⟩
  rw [← hcast]
  refine h.re.trans g5 ?_ ?_
  · rintro ⟨names, hN, hno⟩
    obtain ⟨v, hvv⟩ := Holds_of_Named (x := z.x) hN
    rcases ((h.re names v).mp hvv).2 with ⟨w, hw, _⟩ | ⟨_, hm⟩
    · exact absurd (Named_of_Holds hw) hno
    · have : z'.dtype = z.dtype := by rw [g4]; exact morphDType_of_marker hm _ _
      rw [this, castVal_self]; simp
  · intro names h1 h2
    rw [hlabel] at h1
    rw [h.label_eq]
    rw [← List.take_append_drop i y.label] at h2
    rw [Named_iff] at h1 h2 ⊢
    refine ⟨by rw [h2.1]; simp; omega, ?_⟩
    intro k l n hl hn
    by_cases hk : k < i
    · refine h1.2 k l n ?_ hn
      rw [List.getElem?_append_left (by simp; omega)] at hl ⊢
      rw [List.getElem?_take_of_lt hk] at hl
      rw [List.getElem?_take_of_lt (by omega)]
      exact hl
    · refine h2.2 k l n ?_ hn
      rw [List.getElem?_append_right (by simp; omega)] at hl ⊢
      simpa [Nat.min_eq_left (Nat.le_of_lt hi), Nat.min_eq_left (Nat.le_of_lt hiy)] using hl

theorem morphLikeLoop_spec {y lar : Larry L} (hv : y.Valid) (hl : lar.Valid) (hn : y.ndim = lar.ndim)
    (m i : Nat) (him : i + m = y.ndim) {z : Larry L} (h : MorphedTo y lar.label i z) :
    ∃ z', morphLikeLoop lar (List.range' i m) z = .ok z' ∧ MorphedTo y lar.label y.ndim z' := by
  induction m generalizing i z with
  | zero => exact ⟨z, rfl, by rw [← him]; exact h⟩
  | succ m ih =>
    have hll : lar.label.length = y.ndim := by rw [hl.label_length, hn]
    have hi : i < lar.label.length := by omega
    obtain ⟨z', h1, h2⟩ := h.step hv hll (lab := lar.label[i]) (by simp [hi])
      (hl.nodup _ (List.getElem_mem hi))
    obtain ⟨z'', h3, h4⟩ := ih (i + 1) (by omega) h2
    refine ⟨z'', ?_, h4⟩
    have hg : lar.getlabel i = .ok lar.label[i] := by
      unfold getlabel
      rw [if_neg (by omega), pyGet_ok]
      exact ⟨i, pyIdx_ofNat hi, by simp [hi]⟩
    rw [List.range'_succ]
    simp only [morphLikeLoop, hg, h1, h3]

end La
