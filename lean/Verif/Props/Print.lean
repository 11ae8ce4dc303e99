import Verif.Print
import Verif.LarryFacts
import Verif.Examples

/-!
# Property C88: what a printed larry tells
-/

namespace La
open Csv (Text)
open Print

/-! ## Specification -/

/-- What is printed of the labels of an axis: all of them, or of more than ten the first three and the last
three. -/
def Printed {α : Type _} (label : List α) (kept : List α) : Prop :=
  (label.length ≤ 10 ∧ kept = label) ∨ (10 < label.length ∧ kept = label.take 3 ++ label.drop (label.length - 3))

/-- The text of a label stays on its line. -/
def OneLine (t : Text) : Prop := '\n' ∉ t

/-! ## Lemmas -/

theorem shown_eq (ts : List Text) :
    shown ts = .ok (if ts.length > 10 then ts.take 3 ++ dots :: ts.drop (ts.length - 3) else ts) := by
  unfold shown
  split_ifs with h
  · match ts, h with
    | a :: b :: c :: rest, h =>
      have h8 : 8 ≤ rest.length := by simp at h; omega
      have key : ∀ k : Nat, 0 < k → k ≤ 3 → pyGet (a :: b :: c :: rest) (-(k : Int)) = .ok (rest.getD (rest.length - k) []) := by
        intro k h0 hk
        have hidx : pyIdx (a :: b :: c :: rest).length (-(k : Int)) = some (rest.length + 3 - k) := by
          have := pyIdx_neg (n := (a :: b :: c :: rest).length) (k := k) h0 (by simp; omega)
          simpa using this
        unfold pyGet
        rw [hidx]
        have hs : rest.length + 3 - k = (rest.length - k) + 3 := by omega
        dsimp only
        rw [hs]
        have hlt : rest.length - k < rest.length := by omega
        simp [List.getD, List.getElem?_eq_getElem hlt]
      have k3 := key 3 (by omega) (by omega)
      have k2 := key 2 (by omega) (by omega)
      have k1 := key 1 (by omega) (by omega)
      norm_num at k1 k2 k3
      have hb : mapRes (pyGet (a :: b :: c :: rest)) [-3, -2, -1] =
          .ok [rest.getD (rest.length - 3) [], rest.getD (rest.length - 2) [], rest.getD (rest.length - 1) []] := by
        simp [mapRes, k1, k2, k3]
      have ha : mapRes (pyGet (a :: b :: c :: rest)) [0, 1, 2] = .ok [a, b, c] := by
        have g : ∀ k : Nat, k < 3 → pyIdx (a :: b :: c :: rest).length (k : Int) = some k := by
          intro k hk
          exact pyIdx_ofNat (by omega)
        have g0 := g 0 (by omega)
        have g1 := g 1 (by omega)
        have g2 := g 2 (by omega)
        norm_num at g0 g1 g2
        simp [mapRes, pyGet, g0, g1, g2]
      rw [ha, hb]
      dsimp only
      have hd : (a :: b :: c :: rest).drop ((a :: b :: c :: rest).length - 3) = rest.drop (rest.length - 3) := by
        have : (a :: b :: c :: rest).length - 3 = (rest.length - 3) + 3 := by simp; omega
        rw [this]; rfl
      rw [hd]
      have ht : rest.drop (rest.length - 3) =
          [rest.getD (rest.length - 3) [], rest.getD (rest.length - 2) [], rest.getD (rest.length - 1) []] := by
        apply List.ext_getElem?
        intro i
        rw [List.getElem?_drop]
        match i with
        | 0 => simp [List.getD, List.getElem?_eq_getElem (show rest.length - 3 < rest.length by omega)]
        | 1 =>
          have : rest.length - 3 + 1 = rest.length - 2 := by omega
          rw [this]
          simp [List.getD, List.getElem?_eq_getElem (show rest.length - 2 < rest.length by omega)]
        | 2 =>
          have : rest.length - 3 + 2 = rest.length - 1 := by omega
          rw [this]
          simp [List.getD, List.getElem?_eq_getElem (show rest.length - 1 < rest.length by omega)]
        | i + 3 =>
          rw [List.getElem?_eq_none (by omega)]
          rfl
      rw [ht]
      rfl
  · rfl

/-- The lines printed for one axis. -/
def theLines (ts : List Text) : List Text :=
  if ts.length > 10 then ts.take 3 ++ dots :: ts.drop (ts.length - 3) else ts

/-- All lines before `x`. -/
def allLines (num : Nat → Text) : Nat → List (List Text) → List Text
  | _, [] => []
  | i, ts :: rest => (heading num i :: (theLines ts).map (pad ++ ·)) ++ allLines num (i + 1) rest

theorem labelText_eq (num : Nat → Text) (i : Nat) (label : List (List Text)) :
    labelText num i label = .ok ((allLines num i label).flatMap endLine) := by
  induction label generalizing i with
  | nil => rfl
  | cons ts rest ih =>
    have hs : shown ts = .ok (theLines ts) := shown_eq ts
    simp only [labelText, hs, ih, allLines, axisText]
    simp [List.flatMap_append, List.flatMap_map]

theorem endLine_inj {a b s t : Text} (ha : '\n' ∉ a) (hb : '\n' ∉ b) (h : endLine a ++ s = endLine b ++ t) :
    a = b ∧ s = t := by
  induction a generalizing b with
  | nil =>
    cases b with
    | nil => simpa [endLine] using h
    | cons c cs =>
      simp [endLine] at h
      simp [← h.1] at hb
  | cons c cs ih =>
    cases b with
    | nil =>
      simp [endLine] at h
      simp [h.1] at ha
    | cons d ds =>
      simp only [endLine, List.cons_append, List.cons.injEq] at h
      obtain ⟨rfl, h⟩ := h
      simp only [List.mem_cons, not_or] at ha hb
      obtain ⟨rfl, rfl⟩ := ih ha.2 hb.2 h
      exact ⟨rfl, rfl⟩

theorem lines_inj {ls ls' : List Text} {r r' : Text} (h1 : ∀ l ∈ ls, '\n' ∉ l ∧ l ≠ ['x'])
    (h2 : ∀ l ∈ ls', '\n' ∉ l ∧ l ≠ ['x'])
    (h : ls.flatMap endLine ++ 'x' :: '\n' :: r = ls'.flatMap endLine ++ 'x' :: '\n' :: r') : ls = ls' ∧ r = r' := by
  have hx : ∀ s : Text, 'x' :: '\n' :: s = endLine ['x'] ++ s := fun s => rfl
  induction ls generalizing ls' with
  | nil =>
    cases ls' with
    | nil => simpa using h
    | cons l ls' =>
      simp only [List.flatMap_nil, List.nil_append, List.flatMap_cons, List.append_assoc, hx] at h
      have := (endLine_inj (by decide) (h2 l (by simp)).1 h).1
      exact absurd this.symm (h2 l (by simp)).2
  | cons l ls ih =>
    cases ls' with
    | nil =>
      simp only [List.flatMap_nil, List.nil_append, List.flatMap_cons, List.append_assoc, hx] at h
      have := (endLine_inj (h1 l (by simp)).1 (by decide) h).1
      exact absurd this (h1 l (by simp)).2
    | cons l' ls' =>
      simp only [List.flatMap_cons, List.append_assoc] at h
      obtain ⟨rfl, h'⟩ := endLine_inj (h1 l (by simp)).1 (h2 l' (by simp)).1 h
      obtain ⟨rfl, rfl⟩ := ih (fun l hl => h1 l (by simp [hl])) (fun l hl => h2 l (by simp [hl])) h'
      exact ⟨rfl, rfl⟩

theorem allLines_good {num : Nat → Text} (hnum : ∀ i, OneLine (num i)) {label : List (List Text)}
    (hl : ∀ ts ∈ label, ∀ t ∈ ts, OneLine t) (i : Nat) : ∀ l ∈ allLines num i label, '\n' ∉ l ∧ l ≠ ['x'] := by
  induction label generalizing i with
  | nil => simp [allLines]
  | cons ts rest ih =>
    intro l hmem
    simp only [allLines, List.cons_append, List.mem_cons, List.mem_append, List.mem_map] at hmem
    rcases hmem with rfl | ⟨u, hu, rfl⟩ | hmem
    · have := hnum i
      unfold OneLine at this
      simp [heading, this]
    · have hu' : '\n' ∉ u := by
        unfold theLines at hu
        split_ifs at hu
        · rcases List.mem_append.mp hu with hu | hu
          · exact hl ts (by simp) u (List.mem_of_mem_take hu)
          · rcases List.mem_cons.mp hu with rfl | hu
            · decide
            · exact hl ts (by simp) u (List.mem_of_mem_drop hu)
        · exact hl ts (by simp) u hu
      simp [pad, hu']
    · exact ih (fun ts hts => hl ts (by simp [hts])) (i + 1) l hmem

theorem padded_inj {us vs : List Text} {A B : List Text} (hA : ∀ l ∈ A.head?, l.head? = some 'l')
    (hB : ∀ l ∈ B.head?, l.head? = some 'l') (h : us.map (pad ++ ·) ++ A = vs.map (pad ++ ·) ++ B) :
    us = vs ∧ A = B := by
  induction us generalizing vs with
  | nil =>
    cases vs with
    | nil => simpa using h
    | cons v vs =>
      simp only [List.map_nil, List.nil_append] at h
      rw [h] at hA
      simp [pad] at hA
  | cons u us ih =>
    cases vs with
    | nil =>
      simp only [List.map_nil, List.nil_append] at h
      rw [← h] at hB
      simp [pad] at hB
    | cons v vs =>
      simp only [List.map_cons, List.cons_append, List.cons.injEq] at h
      obtain ⟨h1, h2⟩ := h
      obtain ⟨rfl, rfl⟩ := ih h2
      exact ⟨by rw [List.append_cancel_left h1], rfl⟩

theorem allLines_head (num : Nat → Text) (i : Nat) (label : List (List Text)) :
    ∀ l ∈ (allLines num i label).head?, l.head? = some 'l' := by
  cases label <;> simp [allLines, heading]

theorem allLines_inj {num : Nat → Text} {A B : List (List Text)} (i : Nat)
    (h : allLines num i A = allLines num i B) : A.map theLines = B.map theLines := by
  induction A generalizing B i with
  | nil =>
    cases B with
    | nil => rfl
    | cons b B => simp [allLines] at h
  | cons a A ih =>
    cases B with
    | nil => simp [allLines] at h
    | cons b B =>
      simp only [allLines, List.cons_append, List.cons.injEq, true_and] at h
      obtain ⟨h1, h2⟩ := padded_inj (allLines_head num _ A) (allLines_head num _ B) h
      simp [h1, ih (i + 1) h2]

theorem map_inj_on {α : Type _} {f : α → Text} {l l' : List α}
    (hf : ∀ a ∈ l, ∀ b ∈ l', f a = f b → a = b) (h : l.map f = l'.map f) : l = l' := by
  induction l generalizing l' with
  | nil => cases l' <;> simp_all
  | cons a l ih =>
    cases l' with
    | nil => simp at h
    | cons b l' =>
      simp only [List.map_cons, List.cons.injEq] at h
      rw [hf a (by simp) b (by simp) h.1, ih (fun a ha b hb => hf a (by simp [ha]) b (by simp [hb])) h.2]

/-! ## The theorems -/

variable {L : Type _} {num : Nat → Text} {str : L → Text} {reprX : NDArray Val → DType → Text}

/-- What two larrys that print the same have in common, as lines. -/
theorem repr_eq (hnum : ∀ i, OneLine (num i)) {y z : Larry L}
    (hy : ∀ l ∈ y.label, ∀ a ∈ l, OneLine (str a)) (hz : ∀ l ∈ z.label, ∀ a ∈ l, OneLine (str a))
    (h : y.repr num str reprX = z.repr num str reprX) :
    y.label.map (fun l => theLines (l.map str)) = z.label.map (fun l => theLines (l.map str)) ∧
      reprX y.x y.dtype = reprX z.x z.dtype := by
  unfold Larry.repr at h
  rw [labelText_eq, labelText_eq] at h
  simp only [Except.ok.injEq] at h
  have good : ∀ {w : Larry L}, (∀ l ∈ w.label, ∀ a ∈ l, OneLine (str a)) →
      ∀ l ∈ allLines num 0 (w.label.map (List.map str)), '\n' ∉ l ∧ l ≠ ['x'] := by
    intro w hw
    apply allLines_good hnum
    intro ts hts t ht
    obtain ⟨l, hl, rfl⟩ := List.mem_map.mp hts
    obtain ⟨a, ha, rfl⟩ := List.mem_map.mp ht
    exact hw l hl a ha
  obtain ⟨h1, h2⟩ := lines_inj (good hy) (good hz) h
  have := allLines_inj 0 h1
  rw [List.map_map, List.map_map] at this
  exact ⟨this, h2⟩

/-- C88. Printing a larry does not raise. -/
theorem C88_ok (y : Larry L) : ∃ t, y.repr num str reprX = .ok t := by
  unfold Larry.repr
  rw [labelText_eq]
  exact ⟨_, rfl⟩

/-- C88. Larrys without an axis of more than ten labels that print the same have the same labels, and
their arrays print the same. -/
theorem C88_short (hnum : ∀ i, OneLine (num i)) {y z : Larry L}
    (hy : ∀ l ∈ y.label, ∀ a ∈ l, OneLine (str a)) (hz : ∀ l ∈ z.label, ∀ a ∈ l, OneLine (str a))
    (hstr : ∀ l ∈ y.label, ∀ a ∈ l, ∀ m ∈ z.label, ∀ b ∈ m, str a = str b → a = b)
    (sy : ∀ l ∈ y.label, l.length ≤ 10) (sz : ∀ l ∈ z.label, l.length ≤ 10) :
    y.repr num str reprX = z.repr num str reprX ↔ y.label = z.label ∧ reprX y.x y.dtype = reprX z.x z.dtype := by
  constructor
  · intro h
    obtain ⟨h1, h2⟩ := repr_eq hnum hy hz h
    refine ⟨?_, h2⟩
    have short : ∀ {w : Larry L}, (∀ l ∈ w.label, l.length ≤ 10) →
        w.label.map (fun l => theLines (l.map str)) = w.label.map (List.map str) := by
      intro w hw
      apply List.map_congr_left
      intro l hl
      have := hw l hl
      simp [theLines, this]
    rw [short sy, short sz] at h1
    clear h2 h short sy sz hy hz
    generalize y.label = A at *
    generalize z.label = B at *
    induction A generalizing B with
    | nil => cases B <;> simp_all
    | cons a A ih =>
      cases B with
      | nil => simp at h1
      | cons b B =>
        simp only [List.map_cons, List.cons.injEq] at h1
        rw [map_inj_on (fun u hu v hv => hstr a (by simp) u hu b (by simp) v hv) h1.1,
          ih B (fun l hl u hu m hm v hv => hstr l (by simp [hl]) u hu m (by simp [hm]) v hv) h1.2]
  · rintro ⟨h1, h2⟩
    simp only [Larry.repr, h1, h2]

/-- C88. In general: larrys of the same shape that print the same agree in the labels that are printed, and
their arrays print the same; and conversely. -/
theorem C88_long (hnum : ∀ i, OneLine (num i)) {y z : Larry L}
    (hy : ∀ l ∈ y.label, ∀ a ∈ l, OneLine (str a)) (hz : ∀ l ∈ z.label, ∀ a ∈ l, OneLine (str a))
    (hstr : ∀ l ∈ y.label, ∀ a ∈ l, ∀ m ∈ z.label, ∀ b ∈ m, str a = str b → a = b)
    (hlen : y.label.map List.length = z.label.map List.length) :
    y.repr num str reprX = z.repr num str reprX ↔
      (∀ (i : Nat) (l m : List L), y.label[i]? = some l → z.label[i]? = some m → ∃ kept, Printed l kept ∧ Printed m kept) ∧
        reprX y.x y.dtype = reprX z.x z.dtype := by
  have cut : ∀ (l : List L), theLines (l.map str) = if l.length > 10 then
      (l.take 3).map str ++ dots :: (l.drop (l.length - 3)).map str else l.map str := by
    intro l
    simp [theLines, List.map_take, List.map_drop]
  have lens : ∀ (i : Nat) (l m : List L), y.label[i]? = some l → z.label[i]? = some m → l.length = m.length := by
    intro i l m hl hm
    have := congrArg (fun s => s[i]?) hlen
    simpa [hl, hm] using this
  constructor
  · intro h
    obtain ⟨h1, h2⟩ := repr_eq hnum hy hz h
    refine ⟨fun i l m hl hm => ?_, h2⟩
    have hlm := lens i l m hl hm
    have h3 : theLines (l.map str) = theLines (m.map str) := by
      have := congrArg (fun s => s[i]?) h1
      simpa [hl, hm] using this
    have hinj : ∀ {l' m' : List L}, (∀ a ∈ l', a ∈ l) → (∀ b ∈ m', b ∈ m) → l'.map str = m'.map str → l' = m' :=
      fun hl' hm' => map_inj_on fun a ha b hb =>
        hstr l (List.mem_of_getElem? hl) a (hl' a ha) m (List.mem_of_getElem? hm) b (hm' b hb)
    rw [cut, cut, ← hlm] at h3
    split_ifs at h3 with h10
    · have hl3 : ((l.take 3).map str).length = ((m.take 3).map str).length := by simp; omega
      obtain ⟨e1, e2⟩ := List.append_inj h3 hl3
      simp only [List.cons.injEq, true_and] at e2
      have f1 := hinj (fun a => List.mem_of_mem_take) (fun b => List.mem_of_mem_take) e1
      have f2 := hinj (fun a => List.mem_of_mem_drop) (fun b => List.mem_of_mem_drop) e2
      exact ⟨_, Or.inr ⟨h10, rfl⟩, Or.inr ⟨by omega, by rw [f1, f2, hlm]⟩⟩
    · have f := hinj (fun a => id) (fun b => id) h3
      exact ⟨l, Or.inl ⟨by omega, rfl⟩, Or.inl ⟨by omega, f⟩⟩
  · rintro ⟨h1, h2⟩
    have h3 : y.label.map (fun l => theLines (l.map str)) = z.label.map (fun l => theLines (l.map str)) := by
      apply List.ext_getElem?
      intro i
      rw [List.getElem?_map, List.getElem?_map]
      have hl2 := congrArg (fun s => s[i]?) hlen
      simp only [List.getElem?_map] at hl2
      cases hl : y.label[i]? with
      | none => rw [hl] at hl2; cases hm : z.label[i]? <;> simp_all
      | some l =>
        cases hm : z.label[i]? with
        | none => rw [hl, hm] at hl2; simp at hl2
        | some m =>
          have hlm := lens i l m hl hm
          obtain ⟨kept, k1, k2⟩ := h1 i l m hl hm
          simp only [Option.map_some, Option.some.injEq]
          rw [cut, cut, ← hlm]
          rcases k1 with ⟨a1, b1⟩ | ⟨a1, b1⟩ <;> rcases k2 with ⟨a2, b2⟩ | ⟨a2, b2⟩
          · rw [← b1, ← b2]
          · omega
          · omega
          · have h3l : (l.take 3).length = (m.take 3).length := by simp; omega
            obtain ⟨e1, e2⟩ := List.append_inj (b1.symm.trans b2) h3l
            rw [if_pos a1, if_pos a1, e1, e2, hlm]
    have lt : ∀ {A B : List (List L)} (i : Nat), A.map (fun l => theLines (l.map str)) = B.map (fun l => theLines (l.map str)) →
        allLines num i (A.map (List.map str)) = allLines num i (B.map (List.map str)) := by
      intro A
      induction A with
      | nil => intro B i h; cases B <;> simp_all
      | cons a A ih =>
        intro B i h
        cases B with
        | nil => simp at h
        | cons b B =>
          simp only [List.map_cons, List.cons.injEq] at h
          simp only [List.map_cons, allLines, h.1, ih (i + 1) h.2]
    simp only [Larry.repr, labelText_eq, lt 0 h3, h2]

/-! ## Examples -/

/-- Digits. -/
def exDigit (n : Nat) : Text := [Char.ofNat (48 + n)]

/-- An array prints as its number of dimensions. -/
def exRepr (x : NDArray Val) (_ : DType) : Text := exDigit x.shape.length

/-- Labels 0 to 10, and 0 to 2, a label `...`, 8 to 10. -/
def exLongLabel : Larry Text := ⟨⟨[11], fun _ => fl 1⟩, .float, [(List.range 11).map exDigit]⟩

@[inherit_doc exLongLabel]
def exDots : Larry Text :=
  ⟨⟨[7], fun _ => fl 1⟩, .float, [[exDigit 0, exDigit 1, exDigit 2, dots, exDigit 8, exDigit 9, exDigit 10]]⟩

/-- C88. Without knowing the shape the labels printed may be those of different axes: a label `...` looks like
labels left out. -/
theorem C88_dots : exLongLabel.repr exDigit id exRepr = exDots.repr exDigit id exRepr ∧ exLongLabel.Valid ∧ exDots.Valid ∧
    exLongLabel.shape ≠ exDots.shape := by
  refine ⟨by decide +kernel, ⟨by decide +kernel, by decide +kernel, by decide⟩,
    ⟨by decide +kernel, by decide +kernel, by decide⟩, by decide⟩

/-- A label with a line break: a larry with one axis prints as one with two. -/
theorem C88_break :
    (⟨⟨[1], fun _ => fl 1⟩, .float, [["a\nlabel_1\n    b".toList]]⟩ : Larry Text).repr exDigit id (fun _ _ => []) =
    (⟨⟨[1, 1], fun _ => fl 1⟩, .float, [[['a']], [['b']]]⟩ : Larry Text).repr exDigit id (fun _ _ => []) := by
  decide +kernel

/-- The hypotheses, met by the long label list and one that differs in a label left out. -/
example : (∀ l ∈ exLongLabel.label, ∀ a ∈ l, OneLine a) ∧ (∀ l ∈ exDots.label, ∀ a ∈ l, OneLine a) ∧
    (∀ l ∈ exDots.label, l.length ≤ 10) ∧ exLongLabel.label.map List.length = [11] := by
  unfold OneLine
  decide +kernel

example : ∀ i : Nat, OneLine ((fun _ => ['7']) i) := by intro i; simp [OneLine]

/-- What is printed. -/
example : exDots.repr exDigit id exRepr =
    .ok "label_0\n    0\n    1\n    2\n    ...\n    8\n    9\n    :\nx\n1".toList := by decide +kernel

end La
