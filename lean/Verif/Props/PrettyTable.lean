import Verif.PrettyTable
import Verif.Props.Print
import Verif.Props.Yahoo

/-!
# Property C89: tables as text
-/

namespace La
open Csv (Text)
open Yahoo (split split_none split_sep split_length)
open Tofile (joinText)
open Print (endLine)
open Pretty

/-! ## Specification -/

/-- The lines of a text. -/
def SplitsInto (t : Text) (ls : List Text) : Prop :=
  ls ≠ [] ∧ (∀ l ∈ ls, '\n' ∉ l) ∧ ['\n'].intercalate ls = t

/-- A text of lines, each with its end. -/
def asText (ls : List Text) : Text := (ls.map (· ++ ['\n'])).flatten

/-- A text in the middle of spaces, to the left, to the right, or with margins that differ by at most one: the wider
margin is on the left in columns of odd width, on the right in the others. -/
structure Padded (j : Justify) (w : Nat) (t cell : Text) : Prop where
  spaces : ∃ a b, cell = List.replicate a ' ' ++ t ++ List.replicate b ' ' ∧ a + t.length + b = w ∧
    (j = .left → a = 0) ∧ (j = .right → b = 0) ∧ (j = .center → a = b ∨ (a = b + 1 ∧ w % 2 = 1) ∨ (b = a + 1 ∧ w % 2 = 0))

/-- The names of the ways to justify. -/
def justName : Justify → Text
  | .left => "left".toList
  | .right => "right".toList
  | .center => "center".toList

/-- The length of a printed row. -/
def totalWidth (o : Options) (ws : List Nat) : Nat :=
  o.pre.length + o.post.length + ws.sum + o.delim.length * (ws.length - 1)

/-- The lines a row of the table is printed as: as many as its tallest cell has, each showing that line of every
cell, or nothing. -/
structure RowShown (o : Options) (j : Justify) (ws : List Nat) (row block : List Text) : Prop where
  fits : ∀ c ∈ row, ∀ ls, SplitsInto (o.wrap c) ls → ls.length ≤ block.length
  tallest : ∃ c ∈ row, ∃ ls, SplitsInto (o.wrap c) ls ∧ ls.length = block.length
  line : ∀ (k : Nat) line, block[k]? = some line → line.length = totalWidth o ws ∧ ∃ cells : List Text,
    cells.map List.length = ws ∧ line = o.pre ++ o.delim.intercalate cells ++ o.post ∧
      ∀ (i : Nat) c w, row[i]? = some c → ws[i]? = some w → ∃ cell ls, cells[i]? = some cell ∧ SplitsInto (o.wrap c) ls ∧
        Padded j w (ls[k]?.getD []) cell

/-- The width of a column is the length of the longest line in it. -/
def IsWidth (o : Options) (rows : List (List Text)) (i w : Nat) : Prop :=
  (∀ r ∈ rows, ∀ c, r[i]? = some c → ∀ ls, SplitsInto (o.wrap c) ls → ∀ l ∈ ls, l.length ≤ w) ∧
    ∃ r ∈ rows, ∃ c, r[i]? = some c ∧ ∃ ls, SplitsInto (o.wrap c) ls ∧ ∃ l ∈ ls, l.length = w

/-- Where the separator goes: around all rows, after the first, or nowhere. -/
def arrange (o : Options) (sep : Text) (blocks : List (List Text)) : List Text :=
  if o.separateRows then sep :: blocks.flatMap (fun b => b ++ [sep])
  else if o.hasHeader then blocks.headD [] ++ sep :: blocks.tail.flatten
  else blocks.flatten

/-! ## Lines -/

theorem joinText_eq (d : Text) (fs : List Text) : joinText d fs = d.intercalate fs := by
  induction fs with
  | nil => rfl
  | cons f fs ih =>
    cases fs with
    | nil => simp [joinText, List.intercalate]
    | cons g gs =>
      simp only [joinText, ih]
      simp [List.intercalate, List.intersperse]

theorem split_ne_nil (c : Char) (t : Text) : split c t ≠ [] := by
  intro h
  have := split_length c t
  rw [h] at this
  simp at this

theorem split_splits (c : Char) (t : Text) : (∀ l ∈ split c t, c ∉ l) ∧ [c].intercalate (split c t) = t := by
  induction t with
  | nil => simp [split, List.intercalate]
  | cons a t ih =>
    simp only [split]
    split_ifs with h
    · subst h
      refine ⟨by simpa using ih.1, ?_⟩
      rw [← joinText_eq] at ih ⊢
      cases hs : split a t with
      | nil => exact absurd hs (split_ne_nil a t)
      | cons w ws =>
        rw [hs] at ih
        simp [joinText, ih.2]
    · cases hs : split c t with
      | nil => exact absurd hs (split_ne_nil c t)
      | cons w ws =>
        rw [hs] at ih
        refine ⟨?_, ?_⟩
        · intro l hl
          rcases List.mem_cons.mp hl with rfl | hl
          · have := ih.1 w (by simp)
            simp only [List.mem_cons, not_or]
            exact ⟨fun e => h e.symm, this⟩
          · exact ih.1 l (by simp [hl])
        · rw [← joinText_eq] at ih ⊢
          cases ws with
          | nil => simp [joinText] at ih ⊢; exact ih.2
          | cons v vs => simp [joinText] at ih ⊢; exact ih.2

theorem splitsInto_split (t : Text) : SplitsInto t (split '\n' t) :=
  ⟨split_ne_nil _ _, (split_splits _ _).1, (split_splits _ _).2⟩

theorem split_intercalate {c : Char} {ls : List Text} (hne : ls ≠ []) (h : ∀ l ∈ ls, c ∉ l) :
    split c ([c].intercalate ls) = ls := by
  rw [← joinText_eq]
  induction ls with
  | nil => exact absurd rfl hne
  | cons l ls ih =>
    cases ls with
    | nil => simpa [joinText] using split_none (h l (by simp))
    | cons m ms =>
      have := ih (by simp) (fun l hl => h l (by simp [hl]))
      simp only [joinText, List.singleton_append] at this ⊢
      rw [split_sep (h l (by simp)), this]

theorem SplitsInto.eq {t : Text} {ls : List Text} (h : SplitsInto t ls) : ls = split '\n' t := by
  rw [← h.2.2, split_intercalate h.1 h.2.1]

/-! ## Rows -/

/-- Line `k` of the cells of a row. -/
def physRow (wrap : Text → Text) (row : List Text) (k : Nat) : List Text :=
  row.map (fun c => (split '\n' (wrap c))[k]?.getD [])

/-- The number of lines of a row. -/
def tall (wrap : Text → Text) (row : List Text) : Nat := longest (row.map (fun c => split '\n' (wrap c)))

/-- All lines of a row. -/
def phys (wrap : Text → Text) (row : List Text) : List (List Text) :=
  (List.range (tall wrap row)).map (physRow wrap row)

theorem orEmpty_eq (t : Option Text) : orEmpty t = t.getD [] := by cases t <;> rfl

theorem rowWrapper_eq {wrap : Text → Text} {row : List Text} (h : 2 ≤ row.length) :
    rowWrapper false wrap row = .ok (phys wrap row) := by
  match row, h with
  | a :: b :: rest, _ =>
    simp only [rowWrapper, Bool.false_eq_true, if_false, List.map_cons]
    simp only [phys, tall, zipNone, List.map_map, List.map_cons, Except.ok.injEq]
    apply List.map_congr_left
    intro k _
    simp [physRow, orEmpty_eq, Function.comp_def]

theorem foldr_max_ge {l : List Nat} {a : Nat} (h : a ∈ l) : a ≤ l.foldr max 0 := by
  induction l with
  | nil => simp at h
  | cons b l ih =>
    simp only [List.foldr_cons]
    rcases List.mem_cons.mp h with rfl | h
    · exact le_max_left _ _
    · exact le_trans (ih h) (le_max_right _ _)

theorem foldr_max_mem {l : List Nat} (h : l ≠ []) : l.foldr max 0 ∈ l := by
  induction l with
  | nil => exact absurd rfl h
  | cons b l ih =>
    simp only [List.foldr_cons]
    by_cases hl : l = []
    · simp [hl]
    · rcases le_total b (l.foldr max 0) with hb | hb
      · rw [max_eq_right hb]; exact List.mem_cons_of_mem _ (ih hl)
      · rw [max_eq_left hb]; exact List.mem_cons_self

theorem le_sum_mem {l : List Nat} {a : Nat} (h : a ∈ l) : a ≤ l.sum := by
  induction l with
  | nil => simp at h
  | cons b l ih =>
    rw [List.sum_cons]
    rcases List.mem_cons.mp h with rfl | h
    · omega
    · have := ih h
      omega

theorem flatten_single {α β : Type _} (f : α → β) (l : List α) : (l.map (fun a => [f a])).flatten = l.map f := by
  induction l with
  | nil => rfl
  | cons a l ih => simp [ih]

theorem longest_const {α : Type _} {seqs : List (List α)} {n : Nat} (hne : seqs ≠ []) (h : ∀ s ∈ seqs, s.length = n) :
    longest seqs = n := by
  have := foldr_max_mem (l := seqs.map List.length) (by simpa using hne)
  obtain ⟨s, hs, e⟩ := List.mem_map.mp this
  unfold longest
  rw [← e, h s hs]

theorem tall_pos {wrap : Text → Text} {row : List Text} (h : row ≠ []) : 1 ≤ tall wrap row := by
  match row, h with
  | a :: rest, _ =>
    have : (split '\n' (wrap a)).length ≤ tall wrap (a :: rest) := foldr_max_ge (by simp)
    rw [split_length] at this
    omega

/-- The widths of the columns. -/
def theWidths (P : List (List Text)) (n : Nat) : List Nat :=
  (List.range n).map (fun i => (P.map (fun r => (r[i]?.getD []).length)).foldr max 0)

theorem widths_eq {P : List (List Text)} {n : Nat} (h2 : 2 ≤ P.length) (h : ∀ r ∈ P, r.length = n) :
    widths P = .ok (theWidths P n) := by
  match P, h2 with
  | a :: b :: rest, _ =>
    simp only [widths, zipNone, longest_const (by simp) h, List.map_map, Except.ok.injEq, theWidths]
    apply List.map_congr_left
    intro i hi
    rw [List.mem_range] at hi
    simp only [Function.comp_apply, columnWidth, List.map_map]
    congr 1
    apply List.map_congr_left
    intro r hr
    have := h r hr
    rw [Function.comp_apply, List.getElem?_eq_getElem (by omega)]
    rfl

theorem mapRes_ok_map {α β : Type _} {f : α → Res β} {g : α → β} {l : List α} (h : ∀ a ∈ l, f a = .ok (g a)) :
    mapRes f l = .ok (l.map g) := by
  induction l with
  | nil => rfl
  | cons a l ih => simp [mapRes, h a (by simp), ih (fun b hb => h b (by simp [hb]))]

theorem justifyOf_name {t : Text} {j : Justify} (h : t.map Char.toLower = justName j) : justifyOf t = .ok j := by
  unfold justifyOf
  rw [h]
  cases j <;> decide

theorem rowSeparator_eq (o : Options) {ws : List Nat} (h : 1 ≤ ws.length) :
    rowSeparator o ws = (List.replicate (totalWidth o ws) o.headerChar).flatten := by
  unfold rowSeparator totalWidth
  congr 2
  obtain ⟨m, hm⟩ : ∃ m, ws.length = m + 1 := ⟨ws.length - 1, by omega⟩
  rw [hm]
  have : (o.pre.length + o.post.length + ws.sum : Int) + (o.delim.length : Int) * (((m + 1 : Nat) : Int) - 1) =
      ((o.pre.length + o.post.length + ws.sum + o.delim.length * m : Nat) : Int) := by
    push_cast
    ring
  rw [this, Int.toNat_natCast]
  rfl

theorem body_eq (o : Options) (j : Justify) (ws : List Nat) (header : Bool) (logical : List (List (List Text))) (hne : logical ≠ [])
    (hs : o.separateRows = false) : bodyText o j ws header logical =
      asText (if header then (logical.headD []).map (rowText o j ws) ++
          rowSeparator o ws :: (logical.tail.map (List.map (rowText o j ws))).flatten
        else (logical.map (List.map (rowText o j ws))).flatten) := by
  have plain : ∀ (l : List (List (List Text))), bodyText o j ws false l = asText (l.map (List.map (rowText o j ws))).flatten := by
    intro l
    induction l with
    | nil => rfl
    | cons p l ih =>
      simp only [bodyText, hs, Bool.or_false, Bool.false_eq_true, if_false, ih]
      simp [asText, endLine, List.flatMap, Function.comp_def]
  cases header with
  | false => simpa using plain logical
  | true =>
    match logical, hne with
    | p :: l, _ =>
      simp only [bodyText, hs, Bool.or_true, if_true, plain]
      simp [asText, endLine, List.flatMap, Function.comp_def]

theorem body_sep (o : Options) (j : Justify) (ws : List Nat) (header : Bool) (logical : List (List (List Text)))
    (hs : o.separateRows = true) : bodyText o j ws header logical =
      asText ((logical.map (List.map (rowText o j ws))).flatMap (fun b => b ++ [rowSeparator o ws])) := by
  induction logical generalizing header with
  | nil => rfl
  | cons p l ih =>
    simp only [bodyText, hs, Bool.true_or, if_true, ih]
    simp [asText, endLine, List.flatMap, Function.comp_def]

/-- The lines of the rows. -/
def theBlocks (o : Options) (j : Justify) (ws : List Nat) (rows : List (List Text)) : List (List Text) :=
  rows.map (fun r => (phys o.wrap r).map (rowText o j ws))

/-- All physical rows. -/
def allPhys (wrap : Text → Text) (rows : List (List Text)) : List (List Text) := (rows.map (phys wrap)).flatten

theorem mem_allPhys {wrap : Text → Text} {rows : List (List Text)} {p : List Text} :
    p ∈ allPhys wrap rows ↔ ∃ r ∈ rows, ∃ k < tall wrap r, p = physRow wrap r k := by
  simp only [allPhys, phys, List.mem_flatten, List.mem_map]
  constructor
  · rintro ⟨_, ⟨r, hr, rfl⟩, hp⟩
    obtain ⟨k, hk, rfl⟩ := List.mem_map.mp hp
    exact ⟨r, hr, k, List.mem_range.mp hk, rfl⟩
  · rintro ⟨r, hr, k, hk, rfl⟩
    exact ⟨_, ⟨r, hr, rfl⟩, List.mem_map.mpr ⟨k, List.mem_range.mpr hk, rfl⟩⟩

theorem indent_eq {o : Options} {j : Justify} {rows : List (List Text)} {n : Nat} (hj : o.justify.map Char.toLower = justName j)
    (hn : 2 ≤ n) (hlen : ∀ r ∈ rows, r.length = n) (hne : rows ≠ []) (h2 : 2 ≤ (allPhys o.wrap rows).length) :
    indent false o rows = .ok (asText (arrange o
      (rowSeparator o (theWidths (allPhys o.wrap rows) n)) (theBlocks o j (theWidths (allPhys o.wrap rows) n) rows))) := by
  have hw : widths (rows.map (phys o.wrap)).flatten = .ok (theWidths (allPhys o.wrap rows) n) := by
    apply widths_eq h2
    intro p hp
    obtain ⟨r, hr, k, _, rfl⟩ := mem_allPhys.mp hp
    simp [physRow, hlen r hr]
  unfold indent
  rw [mapRes_ok_map (g := phys o.wrap) (fun r hr => rowWrapper_eq (by rw [hlen r hr]; exact hn))]
  have hne' : rows.map (phys o.wrap) ≠ [] := by simpa using hne
  simp only [hne', if_false, hw, justifyOf_name hj, Except.ok.injEq]
  have hb : (rows.map (phys o.wrap)).map (List.map (rowText o j (theWidths (allPhys o.wrap rows) n))) =
      theBlocks o j (theWidths (allPhys o.wrap rows) n) rows := by
    simp [theBlocks, Function.comp_def]
  cases hs : o.separateRows with
  | true =>
    rw [body_sep o j _ _ _ hs, hb]
    simp [arrange, hs, asText, endLine]
  | false =>
    rw [body_eq o j _ _ _ hne' hs, hb]
    simp only [arrange, hs, Bool.false_eq_true, if_false, List.nil_append]
    congr 1
    cases o.hasHeader with
    | false => rfl
    | true =>
      simp only [if_true]
      match rows, hne with
      | r :: rest, _ => simp [theBlocks, Function.comp_def]

theorem apply_padded {j : Justify} {t : Text} {w : Nat} (h : t.length ≤ w) : Padded j w t (j.apply t w) := by
  constructor
  cases j with
  | left => exact ⟨0, w - t.length, by simp [Justify.apply, blanks], by omega, by simp, by simp, by simp⟩
  | right => exact ⟨w - t.length, 0, by simp [Justify.apply, blanks], by omega, by simp, by simp, by simp⟩
  | center =>
    simp only [Justify.apply]
    split_ifs with h1 h3
    · exact ⟨0, 0, by simp, by omega, by simp, by simp, by simp⟩
    · exact ⟨(w - t.length) / 2 + 1, w - t.length - ((w - t.length) / 2 + 1), rfl, by omega, by simp, by simp, fun _ => by omega⟩
    · exact ⟨(w - t.length) / 2, w - t.length - (w - t.length) / 2, by simp [blanks], by omega, by simp, by simp, fun _ => by omega⟩

theorem Padded.length {j : Justify} {w : Nat} {t cell : Text} (h : Padded j w t cell) : cell.length = w := by
  obtain ⟨a, b, rfl, h, _⟩ := h.spaces
  simp; omega

theorem intercalate_length (d : Text) {cells : List Text} (h : cells ≠ []) :
    (d.intercalate cells).length = (cells.map List.length).sum + d.length * (cells.length - 1) := by
  rw [← joinText_eq]
  induction cells with
  | nil => exact absurd rfl h
  | cons c cs ih =>
    cases cs with
    | nil => simp [joinText]
    | cons b bs =>
      have := ih (by simp)
      simp only [joinText, List.length_append, this, List.map_cons, List.sum_cons, List.length_cons]
      have : bs.length + 1 + 1 - 1 = (bs.length + 1 - 1) + 1 := by omega
      rw [this, Nat.mul_add]
      omega

theorem theWidths_ge {P : List (List Text)} {n i w : Nat} (h : (theWidths P n)[i]? = some w) {p : List Text} (hp : p ∈ P) :
    (p[i]?.getD []).length ≤ w := by
  unfold theWidths at h
  rw [List.getElem?_map] at h
  cases hr : (List.range n)[i]? with
  | none => rw [hr] at h; simp at h
  | some k =>
    have hk : k = i := by
      have := List.getElem?_eq_some_iff.mp hr
      obtain ⟨_, e⟩ := this
      simpa using e.symm
    subst hk
    rw [hr] at h
    simp only [Option.map_some, Option.some.injEq] at h
    rw [← h]
    exact foldr_max_ge (List.mem_map.mpr ⟨p, hp, rfl⟩)

theorem theWidths_mem {P : List (List Text)} {n i w : Nat} (h : (theWidths P n)[i]? = some w) (hne : P ≠ []) :
    ∃ p ∈ P, (p[i]?.getD []).length = w := by
  unfold theWidths at h
  rw [List.getElem?_map] at h
  cases hr : (List.range n)[i]? with
  | none => rw [hr] at h; simp at h
  | some k =>
    have hk : k = i := by
      have := List.getElem?_eq_some_iff.mp hr
      obtain ⟨_, e⟩ := this
      simpa using e.symm
    subst hk
    rw [hr] at h
    simp only [Option.map_some, Option.some.injEq] at h
    obtain ⟨p, hp, e⟩ := List.mem_map.mp (foldr_max_mem (l := P.map (fun r => (r[k]?.getD []).length)) (by simpa using hne))
    exact ⟨p, hp, e.trans h⟩

theorem line_tall {wrap : Text → Text} {row : List Text} {c : Text} (hc : c ∈ row) :
    (split '\n' (wrap c)).length ≤ tall wrap row := by
  apply foldr_max_ge
  simp only [List.map_map, List.mem_map]
  exact ⟨c, hc, rfl⟩

theorem tall_attained {wrap : Text → Text} {row : List Text} (h : row ≠ []) :
    ∃ c ∈ row, (split '\n' (wrap c)).length = tall wrap row := by
  have := foldr_max_mem (l := (row.map (fun c => split '\n' (wrap c))).map List.length) (by simpa using h)
  simp only [List.map_map, List.mem_map] at this
  obtain ⟨c, hc, e⟩ := this
  exact ⟨c, hc, by simpa [tall, longest] using e⟩

theorem rowText_shown (o : Options) (j : Justify) {ws : List Nat} {row : List Text} (hne : row ≠ []) (hlen : row.length = ws.length)
    (hfit : ∀ k < tall o.wrap row, ∀ (i : Nat) w, ws[i]? = some w → ((physRow o.wrap row k)[i]?.getD []).length ≤ w) :
    RowShown o j ws row ((phys o.wrap row).map (rowText o j ws)) := by
  have hbl : ((phys o.wrap row).map (rowText o j ws)).length = tall o.wrap row := by simp [phys]
  refine ⟨?_, ?_, ?_⟩
  · intro c hc ls hls
    rw [hbl, hls.eq]
    exact line_tall hc
  · obtain ⟨c, hc, e⟩ := tall_attained (wrap := o.wrap) hne
    exact ⟨c, hc, _, splitsInto_split _, by rw [hbl, e]⟩
  · intro k line hk
    have hklt : k < tall o.wrap row := by
      have := (List.getElem?_eq_some_iff.mp hk).1
      rwa [hbl] at this
    have hline : line = rowText o j ws (physRow o.wrap row k) := by
      simp only [phys, List.map_map, List.getElem?_map] at hk
      rw [List.getElem?_range hklt] at hk
      simpa using hk.symm
    have hpl : (physRow o.wrap row k).length = ws.length := by simp [physRow, hlen]
    have hcell : ∀ (i : Nat) w, ws[i]? = some w → ∃ t, (physRow o.wrap row k)[i]? = some t ∧
        (List.zipWith (Justify.apply j) (physRow o.wrap row k) ws)[i]? = some (j.apply t w) ∧ Padded j w t (j.apply t w) := by
      intro i w hw
      have hi : i < (physRow o.wrap row k).length := by
        rw [hpl]; exact (List.getElem?_eq_some_iff.mp hw).1
      refine ⟨(physRow o.wrap row k)[i], List.getElem?_eq_getElem hi, ?_, ?_⟩
      · simp [List.getElem?_zipWith, List.getElem?_eq_getElem hi, hw]
      · apply apply_padded
        have := hfit k hklt i w hw
        rw [List.getElem?_eq_getElem hi] at this
        exact this
    have hcl : (List.zipWith (Justify.apply j) (physRow o.wrap row k) ws).map List.length = ws := by
      apply List.ext_getElem?
      intro i
      rw [List.getElem?_map]
      cases hw : ws[i]? with
      | none =>
        have : ws.length ≤ i := List.getElem?_eq_none_iff.mp hw
        simp [List.getElem?_zipWith, hw]
      | some w =>
        obtain ⟨t, _, e, p⟩ := hcell i w hw
        rw [e]
        simp [p.length]
    have hcn : (List.zipWith (Justify.apply j) (physRow o.wrap row k) ws).length = ws.length := by
      rw [← List.length_map (f := List.length), hcl]
    have hwne : ws ≠ [] := by
      intro h
      rw [h] at hlen
      exact hne (List.length_eq_zero_iff.mp hlen)
    refine ⟨?_, List.zipWith (Justify.apply j) (physRow o.wrap row k) ws, hcl, ?_, ?_⟩
    · rw [hline]
      simp only [rowText, joinText_eq, List.length_append]
      rw [intercalate_length _ (by intro h; rw [h] at hcn; simp at hcn; exact hwne (List.length_eq_zero_iff.mp hcn.symm)), hcl, hcn]
      unfold totalWidth
      omega
    · rw [hline]
      simp only [rowText, joinText_eq]
    · intro i c w hc hw
      obtain ⟨t, ht, e, p⟩ := hcell i w hw
      refine ⟨_, split '\n' (o.wrap c), e, splitsInto_split _, ?_⟩
      have : t = (split '\n' (o.wrap c))[k]?.getD [] := by
        simp only [physRow, List.getElem?_map, hc, Option.map_some, Option.some.injEq] at ht
        exact ht.symm
      rw [← this]
      exact p

/-! ## The theorems -/

/-- C89. A table of at least two columns and two lines: every column is as wide as its longest line, every row
is printed on as many lines as its tallest cell has, all these lines and the separator are equally long, and line `k` of
a row shows line `k` of every cell, justified in its column. -/
theorem C89_table (o : Options) (j : Justify) (rows : List (List Text)) (n : Nat)
    (hj : o.justify.map Char.toLower = justName j) (hn : 2 ≤ n) (hlen : ∀ r ∈ rows, r.length = n) (hne : rows ≠ [])
    (h2 : 2 ≤ rows.length ∨ ∃ r ∈ rows, ∃ c ∈ r, '\n' ∈ o.wrap c) :
    ∃ (ws : List Nat) (blocks : List (List Text)), ws.length = n ∧ (∀ i w, ws[i]? = some w → IsWidth o rows i w) ∧
      List.Forall₂ (RowShown o j ws) rows blocks ∧
      indent false o rows = .ok (asText (arrange o (List.replicate (totalWidth o ws) o.headerChar).flatten blocks)) := by
  have hrne : ∀ r ∈ rows, r ≠ [] := by
    intro r hr h
    have := hlen r hr
    rw [h] at this
    simp at this
    omega
  have h2' : 2 ≤ (allPhys o.wrap rows).length := by
    have hpl : ∀ r, (phys o.wrap r).length = tall o.wrap r := by simp [phys]
    have hsum : (allPhys o.wrap rows).length = (rows.map (tall o.wrap)).sum := by
      simp [allPhys, List.length_flatten, List.map_map, Function.comp_def, hpl]
    rw [hsum]
    rcases h2 with h2 | ⟨r, hr, c, hc, hcn⟩
    · match rows, h2 with
      | a :: b :: rest, _ =>
        have ha := tall_pos (wrap := o.wrap) (hrne a (by simp))
        have hb := tall_pos (wrap := o.wrap) (hrne b (by simp))
        simp only [List.map_cons, List.sum_cons]
        omega
    · have h3 : 2 ≤ tall o.wrap r := by
        have := line_tall (wrap := o.wrap) hc
        rw [split_length] at this
        have := List.count_pos_iff.mpr hcn
        omega
      exact le_trans h3 (le_sum_mem (List.mem_map.mpr ⟨r, hr, rfl⟩))
  have hPne : allPhys o.wrap rows ≠ [] := by
    intro h; rw [h] at h2'; simp at h2'
  have hwl : (theWidths (allPhys o.wrap rows) n).length = n := by simp [theWidths]
  refine ⟨theWidths (allPhys o.wrap rows) n, theBlocks o j (theWidths (allPhys o.wrap rows) n) rows, hwl, ?_, ?_, ?_⟩
  · intro i w hw
    have hi : i < n := by
      have := (List.getElem?_eq_some_iff.mp hw).1
      rwa [hwl] at this
    refine ⟨?_, ?_⟩
    · intro r hr c hc ls hls l hl
      rw [hls.eq] at hl
      obtain ⟨k, hk, rfl⟩ := List.getElem_of_mem hl
      have hkt : k < tall o.wrap r := lt_of_lt_of_le hk (line_tall (List.mem_of_getElem? hc))
      have := theWidths_ge hw (mem_allPhys.mpr ⟨r, hr, k, hkt, rfl⟩)
      simpa [physRow, hc, List.getElem?_eq_getElem hk] using this
    · obtain ⟨p, hp, e⟩ := theWidths_mem hw hPne
      obtain ⟨r, hr, k, hk, rfl⟩ := mem_allPhys.mp hp
      have hir : i < r.length := by rw [hlen r hr]; exact hi
      refine ⟨r, hr, r[i], List.getElem?_eq_getElem hir, _, splitsInto_split _, ?_⟩
      simp only [physRow, List.getElem?_map, List.getElem?_eq_getElem hir, Option.map_some, Option.getD_some] at e
      cases hl : (split '\n' (o.wrap r[i]))[k]? with
      | some l =>
        rw [hl] at e
        exact ⟨l, List.mem_of_getElem? hl, e⟩
      | none =>
        rw [hl] at e
        have hw0 : w = 0 := by simpa using e.symm
        subst hw0
        match hs : split '\n' (o.wrap r[i]), split_ne_nil '\n' (o.wrap r[i]) with
        | l :: ls, _ =>
          refine ⟨l, by simp, ?_⟩
          have h0 : 0 < tall o.wrap r := by omega
          have := theWidths_ge hw (mem_allPhys.mpr ⟨r, hr, 0, h0, rfl⟩)
          simpa [physRow, List.getElem?_eq_getElem hir, hs] using this
  · unfold theBlocks
    rw [List.forall₂_map_right_iff, List.forall₂_same]
    intro r hr
    apply rowText_shown o j (hrne r hr) (by rw [hlen r hr, hwl])
    intro k hk i w hw
    exact theWidths_ge hw (mem_allPhys.mpr ⟨r, hr, k, hk, rfl⟩)
  · rw [indent_eq hj hn hlen hne h2', rowSeparator_eq o (by omega)]

/-- C89. The cell of a column begins at the same place in every line. -/
theorem C89_offset (pre delim post : Text) (cells : List Text) (i : Nat) (cell : Text) (h : cells[i]? = some cell) :
    ((pre ++ delim.intercalate cells ++ post).drop
      (pre.length + (((cells.map List.length).take i).map (· + delim.length)).sum)).take cell.length = cell := by
  rw [List.append_assoc, List.drop_append, ← joinText_eq]
  simp only [Nat.add_sub_cancel_left]
  rw [List.drop_eq_nil_of_le (by omega), List.nil_append]
  induction cells generalizing i with
  | nil => simp at h
  | cons c cs ih =>
    cases i with
    | zero =>
      simp only [List.getElem?_cons_zero, Option.some.injEq] at h
      subst h
      cases cs <;> simp [joinText]
    | succ i =>
      cases cs with
      | nil => simp at h
      | cons b bs =>
        have := ih i (by simpa using h)
        simp only [joinText, List.map_cons, List.take_succ_cons, List.map_cons, List.sum_cons, List.append_assoc]
        rw [← List.drop_drop]
        have e : (c ++ (delim ++ (joinText delim (b :: bs) ++ post))).drop (c.length + delim.length) =
            joinText delim (b :: bs) ++ post := by
          rw [← List.append_assoc, ← List.length_append, List.drop_left']
          rfl
        rw [e]
        simpa using this

/-- C89. What raises: no rows, a row without cells, and a name that is not one of the three. -/
theorem C89_errors (o : Options) : indent false o [] = .error .typeError ∧
    (∀ rows, [] ∈ rows → indent false o rows = .error .typeError) ∧
    ∀ rows n, 2 ≤ n → (∀ r ∈ rows, r.length = n) → 2 ≤ rows.length → (∀ j, o.justify.map Char.toLower ≠ justName j) →
      indent false o rows = .error .keyError := by
  refine ⟨rfl, ?_, ?_⟩
  · intro rows h
    have wrapErr : ∀ row e, rowWrapper false o.wrap row = .error e → e = .typeError := by
      intro row e h
      unfold rowWrapper at h
      simp only [Bool.false_eq_true, if_false] at h
      split at h <;> simp_all
    have : mapRes (rowWrapper false o.wrap) rows = .error .typeError := by
      induction rows with
      | nil => simp at h
      | cons r rows ih =>
        simp only [mapRes]
        cases hr : rowWrapper false o.wrap r with
        | error e => rw [wrapErr r e hr]
        | ok p =>
          have hne : [] ∈ rows := by
            rcases List.mem_cons.mp h with rfl | h
            · simp [rowWrapper] at hr
            · exact h
          simp [ih hne]
    unfold indent
    rw [this]
  · intro rows n hn hlen h2 hj
    have hrne : ∀ r ∈ rows, r ≠ [] := by
      intro r hr h
      have := hlen r hr
      rw [h] at this
      simp at this
      omega
    have hw : widths (rows.map (phys o.wrap)).flatten = .ok (theWidths (allPhys o.wrap rows) n) := by
      apply widths_eq
      · have hpl : ∀ r, (phys o.wrap r).length = tall o.wrap r := by simp [phys]
        have hsum : ((rows.map (phys o.wrap)).flatten).length = (rows.map (tall o.wrap)).sum := by
          simp [List.length_flatten, List.map_map, Function.comp_def, hpl]
        rw [hsum]
        match rows, h2 with
        | a :: b :: rest, _ =>
          have ha := tall_pos (wrap := o.wrap) (hrne a (by simp))
          have hb := tall_pos (wrap := o.wrap) (hrne b (by simp))
          simp only [List.map_cons, List.sum_cons]
          omega
      · intro p hp
        obtain ⟨r, hr, k, _, rfl⟩ := mem_allPhys.mp hp
        simp [physRow, hlen r hr]
    unfold indent
    rw [mapRes_ok_map (g := phys o.wrap) (fun r hr => rowWrapper_eq (by rw [hlen r hr]; exact hn))]
    have hne' : rows.map (phys o.wrap) ≠ [] := by
      intro h
      rw [List.map_eq_nil_iff] at h
      rw [h] at h2
      simp at h2
    have hjo : justifyOf o.justify = .error .keyError := by
      have h1 := hj .center
      have h2 := hj .right
      have h3 := hj .left
      simp only [justName] at h1 h2 h3
      unfold justifyOf
      rw [if_neg h1, if_neg h2, if_neg h3]
    simp only [hne', if_false, hw, hjo]

/-- C89. Under Python 3 no table can be printed. -/
theorem C89_python3 (o : Options) (rows : List (List Text)) (h : rows ≠ []) : indent true o rows = .error .typeError := by
  match rows, h with
  | r :: rows, _ => simp [indent, mapRes, rowWrapper]

/-- C89. A table of one column is taken apart: the characters become columns. -/
theorem C89_one_column : indent false {} [["ab".toList], ["c".toList]] = .ok "a | b   \nc\n".toList := by decide +kernel

/-- C89. A table of one line: the separator is as if every column had one character. -/
theorem C89_one_line : indent false { hasHeader := true } [["name".toList, "age".toList]] =
    .ok "name | age\n-----\n".toList := by decide +kernel

/-- The hypotheses of `C89_table`, with the table of the recipe. -/
example : indent false { hasHeader := true, justify := "Right".toList, pre := "| ".toList, post := " |".toList }
    [["First".toList, "Age".toList], ["John\nM.".toList, "24".toList]] =
    .ok "| First | Age |\n---------------\n|  John |  24 |\n|    M. |     |\n".toList := by decide +kernel

example : "Right".toList.map Char.toLower = justName .right ∧
    (∀ r ∈ [["First".toList, "Age".toList], ["John\nM.".toList, "24".toList]], r.length = 2) := by decide +kernel

/-! ## The listing of an archive -/

/-- A line of the listing. -/
def listLine (w0 w1 w2 : Nat) (row : Text × Text × Text) : Text :=
  (row.1 ++ List.replicate (w0 - row.1.length) ' ') ++ [' ', ' '] ++ ((row.2.1 ++ List.replicate (w1 - row.2.1.length) ' ') ++
    [' ', ' '] ++ (row.2.2 ++ List.replicate (w2 - row.2.2.length) ' '))

/-- The name, dtype and shape of the larrys of an archive. -/
def Lists (dtypeText : DType → Text) (shapeText : List Nat → Text) (f : Archive) (key : String) (row : Text × Text × Text) : Prop :=
  ∃ x dt, f.get (comps key ++ ["x"]) = some (.arr x dt) ∧ row = (key.toList, dtypeText dt, shapeText x.shape)

/-- The greatest of some numbers. -/
def IsGreatest' (l : List Nat) (w : Nat) : Prop := w ∈ l ∧ ∀ v ∈ l, v ≤ w

/-- The names of the columns. -/
def listHead : Text × Text × Text := ("larry".toList, "dtype".toList, "shape".toList)

/-- The text consists of a line of names, a separator and a line for every row; columns are as wide as needed. -/
structure Listing (rows : List (Text × Text × Text)) (t : Text) (w0 w1 w2 : Nat) : Prop where
  width0 : IsGreatest' ((listHead :: rows).map (fun r => r.1.length)) w0
  width1 : IsGreatest' ((listHead :: rows).map (fun r => r.2.1.length)) w1
  width2 : IsGreatest' ((listHead :: rows).map (fun r => r.2.2.length)) w2
  text : t = asText (listLine w0 w1 w2 listHead :: List.replicate (w0 + w1 + w2 + 4) '-' :: rows.map (listLine w0 w1 w2))

/-- A row of the table as a list. -/
def asRow (r : Text × Text × Text) : List Text := [r.1, r.2.1, r.2.2]

theorem tall_one {row : List Text} (hne : row ≠ []) (h : ∀ c ∈ row, '\n' ∉ c) : tall id row = 1 := by
  obtain ⟨c, hc, e⟩ := tall_attained (wrap := id) hne
  rw [← e, id, split_none (h c hc)]
  rfl

theorem physRow_one {row : List Text} (h : ∀ c ∈ row, '\n' ∉ c) : physRow id row 0 = row := by
  unfold physRow
  conv_rhs => rw [← List.map_id row]
  apply List.map_congr_left
  intro c hc
  rw [id, split_none (h c hc)]
  rfl

theorem allPhys_one {rows : List (List Text)} (hne : ∀ r ∈ rows, r ≠ []) (h : ∀ r ∈ rows, ∀ c ∈ r, '\n' ∉ c) :
    rows.map (phys id) = rows.map (fun r => [r]) := by
  apply List.map_congr_left
  intro r hr
  simp [phys, tall_one (hne r hr) (h r hr), physRow_one (h r hr)]

/-- The table with columns of the given widths. -/
theorem table_text {rows : List (Text × Text × Text)} (hne : rows ≠ [])
    (h : ∀ r ∈ rows, '\n' ∉ r.1 ∧ '\n' ∉ r.2.1 ∧ '\n' ∉ r.2.2) :
    ∃ t w0 w1 w2, indent false Archive.tableOptions (Archive.tableHead :: rows.map asRow) = .ok t ∧ Listing rows t w0 w1 w2 := by
  have hall : Archive.tableHead :: rows.map asRow = (listHead :: rows).map asRow := rfl
  have hone : ∀ r ∈ (listHead :: rows).map asRow, ∀ c ∈ r, '\n' ∉ c := by
    intro r hr c hc
    obtain ⟨q, hq, rfl⟩ := List.mem_map.mp hr
    rcases List.mem_cons.mp hq with rfl | hq
    · revert c; decide
    · have := h q hq
      simp only [asRow, List.mem_cons, List.not_mem_nil, or_false] at hc
      rcases hc with rfl | rfl | rfl
      · exact this.1
      · exact this.2.1
      · exact this.2.2
  have hlen : ∀ r ∈ (listHead :: rows).map asRow, r.length = 3 := by
    intro r hr
    obtain ⟨q, _, rfl⟩ := List.mem_map.mp hr
    rfl
  have hrne : ∀ r ∈ (listHead :: rows).map asRow, r ≠ [] := by
    intro r hr e
    have := hlen r hr
    rw [e] at this
    simp at this
  have hphys : allPhys id ((listHead :: rows).map asRow) = (listHead :: rows).map asRow := by
    unfold allPhys
    rw [allPhys_one hrne hone, flatten_single (fun r => r), List.map_id']
  have hj : Archive.tableOptions.justify.map Char.toLower = justName .left := by decide
  have h2 : 2 ≤ (allPhys Archive.tableOptions.wrap ((listHead :: rows).map asRow)).length := by
    show 2 ≤ (allPhys id _).length
    rw [hphys]
    have := List.length_pos_iff.mpr hne
    simp
    omega
  have key := indent_eq (o := Archive.tableOptions) hj (n := 3) (by omega) hlen (by simp) h2
  rw [show Archive.tableOptions.wrap = id from rfl, hphys] at key
  obtain ⟨w0, w1, w2, hws⟩ : ∃ w0 w1 w2, theWidths ((listHead :: rows).map asRow) 3 = [w0, w1, w2] :=
    ⟨_, _, _, rfl⟩
  have great : ∀ (i : Nat) w (g : Text × Text × Text → Text), (theWidths ((listHead :: rows).map asRow) 3)[i]? = some w →
      (∀ r, (asRow r)[i]?.getD [] = g r) → IsGreatest' ((listHead :: rows).map (fun r => (g r).length)) w := by
    intro i w g hw hg
    refine ⟨?_, ?_⟩
    · obtain ⟨p, hp, e⟩ := theWidths_mem hw (by simp)
      obtain ⟨q, hq, rfl⟩ := List.mem_map.mp hp
      rw [hg] at e
      exact List.mem_map.mpr ⟨q, hq, e⟩
    · intro v hv
      obtain ⟨q, hq, rfl⟩ := List.mem_map.mp hv
      have := theWidths_ge hw (List.mem_map.mpr ⟨q, hq, rfl⟩)
      rwa [hg] at this
  have line : ∀ r, rowText Archive.tableOptions .left [w0, w1, w2] (asRow r) = listLine w0 w1 w2 r := by
    intro r
    simp [rowText, asRow, listLine, joinText, Justify.apply, blanks, Archive.tableOptions]
  refine ⟨_, w0, w1, w2, key, great 0 w0 _ (by rw [hws]; rfl) (fun _ => rfl), great 1 w1 _ (by rw [hws]; rfl) (fun _ => rfl),
    great 2 w2 _ (by rw [hws]; rfl) (fun _ => rfl), ?_⟩
  rw [hws]
  congr 1
  have hsep : rowSeparator Archive.tableOptions [w0, w1, w2] = List.replicate (w0 + w1 + w2 + 4) '-' := by
    rw [rowSeparator_eq _ (by simp)]
    have : totalWidth Archive.tableOptions [w0, w1, w2] = w0 + w1 + w2 + 4 := by
      simp [totalWidth, Archive.tableOptions]
      omega
    rw [this]
    generalize w0 + w1 + w2 + 4 = n
    induction n with
    | zero => rfl
    | succ n ih => rw [List.replicate_succ, List.flatten_cons, ih]; rfl
  have hblocks : theBlocks Archive.tableOptions .left [w0, w1, w2] ((listHead :: rows).map asRow) =
      (listHead :: rows).map (fun r => [listLine w0 w1 w2 r]) := by
    have h3 := allPhys_one hrne hone
    have : theBlocks Archive.tableOptions .left [w0, w1, w2] ((listHead :: rows).map asRow) =
        (((listHead :: rows).map asRow).map (phys id)).map (List.map (rowText Archive.tableOptions .left [w0, w1, w2])) := by
      simp [theBlocks, Function.comp_def, Archive.tableOptions]
    rw [this, h3]
    simp [Function.comp_def, line]
  rw [hblocks, hsep]
  simp [arrange, Archive.tableOptions, flatten_single]

/-- C89. The listing of an archive shows every larry once, in alphabetical order, with its dtype and shape, in columns. -/
theorem C89_listing (dtypeText : DType → Text) (shapeText : List Nat → Text) (f : Archive) (ks : List String)
    (hk : f.keys = .ok ks) (hne : ks ≠ []) (hrow : ∀ k ∈ ks, ∃ row, Lists dtypeText shapeText f k row)
    (hone : ∀ k ∈ ks, ∀ row, Lists dtypeText shapeText f k row → '\n' ∉ row.1 ∧ '\n' ∉ row.2.1 ∧ '\n' ∉ row.2.2) :
    ∃ sorted rows t w0 w1 w2, sorted.Perm ks ∧ sorted.Pairwise (· ≤ ·) ∧
      List.Forall₂ (Lists dtypeText shapeText f) sorted rows ∧ f.repr false dtypeText shapeText = .ok t ∧
      Listing rows t w0 w1 w2 := by
  have hrow' : ∀ k ∈ pySorted ks, ∃ row, Lists dtypeText shapeText f k row := fun k hk => hrow k (mem_pySorted.mp hk)
  have hone' : ∀ k ∈ pySorted ks, ∀ row, Lists dtypeText shapeText f k row → '\n' ∉ row.1 ∧ '\n' ∉ row.2.1 ∧ '\n' ∉ row.2.2 :=
    fun k hk => hone k (mem_pySorted.mp hk)
  have : ∃ rows, List.Forall₂ (Lists dtypeText shapeText f) (pySorted ks) rows ∧
      mapRes (f.tableRow dtypeText shapeText) (pySorted ks) = .ok (rows.map asRow) ∧
      ∀ r ∈ rows, '\n' ∉ r.1 ∧ '\n' ∉ r.2.1 ∧ '\n' ∉ r.2.2 := by
    generalize pySorted ks = l at *
    induction l with
    | nil => exact ⟨[], .nil, rfl, by simp⟩
    | cons k l ih =>
      obtain ⟨rows, h1, h2, h3⟩ := ih (fun k hk => hrow' k (by simp [hk])) (fun k hk => hone' k (by simp [hk]))
      obtain ⟨row, hr⟩ := hrow' k (by simp)
      have hr3 := hone' k (by simp) row hr
      obtain ⟨x, dt, hg, rfl⟩ := hr
      refine ⟨_ :: rows, .cons ⟨x, dt, hg, rfl⟩ h1, ?_, ?_⟩
      · simp [mapRes, Archive.tableRow, hg, h2, asRow]
      · intro r hr
        rcases List.mem_cons.mp hr with rfl | hr
        · exact hr3
        · exact h3 r hr
  obtain ⟨rows, h1, h2, h3⟩ := this
  have hrne : rows ≠ [] := by
    intro e
    have := h1.length_eq
    rw [e, (pySorted_perm_self ks).length_eq] at this
    exact hne (List.length_eq_zero_iff.mp this)
  obtain ⟨t, w0, w1, w2, h4, h5⟩ := table_text hrne h3
  refine ⟨pySorted ks, rows, t, w0, w1, w2, pySorted_perm_self ks, pySorted_pairwise ks, h1, ?_, h5⟩
  unfold Archive.repr
  rw [hk]
  simp only [h2, h4]

/-- C89. The listing of an archive without larrys: the separator is too short. -/
theorem C89_empty (dtypeText : DType → Text) (shapeText : List Nat → Text) (f : Archive) (h : f.keys = .ok []) :
    f.repr false dtypeText shapeText = .ok "larry  dtype  shape\n-------\n".toList := by
  unfold Archive.repr
  rw [h]
  show indent false Archive.tableOptions [Archive.tableHead] = _
  decide +kernel

/-- C89. Under Python 3 an archive cannot be listed. -/
theorem C89_listing_python3 (dtypeText : DType → Text) (shapeText : List Nat → Text) (f : Archive) (t : Text) :
    f.repr true dtypeText shapeText ≠ .ok t := by
  intro h
  unfold Archive.repr at h
  cases hk : f.keys with
  | error e => rw [hk] at h; simp at h
  | ok ks =>
    rw [hk] at h
    simp only at h
    cases hm : mapRes (f.tableRow dtypeText shapeText) (pySorted ks) with
    | error e => rw [hm] at h; simp at h
    | ok rows =>
      rw [hm] at h
      simp [C89_python3] at h

/-! ## What a listing tells -/

/-- The text does not end with a space. -/
def NoTrail (t : Text) : Prop := t.getLast? ≠ some ' '

theorem asText_inj {ls ls' : List Text} (h1 : ∀ l ∈ ls, '\n' ∉ l) (h2 : ∀ l ∈ ls', '\n' ∉ l) (h : asText ls = asText ls') :
    ls = ls' := by
  induction ls generalizing ls' with
  | nil => cases ls' <;> simp_all [asText]
  | cons l ls ih =>
    cases ls' with
    | nil => simp [asText] at h
    | cons m ms =>
      have e : ∀ (l : Text) ls, asText (l :: ls) = endLine l ++ asText ls := by intro l ls; simp [asText, endLine]
      rw [e, e] at h
      obtain ⟨rfl, h'⟩ := endLine_inj (h1 l (by simp)) (h2 m (by simp)) h
      rw [ih (fun l hl => h1 l (by simp [hl])) (fun l hl => h2 l (by simp [hl])) h']

theorem blanks_inj {a b : Nat} {d : Char} {s s' : Text} (hd : d ≠ ' ')
    (h : List.replicate a ' ' ++ d :: s = List.replicate b ' ' ++ d :: s') : a = b ∧ s = s' := by
  induction a generalizing b with
  | zero =>
    cases b with
    | zero => simpa using h
    | succ b => simp [List.replicate_succ] at h; exact absurd h.1 hd
  | succ a ih =>
    cases b with
    | zero => simp [List.replicate_succ] at h; exact absurd h.1.symm hd
    | succ b =>
      simp only [List.replicate_succ, List.cons_append, List.cons.injEq, true_and] at h
      obtain ⟨rfl, rfl⟩ := ih h
      exact ⟨rfl, rfl⟩

theorem drop_blanks {t : Text} (h : NoTrail t) (n : Nat) :
    (t ++ List.replicate n ' ').reverse.dropWhile (· = ' ') = t.reverse := by
  rw [List.reverse_append, List.reverse_replicate]
  induction n with
  | zero =>
    simp only [List.replicate_zero, List.nil_append]
    unfold NoTrail at h
    rw [← List.head?_reverse] at h
    cases hr : t.reverse with
    | nil => rfl
    | cons c cs =>
      rw [hr] at h
      simp only [List.head?_cons, ne_eq, Option.some.injEq] at h
      simp [h]
  | succ n ih => simpa [List.replicate_succ] using ih

theorem padded_same {s t : Text} {w : Nat} (hs : NoTrail s) (ht : NoTrail t) (h : s ++ List.replicate (w - s.length) ' ' =
    t ++ List.replicate (w - t.length) ' ') : s = t := by
  have h1 := drop_blanks hs (w - s.length)
  rw [h, drop_blanks ht] at h1
  exact (List.reverse_injective h1).symm

/-- A cell of a listing: on one line, without a space at the end. -/
def GoodCell (t : Text) : Prop := '\n' ∉ t ∧ NoTrail t

theorem listLine_inj {w0 w1 w2 : Nat} {r s : Text × Text × Text}
    (hr : GoodCell r.1 ∧ GoodCell r.2.1 ∧ GoodCell r.2.2) (hs : GoodCell s.1 ∧ GoodCell s.2.1 ∧ GoodCell s.2.2)
    (r0 : r.1.length ≤ w0) (r1 : r.2.1.length ≤ w1) (s0 : s.1.length ≤ w0) (s1 : s.2.1.length ≤ w1)
    (h : listLine w0 w1 w2 r = listLine w0 w1 w2 s) : r = s := by
  unfold listLine at h
  obtain ⟨h0, h⟩ := List.append_inj h (by simp; omega)
  replace h0 := List.append_cancel_right h0
  obtain ⟨h1, h⟩ := List.append_inj h (by simp; omega)
  replace h1 := List.append_cancel_right h1
  obtain ⟨a, b, c⟩ := r
  obtain ⟨a', b', c'⟩ := s
  simp only at *
  rw [padded_same hr.1.2 hs.1.2 h0, padded_same hr.2.1.2 hs.2.1.2 h1, padded_same hr.2.2.2 hs.2.2.2 h]

theorem listLine_one {w0 w1 w2 : Nat} {r : Text × Text × Text} (h : '\n' ∉ r.1 ∧ '\n' ∉ r.2.1 ∧ '\n' ∉ r.2.2) :
    '\n' ∉ listLine w0 w1 w2 r := by
  simp [listLine, h.1, h.2.1, h.2.2]

theorem head_inj {w0 w1 w2 v0 v1 v2 : Nat} (h0 : 5 ≤ w0) (h0' : 5 ≤ v0) (h1 : 5 ≤ w1) (h1' : 5 ≤ v1) (h2 : 5 ≤ w2) (h2' : 5 ≤ v2)
    (h : listLine w0 w1 w2 listHead = listLine v0 v1 v2 listHead) : w0 = v0 ∧ w1 = v1 ∧ w2 = v2 := by
  have form : ∀ a b c, listLine a b c listHead = "larry".toList ++ (List.replicate (a - 5 + 2) ' ' ++ 'd' :: ("type".toList ++
      (List.replicate (b - 5 + 2) ' ' ++ 's' :: ("hape".toList ++ List.replicate (c - 5) ' ')))) := by
    intro a b c
    simp [listLine, listHead, List.replicate_add]
  rw [form, form, List.append_cancel_left_eq] at h
  obtain ⟨e0, h⟩ := blanks_inj (by decide) h
  rw [List.append_cancel_left_eq] at h
  obtain ⟨e1, h⟩ := blanks_inj (by decide) h
  rw [List.append_cancel_left_eq] at h
  have e2 := congrArg List.length h
  simp at e2
  omega

theorem Listing.inj {rows rows' : List (Text × Text × Text)} {t : Text} {w0 w1 w2 v0 v1 v2 : Nat} (h : Listing rows t w0 w1 w2)
    (h' : Listing rows' t v0 v1 v2) (g : ∀ r ∈ rows, GoodCell r.1 ∧ GoodCell r.2.1 ∧ GoodCell r.2.2)
    (g' : ∀ r ∈ rows', GoodCell r.1 ∧ GoodCell r.2.1 ∧ GoodCell r.2.2) : rows = rows' := by
  have no : ∀ {rows : List (Text × Text × Text)} (w0 w1 w2 : Nat), (∀ r ∈ rows, GoodCell r.1 ∧ GoodCell r.2.1 ∧ GoodCell r.2.2) →
      ∀ l ∈ listLine w0 w1 w2 listHead :: List.replicate (w0 + w1 + w2 + 4) '-' :: rows.map (listLine w0 w1 w2), '\n' ∉ l := by
    intro rows w0 w1 w2 g l hl
    simp only [List.mem_cons, List.mem_map] at hl
    rcases hl with rfl | rfl | ⟨r, hr, rfl⟩
    · exact listLine_one (by decide)
    · simp
    · exact listLine_one ⟨(g r hr).1.1, (g r hr).2.1.1, (g r hr).2.2.1⟩
  have hl := asText_inj (no w0 w1 w2 g) (no v0 v1 v2 g') (h.text.symm.trans h'.text)
  simp only [List.cons.injEq] at hl
  obtain ⟨e1, _, e2⟩ := hl
  have five : ∀ {rows : List (Text × Text × Text)} {w : Nat} (p : Text × Text × Text → Text), p listHead = "larry".toList ∨ p listHead = "dtype".toList ∨
      p listHead = "shape".toList → IsGreatest' ((listHead :: rows).map (fun r => (p r).length)) w → 5 ≤ w := by
    intro rows w p hp hw
    have := hw.2 (p listHead).length (by simp)
    rcases hp with hp | hp | hp <;> (rw [hp] at this; exact this)
  obtain ⟨rfl, rfl, rfl⟩ := head_inj (five _ (.inl rfl) h.width0) (five _ (.inl rfl) h'.width0) (five _ (.inr (.inl rfl)) h.width1)
    (five _ (.inr (.inl rfl)) h'.width1) (five _ (.inr (.inr rfl)) h.width2) (five _ (.inr (.inr rfl)) h'.width2) e1
  have le0 : ∀ r ∈ rows, r.1.length ≤ w0 ∧ r.2.1.length ≤ w1 := fun r hr =>
    ⟨h.width0.2 _ (List.mem_map.mpr ⟨r, by simp [hr], rfl⟩), h.width1.2 _ (List.mem_map.mpr ⟨r, by simp [hr], rfl⟩)⟩
  have le0' : ∀ r ∈ rows', r.1.length ≤ w0 ∧ r.2.1.length ≤ w1 := fun r hr =>
    ⟨h'.width0.2 _ (List.mem_map.mpr ⟨r, by simp [hr], rfl⟩), h'.width1.2 _ (List.mem_map.mpr ⟨r, by simp [hr], rfl⟩)⟩
  clear h h' e1 five no
  induction rows generalizing rows' with
  | nil => cases rows' <;> simp_all
  | cons r rows ih =>
    cases rows' with
    | nil => simp at e2
    | cons s rows' =>
      simp only [List.map_cons, List.cons.injEq] at e2
      rw [listLine_inj (g r (by simp)) (g' s (by simp)) (le0 r (by simp)).1 (le0 r (by simp)).2 (le0' s (by simp)).1
        (le0' s (by simp)).2 e2.1, ih (fun r hr => g r (by simp [hr])) (fun r hr => g' r (by simp [hr])) e2.2
        (fun r hr => le0 r (by simp [hr])) (fun r hr => le0' r (by simp [hr]))]

theorem Lists.unique {dtypeText : DType → Text} {shapeText : List Nat → Text} {f : Archive} {k : String} {r s : Text × Text × Text}
    (h : Lists dtypeText shapeText f k r) (h' : Lists dtypeText shapeText f k s) : r = s := by
  obtain ⟨x, dt, h1, rfl⟩ := h
  obtain ⟨x', dt', h2, rfl⟩ := h'
  rw [h1] at h2
  simp only [Option.some.injEq, Node.arr.injEq] at h2
  obtain ⟨rfl, rfl⟩ := h2
  rfl

/-- C89. Archives that are listed the same have the same larrys, of the same dtypes and shapes as far as those print
differently; if no name, dtype or shape prints with a line break or a space at its end. -/
theorem C89_same_listing (dtypeText : DType → Text) (shapeText : List Nat → Text) (f g : Archive) (ks ls : List String)
    (hf : f.keys = .ok ks) (hg : g.keys = .ok ls) (hkn : ks ≠ []) (hln : ls ≠ [])
    (hk : ∀ k ∈ ks, ∃ row, Lists dtypeText shapeText f k row) (hl : ∀ k ∈ ls, ∃ row, Lists dtypeText shapeText g k row)
    (ck : ∀ k ∈ ks, ∀ row, Lists dtypeText shapeText f k row → GoodCell row.1 ∧ GoodCell row.2.1 ∧ GoodCell row.2.2)
    (cl : ∀ k ∈ ls, ∀ row, Lists dtypeText shapeText g k row → GoodCell row.1 ∧ GoodCell row.2.1 ∧ GoodCell row.2.2)
    (h : f.repr false dtypeText shapeText = g.repr false dtypeText shapeText) :
    ks.Perm ls ∧ ∀ k ∈ ks, ∀ row, Lists dtypeText shapeText f k row ↔ Lists dtypeText shapeText g k row := by
  obtain ⟨s1, r1, t1, a0, a1, a2, p1, q1, l1, e1, i1⟩ := C89_listing dtypeText shapeText f ks hf hkn hk
    (fun k hk row hr => ⟨(ck k hk row hr).1.1, (ck k hk row hr).2.1.1, (ck k hk row hr).2.2.1⟩)
  obtain ⟨s2, r2, t2, b0, b1, b2, p2, q2, l2, e2, i2⟩ := C89_listing dtypeText shapeText g ls hg hln hl
    (fun k hk row hr => ⟨(cl k hk row hr).1.1, (cl k hk row hr).2.1.1, (cl k hk row hr).2.2.1⟩)
  rw [e1, e2] at h
  simp only [Except.ok.injEq] at h
  subst h
  have good : ∀ {f : Archive} {s : List String} {r : List (Text × Text × Text)}, List.Forall₂ (Lists dtypeText shapeText f) s r →
      (∀ k ∈ s, ∀ row, Lists dtypeText shapeText f k row → GoodCell row.1 ∧ GoodCell row.2.1 ∧ GoodCell row.2.2) →
      ∀ q ∈ r, GoodCell q.1 ∧ GoodCell q.2.1 ∧ GoodCell q.2.2 := by
    intro f s r hfr
    induction hfr with
    | nil => simp
    | cons hab _ ih =>
      intro hc q hq
      rcases List.mem_cons.mp hq with rfl | hq
      · exact hc _ (by simp) _ hab
      · exact ih (fun k hk => hc k (by simp [hk])) q hq
  have hrows := i1.inj i2 (good l1 (fun k hk => ck k (p1.mem_iff.mp hk))) (good l2 (fun k hk => cl k (p2.mem_iff.mp hk)))
  subst hrows
  have both : s1 = s2 ∧ ∀ k ∈ s1, ∃ row, Lists dtypeText shapeText f k row ∧ Lists dtypeText shapeText g k row := by
    clear i1 i2 good e1 e2 p1 p2 q1 q2
    induction l1 generalizing s2 with
    | nil => cases l2; exact ⟨rfl, by simp⟩
    | cons hab _ ih =>
      cases l2 with
      | cons hcd l2 =>
        obtain ⟨rfl, h2⟩ := ih _ l2
        obtain ⟨x, dt, h3, rfl⟩ := hab
        obtain ⟨x', dt', h4, h5⟩ := hcd
        simp only [Prod.mk.injEq] at h5
        have hk := String.toList_injective h5.1
        subst hk
        refine ⟨rfl, ?_⟩
        intro k hk
        rcases List.mem_cons.mp hk with rfl | hk
        · exact ⟨_, ⟨x, dt, h3, rfl⟩, ⟨x', dt', h4, by rw [h5.2.1, h5.2.2]⟩⟩
        · exact h2 k hk
  obtain ⟨rfl, hboth⟩ := both
  refine ⟨p1.symm.trans p2, fun k hk row => ?_⟩
  obtain ⟨q, q1, q2⟩ := hboth k (p1.mem_iff.mpr hk)
  exact ⟨fun hr => by rw [hr.unique q1]; exact q2, fun hr => by rw [hr.unique q2]; exact q1⟩

/-! ## Example -/

/-- An archive with a larry named `price`. -/
def exListed : Archive :=
  [([], .group false), (["price"], .group true), (["price", "x"], .arr ⟨[2], fun _ => fl 1⟩ .float),
    (["price", "0"], .lab [.str "a", .str "b"] .notDatetime)]

example : exListed.keys = .ok ["price"] := by decide +kernel

example : exListed.repr false (fun _ => "float64".toList) (fun _ => "(2,)".toList) =
    .ok "larry  dtype    shape\n---------------------\nprice  float64  (2,) \n".toList := by decide +kernel

example : Lists (fun _ => "float64".toList) (fun _ => "(2,)".toList) exListed "price"
    ("price".toList, "float64".toList, "(2,)".toList) := ⟨_, _, rfl, rfl⟩

example : GoodCell "price".toList ∧ GoodCell "float64".toList ∧ GoodCell "(2,)".toList := by
  unfold GoodCell NoTrail
  decide +kernel

end La
