import Verif.Tofile
import Verif.LarryFacts

/-! # C79: the text file of a larry can be taken apart again -/

namespace La
namespace Tofile

open Csv (Text)

variable {L : Type _} {str : L → Text} {fmt : Val → Text} {delim : Text}

/-! ## Specification -/

/-- Python's `text.split(sep)`: cut at the leftmost occurrence of `sep`, then go on behind it.  `skip`
characters of the separator are still to be passed over, `acc` is the piece read so far. -/
def splitGo (sep : Text) : Nat → Text → Text → List Text
  | _, acc, [] => [acc]
  | skip + 1, acc, _ :: cs => splitGo sep skip acc cs
  | 0, acc, c :: cs =>
    if sep.isPrefixOf (c :: cs) then acc :: splitGo sep (sep.length - 1) [] cs
    else splitGo sep 0 (acc ++ [c]) cs

/-- `text.split(sep)`. -/
def split (sep text : Text) : List Text := splitGo sep 0 [] text

/-- `[line.split(delimiter) for line in text.split('\n')[:-1]]`: how a program takes a delimited file
apart. -/
def table (delim text : Text) : List (List Text) := (split ['\n'] text).dropLast.map (split delim)

/-- A field that does not disturb the file: no line break, and no character with which the delimiter
begins. -/
def Clean (delim f : Text) : Prop := '\n' ∉ f ∧ ∀ c ∈ delim.head?, c ∉ f

/-- A delimiter: not empty, no line break. -/
def Delim (delim : Text) : Prop := delim ≠ [] ∧ '\n' ∉ delim

/-- The labels and values of a larry do not disturb the file. -/
def CleanLarry (str : L → Text) (fmt : Val → Text) (delim : Text) (y : Larry L) : Prop :=
  (∀ l ∈ y.label, ∀ a ∈ l, Clean delim (str a)) ∧ ∀ names v, y.Has names v → Clean delim (fmt v)

/-- A table (with a first row of column names and a first column of row names) shows the text `t` in
row `r` and column `c`. -/
def Shows (tab : List (List Text)) (r c t : Text) : Prop :=
  ∃ i j row head, tab[i + 1]? = some row ∧ tab[0]? = some head ∧ row[0]? = some r ∧
    head[j + 1]? = some c ∧ row[j + 1]? = some t

/-! ## Splitting -/

theorem splitGo_skip (sep : Text) (acc : Text) : ∀ (a cs : Text),
    splitGo sep a.length acc (a ++ cs) = splitGo sep 0 acc cs
  | [], _ => rfl
  | _ :: a, cs => splitGo_skip sep acc a cs

theorem splitGo_field {s : Char} {sep : Text} : ∀ (f acc cs : Text), s ∉ f →
    splitGo (s :: sep) 0 acc (f ++ cs) = splitGo (s :: sep) 0 (acc ++ f) cs
  | [], acc, cs, _ => by simp
  | c :: f, acc, cs, h => by
    have hc : s ≠ c := fun e => h (e ▸ List.mem_cons_self)
    have : (s :: sep).isPrefixOf (c :: (f ++ cs)) = false := by
      simp [List.isPrefixOf, hc]
    rw [List.cons_append, splitGo, this]
    simp only [Bool.false_eq_true, if_false]
    rw [splitGo_field f _ cs fun h' => h (List.mem_cons_of_mem _ h')]
    simp

theorem split_last {s : Char} {sep f : Text} (h : s ∉ f) : split (s :: sep) f = [f] := by
  have := splitGo_field (sep := sep) f [] [] h
  simpa [split, splitGo] using this

theorem split_cons {s : Char} {sep f : Text} (h : s ∉ f) (cs : Text) :
    split (s :: sep) (f ++ ((s :: sep) ++ cs)) = f :: split (s :: sep) cs := by
  unfold split
  rw [splitGo_field f [] _ h, List.cons_append, splitGo]
  have : (s :: sep).isPrefixOf (s :: (sep ++ cs)) = true := by
    rw [List.isPrefixOf_iff_prefix]
    exact ⟨cs, rfl⟩
  rw [this]
  simp only [if_true, List.length_cons, Nat.add_sub_cancel, List.nil_append]
  rw [splitGo_skip]

theorem joinText_two (f g : Text) (fs : List Text) :
    joinText delim (f :: g :: fs) = f ++ (delim ++ joinText delim (g :: fs)) := rfl

theorem split_join {s : Char} {sep : Text} : ∀ {fs : List Text}, fs ≠ [] → (∀ f ∈ fs, s ∉ f) →
    split (s :: sep) (joinText (s :: sep) fs) = fs
  | [f], _, h => split_last (h f (by simp))
  | f :: g :: fs, _, h => by
    rw [joinText_two, split_cons (h f (by simp)),
      split_join (by simp) fun a ha => h a (List.mem_cons_of_mem _ ha)]

/-- Lines each ended by a line break. -/
theorem split_lines : ∀ {ls : List Text}, (∀ l ∈ ls, '\n' ∉ l) →
    split ['\n'] (ls.flatMap (· ++ ['\n'])) = ls ++ [[]]
  | [], _ => rfl
  | l :: ls, h => by
    have e : (l :: ls).flatMap (· ++ ['\n']) = l ++ (['\n'] ++ ls.flatMap (· ++ ['\n'])) := by simp
    rw [e, split_cons (h l (by simp)), split_lines fun a ha => h a (List.mem_cons_of_mem _ ha)]
    rfl

theorem joinText_mem {c : Char} : ∀ {fs : List Text}, c ∈ joinText delim fs → c ∈ delim ∨ ∃ f ∈ fs, c ∈ f
  | [f], h => .inr ⟨f, by simp, h⟩
  | f :: g :: fs, h => by
    rw [joinText_two, List.mem_append, List.mem_append] at h
    rcases h with h | h | h
    · exact .inr ⟨f, by simp, h⟩
    · exact .inl h
    · rcases joinText_mem h with h | ⟨f', hf', h⟩
      · exact .inl h
      · exact .inr ⟨f', List.mem_cons_of_mem _ hf', h⟩

theorem table_rows (hd : Delim delim) {rows : List (List Text)} (hne : ∀ r ∈ rows, r ≠ [])
    (hc : ∀ r ∈ rows, ∀ f ∈ r, Clean delim f) :
    table delim (rows.flatMap fun r => joinText delim r ++ ['\n']) = rows := by
  have e : (rows.flatMap fun r => joinText delim r ++ ['\n']) =
      (rows.map (joinText delim)).flatMap (· ++ ['\n']) := by
    rw [List.flatMap_map]
  unfold table
  rw [e, split_lines, List.dropLast_concat, List.map_map]
  · conv_rhs => rw [← List.map_id rows]
    refine List.map_congr_left fun r hr => ?_
    obtain ⟨hd0, -⟩ := hd
    match delim, hd0 with
    | s :: sep, _ => exact split_join (hne r hr) fun f hf => (hc r hr f hf).2 s rfl
  · intro l hl h
    obtain ⟨r, hr, rfl⟩ := List.mem_map.1 hl
    rcases joinText_mem h with h | ⟨f, hf, h⟩
    · exact hd.2 h
    · exact (hc r hr f hf).1 h

/-! ## What is written -/

theorem writeLoop_ok {line : Nat → Res Text} {g : Nat → Text} : ∀ {l : List Nat},
    (∀ i ∈ l, line i = .ok (g i)) → writeLoop line l = (l.flatMap g, .ok ())
  | [], _ => rfl
  | i :: l, h => by
    rw [writeLoop, h i (by simp), writeLoop_ok fun a ha => h a (List.mem_cons_of_mem _ ha)]
    rfl

theorem pyGet_nat {α : Type _} {l : List α} {i : Nat} {a : α} (h : l[i]? = some a) : pyGet l (i : Int) = .ok a := by
  have hi : i < l.length := (List.getElem?_eq_some_iff.1 h).1
  have : pyIdx l.length (i : Int) = some i := by
    unfold pyIdx
    simp [hi]
  unfold pyGet
  rw [this]
  simp [h]

theorem labelText_ok {y : Larry L} {ax i : Nat} {l : List L} {a : L} (hl : y.label[ax]? = some l)
    (ha : l[i]? = some a) : y.labelText str ax i = .ok (str a) := by
  unfold Larry.labelText
  rw [pyGet_nat hl]
  simp only
  rw [pyGet_nat ha]

/-- The text of element `i` of a list. -/
theorem map_range_get {α β : Type _} (g : α → β) (l : List α) [Inhabited β] :
    l.map g = (List.range l.length).map fun i => ((l[i]?).map g).getD default := by
  refine List.ext_getElem (by simp) fun i h1 h2 => ?_
  have : i < l.length := by simpa using h1
  simp [this]

/-- The rows of the file of a 1d larry. -/
def rows1 (str : L → Text) (fmt : Val → Text) (x : NDArray Val) (rows : List L) : List (List Text) :=
  rows.zipIdx.map fun p => [str p.1, fmt (x.get [p.2])]

/-- The rows of the file of a 2d larry, without the first. -/
def rows2 (str : L → Text) (fmt : Val → Text) (x : NDArray Val) (rows cols : List L) : List (List Text) :=
  rows.zipIdx.map fun p => str p.1 :: (List.range cols.length).map fun j => fmt (x.get [p.2, j])

theorem zipIdx_map_range {α β : Type _} (g : α → Nat → β) (h : Nat → β) (l : List α)
    (e : ∀ i a, l[i]? = some a → g a i = h i) : (l.zipIdx.map fun p => g p.1 p.2) = (List.range l.length).map h := by
  refine List.ext_getElem (by simp) fun i h1 h2 => ?_
  have hi : i < l.length := by simpa using h1
  simp only [List.getElem_map, List.getElem_zipIdx, Nat.zero_add, List.getElem_range]
  exact e i _ (List.getElem?_eq_getElem hi)

theorem fileText_1d {y : Larry L} (hy : y.Valid) {rows : List L} (h : y.label = [rows]) :
    y.fileText str fmt delim =
      ((rows1 str fmt y.x rows).flatMap fun r => joinText delim r ++ ['\n'], .ok ()) := by
  have hs : y.x.shape = [rows.length] := by rw [hy.shape_eq, h]; rfl
  unfold Larry.fileText
  rw [if_pos (by rw [hs]; rfl), hs]
  simp only [List.prod_cons, List.prod_nil, Nat.mul_one]
  let g : Nat → Text := fun i =>
    ((rows[i]?).map fun a => joinText delim [str a, fmt (y.x.get [i])] ++ ['\n']).getD []
  rw [writeLoop_ok (g := g)]
  · congr 1
    unfold rows1
    rw [List.flatMap_map, List.flatMap_def, List.flatMap_def]
    congr 1
    symm
    exact zipIdx_map_range (fun a i => joinText delim [str a, fmt (y.x.get [i])] ++ ['\n']) g rows
      fun i a e => by simp [g, e]
  · intro i hi
    have hi' : i < rows.length := List.mem_range.1 hi
    have e : rows[i]? = some rows[i] := List.getElem?_eq_getElem hi'
    unfold Larry.line1
    rw [labelText_ok (by rw [h]; rfl) e]
    simp [g, e, joinText]

theorem fileText_2d {y : Larry L} (hy : y.Valid) {rows cols : List L} (h : y.label = [rows, cols]) :
    y.fileText str fmt delim = (delim ++ (joinText delim (cols.map str) ++ ['\n']) ++
      (rows2 str fmt y.x rows cols).flatMap fun r => joinText delim r ++ ['\n'], .ok ()) := by
  have hs : y.x.shape = [rows.length, cols.length] := by rw [hy.shape_eq, h]; rfl
  have hcols : mapRes (y.labelText str 1) (List.range cols.length) = .ok (cols.map str) := by
    rw [mapRes_ok, List.forall₂_iff_get]
    refine ⟨by simp, fun i h1 h2 => ?_⟩
    have hi : i < cols.length := by simpa using h1
    simp only [List.get_eq_getElem, List.getElem_range, List.getElem_map]
    exact labelText_ok (by rw [h]; rfl) (List.getElem?_eq_getElem hi)
  unfold Larry.fileText
  rw [if_neg (by rw [hs]; simp), hs]
  simp only [List.getD_cons_succ, List.getD_cons_zero]
  rw [hcols]
  simp only
  let g : Nat → Text := fun i => ((rows[i]?).map fun a =>
    joinText delim (str a :: (List.range cols.length).map fun j => fmt (y.x.get [i, j])) ++ ['\n']).getD []
  rw [writeLoop_ok (g := g)]
  · refine Prod.ext (congrArg (delim ++ (joinText delim (cols.map str) ++ ['\n']) ++ ·) ?_) rfl
    unfold rows2
    rw [List.flatMap_map, List.flatMap_def, List.flatMap_def]
    refine congrArg List.flatten ?_
    symm
    exact zipIdx_map_range (fun a i => joinText delim (str a :: (List.range cols.length).map
      fun j => fmt (y.x.get [i, j])) ++ ['\n']) g rows fun i a e => by simp [g, e]
  · intro i hi
    have hi' : i < rows.length := List.mem_range.1 hi
    have e : rows[i]? = some rows[i] := List.getElem?_eq_getElem hi'
    unfold Larry.line2
    rw [labelText_ok (by rw [h]; rfl) e, hs]
    simp [g, e]

theorem has_1d {y : Larry L} {rows : List L} (h : y.label = [rows]) {r : L} {v : Val} :
    y.Has [r] v ↔ ∃ i, rows[i]? = some r ∧ y.x.get [i] = v := by
  unfold Larry.Has Holds
  rw [h]
  constructor
  · rintro ⟨idx, hat, hv⟩
    match idx, hat with
    | [i], hat => exact ⟨i, hat.1, hv⟩
  · rintro ⟨i, hi, hv⟩
    exact ⟨[i], ⟨hi, trivial⟩, hv⟩

theorem has_2d {y : Larry L} {rows cols : List L} (h : y.label = [rows, cols]) {r c : L} {v : Val} :
    y.Has [r, c] v ↔ ∃ i j, rows[i]? = some r ∧ cols[j]? = some c ∧ y.x.get [i, j] = v := by
  unfold Larry.Has Holds
  rw [h]
  constructor
  · rintro ⟨idx, hat, hv⟩
    match idx, hat with
    | [i, j], hat => exact ⟨i, j, hat.1, hat.2.1, hv⟩
  · rintro ⟨i, j, hi, hj, hv⟩
    exact ⟨[i, j], ⟨hi, hj, trivial⟩, hv⟩

theorem nil_clean : Clean delim [] := ⟨by simp, by simp⟩

theorem clean_1d {y : Larry L} {rows : List L} (h : y.label = [rows]) (hc : CleanLarry str fmt delim y) :
    ∀ r ∈ rows1 str fmt y.x rows, ∀ f ∈ r, Clean delim f := by
  intro r hr f hf
  obtain ⟨⟨a, i⟩, hp, rfl⟩ := List.mem_map.1 hr
  have ha : rows[i]? = some a := List.mk_mem_zipIdx_iff_getElem?.1 hp
  simp only [List.mem_cons, List.not_mem_nil, or_false] at hf
  rcases hf with rfl | rfl
  · exact hc.1 rows (by rw [h]; simp) a (List.mem_of_getElem? ha)
  · exact hc.2 [a] _ ((has_1d h).2 ⟨i, ha, rfl⟩)

theorem clean_2d {y : Larry L} {rows cols : List L} (h : y.label = [rows, cols])
    (hc : CleanLarry str fmt delim y) : ∀ r ∈ rows2 str fmt y.x rows cols, ∀ f ∈ r, Clean delim f := by
  intro r hr f hf
  obtain ⟨⟨a, i⟩, hp, rfl⟩ := List.mem_map.1 hr
  have ha : rows[i]? = some a := List.mk_mem_zipIdx_iff_getElem?.1 hp
  simp only [List.mem_cons, List.mem_map, List.mem_range] at hf
  rcases hf with rfl | ⟨j, hj, rfl⟩
  · exact hc.1 rows (by rw [h]; simp) a (List.mem_of_getElem? ha)
  · exact hc.2 [a, cols[j]] _ ((has_2d h).2 ⟨i, j, ha, List.getElem?_eq_getElem hj, rfl⟩)

theorem head_text (cols : List Text) (hne : cols ≠ []) :
    delim ++ (joinText delim cols ++ ['\n']) = joinText delim ([] :: cols) ++ ['\n'] := by
  match cols, hne with
  | g :: fs, _ => rw [joinText_two]; simp

/-- The first row of the table: an empty field in the corner, then the column labels.  With no columns
there is one empty field too many. -/
def headRow (cols : List Text) : List Text := if cols = [] then [[], []] else [] :: cols

theorem head_text' (cols : List Text) :
    delim ++ (joinText delim cols ++ ['\n']) = joinText delim (headRow cols) ++ ['\n'] := by
  unfold headRow
  split_ifs with h
  · subst h; simp [joinText]
  · exact head_text cols h

theorem table_2d {y : Larry L} (hy : y.Valid) (hd : Delim delim) (hc : CleanLarry str fmt delim y)
    {rows cols : List L} (h : y.label = [rows, cols]) :
    table delim (y.fileText str fmt delim).1 = headRow (cols.map str) :: rows2 str fmt y.x rows cols := by
  rw [fileText_2d hy h]
  simp only
  rw [head_text']
  have e : joinText delim (headRow (cols.map str)) ++ ['\n'] ++
      ((rows2 str fmt y.x rows cols).flatMap fun r => joinText delim r ++ ['\n']) =
      (headRow (cols.map str) :: rows2 str fmt y.x rows cols).flatMap fun r => joinText delim r ++ ['\n'] := by
    simp
  rw [e]
  apply table_rows hd
  · intro r hr
    rcases List.mem_cons.1 hr with rfl | hr
    · unfold headRow; split_ifs <;> simp
    · obtain ⟨p, -, rfl⟩ := List.mem_map.1 hr
      simp
  · intro r hr f hf
    rcases List.mem_cons.1 hr with rfl | hr
    · have : f = [] ∨ f ∈ cols.map str := by
        unfold headRow at hf
        split_ifs at hf
        · simp at hf; exact .inl hf
        · simpa using hf
      rcases this with rfl | h'
      · exact nil_clean
      · obtain ⟨a, ha, rfl⟩ := List.mem_map.1 h'
        exact hc.1 cols (by rw [h]; simp) a ha
    · exact clean_2d h hc r hr f hf

end Tofile

open Csv (Text)
open Tofile

variable {L : Type _} {str : L → Text} {fmt : Val → Text} {delim : Text}

/-! ## Theorems -/

/-- C79. Any other number of dimensions than 1 and 2 is a ValueError, and then nothing on disk is
touched: no file is made, emptied or written to. -/
theorem C79_refused (file : Target) (y : Larry L) (d : Disk) (h : y.shape.length ≠ 1 ∧ y.shape.length ≠ 2) :
    y.tofile str fmt delim file d = (.error .valueError, d) := by
  unfold Larry.tofile
  rw [if_pos (by rintro (h' | h'); exacts [h.1 h', h.2 h'])]

/-- C79. A 1d or 2d larry is written without exception.  A named file then holds the text and nothing
else, whatever it held before; a file object holds what it held before followed by the text; every
other file and file object is as before.  The text depends on the larry and the delimiter only. -/
theorem C79_written {y : Larry L} (hy : y.Valid) (h : y.shape.length = 1 ∨ y.shape.length = 2) :
    ∃ text, ∀ file d, ∃ d', y.tofile str fmt delim file d = (.ok (), d') ∧
      (∀ s, file = .name s → d'.file s = some text ∧ d'.stream = d.stream ∧
        ∀ s', s' ≠ s → d'.file s' = d.file s') ∧
      (∀ k, file = .stream k → d'.stream k = d.stream k ++ text ∧ d'.file = d.file ∧
        ∀ k', k' ≠ k → d'.stream k' = d.stream k') := by
  refine ⟨(y.fileText str fmt delim).1, fun file d => ⟨d.write file (y.fileText str fmt delim).1, ?_, ?_, ?_⟩⟩
  · unfold Larry.tofile
    rw [if_neg (show ¬¬(y.x.shape.length = 1 ∨ y.x.shape.length = 2) from not_not.2 h)]
    have hl : y.label.length = y.shape.length := by
      show _ = y.x.shape.length
      rw [hy.shape_eq]; simp
    have : (y.fileText str fmt delim).2 = .ok () := by
      match hlab : y.label, hl with
      | [], hl => simp [← hl] at h
      | [rows], _ => rw [fileText_1d hy hlab]
      | [rows, cols], _ => rw [fileText_2d hy hlab]
      | _ :: _ :: _ :: _, hl => simp [← hl] at h
    rw [this]
  · rintro s rfl
    refine ⟨by simp [Disk.write], rfl, fun s' hs => by simp [Disk.write, hs]⟩
  · rintro k rfl
    refine ⟨by simp [Disk.write], rfl, fun s' hs => by simp [Disk.write, hs]⟩

/-- C79. The file of a 1d larry, taken apart at line breaks and delimiters, has one row of two fields
per element, in the order of the labels: the text of the label and the text of the value with that
label. -/
theorem C79_table_1d {y : Larry L} (hy : y.Valid) (hd : Delim delim) (hc : CleanLarry str fmt delim y)
    {rows : List L} (h : y.label = [rows]) {s : String} {d : Disk} :
    ∃ text, (y.tofile str fmt delim (.name s) d).2.file s = some text ∧
      (table delim text).length = rows.length ∧
      (∀ (i : Nat) row, (table delim text)[i]? = some row →
        ∃ r v, rows[i]? = some r ∧ y.Has [r] v ∧ row = [str r, fmt v]) := by
  have hs : y.x.shape = [rows.length] := by rw [hy.shape_eq, h]; rfl
  refine ⟨(y.fileText str fmt delim).1, ?_, ?_⟩
  · unfold Larry.tofile
    rw [if_neg (by rw [hs]; simp)]
    simp [Disk.write]
  · rw [fileText_1d hy h]
    simp only
    rw [table_rows hd (by intro r hr; obtain ⟨p, -, rfl⟩ := List.mem_map.1 hr; simp) (clean_1d h hc)]
    refine ⟨by simp [rows1], fun i row hrow => ?_⟩
    have hi : i < rows.length := by
      have := (List.getElem?_eq_some_iff.1 hrow).1
      simpa [rows1] using this
    have e : rows[i]? = some rows[i] := List.getElem?_eq_getElem hi
    refine ⟨rows[i], y.x.get [i], e, (has_1d h).2 ⟨i, e, rfl⟩, ?_⟩
    simp [rows1, hi] at hrow
    exact hrow.symm

/-- C79. The file of a 2d larry with at least one column, taken apart at line breaks and delimiters, is
a rectangle: a first row with the texts of the column labels behind an empty corner, then one row per
row label beginning with its text.  The rectangle shows exactly the values of the larry, each in its row
and column. -/
theorem C79_table_2d {y : Larry L} (hy : y.Valid) (hd : Delim delim) (hc : CleanLarry str fmt delim y)
    {rows cols : List L} (h : y.label = [rows, cols]) (hne : cols ≠ []) {s : String} {d : Disk} :
    ∃ text, (y.tofile str fmt delim (.name s) d).2.file s = some text ∧
      (table delim text)[0]? = some ([] :: cols.map str) ∧
      ((table delim text).tail.map List.head?) = rows.map (fun r => some (str r)) ∧
      (∀ row ∈ table delim text, row.length = cols.length + 1) ∧
      (∀ r c v, y.Has [r, c] v → Shows (table delim text) (str r) (str c) (fmt v)) ∧
      (∀ r c t, Shows (table delim text) r c t →
        ∃ r' c' v, y.Has [r', c'] v ∧ str r' = r ∧ str c' = c ∧ fmt v = t) := by
  have hs : y.x.shape = [rows.length, cols.length] := by rw [hy.shape_eq, h]; rfl
  refine ⟨(y.fileText str fmt delim).1, ?_, ?_⟩
  · unfold Larry.tofile
    rw [if_neg (by rw [hs]; simp)]
    simp [Disk.write]
  · rw [table_2d hy hd hc h]
    have hh : headRow (cols.map str) = [] :: cols.map str := by
      unfold headRow; rw [if_neg (by simpa using hne)]
    rw [hh]
    have hrow : ∀ i, (rows2 str fmt y.x rows cols)[i]? = (rows[i]?).map fun a =>
        str a :: (List.range cols.length).map fun j => fmt (y.x.get [i, j]) := by
      intro i
      simp [rows2]
      rcases rows[i]? with _ | a <;> simp
    refine ⟨rfl, ?_, ?_, ?_, ?_⟩
    · simp only [List.tail_cons]
      refine List.ext_getElem? fun i => ?_
      rw [List.getElem?_map, List.getElem?_map, hrow]
      rcases rows[i]? with _ | a <;> simp
    · intro row hm
      rcases List.mem_cons.1 hm with rfl | hm
      · simp
      · obtain ⟨p, -, rfl⟩ := List.mem_map.1 hm
        simp
    · intro r c v hv
      obtain ⟨i, j, hi, hj, rfl⟩ := (has_2d h).1 hv
      have hjl := (List.getElem?_eq_some_iff.1 hj).1
      refine ⟨i, j, _, _, (List.getElem?_cons_succ).trans ((hrow i).trans (by rw [hi]; rfl)), rfl, rfl, ?_, ?_⟩
      · simp [hj]
      · simp [hjl]
    · rintro r c t ⟨i, j, row, head, h1, h2, h3, h4, h5⟩
      rw [List.getElem?_cons_succ, hrow] at h1
      obtain ⟨a, ha, rfl⟩ := Option.map_eq_some_iff.1 h1
      simp only [List.getElem?_cons_zero, Option.some.injEq] at h2 h3
      subst h2
      rw [List.getElem?_cons_succ, List.getElem?_map] at h4
      obtain ⟨b, hb, rfl⟩ := Option.map_eq_some_iff.1 h4
      have hjl := (List.getElem?_eq_some_iff.1 hb).1
      refine ⟨a, b, _, (has_2d h).2 ⟨i, j, ha, hb, rfl⟩, h3, rfl, ?_⟩
      rw [List.getElem?_cons_succ] at h5
      simpa [hjl] using h5

/-- C79. With no columns the file still has a row for each row label, but the first row reads as if
there were one column with an empty label. -/
theorem C79_no_columns {y : Larry L} (hy : y.Valid) (hd : Delim delim) (hc : CleanLarry str fmt delim y)
    {rows : List L} (h : y.label = [rows, []]) {s : String} {d : Disk} :
    ∃ text, (y.tofile str fmt delim (.name s) d).2.file s = some text ∧
      table delim text = [[], []] :: rows.map fun r => [str r] := by
  have hs : y.x.shape = [rows.length, 0] := by rw [hy.shape_eq, h]; rfl
  refine ⟨(y.fileText str fmt delim).1, ?_, ?_⟩
  · unfold Larry.tofile
    rw [if_neg (by rw [hs]; simp)]
    simp [Disk.write]
  · rw [table_2d hy hd hc h]
    have : rows2 str fmt y.x rows [] = rows.map fun r => [str r] := by
      refine List.ext_getElem? fun i => ?_
      simp [rows2]
      rcases rows[i]? with _ | a <;> simp
    rw [this]
    rfl

/-- C79. So the file tells 2d larrys apart: two with at least one column and the same file have labels
with the same texts, in the same order, and values with the same texts in the same cells. -/
theorem C79_same_file {y z : Larry L} (hy : y.Valid) (hz : z.Valid) (hd : Delim delim)
    (hcy : CleanLarry str fmt delim y) (hcz : CleanLarry str fmt delim z)
    {rows cols rows' cols' : List L} (h : y.label = [rows, cols]) (h' : z.label = [rows', cols'])
    (hne : cols ≠ []) (hne' : cols' ≠ []) {s : String} {d : Disk}
    (same : (y.tofile str fmt delim (.name s) d).2.file s = (z.tofile str fmt delim (.name s) d).2.file s) :
    rows.map str = rows'.map str ∧ cols.map str = cols'.map str ∧
      ∀ i j, InB y.shape [i, j] → fmt (y.x.get [i, j]) = fmt (z.x.get [i, j]) := by
  have hs : y.x.shape = [rows.length, cols.length] := by rw [hy.shape_eq, h]; rfl
  have hs' : z.x.shape = [rows'.length, cols'.length] := by rw [hz.shape_eq, h']; rfl
  unfold Larry.tofile at same
  rw [if_neg (by rw [hs]; simp), if_neg (by rw [hs']; simp)] at same
  simp only [Disk.write, Function.update_self, Option.some.injEq] at same
  have e := congrArg (table delim) same
  rw [table_2d hy hd hcy h, table_2d hz hd hcz h'] at e
  unfold headRow at e
  rw [if_neg (by simpa using hne), if_neg (by simpa using hne')] at e
  simp only [List.cons.injEq, true_and] at e
  obtain ⟨ec, er⟩ := e
  have hcl : cols.length = cols'.length := by simpa using congrArg List.length ec
  have hrow : ∀ (x : NDArray Val) (rows cols : List L) i, (rows2 str fmt x rows cols)[i]? =
      (rows[i]?).map fun a => str a :: (List.range cols.length).map fun j => fmt (x.get [i, j]) := by
    intro x rows cols i
    simp [rows2]
    rcases rows[i]? with _ | a <;> simp
  have eri := fun i : Nat => congrArg (fun l => l[i]?) er
  simp only [hrow] at eri
  refine ⟨?_, ec, fun i j hij => ?_⟩
  · refine List.ext_getElem? fun i => ?_
    rw [List.getElem?_map, List.getElem?_map]
    have hi := congrArg (Option.map List.head?) (eri i)
    generalize rows[i]? = a at hi
    generalize rows'[i]? = b at hi
    rcases a with _ | a <;> rcases b with _ | b <;> simp at hi ⊢
    exact hi
  · replace hij : InB y.x.shape [i, j] := hij
    rw [hs] at hij
    obtain ⟨hi, hj, -⟩ := hij
    have := eri i
    rw [List.getElem?_eq_getElem hi] at this
    simp only [Option.map_some] at this
    obtain ⟨b, -, hb⟩ := Option.map_eq_some_iff.1 this.symm
    simp only [List.cons.injEq] at hb
    have hj' := congrArg (fun l => l[j]?) hb.2
    simpa [hj, hcl ▸ hj] using hj'.symm

/-! ## Examples and limits -/

/-- Row labels "r1" and "r 2", columns "c1" and an empty text. -/
def exFile : Larry String :=
  ⟨⟨[2, 2], fun idx => .flt (.fin (if idx = [0, 0] then 1 else 2))⟩, .float, [["r1", "r 2"], ["c1", ""]]⟩

/-- `str` for the values of `exFile`. -/
def exStr : Val → Text
  | .flt (.fin q) => if q = 1 then ['1', '.', '0'] else ['2', '.', '0']
  | _ => []

example : exFile.Valid ∧ Delim "::".toList ∧ CleanLarry String.toList exStr "::".toList exFile := by
  refine ⟨⟨by decide, by decide, by decide⟩, ⟨by decide, by decide⟩, ?_, ?_⟩
  · intro l hl b hb
    simp only [exFile, List.mem_cons, List.not_mem_nil, or_false] at hl
    rcases hl with rfl | rfl <;> simp only [List.mem_cons, List.not_mem_nil, or_false] at hb <;>
      rcases hb with rfl | rfl <;> exact ⟨by decide, by decide⟩
  · rintro names v ⟨idx, -, rfl⟩
    simp only [exFile]
    split_ifs
    · exact ⟨by decide +kernel, by decide +kernel⟩
    · exact ⟨by decide +kernel, by decide +kernel⟩

/-- The file of `exFile` with delimiter "::". -/
example : (exFile.fileText String.toList exStr "::".toList).1 =
    "::c1::\nr1::1.0::2.0\nr 2::2.0::2.0\n".toList := by decide +kernel

/-- C79. `tofile` does not quote: a delimiter inside a label makes a field too many. -/
theorem C79_delimiter_in_label :
    table [','] ((⟨⟨[1], fun _ => .flt (.fin 1)⟩, .float, [["a,b"]]⟩ : Larry String).fileText
      String.toList exStr [',']).1 = [["a".toList, "b".toList, "1.0".toList]] := by decide +kernel

/-- C79. The file does not tell the number of dimensions: a 1d larry with one element under an empty
label and a 2d larry with no rows can have the same file. -/
theorem C79_dimensions_lost :
    ((⟨⟨[1], fun _ => .flt (.fin 1)⟩, .float, [[""]]⟩ : Larry String).fileText String.toList exStr [',']).1 =
    ((⟨⟨[0, 1], fun _ => .flt (.fin 1)⟩, .float, [[], ["1.0"]]⟩ : Larry String).fileText
      String.toList exStr [',']).1 := by decide +kernel

end La
