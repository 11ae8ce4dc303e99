import Verif.Csv
import Verif.Flt
import Verif.Props.Flatten

/-!
# C76: a larry written to a csv file is read back
-/

namespace La
namespace Csv

variable {delim : Char}

/-- What is left to read. -/
def R (delim : Char) (m : Reader) (cs : Text) : Res (List (List Text)) :=
  readLines delim m (lines cs)

/-- A row read before the rest. -/
def emit (r : List Text) (x : Res (List (List Text))) : Res (List (List Text)) :=
  match x with
  | .error e => .error e
  | .ok rows => .ok (r :: rows)

theorem R_step {m m' : Reader} {c : Char} {cs : Text} (hc : c ≠ '\n') (hcs : cs ≠ [])
    (h : m.step delim c = .ok m') : R delim m (c :: cs) = R delim m' cs := by
  unfold R
  rw [lines, if_neg hc]
  cases hl : lines cs with
  | nil =>
    exfalso
    match cs, hcs with
    | c' :: cs', _ =>
      rw [lines] at hl
      split_ifs at hl
      split at hl <;> simp at hl
  | cons l ls => simp only [readLines, Reader.line, h]

theorem R_nl {m m' : Reader} {cs : Text} (h : m.step delim '\n' = .ok m') :
    R delim m ('\n' :: cs) =
      if m'.eol.st = .startRecord then emit m'.eol.fields (R delim Reader.init cs)
      else R delim m'.eol cs := by
  unfold R
  rw [lines, if_pos rfl]
  simp only [readLines, Reader.line, h]
  rfl

/-- The text of a field that is read as `f`. -/
def Enc (delim : Char) (f s : Text) : Prop := (s = f ∧ f.any (special delim) = false) ∨ s = quoted f

/-- The delimiters allowed: not a quote, a line break or NUL. -/
def GoodDelim (d : Char) : Prop := d ≠ '"' ∧ d ≠ '\r' ∧ d ≠ '\n' ∧ d ≠ '\x00'

/-- The fields that a csv file can hold: no NUL, and at most 131072 characters. -/
def GoodField (f : Text) : Prop := '\x00' ∉ f ∧ f.length ≤ 131072

theorem not_special {c : Char} (h : special delim c = false) :
    c ≠ delim ∧ c ≠ '"' ∧ c ≠ '\r' ∧ c ≠ '\n' := by
  simpa [special, and_assoc] using h

theorem R_plain {fs : List Text} : ∀ (g f rest : Text), rest ≠ [] →
    (g.any (special delim) = false) → '\x00' ∉ g → (f ++ g).length ≤ 131072 →
    R delim ⟨.inField, f, fs⟩ (g ++ rest) = R delim ⟨.inField, f ++ g, fs⟩ rest
  | [], f, rest, _, _, _, _ => by simp
  | c :: g, f, rest, hr, hs, hn, hl => by
    simp only [List.any_cons, Bool.or_eq_false_iff] at hs
    obtain ⟨h1, h2, h3, h4⟩ := not_special hs.1
    have hn0 : c ≠ '\x00' := fun h => hn (h ▸ List.mem_cons_self)
    have hlt : ¬ f.length ≥ fieldLimit := by
      simp only [List.length_append, List.length_cons] at hl
      unfold fieldLimit; omega
    have : Reader.step delim ⟨.inField, f, fs⟩ c = .ok ⟨.inField, f ++ [c], fs⟩ := by
      simp only [Reader.step, if_neg hn0, h3, h4, or_self, if_false, if_neg h1, Reader.add, if_neg hlt]
    rw [List.cons_append, R_step h4 (by simp [hr]) this,
      R_plain g (f ++ [c]) rest hr hs.2 (fun h => hn (List.mem_cons_of_mem _ h)) (by simpa using hl)]
    simp

theorem R_quoted {fs : List Text} : ∀ (g f rest : Text), rest ≠ [] →
    '\x00' ∉ g → (f ++ g).length ≤ 131072 →
    R delim ⟨.inQuoted, f, fs⟩ (double g ++ '"' :: rest) = R delim ⟨.quoteInQuoted, f ++ g, fs⟩ rest
  | [], f, rest, hr, _, _ => by
    have : Reader.step delim ⟨.inQuoted, f, fs⟩ '"' = .ok ⟨.quoteInQuoted, f, fs⟩ := by
      simp [Reader.step]
    simp only [double, List.nil_append, List.append_nil]
    exact R_step (by decide) hr this
  | c :: g, f, rest, hr, hn, hl => by
    have hn0 : c ≠ '\x00' := fun h => hn (h ▸ List.mem_cons_self)
    have hlt : ¬ f.length ≥ fieldLimit := by
      simp only [List.length_append, List.length_cons] at hl
      unfold fieldLimit; omega
    have ih := R_quoted (fs := fs) g (f ++ [c]) rest hr (fun h => hn (List.mem_cons_of_mem _ h))
      (by simpa using hl)
    rw [show f ++ c :: g = (f ++ [c]) ++ g by simp, ← ih]
    have hne : double g ++ '"' :: rest ≠ [] := by simp
    by_cases hq : c = '"'
    · subst hq
      have h1 : Reader.step delim ⟨.inQuoted, f, fs⟩ '"' = .ok ⟨.quoteInQuoted, f, fs⟩ := by
        simp [Reader.step]
      have h2 : Reader.step delim ⟨.quoteInQuoted, f, fs⟩ '"' = .ok ⟨.inQuoted, f ++ ['"'], fs⟩ := by
        simp only [Reader.step, if_neg hn0, if_true, Reader.add, if_neg hlt]
      rw [double, if_pos rfl, List.cons_append, List.cons_append, R_step (by decide) (by simp) h1,
        R_step (by decide) hne h2]
    · have h1 : Reader.step delim ⟨.inQuoted, f, fs⟩ c = .ok ⟨.inQuoted, f ++ [c], fs⟩ := by
        simp only [Reader.step, if_neg hn0, if_neg hq, Reader.add, if_neg hlt]
      rw [double, if_neg hq, List.cons_append]
      by_cases hc : c = '\n'
      · subst hc
        rw [R_nl h1]
        rfl
      · rw [R_step hc hne h1]

/-- The reader has read the field `f` and waits for a delimiter or the end of the line. -/
inductive Pending (fs : List Text) : Text → Reader → Prop
  | plain (f) : Pending fs f ⟨.inField, f, fs⟩
  | quoted (f) : Pending fs f ⟨.quoteInQuoted, f, fs⟩
  | empty : Pending fs [] ⟨.startField, [], fs⟩

theorem R_field {fs : List Text} {f s rest : Text} (he : Enc delim f s) (hf : GoodField f)
    (hr : rest ≠ []) : ∃ m, Pending fs f m ∧
      R delim ⟨.startField, [], fs⟩ (s ++ rest) = R delim m rest := by
  obtain ⟨hn, hl⟩ := hf
  rcases he with ⟨rfl, hs⟩ | rfl
  · match s, hs, hn, hl with
    | [], _, _, _ => exact ⟨_, .empty, rfl⟩
    | c :: g, hs, hn, hl =>
      refine ⟨_, .plain _, ?_⟩
      simp only [List.any_cons, Bool.or_eq_false_iff] at hs
      obtain ⟨h1, h2, h3, h4⟩ := not_special hs.1
      have hn0 : c ≠ '\x00' := fun h => hn (h ▸ List.mem_cons_self)
      have : Reader.step delim ⟨.startField, [], fs⟩ c = .ok ⟨.inField, [c], fs⟩ := by
        simp only [Reader.step, if_neg hn0, Reader.atField, h3, h4, or_self, if_false, if_neg h1,
          if_neg h2]
        simp [Reader.add, fieldLimit]
      rw [List.cons_append, R_step h4 (by simp [hr]) this,
        R_plain g [c] rest hr hs.2 (fun h => hn (List.mem_cons_of_mem _ h)) (by simpa using hl)]
      rfl
  · refine ⟨_, .quoted _, ?_⟩
    have : Reader.step delim ⟨.startField, [], fs⟩ '"' = .ok ⟨.inQuoted, [], fs⟩ := by
      simp [Reader.step, Reader.atField]
    have e : quoted f ++ rest = '"' :: (double f ++ '"' :: rest) := by simp [quoted]
    rw [e, R_step (by decide) (by simp) this, R_quoted f [] rest hr hn (by simpa using hl)]
    rfl

theorem R_delim {fs : List Text} {f rest : Text} {m : Reader} (hd : GoodDelim delim)
    (hp : Pending fs f m) (hr : rest ≠ []) :
    R delim m (delim :: rest) = R delim ⟨.startField, [], fs ++ [f]⟩ rest := by
  obtain ⟨h1, h2, h3, h4⟩ := hd
  apply R_step h3 hr
  cases hp <;> simp [Reader.step, Reader.atField, Reader.save, h1, h2, h3, h4]

/-- The ends of rows: `\r\n`, and `\n` after translation. -/
def Eol (e : Text) : Prop := e = ['\r', '\n'] ∨ e = ['\n']

theorem R_eol {fs : List Text} {f rest e : Text} {m : Reader} (hd : GoodDelim delim) (he : Eol e)
    (hp : Pending fs f m) :
    R delim m (e ++ rest) = emit (fs ++ [f]) (R delim Reader.init rest) := by
  obtain ⟨h1, h2, h3, h4⟩ := hd
  have hs : ∀ c, c = '\r' ∨ c = '\n' →
      m.step delim c = .ok ⟨.eatCrnl, [], fs ++ [f]⟩ := by
    rintro c (rfl | rfl) <;> cases hp <;>
      simp [Reader.step, Reader.atField, Reader.save, Ne.symm h2, Ne.symm h3]
  rcases he with rfl | rfl
  · have h5 : Reader.step delim ⟨.eatCrnl, [], fs ++ [f]⟩ '\n' = .ok ⟨.eatCrnl, [], fs ++ [f]⟩ := by
      simp [Reader.step]
    rw [List.cons_append, R_step (by decide) (by simp) (hs _ (.inl rfl)), List.cons_append,
      R_nl h5]
    rfl
  · rw [List.cons_append, R_nl (hs _ (.inr rfl))]
    rfl

theorem Eol.ne {e rest : Text} (he : Eol e) : e ++ rest ≠ [] := by
  rcases he with rfl | rfl <;> simp

theorem R_fields (hd : GoodDelim delim) {e rest : Text} (he : Eol e) :
    ∀ {row ss : List Text} (fs : List Text), List.Forall₂ (Enc delim) row ss → row ≠ [] →
      (∀ f ∈ row, GoodField f) →
      R delim ⟨.startField, [], fs⟩ (joinFields delim ss ++ (e ++ rest)) =
        emit (fs ++ row) (R delim Reader.init rest)
  | [], _, _, _, hne, _ => absurd rfl hne
  | [f], _, fs, .cons (b := s) h1 .nil, _, hf => by
    obtain ⟨m, hp, hm⟩ := R_field (fs := fs) h1 (hf f (by simp)) (he.ne (rest := rest))
    rw [joinFields, hm, R_eol hd he hp]
  | f :: f' :: row, _, fs, .cons (b := s) h1 (.cons (b := s') (l₂ := ss) h2 h3), _, hf => by
    have ih := R_fields hd (rest := rest) he (fs ++ [f]) (.cons h2 h3) (by simp)
      (fun g hg => hf g (List.mem_cons_of_mem _ hg))
    have hne : joinFields delim (s' :: ss) ++ (e ++ rest) ≠ [] := by
      intro h
      exact he.ne (List.append_eq_nil_iff.mp h).2
    obtain ⟨m, hp, hm⟩ := R_field (fs := fs) (rest := delim :: (joinFields delim (s' :: ss) ++ (e ++ rest)))
      h1 (hf f (by simp)) (by simp)
    rw [joinFields, List.append_assoc, List.cons_append, hm, R_delim hd hp hne, ih]
    · simp
    · simp

theorem R_start {c : Char} {cs : Text} (h1 : c ≠ '\n') (h2 : c ≠ '\r') (hcs : cs ≠ []) :
    R delim Reader.init (c :: cs) = R delim ⟨.startField, [], []⟩ (c :: cs) := by
  unfold R
  rw [lines, if_neg h1]
  cases hl : lines cs with
  | nil =>
    exfalso
    match cs, hcs with
    | c' :: cs', _ =>
      rw [lines] at hl
      split_ifs at hl
      split at hl <;> simp at hl
  | cons l ls =>
    have : Reader.step delim Reader.init c = Reader.step delim ⟨.startField, [], []⟩ c := by
      simp [Reader.step, Reader.init, h1, h2, Reader.atField, Reader.add, Reader.save]
    simp only [readLines, Reader.line, this]

/-- The text `t` of a row, with its end, that is read as `row`. -/
def EncRow (delim : Char) (row : List Text) (t : Text) : Prop :=
  ∃ ss e, t = joinFields delim ss ++ e ∧ Eol e ∧ List.Forall₂ (Enc delim) row ss ∧ ss ≠ [[]]

theorem joinFields_head (hd : GoodDelim delim) {row ss : List Text} {t : Text} (ht : t ≠ [])
    (h : List.Forall₂ (Enc delim) row ss) (hne : ss ≠ [[]]) (hrow : row ≠ []) :
    ∃ c cs, joinFields delim ss ++ t = c :: cs ∧ c ≠ '\n' ∧ c ≠ '\r' ∧ cs ≠ [] := by
  obtain ⟨-, d2, d3, -⟩ := hd
  cases h with
  | nil => exact absurd rfl hrow
  | @cons f s row ss h1 h2 =>
    rcases h1 with ⟨rfl, hs⟩ | rfl
    · match s, hs with
      | [], _ =>
        match ss, hne with
        | [], hne => exact absurd rfl hne
        | s' :: ss, _ =>
          refine ⟨delim, joinFields delim (s' :: ss) ++ t, by simp [joinFields], d3, d2, by simp [ht]⟩
      | c :: g, hs =>
        simp only [List.any_cons, Bool.or_eq_false_iff] at hs
        obtain ⟨_, _, h3, h4⟩ := not_special hs.1
        match ss with
        | [] => exact ⟨c, g ++ t, by simp [joinFields], h4, h3, by simp [ht]⟩
        | s' :: ss =>
          exact ⟨c, g ++ delim :: joinFields delim (s' :: ss) ++ t, by simp [joinFields], h4, h3,
            by simp⟩
    · match ss with
      | [] => exact ⟨'"', double f ++ ['"'] ++ t, by simp [joinFields, quoted], by decide, by decide,
          by simp⟩
      | s' :: ss =>
        exact ⟨'"', double f ++ ['"'] ++ delim :: joinFields delim (s' :: ss) ++ t,
          by simp [joinFields, quoted], by decide, by decide, by simp⟩

theorem R_row (hd : GoodDelim delim) {row : List Text} {t rest : Text} (h : EncRow delim row t)
    (hf : ∀ f ∈ row, GoodField f) :
    R delim Reader.init (t ++ rest) = emit row (R delim Reader.init rest) := by
  obtain ⟨ss, e, rfl, he, h1, h2⟩ := h
  by_cases hrow : row = []
  · subst hrow
    cases h1
    have a : ∀ c, c = '\r' ∨ c = '\n' → Reader.init.step delim c = .ok ⟨.eatCrnl, [], []⟩ := by
      rintro c (rfl | rfl) <;> simp [Reader.step, Reader.init]
    rcases he with rfl | rfl
    · have h5 : Reader.step delim ⟨.eatCrnl, [], []⟩ '\n' = .ok ⟨.eatCrnl, [], []⟩ := by
        simp [Reader.step]
      simp only [joinFields, List.nil_append, List.cons_append]
      rw [R_step (by decide) (by simp) (a _ (.inl rfl)), R_nl h5]
      rfl
    · simp only [joinFields, List.nil_append, List.cons_append]
      rw [R_nl (a _ (.inr rfl))]
      rfl
  · obtain ⟨c, cs, e1, e2, e3, e4⟩ := joinFields_head hd (he.ne (rest := rest)) h1 h2 hrow
    rw [List.append_assoc, e1, R_start e2 e3 e4, ← e1, R_fields hd he [] h1 hrow hf]
    rfl

theorem R_rows (hd : GoodDelim delim) : ∀ {rows : List (List Text)} {ts : List Text},
    List.Forall₂ (EncRow delim) rows ts → (∀ r ∈ rows, ∀ f ∈ r, GoodField f) →
    R delim Reader.init ts.flatten = .ok rows
  | [], _, .nil, _ => rfl
  | r :: rows, _, .cons (b := t) (l₂ := ts) h1 h2, hf => by
    rw [List.flatten_cons, R_row hd h1 (hf r (by simp)),
      R_rows hd h2 (fun r' h => hf r' (List.mem_cons_of_mem _ h))]
    rfl

theorem writeField_enc (f : Text) : Enc delim f (writeField delim f) := by
  unfold writeField
  split_ifs with h
  · exact .inr rfl
  · exact .inl ⟨rfl, by simpa using h⟩

theorem writeRow_enc (row : List Text) : EncRow delim row (writeRow delim row) := by
  unfold writeRow
  split_ifs with h
  · subst h
    exact ⟨[['"', '"']], ['\r', '\n'], rfl, .inl rfl, .cons (.inr rfl) .nil, by simp⟩
  · refine ⟨row.map (writeField delim), _, rfl, .inl rfl, ?_, ?_⟩
    · rw [List.forall₂_map_right_iff]
      exact List.forall₂_same.mpr fun f _ => writeField_enc f
    · intro h2
      match row, h2 with
      | [], h2 => simp at h2
      | _ :: _ :: _, h2 => simp at h2
      | [f], h2 =>
        have h3 : writeField delim f = [] := by simpa using h2
        unfold writeField at h3
        split_ifs at h3
        · simp [quoted] at h3
        · exact h (by rw [h3])

theorem writeRows_eq (rows : List (List Text)) :
    writeRows delim rows = (rows.map (writeRow delim)).flatten := by
  induction rows with
  | nil => rfl
  | cons r rs ih => simp [writeRows, ih]

/-! ## Line breaks in Python 3 -/

theorem universal_two {c d : Char} (a : Text) (h : ¬ (c = '\r' ∧ d = '\n')) :
    universal (c :: d :: a) = (if c = '\r' then '\n' else c) :: universal (d :: a) := by
  rw [universal.eq_3 _ _ (by intro cs h1 h2; exact h ⟨h1, by simp at h2; exact h2.1⟩)]

theorem double_two (c : Char) (a : Text) (h : c ≠ '"') : double (c :: a) = c :: double a := by
  rw [double, if_neg h]

theorem universal_append : ∀ (a b : Text), b.head? ≠ some '\n' →
    universal (a ++ b) = universal a ++ universal b
  | [], _, _ => by simp [universal]
  | [c], b, hb => by
    by_cases hc : c = '\r'
    · subst hc
      match b, hb with
      | [], _ => simp [universal]
      | d :: b, hb =>
        have : d ≠ '\n' := by simpa using hb
        rw [List.cons_append, List.nil_append, universal.eq_3 _ _ (by simp [this])]
        simp [universal]
    · rw [List.cons_append, List.nil_append, universal.eq_3 _ _ (by simp [hc]),
        universal.eq_3 _ _ (by simp [hc])]
      simp [universal]
  | c :: d :: a, b, hb => by
    by_cases hcd : c = '\r' ∧ d = '\n'
    · obtain ⟨rfl, rfl⟩ := hcd
      simp only [List.cons_append, universal, universal_append a b hb]
    · have ih := universal_append (d :: a) b hb
      rw [universal_two a hcd]
      change _ = _ :: (universal (d :: a) ++ universal b)
      rw [← ih]
      exact universal_two (a ++ b) hcd

theorem universal_plain : ∀ {a : Text}, '\r' ∉ a → universal a = a
  | [], _ => rfl
  | c :: a, h => by
    have hc : c ≠ '\r' := fun e => h (e ▸ List.mem_cons_self)
    rw [universal.eq_3 _ _ (by simp [hc]), if_neg hc,
      universal_plain (fun e => h (List.mem_cons_of_mem _ e))]

theorem universal_cons {c : Char} (a : Text) (hc : c ≠ '\r') : universal (c :: a) = c :: universal a := by
  rw [universal.eq_3 _ _ (by simp [hc]), if_neg hc]

theorem universal_double : ∀ (a : Text), universal (double a) = double (universal a)
  | [] => rfl
  | [c] => by
    by_cases h1 : c = '"'
    · subst h1; rfl
    · by_cases h2 : c = '\r'
      · subst h2; rfl
      · rw [double, if_neg h1, double, universal_cons _ h2]
        simp [universal, double, h1]
  | c :: d :: a => by
    by_cases hcd : c = '\r' ∧ d = '\n'
    · obtain ⟨rfl, rfl⟩ := hcd
      simp [double, universal, universal_double a]
    · have ih := universal_double (d :: a)
      by_cases h1 : c = '"'
      · subst h1
        have e : ∀ x, double ('"' :: x) = '"' :: '"' :: double x := fun x => by rw [double, if_pos rfl]
        rw [e, universal_cons _ (by decide), universal_cons _ (by decide), ih,
          universal_cons (c := '"') _ (by decide), e]
      · have h2 : ¬ (if c = '\r' then '\n' else c) = '"' := by
          split_ifs
          · decide
          · exact h1
        rw [double_two _ _ h1, universal_two a hcd, double_two _ _ h2, ← ih]
        by_cases h3 : d = '"'
        · subst h3
          have e : ∀ x, double ('"' :: x) = '"' :: '"' :: double x := fun x => by
            rw [double, if_pos rfl]
          rw [e, universal_two _ (by simp)]
        · rw [double_two _ _ h3, universal_two _ hcd]

theorem universal_enc {f s : Text} (h : Enc delim f s) : Enc delim (universal f) (universal s) := by
  rcases h with ⟨rfl, h⟩ | rfl
  · have : '\r' ∉ s := by
      intro hm
      have := List.any_eq_false.mp h _ hm
      simp [special] at this
    rw [universal_plain this]
    exact .inl ⟨rfl, h⟩
  · refine .inr ?_
    unfold quoted
    rw [universal_cons _ (by decide), universal_append _ _ (by simp), universal_double]
    rfl

theorem universal_join (hd : GoodDelim delim) (rest : Text) : ∀ ss : List Text,
    universal (joinFields delim ss ++ '\r' :: '\n' :: rest) =
      joinFields delim (ss.map universal) ++ '\n' :: universal rest
  | [] => by simp [joinFields, universal]
  | [s] => by
    simp only [joinFields, List.map_cons, List.map_nil]
    rw [universal_append _ _ (by simp)]
    simp [universal]
  | s :: s' :: ss => by
    have ih := universal_join hd rest (s' :: ss)
    obtain ⟨-, d2, d3, -⟩ := hd
    have e : ∀ (s s' : Text) ss, joinFields delim (s :: s' :: ss) = s ++ delim :: joinFields delim (s' :: ss) :=
      fun s s' ss => by rw [joinFields]; simp
    rw [e, List.append_assoc, universal_append _ _ (by simpa using d3), List.cons_append,
      universal_cons _ d2, ih]
    simp [e]

theorem universal_length : ∀ a : Text, (universal a).length ≤ a.length
  | [] => by simp [universal]
  | [c] => by
    by_cases h : c = '\r'
    · subst h; simp [universal]
    · rw [universal_cons _ h]; simp [universal]
  | c :: d :: a => by
    have h1 := universal_length (d :: a)
    have h2 := universal_length a
    by_cases hcd : c = '\r' ∧ d = '\n'
    · obtain ⟨rfl, rfl⟩ := hcd
      simp only [universal, List.length_cons]; omega
    · rw [universal.eq_3 _ _ (by intro cs h1 h2; exact hcd ⟨h1, by simp at h2; exact h2.1⟩)]
      simp only [List.length_cons] at *; omega

theorem universal_mem : ∀ (a : Text) {c : Char}, c ∈ universal a → c ∈ a ∨ c = '\n'
  | [], c, h => by simp [universal] at h
  | [d], c, h => by
    rw [universal.eq_3 _ _ (by simp)] at h
    split_ifs at h <;> simp [universal] at h <;> simp [h]
  | d :: e :: a, c, h => by
    by_cases hcd : d = '\r' ∧ e = '\n'
    · obtain ⟨rfl, rfl⟩ := hcd
      rw [universal] at h
      rcases List.mem_cons.mp h with h | h
      · exact .inr h
      · exact (universal_mem a h).imp (fun h => by simp [h]) id
    · rw [universal.eq_3 _ _ (by intro cs h1 h2; exact hcd ⟨h1, by simp at h2; exact h2.1⟩)] at h
      rcases List.mem_cons.mp h with h | h
      · split_ifs at h
        · exact .inr h
        · simp [h]
      · exact (universal_mem (e :: a) h).imp (fun h => List.mem_cons_of_mem _ h) id

theorem universal_good {f : Text} (h : GoodField f) : GoodField (universal f) :=
  ⟨fun hm => (universal_mem f hm).elim h.1 (by decide), (universal_length f).trans h.2⟩

theorem universal_rows (hd : GoodDelim delim) : ∀ rows : List (List Text),
    ∃ ts, List.Forall₂ (EncRow delim) (rows.map (List.map universal)) ts ∧
      universal (writeRows delim rows) = ts.flatten
  | [] => ⟨[], .nil, rfl⟩
  | r :: rows => by
    obtain ⟨ts, h1, h2⟩ := universal_rows hd rows
    have key : ∃ ss, writeRow delim r = joinFields delim ss ++ ['\r', '\n'] ∧
        List.Forall₂ (Enc delim) r ss ∧ ss ≠ [[]] := by
      unfold writeRow
      split_ifs with h
      · subst h
        exact ⟨[['"', '"']], rfl, .cons (.inr rfl) .nil, by simp⟩
      · obtain ⟨ss, e, h1, h2, h3, h4⟩ := writeRow_enc (delim := delim) r
        refine ⟨r.map (writeField delim), rfl, ?_, ?_⟩
        · rw [List.forall₂_map_right_iff]
          exact List.forall₂_same.mpr fun f _ => writeField_enc f
        · intro h2
          match r, h2 with
          | [], h2 => simp at h2
          | _ :: _ :: _, h2 => simp at h2
          | [f], h2 =>
            have h3 : writeField delim f = [] := by simpa using h2
            unfold writeField at h3
            split_ifs at h3
            · simp [quoted] at h3
            · exact h (by rw [h3])
    obtain ⟨ss, e1, e2, e3⟩ := key
    refine ⟨(joinFields delim (ss.map universal) ++ ['\n']) :: ts, .cons ?_ h1, ?_⟩
    · refine ⟨ss.map universal, ['\n'], rfl, .inr rfl, ?_, ?_⟩
      · rw [List.forall₂_map_left_iff, List.forall₂_map_right_iff]
        exact e2.imp fun _ _ h => universal_enc h
      · intro h
        match ss, h, e2, e3 with
        | [], h, _, _ => simp at h
        | _ :: _ :: _, h, _, _ => simp at h
        | [s], h, .cons he _, hne =>
          have h3 : universal s = [] := by simpa using h
          match s, h3 with
          | [], _ => exact hne rfl
          | [c], h3 => rw [universal.eq_3 _ _ (by simp)] at h3; simp at h3
          | c :: d :: s, h3 =>
            by_cases hcd : c = '\r' ∧ d = '\n'
            · obtain ⟨rfl, rfl⟩ := hcd
              simp [universal] at h3
            · rw [universal.eq_3 _ _ (by
                intro cs h1 h2; exact hcd ⟨h1, by simp at h2; exact h2.1⟩)] at h3
              simp at h3
    · rw [writeRows, e1, List.append_assoc]
      simp only [List.cons_append, List.nil_append]
      rw [universal_join hd, h2]
      simp

/-! ## Files -/

/-- C76. The rows written to a csv file, with any fields that have no NUL and at most 131072
characters, are the rows read from it: exactly in Python 2, and in Python 3 with every `\r\n` and `\r`
of a field replaced by `\n`. -/
theorem C76_rows (py3 : Bool) (hd : GoodDelim delim) {rows : List (List Text)}
    (hf : ∀ r ∈ rows, ∀ f ∈ r, GoodField f) :
    readRows py3 delim (writeRows delim rows) =
      .ok (if py3 then rows.map (List.map universal) else rows) := by
  cases py3
  · have h := R_rows hd (rows := rows) (ts := rows.map (writeRow delim)) (by
      rw [List.forall₂_map_right_iff]
      exact List.forall₂_same.mpr fun f _ => writeRow_enc f) hf
    rw [← writeRows_eq] at h
    simpa [readRows, opened, R] using h
  · obtain ⟨ts, h1, h2⟩ := universal_rows hd rows
    have h := R_rows hd h1 (by
      intro r hr f hf'
      obtain ⟨r', hr', rfl⟩ := List.mem_map.mp hr
      obtain ⟨f', hf'', rfl⟩ := List.mem_map.mp hf'
      exact universal_good (hf r' hr' f' hf''))
    rw [← h2] at h
    simpa [readRows, opened, R] using h

/-- C76. Without `\r` in the fields (or in Python 2) the rows read are the rows written. -/
theorem C76_rows_exact (py3 : Bool) (hd : GoodDelim delim) {rows : List (List Text)}
    (hf : ∀ r ∈ rows, ∀ f ∈ r, GoodField f) (hr : py3 = true → ∀ r ∈ rows, ∀ f ∈ r, '\r' ∉ f) :
    readRows py3 delim (writeRows delim rows) = .ok rows := by
  rw [C76_rows py3 hd hf]
  cases py3
  · rfl
  · have : rows.map (List.map universal) = rows := by
      conv_rhs => rw [← List.map_id rows]
      apply List.map_congr_left
      intro r h
      conv_rhs => rw [id, ← List.map_id r]
      exact List.map_congr_left fun f hf' => universal_plain (hr rfl r h f hf')
    simp [this]

/-! ## Files that end early -/

theorem R_rows_rest (hd : GoodDelim delim) (rest : Text) {rest' : List (List Text)}
    (hr : R delim Reader.init rest = .ok rest') : ∀ {rows : List (List Text)} {ts : List Text},
    List.Forall₂ (EncRow delim) rows ts → (∀ r ∈ rows, ∀ f ∈ r, GoodField f) →
    R delim Reader.init (ts.flatten ++ rest) = .ok (rows ++ rest')
  | [], _, .nil, _ => by simpa using hr
  | r :: rows, _, .cons (b := t) (l₂ := ts) h1 h2, hf => by
    rw [List.flatten_cons, List.append_assoc, R_row hd h1 (hf r (by simp)),
      R_rows_rest hd rest hr h2 (fun r' h => hf r' (List.mem_cons_of_mem _ h))]
    rfl

/-- Rows followed by text that starts no new line break. -/
theorem readRows_rest (py3 : Bool) (hd : GoodDelim delim) {rows : List (List Text)}
    (hf : ∀ r ∈ rows, ∀ f ∈ r, GoodField f) (hr : py3 = true → ∀ r ∈ rows, ∀ f ∈ r, '\r' ∉ f) {rest : Text}
    (hh : rest.head? ≠ some '\n') (hp : py3 = true → '\r' ∉ rest) {rest' : List (List Text)}
    (h : R delim Reader.init rest = .ok rest') :
    readRows py3 delim (writeRows delim rows ++ rest) = .ok (rows ++ rest') := by
  cases py3
  · have h := R_rows_rest hd rest h (rows := rows) (ts := rows.map (writeRow delim)) (by
      rw [List.forall₂_map_right_iff]
      exact List.forall₂_same.mpr fun f _ => writeRow_enc f) hf
    rw [← writeRows_eq] at h
    simpa [readRows, opened, R] using h
  · obtain ⟨ts, h1, h2⟩ := universal_rows hd rows
    have e : rows.map (List.map universal) = rows := by
      conv_rhs => rw [← List.map_id rows]
      apply List.map_congr_left
      intro r h
      conv_rhs => rw [id, ← List.map_id r]
      exact List.map_congr_left fun f hf' => universal_plain (hr rfl r h f hf')
    rw [e] at h1
    have h := R_rows_rest hd rest h h1 hf
    rw [← h2, ← universal_plain (hp rfl), ← universal_append _ _ hh] at h
    simpa [readRows, opened, R] using h

theorem line_plain {fs : List Text} : ∀ (g f rest : Text),
    (g.any (special delim) = false) → '\x00' ∉ g → (f ++ g).length ≤ 131072 →
    Reader.line delim ⟨.inField, f, fs⟩ (g ++ rest) = Reader.line delim ⟨.inField, f ++ g, fs⟩ rest
  | [], f, rest, _, _, _ => by simp
  | c :: g, f, rest, hs, hn, hl => by
    simp only [List.any_cons, Bool.or_eq_false_iff] at hs
    obtain ⟨h1, h2, h3, h4⟩ := not_special hs.1
    have hn0 : c ≠ '\x00' := fun h => hn (h ▸ List.mem_cons_self)
    have hlt : ¬ f.length ≥ fieldLimit := by
      simp only [List.length_append, List.length_cons] at hl
      unfold fieldLimit; omega
    have : Reader.step delim ⟨.inField, f, fs⟩ c = .ok ⟨.inField, f ++ [c], fs⟩ := by
      simp only [Reader.step, if_neg hn0, h3, h4, or_self, if_false, if_neg h1, Reader.add, if_neg hlt]
    simp only [List.cons_append, Reader.line, this]
    rw [line_plain g (f ++ [c]) rest hs.2 (fun h => hn (List.mem_cons_of_mem _ h)) (by simpa using hl)]
    simp

theorem line_quoted {fs : List Text} : ∀ (g f rest : Text),
    '\x00' ∉ g → (f ++ g).length ≤ 131072 →
    Reader.line delim ⟨.inQuoted, f, fs⟩ (double g ++ '"' :: rest) =
      Reader.line delim ⟨.quoteInQuoted, f ++ g, fs⟩ rest
  | [], f, rest, _, _ => by
    simp [double, Reader.line, Reader.step]
  | c :: g, f, rest, hn, hl => by
    have hn0 : c ≠ '\x00' := fun h => hn (h ▸ List.mem_cons_self)
    have hlt : ¬ f.length ≥ fieldLimit := by
      simp only [List.length_append, List.length_cons] at hl
      unfold fieldLimit; omega
    have ih := line_quoted (fs := fs) g (f ++ [c]) rest (fun h => hn (List.mem_cons_of_mem _ h))
      (by simpa using hl)
    rw [show f ++ c :: g = (f ++ [c]) ++ g by simp, ← ih]
    by_cases hq : c = '"'
    · subst hq
      have h1 : Reader.step delim ⟨.inQuoted, f, fs⟩ '"' = .ok ⟨.quoteInQuoted, f, fs⟩ := by
        simp [Reader.step]
      have h2 : Reader.step delim ⟨.quoteInQuoted, f, fs⟩ '"' = .ok ⟨.inQuoted, f ++ ['"'], fs⟩ := by
        simp only [Reader.step, if_neg hn0, if_true, Reader.add, if_neg hlt]
      simp only [double, if_true, List.cons_append, Reader.line, h1, h2]
    · have h1 : Reader.step delim ⟨.inQuoted, f, fs⟩ c = .ok ⟨.inQuoted, f ++ [c], fs⟩ := by
        simp only [Reader.step, if_neg hn0, if_neg hq, Reader.add, if_neg hlt]
      simp only [double, if_neg hq, List.cons_append, Reader.line, h1]

theorem line_field {fs : List Text} {f s : Text} (rest : Text) (he : Enc delim f s) (hf : GoodField f) :
    ∃ m, Pending fs f m ∧ Reader.line delim ⟨.startField, [], fs⟩ (s ++ rest) = Reader.line delim m rest := by
  obtain ⟨hn, hl⟩ := hf
  rcases he with ⟨rfl, hs⟩ | rfl
  · match s, hs, hn, hl with
    | [], _, _, _ => exact ⟨_, .empty, rfl⟩
    | c :: g, hs, hn, hl =>
      refine ⟨_, .plain _, ?_⟩
      simp only [List.any_cons, Bool.or_eq_false_iff] at hs
      obtain ⟨h1, h2, h3, h4⟩ := not_special hs.1
      have hn0 : c ≠ '\x00' := fun h => hn (h ▸ List.mem_cons_self)
      have : Reader.step delim ⟨.startField, [], fs⟩ c = .ok ⟨.inField, [c], fs⟩ := by
        simp only [Reader.step, if_neg hn0, Reader.atField, h3, h4, or_self, if_false, if_neg h1,
          if_neg h2]
        simp [Reader.add, fieldLimit]
      simp only [List.cons_append, Reader.line, this]
      rw [line_plain g [c] rest hs.2 (fun h => hn (List.mem_cons_of_mem _ h)) (by simpa using hl)]
      rfl
  · refine ⟨_, .quoted _, ?_⟩
    have : Reader.step delim ⟨.startField, [], fs⟩ '"' = .ok ⟨.inQuoted, [], fs⟩ := by
      simp [Reader.step, Reader.atField]
    have e : quoted f ++ rest = '"' :: (double f ++ '"' :: rest) := by simp [quoted]
    rw [e]
    simp only [Reader.line, this]
    rw [line_quoted f [] rest hn (by simpa using hl)]
    rfl

theorem line_delim {fs : List Text} {f rest : Text} {m : Reader} (hd : GoodDelim delim)
    (hp : Pending fs f m) :
    Reader.line delim m (delim :: rest) = Reader.line delim ⟨.startField, [], fs ++ [f]⟩ rest := by
  obtain ⟨h1, h2, h3, h4⟩ := hd
  have : m.step delim delim = .ok ⟨.startField, [], fs ++ [f]⟩ := by
    cases hp <;> simp [Reader.step, Reader.atField, Reader.save, h1, h2, h3, h4]
  simp only [Reader.line, this]

theorem line_fields (hd : GoodDelim delim) :
    ∀ {row ss : List Text} (fs : List Text), List.Forall₂ (Enc delim) row ss → row ≠ [] →
      (∀ f ∈ row, GoodField f) →
      Reader.line delim ⟨.startField, [], fs⟩ (joinFields delim ss) = .ok ⟨.startRecord, [], fs ++ row⟩
  | [], _, _, _, hne, _ => absurd rfl hne
  | [f], _, fs, .cons (b := s) h1 .nil, _, hf => by
    obtain ⟨m, hp, hm⟩ := line_field (fs := fs) [] h1 (hf f (by simp))
    rw [List.append_nil] at hm
    rw [joinFields, hm]
    cases hp <;> rfl
  | f :: f' :: row, _, fs, .cons (b := s) h1 (.cons (b := s') (l₂ := ss) h2 h3), _, hf => by
    have ih := line_fields hd (fs ++ [f]) (.cons h2 h3) (by simp) (fun g hg => hf g (List.mem_cons_of_mem _ hg))
    obtain ⟨m, hp, hm⟩ := line_field (fs := fs) (delim :: joinFields delim (s' :: ss)) h1 (hf f (by simp))
    rw [joinFields]
    · rw [show s ++ delim :: joinFields delim (s' :: ss) = s ++ (delim :: joinFields delim (s' :: ss)) from rfl,
        hm, line_delim hd hp, ih]
      simp
    · simp

theorem lines_one : ∀ {t : Text}, t ≠ [] → '\n' ∉ t → lines t = [t]
  | [], h, _ => absurd rfl h
  | [c], _, h => by
    have : c ≠ '\n' := fun e => h (by simp [e])
    simp [lines, this]
  | c :: d :: t, _, h => by
    have : c ≠ '\n' := fun e => h (by simp [e])
    have ih := lines_one (t := d :: t) (by simp) (fun e => h (List.mem_cons_of_mem _ e))
    rw [lines, if_neg this, ih]

/-- C76. The last row of a file needs no line break behind it: when its fields have no line breaks (and it is
not the row of one empty field, which is then nothing at all) it is read like the others. -/
theorem C76_no_final_break (py3 : Bool) (hd : GoodDelim delim) {rows : List (List Text)}
    (hf : ∀ r ∈ rows, ∀ f ∈ r, GoodField f) (hr : py3 = true → ∀ r ∈ rows, ∀ f ∈ r, '\r' ∉ f)
    {row ss : List Text} (hrow : row ≠ []) (hg : ∀ f ∈ row, GoodField f)
    (he : List.Forall₂ (Enc delim) row ss) (hne : ss ≠ [[]]) (hnl : '\n' ∉ joinFields delim ss)
    (hcr : '\r' ∉ joinFields delim ss) :
    readRows py3 delim (writeRows delim rows ++ joinFields delim ss) = .ok (rows ++ [row]) := by
  have hj : joinFields delim ss ≠ [] := by
    intro h
    match ss, h, hne, he with
    | [], _, _, .nil => exact hrow rfl
    | [s], h, hne, _ => simp only [joinFields] at h; exact hne (by rw [h])
    | s :: s' :: ss, h, _, _ =>
      rw [joinFields] at h
      · simp at h
      · simp
  obtain ⟨c', cs', ej⟩ := List.exists_cons_of_ne_nil hj
  have e2' : c' ≠ '\n' := fun h => hnl (by rw [ej, h]; simp)
  have e3' : c' ≠ '\r' := fun h => hcr (by rw [ej, h]; simp)
  refine readRows_rest py3 hd hf hr (by rw [ej]; simpa using e2') (fun _ => hcr) ?_
  unfold R
  rw [lines_one hj hnl]
  have hl : Reader.init.line delim (joinFields delim ss) = .ok ⟨.startRecord, [], row⟩ := by
    have h0 := line_fields hd [] he hrow hg
    rw [List.nil_append] at h0
    rw [← h0, ej]
    have : Reader.step delim Reader.init c' = Reader.step delim ⟨.startField, [], []⟩ c' := by
      simp [Reader.step, Reader.init, e2', e3', Reader.atField, Reader.add, Reader.save]
    simp only [Reader.line, this]
  simp only [readLines, hl, if_true]
  simp [Reader.init]

theorem R_open {fs : List Text} : ∀ (g f : Text), g ≠ [] → '"' ∉ g → '\x00' ∉ g → (f ++ g).length ≤ 131072 →
    R delim ⟨.inQuoted, f, fs⟩ g = .ok [fs ++ [f ++ g]]
  | [], f, h, _, _, _ => absurd rfl h
  | c :: g, f, _, hq, hn, hl => by
    have hn0 : c ≠ '\x00' := fun h => hn (h ▸ List.mem_cons_self)
    have hq0 : c ≠ '"' := fun h => hq (h ▸ List.mem_cons_self)
    have hlt : ¬ f.length ≥ fieldLimit := by
      simp only [List.length_append, List.length_cons] at hl
      unfold fieldLimit; omega
    have h1 : Reader.step delim ⟨.inQuoted, f, fs⟩ c = .ok ⟨.inQuoted, f ++ [c], fs⟩ := by
      simp only [Reader.step, if_neg hn0, if_neg hq0, Reader.add, if_neg hlt]
    by_cases hg : g = []
    · subst hg
      by_cases hc : c = '\n'
      · subst hc
        rw [R_nl h1]
        simp [Reader.eol, R, lines, readLines, Reader.save]
      · simp [R, lines, hc, readLines, Reader.line, h1, Reader.eol, Reader.save]
    · have ih := R_open (fs := fs) g (f ++ [c]) hg (fun h => hq (List.mem_cons_of_mem _ h))
        (fun h => hn (List.mem_cons_of_mem _ h)) (by simpa using hl)
      rw [show f ++ c :: g = (f ++ [c]) ++ g by simp, ← ih]
      by_cases hc : c = '\n'
      · subst hc
        rw [R_nl h1]
        rfl
      · rw [R_step hc hg h1]

theorem R_open_field (hd : GoodDelim delim) {t : Text} (ht : t ≠ []) (hq : '"' ∉ t) (hg : GoodField t) :
    ∀ {row ss : List Text} (fs : List Text), List.Forall₂ (Enc delim) row ss → (∀ f ∈ row, GoodField f) →
      R delim ⟨.startField, [], fs⟩ ((ss.map (fun s => s ++ [delim])).flatten ++ '"' :: t) =
        .ok [fs ++ row ++ [t]]
  | [], _, fs, .nil, _ => by
    have : Reader.step delim ⟨.startField, [], fs⟩ '"' = .ok ⟨.inQuoted, [], fs⟩ := by
      simp [Reader.step, Reader.atField]
    rw [List.map_nil, List.flatten_nil, List.nil_append, R_step (by decide) ht this,
      R_open t [] ht hq hg.1 (by simpa using hg.2)]
    simp
  | f :: row, _, fs, .cons (b := s) (l₂ := ss) h1 h2, hf => by
    have ih := R_open_field hd ht hq hg (fs ++ [f]) h2 (fun g hg => hf g (List.mem_cons_of_mem _ hg))
    have e : (((s :: ss).map (fun s => s ++ [delim])).flatten ++ '"' :: t) =
        s ++ delim :: ((ss.map (fun s => s ++ [delim])).flatten ++ '"' :: t) := by simp
    obtain ⟨m, hp, hm⟩ := R_field (fs := fs) (rest := delim :: ((ss.map (fun s => s ++ [delim])).flatten ++ '"' :: t))
      h1 (hf f (by simp)) (by simp)
    rw [e, hm, R_delim hd hp (by simp), ih]
    simp

/-- C76. A quote that opens a field and is never closed swallows the rest of the file, line breaks and
delimiters included, into that one field, and no exception is raised. -/
theorem C76_unclosed_quote (py3 : Bool) (hd : GoodDelim delim) {rows : List (List Text)}
    (hf : ∀ r ∈ rows, ∀ f ∈ r, GoodField f) (hr : py3 = true → ∀ r ∈ rows, ∀ f ∈ r, '\r' ∉ f)
    {row ss : List Text} (hg : ∀ f ∈ row, GoodField f) (he : List.Forall₂ (Enc delim) row ss)
    (hcr : ∀ s ∈ ss, '\r' ∉ s) {t : Text} (ht : t ≠ []) (hq : '"' ∉ t) (hgt : GoodField t)
    (htr : py3 = true → '\r' ∉ t) :
    readRows py3 delim (writeRows delim rows ++ ((ss.map (fun s => s ++ [delim])).flatten ++ '"' :: t)) =
      .ok (rows ++ [row ++ [t]]) := by
  obtain ⟨d1, d2, d3, d4⟩ := hd
  have hd : GoodDelim delim := ⟨d1, d2, d3, d4⟩
  have hhead : ∃ c cs, (ss.map (fun s => s ++ [delim])).flatten ++ '"' :: t = c :: cs ∧ c ≠ '\n' ∧ c ≠ '\r' ∧
      cs ≠ [] := by
    cases he with
    | nil => exact ⟨'"', t, by simp, by decide, by decide, ht⟩
    | @cons f s row ss h1 h2 =>
      match s, h1 with
      | [], _ => exact ⟨delim, _, by simp; rfl, d3, d2, by simp⟩
      | c :: s, h1 =>
        refine ⟨c, _, by simp; rfl, ?_, fun h => hcr (c :: s) (by simp) (by simp [h]), by simp⟩
        rcases h1 with ⟨h1, h3⟩ | h1
        · rw [← h1] at h3
          simp only [List.any_cons, Bool.or_eq_false_iff] at h3
          exact (not_special h3.1).2.2.2
        · simp only [quoted, List.cons.injEq] at h1
          rw [h1.1]; decide
  obtain ⟨c, cs, e1, e2, e3, e4⟩ := hhead
  refine readRows_rest py3 hd hf hr (by rw [e1]; simpa using e2) (fun h => ?_) ?_
  · intro hm
    rw [List.mem_append] at hm
    rcases hm with hm | hm
    · obtain ⟨x, hx, hm⟩ := List.mem_flatten.mp hm
      obtain ⟨s, hs, rfl⟩ := List.mem_map.mp hx
      rcases List.mem_append.mp hm with hm | hm
      · exact hcr s hs hm
      · exact d2 (List.mem_singleton.mp hm).symm
    · rcases List.mem_cons.mp hm with hm | hm
      · exact absurd hm (by decide)
      · exact htr h hm
  · rw [e1, R_start e2 e3 e4, ← e1, R_open_field hd ht hq hgt [] he hg]
    simp

/-- The rest of a file behind a stray quote: `a,1\r\n"b,2\r\nc,3\r\n` has two rows, the second of one field. -/
example : readRows false ',' "a,1\r\n\"b,2\r\nc,3\r\n".toList =
    .ok [["a".toList, "1".toList], ["b,2\r\nc,3\r\n".toList]] := by decide +kernel

example : readRows false ',' "a,1\r\nb,2".toList = .ok [["a".toList, "1".toList], ["b".toList, "2".toList]] := by
  decide +kernel

end Csv

open Csv Larry

variable {L : Type _} {delim : Char}

/-- Text that `tocsv` followed by `fromcsv` keeps: no NUL, at most 131072 characters, and in Python 3
no `\r`. -/
def KeptText (py3 : Bool) (f : Text) : Prop := GoodField f ∧ (py3 = true → '\r' ∉ f)

/-- `z` is what is read from the csv file of `y`: the labels became text (sorted), the values floats,
and every value is still in the cell with the same names. -/
structure ReadBack (str : L → Text) (y : Larry L) (z : Larry Text) : Prop where
  valid : z.Valid
  dtype_eq : z.dtype = .float
  naxes : z.label.length = y.label.length
  labels : ∀ (k : Nat) l l', y.label[k]? = some l → z.label[k]? = some l' →
    l'.Perm (l.map str) ∧ l'.Pairwise (· < ·)
  has : ∀ names v, z.Has names v ↔ ∃ ns w, names = ns.map str ∧ y.Has ns w ∧ v = w.toFloat

theorem At_map {L M : Type _} (g : L → M) : ∀ {label : List (List L)} {idx : List Nat} {names : List M},
    At (label.map (List.map g)) idx names ↔ ∃ ns, names = ns.map g ∧ At label idx ns
  | [], [], [] => by simp [At]
  | [], [], _ :: _ => by
    simp only [At, List.map_nil, false_iff, not_exists, not_and]
    intro ns h
    match ns with
    | [] => simp at h
    | _ :: _ => simp [At]
  | [], _ :: _, _ => by simp [At]
  | _ :: _, [], _ => by simp [At]
  | _ :: _, _ :: _, [] => by
    simp only [At, List.map_cons, false_iff, not_exists, not_and]
    intro ns h
    match ns with
    | [] => simp [At]
    | _ :: _ => simp at h
  | l :: ls, i :: is, n :: ns => by
    simp only [List.map_cons, At, List.getElem?_map, Option.map_eq_some_iff]
    rw [At_map g]
    constructor
    · rintro ⟨⟨a, h1, h2⟩, ms, rfl, h3⟩
      exact ⟨a :: ms, by simp [h2], h1, h3⟩
    · rintro ⟨ms, h1, h2⟩
      match ms, h2 with
      | a :: ms, h2 =>
        simp only [List.map_cons, List.cons.injEq] at h1
        exact ⟨⟨a, h2.1, h1.1.symm⟩, ms, h1.2, h2.2⟩

theorem mapRes_map {α β γ : Type _} {f : β → Res γ} {g : α → β} {h : α → γ} :
    ∀ {l : List α}, (∀ a ∈ l, f (g a) = .ok (h a)) → mapRes f (l.map g) = .ok (l.map h)
  | [], _ => rfl
  | a :: l, ha => by
    have ih := mapRes_map (l := l) (fun b hb => ha b (List.mem_cons_of_mem _ hb))
    simp [mapRes, ha a (by simp), ih]

theorem min_const {m : Nat} : ∀ {l : List Nat}, l ≠ [] → (∀ a ∈ l, a = m) → l.min? = some m
  | [], h, _ => absurd rfl h
  | a :: l, _, h => by
    have ha := h a (by simp)
    subst ha
    rw [List.min?_cons']
    congr 1
    have : ∀ l : List Nat, (∀ b ∈ l, b = a) → l.foldl min a = a := by
      intro l
      induction l with
      | nil => intro _; rfl
      | cons b l ih =>
        intro h
        rw [List.foldl_cons, h b (by simp), Nat.min_self]
        exact ih fun c hc => h c (List.mem_cons_of_mem _ hc)
    exact this l fun b hb => h b (List.mem_cons_of_mem _ hb)

theorem tocsv_rows (py3 : Bool) (hd : GoodDelim delim) {str : L → Text} {fmt : Val → Text}
    {y : Larry L} (hv : y.Valid) (ht : y.Typed)
    (hdt : y.dtype = .float ∨ y.dtype = .int ∨ y.dtype = .bool) (hsz : 0 < y.shape.prod)
    (hlab : ∀ l ∈ y.label, ∀ b ∈ l, KeptText py3 (str b))
    (hval : ∀ names v, y.Has names v → KeptText py3 (fmt v)) :
    ∃ rows : List (List L × Val), rows ≠ [] ∧ (∀ r ∈ rows, r.1.length = y.label.length) ∧
      (∀ names v, (names, v) ∈ rows ↔ y.Has names v) ∧ (∀ r ∈ rows, r.2.isNumber = true) ∧
      y.tocsv str fmt delim = .ok (writeRows delim (rows.map (csvRow str fmt))) ∧
      readRows py3 delim (writeRows delim (rows.map (csvRow str fmt))) =
        .ok (rows.map (csvRow str fmt)) := by
  obtain ⟨f, ts, h1, h2, h3, h4, h5, h6, h7, h8, _, h9⟩ :=
    cells_of_flatten hv ht hdt (order := "C") (.inl rfl) hsz
  set rows := ts.zip f.x.tolist1 with hrows
  have hne : rows ≠ [] := by
    intro h
    have := congrArg List.length h
    simp only [hrows, List.length_zip, h7, Nat.min_self, List.length_nil, List.length_eq_zero_iff] at this
    exact h5 this
  have hlen : ∀ r ∈ rows, r.1.length = y.label.length := fun r hr => h6 r.1 (List.of_mem_zip hr).1
  have hhas : ∀ r ∈ rows, y.Has r.1 r.2 := fun r hr => (h9 r.1 r.2).mp hr
  have hwr : y.tocsv str fmt delim = .ok (writeRows delim (rows.map (csvRow str fmt))) := by
    simp [tocsv, totuples, h1, h2, hrows]
  have hname : ∀ r ∈ rows, ∀ b ∈ r.1, ∃ l ∈ y.label, b ∈ l := by
    intro r hr b hb
    obtain ⟨idx, hat, -⟩ := hhas r hr
    have : ∀ {label : List (List L)} {idx : List Nat} {ns : List L}, At label idx ns → b ∈ ns →
        ∃ l ∈ label, b ∈ l := by
      intro label
      induction label with
      | nil => intro idx ns h hm; cases idx <;> cases ns <;> simp_all [At]
      | cons l ls ih =>
        intro idx ns h hm
        match idx, ns, h with
        | i :: is, n :: ns, h =>
          rcases List.mem_cons.mp hm with rfl | hm
          · exact ⟨l, by simp, List.mem_of_getElem? h.1⟩
          · obtain ⟨l', h1, h2⟩ := ih h.2 hm
            exact ⟨l', List.mem_cons_of_mem _ h1, h2⟩
    exact this hat hb
  have hkept : ∀ r ∈ rows.map (csvRow str fmt), ∀ g ∈ r, KeptText py3 g := by
    intro r hr g hg
    obtain ⟨r', hr', rfl⟩ := List.mem_map.mp hr
    rcases List.mem_append.mp hg with hg | hg
    · obtain ⟨b, hb, rfl⟩ := List.mem_map.mp hg
      obtain ⟨l, hl, hbl⟩ := hname r' hr' b hb
      exact hlab l hl b hbl
    · rw [List.mem_singleton] at hg
      subst hg
      exact hval _ _ (hhas r' hr')
  have hread := C76_rows_exact py3 hd (rows := rows.map (csvRow str fmt))
    (fun r hr g hg => (hkept r hr g hg).1) (fun hp r hr g hg => (hkept r hr g hg).2 hp)
  exact ⟨rows, hne, hlen, h9, fun r hr => h8 r.2 (List.of_mem_zip hr).2, hwr, hread⟩

/-- C76. A larry of ints or floats with at least one element, written by `tocsv` and read by
`fromcsv`, comes back with its labels as text in sorted order and its values as floats, whatever
characters the labels contain: delimiters, quotes and line breaks included. -/
theorem C76_roundtrip (py3 : Bool) (hd : GoodDelim delim) {str : L → Text} {fmt : Val → Text}
    {parse : Text → Option Flt} {y : Larry L} (hv : y.Valid) (ht : y.Typed)
    (hdt : y.dtype = .float ∨ y.dtype = .int) (hsz : 0 < y.shape.prod)
    (hlab : ∀ l ∈ y.label, ∀ b ∈ l, KeptText py3 (str b))
    (hinj : ∀ l ∈ y.label, ∀ a ∈ l, ∀ b ∈ l, str a = str b → a = b)
    (hval : ∀ names v, y.Has names v → KeptText py3 (fmt v) ∧ parse (fmt v) = some v.num) :
    ∃ cs z, y.tocsv str fmt delim = .ok cs ∧ fromcsv parse py3 delim 0 cs = .ok z ∧
      ReadBack str y z := by
  obtain ⟨rows, hne, hlen, h9, h8, hwr, hread⟩ := tocsv_rows py3 hd hv ht (hdt.imp id Or.inl) hsz hlab
    (fun names v h => (hval names v h).1)
  have hhas : ∀ r ∈ rows, y.Has r.1 r.2 := fun r hr => (h9 r.1 r.2).mp hr
  set rows' : List (List Text × Val) := rows.map fun r => (r.1.map str, .flt r.2.num) with hrows'
  have hfrom : fromRows parse (rows.map (csvRow str fmt)) = fromtuples rows' := by
    have hmin : (((rows.map (csvRow str fmt)).map List.length).min?).getD 0 = y.label.length + 1 := by
      rw [min_const (m := y.label.length + 1) (by simpa using hne)]
      · rfl
      · intro a ha
        simp only [List.map_map, List.mem_map, Function.comp] at ha
        obtain ⟨r, hr, rfl⟩ := ha
        simp [csvRow, hlen r hr]
    have hmap : mapRes (cell parse y.label.length) (rows.map (csvRow str fmt)) = .ok rows' := by
      apply mapRes_map
      intro r hr
      have e1 : (csvRow str fmt r).getD y.label.length [] = fmt r.2 := by
        simp [csvRow, ← hlen r hr]
      have e2 : (csvRow str fmt r).take y.label.length = r.1.map str := by
        simp [csvRow, ← hlen r hr]
      simp only [cell, e1, e2, (hval _ _ (hhas r hr)).2]
    unfold fromRows
    rw [if_neg (by simpa using hne), hmin]
    simp only [hmap]
  have hnum : ∀ v : Val, v.isNumber = true → v.toFloat = .flt v.num := by
    intro v h; cases v <;> simp_all [Val.isNumber, Val.toFloat, Val.num]
  have hisnum : ∀ names v, y.Has names v → v.isNumber = true := fun names v h =>
    h8 _ ((h9 names v).mpr h)
  obtain ⟨z, e1, e2⟩ := C29_fromtuples (rows := rows') (m := y.label.length) (label_pos hv)
    (by simpa [hrows'] using hne)
    (by
      intro r hr
      obtain ⟨r', hr', rfl⟩ := List.mem_map.mp hr
      simpa using hlen r' hr')
    (by
      intro r hr
      obtain ⟨r', hr', rfl⟩ := List.mem_map.mp hr
      rfl)
  let y' : Larry Text := ⟨⟨y.x.shape, fun idx => (y.x.get idx).toFloat⟩, .float,
    y.label.map (List.map str)⟩
  have hv' : y'.Valid := by
    refine ⟨?_, ?_, ?_⟩
    · change y.x.shape = _
      rw [hv.shape_eq]
      simp [y', Function.comp_def]
    · intro l hl
      obtain ⟨l', hl', rfl⟩ := List.mem_map.mp hl
      exact List.Nodup.map_on (fun a ha b hb => hinj l' hl' a ha b hb) (hv.nodup l' hl')
    · simpa [y'] using hv.ndim_pos
  have hhas' : ∀ names v, y'.Has names v ↔ ∃ ns w, names = ns.map str ∧ y.Has ns w ∧ v = w.toFloat := by
    intro names v
    constructor
    · rintro ⟨idx, hat, rfl⟩
      obtain ⟨ns, rfl, hat'⟩ := (At_map str).mp hat
      exact ⟨ns, _, rfl, ⟨idx, hat', rfl⟩, rfl⟩
    · rintro ⟨ns, w, rfl, ⟨idx, hat, rfl⟩, rfl⟩
      exact ⟨idx, (At_map str).mpr ⟨ns, rfl, hat⟩, rfl⟩
  have hrows'' : ∀ names v, (names, v) ∈ rows' ↔ y'.Has names v := by
    intro names v
    rw [hhas']
    simp only [hrows', List.mem_map, Prod.mk.injEq, Prod.exists]
    constructor
    · rintro ⟨ns, w, hm, rfl, rfl⟩
      exact ⟨ns, w, rfl, (h9 _ _).mp hm, (hnum w (hisnum ns w ((h9 _ _).mp hm))).symm⟩
    · rintro ⟨ns, w, rfl, hw, rfl⟩
      exact ⟨ns, w, (h9 _ _).mpr hw, rfl, (hnum w (hisnum ns w hw)).symm⟩
  have hs := sortedFloat_of_table hv' hsz (m := y.label.length) (by simp [y']) e2 hrows''
  refine ⟨_, z, hwr, ?_, ⟨hs.valid, hs.dtype_eq, by simpa [y'] using hs.naxes, ?_, ?_⟩⟩
  · unfold fromcsv
    rw [if_neg (by simp), hread]
    simp [hfrom, e1]
  · intro k l l' hl hl'
    exact hs.labels k _ l' (by simp [y', hl]) hl'
  · intro names v
    rw [hs.has]
    constructor
    · rintro ⟨w, hw, rfl⟩
      obtain ⟨ns, u, rfl, hu, rfl⟩ := (hhas' _ _).mp hw
      refine ⟨ns, u, rfl, hu, ?_⟩
      rw [hnum u (hisnum ns u hu)]; rfl
    · rintro ⟨ns, u, rfl, hu, rfl⟩
      refine ⟨u.toFloat, (hhas' _ _).mpr ⟨ns, u, rfl, hu, rfl⟩, ?_⟩
      rw [hnum u (hisnum ns u hu)]; rfl

/-- C76. `skiprows` in Python 2: the first `skiprows` records are ignored, whatever they contain. -/
theorem C76_skiprows (hd : GoodDelim delim) (parse : Text → Option Flt) {head rows : List (List Text)}
    (hf : ∀ r ∈ head ++ rows, ∀ f ∈ r, GoodField f) :
    fromcsv parse false delim head.length (writeRows delim (head ++ rows)) =
      fromcsv parse false delim 0 (writeRows delim rows) := by
  have h1 := C76_rows_exact false hd hf (by simp)
  have h2 := C76_rows_exact false hd (rows := rows) (fun r hr => hf r (by simp [hr])) (by simp)
  unfold fromcsv
  rw [if_neg (by simp), if_neg (by simp), h1, h2]
  simp

/-- C76. In Python 3 every positive `skiprows` is an error. -/
theorem C76_skiprows_python3 (parse : Text → Option Flt) {n : Nat} (hn : 0 < n) (cs : Text) :
    fromcsv parse true delim n cs = .error .attributeError := by
  unfold fromcsv
  rw [if_pos ⟨rfl, hn⟩]

/-- C76. A value that is missing, or is not a number, is a ValueError. -/
theorem C76_bad_value (py3 : Bool) (parse : Text → Option Flt) {cs : Text} {rows : List (List Text)}
    {m : Nat} (hr : readRows py3 delim cs = .ok rows) (hlen : ∀ r ∈ rows, r.length = m + 1)
    (hbad : ∃ r ∈ rows, parse (r.getD m []) = none) :
    fromcsv parse py3 delim 0 cs = .error .valueError := by
  obtain ⟨r, hmem, hp⟩ := hbad
  have hne : rows ≠ [] := by rintro rfl; simp at hmem
  have hmin : ((rows.map List.length).min?).getD 0 = m + 1 := by
    rw [min_const (m := m + 1) (by simpa using hne)]
    · rfl
    · intro a ha
      obtain ⟨r, hr, rfl⟩ := List.mem_map.mp ha
      exact hlen r hr
  have hmap : ∀ {rs : List (List Text)}, r ∈ rs → mapRes (cell parse m) rs = .error .valueError := by
    intro rs
    induction rs with
    | nil => intro h; simp at h
    | cons r' rs ih =>
      intro h
      cases hc : parse (r'.getD m []) with
      | none => simp only [mapRes, cell, hc]
      | some f =>
        have hmem : r ∈ rs := by
          rcases List.mem_cons.mp h with rfl | h
          · rw [hp] at hc; simp at hc
          · exact h
        simp only [mapRes, cell, hc, ih hmem]
  unfold fromcsv
  rw [if_neg (by simp), hr]
  simp only [Nat.not_lt_zero, if_false, List.drop_zero, fromRows, if_neg hne, hmin, hmap hmem]

/-- C76. A blank line in the file (a record without fields) is an IndexError, whatever else there is. -/
theorem C76_blank_line (py3 : Bool) (parse : Text → Option Flt) {cs : Text} {rows : List (List Text)}
    (hr : readRows py3 delim cs = .ok rows) (hblank : [] ∈ rows) :
    fromcsv parse py3 delim 0 cs = .error .indexError := by
  have hne : rows ≠ [] := by rintro rfl; simp at hblank
  have hmin : ((rows.map List.length).min?).getD 0 = 0 := by
    have h0 : 0 ∈ rows.map List.length := List.mem_map.mpr ⟨[], hblank, rfl⟩
    cases hm : (rows.map List.length).min? with
    | none => rfl
    | some m =>
      have := (List.min?_eq_some_iff.mp hm).2 0 h0
      simpa using this
  unfold fromcsv
  rw [if_neg (by simp), hr]
  simp only [Nat.not_lt_zero, if_false, List.drop_zero, fromRows, if_neg hne, hmin]

/-- A file with a blank line. -/
example : readRows true ',' ['a', ',', '1', '\n', '\n'] = .ok [[['a'], ['1']], []] := by decide +kernel

/-- C76. A bool larry can be written but not read back: `float` does not take 'True' or 'False'. -/
theorem C76_bool (py3 : Bool) (hd : GoodDelim delim) {str : L → Text} {fmt : Val → Text}
    {parse : Text → Option Flt} {y : Larry L} (hv : y.Valid) (ht : y.Typed) (hdt : y.dtype = .bool)
    (hsz : 0 < y.shape.prod) (hlab : ∀ l ∈ y.label, ∀ b ∈ l, KeptText py3 (str b))
    (hval : ∀ names v, y.Has names v → KeptText py3 (fmt v) ∧ parse (fmt v) = none) :
    ∃ cs, y.tocsv str fmt delim = .ok cs ∧ fromcsv parse py3 delim 0 cs = .error .valueError := by
  obtain ⟨rows, hne, hlen, h9, -, hwr, hread⟩ := tocsv_rows py3 hd hv ht (.inr (.inr hdt)) hsz hlab
    (fun names v h => (hval names v h).1)
  refine ⟨_, hwr, C76_bad_value py3 parse (m := y.label.length) hread ?_ ?_⟩
  · intro r hr
    obtain ⟨r', hr', rfl⟩ := List.mem_map.mp hr
    simp [csvRow, hlen r' hr']
  · match rows, hne, hlen, h9 with
    | r :: rs, _, hlen, h9 =>
      refine ⟨csvRow str fmt r, by simp, ?_⟩
      have : (csvRow str fmt r).getD y.label.length [] = fmt r.2 := by
        simp [csvRow, ← hlen r (by simp)]
      rw [this]
      exact (hval r.1 r.2 ((h9 r.1 r.2).mp (by simp))).2

/-- C76. A larry without elements comes back as `larry([])`, whatever its shape. -/
theorem C76_empty (py3 : Bool) (str : L → Text) (fmt : Val → Text) (parse : Text → Option Flt)
    {y : Larry L} (hv : y.Valid) (hsz : y.shape.prod = 0) :
    ∃ cs z, y.tocsv str fmt delim = .ok cs ∧ fromcsv parse py3 delim 0 cs = .ok z ∧
      z.label = [[]] ∧ z.shape = [0] ∧ z.dtype = .float := by
  obtain ⟨z, ts, h1, -, -, h2, h3, -⟩ := (C28_flatten hv "C").1 (.inl rfl)
  have : ts = [] := by rw [hsz] at h3; simpa using h3
  subst this
  refine ⟨[], emptyLarry, by simp [tocsv, totuples, h1, h2, writeRows], ?_, rfl, rfl, rfl⟩
  unfold fromcsv
  rw [if_neg (by simp)]
  cases py3 <;> simp [readRows, opened, universal, lines, readLines, Reader.init, fromRows]

/-! ## Examples -/

/-- Labels with a comma, a quote, a line break and nothing at all. -/
def exCsv : Larry String :=
  ⟨⟨[2, 2], fun idx => .flt (.fin (if idx = [0, 0] then 1 else 2))⟩, .float,
    [["a,b", "say \"x\""], ["line\nbreak", ""]]⟩

/-- `repr` and `float` for the two values of `exCsv`. -/
def exFmt : Val → Text
  | .flt (.fin q) => if q = 1 then ['1', '.', '0'] else ['2', '.', '0']
  | .bool true => ['T', 'r', 'u', 'e']
  | .bool false => ['F', 'a', 'l', 's', 'e']
  | _ => []

@[inherit_doc exFmt]
def exParse (t : Text) : Option Flt :=
  if t = ['1', '.', '0'] then some (.fin 1) else if t = ['2', '.', '0'] then some (.fin 2) else none

example : GoodDelim ',' ∧ exCsv.Valid ∧ exCsv.Typed ∧ 0 < exCsv.shape.prod ∧
    (∀ l ∈ exCsv.label, ∀ b ∈ l, KeptText true b.toList) ∧
    (∀ l ∈ exCsv.label, ∀ a ∈ l, ∀ b ∈ l, a.toList = b.toList → a = b) ∧
    (∀ names v, exCsv.Has names v → KeptText true (exFmt v) ∧ exParse (exFmt v) = some v.num) := by
  refine ⟨by simp [GoodDelim], ⟨by decide, by decide, by decide⟩, ?_, by decide, ?_, ?_, ?_⟩
  · intro idx _; rfl
  · intro l hl b hb
    simp only [exCsv, List.mem_cons, List.not_mem_nil, or_false] at hl
    rcases hl with rfl | rfl <;> simp only [List.mem_cons, List.not_mem_nil, or_false] at hb <;>
      rcases hb with rfl | rfl <;> exact ⟨⟨by decide, by decide⟩, by decide⟩
  · intro l _ a _ b _ h
    exact String.toList_injective h
  · rintro names v ⟨idx, -, rfl⟩
    simp only [exCsv]
    split_ifs
    · exact ⟨⟨⟨by decide +kernel, by decide +kernel⟩, fun _ => by decide +kernel⟩, by decide +kernel⟩
    · exact ⟨⟨⟨by decide +kernel, by decide +kernel⟩, fun _ => by decide +kernel⟩, by decide +kernel⟩

/-- The file of `exCsv`. -/
example : (match exCsv.tocsv String.toList exFmt ',' with
    | .ok cs => cs
    | .error _ => []) =
  "\"a,b\",\"line\nbreak\",1.0\r\n\"a,b\",,2.0\r\n\"say \"\"x\"\"\",\"line\nbreak\",2.0\r\n\"say \"\"x\"\"\",,2.0\r\n".toList := by
  decide +kernel

/-- Rows of different lengths, an empty row, an empty field, a delimiter and a quote. -/
example : GoodDelim ';' ∧ (∀ r ∈ ([[['a', ';'], ['"']], [[]], []] : List (List Text)), ∀ f ∈ r,
    GoodField f ∧ '\r' ∉ f) := by
  simp [GoodDelim, GoodField]

/-- Two labels that differ only in their line breaks. -/
def exBreaks : Larry String :=
  ⟨⟨[2], fun idx => .flt (.fin (if idx = [0] then 1 else 2))⟩, .float, [["a\nb", "a\r\nb"]]⟩

/-- C76. In Python 3 labels with `\r` do not survive: two different labels become one, and a value is
lost. -/
theorem C76_line_breaks_lost : (match exBreaks.tocsv String.toList exFmt ',' with
    | .error _ => none
    | .ok cs => match fromcsv exParse true ',' 0 cs with
      | .error _ => none
      | .ok z => some (z.label, z.shape, z.x.get [0])) =
    some ([["a\nb".toList]], [1], .flt (.fin 2)) := by decide +kernel

/-- C76. Two labels with the same text, such as 1 and '1', become one. -/
theorem C76_same_text_lost : (match exBreaks.tocsv (fun _ => ['1']) exFmt ',' with
    | .error _ => none
    | .ok cs => match fromcsv exParse false ',' 0 cs with
      | .error _ => none
      | .ok z => some (z.label, z.shape, z.x.get [0])) =
    some ([["1".toList]], [1], .flt (.fin 2)) := by decide +kernel

example : exParse (exFmt (.bool true)) = none ∧ exParse (exFmt (.bool false)) = none := by
  decide +kernel

end La
