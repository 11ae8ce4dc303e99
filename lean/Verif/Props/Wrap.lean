import Verif.Props.PrettyTable

/-!
# Property C90: wrapped text
-/

namespace La
open Csv (Text)
open Yahoo (split split_none split_sep split_length)
open Tofile (joinText)
open Pretty

/-! ## Lists of lines -/

theorem joinText_cons {d f : Text} {fs : List Text} (h : fs ≠ []) : joinText d (f :: fs) = f ++ (d ++ joinText d fs) := by
  cases fs with
  | nil => exact absurd rfl h
  | cons g gs => rfl

theorem joinText_append (d l h : Text) (i t : List Text) :
    joinText d (i ++ (l ++ h) :: t) = joinText d (i ++ [l]) ++ joinText d (h :: t) := by
  induction i with
  | nil => cases t <;> simp [joinText]
  | cons x i ih =>
    rw [List.cons_append, List.cons_append, joinText_cons (by simp), joinText_cons (by simp), ih]
    simp

theorem split_eq {c : Char} {t : Text} {ls : List Text} (hne : ls ≠ []) (h : ∀ l ∈ ls, c ∉ l) (ht : joinText [c] ls = t) :
    split c t = ls := by
  rw [← ht, joinText_eq, split_intercalate hne h]

theorem split_join (c : Char) (t : Text) : joinText [c] (split c t) = t := by
  rw [joinText_eq]
  exact (split_splits c t).2

theorem split_mem {c : Char} {t l : Text} (h : l ∈ split c t) : c ∉ l := (split_splits c t).1 l h

theorem split_append {c : Char} {a b l h : Text} {i t : List Text} (ha : split c a = i ++ [l]) (hb : split c b = h :: t) :
    split c (a ++ b) = i ++ (l ++ h) :: t := by
  have ga : ∀ x ∈ i ++ [l], c ∉ x := by rw [← ha]; exact fun x => split_mem
  have gb : ∀ x ∈ h :: t, c ∉ x := by rw [← hb]; exact fun x => split_mem
  apply split_eq (by simp)
  · intro x hx
    rcases List.mem_append.mp hx with hx | hx
    · exact ga x (by simp [hx])
    · rcases List.mem_cons.mp hx with rfl | hx
      · have h1 := ga l (by simp)
        have h2 := gb h (by simp)
        simp [h1, h2]
      · exact gb x (by simp [hx])
  · rw [joinText_append, ← ha, ← hb, split_join, split_join]

theorem split_last (c : Char) (t : Text) : ∃ i l, split c t = i ++ [l] := by
  refine ⟨(split c t).dropLast, (split c t).getLast (split_ne_nil c t), ?_⟩
  exact (List.dropLast_append_getLast (split_ne_nil c t)).symm

theorem split_first (c : Char) (t : Text) : ∃ h s, split c t = h :: s := by
  cases hs : split c t with
  | nil => exact absurd hs (split_ne_nil c t)
  | cons h s => exact ⟨h, s, rfl⟩

theorem split_break (a b : Text) : split '\n' (a ++ '\n' :: b) = split '\n' a ++ split '\n' b := by
  obtain ⟨i, l, ha⟩ := split_last '\n' a
  have hb : split '\n' ('\n' :: b) = [] :: split '\n' b := by simp [split]
  rw [split_append ha hb, ha]
  simp

theorem split_blank {a b l h : Text} {i t : List Text} (ha : split '\n' a = i ++ [l]) (hb : split '\n' b = h :: t) :
    split '\n' (a ++ ' ' :: b) = i ++ (l ++ ' ' :: h) :: t := by
  have : split '\n' (' ' :: b) = (' ' :: h) :: t := by simp [split, hb]
  exact split_append ha this

/-- One step of the wrapping, as lines. -/
theorem addWord_lines (width : Int) {line word l h : Text} {i t : List Text} (ha : split '\n' line = i ++ [l])
    (hb : split '\n' word = h :: t) :
    (width ≤ (l.length : Int) + h.length ∧ addWord width line word = line ++ '\n' :: word ∧
        split '\n' (addWord width line word) = i ++ l :: h :: t) ∨
      ((l.length : Int) + h.length < width ∧ addWord width line word = line ++ ' ' :: word ∧
        split '\n' (addWord width line word) = i ++ (l ++ ' ' :: h) :: t) := by
  have e1 : lastLine line = l := by simp [lastLine, ha]
  have e2 : firstLine word = h := by simp [firstLine, hb]
  unfold addWord
  rw [e1, e2]
  by_cases hw : (l.length : Int) + h.length ≥ width
  · left
    rw [if_pos hw]
    refine ⟨hw, rfl, ?_⟩
    rw [split_break, ha, hb]
    simp
  · right
    rw [if_neg hw]
    exact ⟨by omega, rfl, split_blank ha hb⟩

/-! ## `wrap_always` -/

theorem pieces_flatten (width : Nat) (text : Text) (n : Nat) :
    ((List.range n).map (piece text width)).flatten = text.take (width * n) := by
  induction n with
  | zero => simp
  | succ n ih =>
    rw [List.range_succ, List.map_append, List.flatten_append, ih]
    simp only [piece, List.map_cons, List.map_nil, List.flatten_cons, List.flatten_nil, List.append_nil]
    rw [Nat.mul_succ, List.take_add]

/-- C90. `wrap_always` cuts the text into lines of exactly the width, but for the last. -/
theorem C90_always (text : Text) (width : Nat) (h : 0 < width) : ∃ ls : List Text,
    wrapAlways text width = .ok (['\n'].intercalate ls) ∧ ls.flatten = text ∧ (∀ l ∈ ls, l ≠ [] ∧ l.length ≤ width) ∧
      ∀ (i : Nat) l, ls[i]? = some l → i + 1 < ls.length → l.length = width := by
  refine ⟨(List.range ((text.length + width - 1) / width)).map (piece text width), ?_, ?_, ?_, ?_⟩
  · rw [wrapAlways, if_neg (by omega), joinText_eq]
  · rw [pieces_flatten]
    apply List.take_of_length_le
    have h1 := Nat.div_add_mod (text.length + width - 1) width
    have h2 := Nat.mod_lt (text.length + width - 1) h
    omega
  · intro l hl
    obtain ⟨i, hi, rfl⟩ := List.mem_map.mp hl
    rw [List.mem_range] at hi
    have h3 : width * (i + 1) ≤ text.length + width - 1 :=
      le_trans (Nat.mul_le_mul_left _ hi) (Nat.mul_div_le _ _)
    rw [Nat.mul_succ] at h3
    constructor
    · intro e
      have := congrArg List.length e
      simp [piece] at this
      omega
    · simp [piece]
  · intro i l hi hlt
    rw [List.length_map, List.length_range] at hlt
    rw [List.getElem?_map, List.getElem?_range (by omega)] at hi
    simp only [Option.map_some, Option.some.injEq] at hi
    subst hi
    have h3 : width * (i + 1 + 1) ≤ text.length + width - 1 :=
      le_trans (Nat.mul_le_mul_left _ hlt) (Nat.mul_div_le _ _)
    rw [Nat.mul_succ, Nat.mul_succ] at h3
    simp [piece]
    omega

/-! ## `wrap_onspace` -/

/-- The words of a text are added one after the other. -/
theorem wrapOnspace_ind {P : Text → Text → Prop} {text : Text} {width : Int}
    (h0 : ∀ w, ' ' ∉ w → w ∈ split ' ' text → P w w)
    (h1 : ∀ o line w, ' ' ∉ w → w ∈ split ' ' text → P o line → P (o ++ ' ' :: w) (addWord width line w)) :
    P text (wrapOnspace text width) := by
  have hj := split_join ' ' text
  have hm : ∀ w ∈ split ' ' text, ' ' ∉ w := fun w => split_mem
  unfold wrapOnspace
  cases hs : split ' ' text with
  | nil => exact absurd hs (split_ne_nil _ _)
  | cons w ws =>
    simp only
    have hin : ∀ v ∈ ws, ' ' ∉ v ∧ v ∈ split ' ' text := by
      intro v hv
      exact ⟨hm v (by rw [hs]; simp [hv]), by rw [hs]; simp [hv]⟩
    have hw : P w w := h0 w (hm w (by rw [hs]; simp)) (by rw [hs]; simp)
    rw [hs] at hj
    have go : ∀ (ws : List Text) (o line : Text), (∀ v ∈ ws, ' ' ∉ v ∧ v ∈ split ' ' text) → P o line →
        P (joinText [' '] (o :: ws)) (ws.foldl (addWord width) line) := by
      intro ws
      induction ws with
      | nil => intro o line _ h; exact h
      | cons v vs ih =>
        intro o line hv h
        have := ih (o ++ ' ' :: v) (addWord width line v) (fun u hu => hv u (by simp [hu]))
          (h1 o line v (hv v (by simp)).1 (hv v (by simp)).2 h)
        rw [List.foldl_cons]
        have e : joinText [' '] (o :: v :: vs) = joinText [' '] ((o ++ ' ' :: v) :: vs) := by
          cases vs <;> simp [joinText]
        rw [e]
        exact this
    rw [← hj]
    exact go ws w w hin hw

/-- C90. `wrap_onspace` only turns spaces into line breaks. -/
theorem C90_only_spaces (text : Text) (width : Int) :
    List.Forall₂ (fun a b => b = a ∨ a = ' ' ∧ b = '\n') text (wrapOnspace text width) := by
  apply wrapOnspace_ind (P := List.Forall₂ (fun a b => b = a ∨ a = ' ' ∧ b = '\n'))
  · intro w _ _
    rw [List.forall₂_same]
    exact fun _ _ => .inl rfl
  · intro o line w _ _ h
    unfold addWord
    apply List.rel_append h
    refine .cons ?_ ?_
    · split_ifs
      · exact .inr ⟨rfl, rfl⟩
      · exact .inl rfl
    · rw [List.forall₂_same]
      exact fun _ _ => .inl rfl

theorem no_space {w l : Text} (h : ' ' ∉ w) (hl : l ∈ split '\n' w) : ' ' ∉ l := by
  have hj := split_join '\n' w
  intro hc
  apply h
  rw [← hj]
  generalize split '\n' w = ls at hl
  induction ls with
  | nil => simp at hl
  | cons m ms ih =>
    rcases List.mem_cons.mp hl with rfl | hl
    · cases ms <;> simp [joinText, hc]
    · rw [joinText_cons (List.ne_nil_of_mem hl)]
      simp [ih hl]

/-- C90. A line of `wrap_onspace` that is longer than the width is a single word. -/
theorem C90_long_lines (text : Text) (width : Int) (ls : List Text) (h : SplitsInto (wrapOnspace text width) ls) :
    ∀ l ∈ ls, width < l.length → ' ' ∉ l := by
  rw [h.eq]
  apply wrapOnspace_ind (P := fun _ r => ∀ l ∈ split '\n' r, width < l.length → ' ' ∉ l)
  · intro w hw _ l hl _
    exact no_space hw hl
  · intro o line w hw _ ih l hl
    obtain ⟨i, m, ha⟩ := split_last '\n' line
    obtain ⟨g, t, hb⟩ := split_first '\n' w
    rcases addWord_lines width ha hb with ⟨_, _, e⟩ | ⟨hlt, _, e⟩
    · rw [e] at hl
      have hl' : l ∈ split '\n' line ∨ l ∈ split '\n' w := by
        rw [ha, hb]
        simp only [List.mem_append, List.mem_cons, List.not_mem_nil, or_false] at hl ⊢
        tauto
      rcases hl' with hl | hl
      · exact ih l hl
      · exact fun _ => no_space hw hl
    · rw [e] at hl
      simp only [List.mem_append, List.mem_cons] at hl
      rcases hl with hl | rfl | hl
      · exact ih l (by rw [ha]; simp [hl])
      · intro hlen
        simp at hlen
        omega
      · exact fun _ => no_space hw (by rw [hb]; simp [hl])

/-- The first word of a line. -/
def firstWord (l : Text) : Text := l.takeWhile (· ≠ ' ')

theorem takeWhile_all {w : Text} (h : ' ' ∉ w) : firstWord w = w := by
  unfold firstWord
  rw [List.takeWhile_eq_self_iff]
  intro c hc
  simp only [decide_eq_true_eq]
  exact fun e => h (e ▸ hc)

theorem takeWhile_blank (l w : Text) : firstWord (l ++ ' ' :: w) = firstWord l := by
  unfold firstWord
  induction l with
  | nil => simp
  | cons c l ih =>
    simp only [List.cons_append, List.takeWhile_cons]
    split_ifs <;> simp_all

theorem word_plain {text w : Text} (h : '\n' ∉ text) (hw : w ∈ split ' ' text) : '\n' ∉ w := by
  intro hc
  apply h
  rw [← split_join ' ' text]
  generalize split ' ' text = ls at hw
  induction ls with
  | nil => simp at hw
  | cons m ms ih =>
    rcases List.mem_cons.mp hw with rfl | hl
    · cases ms <;> simp [joinText, hc]
    · rw [joinText_cons (List.ne_nil_of_mem hl)]
      simp [ih hl]

/-- C90. `wrap_onspace` breaks a line only where the next word does not fit (text without line breaks of its own). -/
theorem C90_breaks (text : Text) (width : Int) (hp : '\n' ∉ text) (ls : List Text) (h : SplitsInto (wrapOnspace text width) ls)
    (k : Nat) (l m : Text) (hl : ls[k]? = some l) (hm : ls[k + 1]? = some m) :
    width < (l.length : Int) + 1 + (firstWord m).length := by
  have key : ∀ (k : Nat) (l m : Text), (split '\n' (wrapOnspace text width))[k]? = some l →
      (split '\n' (wrapOnspace text width))[k + 1]? = some m → width < (l.length : Int) + 1 + (firstWord m).length := by
    apply wrapOnspace_ind (P := fun _ r => ∀ (k : Nat) (l m : Text), (split '\n' r)[k]? = some l →
      (split '\n' r)[k + 1]? = some m → width < (l.length : Int) + 1 + (firstWord m).length)
    · intro w hw hmem k l m hl hm
      rw [split_none (word_plain hp hmem)] at hm
      simp at hm
    · intro o line w hw hmem ih k l m hl hm
      obtain ⟨i, g, ha⟩ := split_last '\n' line
      have hb := split_none (word_plain hp hmem)
      rw [ha] at ih
      rcases addWord_lines width ha hb with ⟨hge, _, e⟩ | ⟨hlt, _, e⟩
      · rw [e] at hl hm
        rcases Nat.lt_trichotomy k i.length with hk | hk | hk
        · apply ih k l m
          · rw [List.getElem?_append_left hk] at hl ⊢
            exact hl
          · by_cases hk1 : k + 1 < i.length
            · rw [List.getElem?_append_left hk1] at hm ⊢
              exact hm
            · have : k + 1 = i.length := by omega
              rw [this] at hm ⊢
              simpa using hm
        · subst hk
          simp at hl hm
          subst hl hm
          rw [takeWhile_all hw]
          omega
        · have : (i ++ [g, w])[k + 1]? = none := by
            apply List.getElem?_eq_none
            simp
            omega
          rw [this] at hm
          simp at hm
      · rw [e] at hl hm
        have hk : k + 1 < (i ++ [g ++ ' ' :: w]).length := (List.getElem?_eq_some_iff.mp hm).1
        simp only [List.length_append, List.length_cons, List.length_nil] at hk
        have hk' : k < i.length := by omega
        by_cases hk1 : k + 1 < i.length
        · apply ih k l m
          · rw [List.getElem?_append_left hk'] at hl ⊢
            exact hl
          · rw [List.getElem?_append_left hk1] at hm ⊢
            exact hm
        · have hki : k + 1 = i.length := by omega
          rw [hki] at hm
          simp at hm
          subst hm
          rw [takeWhile_blank]
          apply ih k l g
          · rw [List.getElem?_append_left hk'] at hl ⊢
            exact hl
          · rw [hki]
            simp
  rw [h.eq] at hl hm
  exact key k l m hl hm

/-! ## `wrap_onspace_strict` -/

/-- Every run without spaces and line breaks is at most `w` long; `n` characters of the first were read. -/
def okRun (w : Nat) : Nat → Text → Prop
  | n, [] => n ≤ w
  | n, c :: cs => if c = ' ' ∨ c = '\n' then n ≤ w ∧ okRun w 0 cs else okRun w (n + 1) cs

theorem okRun_append {w : Nat} {c : Char} (hc : c = ' ' ∨ c = '\n') (n : Nat) (a b : Text) :
    okRun w n (a ++ c :: b) ↔ okRun w n a ∧ okRun w 0 b := by
  induction a generalizing n with
  | nil => simp [okRun, hc]
  | cons d a ih =>
    simp only [List.cons_append, okRun]
    split_ifs
    · rw [ih, and_assoc]
    · exact ih (n + 1)

theorem okRun_clean {w : Nat} {t : Text} (h : ∀ c ∈ t, ¬(c = ' ' ∨ c = '\n')) (n : Nat) : okRun w n t ↔ n + t.length ≤ w := by
  induction t generalizing n with
  | nil => simp [okRun]
  | cons c t ih =>
    simp only [okRun, if_neg (h c (by simp)), ih (fun c hc => h c (by simp [hc])), List.length_cons]
    constructor <;> intro h <;> omega

theorem okRun_join {w : Nat} {c : Char} (hc : c = ' ' ∨ c = '\n') (ls : List Text) :
    okRun w 0 (joinText [c] ls) ↔ ∀ l ∈ ls, okRun w 0 l := by
  induction ls with
  | nil => simp [joinText, okRun]
  | cons l ls ih =>
    cases ls with
    | nil => simp [joinText]
    | cons m ms =>
      rw [joinText_cons (by simp)]
      simp only [List.singleton_append]
      rw [okRun_append hc, ih]
      simp

theorem wrapAlways_ok {run : Text} {width : Nat} (h : 0 < width) (hr : ∀ c ∈ run, ¬(c = ' ' ∨ c = '\n')) :
    ∃ r, wrapAlways run width = .ok r ∧ okRun width 0 r ∧
      r.filter (fun c => c ≠ ' ' ∧ c ≠ '\n') = run.filter (fun c => c ≠ ' ' ∧ c ≠ '\n') := by
  obtain ⟨ls, h1, h2, h3, h4⟩ := C90_always run width h
  refine ⟨_, h1, ?_, ?_⟩
  · rw [← joinText_eq, okRun_join (.inr rfl)]
    intro l hl
    rw [okRun_clean]
    · have := (h3 l hl).2
      omega
    · intro c hc
      exact hr c (by rw [← h2]; exact List.mem_flatten.mpr ⟨l, hl, hc⟩)
  · rw [← h2, ← joinText_eq]
    clear h1 h2 h3 h4
    induction ls with
    | nil => rfl
    | cons l ls ih =>
      cases ls with
      | nil => simp [joinText]
      | cons m ms =>
        rw [joinText_cons (by simp), List.filter_append, List.filter_append, ih]
        simp

theorem subRun_ok {run : Text} {width : Nat} (h : 0 < width) (hr : ∀ c ∈ run, ¬(c = ' ' ∨ c = '\n')) :
    ∃ r, subRun width run = .ok r ∧ okRun width 0 r ∧
      r.filter (fun c => c ≠ ' ' ∧ c ≠ '\n') = run.filter (fun c => c ≠ ' ' ∧ c ≠ '\n') := by
  unfold subRun
  split_ifs with hl
  · exact wrapAlways_ok h hr
  · exact ⟨run, rfl, (okRun_clean hr 0).mpr (by omega), rfl⟩

theorem subRuns_ok {width : Nat} (h : 0 < width) (text run : Text) (hr : ∀ c ∈ run, ¬(c = ' ' ∨ c = '\n'))
    (ht : ∀ c ∈ text, isSpace c → c = ' ' ∨ c = '\n') :
    ∃ r, subRuns width run text = .ok r ∧ okRun width 0 r ∧
      r.filter (fun c => c ≠ ' ' ∧ c ≠ '\n') = (run ++ text).filter (fun c => c ≠ ' ' ∧ c ≠ '\n') := by
  induction text generalizing run with
  | nil =>
    simp only [subRuns, List.append_nil]
    exact subRun_ok h hr
  | cons c cs ih =>
    simp only [subRuns]
    by_cases hc : isSpace c = true
    · have hc' := ht c (by simp) hc
      obtain ⟨a, a1, a2, a3⟩ := subRun_ok h hr
      obtain ⟨b, b1, b2, b3⟩ := ih [] (by simp) (fun c hc => ht c (by simp [hc]))
      refine ⟨a ++ c :: b, by rw [if_pos hc, a1]; simp only [b1], (okRun_append hc' 0 a b).mpr ⟨a2, b2⟩, ?_⟩
      rw [List.filter_append, List.filter_append, a3]
      congr 1
      rw [List.filter_cons, List.filter_cons, b3]
      rfl
    · have hc' : ¬(c = ' ' ∨ c = '\n') := by
        rintro (rfl | rfl) <;> exact hc (by decide)
      obtain ⟨r, r1, r2, r3⟩ := ih (run ++ [c]) (by
        intro d hd
        rcases List.mem_append.mp hd with hd | hd
        · exact hr d hd
        · simp only [List.mem_cons, List.not_mem_nil, or_false] at hd
          subst hd
          exact hc') (fun c hc => ht c (by simp [hc]))
      refine ⟨r, by rw [if_neg hc, r1], r2, ?_⟩
      rw [r3]
      simp

/-- C90. `wrap_onspace_strict` keeps every line within the width, if the only white space of the text are spaces and line
breaks; nothing else than those changes. -/
theorem C90_strict (text : Text) (width : Nat) (h : 0 < width) (ht : ∀ c ∈ text, isSpace c → c = ' ' ∨ c = '\n') :
    ∃ r, wrapStrict text width = .ok r ∧ (∀ ls, SplitsInto r ls → ∀ l ∈ ls, l.length ≤ width) ∧
      r.filter (fun c => c ≠ ' ' ∧ c ≠ '\n') = text.filter (fun c => c ≠ ' ' ∧ c ≠ '\n') := by
  obtain ⟨s, s1, s2, s3⟩ := subRuns_ok h text [] (by simp) ht
  refine ⟨wrapOnspace s width, by unfold wrapStrict; rw [s1], ?_, ?_⟩
  · intro ls hls
    rw [hls.eq]
    have hword : ∀ w ∈ split ' ' s, ∀ l ∈ split '\n' w, l.length ≤ width := by
      intro w hw l hl
      have h1 : okRun width 0 w := by
        rw [← split_join ' ' s, okRun_join (.inl rfl)] at s2
        exact s2 w hw
      have h2 : okRun width 0 l := by
        rw [← split_join '\n' w, okRun_join (.inr rfl)] at h1
        exact h1 l hl
      rw [okRun_clean] at h2
      · omega
      · rintro c hc (rfl | rfl)
        · exact no_space (split_mem hw) hl hc
        · exact split_mem hl hc
    apply wrapOnspace_ind (P := fun _ r => ∀ l ∈ split '\n' r, l.length ≤ width)
    · intro w _ hw
      exact hword w hw
    · intro o line w _ hw ih l hl
      obtain ⟨i, m, ha⟩ := split_last '\n' line
      obtain ⟨g, t, hb⟩ := split_first '\n' w
      have hw' := hword w hw
      rw [hb] at hw'
      rw [ha] at ih
      rcases addWord_lines width ha hb with ⟨_, _, e⟩ | ⟨hlt, _, e⟩
      · rw [e] at hl
        simp only [List.mem_append, List.mem_cons] at hl
        rcases hl with hl | rfl | hl
        · exact ih l (by simp [hl])
        · exact ih l (by simp)
        · exact hw' l (by simpa using hl)
      · rw [e] at hl
        simp only [List.mem_append, List.mem_cons] at hl
        rcases hl with hl | rfl | hl
        · exact ih l (by simp [hl])
        · simp
          omega
        · exact hw' l (by simp [hl])
  · have h1 := C90_only_spaces s width
    rw [← (show s.filter (fun c => c ≠ ' ' ∧ c ≠ '\n') = text.filter (fun c => c ≠ ' ' ∧ c ≠ '\n') by simpa using s3)]
    generalize wrapOnspace s width = r at h1
    clear s1 s2 s3
    induction h1 with
    | nil => rfl
    | cons hab _ ih =>
      rcases hab with rfl | ⟨rfl, rfl⟩
      · rw [List.filter_cons, List.filter_cons, ih]
      · simpa using ih

/-- C90. With a tab in the text a line can be longer than the width. -/
theorem C90_tab : wrapStrict "a\tb".toList 2 = .ok "a\tb".toList ∧ 2 < "a\tb".toList.length := by decide +kernel

/-- C90. A width of zero raises. -/
theorem C90_zero (text : Text) : wrapAlways text 0 = .error .zeroDivisionError ∧ wrapStrict text 0 = .error .zeroDivisionError := by
  refine ⟨rfl, ?_⟩
  have : ∀ run, subRuns 0 run text = .error .zeroDivisionError := by
    induction text with
    | nil => intro run; simp [subRuns, subRun, wrapAlways]
    | cons c cs ih =>
      intro run
      simp only [subRuns]
      split_ifs
      · simp [subRun, wrapAlways]
      · exact ih _
  simp [wrapStrict, this]

/-! ## Examples -/

example : wrapAlways "abcdefg".toList 3 = .ok "abc\ndef\ng".toList := by decide +kernel
example : wrapOnspace "a bc defg h".toList 4 = "a bc\ndefg\nh".toList := by decide +kernel
example : wrapStrict "a bcdefgh i".toList 4 = .ok "a\nbcde\nfgh\ni".toList := by decide +kernel
example : '\n' ∉ "a bc defg h".toList ∧ (∀ c ∈ "a bcdefgh i".toList, isSpace c → c = ' ' ∨ c = '\n') := by decide +kernel
example : SplitsInto "a bc\ndefg\nh".toList ["a bc".toList, "defg".toList, "h".toList] := ⟨by decide, by decide, by decide⟩

end La
