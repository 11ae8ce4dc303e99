import Verif.TestingAny
import Verif.Props.Testing
import Verif.Props.Arith

/-!
# C114: what assert_larry_equal says about any two objects
-/

namespace La
variable {L : Type}

/-! ## Specification -/

/-- The scalars among the objects. -/
inductive TestObj.IsScalar : TestObj → PyClass → Val → Prop
  | mk {c : PyClass} {v : Val} (h : c ≠ .other) : IsScalar (.scalar c v) c v

/-- A larry, of the class itself (`sub = false`) or of a subclass. -/
inductive TestObj.IsLarryAt : TestObj → Bool → Nat → Prop
  | mk (sub : Bool) (p : Nat) : IsLarryAt (.larry sub p) sub p

/-- The values a scalar has here: a number or a string. -/
inductive Val.Plain : Val → Prop
  | num {v : Val} {g : Flt} (h : IsNumber v g) : Plain v
  | str (s : String) : Plain (.str s)

/-- Equal scalars: the same string, the same number (a NaN is the same as a NaN), or two finite numbers that are close. -/
inductive CloseScalar (close : ℚ → ℚ → Bool) : Val → Val → Prop
  | str (s : String) : CloseScalar close (.str s) (.str s)
  | num {v w : Val} {g : Flt} (hv : IsNumber v g) (hw : IsNumber w g) : CloseScalar close v w
  | near {v w : Val} {a b : ℚ} (hv : IsNumber v (.fin a)) (hw : IsNumber w (.fin b)) (h : close a b = true) : CloseScalar close v w

/-- The text without the tab after each end of line. -/
def unindent : List Char → List Char
  | '\n' :: '\t' :: t => '\n' :: unindent t
  | c :: t => c :: unindent t
  | [] => []

/-- A title between two lines of dashes as long as it, each line indented. -/
def framed (title : List Char) : List Char :=
  let line := List.replicate title.length '-'
  ['\n', '\t'] ++ line ++ ['\n', '\t'] ++ title ++ ['\n', '\t'] ++ line ++ ['\n', '\t']

/-! ## Lemmas -/

theorem asScalar_of {a : TestObj} {c : PyClass} {v : Val} : a.asScalar = some (c, v) ↔ a.IsScalar c v := by
  constructor
  · intro h
    cases a with
    | scalar c' v' =>
      by_cases hc : c' = .other
      · subst hc; exact absurd h (by simp [TestObj.asScalar, npIsscalar])
      · have : npIsscalar c' = true := by cases c' <;> first | rfl | exact absurd rfl hc
        simp only [TestObj.asScalar, this, if_true, Option.some.injEq, Prod.mk.injEq] at h
        obtain ⟨rfl, rfl⟩ := h
        exact .mk hc
    | larry sub p => exact absurd h (by simp [TestObj.asScalar])
    | other => exact absurd h (by simp [TestObj.asScalar])
  · rintro ⟨hc⟩
    have : npIsscalar c = true := by cases c <;> first | rfl | exact absurd rfl hc
    simp [TestObj.asScalar, this]

/-- The comparison of scalars in the model. -/
def scalarTest (close : ℚ → ℚ → Bool) (v w : Val) : Res Bool := if sameElement v w then .ok true else almostScalars close v w

/-- The same number, or finite ones that are close. -/
def closeFlt (close : ℚ → ℚ → Bool) : Flt → Flt → Bool
  | .fin p, .fin q => close p q
  | f, g => (f.isNan && g.isNan) || f.eq g

theorem test_numbers {close : ℚ → ℚ → Bool} {v w : Val} {g h : Flt} (hv : IsNumber v g) (hw : IsNumber w h) :
    ∃ b, scalarTest close v w = .ok b ∧ (b = true ↔ CloseScalar close v w) := by
  have key : ∀ {f f' : Flt}, ((f.isNan && f'.isNan) || f.eq f') = true ↔ f = f' := by
    intro f f'
    cases f <;> cases f' <;> simp [Flt.isNan, Flt.eq]
  have e1 : sameElement v w = ((g.isNan && h.isNan) || g.eq h) := by cases hv <;> cases hw <;> rfl
  have e2 : almostScalars close v w = .ok (closeFlt close g h) := by
    cases hv <;> cases hw <;> (try cases ‹Flt›) <;> (try cases ‹Flt›) <;> rfl
  have spec : CloseScalar close v w ↔ g = h ∨ ∃ a b, g = .fin a ∧ h = .fin b ∧ close a b = true := by
    constructor
    · intro k
      cases k with
      | str s => cases hv
      | num kv kw => exact .inl (hv.unique kv ▸ (hw.unique kw).symm)
      | near kv kw kc => exact .inr ⟨_, _, hv.unique kv, hw.unique kw, kc⟩
    · rintro (rfl | ⟨a, b, rfl, rfl, k⟩)
      · exact .num hv hw
      · exact .near hv hw k
  unfold scalarTest
  by_cases hs : sameElement v w = true
  · rw [if_pos hs]
    rw [e1, key] at hs
    exact ⟨true, rfl, by simp [spec, hs]⟩
  · rw [if_neg hs, e2]
    rw [e1, key] at hs
    refine ⟨_, rfl, ?_⟩
    rw [spec]
    cases g <;> cases h <;> simp_all [closeFlt, Flt.isNan, Flt.eq]

theorem test_strings {close : ℚ → ℚ → Bool} {v w : Val} (hv : v.Plain) (hw : w.Plain) (hs : (∃ s, v = .str s) ∨ ∃ s, w = .str s) :
    (v = w ∧ scalarTest close v w = .ok true) ∨ (v ≠ w ∧ scalarTest close v w = .error .typeError) := by
  have one : ∀ {u : Val} (s : String), u.Plain → (u = .str s ∨ (u ≠ .str s ∧ scalarTest close (.str s) u = .error .typeError ∧
      scalarTest close u (.str s) = .error .typeError)) := by
    intro u s hu
    cases hu with
    | num h => cases h <;> exact .inr ⟨by simp, rfl, rfl⟩
    | str t =>
      by_cases e : s = t
      · exact .inl (by rw [e])
      · refine .inr ⟨fun k => e (Val.str.inj k).symm, ?_, ?_⟩
        · simp [scalarTest, sameElement, e, almostScalars]
        · simp [scalarTest, sameElement, Ne.symm e, almostScalars]
  rcases hs with ⟨s, rfl⟩ | ⟨s, rfl⟩
  · rcases one s hw with rfl | ⟨h1, h2, -⟩
    · exact .inl ⟨rfl, by simp [scalarTest, sameElement]⟩
    · exact .inr ⟨Ne.symm h1, h2⟩
  · rcases one s hv with rfl | ⟨h1, -, h2⟩
    · exact .inl ⟨rfl, by simp [scalarTest, sameElement]⟩
    · exact .inr ⟨h1, h2⟩

theorem plain_cases {v : Val} (h : v.Plain) : (∃ g, IsNumber v g) ∨ ∃ s, v = .str s := by
  cases h with
  | num h => exact .inl ⟨_, h⟩
  | str s => exact .inr ⟨s, rfl⟩

section any
variable [DecidableEq L] {close7 close : ℚ → ℚ → Bool} {mayShare : View → View → Bool} {dtype iscopy : Bool} {original : Option Nat}
  {h : Heap L} {msg : List Char} {a d : TestObj}

theorem assertAny_flags : assertAny close7 close mayShare (some msg) (some dtype) original (some iscopy) h a d =
    sections close7 close mayShare dtype original iscopy h a d := rfl

theorem sections_scalars {c c' : PyClass} {v w : Val} (ha : a.IsScalar c v) (hd : d.IsScalar c' w) :
    sections close7 close mayShare dtype original iscopy h a d = scalarSections close7 dtype c c' v w := by
  simp only [sections, asScalar_of.mpr ha, asScalar_of.mpr hd]

theorem sections_else (hs : ¬ ((∃ c v, a.IsScalar c v) ∧ ∃ c v, d.IsScalar c v)) :
    sections close7 close mayShare dtype original iscopy h a d =
      if xor a.plain d.plain then .ok [.type] else larrySections close mayShare dtype original iscopy h a d := by
  unfold sections
  cases ha : a.asScalar with
  | none => rfl
  | some s =>
    cases hd : d.asScalar with
    | none => rfl
    | some t => exact absurd ⟨⟨s.1, s.2, asScalar_of.mp ha⟩, t.1, t.2, asScalar_of.mp hd⟩ hs

/-! ## C114 -/

/-- C114. A flag that is not True or False, or a `msg` that is no string, raises TypeError whatever is compared. -/
theorem C114_arguments (m : Option (List Char)) (dt cp : Option Bool) (hbad : m = none ∨ dt = none ∨ cp = none) :
    assertAny close7 close mayShare m dt original cp h a d = .error .typeError := by
  cases dt with
  | none => rfl
  | some dt => cases cp with
    | none => rfl
    | some cp => cases m with
      | none => rfl
      | some m => simp at hbad

/-- C114. Two scalars: SCALARS is complained about if they are not equal or close, TYPE if their types differ and `dtype` is set,
nothing else; `original` and `iscopy` have no influence.  Two different scalars one of which is a string raise TypeError. -/
theorem C114_scalars {c c' : PyClass} {v w : Val} (ha : a.IsScalar c v) (hd : d.IsScalar c' w) (hv : v.Plain) (hw : w.Plain) :
    (v ≠ w ∧ ((∃ s, v = .str s) ∨ ∃ s, w = .str s) ∧
      assertAny close7 close mayShare (some msg) (some dtype) original (some iscopy) h a d = .error .typeError) ∨
    (¬ (v ≠ w ∧ ((∃ s, v = .str s) ∨ ∃ s, w = .str s)) ∧
      ∃ fail, assertAny close7 close mayShare (some msg) (some dtype) original (some iscopy) h a d = .ok fail ∧ fail.Nodup ∧
        (∀ s, s ∈ fail ↔ (s = .scalars ∧ ¬ CloseScalar close7 v w) ∨ (s = .type ∧ dtype = true ∧ c ≠ c'))) := by
  rw [assertAny_flags, sections_scalars ha hd]
  have out : ∀ {b}, scalarTest close7 v w = .ok b → (b = true ↔ CloseScalar close7 v w) →
      ∃ fail, scalarSections close7 dtype c c' v w = .ok fail ∧ fail.Nodup ∧
        (∀ s, s ∈ fail ↔ (s = .scalars ∧ ¬ CloseScalar close7 v w) ∨ (s = .type ∧ dtype = true ∧ c ≠ c')) := by
    intro b hb hc
    have e : scalarSections close7 dtype c c' v w =
        .ok (complainAs b .scalars ++ complainAs (!dtype || decide (c = c')) .type) := by
      have hb : (if sameElement v w then .ok true else almostScalars close7 v w : Res Bool) = .ok b := hb
      simp only [scalarSections, hb]
    refine ⟨_, e, ?_, fun s => ?_⟩
    · unfold complainAs; split <;> split <;> simp
    · rw [← hc]
      unfold complainAs
      by_cases hcc : c = c' <;> cases b <;> cases dtype <;> simp [hcc]
  by_cases hs : (∃ s, v = .str s) ∨ ∃ s, w = .str s
  · rcases test_strings (close := close7) hv hw hs with ⟨e, k⟩ | ⟨e, k⟩
    · refine .inr ⟨fun h => h.1 e, out k ?_⟩
      refine ⟨fun _ => ?_, fun _ => rfl⟩
      subst e
      rcases hs with ⟨s, rfl⟩ | ⟨s, rfl⟩ <;> exact .str s
    · refine .inl ⟨e, hs, ?_⟩
      have k : (if sameElement v w then .ok true else almostScalars close7 v w : Res Bool) = .error .typeError := k
      simp only [scalarSections, k]
  · refine .inr ⟨fun h => hs h.2, ?_⟩
    rcases plain_cases hv with ⟨g, hg⟩ | k
    · rcases plain_cases hw with ⟨g', hg'⟩ | k
      · obtain ⟨b, k1, k2⟩ := test_numbers (close := close7) hg hg'
        exact out k1 k2
      · exact absurd (.inr k) hs
    · exact absurd (.inl k) hs

/-- C114. If exactly one of the two is of the class larry itself, the only complaint is TYPE, with any flags and any `original`;
a larry and an instance of a subclass fail too. -/
theorem C114_one_larry {p : Nat} {o : TestObj} (ho : ∀ q, ¬ o.IsLarryAt false q) (side : Bool) :
    assertAny close7 close mayShare (some msg) (some dtype) original (some iscopy) h
      (if side then .larry false p else o) (if side then o else .larry false p) = .ok [.type] := by
  have hp : o.plain = false := by
    cases o with
    | larry sub q =>
      cases sub with
      | false => exact absurd (.mk false q) (ho q)
      | true => rfl
    | _ => rfl
  have hn : ∀ c v, ¬ (TestObj.larry false p).IsScalar c v := fun _ _ h => nomatch h
  rw [assertAny_flags]
  cases side with
  | true =>
    simp only [if_true]
    rw [sections_else (fun k => by obtain ⟨⟨c, v, k⟩, -⟩ := k; exact hn c v k), hp]
    rfl
  | false =>
    simp only [Bool.false_eq_true, if_false]
    rw [sections_else (fun k => by obtain ⟨-, c, v, k⟩ := k; exact hn c v k), hp]
    rfl

/-- C114. Two larrys of the same class, or of two subclasses, are compared as in C87. -/
theorem C114_larrys {sub sub' : Bool} {p q : Nat} (ha : a.IsLarryAt sub p) (hd : d.IsLarryAt sub' q) (hs : sub = sub') :
    assertAny close7 close mayShare (some msg) (some dtype) original (some iscopy) h a d =
      (assertLarryEqual close mayShare dtype original iscopy h p q).map (·.map .larry) := by
  obtain ⟨⟩ := ha
  obtain ⟨⟩ := hd
  subst hs
  rw [assertAny_flags, sections_else (fun k => by obtain ⟨⟨c, v, k⟩, -⟩ := k; exact nomatch k)]
  cases sub <;> rfl

/-- C114. Anything else, for example None and None, or a number and None, raises AttributeError and is not an assertion that
fails. -/
theorem C114_other (hs : ¬ ((∃ c v, a.IsScalar c v) ∧ ∃ c v, d.IsScalar c v))
    (hl : ∀ q, ¬ a.IsLarryAt false q ∧ ¬ d.IsLarryAt false q)
    (hn : (∀ sub q, ¬ a.IsLarryAt sub q) ∨ ∀ sub q, ¬ d.IsLarryAt sub q) :
    assertAny close7 close mayShare (some msg) (some dtype) original (some iscopy) h a d = .error .attributeError := by
  have plain : ∀ {o : TestObj}, (∀ q, ¬ o.IsLarryAt false q) → o.plain = false := by
    intro o ho
    cases o with
    | larry sub q =>
      cases sub with
      | false => exact absurd (.mk false q) (ho q)
      | true => rfl
    | _ => rfl
  have lab : ∀ {o : TestObj}, (∀ sub q, ¬ o.IsLarryAt sub q) → o.labelled = .error .attributeError := by
    intro o ho
    cases o with
    | larry sub q => exact absurd (.mk sub q) (ho sub q)
    | _ => rfl
  rw [assertAny_flags, sections_else hs, plain (fun q => (hl q).1), plain (fun q => (hl q).2)]
  simp only [Bool.xor_self, Bool.false_eq_true, if_false, larrySections]
  rcases hn with hn | hn
  · rw [lab hn]
  · rw [lab hn]
    cases a with
    | larry sub q => rfl
    | _ => rfl

end any

/-! ## The message -/

theorem unindent_indent (t : List Char) : unindent (indentText t) = t := by
  induction t with
  | nil => rfl
  | cons c t ih =>
    have e : indentText (c :: t) = indentChar c ++ indentText t := List.flatMap_cons
    rw [e]
    by_cases hc : c = '\n'
    · subst hc
      show unindent ('\n' :: '\t' :: indentText t) = _
      rw [unindent, ih]
    · have : indentChar c = [c] := if_neg hc
      rw [this]
      show unindent (c :: indentText t) = _
      rw [unindent.eq_2 _ _ (by intro t' e _; exact hc e), ih]

theorem indent_append (s t : List Char) : indentText (s ++ t) = indentText s ++ indentText t := List.flatMap_append

theorem indent_plain {t : List Char} (h : '\n' ∉ t) : indentText t = t := by
  induction t with
  | nil => rfl
  | cons c t ih =>
    rw [List.mem_cons, not_or] at h
    have e : indentText (c :: t) = indentChar c ++ indentText t := List.flatMap_cons
    have : indentChar c = [c] := if_neg (Ne.symm h.1)
    rw [e, this, ih h.2]
    rfl

theorem title_plain (s : Section) : '\n' ∉ s.title := by
  cases s with
  | scalars => decide
  | type => decide
  | larry c => cases c <;> first | decide | exact List.not_mem_nil

theorem indent_heading {t : List Char} (h : '\n' ∉ t) : indentText (sectionHeading t) = ['\n', '\t'] ++ framed t := by
  have hl : '\n' ∉ List.replicate t.length '-' := by
    intro k; have := List.eq_of_mem_replicate k; revert this; decide
  have n1 : indentText ['\n'] = ['\n', '\t'] := rfl
  have n2 : indentText ['\n', '\n'] = ['\n', '\t', '\n', '\t'] := rfl
  simp only [sectionHeading, framed, indent_append, indent_plain h, indent_plain hl, n1, n2]
  simp

/-- C114. The message: first `msg` under its own heading, if there is one; then, indented and in the order of the checks, each
complaint: its title between lines of dashes, and what numpy says about it. -/
theorem C114_message (msg : List Char) (text : Section → List Char) (before : List Section) (s : Section) (after : List Section) :
    failMessage msg text (before ++ s :: after) =
      failMessage msg text before ++ (['\n', '\t'] ++ framed s.title ++ indentText (text s)) ++ failMessage [] text after := by
  simp only [failMessage, if_true, List.nil_append, List.flatMap_append, List.flatMap_cons, indent_append, Section.block,
    indent_heading (title_plain s), List.append_assoc]

/-- The titles of the sections. -/
def sectionTitles : List (Section × String) :=
  [(.scalars, "SCALARS"), (.type, "TYPE"), (.larry .label, "LABEL"), (.larry .data, "X DATA ARRAY"), (.larry .dtype, "DTYPE"),
    (.larry .notACopy, "NOT A COPY"), (.larry .isACopy, "IS A COPY")]

/-- C114. The message with a complaint in it, by the title of the complaint. -/
theorem C114_message_title (msg : List Char) (text : Section → List Char) (before : List Section) {s : Section} {title : String}
    (hs : (s, title) ∈ sectionTitles) (after : List Section) :
    failMessage msg text (before ++ s :: after) =
      failMessage msg text before ++ (['\n', '\t'] ++ framed title.toList ++ indentText (text s)) ++ failMessage [] text after := by
  have ht : s.title = title.toList := by
    simp only [sectionTitles, List.mem_cons, Prod.mk.injEq, List.not_mem_nil, or_false] at hs
    rcases hs with ⟨rfl, rfl⟩ | ⟨rfl, rfl⟩ | ⟨rfl, rfl⟩ | ⟨rfl, rfl⟩ | ⟨rfl, rfl⟩ | ⟨rfl, rfl⟩ | ⟨rfl, rfl⟩ <;> rfl
  rw [C114_message, ht]

/-- C114. Without the indentation, the message without `msg` is the headings and texts one after the other. -/
theorem C114_message_text (text : Section → List Char) (fail : List Section) :
    unindent (failMessage [] text fail) = fail.flatMap fun s => sectionHeading s.title ++ text s := by
  show unindent ([] ++ indentText _) = _
  rw [List.nil_append, unindent_indent]
  rfl

/-- C114. `msg` stands in front, under a heading of its own that is not indented. -/
theorem C114_message_test {msg : List Char} (hm : msg ≠ []) (text : Section → List Char) (fail : List Section) :
    failMessage msg text fail = sectionHeading ("TEST: ".toList ++ msg) ++ failMessage [] text fail := by
  simp [failMessage, hm]

/-! ## Cases that meet the hypotheses -/

/-- The message of a comparison that fails by the data only. -/
example (text : Section → List Char) : failMessage [] text [.larry .data] =
    ['\n', '\t'] ++ framed "X DATA ARRAY".toList ++ indentText (text (.larry .data)) := by
  have := C114_message_title [] text [] (s := .larry .data) (title := "X DATA ARRAY") (by simp [sectionTitles]) []
  simpa [failMessage, indentText] using this

/-- `assert_larry_equal(1, 1.0)`: the types differ.  `assert_larry_equal('a', 'b')` raises TypeError. -/
example (h : Heap Nat) (r : Option Nat) :
    assertAny (fun a b => decide (a = b)) (fun a b => decide (a = b)) (fun _ _ => true) (some []) (some true) r (some true) h
      (.scalar .int (.int 1)) (.scalar .float (fl 1)) = .ok [.type] ∧
    assertAny (fun a b => decide (a = b)) (fun a b => decide (a = b)) (fun _ _ => true) (some []) (some true) r (some true) h
      (.scalar .str (.str "a")) (.scalar .str (.str "b")) = .error .typeError := by
  constructor
  · have : sameElement (.int 1) (fl 1) = true := by decide +kernel
    rw [assertAny_flags, sections_scalars (.mk (by decide)) (.mk (by decide))]
    simp [scalarSections, this, complainAs]
  · have h := C114_scalars (close7 := fun a b => decide (a = b)) (close := fun a b => decide (a = b)) (mayShare := fun _ _ => true)
      (dtype := true) (iscopy := true) (original := r) (h := h) (msg := []) (a := .scalar .str (.str "a"))
      (d := .scalar .str (.str "b")) (.mk (by decide)) (.mk (by decide)) (.str _) (.str _)
    rcases h with ⟨-, -, h⟩ | ⟨h, -⟩
    · exact h
    · exact absurd ⟨by decide, .inl ⟨_, rfl⟩⟩ h

/-- `assert_larry_equal(None, None)` raises AttributeError; a larry and a number differ in TYPE even with dtype=False. -/
example (h : Heap Nat) (close : ℚ → ℚ → Bool) (m : View → View → Bool) :
    assertAny close close m (some []) (some true) none (some true) h .other .other = .error .attributeError ∧
    assertAny close close m (some []) (some false) none (some true) h (.larry false 3) (.scalar .int (.int 1)) = .ok [.type] :=
  ⟨C114_other (fun k => by obtain ⟨⟨_, _, k⟩, -⟩ := k; exact nomatch k) (fun _ => ⟨fun k => (nomatch k), fun k => (nomatch k)⟩)
    (.inl fun _ _ k => nomatch k),
   C114_one_larry (p := 3) (o := .scalar .int (.int 1)) (fun _ k => nomatch k) true⟩

end La
