import Verif.IO
import Verif.LarryFacts

/-!
# Facts about the archive model
-/

namespace La

/-! ## Names -/

theorem toString_nat_inj {i j : Nat} (h : toString i = toString j) : i = j := by
  have h' := congrArg String.toList h
  rw [Nat.toString_eq_repr, Nat.toString_eq_repr, Nat.toList_repr, Nat.toList_repr] at h'
  have := congrArg (fun l => Nat.ofDigitChars 10 l 0) h'
  simpa [Nat.ofDigitChars_ten_toDigits] using this

theorem toString_nat_ne_x (i : Nat) : toString i ≠ "x" := by
  intro h
  have h' := congrArg String.toList h
  rw [Nat.toString_eq_repr, Nat.toList_repr] at h'
  have : ('x').isDigit = true := by
    apply Nat.isDigit_of_mem_toDigits (b := 10) (n := i)
    · omega
    · omega
    · rw [h']; simp
  exact absurd this (by decide)

/-- A link name: not empty, not `.`, without slash. -/
def GoodName (s : String) : Prop := s ≠ "" ∧ s ≠ "." ∧ '/' ∉ s.toList

theorem splitSlash_ne_nil (l : List Char) : splitSlash l ≠ [] := by
  cases l with
  | nil => simp [splitSlash]
  | cons c cs =>
    simp only [splitSlash]
    split
    · simp
    · split <;> simp

theorem splitSlash_mem {l w : List Char} (h : w ∈ splitSlash l) : '/' ∉ w := by
  induction l generalizing w with
  | nil =>
    simp only [splitSlash, List.mem_singleton] at h
    subst h; simp
  | cons c cs ih =>
    simp only [splitSlash] at h
    split at h
    · rcases List.mem_cons.1 h with rfl | h
      · simp
      · exact ih h
    · rename_i hc
      split at h
      · rename_i hs
        exact absurd hs (splitSlash_ne_nil cs)
      · rename_i w' ws hs
        rcases List.mem_cons.1 h with rfl | h
        · have := ih (w := w') (by rw [hs]; exact List.mem_cons_self)
          simp only [List.mem_cons, not_or]
          exact ⟨fun h => hc h.symm, this⟩
        · exact ih (by rw [hs]; exact List.mem_cons_of_mem _ h)

theorem comps_good (key : String) : ∀ s ∈ comps key, GoodName s := by
  intro s hs
  unfold comps at hs
  rw [List.mem_filter] at hs
  obtain ⟨h1, h2⟩ := hs
  rw [List.mem_map] at h1
  obtain ⟨w, hw, rfl⟩ := h1
  simp only [decide_eq_true_eq] at h2
  exact ⟨h2.1, h2.2, by simpa using splitSlash_mem hw⟩

theorem splitSlash_append_slash {w : List Char} (h : '/' ∉ w) (rest : List Char) :
    splitSlash (w ++ '/' :: rest) = w :: splitSlash rest := by
  induction w with
  | nil => simp [splitSlash]
  | cons c cs ih =>
    simp only [List.mem_cons, not_or] at h
    simp only [List.cons_append, splitSlash]
    rw [if_neg (fun hc => h.1 hc.symm), ih h.2]

theorem splitSlash_plain {w : List Char} (h : '/' ∉ w) : splitSlash w = [w] := by
  induction w with
  | nil => rfl
  | cons c cs ih =>
    simp only [List.mem_cons, not_or] at h
    simp only [splitSlash]
    rw [if_neg (fun hc => h.1 hc.symm), ih h.2]

/-- A link name stands for itself. -/
theorem comps_name {s : String} (h : GoodName s) : comps s = [s] := by
  unfold comps
  rw [splitSlash_plain h.2.2]
  simp [h.1, h.2.1]

theorem splitSlash_join {p : Path} (h : ∀ s ∈ p, GoodName s) (hne : p ≠ []) :
    splitSlash (joinSlash p).toList = p.map String.toList := by
  unfold joinSlash
  induction p with
  | nil => exact absurd rfl hne
  | cons a p ih =>
    cases p with
    | nil =>
      simp only [String.intercalate_singleton, List.map_cons, List.map_nil]
      exact splitSlash_plain (h a (by simp)).2.2
    | cons b p =>
      rw [String.intercalate_cons_cons]
      simp only [String.toList_append, List.map_cons]
      have : "/".toList = ['/'] := rfl
      rw [this, List.append_assoc, List.singleton_append,
        splitSlash_append_slash (h a (by simp)).2.2, ih (fun s hs => h s (by simp_all)) (by simp)]
      rfl

/-- The name `visititems` reports leads back to the path. -/
theorem comps_join {p : Path} (h : ∀ s ∈ p, GoodName s) : comps (joinSlash p) = p := by
  by_cases hne : p = []
  · subst hne; decide +kernel
  · unfold comps
    rw [splitSlash_join h hne, List.map_map]
    have : p.map (String.ofList ∘ String.toList) = p := by
      conv_rhs => rw [← List.map_id p]
      exact List.map_congr_left (fun a _ => by simp)
    rw [this, List.filter_eq_self]
    intro s hs
    simpa using ⟨(h s hs).1, (h s hs).2.1⟩

theorem joinSlash_inj {p q : Path} (hp : ∀ s ∈ p, GoodName s) (hq : ∀ s ∈ q, GoodName s)
    (h : joinSlash p = joinSlash q) : p = q := by
  rw [← comps_join hp, h, comps_join hq]

/-! ## The tree -/

namespace Archive

theorem get_cons (e : Path × Node) (f : Archive) (q : Path) :
    get (e :: f) q = if e.1 = q then some e.2 else get f q := by
  unfold get
  rw [List.find?_cons]
  by_cases h : e.1 = q <;> simp [h]

theorem get_nil (q : Path) : get [] q = none := rfl

theorem get_add (f : Archive) (p : Path) (n : Node) (h : f.get p = none) (q : Path) :
    (f.add p n).get q = if q = p then some n else f.get q := by
  induction f with
  | nil =>
    simp only [add, List.nil_append, get_cons, get_nil]
    by_cases hq : p = q
    · subst hq; simp
    · rw [if_neg hq, if_neg (fun h => hq h.symm)]
  | cons e f ih =>
    rw [get_cons] at h
    by_cases he : e.1 = p
    · rw [if_pos he] at h; simp at h
    · rw [if_neg he] at h
      have := ih h
      simp only [add, List.cons_append, get_cons] at this ⊢
      rw [this]
      by_cases hq : e.1 = q
      · subst hq; simp [he]
      · simp [hq]

theorem get_add_some {f : Archive} {p q : Path} {n m : Node} (h : f.get q = some m) :
    (f.add p n).get q = some m := by
  induction f with
  | nil => simp [get_nil] at h
  | cons e f ih =>
    simp only [add, List.cons_append, get_cons] at h ⊢
    split
    · rename_i he; rwa [if_pos he] at h
    · rename_i he; rw [if_neg he] at h; exact ih h

theorem get_flag (f : Archive) (p q : Path) :
    (f.flag p).get q = if q = p then (f.get p).map (fun _ => Node.group true) else f.get q := by
  induction f with
  | nil => simp [flag, get_nil]
  | cons e f ih =>
    simp only [flag, List.map_cons, get_cons] at ih ⊢
    by_cases he : e.1 = p
    · simp only [flagEntry, he, if_true]
      by_cases hq : q = p
      · subst hq; simp
      · rw [if_neg (fun h => hq h.symm), ih, if_neg hq]; simp only [hq, if_false]
        rw [if_neg (fun h => hq h.symm)]
    · simp only [flagEntry, he, if_false]
      rw [ih]
      by_cases hq : q = p
      · subst hq; simp [he]
      · simp [hq]

theorem get_unlink (f : Archive) (p q : Path) :
    (f.unlink p).get q = if p <+: q then none else f.get q := by
  induction f with
  | nil => simp [unlink, get_nil]
  | cons e f ih =>
    simp only [unlink, List.filter_cons] at ih ⊢
    by_cases he : p <+: e.1
    · simp only [he, not_true, decide_false, Bool.false_eq_true, if_false]
      rw [ih, get_cons]
      by_cases hq : p <+: q
      · simp [hq]
      · rw [if_neg hq, if_neg hq, if_neg (by rintro rfl; exact hq he)]
    · simp only [he, not_false_eq_true, decide_true, if_true, get_cons]
      rw [ih]
      by_cases hq : e.1 = q
      · subst hq; simp [he]
      · simp [hq]

theorem create_ok {f f' : Archive} {p : Path} {n : Node} (h : f.create p n = .ok f') :
    f.get p = none ∧ f' = f.add p n := by
  unfold create at h
  split at h
  · simp at h
  · rename_i hg
    simp only [Except.ok.injEq] at h
    exact ⟨hg, h.symm⟩

theorem create_of {f : Archive} {p : Path} {n : Node} (h : f.get p = none) :
    f.create p n = .ok (f.add p n) := by
  unfold create; rw [h]

theorem create_some {f : Archive} {p : Path} {n m : Node} (h : f.get p = some m) :
    f.create p n = .error .runtimeError := by
  unfold create; rw [h]

/-- Well-formed archives: no path occurs twice, every name is a link name, and what contains a node is
a group. -/
structure WF (f : Archive) : Prop where
  nodup : (f.map Prod.fst).Nodup
  names : ∀ e ∈ f, ∀ s ∈ e.1, GoodName s
  parents : ∀ p r : Path, r ≠ [] → (f.get (p ++ r)).isSome → ∃ b, f.get p = some (.group b)
  root : ∃ b, f.get [] = some (.group b)

theorem mem_paths {f : Archive} {p : Path} : p ∈ f.map Prod.fst ↔ (f.get p).isSome := by
  induction f with
  | nil => simp [get_nil]
  | cons e f ih =>
    rw [List.map_cons, List.mem_cons, ih, get_cons]
    by_cases h : e.1 = p
    · simp [h]
    · rw [if_neg h]
      exact ⟨fun h' => h'.resolve_left (fun h'' => h h''.symm), .inr⟩

theorem WF.names' {f : Archive} (h : f.WF) {p : Path} (hp : (f.get p).isSome) :
    ∀ s ∈ p, GoodName s := by
  rw [← mem_paths, List.mem_map] at hp
  obtain ⟨e, he, rfl⟩ := hp
  exact h.names e he

theorem wf_empty : Archive.empty.WF := by
  refine ⟨by simp [empty], by simp [empty], ?_, ⟨false, rfl⟩⟩
  intro p r hr h
  simp only [empty, get_cons, get_nil] at h
  split at h
  · rename_i he
    exact absurd (List.append_eq_nil_iff.1 he.symm).2 hr
  · simp at h

/-- Adding a node beneath a group. -/
theorem WF.add {f : Archive} (h : f.WF) {p : Path} {s : String} {n : Node} {b : Bool}
    (hp : f.get p = some (.group b)) (hs : GoodName s) (hf : f.get (p ++ [s]) = none) :
    (f.add (p ++ [s]) n).WF := by
  refine ⟨?_, ?_, ?_, ?_⟩
  · simp only [Archive.add, List.map_append, List.map_cons, List.map_nil]
    rw [List.nodup_append]
    refine ⟨h.nodup, by simp, ?_⟩
    intro a ha b hb
    simp only [List.mem_singleton] at hb
    subst hb
    rw [mem_paths] at ha
    rintro rfl
    rw [hf] at ha; simp at ha
  · intro e he
    simp only [Archive.add, List.mem_append, List.mem_singleton] at he
    rcases he with he | rfl
    · exact h.names e he
    · intro t ht
      simp only [List.mem_append, List.mem_singleton] at ht
      rcases ht with ht | rfl
      · exact h.names' (by rw [hp]; rfl) t ht
      · exact hs
  · intro q r hr hq
    rw [get_add _ _ _ hf] at hq ⊢
    split at hq
    · rename_i heq
      have hqp : q <+: p := by
        rcases List.eq_nil_or_concat r with rfl | ⟨r', t, rfl⟩
        · exact absurd rfl hr
        · rw [List.concat_eq_append, ← List.append_assoc] at heq
          exact ⟨r', (List.append_inj' heq rfl).1⟩
      rw [if_neg]
      · obtain ⟨r', rfl⟩ := hqp
        by_cases hr' : r' = []
        · subst hr'; exact ⟨b, by simpa using hp⟩
        · exact h.parents q r' hr' (by rw [hp]; rfl)
      · rintro rfl
        have := hqp.length_le
        simp at this
    · obtain ⟨b', hb'⟩ := h.parents q r hr hq
      refine ⟨b', ?_⟩
      rw [if_neg, hb']
      rintro rfl
      rw [hf] at hb'; simp at hb'
  · obtain ⟨b', hb'⟩ := h.root
    exact ⟨b', by rw [get_add_some hb']⟩

theorem WF.flag {f : Archive} (h : f.WF) {p : Path} {b : Bool} (hp : f.get p = some (.group b)) :
    (f.flag p).WF := by
  have hpaths : (f.flag p).map Prod.fst = f.map Prod.fst := by
    simp only [Archive.flag, List.map_map]
    apply List.map_congr_left
    intro e _
    simp only [Function.comp, flagEntry]
    split
    · rename_i he; exact he.symm
    · rfl
  refine ⟨by rw [hpaths]; exact h.nodup, ?_, ?_, ?_⟩
  · intro e he
    have : e.1 ∈ (f.flag p).map Prod.fst := List.mem_map_of_mem he
    rw [hpaths, mem_paths] at this
    exact h.names' this
  · intro q r hr hq
    rw [← mem_paths, hpaths, mem_paths] at hq
    obtain ⟨b', hb'⟩ := h.parents q r hr hq
    rw [get_flag]
    split
    · exact ⟨true, by rw [hp]; rfl⟩
    · exact ⟨b', hb'⟩
  · obtain ⟨b', hb'⟩ := h.root
    rw [get_flag]
    split
    · exact ⟨true, by rw [hp]; rfl⟩
    · exact ⟨b', hb'⟩

theorem WF.unlink {f : Archive} (h : f.WF) {p : Path} (hp : p ≠ []) : (f.unlink p).WF := by
  refine ⟨?_, ?_, ?_, ?_⟩
  · unfold Archive.unlink
    exact (List.filter_sublist.map _).nodup h.nodup
  · intro e he
    exact h.names e (List.mem_of_mem_filter he)
  · intro q r hr hq
    rw [get_unlink] at hq ⊢
    split at hq
    · simp at hq
    · rename_i hpq
      rw [if_neg (fun hq' => hpq (hq'.trans (List.prefix_append _ _)))]
      exact h.parents q r hr hq
  · obtain ⟨b', hb'⟩ := h.root
    refine ⟨b', ?_⟩
    rw [get_unlink, if_neg, hb']
    simpa using hp

/-! ## What a call leaves alone -/

/-- `g` differs from `f` at most by new groups on the way to `p` and by what is at and beneath `p`. -/
structure Around (p : Path) (f g : Archive) : Prop where
  get : ∀ q, ¬ p <+: q → g.get q = f.get q ∨
    (q <+: p ∧ f.get q = none ∧ g.get q = some (.group false))

theorem Around.refl (p : Path) (f : Archive) : Around p f f := ⟨fun _ _ => .inl rfl⟩

theorem Around.trans {p : Path} {f g h : Archive} (h1 : Around p f g) (h2 : Around p g h) :
    Around p f h := by
  refine ⟨fun q hq => ?_⟩
  rcases h1.get q hq with e1 | ⟨a1, a2, a3⟩
  · rcases h2.get q hq with e2 | ⟨b1, b2, b3⟩
    · left; rw [e2, e1]
    · right; exact ⟨b1, by rw [← e1, b2], b3⟩
  · rcases h2.get q hq with e2 | ⟨_, b2, _⟩
    · right; exact ⟨a1, a2, by rw [e2, a3]⟩
    · rw [a3] at b2; simp at b2

theorem Around.add {p : Path} {f : Archive} {q : Path} {n : Node} (h : f.get q = none)
    (hq : p <+: q) : Around p f (f.add q n) := by
  refine ⟨fun r hr => .inl ?_⟩
  rw [get_add _ _ _ h, if_neg]
  rintro rfl; exact hr hq

theorem Around.flag {f : Archive} (p : Path) : Around p f (f.flag p) := by
  refine ⟨fun r hr => .inl ?_⟩
  rw [get_flag, if_neg]
  rintro rfl; exact hr (List.prefix_refl _)

theorem Around.unlink {f : Archive} (p : Path) : Around p f (f.unlink p) := by
  refine ⟨fun r hr => .inl ?_⟩
  rw [get_unlink, if_neg hr]

/-- Neither path leads through the other. -/
def Apart (p q : Path) : Prop := ¬ p <+: q ∧ ¬ q <+: p

theorem Apart.symm {p q : Path} (h : Apart p q) : Apart q p := ⟨h.2, h.1⟩

theorem Around.apart {p : Path} {f g : Archive} (h : Around p f g) {q : Path} (hq : Apart p q)
    (r : Path) : g.get (q ++ r) = f.get (q ++ r) := by
  have hn : ¬ p <+: q ++ r := by
    intro hp
    rcases List.prefix_or_prefix_of_prefix hp (List.prefix_append q r) with h' | h'
    · exact hq.1 h'
    · exact hq.2 h'
  rcases h.get _ hn with e | ⟨a, _, _⟩
  · exact e
  · exact absurd ((List.prefix_append q r).trans a) hq.2

/-! ## Reading depends only on the subtree -/

theorem isLarry_congr {f g : Archive} {p : Path} (h : ∀ r, g.get (p ++ r) = f.get (p ++ r)) :
    g.isLarry p = f.isLarry p := by
  have h0 : g.get p = f.get p := by simpa using h []
  unfold isLarry hasLabels
  simp only [h0, h]

theorem checkKey_congr {f g : Archive} {p : Path} (h : ∀ r, g.get (p ++ r) = f.get (p ++ r)) :
    g.checkKey p = f.checkKey p := by
  have h0 : g.get p = f.get p := by simpa using h []
  unfold checkKey
  rw [h0, isLarry_congr h]

theorem loadLabel_congr {f g : Archive} {p : Path} (h : ∀ r, g.get (p ++ r) = f.get (p ++ r)) :
    g.loadLabel p = f.loadLabel p := by
  have : g.loadAxis p = f.loadAxis p := by
    funext i; unfold loadAxis; rw [h]
  unfold loadLabel
  rw [h, this]

theorem load_congr {f g : Archive} {key : String}
    (h : ∀ r, g.get (comps key ++ r) = f.get (comps key ++ r)) : g.load key = f.load key := by
  unfold load readX
  rw [checkKey_congr h, h, loadLabel_congr h]

/-! ## The groups on the way -/

theorem createGroups_spec (f : Archive) (done cs : Path) :
    (∀ q, ¬ (done ++ cs <+: q) → (f.createGroups done cs).1.get q = f.get q ∨
      (q <+: done ++ cs ∧ f.get q = none ∧ (f.createGroups done cs).1.get q = some (.group false)))
    ∧ (∀ q n, f.get q = some n → (f.createGroups done cs).1.get q = some n)
    ∧ (∀ q, f.get q = none → (f.createGroups done cs).1.get q = none ∨
      (q <+: done ++ cs ∧ (f.createGroups done cs).1.get q = some (.group false)))
    ∧ ((f.createGroups done cs).2 = .ok () → (∃ b, f.get done = some (.group b)) →
        ∃ b, (f.createGroups done cs).1.get (done ++ cs) = some (.group b)) := by
  induction cs generalizing f done with
  | nil =>
    simp only [createGroups, List.append_nil]
    exact ⟨fun q _ => .inl trivial, fun q n h => h, fun q h => .inl h, fun _ h => h⟩
  | cons c cs ih =>
    have happ : done ++ [c] ++ cs = done ++ c :: cs := by simp
    simp only [createGroups]
    split
    · rename_i hg
      obtain ⟨i1, i2, i3, i4⟩ := ih (f.add (done ++ [c]) (.group false)) (done ++ [c])
      rw [happ] at i1 i3 i4
      have hpre : done ++ [c] <+: done ++ c :: cs := by rw [← happ]; exact List.prefix_append _ _
      refine ⟨?_, ?_, ?_, ?_⟩
      · intro q hq
        rcases i1 q hq with e | ⟨a1, a2, a3⟩
        · rw [get_add _ _ _ hg] at e
          split at e
          · rename_i hqe
            right
            subst hqe
            exact ⟨hpre, hg, e⟩
          · left; exact e
        · rw [get_add _ _ _ hg] at a2
          split at a2
          · simp at a2
          · right; exact ⟨a1, a2, a3⟩
      · intro q n h
        exact i2 q n (get_add_some h)
      · intro q h
        by_cases hq : q = done ++ [c]
        · subst hq
          right
          refine ⟨hpre, i2 _ _ ?_⟩
          rw [get_add _ _ _ hg, if_pos rfl]
        · exact i3 q (by rw [get_add _ _ _ hg, if_neg hq]; exact h)
      · intro hok _
        exact i4 hok ⟨false, by rw [get_add _ _ _ hg, if_pos rfl]⟩
    · rename_i b hg
      obtain ⟨i1, i2, i3, i4⟩ := ih f (done ++ [c])
      rw [happ] at i1 i3 i4
      exact ⟨i1, i2, i3, fun hok _ => i4 hok ⟨b, hg⟩⟩
    · exact ⟨fun q _ => .inl rfl, fun q n h => h, fun q h => .inl h, fun h => by simp at h⟩

theorem createGroups_wf {f : Archive} (h : f.WF) {done cs : Path}
    (hd : ∃ b, f.get done = some (.group b)) (hc : ∀ s ∈ cs, GoodName s) :
    (f.createGroups done cs).1.WF := by
  induction cs generalizing f done with
  | nil => exact h
  | cons c cs ih =>
    obtain ⟨b, hb⟩ := hd
    simp only [createGroups]
    split
    · rename_i hg
      exact ih (h.add hb (hc c (by simp)) hg) ⟨false, by rw [get_add _ _ _ hg, if_pos rfl]⟩
        (fun s hs => hc s (by simp [hs]))
    · rename_i b' hg
      exact ih h ⟨b', hg⟩ (fun s hs => hc s (by simp [hs]))
    · exact h

/-- The groups can be made when no dataset is in the way. -/
theorem createGroups_of {f : Archive} {done cs : Path}
    (h : ∀ q n, done <+: q → q <+: done ++ cs → f.get q = some n → ∃ b, n = .group b) :
    (f.createGroups done cs).2 = .ok () := by
  induction cs generalizing f done with
  | nil => rfl
  | cons c cs ih =>
    have happ : done ++ [c] ++ cs = done ++ c :: cs := by simp
    have hpre : done ++ [c] <+: done ++ c :: cs := by rw [← happ]; exact List.prefix_append _ _
    simp only [createGroups]
    split
    · rename_i hg
      apply ih
      intro q n h1 h2 hq
      rw [get_add _ _ _ hg] at hq
      split at hq
      · simp only [Option.some.injEq] at hq; exact ⟨false, hq.symm⟩
      · exact h q n ((List.prefix_append _ _).trans h1) (happ ▸ h2) hq
    · apply ih
      intro q n h1 h2 hq
      exact h q n ((List.prefix_append _ _).trans h1) (happ ▸ h2) hq
    · rename_i n hn hg
      obtain ⟨b, rfl⟩ := h _ n (List.prefix_append _ _) hpre hg
      exact absurd rfl (hn b)

/-! ## The labels -/

theorem saveLabels_spec (f : Archive) (p : Path) (y : Larry PyLabel) (is : List Nat) :
    (∀ q n, f.get q = some n → (f.saveLabels p y is).1.get q = some n)
    ∧ (∀ q, f.get q = none → (∀ i ∈ is, q ≠ p ++ [toString i]) →
        (f.saveLabels p y is).1.get q = none)
    ∧ ((f.saveLabels p y is).2 = .ok () → ∀ i ∈ is, ∃ l cs tag, y.label[i]? = some l ∧
        list2array l = .ok (cs, tag) ∧
        (f.saveLabels p y is).1.get (p ++ [toString i]) = some (.lab cs tag)) := by
  induction is generalizing f with
  | nil => exact ⟨fun q n h => h, fun q h _ => h, fun _ i hi => by simp at hi⟩
  | cons i is ih =>
    simp only [saveLabels]
    cases hl : y.label[i]? with
    | none => exact ⟨fun q n h => h, fun q h _ => h, fun h => by simp at h⟩
    | some l =>
      simp only
      cases ha : list2array l with
      | error e => exact ⟨fun q n h => h, fun q h _ => h, fun h => by simp at h⟩
      | ok ct =>
        obtain ⟨cs, tag⟩ := ct
        simp only
        cases hc : f.create (p ++ [toString i]) (.lab cs tag) with
        | error e => exact ⟨fun q n h => h, fun q h _ => h, fun h => by simp at h⟩
        | ok f' =>
          simp only
          obtain ⟨hn, rfl⟩ := create_ok hc
          obtain ⟨i1, i2, i3⟩ := ih (f.add (p ++ [toString i]) (.lab cs tag))
          refine ⟨fun q n h => i1 q n (get_add_some h), ?_, ?_⟩
          · intro q h hne
            apply i2 q
            · rw [get_add _ _ _ hn, if_neg (hne i (by simp)), h]
            · exact fun j hj => hne j (by simp [hj])
          · intro hok j hj
            rcases List.mem_cons.1 hj with rfl | hj
            · refine ⟨l, cs, tag, hl, ha, i1 _ _ ?_⟩
              rw [get_add _ _ _ hn, if_pos rfl]
            · exact i3 hok j hj

theorem saveLabels_wf {f : Archive} (h : f.WF) {p : Path} {y : Larry PyLabel} {is : List Nat}
    {b : Bool} (hp : f.get p = some (.group b)) : (f.saveLabels p y is).1.WF := by
  induction is generalizing f with
  | nil => exact h
  | cons i is ih =>
    simp only [saveLabels]
    split
    · exact h
    · split
      · exact h
      · split
        · exact h
        · rename_i cs tag _ _ f' hc
          obtain ⟨hn, rfl⟩ := create_ok hc
          have hgood : GoodName (toString i) := by
            refine ⟨?_, ?_, ?_⟩
            · rw [Nat.toString_eq_repr]; exact Nat.repr_ne_empty
            · intro h
              have h' := congrArg String.toList h
              rw [Nat.toString_eq_repr, Nat.toList_repr] at h'
              have : ('.').isDigit = true := by
                apply Nat.isDigit_of_mem_toDigits (b := 10) (n := i)
                · omega
                · omega
                · rw [h']; simp
              exact absurd this (by decide)
            · rw [Nat.toString_eq_repr, Nat.toList_repr]
              intro hm
              have : ('/').isDigit = true := Nat.isDigit_of_mem_toDigits (by omega) (by omega) hm
              exact absurd this (by decide)
          exact ih (h.add hp hgood hn) (get_add_some hp)

theorem saveLabels_of {f : Archive} {p : Path} {y : Larry PyLabel} {is : List Nat}
    (hnd : is.Nodup) (hfree : ∀ i ∈ is, f.get (p ++ [toString i]) = none)
    (hl : ∀ i ∈ is, ∃ l cs tag, y.label[i]? = some l ∧ list2array l = .ok (cs, tag)) :
    (f.saveLabels p y is).2 = .ok () := by
  induction is generalizing f with
  | nil => rfl
  | cons i is ih =>
    obtain ⟨l, cs, tag, h1, h2⟩ := hl i (by simp)
    simp only [saveLabels, h1, h2, create_of (hfree i (by simp))]
    apply ih (List.nodup_cons.1 hnd).2
    · intro j hj
      rw [get_add _ _ _ (hfree i (by simp)), if_neg]
      · exact hfree j (by simp [hj])
      · intro he
        have := toString_nat_inj (by simpa using he)
        subst this
        exact (List.nodup_cons.1 hnd).1 hj
    · exact fun j hj => hl j (by simp [hj])

theorem saveLabels_around (f : Archive) (p : Path) (y : Larry PyLabel) (is : List Nat) :
    Around p f (f.saveLabels p y is).1 := by
  obtain ⟨h1, h2, -⟩ := saveLabels_spec f p y is
  refine ⟨fun q hq => .inl ?_⟩
  cases hg : f.get q with
  | some n => rw [h1 q n hg]
  | none =>
    apply h2 q hg
    rintro i - rfl
    exact hq (List.prefix_append _ _)

end Archive
end La
