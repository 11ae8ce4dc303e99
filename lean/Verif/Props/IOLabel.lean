import Verif.IO

/-!
# Labels on their way to the archive and back (la/io.py:635-683, 738-753): C57
-/

namespace La

/-! ## Specification -/

/-- What is left of a label after a trip to the archive: a time loses its tzinfo, a string the NULs at
its end. -/
def PyLabel.archived : PyLabel → PyLabel
  | .time t => .time { t with tz := none }
  | .datetime d t => .datetime d { t with tz := none }
  | .str s => .str (stripNul s)
  | a => a

/-- The objects Python can build. -/
def PyLabel.Ok : PyLabel → Prop
  | .date d => d.Ok
  | .time t => t.Ok
  | .datetime d t => d.Ok ∧ t.Ok
  | _ => True

/-- The labels that survive: integers that fit in int64, floats, bools, strings not ending in a NUL,
dates, naive times and naive datetimes. -/
def PyLabel.Lossless : PyLabel → Prop
  | .int n => -2 ^ 63 ≤ n ∧ n < 2 ^ 63
  | .flt _ => True
  | .bool _ => True
  | .str s => s.toList.getLast? ≠ some '\x00'
  | .date d => d.Ok
  | .time t => t.Ok ∧ t.tz = none
  | .datetime d t => d.Ok ∧ t.Ok ∧ t.tz = none
  | .other _ _ => False

/-- All elements have the same type. -/
def Homogeneous (l : List PyLabel) : Prop := ∀ a ∈ l, ∀ b ∈ l, a.type = b.type

/-! ## Elements -/

theorem PyLabel.Lossless.ok {a : PyLabel} (h : a.Lossless) : a.Ok := by
  cases a <;> simp_all [PyLabel.Lossless, PyLabel.Ok]

theorem stripNul_eq {s : String} (h : s.toList.getLast? ≠ some '\x00') : stripNul s = s := by
  unfold stripNul
  have : s.toList.rdropWhile (fun c => c = '\x00') = s.toList := by
    rw [List.rdropWhile_eq_self_iff]
    intro hl
    rw [List.getLast?_eq_some_getLast hl] at h
    simpa using h
  rw [this]; simp

theorem PyLabel.Lossless.archived_eq {a : PyLabel} (h : a.Lossless) : a.archived = a := by
  cases a with
  | str s => simp only [PyLabel.archived, stripNul_eq h]
  | time t =>
    obtain ⟨-, ht⟩ := h
    simp only [PyLabel.archived, ← ht]
  | datetime d t =>
    obtain ⟨-, -, ht⟩ := h
    simp only [PyLabel.archived, ← ht]
  | _ => rfl

theorem PyLabel.Lossless.toCell {a : PyLabel} (h : a.Lossless) : ∃ c, a.toCell = .ok c := by
  cases a with
  | int n =>
    obtain ⟨h1, h2⟩ := h
    exact ⟨.int n, if_pos (by omega)⟩
  | other => exact h.elim
  | _ => exact ⟨_, rfl⟩

theorem mkTime_ok {t : PyTime} (h : t.Ok) :
    mkTime t.hour t.minute t.second t.micro = .ok { t with tz := none } := by
  obtain ⟨h1, h2, h3, h4⟩ := h
  unfold mkTime
  rw [if_pos (by omega)]
  simp

theorem mkDate_ok {d : PyDate} (h : d.Ok) : mkDate d.year d.month d.day = .ok d := by
  unfold mkDate
  rw [if_pos ⟨by omega, by omega, by omega, by simpa using h⟩]
  simp

/-- One element out of the array again. -/
theorem toLabel_toCell {a : PyLabel} {c : Cell} (hok : a.Ok) (h : a.toCell = .ok c) :
    c.toLabel a.type.tag = .ok a.archived := by
  cases a with
  | int n =>
    simp only [PyLabel.toCell] at h
    split at h
    · simp only [Except.ok.injEq] at h; subst h; rfl
    · simp at h
  | flt f => simp only [PyLabel.toCell, Except.ok.injEq] at h; subst h; rfl
  | str s => simp only [PyLabel.toCell, Except.ok.injEq] at h; subst h; rfl
  | bool b => simp only [PyLabel.toCell, Except.ok.injEq] at h; subst h; rfl
  | date d =>
    simp only [PyLabel.toCell, Except.ok.injEq] at h; subst h
    simp only [PyLabel.type, PyType.tag, Cell.toLabel, PyDate.fromOrdinal_toOrdinal hok,
      PyLabel.archived]
  | time t =>
    simp only [PyLabel.toCell, Except.ok.injEq] at h; subst h
    simp only [PyLabel.type, PyType.tag, Cell.toLabel, time2tuple, tuple2time, mkTime_ok hok,
      PyLabel.archived]
  | datetime d t =>
    simp only [PyLabel.toCell, Except.ok.injEq] at h; subst h
    simp only [PyLabel.type, PyType.tag, Cell.toLabel, datetime2tuple, tuple2datetime,
      mkDate_ok hok.1, mkTime_ok hok.2, PyLabel.archived]
  | other ty i => simp [PyLabel.toCell] at h

theorem homogeneous_cons {a : PyLabel} {l : List PyLabel} :
    (a :: l).all (fun b => b.type = a.type) = true ↔ Homogeneous (a :: l) := by
  rw [List.all_eq_true]
  simp only [decide_eq_true_eq]
  constructor
  · intro h b hb c hc; rw [h b hb, h c hc]
  · intro h b hb; exact h b hb a List.mem_cons_self

/-! ## C57 -/

/-- Label lists whose elements differ in type are refused with TypeError. -/
theorem C57_mixed (l : List PyLabel) (h : ¬ Homogeneous l) : list2array l = .error .typeError := by
  cases l with
  | nil => exact absurd (fun a ha => by simp at ha) h
  | cons a l =>
    simp only [list2array]
    rw [if_neg]
    rwa [homogeneous_cons]

/-- Whatever label list the archive accepts is read back with exactly the losses `archived` names. -/
theorem C57_exact (l : List PyLabel) (cs : List Cell) (tag : Tag) (hok : ∀ a ∈ l, a.Ok)
    (h : list2array l = .ok (cs, tag)) : array2list cs tag = .ok (l.map PyLabel.archived) := by
  cases l with
  | nil =>
    simp only [list2array, Except.ok.injEq, Prod.mk.injEq] at h
    obtain ⟨rfl, rfl⟩ := h
    rfl
  | cons a l =>
    simp only [list2array] at h
    split at h
    · rename_i hh
      split at h
      · simp at h
      · rename_i cs' hcs
        simp only [Except.ok.injEq, Prod.mk.injEq] at h
        obtain ⟨rfl, rfl⟩ := h
        unfold array2list
        rw [mapRes_ok] at hcs ⊢
        have hty : ∀ b ∈ a :: l, b.type = a.type := by simpa using hh
        clear hh
        generalize a :: l = m at *
        generalize a.type = ty at *
        induction hcs with
        | nil => exact .nil
        | cons h1 _ ih =>
          refine .cons ?_ (ih (fun b hb => hok b (List.mem_cons_of_mem _ hb))
            (fun b hb => hty b (List.mem_cons_of_mem _ hb)))
          rw [← hty _ List.mem_cons_self]
          exact toLabel_toCell (hok _ List.mem_cons_self) h1
    · simp at h

/-- Labels of one archivable type are accepted and read back unchanged. -/
theorem C57_roundtrip (l : List PyLabel) (hh : Homogeneous l) (hl : ∀ a ∈ l, a.Lossless) :
    ∃ cs tag, list2array l = .ok (cs, tag) ∧ array2list cs tag = .ok l := by
  obtain ⟨cs, tag, h⟩ : ∃ cs tag, list2array l = .ok (cs, tag) := by
    cases l with
    | nil => exact ⟨[], .notDatetime, rfl⟩
    | cons a l =>
      simp only [list2array]
      rw [if_pos (homogeneous_cons.2 hh)]
      obtain ⟨cs, hcs⟩ : ∃ cs, mapRes PyLabel.toCell (a :: l) = .ok cs := by
        clear hh
        generalize a :: l = m at hl
        induction m with
        | nil => exact ⟨[], rfl⟩
        | cons b m ih =>
          obtain ⟨cs, hcs⟩ := ih (fun b hb => hl b (List.mem_cons_of_mem _ hb))
          obtain ⟨c, hc⟩ := (hl b List.mem_cons_self).toCell
          exact ⟨c :: cs, by rw [mapRes_ok] at hcs ⊢; exact .cons hc hcs⟩
      exact ⟨cs, a.type.tag, by rw [hcs]⟩
  refine ⟨cs, tag, h, ?_⟩
  rw [C57_exact l cs tag (fun a ha => (hl a ha).ok) h]
  congr 1
  conv_rhs => rw [← List.map_id l]
  exact List.map_congr_left (fun a ha => (hl a ha).archived_eq)

/-- The converse: a label list that comes back unchanged consists of lossless elements of one type. -/
theorem C57_only (l : List PyLabel) (cs : List Cell) (tag : Tag) (hok : ∀ a ∈ l, a.Ok)
    (h : list2array l = .ok (cs, tag)) (hr : array2list cs tag = .ok l) :
    Homogeneous l ∧ ∀ a ∈ l, a.Lossless := by
  constructor
  · by_contra hh
    rw [C57_mixed l hh] at h
    simp at h
  · intro a ha
    have hm := C57_exact l cs tag hok h
    rw [hr] at hm
    simp only [Except.ok.injEq] at hm
    have hfix : a.archived = a := by
      have : ∀ m : List PyLabel, m = m.map PyLabel.archived → ∀ b ∈ m, b.archived = b := by
        intro m
        induction m with
        | nil => intro _ b hb; simp at hb
        | cons c m ih =>
          intro he b hb
          simp only [List.map_cons, List.cons.injEq] at he
          rcases List.mem_cons.1 hb with rfl | hb
          · exact he.1.symm
          · exact ih he.2 b hb
      exact this l hm a ha
    have hcell : ∃ c, a.toCell = .ok c := by
      cases l with
      | nil => simp at ha
      | cons b l =>
        simp only [list2array] at h
        split at h
        · split at h
          · simp at h
          · rename_i cs' hcs
            rw [mapRes_ok, List.forall₂_iff_get] at hcs
            obtain ⟨k, hk, rfl⟩ := List.getElem_of_mem ha
            exact ⟨_, hcs.2 k hk (by omega)⟩
        · simp at h
    cases a with
    | int n =>
      obtain ⟨c, hc⟩ := hcell
      simp only [PyLabel.toCell] at hc
      split at hc
      · rename_i hb
        exact ⟨by omega, by omega⟩
      · simp at hc
    | flt => trivial
    | bool => trivial
    | date d => exact hok _ ha
    | str s =>
      simp only [PyLabel.archived, PyLabel.str.injEq] at hfix
      intro hlast
      have h2 : s.toList.rdropWhile (fun c => c = '\x00') = s.toList := by
        have := congrArg String.toList hfix
        simpa [stripNul] using this
      rw [List.rdropWhile_eq_self_iff] at h2
      have hne : s.toList ≠ [] := by intro h0; rw [h0] at hlast; simp at hlast
      have := h2 hne
      rw [List.getLast?_eq_some_getLast hne] at hlast
      simp at this hlast
      exact this hlast
    | time t =>
      simp only [PyLabel.archived, PyLabel.time.injEq] at hfix
      exact ⟨hok _ ha, by rw [← hfix]⟩
    | datetime d t =>
      simp only [PyLabel.archived, PyLabel.datetime.injEq, true_and] at hfix
      exact ⟨(hok _ ha).1, (hok _ ha).2, by rw [← hfix]⟩
    | other ty i =>
      obtain ⟨c, hc⟩ := hcell
      simp [PyLabel.toCell] at hc

/-! ## Examples -/

/-- Dates and datetimes survive; the timezone does not. -/
example : Homogeneous [.date ⟨2011, 8, 12⟩, .date ⟨2000, 2, 29⟩] ∧
    (PyLabel.date ⟨2000, 2, 29⟩).Lossless ∧
    (PyLabel.datetime ⟨2034, 4, 10⟩ ⟨15, 1, 23, 500, none⟩).Lossless ∧
    (PyLabel.str "aa").Lossless ∧
    (PyLabel.time ⟨1, 30, 0, 0, some 1⟩).archived = .time ⟨1, 30, 0, 0, none⟩ := by
  refine ⟨?_, ?_, ?_, ?_, rfl⟩
  · intro a ha b hb
    simp at ha hb
    rcases ha with rfl | rfl <;> rcases hb with rfl | rfl <;> rfl
  · show PyDate.Ok _; decide +kernel
  · show PyDate.Ok _ ∧ PyTime.Ok _ ∧ _; decide +kernel
  · show _ ≠ _; decide +kernel

example : list2array [.date ⟨2011, 8, 12⟩, .date ⟨2000, 2, 29⟩]
    = .ok ([.int 734361, .int 730179], .date) := by decide +kernel

example : ¬ Homogeneous [.int 1, .str "a"] := by
  intro h
  have := h (.int 1) (by simp) (.str "a") (by simp)
  simp [PyLabel.type] at this

end La
