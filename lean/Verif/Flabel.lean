import Verif.Np
import Mathlib.Data.List.Induction

/-!
# Model of `la/flabel.py` and `la/src/cflabel.pyx`
-/

namespace La
variable {L : Type _} [DecidableEq L]

/-- A Python dict as a finite partial map. -/
abbrev PyDict (K V : Type _) := K → Option V

/-- `d[k] = v`. -/
def PyDict.insert {V : Type _} (d : PyDict L V) (k : L) (v : V) : PyDict L V :=
  fun q => if q = k then some v else d q

/-- `d[k]`: KeyError when absent. -/
def PyDict.getItem {V : Type _} (d : PyDict L V) (k : L) : Res V :=
  match d k with
  | some v => .ok v
  | none => .error .keyError

/-- `dict(zip(list1, range(len(list1))))` (la/flabel.py:72, 145): later duplicates win. -/
def zipDict (list1 : List L) : PyDict L Nat :=
  (list1.zip (List.range list1.length)).foldl (fun d p => PyDict.insert d p.1 p.2) (fun _ => none)

/-- `listmap(list1, list2, ignore_unmappable)`, Python version (la/flabel.py:72-77). -/
def listmap (list1 list2 : List L) (ignoreUnmappable : Bool := false) : Res (List Nat) :=
  let list1map := zipDict list1
  if ignoreUnmappable then
    -- 74: [list1map[i] for i in list2 if i in list1map]
    mapRes (PyDict.getItem list1map)
      (list2.filter (fun i => (list1map i).isSome))
  else
    -- 76: [list1map[i] for i in list2]
    mapRes (PyDict.getItem list1map) list2

/-- `listmap_fill(list1, list2, fill)`, Python version (la/flabel.py:145-155).  The loop state is
`(i, index, index_missing)`. -/
def listmapFill (list1 list2 : List L) (fill : Int := 0) : List Int × List Nat :=
  let list1map := zipDict list1
  let st := list2.foldl
    (fun (st : Int × List Int × List Nat) li2 =>
      let i := st.1 + 1
      match list1map li2 with
      | some k => (i, st.2.1.set i.toNat (k : Int), st.2.2)
      | none => (i, st.2.1, st.2.2 ++ [i.toNat]))
    (-1, List.replicate list2.length fill, [])
  st.2

/-- The first loop of both Cython functions: `for i in range(n1): list1map[list1[i]] = i`
(la/src/cflabel.pyx:66-67, 149-150). -/
def loopDict (list1 : List L) : PyDict L Nat :=
  (List.range list1.length).foldl
    (fun d i => match list1[i]? with | some a => PyDict.insert d a i | none => d) (fun _ => none)

/-- `listmap`, Cython version (la/src/cflabel.pyx:63-79).  C `int` overflow of the loop counters (lists
longer than 2³¹) is not modelled. -/
def clistmap (list1 list2 : List L) (ignoreUnmappable : Bool := false) : Res (List Nat) :=
  let list1map := loopDict list1
  let n2 := list2.length
  if ignoreUnmappable then
    -- 69-74: try: idx.append(...) except KeyError: pass
    .ok ((List.range n2).foldl
      (fun idx i => match list2[i]?.bind list1map with
        | some k => idx ++ [k]
        | none => idx) [])
  else
    -- 76-78: idx = [0] * n2; idx[i] = list1map[list2[i]]
    (List.range n2).foldl
      (fun acc i => match acc with
        | .error e => .error e
        | .ok idx => match list2[i]?.bind list1map with
          | some k => .ok (idx.set i k)
          | none => .error .keyError) (.ok (List.replicate n2 0))

/-- `listmap_fill`, Cython version (la/src/cflabel.pyx:146-156). -/
def clistmapFill (list1 list2 : List L) (fill : Int := 0) : List Int × List Nat :=
  let list1map := loopDict list1
  let n2 := list2.length
  (List.range n2).foldl
    (fun (st : List Int × List Nat) i => match list2[i]?.bind list1map with
      | some k => (st.1.set i (k : Int), st.2)
      | none => (st.1, st.2 ++ [i])) (List.replicate n2 fill, [])

/-- `flattenlabel(label, order)` (la/flabel.py:157-182).  `label` is a list of label lists, the result
a list holding one list of tuples. -/
def flattenlabel {L : Type _} (label : List (List L)) (order : String := "C") :
    Res (List (List (List L))) :=
  if order ≠ "C" ∧ order ≠ "F" then .error .valueError          -- 164-165
  else
    let label := if order = "C" then label.reverse else label     -- 167-168
    let idx := label.foldl (fun idx x =>                          -- 170-175
      x.flatMap (fun y => idx.map (fun i => i ++ [y]))) [[]]
    let idx := if order = "C" then idx.map List.reverse else idx  -- 176-177
    .ok [idx]

/-- `list2index(L)` (la/flabel.py:185-189). -/
def list2index {L : Type _} [LinearOrder L] (l : List L) : Res (List Nat × List L) :=
  let uL := pySorted l.dedup
  let idx := zipDict uL
  match mapRes (PyDict.getItem idx) l with
  | .error e => .error e
  | .ok r => .ok (r, uL)

/-! ## Facts about the dict built from a list -/

/-- Folding with an explicit start index, used to reason about `zipDict`. -/
theorem zip_range_foldl (list1 : List L) (d : PyDict L Nat) :
    ∀ s, (list1.zip (List.range' s list1.length)).foldl
      (fun d p => PyDict.insert d p.1 p.2) d =
    fun q => match (list1.zipIdx s).reverse.find? (fun p => p.1 = q) with
      | some p => some p.2
      | none => d q := by
  induction list1 generalizing d with
  | nil => intro s; simp
  | cons a l ih =>
    intro s
    simp only [List.length_cons, List.range'_succ, List.zip_cons_cons, List.foldl_cons, ih]
    funext q
    simp only [List.zipIdx_cons, List.reverse_cons, List.find?_append]
    cases h : List.find? (fun p => decide (p.1 = q)) (l.zipIdx (s + 1)).reverse with
    | some p => simp
    | none =>
      by_cases hq : a = q
      · simp [PyDict.insert, hq]
      · simp [PyDict.insert, hq, Ne.symm hq]

theorem zipDict_eq (list1 : List L) (q : L) :
    zipDict list1 q = ((list1.zipIdx).reverse.find? (fun p => p.1 = q)).map Prod.snd := by
  unfold zipDict
  rw [List.range_eq_range', zip_range_foldl]
  simp only
  cases List.find? (fun p : L × Nat => decide (p.1 = q)) (list1.zipIdx).reverse <;> rfl

theorem zipDict_some {list1 : List L} {q : L} {i : Nat} (h : zipDict list1 q = some i) :
    list1[i]? = some q := by
  rw [zipDict_eq] at h
  simp only [Option.map_eq_some_iff] at h
  obtain ⟨p, hp, rfl⟩ := h
  have h1 := List.mem_of_find?_eq_some hp
  have h2 := List.find?_some hp
  simp at h1 h2
  subst h2
  obtain ⟨a, i⟩ := p
  exact List.mem_zipIdx_iff_getElem?.mp h1

theorem zipDict_none {list1 : List L} {q : L} : zipDict list1 q = none ↔ q ∉ list1 := by
  rw [zipDict_eq]
  simp only [Option.map_eq_none_iff, List.find?_eq_none]
  constructor
  · intro h hq
    obtain ⟨i, hi⟩ := List.mem_iff_getElem?.mp hq
    have := h (q, i) (by simpa using List.mem_zipIdx_iff_getElem?.mpr hi)
    simp at this
  · intro h p hp
    simp only [List.mem_reverse] at hp
    obtain ⟨a, i⟩ := p
    have := List.mem_of_getElem? (List.mem_zipIdx_iff_getElem?.mp hp)
    simp
    rintro rfl
    exact h this

theorem zipDict_isSome {list1 : List L} {q : L} : (zipDict list1 q).isSome ↔ q ∈ list1 := by
  cases h : zipDict list1 q with
  | none => simp [zipDict_none.mp h]
  | some i => simpa using List.mem_of_getElem? (zipDict_some h)

theorem zipDict_of_mem {list1 : List L} {q : L} (h : q ∈ list1) :
    ∃ i, zipDict list1 q = some i ∧ list1[i]? = some q := by
  cases hz : zipDict list1 q with
  | none => exact absurd h (zipDict_none.mp hz)
  | some i => exact ⟨i, rfl, zipDict_some hz⟩

theorem foldl_congr_mem {α β : Type _} (f g : β → α → β) :
    ∀ (l : List α) (b : β), (∀ b a, a ∈ l → f b a = g b a) → l.foldl f b = l.foldl g b := by
  intro l
  induction l with
  | nil => intro b _; rfl
  | cons a l ih =>
    intro b h
    simp only [List.foldl_cons, h b a (by simp)]
    exact ih _ (fun b a' ha => h b a' (by simp [ha]))

theorem zipDict_concat (l : List L) (a : L) :
    zipDict (l ++ [a]) = PyDict.insert (zipDict l) a l.length := by
  unfold zipDict
  rw [List.length_append, List.length_singleton, List.range_succ,
    List.zip_append (by simp), List.foldl_append]
  rfl

/-- Both dict constructions agree. -/
theorem loopDict_eq (list1 : List L) : loopDict list1 = zipDict list1 := by
  induction list1 using List.reverseRecOn with
  | nil => rfl
  | append_singleton l a ih =>
    rw [zipDict_concat, ← ih]
    unfold loopDict
    rw [List.length_append, List.length_singleton, List.range_succ, List.foldl_append]
    simp only [List.foldl_cons, List.foldl_nil, List.getElem?_concat_length]
    congr 1
    apply foldl_congr_mem
    intro d i hi
    rw [List.getElem?_append_left (by simpa using hi)]

theorem set_append_replicate {α : Type _} (l : List α) (n : Nat) (c v : α) (h : 0 < n) :
    (l ++ List.replicate n c).set l.length v = (l ++ [v]) ++ List.replicate (n - 1) c := by
  obtain ⟨m, rfl⟩ : ∃ m, n = m + 1 := ⟨n - 1, by omega⟩
  simp [List.replicate_succ]

/-- Value of `index[k]` after the loop. -/
def fillVal (list1 : List L) (fill : Int) (b : L) : Int :=
  match zipDict list1 b with
  | some k => (k : Int)
  | none => fill

/-- Positions of the elements not found. -/
def missPos (list1 list2 : List L) : List Nat :=
  (List.range list2.length).filter (fun i => (list2[i]?.bind (zipDict list1)).isNone)

theorem missPos_concat (list1 l : List L) (a : L) :
    missPos list1 (l ++ [a]) =
      missPos list1 l ++ (match zipDict list1 a with | some _ => [] | none => [l.length]) := by
  unfold missPos
  rw [List.length_append, List.length_singleton, List.range_succ, List.filter_append]
  congr 1
  · apply List.filter_congr
    intro i hi
    rw [List.getElem?_append_left (by simpa using hi)]
  · simp only [List.filter_cons, List.getElem?_concat_length, Option.bind_some, List.filter_nil]
    cases zipDict list1 a <;> simp

/-- Closed form of the Python `listmap_fill` loop. -/
theorem listmapFill_eq (list1 list2 : List L) (fill : Int) :
    listmapFill list1 list2 fill = (list2.map (fillVal list1 fill), missPos list1 list2) := by
  have key : ∀ (N : Nat) (pre : List L), pre.length ≤ N →
      pre.foldl (fun (st : Int × List Int × List Nat) li2 =>
        let i := st.1 + 1
        match zipDict list1 li2 with
        | some k => (i, st.2.1.set i.toNat (k : Int), st.2.2)
        | none => (i, st.2.1, st.2.2 ++ [i.toNat])) (-1, List.replicate N fill, []) =
      ((pre.length : Int) - 1,
        pre.map (fillVal list1 fill) ++ List.replicate (N - pre.length) fill,
        missPos list1 pre) := by
    intro N pre
    induction pre using List.reverseRecOn with
    | nil => intro _; simp [missPos]
    | append_singleton l a ih =>
      intro h
      rw [List.length_append, List.length_singleton] at h
      rw [List.foldl_append, ih (by omega)]
      simp only [List.foldl_cons, List.foldl_nil, List.length_append, List.length_singleton,
        missPos_concat, List.map_append, List.map_cons, List.map_nil]
      have hi : (((l.length + 1 : Nat) : Int) - 1).toNat = l.length := by omega
      have hi' : (l.length : Int) - 1 + 1 = ((l.length + 1 : Nat) : Int) - 1 := by omega
      cases hz : zipDict list1 a with
      | some k =>
        simp only [hi', hi, List.append_nil, fillVal, hz]
        have := set_append_replicate (l.map (fillVal list1 fill)) (N - l.length) fill (k : Int)
          (by omega)
        rw [List.length_map] at this
        rw [this, Nat.sub_sub]
      | none =>
        simp only [hi', hi, fillVal, hz]
        obtain ⟨m, hm⟩ : ∃ m, N - l.length = m + 1 := ⟨N - l.length - 1, by omega⟩
        have hm' : N - (l.length + 1) = m := by omega
        simp [hm, hm', List.replicate_succ]
  unfold listmapFill
  simp only
  rw [key list2.length list2 (Nat.le_refl _)]
  simp

theorem clistmapFill_eq (list1 list2 : List L) (fill : Int) :
    clistmapFill list1 list2 fill = listmapFill list1 list2 fill := by
  have key : ∀ (m : Nat), m ≤ list2.length →
      (List.range m).foldl (fun (st : List Int × List Nat) i =>
        match list2[i]?.bind (zipDict list1) with
        | some k => (st.1.set i (k : Int), st.2)
        | none => (st.1, st.2 ++ [i])) (List.replicate list2.length fill, []) =
      ((list2.take m).map (fillVal list1 fill) ++ List.replicate (list2.length - m) fill,
        missPos list1 (list2.take m)) := by
    intro m
    induction m with
    | zero => intro _; simp [missPos]
    | succ m ih =>
      intro h
      have hm : m < list2.length := by omega
      rw [List.range_succ, List.foldl_append, ih (by omega)]
      have htake : list2.take (m + 1) = list2.take m ++ [list2[m]] := by
        rw [List.take_succ_eq_append_getElem hm]
      have hlen : (list2.take m).length = m := by simp; omega
      rw [htake, missPos_concat, List.map_append, hlen]
      simp only [List.foldl_cons, List.foldl_nil, List.getElem?_eq_getElem hm, Option.bind_some]
      cases hz : zipDict list1 list2[m] with
      | some k =>
        have := set_append_replicate ((list2.take m).map (fillVal list1 fill)) (list2.length - m)
          fill (k : Int) (by omega)
        rw [List.length_map, hlen] at this
        simp only [this, List.map_cons, List.map_nil, List.append_nil]
        simp [fillVal, hz, Nat.sub_sub]
      | none =>
        obtain ⟨j, hj⟩ : ∃ j, list2.length - m = j + 1 := ⟨list2.length - m - 1, by omega⟩
        have hj' : list2.length - (m + 1) = j := by omega
        simp [hj, hj', fillVal, hz, List.replicate_succ]
  unfold clistmapFill
  simp only [loopDict_eq]
  rw [key list2.length (Nat.le_refl _), listmapFill_eq]
  simp

theorem mapRes_append {α β : Type _} (f : α → Res β) (l : List α) (a : α) :
    mapRes f (l ++ [a]) = match mapRes f l with
      | .error e => .error e
      | .ok r => match f a with
        | .error e => .error e
        | .ok b => .ok (r ++ [b]) := by
  induction l with
  | nil => simp [mapRes]; cases f a <;> rfl
  | cons c l ih =>
    simp only [List.cons_append, mapRes, ih]
    cases f c with
    | error e => rfl
    | ok b =>
      cases mapRes f l with
      | error e => rfl
      | ok r => cases f a <;> rfl

theorem clistmap_eq (list1 list2 : List L) (ig : Bool) :
    clistmap list1 list2 ig = listmap list1 list2 ig := by
  unfold clistmap listmap
  simp only [loopDict_eq]
  cases ig with
  | true =>
    simp only [if_true]
    have key : ∀ m, m ≤ list2.length →
        Except.ok (ε := PyErr) ((List.range m).foldl
          (fun idx i => match list2[i]?.bind (zipDict list1) with
            | some k => idx ++ [k]
            | none => idx) []) =
        mapRes (PyDict.getItem (zipDict list1))
          ((list2.take m).filter (fun i => (zipDict list1 i).isSome)) := by
      intro m
      induction m with
      | zero => intro _; rfl
      | succ m ih =>
        intro h
        have hm : m < list2.length := by omega
        rw [List.range_succ, List.foldl_append, List.take_succ_eq_append_getElem hm,
          List.filter_append]
        have ih' := ih (by omega)
        simp only [List.foldl_cons, List.foldl_nil, List.getElem?_eq_getElem hm, Option.bind_some]
        cases hz : zipDict list1 list2[m] with
        | none => simpa [hz] using ih'
        | some k =>
          simp only [List.filter_cons, hz, Option.isSome_some, if_true, List.filter_nil]
          rw [mapRes_append, ← ih', PyDict.getItem, hz]
    have := key list2.length (Nat.le_refl _)
    rw [List.take_length] at this
    exact this
  | false =>
    simp only [Bool.false_eq_true, if_false]
    have key : ∀ m, m ≤ list2.length →
        (List.range m).foldl
          (fun acc i => match acc with
            | .error e => .error e
            | .ok idx => match list2[i]?.bind (zipDict list1) with
              | some k => .ok (idx.set i k)
              | none => .error .keyError) (Except.ok (ε := PyErr) (List.replicate list2.length 0)) =
        match mapRes (PyDict.getItem (zipDict list1)) (list2.take m) with
        | .error e => .error e
        | .ok r => .ok (r ++ List.replicate (list2.length - m) 0) := by
      intro m
      induction m with
      | zero => intro _; simp [mapRes]
      | succ m ih =>
        intro h
        have hm : m < list2.length := by omega
        rw [List.range_succ, List.foldl_append, List.take_succ_eq_append_getElem hm, ih (by omega),
          mapRes_append]
        simp only [List.foldl_cons, List.foldl_nil, List.getElem?_eq_getElem hm, Option.bind_some]
        cases hr : mapRes (PyDict.getItem (zipDict list1)) (list2.take m) with
        | error e => rfl
        | ok r =>
          simp only
          have hlen : r.length = m := by
            have := (mapRes_ok.mp hr).length_eq
            simp at this; omega
          cases hz : zipDict list1 list2[m] with
          | none => simp [PyDict.getItem, hz]
          | some k =>
            simp only [PyDict.getItem, hz]
            have := set_append_replicate r (list2.length - m) 0 k (by omega)
            rw [hlen] at this
            rw [this, Nat.sub_sub]
    refine (key list2.length (Nat.le_refl _)).trans ?_
    rw [List.take_length]
    cases mapRes (PyDict.getItem (zipDict list1)) list2 with
    | error e => rfl
    | ok r => simp

end La
