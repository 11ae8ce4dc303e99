import Verif.LaraSet
import Verif.Props.Lara
import Verif.Props.Setitem

/-!
# C93: assignment through a lara
-/

namespace La

/-! ## Writing a dataset -/

namespace Archive

theorem get_write (f : Archive) (p : Path) (n : Node) (q : Path) :
    (f.write p n).get q = if q = p then (f.get p).map (fun _ => n) else f.get q := by
  induction f with
  | nil => simp [write, get_nil]
  | cons e f ih =>
    have ih' : get (List.map (writeEntry p n) f) q = if q = p then (get f p).map (fun _ => n) else get f q := ih
    simp only [write, List.map_cons, get_cons]
    rw [ih']
    by_cases hq : q = p
    · subst hq
      by_cases he : e.1 = q
      · simp [writeEntry, he]
      · simp [writeEntry, he]
    · by_cases he : e.1 = p
      · have : ¬ p = q := fun h => hq h.symm
        simp [writeEntry, he, hq, this]
      · simp [writeEntry, he, hq]

theorem write_paths (f : Archive) (p : Path) (n : Node) : (f.write p n).map Prod.fst = f.map Prod.fst := by
  unfold write
  rw [List.map_map]
  refine List.map_congr_left (fun e _ => ?_)
  unfold writeEntry
  simp only [Function.comp]
  split
  · rename_i h; exact h.symm
  · rfl

end Archive

/-- `g` is `f` with the elements of one array exchanged for others. -/
structure OneArray (f g : Archive) (p : Path) (x x' : NDArray Val) (d : DType) : Prop where
  old : f.get (p ++ ["x"]) = some (.arr x d)
  new : g.get (p ++ ["x"]) = some (.arr x' d)
  shape : x'.shape = x.shape
  rest : ∀ q, q ≠ p ++ ["x"] → g.get q = f.get q
  paths : g.map Prod.fst = f.map Prod.fst

theorem oneArray_write {f : Archive} {p : Path} {x x' : NDArray Val} {d : DType}
    (h : f.get (p ++ ["x"]) = some (.arr x d)) (hs : x'.shape = x.shape) :
    OneArray f (f.write (p ++ ["x"]) (.arr x' d)) p x x' d := by
  refine ⟨h, ?_, hs, ?_, Archive.write_paths _ _ _⟩
  · rw [Archive.get_write, if_pos rfl, h]; rfl
  · intro q hq
    rw [Archive.get_write, if_neg hq]

namespace OneArray
variable {f g : Archive} {p : Path} {x x' : NDArray Val} {d : DType}

theorem isSome (h : OneArray f g p x x' d) (q : Path) : (g.get q).isSome = (f.get q).isSome := by
  by_cases hq : q = p ++ ["x"]
  · rw [hq, h.old, h.new]; rfl
  · rw [h.rest q hq]

theorem group (h : OneArray f g p x x' d) (q : Path) (b : Bool) :
    g.get q = some (.group b) ↔ f.get q = some (.group b) := by
  by_cases hq : q = p ++ ["x"]
  · rw [hq, h.old, h.new]; simp
  · rw [h.rest q hq]

theorem wf (h : OneArray f g p x x' d) (hf : f.WF) : g.WF := by
  refine ⟨by rw [h.paths]; exact hf.nodup, ?_, ?_, ?_⟩
  · intro e he s hs
    have : e.1 ∈ f.map Prod.fst := by rw [← h.paths]; exact List.mem_map_of_mem he
    obtain ⟨e', he', hee⟩ := List.mem_map.mp this
    exact hf.names e' he' s (by rw [hee]; exact hs)
  · intro q r hr hsome
    rw [h.isSome] at hsome
    obtain ⟨b, hb⟩ := hf.parents q r hr hsome
    exact ⟨b, (h.group q b).mpr hb⟩
  · obtain ⟨b, hb⟩ := hf.root
    exact ⟨b, (h.group [] b).mpr hb⟩

theorem nodeShape (h : OneArray f g p x x' d) (q : Path) :
    (g.get (q ++ ["x"])).map Node.shape = (f.get (q ++ ["x"])).map Node.shape := by
  by_cases hq : q ++ ["x"] = p ++ ["x"]
  · rw [hq, h.old, h.new]
    simp [Node.shape, h.shape]
  · rw [h.rest _ hq]

theorem isLarry (h : OneArray f g p x x' d) (q : Path) : g.isLarry q = f.isLarry q := by
  have hl : g.hasLabels q = f.hasLabels q := by
    funext n
    unfold Archive.hasLabels
    simp only [h.isSome]
  by_cases hq : f.get q = some (.group true)
  · have hg := (h.group q true).mpr hq
    unfold Archive.isLarry
    rw [hq, hg, hl]
    have hs := h.nodeShape q
    cases h1 : f.get (q ++ ["x"]) with
    | none =>
      cases h2 : g.get (q ++ ["x"]) with
      | none => rfl
      | some n => rw [h1, h2] at hs; simp at hs
    | some m =>
      cases h2 : g.get (q ++ ["x"]) with
      | none => rw [h1, h2] at hs; simp at hs
      | some n =>
        rw [h1, h2] at hs
        simp only [Option.map_some, Option.some.injEq] at hs
        simp only [hs]
  · have hg : ¬ g.get q = some (.group true) := fun hc => hq ((h.group q true).mp hc)
    unfold Archive.isLarry
    split
    · exact absurd (by assumption) hg
    · rfl

theorem checkKey (h : OneArray f g p x x' d) (q : Path) : g.checkKey q = f.checkKey q := by
  have hs := h.isSome q
  unfold Archive.checkKey
  rw [h.isLarry]
  cases h1 : f.get q with
  | none =>
    cases h2 : g.get q with
    | none => rfl
    | some n => rw [h1, h2] at hs; simp at hs
  | some m =>
    cases h2 : g.get q with
    | none => rw [h1, h2] at hs; simp at hs
    | some n => rfl

theorem loadLabel (h : OneArray f g p x x' d) (q : Path) : g.loadLabel q = f.loadLabel q := by
  have hax : g.loadAxis q = f.loadAxis q := by
    funext i
    unfold Archive.loadAxis
    rw [h.rest]
    intro hc
    exact toString_nat_ne_x i (by simpa using (List.append_inj_right' hc rfl))
  have hs := h.nodeShape q
  unfold Archive.loadLabel
  rw [hax]
  cases h1 : f.get (q ++ ["x"]) with
  | none =>
    cases h2 : g.get (q ++ ["x"]) with
    | none => rfl
    | some n => rw [h1, h2] at hs; simp at hs
  | some m =>
    cases h2 : g.get (q ++ ["x"]) with
    | none => rw [h1, h2] at hs; simp at hs
    | some n =>
      rw [h1, h2] at hs
      simp only [Option.map_some, Option.some.injEq] at hs
      simp only [hs]

/-- Other keys are not touched. -/
theorem load_other (h : OneArray f g p x x' d) {key : String} (hk : comps key ≠ p) : g.load key = f.load key := by
  unfold Archive.load
  rw [h.checkKey, h.loadLabel]
  have : g.readX (comps key) = f.readX (comps key) := by
    unfold Archive.readX
    rw [h.rest]
    intro hc
    exact hk (List.append_inj_left' hc rfl)
  rw [this]

theorem lara (h : OneArray f g p x x' d) (key : String) : g.lara key = f.lara key := by
  unfold Archive.lara
  rw [h.checkKey, h.loadLabel]

theorem load (h : OneArray f g p x x' d) {key : String} (hk : comps key = p) {y : Larry PyLabel}
    (hl : f.load key = .ok y) : y.x = x ∧ y.dtype = d ∧ g.load key = .ok ⟨x', d, y.label⟩ := by
  obtain ⟨h1, h2, h3, h4⟩ := load_ok hl
  rw [hk, h.old] at h2
  simp only [Option.some.injEq, Node.arr.injEq] at h2
  refine ⟨h2.1.symm, h2.2.symm, ?_⟩
  have hsh : x'.shape ≠ [] := by
    rw [h.shape, h2.1, h4.shape_eq]
    intro h0
    exact h4.ndim_pos (List.map_eq_nil_iff.mp h0)
  unfold Archive.load
  rw [h.checkKey, h.loadLabel, h1, h3]
  unfold Archive.readX
  rw [hk, h.new]
  simp only [if_neg hsh]
  rw [Larry.mk'_ok]
  exact ⟨rfl, by rw [h.shape, h2.1]; exact h4.shape_eq, h4.nodup, h4.ndim_pos⟩

theorem larrysIn (h : OneArray f g p x x' d) (ps : List Path) : g.larrysIn ps = f.larrysIn ps := by
  induction ps with
  | nil => rfl
  | cons q ps ih =>
    unfold Archive.larrysIn
    rw [h.isLarry, ih]

theorem keys (h : OneArray f g p x x' d) : g.keys = f.keys := by
  unfold Archive.keys Archive.visit
  rw [h.paths, h.larrysIn]

end OneArray

/-! ## The positions written -/

/-- The same kind of selection of the same positions. -/
def SameSel (s s' : NpSel) : Prop :=
  (∀ i, s.Takes i ↔ s'.Takes i) ∧ (fancyLens [s]).length = (fancyLens [s']).length

theorem h5Resolve_takes {z : Bool} {n : Nat} {it : NpItem} {sel : NpSel} (h : h5Resolve z n it = .ok sel) :
    ∃ sel', it.resolve n = .ok sel' ∧ SameSel sel sel' := by
  have hseq : ∀ is, h5Seq z n is = .ok sel → ∃ ids, mapRes (pyIdxE n) is = .ok ids ∧ SameSel sel (.fancy ids) := by
    intro is hs
    unfold h5Seq at hs
    split at hs
    · simp at hs
    · split at hs
      · simp at hs
      · rename_i ids hi
        split at hs
        · simp at hs
        · split at hs
          · simp at hs
          · simp only [Except.ok.injEq] at hs
            subst hs
            refine ⟨ids, hi, fun i => ?_, rfl⟩
            exact (List.perm_insertionSort _ _).mem_iff
  cases it with
  | int i =>
    simp only [h5Resolve] at h
    simp only [NpItem.resolve]
    cases hi : pyIdx n i with
    | none => rw [hi] at h; simp at h
    | some k => rw [hi] at h; simp only [Except.ok.injEq] at h; subst h; exact ⟨_, rfl, fun _ => Iff.rfl, rfl⟩
  | slice s =>
    simp only [h5Resolve] at h
    simp only [NpItem.resolve]
    split at h
    · simp at h
    · cases hi : sliceIndices n s with
      | error e => rw [hi] at h; simp at h
      | ok ids =>
        rw [hi] at h
        simp only at h
        split at h
        · simp at h
        · simp only [Except.ok.injEq] at h; subst h; exact ⟨_, rfl, fun _ => Iff.rfl, rfl⟩
  | seq is =>
    obtain ⟨ids, h1, h2⟩ := hseq is h
    exact ⟨.fancy ids, by simp [NpItem.resolve, h1], h2⟩
  | mask bs =>
    obtain ⟨ids, h1, h2⟩ := hseq _ h
    have hlt : ∀ k ∈ trues bs, k < n := by
      intro k hk
      by_contra hc
      have he : pyIdxE n (k : Int) = .error .indexError := by
        unfold pyIdxE
        have : pyIdx n (k : Int) = none := by
          cases hp : pyIdx n (k : Int) with
          | none => rfl
          | some j =>
            have := pyIdx_some.mp hp
            omega
        rw [this]
      obtain ⟨e', he'⟩ := mapRes_error_of (List.mem_map.mpr ⟨k, hk, rfl⟩) he
      rw [h1] at he'
      simp at he'
    rw [mapRes_trues hlt] at h1
    simp only [Except.ok.injEq] at h1
    subst h1
    refine ⟨.fancy (trues bs), ?_, h2⟩
    simp only [NpItem.resolve]
    rw [if_neg]
    intro hc
    obtain ⟨k, hk, hkn⟩ := List.any_eq_true.mp hc
    have := hlt k hk
    have : n ≤ k := by simpa using hkn
    omega

theorem h5Resolve_list {z : Bool} {ps : List (NpItem × Nat)} {ss : List NpSel}
    (h : mapRes (fun p : NpItem × Nat => h5Resolve z p.2 p.1) ps = .ok ss) :
    ∃ ss', mapRes (fun p : NpItem × Nat => p.1.resolve p.2) ps = .ok ss' ∧ List.Forall₂ SameSel ss ss' := by
  rw [mapRes_ok] at h
  induction h with
  | nil => exact ⟨[], rfl, .nil⟩
  | cons h0 _ ih =>
    obtain ⟨ss', h1, h2⟩ := ih
    obtain ⟨s', g1, g2⟩ := h5Resolve_takes h0
    rw [mapRes_ok] at h1
    exact ⟨s' :: ss', mapRes_ok.mpr (.cons g1 h1), .cons g2 h2⟩

theorem sameSel_fancy {ss ss' : List NpSel} (h : List.Forall₂ SameSel ss ss') :
    (fancyLens ss).length = (fancyLens ss').length := by
  induction h with
  | nil => rfl
  | @cons s s' ss ss' h0 _ ih =>
    have e := h0.2
    cases s <;> cases s' <;> simp_all [fancyLens]

theorem sameSel_takes {ss ss' : List NpSel} (h : List.Forall₂ SameSel ss ss') (p : List Nat) :
    List.Forall₂ NpSel.Takes ss p ↔ List.Forall₂ NpSel.Takes ss' p := by
  induction h generalizing p with
  | nil => exact Iff.rfl
  | @cons s s' ss ss' h0 _ ih =>
    cases p with
    | nil => constructor <;> intro hc <;> cases hc
    | cons i p => rw [List.forall₂_cons, List.forall₂_cons, h0.1, ih]

theorem fill_range (ss : List NpSel) (p : List Nat) :
    (∃ idx, InB (keptLens ss) idx ∧ fill ss idx = p) ↔ List.Forall₂ NpSel.Takes ss p := by
  induction ss generalizing p with
  | nil =>
    constructor
    · rintro ⟨idx, -, rfl⟩; exact .nil
    · intro h; cases h; exact ⟨[], trivial, rfl⟩
  | cons s ss ih =>
    have many : ∀ ids : List Nat, (∃ idx, InB (ids.length :: keptLens ss) idx ∧
        ids.getD (idx.headD 0) 0 :: fill ss idx.tail = p) ↔
        ∃ i q, p = i :: q ∧ i ∈ ids ∧ List.Forall₂ NpSel.Takes ss q := by
      intro ids
      constructor
      · rintro ⟨idx, h1, rfl⟩
        cases idx with
        | nil => simp [InB] at h1
        | cons k idx => exact ⟨_, _, rfl, getD_of_lt h1.1, (ih _).mp ⟨idx, h1.2, rfl⟩⟩
      · rintro ⟨i, q, rfl, h1, h2⟩
        obtain ⟨k, hk, he⟩ := exists_getD h1
        obtain ⟨idx, h3, h4⟩ := (ih q).mpr h2
        exact ⟨k :: idx, ⟨hk, h3⟩, by simp only [List.headD_cons, List.tail_cons, he, h4]⟩
    have right : ∀ (P : Nat → Prop), (∀ i, s.Takes i ↔ P i) →
        ((∃ i q, p = i :: q ∧ P i ∧ List.Forall₂ NpSel.Takes ss q) ↔ List.Forall₂ NpSel.Takes (s :: ss) p) := by
      intro P hP
      constructor
      · rintro ⟨i, q, rfl, h1, h2⟩
        exact .cons ((hP i).mpr h1) h2
      · intro h
        cases h with
        | cons h1 h2 => exact ⟨_, _, rfl, (hP _).mp h1, h2⟩
    cases s with
    | int k =>
      rw [← right (fun i => i = k) (fun _ => Iff.rfl)]
      simp only [keptLens, fill]
      constructor
      · rintro ⟨idx, h1, rfl⟩
        exact ⟨k, _, rfl, rfl, (ih _).mp ⟨idx, h1, rfl⟩⟩
      · rintro ⟨i, q, rfl, rfl, h2⟩
        obtain ⟨idx, h3, h4⟩ := (ih q).mpr h2
        exact ⟨idx, h3, by rw [h4]⟩
    | slice ids => exact (many ids).trans (right (fun i => i ∈ ids) (fun _ => Iff.rfl))
    | fancy ids => exact (many ids).trans (right (fun i => i ∈ ids) (fun _ => Iff.rfl))

/-- The positions of a grid. -/
def Covers (g : NDArray (List Nat)) (p : List Nat) : Prop := ∃ idx, InB g.shape idx ∧ g.get idx = p

theorem h5Index_range {z : Bool} {shape : List Nat} {its : List NpItem} {g : NDArray (List Nat)}
    (h : h5Index z (⟨shape, id⟩ : NDArray (List Nat)) its = .ok g) :
    ∃ g', npSelect shape its = .ok g' ∧ (∀ p, Covers g p ↔ Covers g' p) ∧
      ∃ ss, npResolve shape its = .ok ss ∧ (fancyLens ss).length ≤ 1 := by
  unfold h5Index at h
  split at h
  · simp at h
  · rename_i hlen
    split at h
    · simp at h
    · rename_i ss hss
      split at h
      · simp at h
      · rename_i hone
        simp only [Except.ok.injEq] at h
        subst h
        obtain ⟨ss', h1, h2⟩ := h5Resolve_list hss
        have hr : npResolve shape its = .ok ss' := by
          unfold npResolve
          rw [if_neg hlen]
          exact h1
        have hf : (fancyLens ss').length ≤ 1 := by rw [← sameSel_fancy h2]; omega
        obtain ⟨g', b1, b2⟩ := npGrid_range hf
        refine ⟨g', by unfold npSelect; rw [hr]; exact b1, fun p => ?_, ss', hr, hf⟩
        unfold Covers
        rw [b2 p, ← sameSel_takes h2 p, ← fill_range ss p]
        rfl

theorem h5Positions_range {z : Bool} {shape : List Nat} {idx : NpIndex} {g : NDArray (List Nat)}
    (h : h5Positions z shape idx = .ok g) :
    ∃ g', npSelect shape idx.items = .ok g' ∧ (∀ p, Covers g p ↔ Covers g' p) ∧
      ∃ ss, npResolve shape idx.items = .ok ss ∧ (fancyLens ss).length ≤ 1 := by
  unfold h5Positions at h
  split at h
  · split at h
    · exact h5Index_range h
    · simp at h
  · split at h
    · simp at h
    · rename_i g0 hg
      split at h
      · simp at h
      · simp only [Except.ok.injEq] at h
        subst h
        exact h5Index_range hg

theorem assign_congr {x : NDArray Val} {g g' : NDArray (List Nat)} (h : ∀ p, Covers g p ↔ Covers g' p) (v : Val) :
    x.assignGrid g (fun _ => v) = x.assignGrid g' (fun _ => v) := by
  have hs : (x.assignGrid g (fun _ => v)).shape = (x.assignGrid g' (fun _ => v)).shape := by
    rw [NDArray.assignGrid_shape, NDArray.assignGrid_shape]
  have hg : (x.assignGrid g (fun _ => v)).get = (x.assignGrid g' (fun _ => v)).get := by
    funext p
    by_cases hp : Covers g p
    · rw [NDArray.assignGrid_eq (fun _ _ _ => rfl) hp, NDArray.assignGrid_eq (fun _ _ _ => rfl) ((h p).mp hp)]
    · rw [NDArray.assignGrid_ne (fun idx hi he => hp ⟨idx, hi, he⟩),
        NDArray.assignGrid_ne (fun idx hi he => hp ((h p).mpr ⟨idx, hi, he⟩))]
  cases h1 : x.assignGrid g (fun _ => v)
  cases h2 : x.assignGrid g' (fun _ => v)
  rw [h1, h2] at hs hg
  simp only at hs hg
  rw [hs, hg]

/-! ## C93 -/

theorem lara_key {f : Archive} {key : String} {y : Larry PyLabel} {a : Lara} (hl : f.load key = .ok y)
    (ha : f.lara key = .ok a) : a.key = key ∧ a.label = y.label := by
  obtain ⟨h1, h2, h3, -⟩ := load_ok hl
  unfold Archive.lara at ha
  rw [h1, h3] at ha
  simp only [Except.ok.injEq] at ha
  subst ha
  exact ⟨rfl, rfl⟩

/-- A successful assignment of a scalar. -/
theorem set_ok {f f' : Archive} {key : String} {y : Larry PyLabel} {a : Lara} {z : Bool} {idx : NpIndex} {v : Val}
    (hl : f.load key = .ok y) (hk : a.key = key) (h : a.setAt z f idx (.scalar v) = (f', .ok ())) :
    ∃ g, h5Positions z y.x.shape idx = .ok g ∧
      OneArray f f' (comps key) y.x (y.x.assignGrid g (fun _ => v)) y.dtype := by
  obtain ⟨-, h2, -, -⟩ := load_ok hl
  unfold Lara.setAt at h
  rw [hk, h2] at h
  simp only at h
  split at h
  · simp at h
  · rename_i g hg
    simp only [Prod.mk.injEq, and_true] at h
    subst h
    exact ⟨g, hg, oneArray_write h2 (NDArray.assignGrid_shape _ _ _)⟩

/-- A successful assignment through a larry. -/
theorem setMask_ok {f f' : Archive} {key : String} {y : Larry PyLabel} {a : Lara} {m : Larry PyLabel} {v : Val}
    (hl : f.load key = .ok y) (hk : a.key = key) (h : a.setMask f m v = (f', .ok ())) :
    a.label = m.label ∧ m.dtype = .bool ∧ m.x.shape = y.x.shape ∧
      OneArray f f' (comps key) y.x ⟨y.x.shape, fun p => if m.x.get p = .bool true then v else y.x.get p⟩ y.dtype := by
  obtain ⟨-, h2, -, -⟩ := load_ok hl
  unfold Lara.setMask at h
  rw [hk, h2] at h
  simp only at h
  split at h
  · rename_i h3
    split at h
    · rename_i h4
      simp only [Prod.mk.injEq, and_true] at h
      subst h
      exact ⟨h3, h4.1, h4.2, oneArray_write h2 rfl⟩
    · simp at h
  · simp at h

/-- C93. After `io[key][index] = v` the archive holds under `key` exactly the larry one gets by loading
it and doing the assignment there. -/
theorem C93_assign (f f' : Archive) (key : String) (y : Larry PyLabel) (a : Lara) (z : Bool) (idx : NpIndex)
    (v : Val) (conv : Val → Val) (hl : f.load key = .ok y) (ha : f.lara key = .ok a)
    (h : a.setAt z f idx (.scalar v) = (f', .ok ())) :
    f'.load key = y.setAt conv idx (.scalar v) := by
  obtain ⟨g, hg, ho⟩ := set_ok hl (lara_key hl ha).1 h
  obtain ⟨g', h1, h2, -⟩ := h5Positions_range hg
  obtain ⟨-, -, h3⟩ := ho.load rfl hl
  rw [h3]
  simp only [Larry.setAt, Larry.putAt, h1, assign_congr h2]

/-- C93. In terms of labels: the cells of the block selected get the value, all others keep theirs. -/
theorem C93_cells (f f' : Archive) (key : String) (y : Larry PyLabel) (a : Lara) (z : Bool) (idx : NpIndex)
    (v : Val) (hl : f.load key = .ok y) (ha : f.lara key = .ok a)
    (h : a.setAt z f idx (.scalar v) = (f', .ok ())) :
    ∃ parts w, TakesParts y.label (idx.items.map NpItem.toItem) parts ∧ f'.load key = .ok w ∧ w.Valid ∧
      w.label = y.label ∧ w.dtype = y.dtype ∧
      (∀ names, Named y.label names → InParts parts names → w.Has names v) ∧
      ∀ names u, y.Has names u → ¬ InParts parts names → w.Has names u := by
  have hv := (load_ok hl).2.2.2
  obtain ⟨g, hg, ho⟩ := set_ok hl (lara_key hl ha).1 h
  obtain ⟨g', h1, h2, ss, h3, h4⟩ := h5Positions_range hg
  have hlen : idx.items.length ≤ y.ndim := by
    by_contra hc
    unfold npResolve at h3
    rw [if_pos (by unfold Larry.ndim NDArray.ndim at hc; omega)] at h3
    simp at h3
  have hone : OneList (idx.items.map (NpItem.toItem (L := PyLabel))) := by
    rw [Larry.npSelect_eq hv hlen] at h3
    have hll := hv.label_length
    obtain ⟨parts, -, a2, -⟩ := axes_resolve hv.nodup (by simp; omega) h3
    rw [Larry.map_pad] at a2
    exact oneList_padTo.mp ((fancy_le_one a2).mp h4)
  have he := C93_assign f f' key y a z idx v id hl ha h
  obtain ⟨w, hw⟩ : ∃ w, y.setAt id idx (.scalar v) = .ok w := by
    simp only [Larry.setAt, Larry.putAt, h1]
    exact ⟨_, rfl⟩
  obtain ⟨parts, b1, b2, b3, b4, b5, b6⟩ := (C37_scalar id hv hone v).2 w hw
  exact ⟨parts, w, b1, by rw [he, hw], b2, b3, b4, b5, b6⟩

/-- C93. Nothing else changes: the archive stays well-formed, has the same keys, the other larrys are
loaded as before, and laras made earlier are the ones made now. -/
theorem C93_rest (f f' : Archive) (key : String) (y : Larry PyLabel) (a : Lara) (z : Bool) (idx : NpIndex)
    (v : Val) (hl : f.load key = .ok y) (ha : f.lara key = .ok a)
    (h : a.setAt z f idx (.scalar v) = (f', .ok ())) :
    (f.WF → f'.WF) ∧ f'.keys = f.keys ∧ (∀ key', comps key' ≠ comps key → f'.load key' = f.load key') ∧
      ∀ key', f'.lara key' = f.lara key' := by
  obtain ⟨g, -, ho⟩ := set_ok hl (lara_key hl ha).1 h
  exact ⟨ho.wf, ho.keys, fun key' hk => ho.load_other hk, ho.lara⟩

/-- C93. `io[key][m] = v` with a boolean larry: `m` has the labels of the stored larry; the cells where
`m` is True get the value, all others keep theirs; nothing else changes. -/
theorem C93_mask (f f' : Archive) (key : String) (y m : Larry PyLabel) (a : Lara)
    (v : Val) (hl : f.load key = .ok y) (ha : f.lara key = .ok a) (h : a.setMask f m v = (f', .ok ())) :
    m.label = y.label ∧ m.dtype = .bool ∧ f'.load key = y.setMask m v ∧
      (∃ w, f'.load key = .ok w ∧ w.Valid ∧ w.label = y.label ∧ w.dtype = y.dtype ∧
        (∀ names, m.Has names (.bool true) → w.Has names v) ∧
        ∀ names u, y.Has names u → ¬ m.Has names (.bool true) → w.Has names u) ∧
      (f.WF → f'.WF) ∧ f'.keys = f.keys ∧ (∀ key', comps key' ≠ comps key → f'.load key' = f.load key') ∧
      ∀ key', f'.lara key' = f.lara key' := by
  obtain ⟨hk, hlab⟩ := lara_key hl ha
  obtain ⟨h1, h2, -, ho⟩ := setMask_ok hl hk h
  have hlm : y.label = m.label := by rw [← hlab, h1]
  have he : f'.load key = y.setMask m v := by
    obtain ⟨-, -, h3⟩ := ho.load rfl hl
    rw [h3]
    simp only [Larry.setMask, if_pos hlm, h2]
  obtain ⟨w, w1, w2⟩ := C37_mask (load_ok hl).2.2.2 hlm h2 v
  exact ⟨hlm.symm, h2, he, ⟨w, by rw [he, w1], w2⟩, ho.wf, ho.keys, fun key' hk => ho.load_other hk, ho.lara⟩

/-- C93. With the labels of the stored larry and dtype bool it does succeed; with other labels it is an
IndexError and with another dtype a TypeError. -/
theorem C93_mask_outcome (f : Archive) (key : String) (y m : Larry PyLabel) (a : Lara) (v : Val)
    (hm : m.Valid) (hl : f.load key = .ok y) (ha : f.lara key = .ok a) :
    (a.setMask f m v).2 = if y.label ≠ m.label then .error .indexError
      else if m.dtype = .bool then .ok () else .error .typeError := by
  obtain ⟨hk, hlab⟩ := lara_key hl ha
  obtain ⟨-, h2, -, hv⟩ := load_ok hl
  unfold Lara.setMask
  rw [hk, h2, hlab]
  simp only
  by_cases h1 : y.label = m.label
  · have hsh : m.x.shape = y.x.shape := by rw [hm.shape_eq, hv.shape_eq, h1]
    by_cases h3 : m.dtype = .bool
    · simp [h1, h3, hsh]
    · simp [h1, h3]
  · simp [h1]

/-- C93. A call that raises leaves the archive as it was. -/
theorem C93_error (f f' : Archive) (a : Lara) (z : Bool) (e : PyErr) :
    (∀ idx value, a.setAt z f idx value = (f', .error e) → f' = f) ∧
    ∀ m v, a.setMask f m v = (f', .error e) → f' = f := by
  constructor
  · intro idx value h
    unfold Lara.setAt at h
    repeat' split at h
    all_goals simp_all
  · intro m v h
    unfold Lara.setMask at h
    repeat' split at h
    all_goals simp_all

/-- C93. A larry cannot be assigned through a lara, whatever its labels are. -/
theorem C93_larry (f : Archive) (a : Lara) (z : Bool) (idx : NpIndex) (w : Larry PyLabel) :
    ∃ e, a.setAt z f idx (.lar w) = (f, .error e) := by
  unfold Lara.setAt
  split
  · exact ⟨_, rfl⟩
  · exact ⟨_, rfl⟩
  · exact ⟨_, rfl⟩
  · simp only
    repeat' split
    all_goals exact ⟨_, rfl⟩

/-- C93. Where `load(file, key)[index] = w` finds the labels aligned, `io[key][index] = w` is a TypeError. -/
theorem C93_larry_aligned (f : Archive) (key : String) (y w s : Larry PyLabel) (a : Lara) (z : Bool)
    (idx : NpIndex) (hl : f.load key = .ok y) (ha : f.lara key = .ok a)
    (hg : a.get z f idx.toIndex = .ok (.larry s)) (h : s.label = w.label) :
    a.setAt z f idx (.lar w) = (f, .error .typeError) := by
  obtain ⟨-, h2, -, -⟩ := load_ok hl
  unfold Lara.setAt
  rw [(lara_key hl ha).1, h2]
  simp only [hg, h, if_true]

/-! ## When it succeeds -/

theorem h5Index_map {z : Bool} {x : NDArray Val} {its : List NpItem} {g : NDArray (List Nat)} :
    h5Index z (⟨x.shape, id⟩ : NDArray (List Nat)) its = .ok g →
      ∃ r, h5Index z x its = .ok r ∧ r.shape = g.shape := by
  intro h
  unfold h5Index at h ⊢
  simp only at h
  split at h
  · simp at h
  · rename_i hlen
    rw [if_neg hlen]
    split at h
    · simp at h
    · rename_i ss hss
      split at h
      · simp at h
      · rename_i hone
        rw [if_neg hone]
        simp only [Except.ok.injEq] at h
        subst h
        exact ⟨_, rfl, rfl⟩

theorem h5Index_unmap {z : Bool} {x r : NDArray Val} {its : List NpItem} (h : h5Index z x its = .ok r) :
    ∃ g, h5Index z (⟨x.shape, id⟩ : NDArray (List Nat)) its = .ok g ∧ g.shape = r.shape := by
  unfold h5Index at h ⊢
  simp only
  split at h
  · simp at h
  · rename_i hlen
    rw [if_neg hlen]
    split at h
    · simp at h
    · rename_i ss hss
      split at h
      · simp at h
      · rename_i hone
        rw [if_neg hone]
        simp only [Except.ok.injEq] at h
        subst h
        exact ⟨_, rfl, rfl⟩

theorem toItem_known {L : Type _} (it : NpItem) : Known (it.toItem : Item L) := by
  constructor <;> cases it <;> simp [NpItem.toItem]

theorem isList_toItem {L : Type _} (it : NpItem) : it.isList = true ↔ (it.toItem : Item L).IsList := by
  cases it <;> simp [NpItem.isList, NpItem.toItem, Item.IsList, Item.IsInt, Item.IsSlice]

/-- The shape of what h5py selects. -/
theorem h5Index_parts {L : Type _} [DecidableEq L] {z : Bool} {y : Larry L} (hv : y.Valid) {its : List NpItem}
    (hn : NoNegative (its.map (NpItem.toItem (L := L)))) :
    (∀ g, h5Index z (⟨y.x.shape, id⟩ : NDArray (List Nat)) its = .ok g →
      its.length ≤ y.ndim ∧ OneList (its.map (NpItem.toItem (L := L))) ∧
      (∀ it ∈ its, (it.toItem : Item L).Forward) ∧ ∃ parts, TakesParts y.label (its.map NpItem.toItem) parts ∧
        (z = false → ∀ l ∈ Part.labels parts, l ≠ []) ∧ g.shape = (Part.labels parts).map List.length) ∧
    ∀ parts, its.length ≤ y.ndim → OneList (its.map (NpItem.toItem (L := L))) →
      (∀ it ∈ its, (it.toItem : Item L).Forward) → TakesParts y.label (its.map NpItem.toItem) parts →
      (z = false → ∀ l ∈ Part.labels parts, l ≠ []) →
      ∃ g, h5Index z (⟨y.x.shape, id⟩ : NDArray (List Nat)) its = .ok g ∧
        g.shape = (Part.labels parts).map List.length := by
  have hll := hv.label_length
  have hkn : ∀ it ∈ its.map (NpItem.toItem (L := L)), Known it := by
    intro it hit
    obtain ⟨i, -, rfl⟩ := List.mem_map.mp hit
    exact toItem_known i
  have hnl : ∀ m, Item.lar m ∈ padTo y.label.length (its.map (NpItem.toItem (L := L))) → m.Valid := by
    intro m hmem
    unfold padTo at hmem
    rcases List.mem_append.mp hmem with hh | hh
    · obtain ⟨it, -, he⟩ := List.mem_map.mp hh
      exact absurd he (toItem_ne_lar it m)
    · rw [List.mem_replicate] at hh; simp at hh
  have hiff := fun r => Larry.h5Index_ok (z := z) hv hn hkn (x := r)
  rw [map_toItem_np] at hiff
  simp only [List.length_map, List.forall_mem_map] at hiff
  constructor
  · intro g hg
    obtain ⟨r, h1, h2⟩ := h5Index_map hg
    obtain ⟨hlen, hf, ss, hr, hz, hone, hx⟩ := (hiff r).mp h1
    have hpl : (padTo y.label.length (its.map (NpItem.toItem (L := L)))).length = y.label.length :=
      padTo_length (by simp; omega)
    have hr2 := hr
    rw [← Larry.map_pad, map_toItem_np] at hr2
    obtain ⟨parts, a1, a2, -⟩ := axes_resolve hv.nodup (by simp; omega) hr2
    rw [Larry.map_pad] at a1 a2
    obtain ⟨⟨labs, hk⟩, -⟩ := axes_of_picks hnl hpl a1
    obtain ⟨parts', c1, -, -, c4, -⟩ := axes_ok hpl hnl hk hr
    have := takesParts_unique hv.nodup (show TakesParts y.label (its.map NpItem.toItem) parts from a1) c1
    subst this
    refine ⟨hlen, oneList_padTo.mp ((fancy_le_one a2).mp hone), hf, parts, a1, ?_, ?_⟩
    · intro hz' l hl h0
      rw [c4] at hz
      exact hz hz' l.length (List.mem_map_of_mem hl) (by rw [h0]; rfl)
    · rw [← h2, hx, ← c4]
  · intro parts hlen hone hf hp hz
    have hpl : (padTo y.label.length (its.map (NpItem.toItem (L := L)))).length = y.label.length :=
      padTo_length (by simp; omega)
    obtain ⟨⟨labs, hk⟩, ss, hr⟩ := axes_of_picks hnl hpl hp
    obtain ⟨parts', c1, c2, -, c4, -⟩ := axes_ok hpl hnl hk hr
    have := takesParts_unique hv.nodup hp c1
    subst this
    have h1 := (hiff ⟨keptLens ss, fun idx => y.x.get (fill ss idx)⟩).mpr ⟨hlen, hf, ss, hr, ?_,
      (fancy_le_one c2).mpr (oneList_padTo.mpr hone), rfl⟩
    · obtain ⟨g, h2, h3⟩ := h5Index_unmap h1
      exact ⟨g, h2, by rw [h3, ← c4]⟩
    · intro hz' n hn' h0
      rw [c4, List.mem_map] at hn'
      obtain ⟨l, hl, rfl⟩ := hn'
      exact hz hz' l hl (List.length_eq_zero_iff.mp h0)

/-- C93. When `io[key][index] = v` succeeds, for an index that is not a boolean array alone: numpy would
find what the index asks for, with at most one list; slices go forward and lists increase; with an h5py
that asks for it nothing selected is empty; and a list leaves one axis at most, or nothing. -/
theorem C93_succeeds (f : Archive) (key : String) (y : Larry PyLabel) (a : Lara) (z : Bool) (idx : NpIndex)
    (v : Val) (hl : f.load key = .ok y) (ha : f.lara key = .ok a)
    (hn : NoNegative (idx.items.map (NpItem.toItem (L := PyLabel)))) (hb : ∀ bs, idx ≠ .one (.mask bs)) :
    (∃ f', a.setAt z f idx (.scalar v) = (f', .ok ())) ↔
      idx.items.length ≤ y.ndim ∧ OneList (idx.items.map (NpItem.toItem (L := PyLabel))) ∧
      (∀ it ∈ idx.items, (it.toItem : Item PyLabel).Forward) ∧
      ∃ parts, TakesParts y.label (idx.items.map NpItem.toItem) parts ∧
        (z = false → ∀ l ∈ Part.labels parts, l ≠ []) ∧
        ((∃ it ∈ idx.items, (it.toItem : Item PyLabel).IsList) →
          (Part.labels parts).length ≤ 1 ∨ [] ∈ Part.labels parts) := by
  obtain ⟨-, h2, -, hv⟩ := load_ok hl
  have hpos : (∃ f', a.setAt z f idx (.scalar v) = (f', .ok ())) ↔ ∃ g, h5Positions z y.x.shape idx = .ok g := by
    constructor
    · rintro ⟨f', h⟩
      obtain ⟨g, hg, -⟩ := set_ok hl (lara_key hl ha).1 h
      exact ⟨g, hg⟩
    · rintro ⟨g, hg⟩
      unfold Lara.setAt
      rw [(lara_key hl ha).1, h2]
      simp only [hg]
      exact ⟨_, rfl⟩
  have hdef : h5Positions z y.x.shape idx = match h5Index z ⟨y.x.shape, id⟩ idx.items with
      | .error e => .error e
      | .ok g => if idx.items.any NpItem.isList = true ∧ g.shape.length > 1 ∧ 0 ∉ g.shape then .error .typeError
          else .ok g := by
    unfold h5Positions
    split
    · rename_i bs
      exact absurd rfl (hb bs)
    · rfl
  rw [hpos, hdef]
  obtain ⟨k1, k2⟩ := h5Index_parts (z := z) hv hn
  have hlist : idx.items.any NpItem.isList = true ↔ ∃ it ∈ idx.items, (it.toItem : Item PyLabel).IsList := by
    rw [List.any_eq_true]
    simp only [isList_toItem (L := PyLabel)]
  have hzero : ∀ parts : List (Part PyLabel), 0 ∉ (Part.labels parts).map List.length ↔ [] ∉ Part.labels parts := by
    intro parts
    constructor
    · intro h hc
      exact h (List.mem_map.mpr ⟨[], hc, rfl⟩)
    · intro h hc
      obtain ⟨l, hl, h0⟩ := List.mem_map.mp hc
      rw [List.length_eq_zero_iff.mp h0] at hl
      exact h hl
  constructor
  · rintro ⟨g, hg⟩
    split at hg
    · simp at hg
    · rename_i g0 hg0
      split at hg
      · simp at hg
      · rename_i hcond
        obtain ⟨b1, b2, b3, parts, b4, b5, b6⟩ := k1 g0 hg0
        refine ⟨b1, b2, b3, parts, b4, b5, fun hex => ?_⟩
        rw [b6, hzero, List.length_map, hlist] at hcond
        by_contra hc
        rw [not_or] at hc
        exact hcond ⟨hex, by omega, hc.2⟩
  · rintro ⟨b1, b2, b3, parts, b4, b5, b6⟩
    obtain ⟨g, hg, hsh⟩ := k2 parts b1 b2 b3 b4 b5
    rw [hg]
    simp only
    rw [if_neg]
    · exact ⟨g, rfl⟩
    · rw [hsh, hzero, List.length_map, hlist]
      rintro ⟨h1, h3, h4⟩
      rcases b6 h1 with h5 | h5
      · omega
      · exact h4 h5

/-- C93. A boolean array alone must have the shape of the larry, which therefore has one axis. -/
theorem C93_succeeds_mask (f : Archive) (key : String) (y : Larry PyLabel) (a : Lara) (z : Bool)
    (bs : List Bool) (v : Val) (hl : f.load key = .ok y) (ha : f.lara key = .ok a) :
    (∃ f', a.setAt z f (.one (.mask bs)) (.scalar v) = (f', .ok ())) ↔ y.shape = [bs.length] := by
  obtain ⟨-, h2, -, -⟩ := load_ok hl
  constructor
  · rintro ⟨f', h⟩
    obtain ⟨g, hg, -⟩ := set_ok hl (lara_key hl ha).1 h
    by_contra hc
    have hc : ¬ y.x.shape = [bs.length] := hc
    simp [h5Positions, hc] at hg
  · intro hs
    have hs : y.x.shape = [bs.length] := hs
    have hlt : ∀ k ∈ trues bs, k < bs.length := by
      intro k hk
      unfold trues at hk
      obtain ⟨q, hq, rfl⟩ := List.mem_map.mp hk
      have := (List.mem_filter.mp hq).1
      have := List.snd_lt_of_mem_zipIdx this
      simpa using this
    have hk : ∃ g, h5Index true (⟨[bs.length], id⟩ : NDArray (List Nat)) [.mask bs] = .ok g := by
      unfold h5Index
      simp only [List.length_singleton, gt_iff_lt, lt_self_iff_false, if_false, Nat.sub_self, List.replicate_zero,
        List.append_nil, List.zip_cons_cons, List.zip_nil_left, mapRes]
      have hseq := (h5Seq_ok (z := true) (n := bs.length) (is := (trues bs).map (fun k : Nat => (k : Int)))
        (by simp) (sel := .fancy (trues bs))).mpr ⟨trues bs, mapRes_trues hlt, rfl, by
          rw [List.pairwise_map]
          exact (trues_sorted bs).imp (by intro a b h; omega), by simp⟩
      simp only [h5Resolve, hseq]
      exact ⟨_, rfl⟩
    obtain ⟨g, hg⟩ := hk
    unfold Lara.setAt
    rw [(lara_key hl ha).1, h2]
    simp only [h5Positions, hs, if_true, hg]
    exact ⟨_, rfl⟩

/-! ## Programs of assignments -/

/-- `io[key][index] = v` -/
structure Write where
  key : String
  idx : NpIndex
  v : Val

/-- The call. -/
def Write.run (z : Bool) (f : Archive) (w : Write) : Archive × Res Unit :=
  match f.lara w.key with
  | .error e => (f, .error e)
  | .ok a => a.setAt z f w.idx (.scalar w.v)

/-- The calls one after the other, with their outcomes. -/
def runWrites (z : Bool) (f : Archive) : List Write → Archive × List (Res Unit)
  | [] => (f, [])
  | w :: ws => ((runWrites z (w.run z f).1 ws).1, (w.run z f).2 :: (runWrites z (w.run z f).1 ws).2)

/-- The assignments that went through, made one after the other to the larry under `key`. -/
inductive Written (key : String) : List Write → List (Res Unit) → Larry PyLabel → Larry PyLabel → Prop
  | nil (y : Larry PyLabel) : Written key [] [] y y
  | mine {w ws outs y y' y''} (hk : comps w.key = comps key) (h : y.setAt id w.idx (.scalar w.v) = .ok y')
      (hr : Written key ws outs y' y'') : Written key (w :: ws) (.ok () :: outs) y y''
  | other {w ws out outs y y''} (hk : comps w.key ≠ comps key) (hr : Written key ws outs y y'') :
      Written key (w :: ws) (out :: outs) y y''
  | raised {w ws e outs y y''} (hr : Written key ws outs y y'') : Written key (w :: ws) (.error e :: outs) y y''

theorem lara_loads {f : Archive} {k key : String} (hk : comps k = comps key) {y : Larry PyLabel}
    (hl : f.load key = .ok y) : f.load k = .ok y := by
  unfold Archive.load at hl ⊢
  rw [hk]; exact hl

/-- A call through a lara changes at most the array of one larry. -/
theorem setAt_oneArray {f f' : Archive} {a : Lara} {z : Bool} {idx : NpIndex} {v : Val}
    (h : a.setAt z f idx (.scalar v) = (f', .ok ())) : ∃ x x' d, OneArray f f' (comps a.key) x x' d := by
  unfold Lara.setAt at h
  split at h
  · simp at h
  · simp at h
  · simp at h
  · rename_i x d hx
    simp only at h
    split at h
    · simp at h
    · rename_i g hg
      simp only [Prod.mk.injEq, and_true] at h
      subst h
      exact ⟨x, _, d, oneArray_write hx (NDArray.assignGrid_shape _ _ _)⟩

/-- C93. After any sequence of assignments to any keys, the larry under a key is the one that was there
with the successful assignments to that key made in order. -/
theorem C93_program (z : Bool) (key : String) (ws : List Write) (f : Archive) (y : Larry PyLabel)
    (hl : f.load key = .ok y) :
    ∃ y', (runWrites z f ws).1.load key = .ok y' ∧ Written key ws (runWrites z f ws).2 y y' := by
  induction ws generalizing f y with
  | nil => exact ⟨y, hl, .nil y⟩
  | cons w ws ih =>
    simp only [runWrites]
    cases hr : w.run z f with
    | mk f1 out =>
    simp only
    cases out with
    | error e =>
      have : f1 = f := by
        unfold Write.run at hr
        split at hr
        · simp only [Prod.mk.injEq] at hr; exact hr.1.symm
        · exact (C93_error f f1 _ z e).1 _ _ hr
      subst this
      obtain ⟨y', h1, h2⟩ := ih f1 y hl
      exact ⟨y', h1, .raised h2⟩
    | ok u =>
      unfold Write.run at hr
      split at hr
      · simp at hr
      · rename_i a ha
        have hkey : a.key = w.key := by
          unfold Archive.lara at ha
          repeat' split at ha
          all_goals simp_all
          rw [← ha]
        by_cases hk : comps w.key = comps key
        · have hl' := lara_loads hk hl
          have h3 := C93_assign f f1 w.key y a z w.idx w.v id hl' ha hr
          obtain ⟨-, y1, -, h4, -⟩ := C93_cells f f1 w.key y a z w.idx w.v hl' ha hr
          obtain ⟨y', h1, h2⟩ := ih f1 y1 (lara_loads hk.symm h4)
          exact ⟨y', h1, .mine hk (by rw [← h3, h4]) h2⟩
        · obtain ⟨x, x', d, ho⟩ := setAt_oneArray hr
          rw [hkey] at ho
          obtain ⟨y', h1, h2⟩ := ih f1 y (by rw [ho.load_other (fun h => hk h.symm)]; exact hl)
          exact ⟨y', h1, .other hk h2⟩

/-! ## Histories with assignments to larrys and to their parts -/

/-- One call: `io[key] = y`, `del io[key]` or `io[key][index] = v`. -/
inductive IOCall
  | op (o : Op)
  | write (w : Write)

/-- The key. -/
def IOCall.key : IOCall → String
  | .op o => o.key
  | .write w => w.key

/-- The call. -/
def IOCall.run (z : Bool) (f : Archive) : IOCall → Archive × Res Unit
  | .op o => o.run f
  | .write w => w.run z f

/-- What the call would do to a dictionary of larrys.  Whether h5py can do an assignment depends only on
the shape and the index (`C93_succeeds`). -/
def IOCall.spec (z : Bool) (D : Dict) : IOCall → Dict × Res Unit
  | .op o => o.spec D
  | .write w => match D w.key with
    | none => (D, .error .keyError)
    | some y => match h5Positions z y.shape w.idx with
      | .error e => (D, .error e)
      | .ok _ => match y.setAt id w.idx (.scalar w.v) with
        | .error e => (D, .error e)
        | .ok y' => (Function.update D w.key (some y'), .ok ())

/-- The calls one after the other, with their outcomes. -/
def runIO (z : Bool) (f : Archive) : List IOCall → Archive × List (Res Unit)
  | [] => (f, [])
  | c :: cs => ((runIO z (c.run z f).1 cs).1, (c.run z f).2 :: (runIO z (c.run z f).1 cs).2)

/-- The same calls on a dictionary. -/
def specIO (z : Bool) (D : Dict) : List IOCall → Dict × List (Res Unit)
  | [] => (D, [])
  | c :: cs => ((specIO z (c.spec z D).1 cs).1, (c.spec z D).2 :: (specIO z (c.spec z D).1 cs).2)

/-- Writing into a stored larry keeps archive and dictionary together. -/
theorem Rep.write {K : List String} {D : Dict} {f g : Archive} (h : Rep K D f) (hK : Separate K)
    {k : String} (hk : k ∈ K) {y : Larry PyLabel} {x' : NDArray Val} (hd : D k = some y)
    (ho : OneArray f g (comps k) y.x x' y.dtype) : Rep K (Function.update D k (some ⟨x', y.dtype, y.label⟩)) g := by
  have hne : ∀ k' ∈ K, k' ≠ k → ∀ r, comps k' ++ r ≠ comps k ++ ["x"] := by
    intro k' hk' hn r he
    have h1 : comps k' <+: comps k ++ ["x"] := ⟨r, he⟩
    rcases List.prefix_or_prefix_of_prefix h1 (List.prefix_append (comps k) ["x"]) with h2 | h2
    · exact (hK k' hk').2 k hk hn h2
    · exact (hK k hk).2 k' hk' (Ne.symm hn) h2
  refine ⟨ho.wf h.wf, ?_, ?_, ?_⟩
  · intro k' hk' y' hy'
    by_cases hkk : k' = k
    · subst hkk
      simp only [Function.update_self, Option.some.injEq] at hy'
      subst hy'
      obtain ⟨hl, hn⟩ := h.stored k' hk' y hd
      have hnd : Larry.ndim ⟨x', y.dtype, y.label⟩ = y.ndim := by
        unfold Larry.ndim NDArray.ndim
        rw [ho.shape]
      refine ⟨⟨(ho.group _ _).mpr hl.group, ho.new, ?_⟩, ?_⟩
      · intro i hi
        rw [hnd] at hi
        obtain ⟨l, cs, tag, h1, h2, h3⟩ := hl.axis i hi
        refine ⟨l, cs, tag, h1, h2, ?_⟩
        rw [ho.rest]
        · exact h3
        · intro he
          exact toString_nat_ne_x i (by simpa using (List.append_inj_right' he rfl))
      · intro r h1 h2 h3
        rw [hnd] at h3
        rw [ho.rest]
        · exact hn r h1 h2 h3
        · intro he
          exact h2 (List.append_cancel_left he)
    · rw [Function.update_of_ne hkk] at hy'
      obtain ⟨hl, hn⟩ := h.stored k' hk' y' hy'
      have he : ∀ r, g.get (comps k' ++ r) = f.get (comps k' ++ r) := fun r => ho.rest _ (hne k' hk' hkk r)
      refine ⟨⟨?_, ?_, ?_⟩, ?_⟩
      · have := he []
        simp only [List.append_nil] at this
        rw [this]; exact hl.group
      · rw [he]; exact hl.x
      · intro i hi
        rw [he]; exact hl.axis i hi
      · intro r h1 h2 h3
        rw [he]; exact hn r h1 h2 h3
  · intro k' hk' hd' r
    by_cases hkk : k' = k
    · subst hkk; simp at hd'
    · rw [Function.update_of_ne hkk] at hd'
      rw [ho.rest _ (hne k' hk' hkk r)]
      exact h.absent k' hk' hd' r
  · intro q n hq hn
    rw [ho.rest] at hn
    · exact h.rest q n hq hn
    · rintro rfl
      exact hq k hk (List.prefix_append _ _)

theorem Archivable.setAt {y y' : Larry PyLabel} (hy : Archivable y) {idx : NpIndex} {v : Val}
    (h : y.setAt id idx (.scalar v) = .ok y') : Archivable y' ∧ ∃ x', y' = ⟨x', y.dtype, y.label⟩ := by
  simp only [Larry.setAt, Larry.putAt] at h
  split at h
  · simp at h
  · rename_i g hg
    simp only [Except.ok.injEq] at h
    subst h
    exact ⟨⟨⟨by rw [NDArray.assignGrid_shape]; exact hy.valid.shape_eq, hy.valid.nodup, hy.valid.ndim_pos⟩,
      hy.dtype, hy.label⟩, _, rfl⟩

theorem IOCall.step {K : List String} {D : Dict} {f : Archive} (z : Bool) (h : Rep K D f) (hK : Separate K)
    (hD : ∀ k y, D k = some y → Archivable y) (c : IOCall) (hk : c.key ∈ K)
    (hy : ∀ k y, c = .op (.set k y) → Archivable y) :
    (c.run z f).2 = (c.spec z D).2 ∧ Rep K (c.spec z D).1 (c.run z f).1 ∧
      ∀ k y, (c.spec z D).1 k = some y → Archivable y := by
  cases c with
  | op o =>
    obtain ⟨h1, h2⟩ := h.step hK o hk (fun k y he => hy k y (by rw [he]))
    refine ⟨h1, h2, ?_⟩
    have := specOps_archivable [o] D hD (by
      intro o' ho' k y he
      simp only [List.mem_singleton] at ho'
      exact hy k y (by rw [← he, ho']))
    exact this
  | write w =>
    simp only [IOCall.key] at hk
    simp only [IOCall.run, IOCall.spec, Write.run]
    cases hd : D w.key with
    | none =>
      have : f.lara w.key = .error .keyError := by
        unfold Archive.lara
        rw [h.load_none hk hd]
      rw [this]
      exact ⟨rfl, h, hD⟩
    | some y =>
      obtain ⟨hlay, -⟩ := h.stored w.key hk y hd
      have hl := hlay.load (hD _ _ hd)
      obtain ⟨a, ha, -⟩ := C60_lara f w.key y hl
      rw [ha]
      obtain ⟨hak, -⟩ := lara_key hl ha
      simp only [Lara.setAt, hak, hlay.x]
      cases hp : h5Positions z y.x.shape w.idx with
      | error e =>
        have hp' : h5Positions z y.shape w.idx = .error e := hp
        rw [hp']
        exact ⟨rfl, h, hD⟩
      | ok g =>
        have hp' : h5Positions z y.shape w.idx = .ok g := hp
        obtain ⟨g', h1, h2, -⟩ := h5Positions_range hp
        have hset : y.setAt id w.idx (.scalar w.v) =
            .ok ⟨y.x.assignGrid g (fun _ => w.v), y.dtype, y.label⟩ := by
          simp only [Larry.setAt, Larry.putAt, h1, assign_congr h2]
        rw [hp']
        simp only [hset]
        refine ⟨trivial, h.write hK hk hd (oneArray_write hlay.x (NDArray.assignGrid_shape _ _ _)), ?_⟩
        intro k y' hky
        by_cases hkk : k = w.key
        · subst hkk
          simp only [Function.update_self, Option.some.injEq] at hky
          subst hky
          exact ((hD _ _ hd).setAt hset).1
        · rw [Function.update_of_ne hkk] at hky
          exact hD k y' hky

/-- Calls on archive and dictionary keep the two together. -/
theorem Rep.runIO {K : List String} (hK : Separate K) (z : Bool) (cs : List IOCall) {D : Dict} {f : Archive}
    (h : Rep K D f) (hD : ∀ k y, D k = some y → Archivable y) (hk : ∀ c ∈ cs, c.key ∈ K)
    (hy : ∀ c ∈ cs, ∀ k y, c = .op (.set k y) → Archivable y) :
    (La.runIO z f cs).2 = (specIO z D cs).2 ∧ Rep K (specIO z D cs).1 (La.runIO z f cs).1 ∧
      ∀ k y, (specIO z D cs).1 k = some y → Archivable y := by
  induction cs generalizing D f with
  | nil => exact ⟨rfl, h, hD⟩
  | cons c cs ih =>
    obtain ⟨h1, h2, h3⟩ := IOCall.step z h hK hD c (hk c (by simp)) (hy c (by simp))
    obtain ⟨g1, g2, g3⟩ := ih h2 h3 (fun c hc => hk c (by simp [hc])) (fun c hc => hy c (by simp [hc]))
    simp only [La.runIO, specIO]
    exact ⟨by rw [h1, g1], g2, g3⟩

/-- C93. After any sequence of assignments of larrys, deletions and assignments to parts of stored larrys,
on keys that do not lead through one another, the archive is the dictionary of larrys on which the same
was done: every call had the same outcome, `load` gives what the dictionary holds, and `keys()` lists its
keys. -/
theorem C93_history (K : List String) (hK : Separate K) (z : Bool) (cs : List IOCall)
    (hk : ∀ c ∈ cs, c.key ∈ K) (hy : ∀ c ∈ cs, ∀ k y, c = .op (.set k y) → Archivable y) :
    (runIO z Archive.empty cs).2 = (specIO z (fun _ => none) cs).2 ∧
    (∀ k ∈ K, ∀ y, (specIO z (fun _ => none) cs).1 k = some y →
      (runIO z Archive.empty cs).1.load k = .ok y) ∧
    (∀ k ∈ K, (specIO z (fun _ => none) cs).1 k = none →
      (runIO z Archive.empty cs).1.load k = .error .keyError) ∧
    ∃ ks, (runIO z Archive.empty cs).1.keys = .ok ks ∧ ks.Nodup ∧
      ∀ s, s ∈ ks ↔ ∃ k ∈ K, ((specIO z (fun _ => none) cs).1 k).isSome ∧ s = joinSlash (comps k) := by
  obtain ⟨h1, h2, h3⟩ := (rep_empty K hK).runIO hK z cs (by simp) hk hy
  refine ⟨h1, fun k hkK y hd => (h2.stored k hkK y hd).1.load (h3 k y hd), ?_, h2.keys hK⟩
  intro k hkK hd
  unfold Archive.load
  rw [h2.load_none hkK hd]

/-! ## Witnesses and examples -/

/-- A boolean larry with the labels of `exIO2`. -/
def exMaskIO : Larry PyLabel :=
  ⟨NDArray.ofList [3] [.bool true, .bool false, .bool false], .bool, exIO2.label⟩

theorem exIO3_archivable : Archivable exIO3 := by
  refine ⟨⟨rfl, by decide +kernel, by decide⟩, by decide, ?_⟩
  intro l hl
  simp only [exIO3, List.mem_cons, List.not_mem_nil, or_false] at hl
  subst hl
  constructor
  · intro a ha b hb
    simp only [List.mem_cons, List.not_mem_nil, or_false] at ha hb
    rcases ha with rfl | rfl | rfl <;> rcases hb with rfl | rfl | rfl <;> rfl
  · intro a ha
    simp only [List.mem_cons, List.not_mem_nil, or_false] at ha
    rcases ha with rfl | rfl | rfl <;> (show _ ∧ _; decide)

/-- A lara keeps the labels it was made with: after the key is overwritten with the labels in another
order, a boolean larry with the old labels passes for aligned, and the assignment meant for label 1
overwrites the value of label 3. -/
theorem C93_stale : exMaskIO.Has [.int 1] (.bool true) ∧ (exLara.setitem "v" exIO3).2 = .ok () ∧
    ∃ w, (Lara.setMask (exLara.setitem "v" exIO3).1 ⟨"v", exIO2.label⟩ exMaskIO (.int 0)).2 = .ok () ∧
      (Lara.setMask (exLara.setitem "v" exIO3).1 ⟨"v", exIO2.label⟩ exMaskIO (.int 0)).1.load "v" = .ok w ∧
      w.Has [.int 3] (.int 0) ∧ exIO3.Has [.int 3] (.int 4) ∧ w.Has [.int 1] (.int 6) := by
  have ho : (exLara.setitem "v" exIO3).2 = .ok () := by decide +kernel
  have hl : (exLara.setitem "v" exIO3).1.load "v" = .ok exIO3 :=
    C56_set_get exLara _ (save_wf Archive.wf_empty exIO2 "v") "v" exIO3 exIO3_archivable (Prod.ext rfl ho)
  have hok : (Lara.setMask (exLara.setitem "v" exIO3).1 ⟨"v", exIO2.label⟩ exMaskIO (.int 0)).2 = .ok () := by
    decide +kernel
  obtain ⟨-, -, -, h1⟩ := setMask_ok (a := ⟨"v", exIO2.label⟩) hl rfl (Prod.ext rfl hok)
  obtain ⟨-, -, h2⟩ := h1.load rfl hl
  refine ⟨⟨[0], by simp [exMaskIO, exIO2, At], by decide +kernel⟩, ho, _, hok, h2, ?_, ?_, ?_⟩
  · exact ⟨[0], by simp [exIO3, At], by decide +kernel⟩
  · exact ⟨[0], by simp [exIO3, At], by decide +kernel⟩
  · exact ⟨[2], by simp [exIO3, At], by decide +kernel⟩

/-- The hypotheses are met: an assignment to two of the three cells, and one that h5py refuses. -/
example : NoNegative ([NpItem.slice ⟨some 1, none, none⟩].map (NpItem.toItem (L := PyLabel))) ∧
    (∃ f', Lara.setAt false exLara ⟨"v", exIO2.label⟩ (.one (.slice ⟨some 1, none, none⟩)) (.scalar (.int 0)) = (f', .ok ())) ∧
    (Lara.setAt false exLara ⟨"v", exIO2.label⟩ (.one (.slice ⟨none, none, some (-1)⟩)) (.scalar (.int 0))).2 = .error .valueError ∧
    (Lara.setMask exLara ⟨"v", exIO2.label⟩ exMaskIO (.int 0)).2 = .ok () := by
  refine ⟨?_, ⟨_, rfl⟩, by decide +kernel, by decide +kernel⟩
  intro is his
  simp [NpItem.toItem] at his

/-- A larry that could be assigned to the loaded larry. -/
example : ∃ s, Lara.get false exLara ⟨"v", exIO2.label⟩ (NpIndex.one (.slice {})).toIndex = .ok (.larry s) ∧
    s.label = exIO2.label ∧ (exIO2.setAt id (.one (.slice {})) (.lar exIO2)).isOk = true ∧
    (Lara.setAt false exLara ⟨"v", exIO2.label⟩ (.one (.slice {})) (.lar exIO2)).2 = .error .typeError := by
  rw [lara_get exLara_load exLara_lara]
  exact ⟨_, rfl, rfl, rfl, by decide +kernel⟩

/-- A history to which `C93_history` applies: larrys stored and deleted, parts of them written, one index
that h5py refuses, and a write to a key that is gone. -/
def exCalls : List IOCall :=
  [.op (.set "price" exIO2), .write ⟨"price", .one (.slice ⟨some 1, none, none⟩), .int 0⟩,
    .write ⟨"price", .one (.slice ⟨none, none, some (-1)⟩), .int 5⟩, .op (.set "g/a" exIO2),
    .op (.del "price"), .write ⟨"price", .one (.int 0), .int 1⟩, .write ⟨"g/a", .one (.int 0), .int 7⟩]

example : (specIO false (fun _ => none) exCalls).2
    = [.ok (), .ok (), .error .valueError, .ok (), .ok (), .error .keyError, .ok ()] := by
  decide +kernel

example : (∀ c ∈ exCalls, c.key ∈ ["price", "g/a", "g/b"]) ∧
    ∀ c ∈ exCalls, ∀ k y, c = .op (.set k y) → Archivable y := by
  constructor
  · unfold exCalls; simp [IOCall.key, Op.key]
  · intro c hc k y he
    subst he
    simp only [exCalls, List.mem_cons, IOCall.op.injEq, Op.set.injEq, reduceCtorEq, List.not_mem_nil, or_false,
      false_or] at hc
    rcases hc with ⟨-, rfl⟩ | ⟨-, rfl⟩
    all_goals exact exIO2_archivable

end La
