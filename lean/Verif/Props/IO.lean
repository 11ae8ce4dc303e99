import Verif.IOFacts
import Verif.Props.IOLabel
import Verif.Props.Index

/-!
# The archive as a dictionary (la/io.py): C56 and C59
-/

namespace La
open Archive

/-! ## Specification -/

/-- The larrys the archive can hold without loss: valid, not of dtype object, the labels of every axis
of one archivable type. -/
structure Archivable (y : Larry PyLabel) : Prop where
  valid : y.Valid
  dtype : y.dtype ≠ .object
  label : ∀ l ∈ y.label, Homogeneous l ∧ ∀ a ∈ l, a.Lossless

/-- How a larry lies in the archive (the docstring of `save`, la/io.py:376-385): a group with the
attribute `larry`, in it a dataset `x` and one dataset per axis. -/
structure Layout (f : Archive) (p : Path) (y : Larry PyLabel) : Prop where
  group : f.get p = some (.group true)
  x : f.get (p ++ ["x"]) = some (.arr y.x y.dtype)
  axis : ∀ i < y.ndim, ∃ l cs tag, y.label[i]? = some l ∧ list2array l = .ok (cs, tag) ∧
    f.get (p ++ [toString i]) = some (.lab cs tag)

/-- Nothing else is beneath the group. -/
def NothingElse (f : Archive) (p : Path) (ndim : Nat) : Prop :=
  ∀ r : Path, r ≠ [] → r ≠ ["x"] → (∀ i < ndim, r ≠ [toString i]) → f.get (p ++ r) = none

/-- One call that changes the archive. -/
inductive Op
  | set (key : String) (y : Larry PyLabel)     -- io[key] = y
  | del (key : String)                         -- del io[key]

def Op.key : Op → String
  | .set k _ => k
  | .del k => k

def Op.run (f : Archive) : Op → Archive × Res Unit
  | .set k y => f.setitem k y
  | .del k => f.delete k

/-- The calls one after the other, with their outcomes. -/
def runOps (f : Archive) : List Op → Archive × List (Res Unit)
  | [] => (f, [])
  | op :: ops => ((runOps (op.run f).1 ops).1, (op.run f).2 :: (runOps (op.run f).1 ops).2)

/-- A dictionary. -/
abbrev Dict := String → Option (Larry PyLabel)

/-- What the calls would do to a dictionary.  The archive departs from it in one way: a key that is not
a plain name (it contains a slash) cannot be overwritten, it must be deleted first. -/
def Op.spec (D : Dict) : Op → Dict × Res Unit
  | .set k y =>
    if (D k).isSome ∧ comps k ≠ [k] then (D, .error .runtimeError)
    else (Function.update D k (some y), .ok ())
  | .del k => match D k with
    | none => (D, .error .keyError)
    | some _ => (Function.update D k none, .ok ())

def specOps (D : Dict) : List Op → Dict × List (Res Unit)
  | [] => (D, [])
  | op :: ops => ((specOps (op.spec D).1 ops).1, (op.spec D).2 :: (specOps (op.spec D).1 ops).2)

/-- No key stands for a path that leads through that of another one. -/
def Separate (K : List String) : Prop :=
  ∀ k ∈ K, comps k ≠ [] ∧ ∀ k' ∈ K, k ≠ k' → ¬ comps k <+: comps k'

/-! ## `save` -/

theorem Layout.isLarry {f : Archive} {p : Path} {y : Larry PyLabel} (h : Layout f p y) :
    f.isLarry p = .ok true := by
  unfold Archive.isLarry
  rw [h.group]
  simp only [h.x, Node.shape, Except.ok.injEq, hasLabels, List.all_eq_true, List.mem_range]
  intro i hi
  obtain ⟨l, cs, tag, -, -, hg⟩ := h.axis i hi
  rw [hg]; rfl

theorem Layout.checkKey {f : Archive} {p : Path} {y : Larry PyLabel} (h : Layout f p y) :
    f.checkKey p = .ok () := by
  unfold Archive.checkKey
  rw [h.group]
  simp only [h.isLarry]

/-- A larry laid out in the archive is loaded back. -/
theorem Layout.loadLabel {f : Archive} {p : Path} {y : Larry PyLabel} (h : Layout f p y)
    (hy : y.Valid) (hok : ∀ l ∈ y.label, ∀ a ∈ l, a.Ok) :
    f.loadLabel p = .ok (y.label.map (List.map PyLabel.archived)) := by
  unfold Archive.loadLabel
  rw [h.x]
  simp only [Node.shape]
  rw [mapRes_ok, List.forall₂_iff_get]
  have hlen : y.x.shape.length = y.label.length := by rw [hy.shape_eq]; simp
  refine ⟨by simp [hlen], ?_⟩
  intro i hi hi'
  simp only [List.get_eq_getElem, List.getElem_range, List.getElem_map]
  simp only [List.length_range] at hi
  obtain ⟨l, cs, tag, hl, ha, hg⟩ := h.axis i hi
  unfold loadAxis
  rw [hg]
  simp only
  have : l = y.label[i]'(by omega) := by
    rw [List.getElem?_eq_getElem (by omega)] at hl
    simpa using hl.symm
  subst this
  exact C57_exact _ cs tag (hok _ (List.getElem_mem _)) ha

theorem Layout.load {f : Archive} {key : String} {y : Larry PyLabel} (h : Layout f (comps key) y)
    (hy : Archivable y) : f.load key = .ok y := by
  have hlab := h.loadLabel hy.valid (fun l hl a ha => ((hy.label l hl).2 a ha).ok)
  have hid : y.label.map (List.map PyLabel.archived) = y.label := by
    conv_rhs => rw [← List.map_id y.label]
    refine List.map_congr_left (fun l hl => ?_)
    conv_rhs => rw [id, ← List.map_id l]
    exact List.map_congr_left (fun a ha => ((hy.label l hl).2 a ha).archived_eq)
  rw [hid] at hlab
  have hsh : y.x.shape ≠ [] := by
    rw [hy.valid.shape_eq]
    simpa using hy.valid.ndim_pos
  unfold Archive.load readX
  rw [h.checkKey, h.x, hlab]
  simp only [if_neg hsh]
  rw [Larry.mk'_ok]
  exact ⟨rfl, hy.valid⟩

theorem save_around (f : Archive) (y : Larry PyLabel) (key : String) :
    Around (comps key) f (f.save y key).1 := by
  have h0 : Around (comps key) f (f.createGroups [] (comps key)).1 := by
    refine ⟨fun q hq => ?_⟩
    have := (createGroups_spec f [] (comps key)).1 q (by simpa using hq)
    simpa using this
  unfold save
  split
  · rename_i f1 e he
    rw [he] at h0; exact h0
  · rename_i f1 u he
    rw [he] at h0
    have h1 := h0.trans (Around.flag (f := f1) (comps key))
    split
    · exact h1
    · split
      · exact h1
      · rename_i f2 hc
        obtain ⟨hn, rfl⟩ := create_ok hc
        exact (h1.trans (Around.add hn (List.prefix_append _ _))).trans
          (saveLabels_around _ _ _ _)

theorem goodName_x : GoodName "x" := ⟨by decide, by decide, by decide⟩

theorem save_wf {f : Archive} (hf : f.WF) (y : Larry PyLabel) (key : String) :
    (f.save y key).1.WF := by
  have h0 := createGroups_wf hf (cs := comps key) hf.root (comps_good key)
  have h1 := (createGroups_spec f [] (comps key)).2.2.2
  unfold save
  split
  · rename_i f1 e he
    rw [he] at h0; exact h0
  · rename_i f1 u he
    rw [he] at h0 h1
    obtain ⟨b, hb⟩ := h1 rfl hf.root
    simp only [List.nil_append] at hb
    have h2 := h0.flag hb
    have hg : (f1.flag (comps key)).get (comps key) = some (.group true) := by
      rw [get_flag, if_pos rfl, hb]; rfl
    split
    · exact h2
    · split
      · exact h2
      · rename_i f2 hc
        obtain ⟨hn, rfl⟩ := create_ok hc
        exact saveLabels_wf (h2.add hg goodName_x hn) (get_add_some hg)

/-- After `save` the larry lies in the archive. -/
theorem save_layout {f f' : Archive} (hf : f.WF) {y : Larry PyLabel} {key : String}
    (h : f.save y key = (f', .ok ())) : Layout f' (comps key) y := by
  have h1 := (createGroups_spec f [] (comps key)).2.2.2
  unfold save at h
  split at h
  · simp at h
  · rename_i f1 u he
    rw [he] at h1
    obtain ⟨b, hb⟩ := h1 rfl hf.root
    simp only [List.nil_append] at hb
    have hg : (f1.flag (comps key)).get (comps key) = some (.group true) := by
      rw [get_flag, if_pos rfl, hb]; rfl
    split at h
    · simp at h
    · split at h
      · simp at h
      · rename_i f2 hc
        obtain ⟨hn, rfl⟩ := create_ok hc
        obtain ⟨s1, -, s3⟩ := saveLabels_spec ((f1.flag (comps key)).add (comps key ++ ["x"])
          (.arr y.x y.dtype)) (comps key) y (List.range y.ndim)
        rw [h] at s1 s3
        refine ⟨s1 _ _ (get_add_some hg), s1 _ _ ?_, fun i hi => s3 rfl i (List.mem_range.2 hi)⟩
        rw [get_add _ _ _ hn, if_pos rfl]

/-- `save` succeeds where nothing is in the way. -/
theorem save_of {f : Archive} (hf : f.WF) {y : Larry PyLabel} (hy : Archivable y) {key : String}
    (hway : ∀ q n, q <+: comps key → f.get q = some n → ∃ b, n = .group b)
    (hfree : ∀ r, r ≠ [] → f.get (comps key ++ r) = none) :
    (f.save y key).2 = .ok () ∧ NothingElse (f.save y key).1 (comps key) y.ndim := by
  have hok : (f.createGroups [] (comps key)).2 = .ok () :=
    createGroups_of (fun q n _ h2 hq => hway q n (by simpa using h2) hq)
  have hs := createGroups_spec f [] (comps key)
  unfold save
  generalize hcg : f.createGroups [] (comps key) = r at hok hs
  obtain ⟨f1, u⟩ := r
  simp only at hok hs
  subst hok
  obtain ⟨-, -, hn1, -⟩ := hs
  have hfree1 : ∀ r, r ≠ [] → f1.get (comps key ++ r) = none := by
    intro r hr
    rcases hn1 _ (hfree r hr) with h | ⟨hp, -⟩
    · exact h
    · have := hp.length_le
      simp only [List.nil_append, List.length_append] at this
      exact absurd (List.length_eq_zero_iff.1 (by omega)) hr
  have hfree2 : ∀ r, r ≠ [] → (f1.flag (comps key)).get (comps key ++ r) = none := by
    intro r hr
    rw [get_flag, if_neg, hfree1 r hr]
    simpa using hr
  simp only [if_neg hy.dtype, create_of (hfree2 ["x"] (by simp))]
  have hfree3 : ∀ r, r ≠ [] → r ≠ ["x"] → ((f1.flag (comps key)).add (comps key ++ ["x"])
      (.arr y.x y.dtype)).get (comps key ++ r) = none := by
    intro r hr hrx
    rw [get_add _ _ _ (hfree2 ["x"] (by simp)), if_neg (by simpa using hrx), hfree2 r hr]
  constructor
  · apply saveLabels_of List.nodup_range
    · intro i _
      exact hfree3 _ (by simp) (by simpa using toString_nat_ne_x i)
    · intro i hi
      rw [List.mem_range] at hi
      have hlt : i < y.label.length := by
        rw [hy.valid.label_length]; exact hi
      have hmem : y.label[i] ∈ y.label := List.getElem_mem _
      obtain ⟨cs, tag, h, -⟩ := C57_roundtrip _ (hy.label _ hmem).1 (hy.label _ hmem).2
      exact ⟨_, cs, tag, List.getElem?_eq_getElem hlt, h⟩
  · intro r hr hrx hri
    apply (saveLabels_spec _ _ _ _).2.1
    · exact hfree3 r hr hrx
    · intro i hi he
      rw [List.mem_range] at hi
      exact hri i hi (by simpa using he)

/-! ## `delete` -/

theorem delete_wf {f : Archive} (hf : f.WF) (key : String) : (f.delete key).1.WF := by
  unfold Archive.delete
  split
  · exact hf
  · split
    · exact hf
    · rename_i h; exact hf.unlink h

theorem delete_around (f : Archive) (key : String) : Around (comps key) f (f.delete key).1 := by
  unfold Archive.delete
  split
  · exact .refl _ _
  · split
    · exact .refl _ _
    · exact .unlink _

theorem delete_ok {f f' : Archive} {key : String} (h : f.delete key = (f', .ok ())) :
    comps key ≠ [] ∧ f.checkKey (comps key) = .ok () ∧ f' = f.unlink (comps key) := by
  unfold Archive.delete at h
  split at h
  · simp at h
  · rename_i u hu
    split at h
    · simp at h
    · rename_i hne
      simp only [Prod.mk.injEq, and_true] at h
      exact ⟨hne, hu, h.symm⟩

theorem delete_of {f : Archive} {key : String} (hne : comps key ≠ [])
    (h : f.checkKey (comps key) = .ok ()) : f.delete key = (f.unlink (comps key), .ok ()) := by
  unfold Archive.delete
  simp only [h, if_neg hne]

/-! ## `io[key] = y` -/

theorem setitem_around (f : Archive) (y : Larry PyLabel) (key : String) :
    Around (comps key) f (f.setitem key y).1 := by
  unfold Archive.setitem
  split
  · exact save_around f y key
  · have hd := delete_around f key
    split
    · rename_i f1 e he
      rw [he] at hd; exact hd
    · rename_i f1 u he
      rw [he] at hd
      exact hd.trans (save_around f1 y key)

theorem setitem_wf {f : Archive} (hf : f.WF) (y : Larry PyLabel) (key : String) :
    (f.setitem key y).1.WF := by
  unfold Archive.setitem
  split
  · exact save_wf hf y key
  · have hd := delete_wf hf key
    split
    · rename_i f1 e he
      rw [he] at hd; exact hd
    · rename_i f1 u he
      rw [he] at hd
      exact save_wf hd y key

theorem setitem_layout {f f' : Archive} (hf : f.WF) {y : Larry PyLabel} {key : String}
    (h : f.setitem key y = (f', .ok ())) : Layout f' (comps key) y := by
  unfold Archive.setitem at h
  split at h
  · exact save_layout hf h
  · have hd := delete_wf hf key
    split at h
    · simp at h
    · rename_i f1 u he
      rw [he] at hd
      exact save_layout hd h

/-- `io[key] = y` then `load(file, key)`: the same larry, provided the assignment went through. -/
theorem C56_set_get (f f' : Archive) (hf : f.WF) (key : String) (y : Larry PyLabel)
    (hy : Archivable y) (h : f.setitem key y = (f', .ok ())) : f'.load key = .ok y :=
  (setitem_layout hf h).load hy

/-- `save(file, y, key)` then `load(file, key)`. -/
theorem C56_save_load (f f' : Archive) (hf : f.WF) (key : String) (y : Larry PyLabel)
    (hy : Archivable y) (h : f.save y key = (f', .ok ())) : f'.load key = .ok y :=
  (save_layout hf h).load hy

/-- When it goes through: the key is a plain name that is free or holds a larry, or nothing is at its
path and no dataset is on the way. -/
theorem C56_set_ok (f : Archive) (hf : f.WF) (key : String) (y : Larry PyLabel) (hy : Archivable y)
    (h : (comps key = [key] ∧ (f.get [key] = none ∨ f.isLarry [key] = .ok true)) ∨
      (f.get (comps key) = none ∧
        ∀ q n, q <+: comps key → f.get q = some n → ∃ b, n = .group b)) :
    (f.setitem key y).2 = .ok () := by
  have hsave : ∀ g : Archive, g.WF → g.get (comps key) = none →
      (∀ q n, q <+: comps key → g.get q = some n → ∃ b, n = .group b) →
      (g.save y key).2 = .ok () := by
    intro g hg hn hw
    refine (save_of hg hy hw ?_).1
    intro r hr
    by_contra hne
    obtain ⟨b, hb⟩ := hg.parents (comps key) r hr (Option.isSome_iff_ne_none.2 hne)
    rw [hn] at hb; simp at hb
  have hroot : ∀ g : Archive, g.WF → g.get [key] = none →
      ∀ q n, q <+: [key] → g.get q = some n → ∃ b, n = .group b := by
    intro g hg hn q n hq hqn
    rcases q with _ | ⟨a, q⟩
    · obtain ⟨b, hb⟩ := hg.root
      rw [hb] at hqn
      exact ⟨b, by simpa using hqn.symm⟩
    · obtain ⟨r, hr⟩ := hq
      simp only [List.cons_append, List.cons.injEq, List.append_eq_nil_iff] at hr
      obtain ⟨rfl, rfl, rfl⟩ := hr
      rw [hn] at hqn; simp at hqn
  unfold Archive.setitem
  split
  · rename_i hg
    rcases h with ⟨hk, -⟩ | ⟨hn, hw⟩
    · exact hsave f hf (hk ▸ hg) (hk ▸ hroot f hf hg)
    · exact hsave f hf hn hw
  · rename_i n hg
    have hk : comps key = [key] :=
      comps_name (hf.names' (p := [key]) (by rw [hg]; rfl) key (by simp))
    have hl : f.isLarry [key] = .ok true := by
      rcases h with ⟨-, h | h⟩ | ⟨h, -⟩
      · rw [hg] at h; simp at h
      · exact h
      · rw [hk, hg] at h; simp at h
    have hc : f.checkKey (comps key) = .ok () := by
      unfold Archive.checkKey
      rw [hk, hg]
      simp only [hl]
    rw [delete_of (by rw [hk]; simp) hc]
    simp only
    have hg' : (f.unlink (comps key)).get [key] = none := by
      rw [get_unlink, hk, if_pos (List.prefix_refl _)]
    have hw := hf.unlink (p := comps key) (by rw [hk]; simp)
    exact hsave _ hw (by rw [hk]; rw [hk] at hg'; exact hg') (by rw [hk] at hg' ⊢; rw [hk] at hw; exact hroot _ hw hg')

/-- Assignment leaves every key alone whose path does not lead through the assigned one (nor the other
way round), whether it goes through or raises. -/
theorem C56_set_other (f : Archive) (key key' : String) (y : Larry PyLabel)
    (h : Apart (comps key) (comps key')) :
    (f.setitem key y).1.load key' = f.load key' :=
  load_congr ((setitem_around f y key).apart h)

/-- Deleting a larry removes it, and leaves the others alone. -/
theorem C56_del (f f' : Archive) (key : String) (h : f.delete key = (f', .ok ())) :
    f'.load key = .error .keyError ∧
      ∀ key', Apart (comps key) (comps key') → f'.load key' = f.load key' := by
  constructor
  · obtain ⟨-, -, rfl⟩ := delete_ok h
    unfold Archive.load Archive.checkKey
    rw [get_unlink, if_pos (List.prefix_refl _)]
  · intro key' ha
    have := delete_around f key
    rw [h] at this
    exact load_congr (this.apart ha)

/-- Deleting succeeds exactly on the keys `load` would find a larry under. -/
theorem C56_del_ok (f : Archive) (key : String) (hne : comps key ≠ []) :
    (f.delete key).2 = .ok () ↔ f.isLarry (comps key) = .ok true := by
  unfold Archive.delete Archive.checkKey
  cases hg : f.get (comps key) with
  | none =>
    simp only [reduceCtorEq, false_iff]
    unfold Archive.isLarry
    rw [hg]; simp
  | some n =>
    simp only
    cases hl : f.isLarry (comps key) with
    | error e => simp
    | ok b => cases b <;> simp [hne]

/-! ## `keys()` -/

theorem larrysIn_ok {f : Archive} {ps qs : List Path} (h : f.larrysIn ps = .ok qs) :
    qs = ps.filter (fun p => f.isLarry p = .ok true) := by
  induction ps generalizing qs with
  | nil => simpa [larrysIn] using h.symm
  | cons p ps ih =>
    simp only [larrysIn] at h
    cases hl : f.isLarry p with
    | error e => rw [hl] at h; simp at h
    | ok b =>
      rw [hl] at h
      simp only at h
      cases hr : f.larrysIn ps with
      | error e => rw [hr] at h; simp at h
      | ok rs =>
        rw [hr] at h
        simp only [Except.ok.injEq] at h
        rw [List.filter_cons, hl, ← ih hr, ← h]
        cases b <;> simp

theorem larrysIn_of {f : Archive} {ps : List Path} (h : ∀ p ∈ ps, ∃ b, f.isLarry p = .ok b) :
    ∃ qs, f.larrysIn ps = .ok qs := by
  induction ps with
  | nil => exact ⟨[], rfl⟩
  | cons p ps ih =>
    obtain ⟨b, hb⟩ := h p (by simp)
    obtain ⟨qs, hq⟩ := ih (fun q hq => h q (by simp [hq]))
    simp only [larrysIn, hb, hq]
    exact ⟨_, rfl⟩

theorem mem_visit {f : Archive} {p : Path} : p ∈ f.visit ↔ p ≠ [] ∧ (f.get p).isSome := by
  unfold visit pySorted
  rw [(List.perm_insertionSort _ _).mem_iff, List.mem_filter, mem_paths]
  simp [and_comm]

theorem visit_nodup {f : Archive} (hf : f.WF) : f.visit.Nodup := by
  unfold visit pySorted
  rw [(List.perm_insertionSort _ _).nodup_iff]
  exact hf.nodup.filter _

theorem isLarry_some {f : Archive} {p : Path} (h : f.isLarry p = .ok true) :
    f.get p = some (.group true) := by
  unfold Archive.isLarry at h
  split at h
  · assumption
  · simp at h

/-- The paths behind `keys()`. -/
theorem keys_paths {f : Archive} (hf : f.WF) {ks : List String} (h : f.keys = .ok ks) :
    ∃ ps : List Path, ks = ps.map joinSlash ∧ ps.Nodup ∧ ps.Pairwise (· ≤ ·) ∧
      ∀ p, p ∈ ps ↔ p ≠ [] ∧ f.isLarry p = .ok true := by
  unfold Archive.keys at h
  split at h
  · simp at h
  · rename_i ps hps
    simp only [Except.ok.injEq] at h
    have := larrysIn_ok hps
    refine ⟨ps, h.symm, ?_, ?_, ?_⟩
    · rw [this]; exact (visit_nodup hf).filter _
    · rw [this]
      apply List.Pairwise.filter
      exact List.pairwise_insertionSort _ _
    · intro p
      rw [this, List.mem_filter, mem_visit]
      simp only [decide_eq_true_eq]
      constructor
      · rintro ⟨⟨h1, -⟩, h2⟩; exact ⟨h1, h2⟩
      · rintro ⟨h1, h2⟩
        exact ⟨⟨h1, by rw [isLarry_some h2]; rfl⟩, h2⟩

/-- `keys()` lists the larrys of the archive, each once, under its canonical name. -/
theorem C56_keys (f : Archive) (hf : f.WF) (ks : List String) (h : f.keys = .ok ks) :
    ks.Nodup ∧ ∀ key, key ∈ ks ↔
      comps key ≠ [] ∧ key = joinSlash (comps key) ∧ f.isLarry (comps key) = .ok true := by
  obtain ⟨ps, rfl, hnd, -, hmem⟩ := keys_paths hf h
  have hgood : ∀ p ∈ ps, ∀ s ∈ p, GoodName s := fun p hp =>
    hf.names' (by rw [isLarry_some ((hmem p).1 hp).2]; rfl)
  constructor
  · apply List.Nodup.map_on _ hnd
    intro p hp q hq he
    exact joinSlash_inj (hgood p hp) (hgood q hq) he
  · intro key
    rw [List.mem_map]
    constructor
    · rintro ⟨p, hp, rfl⟩
      rw [comps_join (hgood p hp)]
      exact ⟨((hmem p).1 hp).1, rfl, ((hmem p).1 hp).2⟩
    · rintro ⟨h1, h2, h3⟩
      exact ⟨comps key, (hmem _).2 ⟨h1, h3⟩, h2.symm⟩

/-! ## Histories -/

/-- The archive represents the dictionary. -/
structure Rep (K : List String) (D : Dict) (f : Archive) : Prop where
  wf : f.WF
  stored : ∀ k ∈ K, ∀ y, D k = some y → Layout f (comps k) y ∧ NothingElse f (comps k) y.ndim
  absent : ∀ k ∈ K, D k = none → ∀ r, f.get (comps k ++ r) = none
  rest : ∀ q n, (∀ k ∈ K, ¬ comps k <+: q) → f.get q = some n → n = .group false

theorem Rep.congr {K : List String} {D : Dict} {f g : Archive} (h : Rep K D f) (hg : g.WF)
    (he : ∀ q, g.get q = f.get q) : Rep K D g := by
  refine ⟨hg, ?_, ?_, ?_⟩
  · intro k hk y hy
    obtain ⟨hl, hn⟩ := h.stored k hk y hy
    refine ⟨⟨by rw [he]; exact hl.group, by rw [he]; exact hl.x, ?_⟩, ?_⟩
    · intro i hi
      rw [he]; exact hl.axis i hi
    · intro r h1 h2 h3
      rw [he]; exact hn r h1 h2 h3
  · intro k hk hd r
    rw [he]; exact h.absent k hk hd r
  · intro q n hq hn
    rw [he] at hn; exact h.rest q n hq hn

theorem rep_empty (K : List String) (hK : Separate K) : Rep K (fun _ => none) Archive.empty := by
  refine ⟨wf_empty, by simp, ?_, ?_⟩
  · intro k hk _ r
    simp only [Archive.empty, get_cons, get_nil]
    rw [if_neg]
    intro he
    exact (hK k hk).1 (List.append_eq_nil_iff.1 he.symm).1
  · intro q n _ hn
    simp only [Archive.empty, get_cons, get_nil] at hn
    split at hn
    · simpa using hn.symm
    · simp at hn

/-- No dataset is on the way to a key. -/
theorem Rep.way {K : List String} {D : Dict} {f : Archive} (h : Rep K D f) (hK : Separate K)
    {k : String} (hk : k ∈ K) :
    ∀ q n, q <+: comps k → f.get q = some n → ∃ b, n = .group b := by
  intro q n hq hn
  by_cases he : q = comps k
  · subst he
    cases hd : D k with
    | none =>
      have := h.absent k hk hd []
      rw [List.append_nil, hn] at this; simp at this
    | some y =>
      have := (h.stored k hk y hd).1.group
      rw [hn] at this
      exact ⟨true, by simpa using this⟩
  · refine ⟨false, h.rest q n ?_ hn⟩
    intro k' hk' hp
    by_cases hkk : k' = k
    · subst hkk
      exact he (List.IsPrefix.eq_of_length hq (Nat.le_antisymm hq.length_le hp.length_le))
    · exact (hK k' hk').2 k hk hkk (hp.trans hq)

/-- Writing a larry where the dictionary has none. -/
theorem Rep.save {K : List String} {D : Dict} {f : Archive} (h : Rep K D f) (hK : Separate K)
    {k : String} (hk : k ∈ K) (hd : D k = none) {y : Larry PyLabel} (hy : Archivable y) :
    (f.save y k).2 = .ok () ∧ Rep K (Function.update D k (some y)) (f.save y k).1 := by
  obtain ⟨hok, hne⟩ := save_of h.wf hy (h.way hK hk) (fun r _ => h.absent k hk hd r)
  have hlay : Layout (f.save y k).1 (comps k) y := by
    apply save_layout h.wf (f' := (f.save y k).1)
    rw [← hok]
  have har := save_around f y k
  have hap : ∀ k' ∈ K, k' ≠ k → Apart (comps k) (comps k') :=
    fun k' hk' hn => ⟨(hK k hk).2 k' hk' (Ne.symm hn), (hK k' hk').2 k hk hn⟩
  refine ⟨hok, save_wf h.wf y k, ?_, ?_, ?_⟩
  · intro k' hk' y' hy'
    by_cases hkk : k' = k
    · subst hkk
      simp only [Function.update_self, Option.some.injEq] at hy'
      subst hy'
      exact ⟨hlay, hne⟩
    · rw [Function.update_of_ne hkk] at hy'
      obtain ⟨hl, hn⟩ := h.stored k' hk' y' hy'
      have he := har.apart (hap k' hk' hkk)
      refine ⟨⟨?_, ?_, ?_⟩, ?_⟩
      · have := he []
        simp only [List.append_nil] at this
        rw [this]; exact hl.group
      · rw [he]; exact hl.x
      · intro i hi
        rw [he]; exact hl.axis i hi
      · intro r h1 h2 h3
        rw [he]; exact hn r h1 h2 h3
  · intro k' hk' hd' r
    by_cases hkk : k' = k
    · subst hkk; simp at hd'
    · rw [Function.update_of_ne hkk] at hd'
      rw [har.apart (hap k' hk' hkk)]
      exact h.absent k' hk' hd' r
  · intro q n hq hn
    rcases har.get q (hq k hk) with he | ⟨-, -, he⟩
    · rw [he] at hn
      exact h.rest q n hq hn
    · rw [he] at hn
      simpa using hn.symm

/-- Deleting a larry. -/
theorem Rep.unlink {K : List String} {D : Dict} {f : Archive} (h : Rep K D f) (hK : Separate K)
    {k : String} (hk : k ∈ K) : Rep K (Function.update D k none) (f.unlink (comps k)) := by
  have har := Around.unlink (f := f) (comps k)
  have hap : ∀ k' ∈ K, k' ≠ k → Apart (comps k) (comps k') :=
    fun k' hk' hn => ⟨(hK k hk).2 k' hk' (Ne.symm hn), (hK k' hk').2 k hk hn⟩
  refine ⟨h.wf.unlink (hK k hk).1, ?_, ?_, ?_⟩
  · intro k' hk' y' hy'
    by_cases hkk : k' = k
    · subst hkk; simp at hy'
    · rw [Function.update_of_ne hkk] at hy'
      obtain ⟨hl, hn⟩ := h.stored k' hk' y' hy'
      have he := har.apart (hap k' hk' hkk)
      refine ⟨⟨?_, ?_, ?_⟩, ?_⟩
      · have := he []
        simp only [List.append_nil] at this
        rw [this]; exact hl.group
      · rw [he]; exact hl.x
      · intro i hi
        rw [he]; exact hl.axis i hi
      · intro r h1 h2 h3
        rw [he]; exact hn r h1 h2 h3
  · intro k' hk' hd' r
    by_cases hkk : k' = k
    · subst hkk
      rw [get_unlink, if_pos (List.prefix_append _ _)]
    · rw [Function.update_of_ne hkk] at hd'
      rw [har.apart (hap k' hk' hkk)]
      exact h.absent k' hk' hd' r
  · intro q n hq hn
    rw [get_unlink, if_neg (hq k hk)] at hn
    exact h.rest q n hq hn

/-- Overwriting a larry under a key that is not a plain name: RuntimeError, and nothing changes. -/
theorem save_existing {f : Archive} (hf : f.WF) {k : String} {n m : Node} {y : Larry PyLabel}
    (hy : y.dtype ≠ .object) (hg : f.get (comps k) = some (.group true))
    (hway : ∀ q n, q <+: comps k → f.get q = some n → ∃ b, n = .group b)
    (hx : f.get (comps k ++ ["x"]) = some m) :
    (f.save y k).2 = .error .runtimeError ∧ ∀ q, (f.save y k).1.get q = f.get q := by
  have hok : (f.createGroups [] (comps k)).2 = .ok () :=
    createGroups_of (fun q n _ h2 hq => hway q n (by simpa using h2) hq)
  have hs := createGroups_spec f [] (comps k)
  unfold Archive.save
  generalize hcg : f.createGroups [] (comps k) = r at hok hs
  obtain ⟨f1, u⟩ := r
  simp only at hok hs
  subst hok
  obtain ⟨-, hs2, hs3, -⟩ := hs
  have hsame : ∀ q, f1.get q = f.get q := by
    intro q
    cases hq : f.get q with
    | some n => exact hs2 q n hq
    | none =>
      rcases hs3 q hq with h | ⟨hp, -⟩
      · exact h
      · simp only [List.nil_append] at hp
        obtain ⟨r, hr⟩ := hp
        by_cases hr0 : r = []
        · subst hr0
          rw [List.append_nil] at hr
          rw [hr, hg] at hq; simp at hq
        · obtain ⟨b, hb⟩ := hf.parents q r hr0 (by rw [hr, hg]; rfl)
          rw [hb] at hq; simp at hq
  have hflag : ∀ q, (f1.flag (comps k)).get q = f.get q := by
    intro q
    rw [get_flag]
    split
    · rename_i hq
      subst hq
      rw [hsame, hg]; rfl
    · exact hsame q
  simp only [if_neg hy]
  have hc := create_some (n := .arr y.x y.dtype) (show (f1.flag (comps k)).get (comps k ++ ["x"]) = some m by rw [hflag]; exact hx)
  rw [hc]
  exact ⟨rfl, hflag⟩

/-- One call on archive and dictionary. -/
theorem Rep.step {K : List String} {D : Dict} {f : Archive} (h : Rep K D f) (hK : Separate K)
    (op : Op) (hk : op.key ∈ K) (hy : ∀ k y, op = .set k y → Archivable y) :
    (op.run f).2 = (op.spec D).2 ∧ Rep K (op.spec D).1 (op.run f).1 := by
  cases op with
  | del k =>
    simp only [Op.key] at hk
    simp only [Op.run, Op.spec]
    cases hd : D k with
    | none =>
      have hg := h.absent k hk hd []
      rw [List.append_nil] at hg
      have : f.delete k = (f, .error .keyError) := by
        unfold Archive.delete Archive.checkKey
        rw [hg]
      rw [this]
      exact ⟨rfl, h⟩
    | some y =>
      rw [delete_of (hK k hk).1 (h.stored k hk y hd).1.checkKey]
      exact ⟨rfl, h.unlink hK hk⟩
  | set k y =>
    simp only [Op.key] at hk
    have hy := hy k y rfl
    simp only [Op.run, Op.spec]
    have hplain : ∀ n, f.get [k] = some n → comps k = [k] := fun n hg =>
      comps_name (h.wf.names' (p := [k]) (by rw [hg]; rfl) k (by simp))
    cases hd : D k with
    | none =>
      have hnone : f.get [k] = none := by
        cases hg : f.get [k] with
        | none => rfl
        | some n =>
          have := h.absent k hk hd []
          rw [hplain n hg, List.append_nil, hg] at this
          simp at this
      unfold Archive.setitem
      rw [hnone]
      simp only [Option.isSome_none, Bool.false_eq_true, false_and, if_false]
      exact h.save hK hk hd hy
    | some y0 =>
      obtain ⟨hl, -⟩ := h.stored k hk y0 hd
      by_cases hp : comps k = [k]
      · simp only [Option.isSome_some, true_and, hp, ne_eq, not_true_eq_false, if_false]
        have hg : f.get [k] = some (.group true) := by rw [← hp]; exact hl.group
        unfold Archive.setitem
        rw [hg]
        simp only
        rw [delete_of (hK k hk).1 hl.checkKey]
        simp only
        have := (h.unlink hK hk).save hK hk (by simp) hy
        rw [Function.update_idem] at this
        exact this
      · simp only [Option.isSome_some, true_and, hp, ne_eq, not_false_eq_true, if_true]
        have hnone : f.get [k] = none := by
          cases hg : f.get [k] with
          | none => rfl
          | some n => exact absurd (hplain n hg) hp
        unfold Archive.setitem
        rw [hnone]
        simp only
        obtain ⟨h1, h2⟩ := save_existing (n := .group true) h.wf hy.dtype hl.group (h.way hK hk) hl.x
        exact ⟨h1, h.congr (save_wf h.wf y k) h2⟩

theorem Rep.run {K : List String} (hK : Separate K) (ops : List Op) {D : Dict} {f : Archive}
    (h : Rep K D f) (hk : ∀ op ∈ ops, op.key ∈ K)
    (hy : ∀ op ∈ ops, ∀ k y, op = .set k y → Archivable y) :
    (runOps f ops).2 = (specOps D ops).2 ∧ Rep K (specOps D ops).1 (runOps f ops).1 := by
  induction ops generalizing D f with
  | nil => exact ⟨rfl, h⟩
  | cons op ops ih =>
    obtain ⟨h1, h2⟩ := h.step hK op (hk op (by simp)) (hy op (by simp))
    obtain ⟨h3, h4⟩ := ih h2 (fun o ho => hk o (by simp [ho])) (fun o ho => hy o (by simp [ho]))
    simp only [runOps, specOps]
    exact ⟨by rw [h1, h3], h4⟩

/-- The dictionary holds only larrys that were put in. -/
theorem specOps_archivable (ops : List Op) (D : Dict) (hD : ∀ k y, D k = some y → Archivable y)
    (hy : ∀ op ∈ ops, ∀ k y, op = .set k y → Archivable y) :
    ∀ k y, (specOps D ops).1 k = some y → Archivable y := by
  induction ops generalizing D with
  | nil => exact hD
  | cons op ops ih =>
    simp only [specOps]
    apply ih
    · intro k y
      cases op with
      | set k' y' =>
        simp only [Op.spec]
        split
        · exact hD k y
        · by_cases hkk : k = k'
          · subst hkk
            simp only [Function.update_self, Option.some.injEq]
            rintro rfl
            exact hy _ (by simp) k y' rfl
          · simp only [Function.update_of_ne hkk]
            exact hD k y
      | del k' =>
        simp only [Op.spec]
        split
        · exact hD k y
        · by_cases hkk : k = k'
          · subst hkk; simp
          · simp only [Function.update_of_ne hkk]
            exact hD k y
    · exact fun o ho => hy o (by simp [ho])

/-- A group marked as a larry belongs to a key of the dictionary. -/
theorem Rep.marked {K : List String} {D : Dict} {f : Archive} (h : Rep K D f) {q : Path}
    (hq : f.get q = some (.group true)) : ∃ k ∈ K, ∃ y, D k = some y ∧ q = comps k := by
  by_cases hex : ∃ k ∈ K, comps k <+: q
  · obtain ⟨k, hkK, r, rfl⟩ := hex
    cases hd : D k with
    | none => rw [h.absent k hkK hd r] at hq; simp at hq
    | some y =>
      obtain ⟨hl, hn⟩ := h.stored k hkK y hd
      refine ⟨k, hkK, y, hd, ?_⟩
      by_contra hne
      have hr0 : r ≠ [] := by
        rintro rfl; exact hne (by simp)
      by_cases hrx : r = ["x"]
      · subst hrx; rw [hl.x] at hq; simp at hq
      · by_cases hri : ∃ i < y.ndim, r = [toString i]
        · obtain ⟨i, hi, rfl⟩ := hri
          obtain ⟨l, cs, tag, -, -, hg⟩ := hl.axis i hi
          rw [hg] at hq; simp at hq
        · push Not at hri
          rw [hn r hr0 hrx hri] at hq; simp at hq
  · push Not at hex
    have := h.rest q _ hex hq
    simp at this

/-- The keys of an archive that represents a dictionary. -/
theorem Rep.keys {K : List String} {D : Dict} {f : Archive} (h : Rep K D f) (hK : Separate K) :
    ∃ ks, f.keys = .ok ks ∧ ks.Nodup ∧ ∀ s, s ∈ ks ↔ ∃ k ∈ K, (D k).isSome ∧ s = joinSlash (comps k) := by
  have hall : ∀ p, ∃ b, f.isLarry p = .ok b := by
    intro p
    by_cases hg : f.get p = some (.group true)
    · obtain ⟨k, hkK, y, hd, rfl⟩ := h.marked hg
      exact ⟨true, (h.stored k hkK y hd).1.isLarry⟩
    · refine ⟨false, ?_⟩
      unfold Archive.isLarry
      split
      · rename_i h; exact absurd h hg
      · rfl
  obtain ⟨ps, hps⟩ := larrysIn_of (f := f) (ps := f.visit) (fun p _ => hall p)
  have hkeys : f.keys = .ok (ps.map joinSlash) := by
    unfold Archive.keys; rw [hps]
  obtain ⟨hnd, hmem⟩ := C56_keys f h.wf _ hkeys
  refine ⟨_, hkeys, hnd, ?_⟩
  intro s
  rw [hmem]
  constructor
  · rintro ⟨-, hs, hl⟩
    obtain ⟨k, hkK, y, hd, he⟩ := h.marked (isLarry_some hl)
    exact ⟨k, hkK, by rw [hd]; rfl, by rw [← he]; exact hs⟩
  · rintro ⟨k, hkK, hd, rfl⟩
    obtain ⟨y, hy⟩ := Option.isSome_iff_exists.1 hd
    rw [comps_join (comps_good k)]
    exact ⟨(hK k hkK).1, rfl, (h.stored k hkK y hy).1.isLarry⟩

theorem Rep.load_none {K : List String} {D : Dict} {f : Archive} (h : Rep K D f) {k : String} (hk : k ∈ K)
    (hd : D k = none) : f.checkKey (comps k) = .error .keyError := by
  have := h.absent k hk hd []
  rw [List.append_nil] at this
  unfold Archive.checkKey
  rw [this]

/-- After any sequence of assignments and deletions on keys that do not lead through one another, the
archive is the dictionary: every call had the dictionary's outcome, `load` gives what the dictionary
holds (KeyError if nothing), and `keys()` lists the dictionary's keys. -/
theorem C56_history (K : List String) (hK : Separate K) (ops : List Op)
    (hk : ∀ op ∈ ops, op.key ∈ K) (hy : ∀ op ∈ ops, ∀ k y, op = .set k y → Archivable y) :
    (runOps Archive.empty ops).2 = (specOps (fun _ => none) ops).2 ∧
    (∀ k ∈ K, ∀ y, (specOps (fun _ => none) ops).1 k = some y →
      (runOps Archive.empty ops).1.load k = .ok y) ∧
    (∀ k ∈ K, (specOps (fun _ => none) ops).1 k = none →
      (runOps Archive.empty ops).1.load k = .error .keyError) ∧
    ∃ ks, (runOps Archive.empty ops).1.keys = .ok ks ∧ ks.Nodup ∧
      ∀ s, s ∈ ks ↔ ∃ k ∈ K, ((specOps (fun _ => none) ops).1 k).isSome ∧ s = joinSlash (comps k) := by
  obtain ⟨h1, h2⟩ := (rep_empty K hK).run hK ops hk hy
  have harch := specOps_archivable ops (fun _ => none) (by simp) hy
  refine ⟨h1, fun k hkK y hd => (h2.stored k hkK y hd).1.load (harch k y hd), ?_, h2.keys hK⟩
  intro k hkK hd
  unfold Archive.load
  rw [h2.load_none hkK hd]

/-! ## Where the archive is not a dictionary -/

/-- A larry under a key with a slash cannot be overwritten: RuntimeError; the larry stays. -/
theorem C56_nested_overwrite (f : Archive) (hf : f.WF) (key : String) (y : Larry PyLabel)
    (hy : y.dtype ≠ .object) (hkey : comps key ≠ [key]) (hl : f.isLarry (comps key) = .ok true) :
    (f.setitem key y).2 = .error .runtimeError ∧ (f.setitem key y).1.load key = f.load key := by
  have hg := isLarry_some hl
  have hnone : f.get [key] = none := by
    cases hg : f.get [key] with
    | none => rfl
    | some n =>
      exact absurd (comps_name (hf.names' (p := [key]) (by rw [hg]; rfl) key (by simp))) hkey
  have hx : ∃ m, f.get (comps key ++ ["x"]) = some m := by
    unfold Archive.isLarry at hl
    rw [hg] at hl
    simp only at hl
    split at hl
    · simp at hl
    · rename_i n hn; exact ⟨n, hn⟩
  obtain ⟨m, hx⟩ := hx
  have hway : ∀ q n, q <+: comps key → f.get q = some n → ∃ b, n = .group b := by
    rintro q n ⟨r, hr⟩ hn
    by_cases hr0 : r = []
    · subst hr0
      rw [List.append_nil] at hr
      rw [hr, hg] at hn
      exact ⟨true, by simpa using hn.symm⟩
    · obtain ⟨b, hb⟩ := hf.parents q r hr0 (by rw [hr, hg]; rfl)
      rw [hb] at hn
      exact ⟨b, by simpa using hn.symm⟩
  unfold Archive.setitem
  rw [hnone]
  simp only
  obtain ⟨h1, h2⟩ := save_existing (n := .group true) hf hy hg hway hx
  exact ⟨h1, load_congr (fun r => h2 _)⟩

theorem list2array_error {l : List PyLabel} {e : PyErr} (h : list2array l = .error e) :
    e = .typeError := by
  unfold list2array at h
  split at h
  · simp at h
  · split at h
    · split at h
      · rename_i e' he
        simp only [Except.error.injEq] at h
        subst h
        obtain ⟨a, -, ha⟩ := mapRes_error he
        cases a with
        | int n =>
          simp only [PyLabel.toCell] at ha
          split at ha
          · simp at ha
          · simpa using ha.symm
        | other ty i => simpa [PyLabel.toCell] using ha.symm
        | _ => simp [PyLabel.toCell] at ha
      · simp at h
    · simpa using h.symm

theorem saveLabels_bad {f : Archive} {p : Path} {y : Larry PyLabel} {is : List Nat} {i : Nat}
    {l : List PyLabel} {e : PyErr} (hnd : is.Nodup) (hi : i ∈ is)
    (hfree : ∀ j ∈ is, f.get (p ++ [toString j]) = none) (hlab : ∀ j ∈ is, j < y.label.length)
    (hl : y.label[i]? = some l) (he : list2array l = .error e) :
    (f.saveLabels p y is).2 = .error .typeError ∧
      (f.saveLabels p y is).1.get (p ++ [toString i]) = none := by
  induction is generalizing f with
  | nil => simp at hi
  | cons j js ih =>
    have hj := hlab j (by simp)
    simp only [saveLabels, List.getElem?_eq_getElem hj]
    cases hc : list2array y.label[j] with
    | error e' =>
      have := list2array_error hc
      subst this
      exact ⟨rfl, hfree i hi⟩
    | ok ct =>
      obtain ⟨cs, tag⟩ := ct
      have hij : i ≠ j := by
        rintro rfl
        rw [List.getElem?_eq_getElem hj] at hl
        simp only [Option.some.injEq] at hl
        rw [hl, he] at hc; simp at hc
      simp only [create_of (hfree j (by simp))]
      apply ih (List.nodup_cons.1 hnd).2
      · rcases List.mem_cons.1 hi with h | h
        · exact absurd h hij
        · exact h
      · intro k hk
        rw [get_add _ _ _ (hfree j (by simp)), if_neg, hfree k (by simp [hk])]
        intro hkj
        have := toString_nat_inj (by simpa using hkj)
        subst this
        exact (List.nodup_cons.1 hnd).1 hk
      · exact fun k hk => hlab k (by simp [hk])

/-- Assigning a larry whose labels the archive refuses (an axis of mixed types, say) to a key that
holds a larry raises TypeError; the old larry is gone by then, and from then on the key can neither be
loaded nor assigned to. -/
theorem C56_failed_set (f : Archive) (hf : f.WF) (key : String) (y : Larry PyLabel) (hv : y.Valid)
    (hd : y.dtype ≠ .object) (hl : f.isLarry [key] = .ok true) (i : Nat) (l : List PyLabel) (e : PyErr)
    (hi : y.label[i]? = some l) (he : list2array l = .error e) :
    (f.setitem key y).2 = .error .typeError ∧
    (f.setitem key y).1.load key = .error .keyError ∧
    ∀ y', (f.setitem key y).1.setitem key y' = ((f.setitem key y).1, .error .keyError) := by
  have hg := isLarry_some hl
  have hk : comps key = [key] :=
    comps_name (hf.names' (p := [key]) (by rw [hg]; rfl) key (by simp))
  have hc : f.checkKey (comps key) = .ok () := by
    unfold Archive.checkKey
    rw [hk, hg]
    simp only [hl]
  have hset : f.setitem key y = (f.unlink [key]).save y key := by
    unfold Archive.setitem
    rw [hg]
    simp only
    rw [delete_of (by rw [hk]; simp) hc, hk]
  have hw := hf.unlink (p := [key]) (by simp)
  have hfree : ∀ r, (f.unlink [key]).get ([key] ++ r) = none := by
    intro r
    rw [get_unlink, if_pos (List.prefix_append _ _)]
  have hilt : i < y.label.length := (List.getElem?_eq_some_iff.1 hi).1
  have hndim := hv.label_length
  -- what is in the archive afterwards
  have key1 : ((f.unlink [key]).save y key).2 = .error .typeError ∧
      ((f.unlink [key]).save y key).1.get [key] = some (.group true) ∧
      ((f.unlink [key]).save y key).1.get [key, "x"] = some (.arr y.x y.dtype) ∧
      ((f.unlink [key]).save y key).1.get [key, toString i] = none := by
    unfold Archive.save
    have hok : ((f.unlink [key]).createGroups [] (comps key)).2 = .ok () := by
      apply createGroups_of
      intro q n _ hq hn
      rw [hk, List.nil_append] at hq
      rcases q with _ | ⟨a, q⟩
      · obtain ⟨b, hb⟩ := hw.root
        rw [hb] at hn
        exact ⟨b, by simpa using hn.symm⟩
      · obtain ⟨r, hr⟩ := hq
        simp only [List.cons_append, List.cons.injEq, List.append_eq_nil_iff] at hr
        obtain ⟨rfl, rfl, rfl⟩ := hr
        have := hfree []
        rw [List.append_nil] at this
        rw [this] at hn; simp at hn
    have hs := createGroups_spec (f.unlink [key]) [] (comps key)
    generalize (f.unlink [key]).createGroups [] (comps key) = r at hok hs
    obtain ⟨f1, u⟩ := r
    simp only at hok hs
    subst hok
    rw [hk] at hs ⊢
    simp only [List.nil_append] at hs
    obtain ⟨-, -, hs3, hs4⟩ := hs
    obtain ⟨b, hb⟩ := hs4 trivial hw.root
    have hfree1 : ∀ r, r ≠ [] → f1.get ([key] ++ r) = none := by
      intro r hr
      rcases hs3 _ (hfree r) with h | ⟨hp, -⟩
      · exact h
      · have := hp.length_le
        simp only [List.length_append] at this
        exact absurd (List.length_eq_zero_iff.1 (by omega)) hr
    have hfree2 : ∀ r, r ≠ [] → (f1.flag [key]).get ([key] ++ r) = none := by
      intro r hr
      rw [get_flag, if_neg, hfree1 r hr]
      simpa using hr
    have hgk : (f1.flag [key]).get [key] = some (.group true) := by
      rw [get_flag, if_pos rfl, hb]; rfl
    simp only [if_neg hd, create_of (hfree2 ["x"] (by simp))]
    generalize hf2 : (f1.flag [key]).add ([key] ++ ["x"]) (.arr y.x y.dtype) = f2
    have hx2 : f2.get ([key] ++ ["x"]) = some (.arr y.x y.dtype) := by
      rw [← hf2, get_add _ _ _ (hfree2 ["x"] (by simp)), if_pos rfl]
    have hg2 : f2.get [key] = some (.group true) := by
      rw [← hf2]; exact get_add_some hgk
    have hfree3 : ∀ j ∈ List.range y.ndim, f2.get ([key] ++ [toString j]) = none := by
      intro j _
      rw [← hf2, get_add _ _ _ (hfree2 ["x"] (by simp)), if_neg, hfree2 _ (by simp)]
      simpa using toString_nat_ne_x j
    have hbad := saveLabels_bad (p := [key]) (y := y) (i := i) List.nodup_range
      (List.mem_range.2 (by omega)) hfree3
      (fun j hj => by rw [List.mem_range] at hj; omega) hi he
    have hsp := (saveLabels_spec f2 [key] y (List.range y.ndim)).1
    exact ⟨hbad.1, hsp _ _ hg2, hsp _ _ hx2, hbad.2⟩
  rw [← hset] at key1
  obtain ⟨h1, h2, h3, h4⟩ := key1
  generalize f.setitem key y = r at *
  have hnot : r.1.isLarry [key] = .ok false := by
    unfold Archive.isLarry
    rw [h2]
    simp only [List.cons_append, List.nil_append, h3, Node.shape, Except.ok.injEq]
    rw [← Bool.not_eq_true]
    intro hh
    unfold hasLabels at hh
    rw [List.all_eq_true] at hh
    have := hh i (List.mem_range.2 (by
      show i < y.x.shape.length
      have : y.ndim = y.x.shape.length := rfl
      omega))
    simp only [List.cons_append, List.nil_append, h4] at this
    simp at this
  have hck : r.1.checkKey (comps key) = .error .keyError := by
    unfold Archive.checkKey
    rw [hk, h2]
    simp only [hnot]
  refine ⟨h1, ?_, ?_⟩
  · unfold Archive.load
    rw [hck]
  · intro y'
    unfold Archive.setitem Archive.delete
    rw [h2, hck]

/-! ## C59: `clear()` -/

theorem prefix_le {p q : Path} (h : p <+: q) : p ≤ q := by
  obtain ⟨r, rfl⟩ := h
  induction p with
  | nil => exact le_of_not_gt (List.not_lt_nil _)
  | cons a p ih =>
    apply le_of_not_gt
    rw [List.cons_append, List.cons_lt_cons_iff]
    rintro (h | ⟨-, h⟩)
    · exact absurd h (lt_irrefl a)
    · exact absurd h (not_lt.2 ih)

/-- Deleting keys that do not lead through one another. -/
theorem deleteAll_of {f : Archive} {ps : List Path} (hg : ∀ p ∈ ps, ∀ s ∈ p, GoodName s)
    (hne : ∀ p ∈ ps, p ≠ []) (hc : ∀ p ∈ ps, f.checkKey p = .ok ())
    (ha : ps.Pairwise Apart) :
    ∃ g, f.deleteAll (ps.map joinSlash) = (g, .ok ()) ∧
      ∀ q, ((∃ p ∈ ps, p <+: q) → g.get q = none) ∧ ((∀ p ∈ ps, ¬ p <+: q) → g.get q = f.get q) := by
  induction ps generalizing f with
  | nil => exact ⟨f, rfl, fun q => ⟨by simp, fun _ => rfl⟩⟩
  | cons p ps ih =>
    have hj : comps (joinSlash p) = p := comps_join (hg p (by simp))
    simp only [List.map_cons, deleteAll]
    rw [delete_of (by rw [hj]; exact hne p (by simp)) (by rw [hj]; exact hc p (by simp)), hj]
    simp only
    rw [List.pairwise_cons] at ha
    obtain ⟨g, h1, h2⟩ := ih (f := f.unlink p) (fun q hq => hg q (by simp [hq]))
      (fun q hq => hne q (by simp [hq]))
      (fun q hq => by
        rw [checkKey_congr ((Around.unlink (f := f) p).apart (ha.1 q hq))]
        exact hc q (by simp [hq])) ha.2
    refine ⟨g, h1, fun q => ⟨?_, ?_⟩⟩
    · rintro ⟨p', hp', hq⟩
      by_cases hex : ∃ p ∈ ps, p <+: q
      · exact (h2 q).1 hex
      · push Not at hex
        rw [(h2 q).2 hex, get_unlink]
        rcases List.mem_cons.1 hp' with rfl | hp'
        · rw [if_pos hq]
        · exact absurd hq (hex p' hp')
    · intro hq
      rw [(h2 q).2 (fun p' hp' => hq p' (by simp [hp'])), get_unlink, if_neg (hq p (by simp))]

/-- Deleting keys of which one leads through an earlier one. -/
theorem deleteAll_error {f : Archive} {ps : List Path} (hg : ∀ p ∈ ps, ∀ s ∈ p, GoodName s)
    (hne : ∀ p ∈ ps, p ≠ []) (hc : ∀ p ∈ ps, f.checkKey p = .ok () ∨ f.get p = none)
    (hord : ps.Pairwise (fun p q => ¬ q <+: p))
    (hbad : (∃ p ∈ ps, f.get p = none) ∨ ¬ ps.Pairwise (fun p q => ¬ p <+: q)) :
    (f.deleteAll (ps.map joinSlash)).2 = .error .keyError := by
  induction ps generalizing f with
  | nil => simp at hbad
  | cons p ps ih =>
    have hj : comps (joinSlash p) = p := comps_join (hg p (by simp))
    simp only [List.map_cons, deleteAll]
    rcases hc p (by simp) with hp | hp
    · rw [delete_of (by rw [hj]; exact hne p (by simp)) (by rw [hj]; exact hp), hj]
      simp only
      rw [List.pairwise_cons] at hord
      apply ih (fun q hq => hg q (by simp [hq])) (fun q hq => hne q (by simp [hq])) _ hord.2
      · rcases hbad with ⟨q, hq, hqn⟩ | hbad
        · left
          rcases List.mem_cons.1 hq with rfl | hq
          · unfold Archive.checkKey at hp
            rw [hqn] at hp; simp at hp
          · exact ⟨q, hq, by rw [get_unlink, hqn]; simp⟩
        · rw [List.pairwise_cons] at hbad
          by_cases hall : ∀ q ∈ ps, ¬ p <+: q
          · right
            exact fun h => hbad ⟨hall, h⟩
          · push Not at hall
            obtain ⟨q, hq, hpq⟩ := hall
            exact .inl ⟨q, hq, by rw [get_unlink, if_pos hpq]⟩
      · intro q hq
        by_cases hpq : p <+: q
        · right; rw [get_unlink, if_pos hpq]
        · rcases hc q (by simp [hq]) with h | h
          · left
            rw [checkKey_congr ((Around.unlink (f := f) p).apart ⟨hpq, hord.1 q hq⟩)]
            exact h
          · right; rw [get_unlink, h]; simp
    · have : f.delete (joinSlash p) = (f, .error .keyError) := by
        unfold Archive.delete Archive.checkKey
        rw [hj, hp]
      rw [this]

/-- Removing nodes does not make a larry. -/
theorem isLarry_false {f g : Archive} {p : Path} (h : f.isLarry p = .ok false)
    (hs : ∀ r, g.get r = f.get r ∨ g.get r = none) : g.isLarry p = .ok false := by
  unfold Archive.isLarry at h ⊢
  rcases hs p with hp | hp
  · rw [hp]
    split at h
    · rcases hs (p ++ ["x"]) with hx | hx
      · rw [hx]
        split at h
        · rfl
        · rename_i n hn
          cases hsh : n.shape with
          | error e => rw [hsh] at h; simp at h
          | ok s =>
            rw [hsh] at h
            simp only [Except.ok.injEq] at h ⊢
            rw [← Bool.not_eq_true] at h ⊢
            intro hh
            apply h
            unfold hasLabels at hh ⊢
            rw [List.all_eq_true] at hh ⊢
            intro i hi
            rcases hs (p ++ [toString i]) with e | e
            · rw [← e]; exact hh i hi
            · have := hh i hi
              rw [e] at this; simp at this
      · rw [hx]
    · rfl
  · rw [hp]

theorem keys_isLarry {f : Archive} {ks : List String} (h : f.keys = .ok ks) {p : Path}
    (hp : p ≠ []) (hs : (f.get p).isSome) : ∃ b, f.isLarry p = .ok b := by
  unfold Archive.keys at h
  cases hl : f.larrysIn f.visit with
  | error e => rw [hl] at h; simp at h
  | ok qs =>
    have : ∀ ps qs, f.larrysIn ps = .ok qs → ∀ p ∈ ps, ∃ b, f.isLarry p = .ok b := by
      intro ps
      induction ps with
      | nil => simp
      | cons a ps ih =>
        intro qs hq p hp
        simp only [larrysIn] at hq
        cases ha : f.isLarry a with
        | error e => rw [ha] at hq; simp at hq
        | ok b =>
          rw [ha] at hq
          simp only at hq
          rcases List.mem_cons.1 hp with rfl | hp
          · exact ⟨b, ha⟩
          · cases hr : f.larrysIn ps with
            | error e => rw [hr] at hq; simp at hq
            | ok rs => exact ih rs hr p hp
    exact this _ _ hl p (mem_visit.2 ⟨hp, hs⟩)

/-- `clear()` removes every larry and nothing else, provided that no larry lies beneath another. -/
theorem C59_clear (f : Archive) (hf : f.WF) (ks : List String) (h : f.keys = .ok ks)
    (hsep : ∀ k ∈ ks, ∀ k' ∈ ks, k ≠ k' → ¬ comps k <+: comps k') :
    ∃ g, f.clear = (g, .ok ()) ∧ g.keys = .ok [] ∧
      (∀ k ∈ ks, g.load k = .error .keyError) ∧
      ∀ q, (∀ k ∈ ks, ¬ comps k <+: q) → g.get q = f.get q := by
  obtain ⟨ps, rfl, hnd, -, hmem⟩ := keys_paths hf h
  have hgood : ∀ p ∈ ps, ∀ s ∈ p, GoodName s := fun p hp =>
    hf.names' (by rw [isLarry_some ((hmem p).1 hp).2]; rfl)
  have hcomps : ∀ p ∈ ps, comps (joinSlash p) = p := fun p hp => comps_join (hgood p hp)
  have hap : ps.Pairwise Apart := by
    have hpair : ∀ p ∈ ps, ∀ q ∈ ps, p ≠ q → ¬ p <+: q := by
      intro p hp q hq hpq
      have := hsep _ (List.mem_map_of_mem hp) _ (List.mem_map_of_mem hq)
        (fun he => hpq (joinSlash_inj (hgood p hp) (hgood q hq) he))
      rwa [hcomps p hp, hcomps q hq] at this
    exact (List.pairwise_iff_getElem.2 fun i j hi hj hij => by
      have hne : ps[i] ≠ ps[j] := fun he => by
        have := (List.Nodup.getElem_inj_iff hnd).1 he
        omega
      exact ⟨hpair _ (List.getElem_mem _) _ (List.getElem_mem _) hne,
        hpair _ (List.getElem_mem _) _ (List.getElem_mem _) hne.symm⟩)
  obtain ⟨g, hg1, hg2⟩ := deleteAll_of (f := f) hgood (fun p hp => ((hmem p).1 hp).1)
    (fun p hp => by
      unfold Archive.checkKey
      rw [isLarry_some ((hmem p).1 hp).2]
      simp only [((hmem p).1 hp).2]) hap
  have hrest : ∀ q, (∀ k ∈ ps.map joinSlash, ¬ comps k <+: q) → g.get q = f.get q := by
    intro q hq
    apply (hg2 q).2
    intro p hp
    have := hq _ (List.mem_map_of_mem hp)
    rwa [hcomps p hp] at this
  refine ⟨g, by unfold Archive.clear; rw [h]; exact hg1, ?_, ?_, hrest⟩
  · have hnone : ∀ p ∈ g.visit, g.isLarry p = .ok false := by
      intro p hp
      obtain ⟨hp0, hps⟩ := mem_visit.1 hp
      have hno : ∀ q ∈ ps, ¬ q <+: p := by
        intro q hq hpre
        rw [(hg2 p).1 ⟨q, hq, hpre⟩] at hps
        simp at hps
      rw [(hg2 p).2 hno] at hps
      obtain ⟨b, hb⟩ := keys_isLarry h hp0 hps
      cases b with
      | true => exact absurd (List.prefix_refl p) (hno p ((hmem p).2 ⟨hp0, hb⟩))
      | false =>
        apply isLarry_false hb
        intro r
        by_cases hex : ∃ q ∈ ps, q <+: r
        · exact .inr ((hg2 r).1 hex)
        · push Not at hex
          exact .inl ((hg2 r).2 hex)
    obtain ⟨qs, hqs⟩ := larrysIn_of (f := g) (ps := g.visit) (fun p hp => ⟨false, hnone p hp⟩)
    have := larrysIn_ok hqs
    unfold Archive.keys
    rw [hqs, this]
    simp only [Except.ok.injEq, List.map_eq_nil_iff, List.filter_eq_nil_iff, decide_eq_true_eq]
    intro p hp
    rw [hnone p hp]; simp
  · intro k hk
    obtain ⟨p, hp, rfl⟩ := List.mem_map.1 hk
    unfold Archive.load Archive.checkKey
    rw [hcomps p hp, (hg2 p).1 ⟨p, hp, List.prefix_refl _⟩]

/-- When a larry lies beneath another, `clear()` raises KeyError part way. -/
theorem C59_nested (f : Archive) (hf : f.WF) (ks : List String) (h : f.keys = .ok ks)
    (k k' : String) (hk : k ∈ ks) (hk' : k' ∈ ks) (hne : k ≠ k') (hpre : comps k <+: comps k') :
    f.clear.2 = .error .keyError := by
  obtain ⟨ps, rfl, hnd, hsort, hmem⟩ := keys_paths hf h
  have hgood : ∀ p ∈ ps, ∀ s ∈ p, GoodName s := fun p hp =>
    hf.names' (by rw [isLarry_some ((hmem p).1 hp).2]; rfl)
  have hcomps : ∀ p ∈ ps, comps (joinSlash p) = p := fun p hp => comps_join (hgood p hp)
  have hord : ps.Pairwise (fun p q => ¬ q <+: p) := by
    rw [List.pairwise_iff_getElem] at hsort ⊢
    intro i j hi hj hij hp
    have := le_antisymm (hsort i j hi hj hij) (prefix_le hp)
    have := (List.Nodup.getElem_inj_iff hnd).1 this
    omega
  unfold Archive.clear
  rw [h]
  apply deleteAll_error hgood (fun p hp => ((hmem p).1 hp).1) _ hord
  · right
    intro hpw
    obtain ⟨p, hp, rfl⟩ := List.mem_map.1 hk
    obtain ⟨q, hq, rfl⟩ := List.mem_map.1 hk'
    rw [hcomps p hp, hcomps q hq] at hpre
    obtain ⟨i, hi, rfl⟩ := List.getElem_of_mem hp
    obtain ⟨j, hj, rfl⟩ := List.getElem_of_mem hq
    have hij : i ≠ j := by rintro rfl; exact hne rfl
    rcases Nat.lt_or_gt_of_ne hij with hlt | hlt
    · exact (List.pairwise_iff_getElem.1 hpw i j hi hj hlt) hpre
    · exact (List.pairwise_iff_getElem.1 hord j i hj hi hlt) hpre
  · intro p hp
    left
    unfold Archive.checkKey
    rw [isLarry_some ((hmem p).1 hp).2]
    simp only [((hmem p).1 hp).2]

/-! ## C57 at the level of the archive -/

/-- The labels a lara or `load` reads are those of the larry that was saved, up to the losses `archived`
names. -/
theorem C57_save_load (f f' : Archive) (hf : f.WF) (key : String) (y : Larry PyLabel) (hv : y.Valid)
    (hok : ∀ l ∈ y.label, ∀ a ∈ l, a.Ok) (h : f.save y key = (f', .ok ())) :
    f'.loadLabel (comps key) = .ok (y.label.map (List.map PyLabel.archived)) :=
  (save_layout hf h).loadLabel hv hok

/-- A larry with an axis of labels of different types cannot be saved. -/
theorem C57_save_mixed (f : Archive) (hf : f.WF) (key : String) (y : Larry PyLabel) (hv : y.Valid)
    (l : List PyLabel) (hl : l ∈ y.label) (hm : ¬ Homogeneous l) : (f.save y key).2 ≠ .ok () := by
  intro hok
  have hlay : Layout (f.save y key).1 (comps key) y := by
    apply save_layout hf (f' := (f.save y key).1)
    rw [← hok]
  obtain ⟨i, hi, rfl⟩ := List.getElem_of_mem hl
  obtain ⟨l', cs, tag, h1, h2, -⟩ := hlay.axis i (by rw [← hv.label_length]; exact hi)
  rw [List.getElem?_eq_getElem hi] at h1
  simp only [Option.some.injEq] at h1
  rw [← h1, C57_mixed _ hm] at h2
  simp at h2

/-! ## Examples -/

/-- Two larrys with labels of various types. -/
def exIO1 : Larry PyLabel :=
  ⟨NDArray.ofList [2, 1] [fl 1, fl 2], .float, [[.date ⟨2011, 8, 12⟩, .date ⟨2000, 2, 29⟩], [.str "a"]]⟩
def exIO2 : Larry PyLabel :=
  ⟨NDArray.ofList [3] [.int 4, .int 5, .int 6], .int, [[.int 1, .int 7, .int 3]]⟩

theorem exIO1_archivable : Archivable exIO1 := by
  refine ⟨⟨rfl, by decide +kernel, by decide⟩, by decide, ?_⟩
  intro l hl
  simp only [exIO1, List.mem_cons, List.not_mem_nil, or_false] at hl
  rcases hl with rfl | rfl
  · constructor
    · intro a ha b hb
      simp only [List.mem_cons, List.not_mem_nil, or_false] at ha hb
      rcases ha with rfl | rfl <;> rcases hb with rfl | rfl <;> rfl
    · intro a ha
      simp only [List.mem_cons, List.not_mem_nil, or_false] at ha
      rcases ha with rfl | rfl <;> (show PyDate.Ok _; decide +kernel)
  · constructor
    · intro a ha b hb
      simp only [List.mem_cons, List.not_mem_nil, or_false] at ha hb
      subst ha hb; rfl
    · intro a ha
      simp only [List.mem_cons, List.not_mem_nil, or_false] at ha
      subst ha
      show _ ≠ _
      decide +kernel

theorem exIO2_archivable : Archivable exIO2 := by
  refine ⟨⟨rfl, by decide +kernel, by decide⟩, by decide, ?_⟩
  intro l hl
  simp only [exIO2, List.mem_cons, List.not_mem_nil, or_false] at hl
  subst hl
  constructor
  · intro a ha b hb
    simp only [List.mem_cons, List.not_mem_nil, or_false] at ha hb
    rcases ha with rfl | rfl | rfl <;> rcases hb with rfl | rfl | rfl <;> rfl
  · intro a ha
    simp only [List.mem_cons, List.not_mem_nil, or_false] at ha
    rcases ha with rfl | rfl | rfl <;> (show _ ∧ _; decide)

/-- Keys that do not lead through one another. -/
theorem exKeys_separate : Separate ["price", "g/a", "g/b"] := by
  unfold Separate; decide +kernel

/-- A history to which `C56_history` applies: overwriting, deleting twice, and overwriting a key with a
slash. -/
def exOps : List Op :=
  [.set "price" exIO1, .set "g/a" exIO2, .set "price" exIO2, .set "g/b" exIO1, .set "g/a" exIO1,
    .del "g/b", .del "g/b"]

example : (specOps (fun _ => none) exOps).2
    = [.ok (), .ok (), .ok (), .ok (), .error .runtimeError, .ok (), .error .keyError] := by
  decide +kernel

example : (∀ op ∈ exOps, op.key ∈ ["price", "g/a", "g/b"]) ∧
    ∀ op ∈ exOps, ∀ k y, op = .set k y → Archivable y := by
  constructor
  · unfold exOps; simp [Op.key]
  · intro op hop k y he
    subst he
    simp only [exOps, List.mem_cons, Op.set.injEq, reduceCtorEq, List.not_mem_nil, or_false] at hop
    rcases hop with ⟨-, rfl⟩ | ⟨-, rfl⟩ | ⟨-, rfl⟩ | ⟨-, rfl⟩ | ⟨-, rfl⟩
    all_goals first | exact exIO1_archivable | exact exIO2_archivable

example : (runOps Archive.empty exOps).1.keys = .ok ["g/a", "price"] := by decide +kernel

/-- Nested larrys: `keys()` lists both, `clear()` raises. -/
example : (runOps Archive.empty [.set "a" exIO1, .set "a/b" exIO2]).1.keys = .ok ["a", "a/b"] ∧
    comps "a" <+: comps "a/b" ∧
    (runOps Archive.empty [.set "a" exIO1, .set "a/b" exIO2]).1.clear.2 = .error .keyError := by
  decide +kernel

/-- A group holds a larry, the key of the group does not: it cannot be assigned to. -/
example : (runOps Archive.empty [.set "a/b" exIO1, .set "a" exIO2]).2
    = [.ok (), .error .keyError] := by decide +kernel

/-- The hypotheses of `C56_failed_set`. -/
example : (runOps Archive.empty [.set "a" exIO1]).1.isLarry ["a"] = .ok true ∧
    list2array [.int 1, .str "b"] = .error .typeError := by decide +kernel

/-- `save` sets the attribute before it writes: saving `a` over a group that holds a larry `a/x` fails,
and from then on even `keys()` fails, for the whole archive. -/
theorem C56_brick :
    ((Archive.empty.save exIO1 "a/x").1.save exIO2 "a").2 = .error .runtimeError ∧
    ((Archive.empty.save exIO1 "a/x").1.save exIO2 "a").1.keys = .error .attributeError := by
  decide +kernel

end La
