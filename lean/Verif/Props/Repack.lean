import Verif.Repack
import Verif.Props.IO

/-!
# C58: repack never loses the archive
-/

namespace La
open Archive

/-! ## Specification -/

/-- The same nodes below the root. -/
def SameTree (f g : Archive) : Prop := ∀ q : Path, q ≠ [] → g.get q = f.get q

/-- The disk holds the whole archive under some name. -/
def Kept (f : Archive) (d : Disk) : Prop := ∃ name g, d name = some g ∧ SameTree f g

/-! ## Names -/

theorem repackName_ne (fn r : String) : repackName fn r ≠ fn := by
  intro h
  have := congrArg (fun s => s.toList.length) h
  simp only [repackName, String.toList_append, List.length_append] at this
  have h2 : "_repack_tmp_".toList.length = 12 := by decide +kernel
  omega

theorem renameName_ne (fn r : String) : renameName fn r ≠ fn := by
  intro h
  have := congrArg (fun s => s.toList.length) h
  simp only [renameName, String.toList_append, List.length_append] at this
  have h2 : "_repack_rename_tmp_".toList.length = 19 := by decide +kernel
  omega

theorem repackName_ne_renameName (fn r1 r2 : String) : repackName fn r1 ≠ renameName fn r2 := by
  intro h
  have := congrArg String.toList h
  simp only [repackName, renameName, String.toList_append, List.append_assoc,
    List.append_cancel_left_eq] at this
  have h8 := congrArg (fun l => l[8]?) this
  have e1 : "_repack_tmp_".toList = ['_', 'r', 'e', 'p', 'a', 'c', 'k', '_', 't', 'm', 'p', '_'] := by
    decide +kernel
  have e2 : "_repack_rename_tmp_".toList = ['_', 'r', 'e', 'p', 'a', 'c', 'k', '_', 'r', 'e', 'n', 'a',
      'm', 'e', '_', 't', 'm', 'p', '_'] := by decide +kernel
  rw [e1, e2] at h8
  simp at h8

/-! ## The copy -/

theorem get_append (g h : Archive) (q : Path) :
    Archive.get (g ++ h) q = (g.get q).or (Archive.get h q) := by
  induction g with
  | nil => simp [get_nil]
  | cons e g ih =>
    rw [List.cons_append, get_cons, get_cons, ih]
    split <;> simp

theorem get_filter (f : Archive) (P : Path → Bool) (q : Path) :
    Archive.get (f.filter (fun e => P e.1)) q = if P q then f.get q else none := by
  induction f with
  | nil => simp [get_nil]
  | cons e f ih =>
    rw [List.filter_cons]
    by_cases h : P e.1 = true
    · rw [if_pos h, get_cons, get_cons, ih]
      by_cases hq : e.1 = q
      · rw [if_pos hq, if_pos hq, ← hq, if_pos h]
      · rw [if_neg hq, if_neg hq]
    · rw [if_neg h, ih, get_cons]
      by_cases hq : e.1 = q
      · subst hq; simp [h]
      · rw [if_neg hq]

theorem mem_top {f : Archive} {k : String} : k ∈ f.top ↔ (f.get [k]).isSome := by
  rw [← mem_paths]
  unfold top
  rw [List.mem_filterMap]
  constructor
  · rintro ⟨p, hp, h⟩
    split at h
    · rename_i hl
      obtain ⟨a, rfl⟩ := List.length_eq_one_iff.1 hl
      simp only [List.head?_cons, Option.some.injEq] at h
      rwa [← h]
    · simp at h
  · intro h
    exact ⟨[k], h, by simp⟩

theorem top_nodup {f : Archive} (h : (f.map Prod.fst).Nodup) : f.top.Nodup := by
  unfold top
  apply List.Nodup.filterMap _ h
  intro p q a hp hq
  simp only [Option.mem_def] at hp hq
  split at hp
  · split at hq
    · rename_i h1 h2
      obtain ⟨b, rfl⟩ := List.length_eq_one_iff.1 h1
      obtain ⟨c, rfl⟩ := List.length_eq_one_iff.1 h2
      simp_all
    · simp at hq
  · simp at hp

/-- Copying the nodes of the root group one by one. -/
theorem copyAll_ok {f g : Archive} {ks : List String} (hnd : ks.Nodup)
    (hfree : ∀ k ∈ ks, g.get [k] = none) :
    ∃ g', f.copyAll g ks = .ok g' ∧ ∀ q, g'.get q = (g.get q).or
      (if ∃ k ∈ ks, [k] <+: q then f.get q else none) := by
  induction ks generalizing g with
  | nil => exact ⟨g, rfl, fun q => by simp⟩
  | cons k ks ih =>
    rw [List.nodup_cons] at hnd
    simp only [copyAll, copyTo, hfree k (by simp)]
    have hget : ∀ q, Archive.get (g ++ f.filter (fun e => [k] <+: e.1)) q
        = (g.get q).or (if [k] <+: q then f.get q else none) := by
      intro q
      rw [get_append, get_filter f (fun p => [k] <+: p)]
      simp
    obtain ⟨g', h1, h2⟩ := ih (g := g ++ f.filter (fun e => [k] <+: e.1)) hnd.2 (by
      intro j hj
      rw [hget, hfree j (by simp [hj]), if_neg]
      · rfl
      · rintro ⟨r, hr⟩
        simp only [List.cons_append, List.nil_append, List.cons.injEq] at hr
        exact hnd.1 (hr.1 ▸ hj))
    refine ⟨g', h1, fun q => ?_⟩
    rw [h2, hget]
    by_cases hk : [k] <+: q
    · have hex : ∃ j ∈ k :: ks, [j] <+: q := ⟨k, List.mem_cons_self, hk⟩
      simp only [if_pos hk, if_pos hex]
      by_cases hks : ∃ j ∈ ks, [j] <+: q
      · simp only [if_pos hks]
        cases g.get q <;> cases f.get q <;> rfl
      · simp only [if_neg hks, Option.or_none]
    · have : (∃ j ∈ k :: ks, [j] <+: q) ↔ ∃ j ∈ ks, [j] <+: q := by
        constructor
        · rintro ⟨j, hj, hp⟩
          rcases List.mem_cons.1 hj with rfl | hj
          · exact absurd hp hk
          · exact ⟨j, hj, hp⟩
        · rintro ⟨j, hj, hp⟩
          exact ⟨j, by simp [hj], hp⟩
      rw [if_neg hk, Option.or_none]
      simp only [this]

/-- The copy has the nodes of the original. -/
theorem copy_sameTree {f : Archive} (hf : f.WF) :
    ∃ g, f.copyAll Archive.empty f.top = .ok g ∧ SameTree f g ∧ g.get [] = some (.group false) := by
  obtain ⟨g, h1, h2⟩ := copyAll_ok (f := f) (g := Archive.empty) (top_nodup hf.nodup) (by
    intro k _
    simp [Archive.empty, get_cons, get_nil])
  refine ⟨g, h1, ?_, ?_⟩
  · intro q hq
    rw [h2]
    have he : Archive.empty.get q = none := by
      simp only [Archive.empty, get_cons, get_nil]
      rw [if_neg (fun h => hq h.symm)]
    rw [he, Option.none_or]
    split
    · rfl
    · rename_i hno
      by_contra hne
      have hsome : (f.get q).isSome := Option.isSome_iff_ne_none.2 (fun h => hne h.symm)
      obtain ⟨a, q', rfl⟩ := List.exists_cons_of_ne_nil hq
      apply hno
      refine ⟨a, ?_, by simp⟩
      rw [mem_top]
      by_cases hq' : q' = []
      · subst hq'; exact hsome
      · obtain ⟨b, hb⟩ := hf.parents [a] q' hq' hsome
        rw [hb]; rfl
  · rw [h2]
    rfl

/-! ## C58 -/

/-- Reading keys other than the root depends on the tree only. -/
theorem SameTree.load {f g : Archive} (h : SameTree f g) (key : String) (hk : comps key ≠ []) :
    g.load key = f.load key :=
  load_congr (fun r => h _ (by simp [hk]))

theorem larrysIn_congr {f g : Archive} {ps : List Path} (h : ∀ p ∈ ps, g.isLarry p = f.isLarry p) :
    g.larrysIn ps = f.larrysIn ps := by
  induction ps with
  | nil => rfl
  | cons p ps ih =>
    simp only [larrysIn]
    rw [h p (by simp), ih (fun q hq => h q (by simp [hq]))]

theorem SameTree.keys {f g : Archive} (hf : f.WF) (hg : (g.map Prod.fst).Nodup) (h : SameTree f g) :
    g.keys = f.keys := by
  have hv : g.visit = f.visit := by
    unfold visit pySorted
    apply List.Perm.eq_of_pairwise (le := (· ≤ ·))
    · intro a b _ _ h1 h2
      exact le_antisymm h1 h2
    · exact List.pairwise_insertionSort _ _
    · exact List.pairwise_insertionSort _ _
    · refine (List.perm_insertionSort _ _).trans (List.Perm.trans ?_ (List.perm_insertionSort _ _).symm)
      rw [List.perm_ext_iff_of_nodup (hg.filter _) (hf.nodup.filter _)]
      intro q
      rw [List.mem_filter, List.mem_filter, mem_paths, mem_paths]
      by_cases hq : q = []
      · simp [hq]
      · rw [h q hq]
  unfold Archive.keys
  rw [hv, larrysIn_congr (f := f) (g := g)]
  intro p hp
  exact isLarry_congr (fun r => h _ (by simp [(mem_visit.1 hp).1]))

theorem copyAll_nodup {f g g' : Archive} {ks : List String} (hf : f.WF) (hg : (g.map Prod.fst).Nodup)
    (hpar : ∀ (k : String) (r : Path), g.get [k] = none → g.get ([k] ++ r) = none)
    (hnd : ks.Nodup) (h : f.copyAll g ks = .ok g') : (g'.map Prod.fst).Nodup := by
  induction ks generalizing g with
  | nil =>
    simp only [copyAll, Except.ok.injEq] at h
    rwa [← h]
  | cons k ks ih =>
    simp only [copyAll, copyTo] at h
    cases hgk : g.get [k] with
    | some n => rw [hgk] at h; simp at h
    | none =>
      rw [hgk] at h
      simp only at h
      have hget : ∀ q, Archive.get (g ++ f.filter (fun e => [k] <+: e.1)) q
          = (g.get q).or (if [k] <+: q then f.get q else none) := by
        intro q
        rw [get_append, get_filter f (fun p => [k] <+: p)]
        simp
      refine ih ?_ ?_ (List.nodup_cons.1 hnd).2 h
      · rw [List.map_append, List.nodup_append]
        refine ⟨hg, (List.filter_sublist.map _).nodup hf.nodup, ?_⟩
        intro a ha b hb
        rintro rfl
        rw [List.mem_map] at hb
        obtain ⟨e, he, rfl⟩ := hb
        have hp : [k] <+: e.1 := by simpa using (List.mem_filter.1 he).2
        obtain ⟨r, hr⟩ := hp
        rw [← hr, mem_paths, hpar k r hgk] at ha
        simp at ha
      · intro j r hj
        rw [hget] at hj ⊢
        rw [Option.or_eq_none_iff] at hj ⊢
        refine ⟨hpar j r hj.1, ?_⟩
        split
        · rename_i hp
          have hjk : j = k := by
            obtain ⟨s, hs⟩ := hp
            simp only [List.cons_append, List.nil_append, List.cons.injEq] at hs
            exact hs.1.symm
          subst hjk
          have hfk := hj.2
          rw [if_pos (List.prefix_refl _)] at hfk
          by_contra hne
          by_cases hr : r = []
          · subst hr; exact hne hfk
          · obtain ⟨b, hb⟩ := hf.parents [j] r hr (Option.isSome_iff_ne_none.2 hne)
            rw [hfk] at hb; simp at hb
        · rfl

/-- Wherever `repack` is interrupted, some file holds the whole archive.  If the two random names are
not in use, `repack` goes through, and afterwards the file holds the archive: every key but the root
loads as before and `keys()` is as before; the temporary files are gone, other files untouched.  At
every point the archive is under its own name, except between the two renames. -/
theorem C58_repack (d : Disk) (fn r1 r2 : String) (f : Archive) (hf : f.WF) (hd : d fn = some f)
    (h1 : d (repackName fn r1) = none) (h2 : d (renameName fn r2) = none) (junk : List Archive) :
    ∃ pre mid d3 d4, repackStates d fn r1 r2 junk = .ok (pre ++ [mid, d3, d4]) ∧
      (∀ s ∈ pre ++ [mid, d3, d4], Kept f s) ∧
      (∀ s ∈ pre, s fn = some f) ∧
      mid fn = none ∧ mid (renameName fn r2) = some f ∧
      (∀ s ∈ [d3, d4], ∃ g, s fn = some g ∧ SameTree f g ∧ g.keys = f.keys ∧
        ∀ key, comps key ≠ [] → g.load key = f.load key) ∧
      ∀ name, name ≠ fn → d4 name = d name := by
  obtain ⟨g, hg1, hg2, hg3⟩ := copy_sameTree hf
  have hn1 := repackName_ne fn r1
  have hn2 := renameName_ne fn r2
  have hn3 := repackName_ne_renameName fn r1 r2
  have hnd : (g.map Prod.fst).Nodup := by
    apply copyAll_nodup hf (g := Archive.empty) (by simp [Archive.empty]) _ (top_nodup hf.nodup) hg1
    intro k r _
    simp [Archive.empty, get_cons, get_nil]
  have hkeys := hg2.keys hf hnd
  refine ⟨d :: junk.map (d.write (repackName fn r1)) ++ [d.write (repackName fn r1) g],
    (d.write (repackName fn r1) g).rename fn (renameName fn r2),
    ((d.write (repackName fn r1) g).rename fn (renameName fn r2)).rename (repackName fn r1) fn,
    (((d.write (repackName fn r1) g).rename fn (renameName fn r2)).rename (repackName fn r1) fn).remove (renameName fn r2),
    ?_, ?_, ?_, ?_, ?_, ?_, ?_⟩
  · unfold repackStates
    rw [hd]
    simp only [h1, Option.getD_none, hg1, List.append_assoc]
    rfl
  · intro s hs
    simp only [List.mem_append, List.mem_cons, List.not_mem_nil, or_false, List.mem_map] at hs
    rcases hs with ((rfl | ⟨j, -, rfl⟩) | rfl) | rfl | rfl | rfl
    · exact ⟨fn, f, hd, fun _ _ => rfl⟩
    · exact ⟨fn, f, by simp [Disk.write, hn1.symm, hd], fun _ _ => rfl⟩
    · exact ⟨fn, f, by simp [Disk.write, hn1.symm, hd], fun _ _ => rfl⟩
    · exact ⟨renameName fn r2, f, by simp [Disk.rename, Disk.write, hn1.symm, hd], fun _ _ => rfl⟩
    · exact ⟨fn, g, by simp [Disk.rename, Disk.write, hn3, hn1], hg2⟩
    · exact ⟨fn, g, by simp [Disk.rename, Disk.write, Disk.remove, hn3, hn1, hn2.symm], hg2⟩
  · intro s hs
    simp only [List.mem_append, List.mem_cons, List.not_mem_nil, or_false, List.mem_map] at hs
    rcases hs with (rfl | ⟨j, -, rfl⟩) | rfl
    · exact hd
    · simp [Disk.write, hn1.symm, hd]
    · simp [Disk.write, hn1.symm, hd]
  · simp [Disk.rename, hn2.symm]
  · simp [Disk.rename, Disk.write, hn1.symm, hd]
  · intro s hs
    refine ⟨g, ?_, hg2, hkeys, fun key hk => hg2.load key hk⟩
    simp only [List.mem_cons, List.not_mem_nil, or_false] at hs
    rcases hs with rfl | rfl
    · simp [Disk.rename, Disk.write, hn3, hn1]
    · simp [Disk.rename, Disk.write, Disk.remove, hn3, hn1, hn2.symm]
  · intro name hname
    simp only [Disk.rename, Disk.write, Disk.remove, hname, if_false]
    by_cases e1 : name = renameName fn r2
    · rw [if_pos e1, e1, h2]
    · rw [if_neg e1]
      by_cases e2 : name = repackName fn r1
      · rw [if_pos e2, e2, h1]
      · simp [e2, e1]

theorem repack_last {d : Disk} {fn r1 : String} (r2 : String) {f g : Archive} (junk : List Archive)
    (hd : d fn = some f) (h1 : d (repackName fn r1) = none)
    (hg : f.copyAll Archive.empty f.top = .ok g) :
    repackStates d fn r1 r2 junk = .ok (d :: junk.map (d.write (repackName fn r1)) ++
      [d.write (repackName fn r1) g, (d.write (repackName fn r1) g).rename fn (renameName fn r2),
      ((d.write (repackName fn r1) g).rename fn (renameName fn r2)).rename (repackName fn r1) fn] ++
      [(((d.write (repackName fn r1) g).rename fn (renameName fn r2)).rename (repackName fn r1)
        fn).remove (renameName fn r2)]) := by
  unfold repackStates
  rw [hd]
  simp only [h1, Option.getD_none, hg, List.append_assoc]
  rfl

/-- A larry saved in the root group (key `/`) does not survive: the attribute of the root group is not
copied. -/
theorem C58_root (d : Disk) (fn r1 r2 : String) (f : Archive) (hf : f.WF) (hd : d fn = some f)
    (h1 : d (repackName fn r1) = none) (junk : List Archive) :
    ∃ states d4 g, repackStates d fn r1 r2 junk = .ok states ∧ states.getLast? = some d4 ∧
      d4 fn = some g ∧ g.load "/" = .error .keyError := by
  obtain ⟨g, hg1, hg2, hg3⟩ := copy_sameTree hf
  have hn1 := repackName_ne fn r1
  have hn2 := renameName_ne fn r2
  have hn3 := repackName_ne_renameName fn r1 r2
  refine ⟨_, _, g, repack_last r2 junk hd h1 hg1, List.getLast?_concat, ?_, ?_⟩
  · simp [Disk.rename, Disk.write, Disk.remove, hn3, hn1, hn2.symm]
  · have hc : comps "/" = [] := by decide +kernel
    unfold Archive.load Archive.checkKey Archive.isLarry
    rw [hc, hg3]

/-- A name already in use is overwritten: `os.rename` onto an existing file destroys it. -/
theorem C58_clobbers (d : Disk) (fn r1 r2 : String) (f : Archive) (hf : f.WF) (hd : d fn = some f)
    (h1 : d (repackName fn r1) = none) (junk : List Archive) :
    ∃ states d4, repackStates d fn r1 r2 junk = .ok states ∧ states.getLast? = some d4 ∧
      d4 (renameName fn r2) = none := by
  obtain ⟨g, hg1, hg2, hg3⟩ := copy_sameTree hf
  refine ⟨_, _, repack_last r2 junk hd h1 hg1, List.getLast?_concat, ?_⟩
  · simp [Disk.remove]

/-! ## Example -/

/-- A disk with one archive; the hypotheses of `C58_repack` hold. -/
def exDisk : Disk := fun n => if n = "d.hdf5" then some (runOps Archive.empty exOps).1 else none

example : exDisk "d.hdf5" = some (runOps Archive.empty exOps).1 ∧
    exDisk (repackName "d.hdf5" "aB3x") = none ∧ exDisk (renameName "d.hdf5" "q9Zz") = none := by
  refine ⟨rfl, ?_, ?_⟩
  · unfold exDisk; rw [if_neg]; exact repackName_ne _ _
  · unfold exDisk; rw [if_neg]; exact renameName_ne _ _

example : (runOps Archive.empty exOps).1.WF := by
  have h := ((rep_empty _ exKeys_separate).run exKeys_separate exOps (by unfold exOps; simp [Op.key]) ?_).2.wf
  · exact h
  · intro op hop k y he
    subst he
    simp only [exOps, List.mem_cons, Op.set.injEq, reduceCtorEq, List.not_mem_nil, or_false] at hop
    rcases hop with ⟨-, rfl⟩ | ⟨-, rfl⟩ | ⟨-, rfl⟩ | ⟨-, rfl⟩ | ⟨-, rfl⟩
    all_goals first | exact exIO1_archivable | exact exIO2_archivable

/-- A larry can be saved at the root, and then loads: `C58_root` is a loss. -/
example : (Archive.empty.save exIO1 "/").2 = .ok () ∧
    ((Archive.empty.save exIO1 "/").1.load "/").toOption.isSome := by decide +kernel

end La
