import Verif.Resample
import Verif.Props.Axes
import Verif.Props.Lix

/-!
# C54, C55, C65: resampling
-/

namespace La

/-! ## C54 -/

theorem slc_append {index : List Nat} {a b c : Nat} (h1 : a ≤ b) (h2 : b ≤ c) : slc index a b ++ slc index b c = slc index a c := by
  unfold slc
  have e1 : (index.take b).drop a = ((index.take c).drop a).take (b - a) := by
    rw [← List.drop_take, List.take_take, Nat.min_eq_left h2]
  have e2 : (index.take c).drop b = ((index.take c).drop a).drop (b - a) := by
    rw [List.drop_drop]; congr 1; omega
  rw [e1, e2, List.take_append_drop]

theorem fold_flatten (index : List Nat) (nperk kfold remainder : Nat) (j : Nat) (hj : j < kfold) :
    (((List.range j).map (cvFold index nperk kfold remainder)).map Prod.snd).flatten = slc index 0 (nperk * j) := by
  induction j with
  | zero => simp [slc]
  | succ j ih =>
    rw [List.range_succ, List.map_append, List.map_append, List.flatten_append, ih (by omega)]
    simp only [List.map_cons, List.map_nil, List.flatten_cons, List.flatten_nil, List.append_nil, cvFold]
    rw [if_neg (by omega), slc_append (by omega) (by omega), Nat.mul_succ]

theorem length_slc {index : List Nat} {a b : Nat} (h : b ≤ index.length) : (slc index a b).length = b - a := by
  simp [slc, Nat.min_eq_left h]

theorem pairwise_of_flatten {ls : List (List Nat)} (h : ls.flatten.Nodup) : ls.Pairwise List.Disjoint :=
  (List.nodup_flatten.mp h).2

/-- C54. `cross_validation(n, kfold)` yields `kfold` pairs.  The test sets are disjoint, not empty and
contain each of `0 ... n-1` exactly once; every train set is the complement of its test set; all test
sets have `n / kfold` members but the last, which also has the remainder. -/
theorem C54_cross_validation {shuffle : List Nat → List Nat} (hs : ∀ l, (shuffle l).Perm l) {n kfold : Nat}
    (hn : 2 ≤ n) (hk : 2 ≤ kfold) (hkn : kfold ≤ n) :
    ∃ ps, crossValidation shuffle n kfold = .ok ps ∧ ps.length = kfold ∧
      (ps.map Prod.snd).flatten.Perm (List.range n) ∧
      (ps.map Prod.snd).Pairwise List.Disjoint ∧
      (∀ p ∈ ps, (p.1 ++ p.2).Perm (List.range n) ∧ p.2 ≠ [] ∧ p.1 ≠ []) ∧
      (∀ k, k + 1 < kfold → (ps[k]?.map (fun p => p.2.length)) = some (n / kfold)) ∧
      (ps[kfold - 1]?.map (fun p => p.2.length)) = some (n / kfold + n % kfold) := by
  have hperm := hs (List.range n)
  have hlen : (shuffle (List.range n)).length = n := by simpa using hperm.length_eq
  have hq : 0 < n / kfold := Nat.div_pos hkn (by omega)
  have hdm := Nat.div_add_mod n kfold
  have hmod := Nat.mod_lt n (show kfold > 0 by omega)
  have hrem : n - n / kfold * kfold = n % kfold := by
    have := Nat.mul_comm (n / kfold) kfold
    omega
  have hmul : ∀ k, k + 1 < kfold → n / kfold * k + n / kfold ≤ n - n / kfold := by
    intro k hk'
    have h1 : n / kfold * (k + 2) ≤ n / kfold * kfold := Nat.mul_le_mul_left _ (by omega)
    have h2 : n / kfold * kfold ≤ n := Nat.div_mul_le_self n kfold
    rw [Nat.mul_add] at h1
    omega
  have hlast : n / kfold * (kfold - 1) + n / kfold + n % kfold = n := by
    have e : n / kfold * (kfold - 1) + n / kfold = n / kfold * kfold := by
      rw [← Nat.mul_succ]
      congr 1
      omega
    rw [e, Nat.mul_comm]; omega
  have hflat : ((((List.range kfold).map (cvFold (shuffle (List.range n)) (n / kfold) kfold (n % kfold))).map Prod.snd).flatten)
      = shuffle (List.range n) := by
    have e : List.range kfold = List.range (kfold - 1) ++ [kfold - 1] := by
      conv_lhs => rw [show kfold = (kfold - 1) + 1 by omega]
      rw [List.range_succ]
    rw [e, List.map_append, List.map_append, List.flatten_append, fold_flatten _ _ _ _ _ (by omega)]
    simp only [List.map_cons, List.map_nil, List.flatten_cons, List.flatten_nil, List.append_nil, cvFold]
    rw [if_pos (by omega), hlast, slc_append (by omega) (by omega)]
    simp [slc, List.take_of_length_le (le_of_eq hlen)]
  have hnd : (List.range n).Nodup := List.nodup_range
  refine ⟨(List.range kfold).map (cvFold (shuffle (List.range n)) (n / kfold) kfold (n % kfold)), ?_, by simp, ?_, ?_, ?_, ?_, ?_⟩
  · unfold crossValidation
    rw [if_neg (by omega), if_neg (by omega), if_neg (by omega)]
    simp only [Int.toNat_natCast, hrem]
  · rw [hflat]; exact hperm
  · apply pairwise_of_flatten
    rw [hflat]; exact hperm.nodup_iff.mpr hnd
  · intro p hp
    obtain ⟨k, hk', rfl⟩ := List.mem_map.mp hp
    rw [List.mem_range] at hk'
    have key : ∀ b, n / kfold * k ≤ b → b ≤ n →
        ((shuffle (List.range n)).take (n / kfold * k) ++ (shuffle (List.range n)).drop b ++ slc (shuffle (List.range n)) (n / kfold * k) b).Perm
          (List.range n) := by
      intro b h1 h2
      refine List.Perm.trans ?_ hperm
      have e : shuffle (List.range n) = (shuffle (List.range n)).take (n / kfold * k) ++
          (slc (shuffle (List.range n)) (n / kfold * k) b ++ (shuffle (List.range n)).drop b) := by
        have e1 : (shuffle (List.range n)).take (n / kfold * k) = slc (shuffle (List.range n)) 0 (n / kfold * k) := by simp [slc]
        rw [← List.append_assoc, e1, slc_append (by omega) h1]
        simp [slc]
      rw [List.append_assoc]
      conv_rhs => rw [e]
      exact List.Perm.append_left _ List.perm_append_comm
    by_cases hl : k + 1 = kfold
    · have hk1 : k = kfold - 1 := by omega
      have hb : n / kfold * k + n / kfold + n % kfold = n := by rw [hk1]; exact hlast
      simp only [cvFold, if_pos hl]
      refine ⟨key _ (by omega) (by omega), ?_, ?_⟩
      · intro h0
        have := congrArg List.length h0
        rw [length_slc (by omega)] at this
        simp at this
        omega
      · intro h0
        have := congrArg List.length h0
        have h1 : n / kfold * 1 ≤ n / kfold * k := Nat.mul_le_mul_left _ (by omega)
        simp only [List.length_append, List.length_take, List.length_nil, hlen] at this
        omega
    · have := hmul k (by omega)
      simp only [cvFold, if_neg hl]
      refine ⟨key _ (by omega) (by omega), ?_, ?_⟩
      · intro h0
        have := congrArg List.length h0
        rw [length_slc (by omega)] at this
        simp at this
        omega
      · intro h0
        have := congrArg List.length h0
        simp only [List.length_append, List.length_take, List.length_drop, List.length_nil, hlen] at this
        omega
  · intro k hk'
    have := hmul k hk'
    simp only [List.getElem?_map, List.getElem?_range (show k < kfold by omega), Option.map_some, cvFold, if_neg (show ¬ k + 1 = kfold by omega)]
    rw [length_slc (by omega)]
    congr 1; omega
  · simp only [List.getElem?_map, List.getElem?_range (show kfold - 1 < kfold by omega), Option.map_some, cvFold,
      if_pos (show kfold - 1 + 1 = kfold by omega)]
    rw [length_slc (by omega)]
    congr 1; omega

/-- C54. Anything else raises ValueError. -/
theorem C54_errors (shuffle : List Nat → List Nat) {n kfold : Int} (h : n < 2 ∨ kfold < 2 ∨ n < kfold) :
    crossValidation shuffle n kfold = .error .valueError := by
  unfold crossValidation
  by_cases h1 : n < 2
  · rw [if_pos h1]
  · by_cases h2 : kfold < 2
    · rw [if_neg h1, if_pos h2]
    · rw [if_neg h1, if_neg h2, if_pos (by omega)]

/-- The hypotheses are met, and the remainder goes to the last fold. -/
example : (∀ l : List Nat, l.reverse.Perm l) ∧
    crossValidation List.reverse 7 3 = .ok [([4, 3, 2, 1, 0], [6, 5]), ([6, 5, 2, 1, 0], [4, 3]), ([6, 5, 4, 3], [2, 1, 0])] :=
  ⟨List.reverse_perm, rfl⟩

/-! ## C55 -/

/-- The draw misses a number. -/
def Misses (n : Nat) (draw : List Nat) : Prop := ∃ i < n, i ∉ draw

instance (n : Nat) (draw : List Nat) : Decidable (Misses n draw) := by unfold Misses; infer_instance

/-- A pair yielded for a draw: the draw itself and, in some order, the numbers missed. -/
def BootPair (n : Nat) (p : List Nat × List Nat) (draw : List Nat) : Prop :=
  p.1 = draw ∧ p.2.Nodup ∧ (∀ i, i ∈ p.2 ↔ i < n ∧ i ∉ draw) ∧ p.2 ≠ []

theorem mem_outOfBag {setList : List Nat → List Nat} (hs : ∀ l, (setList l).Perm l) {n i : Nat} {train : List Nat} :
    i ∈ outOfBag setList n train ↔ i < n ∧ i ∉ train := by
  rw [outOfBag, (hs _).mem_iff]; simp

theorem outOfBag_pos {setList : List Nat → List Nat} (hs : ∀ l, (setList l).Perm l) {n : Nat} {train : List Nat} :
    (outOfBag setList n train).length > 0 ↔ Misses n train := by
  rw [gt_iff_lt, List.length_pos_iff_exists_mem]
  simp only [mem_outOfBag hs, Misses]

theorem bootGo_spec {setList : List Nat → List Nat} (hs : ∀ l, (setList l).Perm l) {n nboot : Nat} (draws : List (List Nat)) :
    ∀ count, count < nboot →
      List.Forall₂ (BootPair n) (bootGo setList n nboot count draws).1
        ((draws.filter (fun d => Misses n d)).take (nboot - count)) ∧
      ((bootGo setList n nboot count draws).2 = true ↔ nboot - count ≤ (draws.filter (fun d => Misses n d)).length) := by
  induction draws with
  | nil => intro count hc; simp [bootGo]; omega
  | cons d draws ih =>
    intro count hc
    have hpair : Misses n d → BootPair n (d, outOfBag setList n d) d := by
      intro hm
      refine ⟨rfl, ?_, fun i => mem_outOfBag hs, ?_⟩
      · rw [outOfBag, (hs _).nodup_iff]
        exact List.nodup_range.filter _
      · exact List.ne_nil_of_length_pos ((outOfBag_pos hs).mpr hm)
    by_cases hm : Misses n d
    · have hm' := (outOfBag_pos hs).mpr hm
      rw [List.filter_cons_of_pos (by simpa using hm)]
      unfold bootGo
      rw [if_pos hm']
      by_cases hc1 : count + 1 ≥ nboot
      · rw [if_pos hc1]
        have : nboot - count = 1 := by omega
        rw [this]
        refine ⟨.cons (hpair hm) (by simp), ?_⟩
        simp
      · rw [if_neg hc1]
        obtain ⟨h1, h2⟩ := ih (count + 1) (by omega)
        have : nboot - count = (nboot - (count + 1)) + 1 := by omega
        rw [this, List.take_succ_cons]
        refine ⟨.cons (hpair hm) h1, ?_⟩
        simp only [List.length_cons, Nat.add_le_add_iff_right]
        exact h2
    · have hm' : ¬ (outOfBag setList n d).length > 0 := fun h => hm ((outOfBag_pos hs).mp h)
      rw [List.filter_cons_of_neg (by simpa using hm)]
      unfold bootGo
      rw [if_neg hm', if_neg (by omega)]
      exact ih count hc

/-- C55. `bootstrap(n, nboot)` goes through the draws and yields, for each draw that misses a number of
`0 ... n-1`, the draw and the numbers it misses.  It stops exactly when it has yielded `nboot` pairs. -/
theorem C55_bootstrap {setList : List Nat → List Nat} (hs : ∀ l, (setList l).Perm l) {n nboot : Nat} (hn : 2 ≤ n) (hb : 1 ≤ nboot)
    (draws : List (List Nat)) :
    ∃ ps done, bootstrap setList n nboot draws = .ok (ps, done) ∧
      List.Forall₂ (BootPair n) ps ((draws.filter (fun d => Misses n d)).take nboot) ∧
      ps.length ≤ nboot ∧ (done = true ↔ ps.length = nboot) ∧
      (done = true ↔ nboot ≤ (draws.filter (fun d => Misses n d)).length) := by
  obtain ⟨h1, h2⟩ := bootGo_spec hs (n := n) (nboot := nboot) draws 0 (by omega)
  rw [Nat.sub_zero] at h1 h2
  refine ⟨_, _, ?_, h1, ?_, ?_, h2⟩
  · unfold bootstrap
    rw [if_neg (by omega), if_neg (by omega)]
    simp only [Int.toNat_natCast]
  · rw [h1.length_eq]; simp
  · rw [h1.length_eq, h2, List.length_take]; omega

/-- C55. Bad arguments raise ValueError. -/
theorem C55_errors (setList : List Nat → List Nat) {n nboot : Int} (h : n < 2 ∨ nboot < 1) (draws : List (List Nat)) :
    bootstrap setList n nboot draws = .error .valueError := by
  unfold bootstrap
  by_cases h1 : n < 2
  · rw [if_pos h1]
  · rw [if_neg h1, if_pos (by omega)]

/-- The hypotheses are met: the draw `[1, 0]` misses nothing and is passed over. -/
example : bootstrap id 2 2 [[1, 1], [1, 0], [0, 0], [1, 1]] = .ok ([([1, 1], [0]), ([0, 0], [1])], true) := rfl

/-! ## C65 -/

section
variable {L : Type _} [LinearOrder L]

theorem forall₂_asInts {n : Nat} {ids : List Nat} (h : ∀ i ∈ ids, i < n) :
    List.Forall₂ (fun i k => pyIdx n i = some k) (asInts ids) ids := by
  induction ids with
  | nil => exact .nil
  | cons i ids ih =>
    exact .cons (by rw [pyIdx_ofNat]; simp [h i (by simp)]) (ih (fun j hj => h j (by simp [hj])))

/-- C65. Splitting a larry by a pair of index lists that partition the axis gives two larrys; every
labelled value of the larry is in exactly one of them and they hold nothing else. -/
theorem C65_split {y : Larry L} (hv : y.Valid) {a : Int} {ax : Nat} {l : List L} (hax : pyIdx y.ndim a = some ax)
    (hl : y.label[ax]? = some l) {train test : List Nat} (hp : (train ++ test).Perm (List.range l.length)) :
    ∃ tr te, resampleSplit y train test a = .ok (tr, te) ∧ tr.Valid ∧ te.Valid ∧ tr.dtype = y.dtype ∧ te.dtype = y.dtype ∧
      (∀ names v, y.Has names v ↔ tr.Has names v ∨ te.Has names v) ∧
      (∀ names v w, ¬ (tr.Has names v ∧ te.Has names w)) ∧
      (tr.label[ax]?.map List.length = some train.length) ∧ te.label[ax]?.map List.length = some test.length := by
  have hnd : (train ++ test).Nodup := hp.nodup_iff.mpr List.nodup_range
  have hlt : ∀ i ∈ train ++ test, i < l.length := fun i hi => List.mem_range.mp (hp.mem_iff.mp hi)
  have hdis := List.nodup_append.mp hnd
  obtain ⟨tr, ltr, h1, h2, h3⟩ := C34_take hv hax hl (forall₂_asInts (fun i hi => hlt i (by simp [hi]))) hdis.1
  obtain ⟨te, lte, g1, g2, g3⟩ := C34_take hv hax hl (forall₂_asInts (fun i hi => hlt i (by simp [hi]))) hdis.2.1
  have hln : l.Nodup := hv.nodup l (List.mem_of_getElem? hl)
  have hax' : ax < y.label.length := (List.getElem?_eq_some_iff.mp hl).1
  have hmem : ∀ (ids : List Nat) (lab : List L), lab.map some = ids.map (fun k => l[k]?) → ∀ n, n ∈ lab ↔ ∃ i ∈ ids, l[i]? = some n := by
    intro ids lab h n
    constructor
    · intro hn
      have : some n ∈ ids.map (fun k => l[k]?) := by rw [← h]; exact List.mem_map.mpr ⟨n, hn, rfl⟩
      simpa using this
    · rintro ⟨i, hi, he⟩
      have : some n ∈ lab.map some := by rw [h]; exact List.mem_map.mpr ⟨i, hi, he⟩
      simpa using this
  have hnamed : ∀ lab names, Named (y.label.set ax lab) names → ∃ n, names[ax]? = some n ∧ n ∈ lab := by
    intro lab names h
    rw [Named_iff] at h
    obtain ⟨e1, e2⟩ := h
    have hlen : ax < names.length := by rw [e1, List.length_set]; exact hax'
    refine ⟨names[ax], List.getElem?_eq_getElem hlen, e2 ax _ _ (by rw [List.getElem?_set_self hax']) (List.getElem?_eq_getElem hlen)⟩
  refine ⟨tr, te, ?_, h3.valid, g3.valid, h3.dtype_eq, g3.dtype_eq, ?_, ?_, ?_, ?_⟩
  · simp only [resampleSplit, h1, g1]
  · intro names v
    constructor
    · intro hy
      obtain ⟨p, hat, -⟩ := id hy
      have hN := Named_of_At hat
      have hN' := (Named_iff.mp hN)
      have hlen : ax < names.length := by rw [hN'.1]; exact hax'
      have hin := hN'.2 ax _ _ hl (List.getElem?_eq_getElem hlen)
      obtain ⟨i, hi, he⟩ := List.getElem_of_mem hin
      have hir : i ∈ train ++ test := hp.mem_iff.mpr (List.mem_range.mpr hi)
      have hget : l[i]? = some names[ax] := by rw [List.getElem?_eq_getElem hi, he]
      have hset : ∀ lab, names[ax] ∈ lab → Named (y.label.set ax lab) names := by
        intro lab hlab
        rw [Named_iff]
        refine ⟨by rw [List.length_set]; exact hN'.1, ?_⟩
        intro k l' n hk hn
        by_cases hka : k = ax
        · subst hka
          rw [List.getElem?_set_self hax'] at hk
          rw [List.getElem?_eq_getElem hlen] at hn
          simp only [Option.some.injEq] at hk hn
          rw [← hk, ← hn]; exact hlab
        · rw [List.getElem?_set_ne (fun h => hka h.symm)] at hk
          exact hN'.2 k l' n hk hn
      rcases List.mem_append.mp hir with hi' | hi'
      · exact Or.inl ((h3.has _ _).mpr ⟨hset _ ((hmem _ _ h2 _).mpr ⟨i, hi', hget⟩), hy⟩)
      · exact Or.inr ((g3.has _ _).mpr ⟨hset _ ((hmem _ _ g2 _).mpr ⟨i, hi', hget⟩), hy⟩)
    · rintro (h | h)
      · exact ((h3.has _ _).mp h).2
      · exact ((g3.has _ _).mp h).2
  · rintro names v w ⟨h, h'⟩
    obtain ⟨n, e1, e2⟩ := hnamed _ _ ((h3.has _ _).mp h).1
    obtain ⟨n', e1', e2'⟩ := hnamed _ _ ((g3.has _ _).mp h').1
    rw [e1] at e1'
    simp only [Option.some.injEq] at e1'
    subst e1'
    obtain ⟨i, hi, he⟩ := (hmem _ _ h2 _).mp e2
    obtain ⟨j, hj, he'⟩ := (hmem _ _ g2 _).mp e2'
    have := nodup_getElem?_inj hln he he'
    exact hdis.2.2 i hi j hj this
  · rw [h3.label_eq, List.getElem?_set_self hax']
    have := congrArg List.length h2
    simpa using this
  · rw [g3.label_eq, List.getElem?_set_self hax']
    have := congrArg List.length g2
    simpa using this

/-- C65. A pair of index lists from `bootstrap` cannot be used to split a larry along an axis of length
`n`: the draw repeats an index and `take` raises IndexError. -/
theorem C65_bootstrap {y : Larry L} (hv : y.Valid) {a : Int} {ax : Nat} {l : List L} (hax : pyIdx y.ndim a = some ax)
    (hl : y.label[ax]? = some l) {draw : List Nat} (hlen : draw.length = l.length) (hr : ∀ i ∈ draw, i < l.length)
    {p : List Nat × List Nat} (hp : BootPair l.length p draw) :
    resampleSplit y p.1 p.2 a = .error .indexError := by
  obtain ⟨rfl, -, h3, h4⟩ := hp
  obtain ⟨i, hi⟩ := List.exists_mem_of_ne_nil _ h4
  obtain ⟨hi1, hi2⟩ := (h3 i).mp hi
  have hnd : ¬ p.1.Nodup := by
    intro hnd
    have hsub : p.1 ⊆ (List.range l.length).erase i := by
      intro j hj
      rw [List.nodup_range.mem_erase_iff]
      exact ⟨fun h => hi2 (h ▸ hj), List.mem_range.mpr (hr j hj)⟩
    have := (List.subperm_of_subset hnd hsub).length_le
    rw [List.length_erase_of_mem (List.mem_range.mpr hi1), List.length_range] at this
    omega
  have := (C34_take_errors hv a (asInts p.1)).2.2 ax l p.1 hax hl (forall₂_asInts hr) hnd
  simp only [resampleSplit, this]

end

/-- The hypotheses are met: the columns of `exA` in two folds. -/
example : exA.Valid ∧ pyIdx exA.ndim 1 = some 1 ∧ exA.label[1]? = some [3, 1, 2] ∧ ([2, 0] ++ [1]).Perm (List.range [3, 1, 2].length) ∧
    (∃ tr te, resampleSplit exA [2, 0] [1] 1 = .ok (tr, te) ∧ tr.label = [[10, 20], [2, 3]] ∧ te.label = [[10, 20], [1]]) ∧
    BootPair 3 ([0, 0, 1], [2]) [0, 0, 1] :=
  ⟨⟨rfl, by decide, by decide⟩, rfl, rfl, by decide, ⟨_, _, rfl, rfl, rfl⟩,
    ⟨rfl, by decide, fun i => by simp only [List.mem_cons, List.not_mem_nil, or_false]; omega, by decide⟩⟩

end La
