import Verif.Unique
import Verif.LarryFacts
import Verif.Props.Flatten
import Verif.Props.Stack
import Verif.ReduceFacts
import Mathlib.Data.Char
import Mathlib.Data.List.Lex

/-!
# `unique` (C101)
-/

namespace La

variable {L : Type _}

/-! ## What the values are to satisfy -/

/-- `a < b` for two elements of an array of numbers or of strings. -/
def Smaller : Val → Val → Prop
  | .str s, .str t => s.toList < t.toList
  | a, b => a.num.lt b.num = true

/-- `a` may stand in front of `b` in a list of different values, smallest first: it is smaller, or `b` is a
NaN. -/
def InFront (a b : Val) : Prop := Smaller a b ∨ b = .flt .nan

/-! ## The order of the elements of one dtype -/

theorem Smaller.irrefl (a : Val) : ¬ Smaller a a := by
  rcases a with b | n | f | s | _ | o <;> simp [Smaller, Val.num, Flt.lt]
  cases f <;> simp

theorem Smaller.not_nan_left (b : Val) : ¬ Smaller (.flt .nan) b := by
  simp [Smaller, Val.num, Flt.lt]

theorem Flt.lt_trans' {a b c : Flt} (h1 : a.lt b = true) (h2 : b.lt c = true) : a.lt c = true := by
  cases a <;> cases b <;> cases c <;> simp_all [Flt.lt]
  exact lt_trans h1 h2

theorem Flt.lt_asymm' {a b : Flt} (h1 : a.lt b = true) (h2 : b.lt a = true) : False := by
  cases a <;> cases b <;> simp_all [Flt.lt]
  exact absurd h1 (not_lt.mpr h2.le)

variable {d : DType}

theorem Smaller.trans (hd : d ≠ .object) {a b c : Val} (ha : a.hasDType d = true) (hb : b.hasDType d = true)
    (hc : c.hasDType d = true) (h1 : Smaller a b) (h2 : Smaller b c) : Smaller a c := by
  rcases a with _ | _ | _ | _ | _ | _ <;> rcases b with _ | _ | _ | _ | _ | _ <;> rcases c with _ | _ | _ | _ | _ | _ <;>
    cases d <;> simp_all [Val.hasDType, Smaller] <;>
    first
      | exact Flt.lt_trans' h1 h2
      | exact lt_trans h1 h2

theorem Smaller.asymm (hd : d ≠ .object) {a b : Val} (ha : a.hasDType d = true) (hb : b.hasDType d = true)
    (h1 : Smaller a b) (h2 : Smaller b a) : False := by
  rcases a with _ | _ | _ | _ | _ | _ <;> rcases b with _ | _ | _ | _ | _ | _ <;>
    cases d <;> simp_all [Val.hasDType, Smaller] <;>
    first
      | exact Flt.lt_asymm' h1 h2
      | exact absurd h1 (not_lt.mpr (le_of_lt h2))

theorem Flt.le_cases {a b : Flt} (h : a.le b = true) : a = b ∧ a ≠ .nan ∨ a.lt b = true := by
  cases a <;> cases b <;> simp_all [Flt.le, Flt.lt, Flt.eq]
  rcases h with h | h
  · exact Or.inr h
  · exact Or.inl h

theorem npBefore_cases (hd : d ≠ .object) {a b : Val} (ha : a.hasDType d = true) (hb : b.hasDType d = true)
    (h : npBefore a b) : a = b ∨ InFront a b := by
  unfold InFront
  cases d with
  | object => exact absurd rfl hd
  | str =>
    rcases a with _ | _ | _ | s | _ | _ <;> simp [Val.hasDType] at ha
    rcases b with _ | _ | _ | t | _ | _ <;> simp [Val.hasDType] at hb
    simp only [npBefore] at h
    rcases lt_trichotomy s.toList t.toList with h1 | h1 | h1
    · exact Or.inr (Or.inl h1)
    · exact Or.inl (by rw [String.toList_inj.mp h1])
    · exact absurd h1 h
  | float =>
    rcases a with _ | _ | f | s | _ | _ <;> simp [Val.hasDType] at ha
    rcases b with _ | _ | g | t | _ | _ <;> simp [Val.hasDType] at hb
    simp only [npBefore, Val.num] at h
    rcases h with h | h
    · cases g <;> simp_all [Flt.isNan]
    · rcases Flt.le_cases h with h | h
      · exact Or.inl (by rw [h.1])
      · exact Or.inr (Or.inl h)
  | int =>
    rcases a with _ | m | f | s | _ | _ <;> simp [Val.hasDType] at ha
    rcases b with _ | n | g | t | _ | _ <;> simp [Val.hasDType] at hb
    simp only [npBefore, Val.num] at h
    rcases h with h | h
    · simp [Flt.isNan] at h
    · rcases Flt.le_cases h with h | h
      · left; have := h.1; simp at this; rw [this]
      · exact Or.inr (Or.inl h)
  | bool =>
    rcases a with m | _ | f | s | _ | _ <;> simp [Val.hasDType] at ha
    rcases b with n | _ | g | t | _ | _ <;> simp [Val.hasDType] at hb
    simp only [npBefore, Val.num] at h
    rcases h with h | h
    · simp [Flt.isNan] at h
    · rcases Flt.le_cases h with h | h
      · left; have := h.1; cases m <;> cases n <;> simp_all
      · exact Or.inr (Or.inl h)

theorem npDiffers_false (hd : d ≠ .object) {a b : Val} (ha : a.hasDType d = true) (hb : b.hasDType d = true) :
    npDiffers a b = false ↔ a = b ∧ a ≠ .flt .nan := by
  rcases a with m | m | f | s | _ | _ <;> rcases b with n | n | g | t | _ | _ <;>
    cases d <;> simp_all [Val.hasDType, npDiffers, Val.num, Flt.eq]
  · cases m <;> cases n <;> simp
  · cases f <;> cases g <;> simp

/-! ## Marking and keeping -/

/-- The elements of `P` whose value differs from that of the element in front, `prev` being in front. -/
def keepFrom (prev : Val) : List (Val × Nat) → List (Val × Nat)
  | [] => []
  | p :: ps => if npDiffers p.1 prev then p :: keepFrom p.1 ps else keepFrom p.1 ps

theorem maskSelect_flags (prev : Val) (P : List (Val × Nat)) :
    maskSelect (flagsFrom prev (P.map Prod.fst)) (P.map Prod.fst) = (keepFrom prev P).map Prod.fst := by
  induction P generalizing prev with
  | nil => rfl
  | cons p ps ih =>
    simp only [List.map_cons, flagsFrom, maskSelect, keepFrom, ih]
    split <;> simp

theorem maskPositions_flags (prev : Val) (P : List (Val × Nat)) :
    maskPositions (flagsFrom prev (P.map Prod.fst)) (P.map Prod.snd) = (keepFrom prev P).map Prod.snd := by
  induction P generalizing prev with
  | nil => rfl
  | cons p ps ih =>
    simp only [List.map_cons, flagsFrom, maskPositions, keepFrom, ih]
    split <;> simp

theorem keepFrom_sublist (prev : Val) (P : List (Val × Nat)) : (keepFrom prev P).Sublist P := by
  induction P generalizing prev with
  | nil => exact .slnil
  | cons p ps ih =>
    simp only [keepFrom]
    split
    · exact (ih p.1).cons_cons p
    · exact (ih p.1).cons p

/-- The running count finds each element's value among the kept ones. -/
theorem cumCount_keep (hd : d ≠ .object) {prev : Val} (hp : prev.hasDType d = true) {P : List (Val × Nat)}
    (hP : ∀ p ∈ P, p.1.hasDType d = true) (c : Nat) {k r : Nat} {p : Val × Nat} (hk : P[k]? = some p)
    (hr : (cumCount c (flagsFrom prev (P.map Prod.fst)))[k]? = some r) :
    c ≤ r ∧ (prev :: (keepFrom prev P).map Prod.fst)[r - c]? = some p.1 := by
  induction P generalizing prev c k with
  | nil => simp at hk
  | cons q ps ih =>
    simp only [List.map_cons, flagsFrom, cumCount] at hr
    simp only [keepFrom]
    have hq := hP q (by simp)
    have hps : ∀ p ∈ ps, p.1.hasDType d = true := fun p h => hP p (by simp [h])
    cases hdf : npDiffers q.1 prev with
    | true =>
      simp only [hdf, if_true] at hr ⊢
      cases k with
      | zero =>
        simp only [List.getElem?_cons_zero, Option.some.injEq] at hk hr
        subst hk; subst hr
        exact ⟨by omega, by simp⟩
      | succ k =>
        simp only [List.getElem?_cons_succ] at hk hr
        obtain ⟨h1, h2⟩ := ih hq hps (c + 1) hk hr
        refine ⟨by omega, ?_⟩
        have : r - c = (r - (c + 1)) + 1 := by omega
        rw [this, List.getElem?_cons_succ, List.map_cons]
        exact h2
    | false =>
      simp only [hdf, Bool.false_eq_true, if_false, Nat.add_zero] at hr ⊢
      have e := ((npDiffers_false hd hq hp).mp hdf).1
      cases k with
      | zero =>
        simp only [List.getElem?_cons_zero, Option.some.injEq] at hk hr
        subst hk; subst hr
        exact ⟨by omega, by simp [e]⟩
      | succ k =>
        simp only [List.getElem?_cons_succ] at hk hr
        rw [← e]
        exact ih hq hps c hk hr

theorem length_flagsFrom (prev : Val) (vs : List Val) : (flagsFrom prev vs).length = vs.length := by
  induction vs generalizing prev with
  | nil => rfl
  | cons v vs ih => simp [flagsFrom, ih]

theorem length_cumCount (c : Nat) (bs : List Bool) : (cumCount c bs).length = bs.length := by
  induction bs generalizing c with
  | nil => rfl
  | cons b bs ih => simp [cumCount, ih]

/-- The kept elements come in order. -/
theorem keepFrom_inFront (hd : d ≠ .object) {prev : Val} (hp : prev.hasDType d = true) {P : List (Val × Nat)}
    (hP : ∀ p ∈ P, p.1.hasDType d = true) (hs : (prev :: P.map Prod.fst).Pairwise npBefore) :
    (∀ q ∈ keepFrom prev P, InFront prev q.1) ∧ ((keepFrom prev P).map Prod.fst).Pairwise InFront := by
  induction P generalizing prev with
  | nil => exact ⟨by simp [keepFrom], by simp [keepFrom]⟩
  | cons p ps ih =>
    have hp1 := hP p (by simp)
    have hps : ∀ p ∈ ps, p.1.hasDType d = true := fun p h => hP p (by simp [h])
    rw [List.map_cons, List.pairwise_cons] at hs
    obtain ⟨i1, i2⟩ := ih hp1 hps hs.2
    have hb := npBefore_cases hd hp hp1 (hs.1 p.1 (by simp))
    have up : ∀ q ∈ keepFrom p.1 ps, InFront prev q.1 := by
      intro q hq
      have hq1 := hps q ((keepFrom_sublist _ _).subset hq)
      have h1 := i1 q hq
      rcases hb with hb | hb | hb
      · rw [hb]; exact h1
      · rcases h1 with h1 | h1
        · exact Or.inl (Smaller.trans hd hp hp1 hq1 hb h1)
        · exact Or.inr h1
      · rcases h1 with h1 | h1
        · rw [hb] at h1; exact absurd h1 (Smaller.not_nan_left _)
        · exact Or.inr h1
    simp only [keepFrom]
    split
    · rename_i hdf
      refine ⟨?_, ?_⟩
      · intro q hq
        rcases List.mem_cons.mp hq with rfl | hq
        · rcases hb with hb | hb
          · right
            by_contra hn
            have := (npDiffers_false hd hp1 hp).mpr ⟨hb.symm, hn⟩
            rw [this] at hdf
            exact absurd hdf (by simp)
          · exact hb
        · exact up q hq
      · rw [List.map_cons, List.pairwise_cons]
        refine ⟨?_, i2⟩
        intro v hv
        obtain ⟨q, hq, rfl⟩ := List.mem_map.mp hv
        exact i1 q hq
    · exact ⟨up, i2⟩

theorem keepFrom_nans (prev : Val) (P : List (Val × Nat)) :
    (keepFrom prev P).filter (fun p => decide (p.1 = .flt .nan)) = P.filter (fun p => decide (p.1 = .flt .nan)) := by
  induction P generalizing prev with
  | nil => rfl
  | cons p ps ih =>
    simp only [keepFrom]
    by_cases h : p.1 = .flt .nan
    · have : npDiffers p.1 prev = true := by rw [h]; simp [npDiffers, Val.num, Flt.eq]
      rw [if_pos this, List.filter_cons_of_pos (by simpa using h), List.filter_cons_of_pos (by simpa using h), ih]
    · split <;> simp [h, ih]

/-- A kept element that is not NaN is the first with its value. -/
theorem keepFrom_first (hd : d ≠ .object) {prev : Val} (hp : prev.hasDType d = true) {P : List (Val × Nat)}
    (hP : ∀ p ∈ P, p.1.hasDType d = true) (hs : (prev :: P.map Prod.fst).Pairwise npBefore)
    (hst : P.Pairwise (fun p q => p.1 = q.1 → p.2 < q.2)) {p q : Val × Nat} (h1 : p ∈ keepFrom prev P) (h2 : q ∈ P)
    (h3 : p.1 = q.1) (h4 : p.1 ≠ .flt .nan) : p.2 ≤ q.2 := by
  induction P generalizing prev with
  | nil => simp at h2
  | cons a ps ih =>
    have ha := hP a (by simp)
    have hps : ∀ p ∈ ps, p.1.hasDType d = true := fun p h => hP p (by simp [h])
    rw [List.map_cons, List.pairwise_cons] at hs
    rw [List.pairwise_cons] at hst
    have later : p ∈ keepFrom a.1 ps → p.2 ≤ q.2 := by
      intro h
      have h5 := (keepFrom_inFront hd ha hps hs.2).1 p h
      rcases List.mem_cons.mp h2 with rfl | h2
      · rcases h5 with h5 | h5
        · rw [h3] at h5; exact absurd h5 (Smaller.irrefl _)
        · exact absurd h5 h4
      · exact ih ha hps hs.2 hst.2 h h2
    simp only [keepFrom] at h1
    split at h1
    · rcases List.mem_cons.mp h1 with rfl | h1
      · rcases List.mem_cons.mp h2 with rfl | h2
        · exact le_rfl
        · exact (hst.1 q h2 h3).le
      · exact later h1
    · exact later h1

/-! ## Positions -/

/-- `argsort` lists the positions of an array of one dtype in an order that sorts the elements. -/
def SortsArrays (argsort : List Val → List Nat) : Prop :=
  ∀ (d : DType) (xs : List Val), d ≠ .object → (∀ v ∈ xs, v.hasDType d = true) →
    (argsort xs).Perm (List.range xs.length) ∧
    ∀ (i j a b : Nat) (v w : Val), i < j → (argsort xs)[i]? = some a → (argsort xs)[j]? = some b →
      xs[a]? = some v → xs[b]? = some w → npBefore v w

/-- `argsort` keeps the order of equal elements, as numpy's mergesort does. -/
def Stable (argsort : List Val → List Nat) : Prop :=
  ∀ (xs : List Val) (i j a b : Nat), i < j → (argsort xs)[i]? = some a → (argsort xs)[j]? = some b → xs[a]? = xs[b]? → a < b

/-- `perm.argsort()` of a permutation is the inverse permutation. -/
theorem argsortNat_inv {perm : List Nat} (h : perm.Perm (List.range perm.length)) {i k : Nat}
    (hk : (argsortNat perm)[i]? = some k) : perm[k]? = some i := by
  have hp : (argsortNat perm).Perm (List.range perm.length) := List.mergeSort_perm _ _
  have hsort : (argsortNat perm).Pairwise (fun a b => decide (perm.getD a 0 ≤ perm.getD b 0) = true) := by
    apply List.pairwise_mergeSort
    · intro a b c h1 h2
      rw [decide_eq_true_eq] at *
      exact le_trans h1 h2
    · intro a b
      rw [Bool.or_eq_true, decide_eq_true_eq, decide_eq_true_eq]
      exact le_total _ _
  have e1 : (List.range perm.length).map (fun a => perm.getD a 0) = perm := by
    apply List.ext_getElem
    · simp
    · intro n h1 h2
      simp [List.getD, List.getElem?_eq_getElem h2]
  have e : (argsortNat perm).map (fun a => perm.getD a 0) = List.range perm.length := by
    refine List.Perm.eq_of_pairwise (le := fun a b : Nat => a ≤ b) (fun a b _ _ h1 h2 => le_antisymm h1 h2) ?_ ?_ ?_
    · rw [List.pairwise_map]
      exact hsort.imp (fun h => by simpa using h)
    · exact (List.pairwise_lt_range).imp (fun h => le_of_lt h)
    · have := hp.map (fun a => perm.getD a 0)
      rw [e1] at this
      exact this.trans h
  have hlt : k < perm.length := by
    have := hp.subset (List.mem_of_getElem? hk)
    simpa using this
  have h2 : ((argsortNat perm).map (fun a => perm.getD a 0))[i]? = some (perm.getD k 0) := by
    rw [List.getElem?_map, hk]; rfl
  rw [e] at h2
  have hi : i < perm.length := by
    have := (List.getElem?_eq_some_iff.mp hk).1
    rw [hp.length_eq] at this
    simpa using this
  rw [List.getElem?_range hi] at h2
  rw [List.getElem?_eq_getElem hlt]
  simp only [List.getD, List.getElem?_eq_getElem hlt, Option.getD_some, Option.some.injEq] at h2
  rw [h2]

/-- What `np.unique` returns for a list of elements of one dtype. -/
structure UniqueOf (stable : Prop) (vs : List Val) (ri rv : Bool) (u : Uniques) : Prop where
  mem : ∀ v, v ∈ u.values ↔ v ∈ vs
  order : u.values.Pairwise InFront
  nans : u.values.count (.flt .nan) = vs.count (.flt .nan)
  index : if ri then ∃ is, u.index = some is ∧ is.length = u.values.length ∧ is.Nodup ∧
      (∀ k i : Nat, is[k]? = some i → i < vs.length ∧ u.values[k]? = vs[i]?) ∧
      (∀ i : Nat, vs[i]? = some (.flt .nan) → i ∈ is) ∧
      (stable → ∀ i j v, i ∈ is → vs[i]? = some v → v ≠ .flt .nan → vs[j]? = some v → i ≤ j)
    else u.index = none
  inverse : if rv then ∃ is, u.inverse = some is ∧ is.length = vs.length ∧
      (∀ i r : Nat, is[i]? = some r → u.values[r]? = vs[i]?)
    else u.inverse = none

theorem npUnique_spec {argsort : List Val → List Nat} (hs : SortsArrays argsort) (hd : d ≠ .object) {vs : List Val}
    (ht : ∀ v ∈ vs, v.hasDType d = true) (ri rv : Bool) :
    UniqueOf (Stable argsort) vs ri rv (npUnique argsort vs ri rv) := by
  by_cases hvs : vs = []
  · subst hvs
    unfold npUnique
    rw [if_pos rfl]
    refine ⟨by simp, by simp, rfl, ?_, ?_⟩
    · cases ri <;> simp
    · cases rv <;> simp
  obtain ⟨hperm, hsort⟩ := hs d vs hd ht
  let p := argsort vs
  let P := p.map (fun i => (vs.getD i Val.none, i))
  have hlenp : p.length = vs.length := by simpa using hperm.length_eq
  have hpp : p.Perm (List.range p.length) := by rw [hlenp]; exact hperm
  have hlt : ∀ i ∈ p, i < vs.length := fun i hi => by simpa using hperm.subset hi
  have eaux : p.map (fun i => vs.getD i Val.none) = P.map Prod.fst := by simp [P, Function.comp_def]
  have eperm : p = P.map Prod.snd := by simp [P, Function.comp_def]
  have hPmem : ∀ q, q ∈ P ↔ vs[q.2]? = some q.1 := by
    intro q
    simp only [P, List.mem_map]
    constructor
    · rintro ⟨i, hi, rfl⟩
      simp [List.getElem?_eq_getElem (hlt i hi)]
    · intro h
      have h1 := (List.getElem?_eq_some_iff.mp h).1
      exact ⟨q.2, hperm.symm.subset (by simpa using h1), by simp [List.getD, h]⟩
  have hPt : ∀ q ∈ P, q.1.hasDType d = true := fun q hq => ht _ (List.mem_of_getElem? ((hPmem q).mp hq))
  have hPs : (P.map Prod.fst).Pairwise npBefore := by
    rw [← eaux, List.pairwise_map, List.pairwise_iff_getElem]
    intro i j hi hj hij
    have h1 := hlt _ (List.getElem_mem hi)
    have h2 := hlt _ (List.getElem_mem hj)
    refine hsort i j _ _ _ _ hij (List.getElem?_eq_getElem hi) (List.getElem?_eq_getElem hj) ?_ ?_
    · simp [List.getElem?_eq_getElem h1]
    · simp [List.getElem?_eq_getElem h2]
  have hPlen : P.length = vs.length := by simp [P, hlenp]
  have hnodup : (P.map Prod.snd).Nodup := by rw [← eperm]; exact hperm.symm.nodup List.nodup_range
  obtain ⟨p0, ps, hP⟩ : ∃ p0 ps, P = p0 :: ps := by
    cases h : P with
    | nil => rw [h] at hPlen; exact absurd (List.length_eq_zero_iff.mp hPlen.symm) hvs
    | cons p0 ps => exact ⟨p0, ps, rfl⟩
  let K := p0 :: keepFrom p0.1 ps
  have hKsub : K.Sublist P := by rw [hP]; exact (keepFrom_sublist _ _).cons_cons p0
  have hp0 := hPt p0 (by rw [hP]; simp)
  have hps : ∀ q ∈ ps, q.1.hasDType d = true := fun q hq => hPt q (by rw [hP]; simp [hq])
  have hPs' : (p0.1 :: ps.map Prod.fst).Pairwise npBefore := by rw [hP] at hPs; exact hPs
  have hfl : uniqueFlags (P.map Prod.fst) = true :: flagsFrom p0.1 (ps.map Prod.fst) := by rw [hP]; rfl
  have hval : maskSelect (uniqueFlags (P.map Prod.fst)) (P.map Prod.fst) = K.map Prod.fst := by
    rw [hfl, hP]
    simp only [List.map_cons, maskSelect, if_true, K, maskSelect_flags]
  have hpos : maskPositions (uniqueFlags (P.map Prod.fst)) (P.map Prod.snd) = K.map Prod.snd := by
    rw [hfl, hP]
    simp only [List.map_cons, maskPositions, if_true, K, maskPositions_flags]
  -- each element is found by the running count
  have hcount : ∀ (k r : Nat) (q : Val × Nat), P[k]? = some q →
      ((cumCount 0 (uniqueFlags (P.map Prod.fst))).map (· - 1))[k]? = some r → (K.map Prod.fst)[r]? = some q.1 := by
    intro k r q hk hr
    rw [hfl] at hr
    rw [hP] at hk
    simp only [cumCount, if_true, List.map_cons] at hr
    cases k with
    | zero =>
      simp only [List.getElem?_cons_zero, Option.some.injEq] at hk hr
      subst hk; subst hr
      simp [K]
    | succ k =>
      simp only [List.getElem?_cons_succ] at hk hr
      rw [List.getElem?_map, Option.map_eq_some_iff] at hr
      obtain ⟨r', hr, rfl⟩ := hr
      exact (cumCount_keep hd hp0 hps 1 hk hr).2
  have hclen : ((cumCount 0 (uniqueFlags (P.map Prod.fst))).map (· - 1)).length = vs.length := by
    rw [List.length_map, length_cumCount, hfl, List.length_cons, length_flagsFrom, List.length_map, ← hPlen, hP,
      List.length_cons]
  have hfront := keepFrom_inFront hd hp0 hps hPs'
  have hnans : K.filter (fun q => decide (q.1 = .flt .nan)) = P.filter (fun q => decide (q.1 = .flt .nan)) := by
    rw [hP]
    simp only [K, List.filter_cons, keepFrom_nans]
  have hmemK : ∀ q ∈ P, q.1 ∈ K.map Prod.fst := by
    intro q hq
    obtain ⟨k, hk⟩ := List.mem_iff_getElem?.mp hq
    have hk' : k < ((cumCount 0 (uniqueFlags (P.map Prod.fst))).map (· - 1)).length := by
      rw [hclen, ← hPlen]; exact (List.getElem?_eq_some_iff.mp hk).1
    exact List.mem_of_getElem? (hcount k _ q hk (List.getElem?_eq_getElem hk'))
  have hu : npUnique argsort vs ri rv = ⟨K.map Prod.fst, if ri then some (K.map Prod.snd) else none,
      if rv then some ((argsortNat p).map (fun i => ((cumCount 0 (uniqueFlags (P.map Prod.fst))).map (· - 1)).getD i 0))
        else none⟩ := by
    unfold npUnique
    rw [if_neg hvs]
    show Uniques.mk (maskSelect (uniqueFlags (p.map (fun i => vs.getD i Val.none))) (p.map (fun i => vs.getD i Val.none)))
      (if ri then some (maskPositions (uniqueFlags (p.map (fun i => vs.getD i Val.none))) p) else none) _ = _
    have h1 : maskPositions (uniqueFlags (P.map Prod.fst)) p = K.map Prod.snd := by
      rw [← hpos]; exact congrArg _ eperm
    rw [eaux, hval, h1]
  rw [hu]
  refine ⟨?_, ?_, ?_, ?_, ?_⟩
  · intro v
    constructor
    · intro h
      obtain ⟨q, hq, rfl⟩ := List.mem_map.mp h
      exact List.mem_of_getElem? ((hPmem q).mp (hKsub.subset hq))
    · intro h
      obtain ⟨i, hi⟩ := List.mem_iff_getElem?.mp h
      exact hmemK (v, i) ((hPmem (v, i)).mpr hi)
  · show (K.map Prod.fst).Pairwise InFront
    rw [show K.map Prod.fst = p0.1 :: (keepFrom p0.1 ps).map Prod.fst from rfl, List.pairwise_cons]
    refine ⟨?_, hfront.2⟩
    intro v hv
    obtain ⟨q, hq, rfl⟩ := List.mem_map.mp hv
    exact hfront.1 q hq
  · have h1 : ∀ l : List (Val × Nat), (l.map Prod.fst).count (.flt .nan) =
        (l.filter (fun q => decide (q.1 = .flt .nan))).length := by
      intro l
      rw [List.count, List.countP_map, List.countP_eq_length_filter]
      congr 1
    show (K.map Prod.fst).count (.flt .nan) = _
    rw [h1, hnans, ← h1]
    have h2 : (P.map Prod.fst).Perm vs := by
      rw [← eaux]
      have := hperm.map (fun i => vs.getD i Val.none)
      refine this.trans (List.Perm.of_eq ?_)
      apply List.ext_getElem
      · simp
      · intro n h1 h2
        simp [List.getD, List.getElem?_eq_getElem h2]
    exact h2.count_eq _
  · cases ri with
    | false => rfl
    | true =>
      refine ⟨K.map Prod.snd, rfl, by simp, ?_, ?_, ?_, ?_⟩
      · exact (hKsub.map Prod.snd).nodup hnodup
      · intro k i hk
        rw [List.getElem?_map, Option.map_eq_some_iff] at hk
        obtain ⟨q, hq, rfl⟩ := hk
        have h1 := (hPmem q).mp (hKsub.subset (List.mem_of_getElem? hq))
        refine ⟨(List.getElem?_eq_some_iff.mp h1).1, ?_⟩
        rw [h1]
        show (K.map Prod.fst)[k]? = _
        rw [List.getElem?_map, hq]
        rfl
      · intro i hi
        have h1 : (Val.flt .nan, i) ∈ P.filter (fun q => decide (q.1 = .flt .nan)) :=
          List.mem_filter.mpr ⟨(hPmem (_, i)).mpr hi, by simp⟩
        rw [← hnans] at h1
        exact List.mem_map.mpr ⟨_, (List.mem_filter.mp h1).1, rfl⟩
      · intro hst i j v hi hv hn hj
        obtain ⟨q, hq, rfl⟩ := List.mem_map.mp hi
        have hq1 := (hPmem q).mp (hKsub.subset hq)
        have hqv : q.1 = v := by rw [hq1] at hv; exact Option.some.inj hv
        have hPst : P.Pairwise (fun a b => a.1 = b.1 → a.2 < b.2) := by
          rw [List.pairwise_iff_getElem]
          intro a b ha hb hab he
          have ha' : a < p.length := by rw [eperm, List.length_map]; exact ha
          have hb' : b < p.length := by rw [eperm, List.length_map]; exact hb
          have e1 : P[a] = (vs.getD p[a] Val.none, p[a]) := by simp [P]
          have e2 : P[b] = (vs.getD p[b] Val.none, p[b]) := by simp [P]
          have g1 := (hPmem P[a]).mp (List.getElem_mem ha)
          have g2 := (hPmem P[b]).mp (List.getElem_mem hb)
          refine hst vs a b _ _ hab ?_ ?_ ?_
          · show p[a]? = some P[a].2
            rw [List.getElem?_eq_getElem ha', e1]
          · show p[b]? = some P[b].2
            rw [List.getElem?_eq_getElem hb', e2]
          · rw [g1, g2, he]
        rw [hP] at hPst
        have hj' : (v, j) ∈ P := (hPmem (v, j)).mpr hj
        rw [hP] at hj'
        rw [List.pairwise_cons] at hPst
        rcases List.mem_cons.mp hq with rfl | hq
        · rcases List.mem_cons.mp hj' with h | h
          · rw [← h]
          · exact (hPst.1 _ h hqv).le
        · rcases List.mem_cons.mp hj' with h | h
          · have := hfront.1 q hq
            rw [← h] at this
            rcases this with h' | h'
            · rw [hqv] at h'; exact absurd h' (Smaller.irrefl _)
            · rw [hqv] at h'; exact absurd h' hn
          · exact keepFrom_first hd hp0 hps hPs' hPst.2 hq h hqv (by rw [hqv]; exact hn)
  · cases rv with
    | false => rfl
    | true =>
      have hil : (argsortNat p).length = vs.length := by
        have : (argsortNat p).Perm (List.range p.length) := List.mergeSort_perm _ _
        rw [this.length_eq, List.length_range, hlenp]
      refine ⟨_, rfl, by simp [hil], ?_⟩
      intro i r hr
      rw [List.getElem?_map, Option.map_eq_some_iff] at hr
      obtain ⟨k, hk, rfl⟩ := hr
      have h1 := argsortNat_inv hpp hk
      have hkl := (List.getElem?_eq_some_iff.mp h1).1
      have hkl' : k < ((cumCount 0 (uniqueFlags (P.map Prod.fst))).map (· - 1)).length := by rw [hclen, ← hlenp]; exact hkl
      have h2 : P[k]? = some (vs.getD i Val.none, i) := by
        show (p.map _)[k]? = _
        rw [List.getElem?_map, h1]; rfl
      have h3 := hcount k _ _ h2 (List.getElem?_eq_getElem hkl')
      have h4 := (hPmem _).mp (List.mem_of_getElem? h2)
      show (K.map Prod.fst)[_]? = _
      rw [h4]
      simpa only [List.getD, List.getElem?_eq_getElem hkl', Option.getD_some] using h3

/-! ## C101 -/

/-- The data that `unique` looks at and the labels that `flatten` gives: the same order. -/
theorem flat_names {y : Larry L} (hv : y.Valid) {z : Larry (List L)} {ts : List (List L)} (hz : y.flatten "C" = .ok z)
    (hts : z.label = [ts]) :
    ts.Nodup ∧ ts.length = (y.x.flatten "C").tolist1.length ∧
      (∀ (i : Nat) t v, ts[i]? = some t → ((y.x.flatten "C").tolist1[i]? = some v ↔ y.Has t v)) ∧
      (∀ t v, y.Has t v → t ∈ ts) := by
  obtain ⟨z', ts', hz', hzv, -, hl, hlen, hhas, -⟩ := (C28_flatten hv "C").1 (Or.inl rfl)
  obtain rfl : z = z' := by rw [hz] at hz'; exact Except.ok.inj hz'
  obtain rfl : ts = ts' := by rw [hts] at hl; simpa using hl
  have hx : z.x = y.x.flatten "C" := by
    unfold Larry.flatten at hz
    split at hz
    · exact absurd hz (by simp)
    · rw [← Except.ok.inj hz]
  have hsz : z.x.size = ts.length := by
    have := hzv.shape_eq
    rw [hts] at this
    simp only [List.map_cons, List.map_nil] at this
    simp [NDArray.size, this]
  have hll : (y.x.flatten "C").tolist1.length = ts.length := by rw [← hx]; simp [NDArray.tolist1, hsz]
  have hnd : ts.Nodup := hzv.nodup ts (by rw [hts]; simp)
  refine ⟨hnd, hll.symm, ?_, ?_⟩
  · intro i t v hi
    have hil := (List.getElem?_eq_some_iff.mp hi).1
    have e : (y.x.flatten "C").tolist1[i]? = some (z.x.get [i]) := by
      rw [← hx, NDArray.tolist1, List.getElem?_map, List.getElem?_range (by rw [hsz]; exact hil)]
      rfl
    rw [e, ← hhas t v]
    constructor
    · intro h
      refine ⟨[i], ?_, Option.some.inj h⟩
      rw [hts]
      simp [At, hi]
    · rintro ⟨idx, hat, hg⟩
      rw [hts] at hat
      rcases idx with _ | ⟨j, _ | ⟨_, _⟩⟩
      · simp [At] at hat
      · simp only [At, and_true] at hat
        have hjl := (List.getElem?_eq_some_iff.mp hat).1
        have : i = j := by
          have h3 : ts[i] = ts[j] := by
            have a1 := (List.getElem?_eq_some_iff.mp hi).2
            have a2 := (List.getElem?_eq_some_iff.mp hat).2
            rw [a1, a2]
          exact (List.Nodup.getElem_inj_iff hnd).mp h3
        subst this
        rw [hg]
      · simp [At] at hat
  · intro t v h
    obtain ⟨idx, hat, -⟩ := (hhas t v).mpr h
    rw [hts] at hat
    rcases idx with _ | ⟨j, _ | ⟨_, _⟩⟩
    · simp [At] at hat
    · simp only [At, and_true] at hat
      exact List.mem_of_getElem? hat
    · simp [At] at hat

/-- The elements that `unique` looks at are those of the larry. -/
theorem mem_flat {y : Larry L} (hv : y.Valid) (v : Val) : v ∈ (y.x.flatten "C").tolist1 ↔ ∃ t, y.Has t v := by
  obtain ⟨z, ts, hz, -, -, hts, -, -, -⟩ := (C28_flatten hv "C").1 (Or.inl rfl)
  obtain ⟨-, hlen, hhas, hmem⟩ := flat_names hv hz hts
  constructor
  · intro h
    obtain ⟨i, hi⟩ := List.mem_iff_getElem?.mp h
    have hil : i < ts.length := by rw [hlen]; exact (List.getElem?_eq_some_iff.mp hi).1
    exact ⟨_, (hhas i _ v (List.getElem?_eq_getElem hil)).mp hi⟩
  · rintro ⟨t, h⟩
    obtain ⟨i, hi⟩ := List.mem_iff_getElem?.mp (hmem t v h)
    exact List.mem_of_getElem? ((hhas i t v hi).mpr h)

theorem unique_spec {argsort : List Val → List Nat} (hs : SortsArrays argsort) {y : Larry L} (hv : y.Valid) (ht : y.Typed)
    (hd : y.dtype ≠ .object) (ri rv : Bool) :
    UniqueOf (Stable argsort) (y.x.flatten "C").tolist1 ri rv (unique argsort y ri rv) := by
  refine npUnique_spec hs hd ?_ ri rv
  intro v hm
  obtain ⟨t, idx, hat, rfl⟩ := (mem_flat hv v).mp hm
  exact ht idx (by rw [hv.shape_eq]; exact At_inB hat)

/-- As many entries of `u` as cells of the larry are NaN. -/
def NansOf (y : Larry L) (u : List Val) : Prop :=
  ∃ ts : List (List L), ts.Nodup ∧ (∀ t, t ∈ ts ↔ y.Has t (.flt .nan)) ∧ u.count (.flt .nan) = ts.length

/-- What the values of `unique` are: the values of the cells, smallest first, each number and each string once, NaN as
often as it occurs. -/
structure DistinctValues (y : Larry L) (u : List Val) : Prop where
  mem : ∀ v, v ∈ u ↔ ∃ t, y.Has t v
  order : u.Pairwise InFront
  nans : NansOf y u

/-- The names of the cells holding NaN, as many as the flattened data has NaNs. -/
theorem nan_names {y : Larry L} (hv : y.Valid) :
    ∃ ts : List (List L), ts.Nodup ∧ (∀ t, t ∈ ts ↔ y.Has t (.flt .nan)) ∧
      (y.x.flatten "C").tolist1.count (.flt .nan) = ts.length := by
  obtain ⟨z, ts, hz, -, -, hts, -, -, -⟩ := (C28_flatten hv "C").1 (Or.inl rfl)
  obtain ⟨hnd, hlen, hhas, hmem⟩ := flat_names hv hz hts
  let vs := (y.x.flatten "C").tolist1
  have hlen' : ts.length = vs.length := hlen
  have hZ : ∀ q, q ∈ ts.zip vs ↔ ∃ i : Nat, ts[i]? = some q.1 ∧ vs[i]? = some q.2 := by
    intro q
    rw [List.mem_iff_getElem?]
    simp only [List.getElem?_zip_eq_some]
  refine ⟨((ts.zip vs).filter (fun q => decide (q.2 = .flt .nan))).map Prod.fst, ?_, ?_, ?_⟩
  · refine (List.filter_sublist.map Prod.fst).nodup ?_
    rw [List.map_fst_zip hlen'.le]
    exact hnd
  · intro t
    simp only [List.mem_map, List.mem_filter, decide_eq_true_eq]
    constructor
    · rintro ⟨q, ⟨hq, hn⟩, rfl⟩
      obtain ⟨i, h1, h2⟩ := (hZ q).mp hq
      rw [hn] at h2
      exact (hhas i _ _ h1).mp h2
    · intro h
      obtain ⟨i, hi⟩ := List.mem_iff_getElem?.mp (hmem t _ h)
      exact ⟨(t, .flt .nan), ⟨(hZ _).mpr ⟨i, hi, (hhas i t _ hi).mpr h⟩, rfl⟩, rfl⟩
  · rw [List.length_map, ← List.countP_eq_length_filter]
    have : vs = (ts.zip vs).map Prod.snd := (List.map_snd_zip hlen'.ge).symm
    show vs.count (.flt .nan) = _
    rw [List.count]
    conv_lhs => rw [this]
    rw [List.countP_map]
    congr 1

/-- **C101.** `unique` returns the values of the cells, smallest first: each number and each string once and every NaN
separately, at the end. -/
theorem C101_values {argsort : List Val → List Nat} (hs : SortsArrays argsort) {y : Larry L} (hv : y.Valid) (ht : y.Typed)
    (hd : y.dtype ≠ .object) (ri rv : Bool) : DistinctValues y (unique argsort y ri rv).values := by
  have h := unique_spec hs hv ht hd ri rv
  refine ⟨fun v => (h.mem v).trans (mem_flat hv v), h.order, ?_⟩
  obtain ⟨ts, h1, h2, h3⟩ := nan_names hv
  exact ⟨ts, h1, h2, h.nans.trans h3⟩

theorem nansOf_count {y : Larry L} {z : Larry L} (hh : ∀ t v, y.Has t v ↔ z.Has t v) {u w : List Val} (hu : NansOf y u)
    (hw : NansOf z w) : u.count (.flt .nan) = w.count (.flt .nan) := by
  obtain ⟨ts, h1, h2, h3⟩ := hu
  obtain ⟨ts', h1', h2', h3'⟩ := hw
  rw [h3, h3']
  refine ((List.perm_ext_iff_of_nodup h1 h1').mpr ?_).length_eq
  intro t
  rw [h2, h2', hh]

theorem count_inFront {u : List Val} (h : u.Pairwise InFront) {v : Val} (hn : v ≠ .flt .nan) :
    u.count v = if v ∈ u then 1 else 0 := by
  induction u with
  | nil => simp
  | cons a u ih =>
    rw [List.pairwise_cons] at h
    by_cases ha : a = v
    · subst ha
      have : a ∉ u := by
        intro hm
        rcases h.1 a hm with h' | h'
        · exact Smaller.irrefl _ h'
        · exact hn h'
      simp [List.count_eq_zero_of_not_mem this]
    · have ha' : v ≠ a := fun e => ha e.symm
      rw [List.count_cons_of_ne ha, ih h.2]
      simp [ha']

/-- **C101.** These clauses leave no choice: the values depend only on what the cells hold, not on the order of the
labels, on the sorting method or on which other results are asked for. -/
theorem C101_determined {y z : Larry L} (hv : y.Valid) (ht : y.Typed) (hd : y.dtype ≠ .object)
    (hh : ∀ t v, y.Has t v ↔ z.Has t v) {u w : List Val} (hu : DistinctValues y u) (hw : DistinctValues z w) : u = w := by
  have htv : ∀ v ∈ u, v.hasDType y.dtype = true := by
    intro v h
    obtain ⟨t, idx, hat, rfl⟩ := (hu.mem v).mp h
    exact ht idx (by rw [hv.shape_eq]; exact At_inB hat)
  have hmem : ∀ v, v ∈ u ↔ v ∈ w := by
    intro v
    rw [hu.mem, hw.mem]
    exact exists_congr (fun t => hh t v)
  have hp : u.Perm w := by
    rw [List.perm_iff_count]
    intro v
    by_cases hn : v = .flt .nan
    · subst hn; exact nansOf_count hh hu.nans hw.nans
    · rw [count_inFront hu.order hn, count_inFront hw.order hn]
      simp only [hmem v]
  refine List.Perm.eq_of_pairwise (le := InFront) ?_ hu.order hw.order hp
  intro a b ha hb h1 h2
  have hta := htv a ha
  have htb := htv b ((hmem b).mpr hb)
  rcases h1 with h1 | h1
  · rcases h2 with h2 | h2
    · exact (Smaller.asymm hd hta htb h1 h2).elim
    · rw [h2] at h1; exact absurd h1 (Smaller.not_nan_left _)
  · rcases h2 with h2 | h2
    · rw [h1] at h2; exact absurd h2 (Smaller.not_nan_left _)
    · rw [h1, h2]

/-- **C101.** `return_index`: for each value the position of a cell holding it in `y.flatten()`; no position twice, every
NaN has its own.  If the sort keeps the order of equal elements (mergesort), the first such position. -/
theorem C101_index {argsort : List Val → List Nat} (hs : SortsArrays argsort) {y : Larry L} (hv : y.Valid) (ht : y.Typed)
    (hd : y.dtype ≠ .object) (rv : Bool) {z : Larry (List L)} {ts : List (List L)} (hz : y.flatten "C" = .ok z)
    (hts : z.label = [ts]) :
    ∃ is, (unique argsort y true rv).index = some is ∧ is.length = (unique argsort y true rv).values.length ∧ is.Nodup ∧
      (∀ (k i : Nat) v, is[k]? = some i → (unique argsort y true rv).values[k]? = some v →
        ∃ t, ts[i]? = some t ∧ y.Has t v) ∧
      (∀ (i : Nat) t, ts[i]? = some t → y.Has t (.flt .nan) → i ∈ is) ∧
      (Stable argsort → ∀ (i j : Nat) t t' v, i ∈ is → ts[i]? = some t → y.Has t v → v ≠ .flt .nan → ts[j]? = some t' →
        y.Has t' v → i ≤ j) := by
  have h := (unique_spec hs hv ht hd true rv).index
  simp only [if_true] at h
  obtain ⟨-, hlen, hhas, -⟩ := flat_names hv hz hts
  obtain ⟨is, h1, h2, h3, h4, h5, h6⟩ := h
  refine ⟨is, h1, h2, h3, ?_, ?_, ?_⟩
  · intro k i v hk hvk
    obtain ⟨hi, h7⟩ := h4 k i hk
    rw [hvk] at h7
    have hi' : i < ts.length := by rw [hlen]; exact hi
    exact ⟨_, List.getElem?_eq_getElem hi', (hhas i _ v (List.getElem?_eq_getElem hi')).mp h7.symm⟩
  · intro i t hi hn
    exact h5 i ((hhas i t _ hi).mpr hn)
  · intro hst i j t t' v hi hit hv1 hn hjt hv2
    exact h6 hst i j v hi ((hhas i t v hit).mpr hv1) hn ((hhas j t' v hjt).mpr hv2)

/-- **C101.** `return_inverse`: for each position of `y.flatten()` the place of its value among the values. -/
theorem C101_inverse {argsort : List Val → List Nat} (hs : SortsArrays argsort) {y : Larry L} (hv : y.Valid) (ht : y.Typed)
    (hd : y.dtype ≠ .object) (ri : Bool) {z : Larry (List L)} {ts : List (List L)} (hz : y.flatten "C" = .ok z)
    (hts : z.label = [ts]) :
    ∃ is, (unique argsort y ri true).inverse = some is ∧ is.length = ts.length ∧
      ∀ (i r : Nat) t v, is[i]? = some r → ts[i]? = some t → y.Has t v → (unique argsort y ri true).values[r]? = some v := by
  have h := (unique_spec hs hv ht hd ri true).inverse
  simp only [if_true] at h
  obtain ⟨-, hlen, hhas, -⟩ := flat_names hv hz hts
  obtain ⟨is, h1, h2, h3⟩ := h
  refine ⟨is, h1, h2.trans hlen.symm, ?_⟩
  intro i r t v hi hit hv1
  rw [h3 i r hi]
  exact (hhas i t v hit).mpr hv1

/-- **C101.** Only what was asked for is returned. -/
theorem C101_asked {argsort : List Val → List Nat} (y : Larry L) (ri rv : Bool) :
    ((unique argsort y ri rv).index.isSome = ri) ∧ ((unique argsort y ri rv).inverse.isSome = rv) := by
  unfold unique npUnique
  split <;> cases ri <;> cases rv <;> simp

/-! ## The hypotheses can be met -/

/-- Numbers, then strings, then the rest. -/
def Val.kind : Val → Nat
  | .str _ => 1
  | .none | .obj _ => 2
  | _ => 0

/-- A transitive order that agrees with `npBefore` on the elements of one dtype. -/
def kindBefore (a b : Val) : Prop :=
  a.kind < b.kind ∨ a.kind = b.kind ∧ (if a.kind = 1 then npBefore a b else nanLast a b)

open Classical in
/-- A mergesort. -/
noncomputable def exMergesort (xs : List Val) : List Nat :=
  (List.range xs.length).mergeSort (fun a b => decide (kindBefore (xs.getD a .none) (xs.getD b .none)))

theorem kindBefore_trans {a b c : Val} (h1 : kindBefore a b) (h2 : kindBefore b c) : kindBefore a c := by
  unfold kindBefore at *
  rcases h1 with h1 | ⟨h1, h1'⟩
  · rcases h2 with h2 | ⟨h2, -⟩
    · left; omega
    · left; omega
  · rcases h2 with h2 | ⟨h2, h2'⟩
    · left; omega
    · right
      refine ⟨h1.trans h2, ?_⟩
      rw [← h1] at h2'
      by_cases hk : a.kind = 1
      · rw [if_pos hk] at *
        rcases a with _ | _ | _ | s | _ | _ <;> simp [Val.kind] at hk
        rcases b with _ | _ | _ | t | _ | _ <;> simp [Val.kind] at h1
        rcases c with _ | _ | _ | u | _ | _ <;> simp [Val.kind] at h2
        simp only [npBefore, not_lt] at *
        exact le_trans h1' h2'
      · rw [if_neg hk] at *
        exact nanLast_trans h1' h2'

theorem kindBefore_total (a b : Val) : kindBefore a b ∨ kindBefore b a := by
  unfold kindBefore
  rcases Nat.lt_trichotomy a.kind b.kind with h | h | h
  · exact Or.inl (Or.inl h)
  · by_cases hk : a.kind = 1
    · have hk' := h ▸ hk
      rw [if_pos hk, if_pos hk']
      rcases a with _ | _ | _ | s | _ | _ <;> simp [Val.kind] at hk
      rcases b with _ | _ | _ | t | _ | _ <;> simp [Val.kind] at h
      simp only [npBefore, not_lt]
      rcases le_total s.toList t.toList with h' | h'
      · exact Or.inl (Or.inr ⟨rfl, h'⟩)
      · exact Or.inr (Or.inr ⟨rfl, h'⟩)
    · have hk' : b.kind ≠ 1 := h ▸ hk
      rw [if_neg hk, if_neg hk']
      rcases nanLast_total a b with h' | h'
      · exact Or.inl (Or.inr ⟨h, h'⟩)
      · exact Or.inr (Or.inr ⟨h.symm, h'⟩)
  · exact Or.inr (Or.inl h)

theorem nanLast_before {a b : Val} (h : nanLast a b) (ha : a.kind = 0) (hb : b.kind = 0) : npBefore a b := by
  have key : ∀ f g : Flt, ((fltKey f).1 < (fltKey g).1 ∨ (fltKey f).1 = (fltKey g).1 ∧ (fltKey f).2 ≤ (fltKey g).2) →
      g.isNan = true ∨ f.le g = true := by
    intro f g h
    cases f <;> cases g <;> simp_all [fltKey, Flt.isNan, Flt.le, Flt.lt, Flt.eq]
    exact lt_or_eq_of_le h
  rcases a with _ | _ | _ | _ | _ | _ <;> simp [Val.kind] at ha <;>
    rcases b with _ | _ | _ | _ | _ | _ <;> simp [Val.kind] at hb <;> exact key _ _ h

theorem kindBefore_before (hd : d ≠ .object) {a b : Val} (ha : a.hasDType d = true) (hb : b.hasDType d = true)
    (h : kindBefore a b) : npBefore a b := by
  unfold kindBefore at h
  have hk : a.kind = b.kind ∧ (a.kind = 1 ∨ a.kind = 0) := by
    rcases a with _ | _ | _ | _ | _ | _ <;> rcases b with _ | _ | _ | _ | _ | _ <;> cases d <;>
      simp_all [Val.hasDType, Val.kind]
  rcases h with h | ⟨-, h⟩
  · omega
  · rcases hk.2 with h1 | h1
    · rw [if_pos h1] at h; exact h
    · rw [if_neg (by omega)] at h
      exact nanLast_before h h1 (by rw [← hk.1]; exact h1)

/-- There is a sort as assumed. -/
theorem exMergesort_sorts : SortsArrays exMergesort := by
  classical
  intro d xs hd ht
  refine ⟨List.mergeSort_perm _ _, ?_⟩
  intro i j a b v w hij ha hb hv hw
  have h : (exMergesort xs).Pairwise (fun a b => decide (kindBefore (xs.getD a .none) (xs.getD b .none)) = true) := by
    apply List.pairwise_mergeSort
    · intro a b c h1 h2
      rw [decide_eq_true_eq] at *
      exact kindBefore_trans h1 h2
    · intro a b
      rw [Bool.or_eq_true, decide_eq_true_eq, decide_eq_true_eq]
      exact kindBefore_total _ _
  obtain ⟨hi, rfl⟩ := List.getElem?_eq_some_iff.mp ha
  obtain ⟨hj, rfl⟩ := List.getElem?_eq_some_iff.mp hb
  have := List.pairwise_iff_getElem.mp h i j hi hj hij
  rw [decide_eq_true_eq] at this
  simp only [List.getD, hv, hw, Option.getD_some] at this
  exact kindBefore_before hd (ht v (List.mem_of_getElem? hv)) (ht w (List.mem_of_getElem? hw)) this

/-- It keeps the order of equal elements. -/
theorem exMergesort_stable : Stable exMergesort := by
  classical
  intro xs i j a b hij ha hb he
  by_contra hn
  have hp : (exMergesort xs).Perm (List.range xs.length) := List.mergeSort_perm _ _
  have hnd : (exMergesort xs).Nodup := hp.symm.nodup List.nodup_range
  obtain ⟨hi, ea⟩ := List.getElem?_eq_some_iff.mp ha
  obtain ⟨hj, eb⟩ := List.getElem?_eq_some_iff.mp hb
  have hab : a ≠ b := by
    intro e
    have := (List.Nodup.getElem_inj_iff hnd (hi := hi) (hj := hj)).mp (by rw [ea, eb, e])
    omega
  have hba : b < a := by omega
  have hal : a < xs.length := by have := hp.subset (List.mem_of_getElem? ha); simpa using this
  have hsub : [b, a].Sublist (List.range xs.length) := by
    have h1 : [b, a].Sublist (List.range (a + 1)) := by
      rw [List.range_succ]
      exact (List.singleton_sublist.mpr (by simpa using hba)).append (List.Sublist.refl [a])
    exact h1.trans (List.range_sublist.mpr hal)
  have hle : decide (kindBefore (xs.getD b .none) (xs.getD a .none)) = true := by
    have : xs.getD b Val.none = xs.getD a Val.none := by simp only [List.getD, he]
    rw [this, decide_eq_true_eq]
    rcases kindBefore_total (xs.getD a .none) (xs.getD a .none) with h | h <;> exact h
  have h2 : [b, a].Sublist (exMergesort xs) := by
    refine List.pair_sublist_mergeSort ?_ ?_ hle hsub
    · intro a b c h1 h2
      rw [decide_eq_true_eq] at *
      exact kindBefore_trans h1 h2
    · intro a b
      rw [Bool.or_eq_true, decide_eq_true_eq, decide_eq_true_eq]
      exact kindBefore_total _ _
  have h3 : (exMergesort xs).Pairwise (fun p q => ¬ (p = b ∧ q = a)) := by
    rw [List.pairwise_iff_getElem]
    rintro m n hm hn' hmn ⟨e1, e2⟩
    have g1 := (List.Nodup.getElem_inj_iff hnd (hi := hm) (hj := hj)).mp (by rw [e1, eb])
    have g2 := (List.Nodup.getElem_inj_iff hnd (hi := hn') (hj := hi)).mp (by rw [e2, ea])
    omega
  have h4 := h3.sublist h2
  simp at h4

/-- A larry with a repeated number and two NaNs. -/
def exRepeats : Larry Nat :=
  ⟨⟨[2, 3], fun idx => [.flt (.fin 3), .flt .nan, .flt (.fin 1), .flt (.fin 3), .flt (.fin 1), .flt .nan].getD
    (idx.getD 0 0 * 3 + idx.getD 1 0) .none⟩, .float, [[0, 1], [5, 6, 7]]⟩

/-- The hypotheses are met. -/
example : exRepeats.Valid ∧ exRepeats.Typed ∧ exRepeats.dtype ≠ .object ∧ SortsArrays exMergesort ∧ Stable exMergesort ∧
    ∃ z, exRepeats.flatten "C" = .ok z ∧ z.label = [[[0, 5], [0, 6], [0, 7], [1, 5], [1, 6], [1, 7]]] := by
  refine ⟨⟨rfl, by decide, by decide⟩, ?_, by decide, exMergesort_sorts, exMergesort_stable, _, rfl, by decide +kernel⟩
  intro idx h
  have : ∀ idx ∈ allIdx [2, 3], (exRepeats.x.get idx).hasDType exRepeats.dtype = true := by decide
  exact this idx (mem_allIdx.mpr h)

/-- The values and positions of that larry with a sort that lists `[2, 4, 0, 3, 1, 5]`: 1, 3 and two NaNs. -/
example : unique (fun _ => [2, 4, 0, 3, 1, 5]) exRepeats true false =
    ⟨[.flt (.fin 1), .flt (.fin 3), .flt .nan, .flt .nan], some [2, 0, 1, 5], none⟩ := by
  decide +kernel

/-- The positions count along the flattened data.  With more than one axis they are not positions for `y[...]`, which
selects rows: here it raises IndexError. -/
theorem C101_index_is_flat : exRepeats.getitem (.one (.seq [2, 0, 1, 5])) = .error .indexError := by rfl
end La
