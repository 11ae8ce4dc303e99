import Verif.LarryFacts

/-! # Facts about `morph`, `morph_like` and the alignment of two larrys -/

namespace La
variable {L : Type _}

theorem assignAx_shape {α : Type _} (x : NDArray α) (p : List Nat) (ax : Nat) (v : α) :
    (x.assignAx p ax v).shape = x.shape := rfl

theorem missPos_length_eq [DecidableEq L] {l lab : List L} :
    lab.length = (missPos l lab).length ↔ ∀ b ∈ lab, b ∉ l := by
  unfold missPos
  constructor
  · intro h b hb
    obtain ⟨k, hk⟩ := List.mem_iff_getElem?.mp hb
    have h1 : (List.range lab.length).length =
        ((List.range lab.length).filter fun i => (lab[i]?.bind (zipDict l)).isNone).length := by
      simpa using h
    have h2 := (List.length_filter_eq_length_iff).mp h1.symm k
      (by simpa using (List.getElem?_eq_some_iff.mp hk).1)
    rw [hk, Option.bind_some, Option.isNone_iff_eq_none, zipDict_none] at h2
    exact h2
  · intro h
    have : (List.range lab.length).filter (fun i => (lab[i]?.bind (zipDict l)).isNone) =
        List.range lab.length := by
      rw [List.filter_eq_self]
      intro k hk
      have hk' : k < lab.length := by simpa using hk
      rw [List.getElem?_eq_getElem hk', Option.bind_some, Option.isNone_iff_eq_none, zipDict_none]
      exact h _ (List.getElem_mem hk')
    rw [this]; simp

namespace Larry
variable [LinearOrder L]

/-- The dtype of the result of `morph`. -/
def morphDType (d : DType) (l lab : List L) : DType :=
  if (d = .int ∨ d = .bool) ∧ l ≠ lab ∧ (lab = [] ∨ ∃ b ∈ lab, b ∉ l) then .float else d

theorem missingMarker_none {d : DType} : missingMarker d = none ↔ d = .int ∨ d = .bool := by
  cases d <;> simp [missingMarker]

theorem morphDType_of_marker {d : DType} {m : Val} (h : missingMarker d = some m) (l lab : List L) :
    morphDType d l lab = d := by
  have : ¬ (d = .int ∨ d = .bool) := fun h' => by rw [missingMarker_none.mpr h'] at h; simp at h
  simp [morphDType, this]

theorem castVal_self (d : DType) : castVal d d = id := by
  funext v; simp [castVal]

/-- `morph` on a valid larry: everything at once. -/
theorem morph_spec {y : Larry L} (hv : y.Valid) {lab : List L} (hnd : lab.Nodup) {axis : Int} {ax : Nat}
    (hax : pyIdx y.ndim axis = some ax) {l : List L} (hl : y.label[ax]? = some l) :
    ∃ z, y.morph lab axis = .ok z ∧ z.label = y.label.set ax lab ∧ z.Valid ∧
      z.dtype = morphDType y.dtype l lab ∧
      Reindexed y.label y.x z.label z.x (castVal y.dtype z.dtype) (missingMarker z.dtype) := by
  have haxlt := (List.getElem?_eq_some_iff.mp hl).1
  have hax' : pyIdx y.label.length axis = some ax := by rw [hv.label_length]; exact hax
  have h1 : ¬ (axis ≥ (y.ndim : Int)) := by
    have := pyIdx_some.mp hax
    omega
  have hgl : y.label.getD ax [] = l := by simp [List.getD, hl]
  have hsh : y.x.shape[ax]? = some l.length := by
    rw [hv.shape_eq]; simp [hl]
  have hself : y.label.set ax l = y.label := by
    obtain ⟨_, hl'⟩ := List.getElem?_eq_some_iff.mp hl
    rw [← hl', List.set_getElem_self]
  have hdup : hasDup lab = false := hasDup_false.mpr hnd
  simp only [morph, if_neg h1, hax', hgl]
  by_cases heq : l = lab
  · subst heq
    rw [if_pos rfl]
    refine ⟨y.copy, rfl, by simp [copy, hself], hv, by simp [copy, morphDType], ?_⟩
    simp only [copy, castVal_self]
    exact Reindexed.refl _ _ _
  · rw [if_neg heq]
    simp only [listmapFill_eq, List.length_map, hdup]
    by_cases hall : ∀ b ∈ lab, b ∉ l
    · -- no requested label exists
      rw [if_pos (missPos_length_eq.mpr hall)]
      have hset : y.x.shape.set ax lab.length = (y.label.set ax lab).map List.length := by
        rw [hv.shape_eq, List.map_set]
      have hnew : lab = [] ∨ ∃ b ∈ lab, b ∉ l := by
        cases lab with
        | nil => left; rfl
        | cons b t => right; exact ⟨b, by simp, hall b (by simp)⟩
      cases hd : y.dtype <;>
        simp only [missingMarker, nans, Bool.false_eq_true, if_false] <;>
        refine ⟨_, rfl, rfl, validLabels_set hv hnd hset, ?_, ?_⟩ <;>
        first
          | exact reindexed_full hl hall _ _ _
          | simp [morphDType, heq, hnew]
    · rw [if_neg (fun h => hall (missPos_length_eq.mp h))]
      -- some requested label exists, so the axis is not empty and position 0 is legal
      obtain ⟨b0, hb0, hb0l⟩ : ∃ b ∈ lab, b ∈ l := by
        by_contra hc
        exact hall (fun b hb hbl => hc ⟨b, hb, hbl⟩)
      have hlpos : 0 < l.length := List.length_pos_of_mem hb0l
      have hlabne : lab ≠ [] := List.ne_nil_of_mem hb0
      obtain ⟨ids, hids⟩ : ∃ ids : List Nat, ids.map Int.ofNat = lab.map (fillVal l 0) := by
        refine ⟨lab.map (fun b => (fillVal l 0 b).toNat), ?_⟩
        rw [List.map_map]
        apply List.map_congr_left
        intro b _
        by_cases hb : b ∈ l
        · obtain ⟨i, hi, _⟩ := fillVal_mem (0 : Int) hb
          simp [hi]
        · simp [fillVal_not_mem (0 : Int) hb]
      have hlen : ids.length = lab.length := by simpa using congrArg List.length hids
      have hat : ∀ (k : Nat) b, lab[k]? = some b → ∃ i, ids[k]? = some i ∧
          (i : Int) = fillVal l 0 b := by
        intro k b hb
        have := congrArg (fun t => t[k]?) hids
        simp only [List.getElem?_map, hb, Option.map_some] at this
        cases hi : ids[k]? with
        | none => simp [hi] at this
        | some i => exact ⟨i, rfl, by simpa [hi] using this⟩
      have hbound : ∀ i ∈ ids, i < l.length := by
        intro i hi
        obtain ⟨k, hk⟩ := List.mem_iff_getElem?.mp hi
        have hk' : k < lab.length := by rw [← hlen]; exact (List.getElem?_eq_some_iff.mp hk).1
        obtain ⟨j, hj, hj'⟩ := hat k lab[k] (by simp)
        rw [hk] at hj; cases hj
        by_cases hb : lab[k] ∈ l
        · obtain ⟨i', hi', hi''⟩ := fillVal_mem (0 : Int) hb
          rw [hi'] at hj'
          have : i = i' := by exact_mod_cast hj'
          subst this
          exact (List.getElem?_eq_some_iff.mp hi'').1
        · rw [fillVal_not_mem (0 : Int) hb] at hj'
          omega
      have htake : y.x.take (lab.map (fillVal l 0)) axis = .ok (y.x.gather ids ax) := by
        have := take_nat (x := y.x) (ids := ids) (ax := ax) hsh hbound
        rw [← hids]
        rw [← this]
        have hp : pyIdx y.x.ndim axis = some ax := hax
        have hp' : pyIdx y.x.ndim (ax : Int) = some ax := pyIdx_ofNat (pyIdx_lt hax)
        simp only [NDArray.take, hp, hp']
      rw [htake]
      have hmem : ∀ (k : Nat) b, lab[k]? = some b → b ∈ l → ∃ i, ids[k]? = some i ∧ l[i]? = some b := by
        intro k b hb hbl
        obtain ⟨i, hi, hi'⟩ := hat k b hb
        obtain ⟨j, hj, hj'⟩ := fillVal_mem (0 : Int) hbl
        rw [hj] at hi'
        have : i = j := by exact_mod_cast hi'
        subst this
        exact ⟨i, hi, hj'⟩
      have hpos : ∀ (k : Nat) b, lab[k]? = some b → (k ∈ missPos l lab ↔ b ∉ l) := by
        intro k b hb
        rw [mem_missPos]
        constructor
        · rintro ⟨b', hb', h⟩; rw [hb] at hb'; cases hb'; exact h
        · intro h; exact ⟨b, hb, h⟩
      have hgs := gather_shape (x := y.x) (ax := ax) hv.shape_eq hlen
      by_cases hmiss : 0 < (missPos l lab).length
      · -- some requested label is new
        obtain ⟨k0, hk0⟩ := List.exists_mem_of_length_pos hmiss
        obtain ⟨b1, hb1, hb1l⟩ := mem_missPos.mp hk0
        have hnew : ∃ b ∈ lab, b ∉ l := ⟨b1, List.mem_of_getElem? hb1, hb1l⟩
        simp only [gt_iff_lt, if_pos hmiss]
        cases hd : y.dtype <;> simp only [missingMarker, Bool.false_eq_true, if_false] <;>
          refine ⟨_, rfl, rfl, validLabels_set hv hnd hgs, ?_, ?_⟩
        all_goals first
          | (simp only [morphDType]; simp [heq, hnew]; done)
          | (simp only [castVal_self]
             exact reindexed_gather_fill hl hv.nodup hlen hmem hpos _)
          | skip
        all_goals
          have := reindexed_gather_fill (x := y.x.map Val.toFloat) hl hv.nodup hlen hmem hpos
            (Val.flt Flt.nan)
          have hmap : Reindexed y.label y.x y.label (y.x.map Val.toFloat) Val.toFloat
              (some (Val.flt Flt.nan)) := (Reindexed.refl y.label y.x none).map Val.toFloat
                |>.of_subset _ (fun _ h => h)
          have h3 := hmap.trans this (fun ⟨_, h, h'⟩ => absurd h h') (fun _ _ h => h)
          refine Reindexed.congr_f ?_ h3
          intro _ v _
          simp [castVal]
      · simp only [gt_iff_lt, if_neg hmiss]
        have hold : ∀ b ∈ lab, b ∈ l := by
          intro b hb
          by_contra hbl
          obtain ⟨k, hk⟩ := List.mem_iff_getElem?.mp hb
          have := List.length_pos_of_mem ((hpos k b hk).mpr hbl)
          omega
        have hids' : ids.map (fun i => l[i]?) = lab.map some := by
          apply List.ext_getElem?
          intro k
          simp only [List.getElem?_map]
          cases hb : lab[k]? with
          | none =>
            have : ids[k]? = none := by
              rw [List.getElem?_eq_none_iff] at hb ⊢; omega
            simp [this]
          | some b =>
            obtain ⟨i, hi, hi'⟩ := hmem k b hb (hold b (List.mem_of_getElem? hb))
            simp [hi, hi']
        simp only [Bool.false_eq_true, if_false]
        have hnn : ¬ ∃ b ∈ lab, b ∉ l := fun ⟨b, hb, hbl⟩ => hbl (hold b hb)
        refine ⟨_, rfl, rfl, validLabels_set hv hnd hgs, ?_, ?_⟩
        · simp only [morphDType]
          rw [if_neg]
          rintro ⟨_, _, h | h⟩
          · exact hlabne h
          · exact hnn h
        · simp only [castVal_self]
          exact reindexed_gather hl hv.nodup hids' _

theorem pyIdx_none_morph {y : Larry L} (hv : y.Valid) {lab : List L} {axis : Int}
    (hax : pyIdx y.ndim axis = none) : y.morph lab axis = .error .indexError := by
  unfold morph
  split
  · rfl
  · rw [hv.label_length, hax]

theorem morph_dup {y : Larry L} (hv : y.Valid) {lab : List L} (hnd : ¬ lab.Nodup) {axis : Int} :
    y.morph lab axis = .error .indexError := by
  cases hax : pyIdx y.ndim axis with
  | none => exact pyIdx_none_morph hv hax
  | some ax =>
    have hlt : ax < y.label.length := by rw [hv.label_length]; exact pyIdx_lt hax
    have hl : y.label[ax]? = some y.label[ax] := by simp [hlt]
    have hax' : pyIdx y.label.length axis = some ax := by rw [hv.label_length]; exact hax
    have h1 : ¬ (axis ≥ (y.ndim : Int)) := by
      have := pyIdx_some.mp hax
      omega
    have hgl : y.label.getD ax [] = y.label[ax] := by simp [List.getD, hl]
    have hne : ¬ (y.label[ax] = lab) := fun h =>
      hnd (h ▸ hv.nodup _ (List.getElem_mem hlt))
    simp only [morph, if_neg h1, hax', hgl, if_neg hne, hasDup_true.mpr hnd, if_true]
    split
    · rename_i e he
      split at he
      · cases hd : y.dtype <;> simp [hd, missingMarker, nans] at he
      · split at he
        · rename_i e' ht
          simp only [Except.error.injEq] at he
          subst he
          have hp : pyIdx y.x.ndim axis = some ax := hax
          simp only [NDArray.take, hp] at ht
          split at ht
          · rename_i e'' hm
            simp only [Except.error.injEq] at ht
            subst ht
            obtain ⟨a, _, ha⟩ := mapRes_error hm
            rw [(pyIdxE_error.mp ha).2]
          · simp at ht
        · split at he
          · cases hd : y.dtype <;> simp [hd, missingMarker] at he
          · simp at he
    · rfl

end Larry

/-! ## Aligning two larrys -/

theorem Named_append {l1 l2 : List (List L)} {n1 n2 : List L} (h : n1.length = l1.length) :
    Named (l1 ++ l2) (n1 ++ n2) ↔ Named l1 n1 ∧ Named l2 n2 := by
  induction l1 generalizing n1 with
  | nil =>
    have : n1 = [] := by simpa using h
    subst this; simp [Named]
  | cons l ls ih =>
    cases n1 with
    | nil => simp at h
    | cons n ns => simp only [List.cons_append, Named, ih (by simpa using h), and_assoc]

theorem Named_split {l1 l2 : List (List L)} {names : List L} (h : Named (l1 ++ l2) names) :
    ∃ n1 n2, names = n1 ++ n2 ∧ n1.length = l1.length ∧ Named l1 n1 ∧ Named l2 n2 := by
  have hlen := (Named_iff.mp h).1
  have h1 : (names.take l1.length).length = l1.length := by
    simp at hlen; simp; omega
  rw [← List.take_append_drop l1.length names, Named_append h1] at h
  exact ⟨_, _, (List.take_append_drop _ _).symm, h1, h⟩

theorem Named_length {l : List (List L)} {names : List L} (h : Named l names) :
    names.length = l.length := (Named_iff.mp h).1

/-- The label list chosen for one axis by an inner join: the common list if the two are identical,
otherwise the strictly increasing list of the common labels. -/
def InnerJoined [LinearOrder L] (l1 l2 r : List L) : Prop :=
  (l1 = l2 → r = l1) ∧ (l1 ≠ l2 → r.Pairwise (· < ·) ∧ ∀ a, a ∈ r ↔ a ∈ l1 ∧ a ∈ l2)

/-- Same for an outer join. -/
def OuterJoined [LinearOrder L] (l1 l2 r : List L) : Prop :=
  (l1 = l2 → r = l1) ∧ (l1 ≠ l2 → r.Pairwise (· < ·) ∧ ∀ a, a ∈ r ↔ a ∈ l1 ∨ a ∈ l2)

theorem InnerJoined.mem [LinearOrder L] {l1 l2 r : List L} (h : InnerJoined l1 l2 r) {a : L} :
    a ∈ r ↔ a ∈ l1 ∧ a ∈ l2 := by
  by_cases he : l1 = l2
  · rw [h.1 he, ← he]; simp
  · exact (h.2 he).2 a

theorem OuterJoined.mem [LinearOrder L] {l1 l2 r : List L} (h : OuterJoined l1 l2 r) {a : L} :
    a ∈ r ↔ a ∈ l1 ∨ a ∈ l2 := by
  by_cases he : l1 = l2
  · rw [h.1 he, ← he]; simp
  · exact (h.2 he).2 a

theorem InnerJoined.nodup [LinearOrder L] {l1 l2 r : List L} (h : InnerJoined l1 l2 r)
    (h1 : l1.Nodup) : r.Nodup := by
  by_cases he : l1 = l2
  · rw [h.1 he]; exact h1
  · exact (h.2 he).1.imp (fun h => ne_of_lt h)

theorem OuterJoined.nodup [LinearOrder L] {l1 l2 r : List L} (h : OuterJoined l1 l2 r)
    (h1 : l1.Nodup) : r.Nodup := by
  by_cases he : l1 = l2
  · rw [h.1 he]; exact h1
  · exact (h.2 he).1.imp (fun h => ne_of_lt h)

/-- The joined label list is determined by the two inputs as *sets* (plus identity): no enumeration
order of hash sets can show. -/
theorem InnerJoined.unique [LinearOrder L] {l1 l2 r r' : List L} (h : InnerJoined l1 l2 r)
    (h' : InnerJoined l1 l2 r') : r = r' := by
  by_cases he : l1 = l2
  · rw [h.1 he, h'.1 he]
  · exact eq_of_mem_iff_of_lt (h.2 he).1 (h'.2 he).1 (fun a => by rw [h.mem, h'.mem])

theorem OuterJoined.unique [LinearOrder L] {l1 l2 r r' : List L} (h : OuterJoined l1 l2 r)
    (h' : OuterJoined l1 l2 r') : r = r' := by
  by_cases he : l1 = l2
  · rw [h.1 he, h'.1 he]
  · exact eq_of_mem_iff_of_lt (h.2 he).1 (h'.2 he).1 (fun a => by rw [h.mem, h'.mem])

theorem InnerJoined.symm [LinearOrder L] {l1 l2 r : List L} (h : InnerJoined l1 l2 r) :
    InnerJoined l2 l1 r :=
  ⟨fun he => by rw [h.1 he.symm, he], fun hne =>
    ⟨(h.2 (Ne.symm hne)).1, fun a => by rw [(h.2 (Ne.symm hne)).2]; exact and_comm⟩⟩

theorem OuterJoined.symm [LinearOrder L] {l1 l2 r : List L} (h : OuterJoined l1 l2 r) :
    OuterJoined l2 l1 r :=
  ⟨fun he => by rw [h.1 he.symm, he], fun hne =>
    ⟨(h.2 (Ne.symm hne)).1, fun a => by rw [(h.2 (Ne.symm hne)).2]; exact or_comm⟩⟩

theorem innerJoined_sorted [LinearOrder L] {l1 l2 : List L} (h : l1 ≠ l2) :
    InnerJoined l1 l2 (pySorted (setInter l1 l2)) :=
  ⟨fun he => absurd he h, fun _ => ⟨pySorted_lt nodup_setInter, fun a => by
    rw [mem_pySorted, mem_setInter]⟩⟩

theorem outerJoined_sorted [LinearOrder L] {l1 l2 : List L} (h : l1 ≠ l2) :
    OuterJoined l1 l2 (pySorted (setUnion l1 l2)) :=
  ⟨fun he => absurd he h, fun _ => ⟨pySorted_lt nodup_setUnion, fun a => by
    rw [mem_pySorted, mem_setUnion]⟩⟩

/-- Axis by axis. -/
inductive Joined (R : List L → List L → List L → Prop) :
    List (List L) → List (List L) → List (List L) → Prop
  | nil : Joined R [] [] []
  | cons {a b c as bs cs} : R a b c → Joined R as bs cs → Joined R (a :: as) (b :: bs) (c :: cs)

theorem Joined.lengths {R : List L → List L → List L → Prop} {as bs cs : List (List L)}
    (h : Joined R as bs cs) : cs.length = as.length ∧ cs.length = bs.length := by
  induction h with
  | nil => simp
  | cons _ _ ih => simp [ih.1, ← ih.2]

theorem Joined.get {R : List L → List L → List L → Prop} {as bs cs : List (List L)}
    (h : Joined R as bs cs) : ∀ (k : Nat) a b, as[k]? = some a → bs[k]? = some b →
      ∃ c, cs[k]? = some c ∧ R a b c := by
  induction h with
  | nil => intro k a b h; simp at h
  | cons hr _ ih =>
    intro k a b ha hb
    cases k with
    | zero => simp at ha hb; subst ha hb; exact ⟨_, rfl, hr⟩
    | succ k => simpa using ih k a b (by simpa using ha) (by simpa using hb)

theorem Joined.forall_mem {R : List L → List L → List L → Prop} {P : List L → Prop}
    {as bs cs : List (List L)} (h : Joined R as bs cs) (ha : ∀ a ∈ as, P a) (hb : ∀ b ∈ bs, P b)
    (hR : ∀ a b c, P a → P b → R a b c → P c) : ∀ c ∈ cs, P c := by
  induction h with
  | nil => simp
  | cons hr _ ih =>
    intro c hc
    rcases List.mem_cons.mp hc with rfl | hc
    · exact hR _ _ _ (ha _ (by simp)) (hb _ (by simp)) hr
    · exact ih (fun a h => ha a (by simp [h])) (fun b h => hb b (by simp [h])) c hc

theorem Joined.named_inner [LinearOrder L] {as bs cs : List (List L)}
    (h : Joined InnerJoined as bs cs) {names : List L} :
    Named cs names ↔ Named as names ∧ Named bs names := by
  induction h generalizing names with
  | nil => cases names <;> simp [Named]
  | cons hr _ ih =>
    cases names with
    | nil => simp [Named]
    | cons n ns =>
      simp only [Named, ih, hr.mem]
      tauto

theorem Joined.symm_inner [LinearOrder L] {as bs cs : List (List L)}
    (h : Joined InnerJoined as bs cs) : Joined InnerJoined bs as cs := by
  induction h with
  | nil => exact .nil
  | cons hr _ ih => exact .cons hr.symm ih

theorem Joined.unique {R : List L → List L → List L → Prop}
    (hR : ∀ a b c c', R a b c → R a b c' → c = c') {as bs cs cs' : List (List L)}
    (h : Joined R as bs cs) (h' : Joined R as bs cs') : cs = cs' := by
  induction h generalizing cs' with
  | nil => cases h'; rfl
  | cons hr _ ih =>
    cases h' with
    | cons hr' h' => rw [hR _ _ _ _ hr hr', ih h']

/-- One `take` step of the loop, on the axis after `done`. -/
theorem take_step {α : Type _} {done rest : List (List L)} {l lab : List L} {x : NDArray α}
    {ids : List Nat} (hs : x.shape = (done ++ l :: rest).map List.length)
    (hnd : ∀ l' ∈ done ++ l :: rest, l'.Nodup) (hids : ids.map (fun i => l[i]?) = lab.map some) :
    (x.gather ids done.length).shape = (done ++ lab :: rest).map List.length ∧
    Reindexed (done ++ l :: rest) x (done ++ lab :: rest) (x.gather ids done.length) id none := by
  have hset : (done ++ l :: rest).set done.length lab = done ++ lab :: rest := by simp
  constructor
  · rw [← hset]
    exact gather_shape hs (getElem?_of_map hids).1
  · rw [← hset]
    exact reindexed_gather (by simp) hnd hids none

theorem Named_mid_replace {done rest rest' : List (List L)} {l lab : List L} {names : List L}
    (h : Named (done ++ lab :: rest') names) (h' : Named (done ++ l :: rest) names) :
    Named (done ++ lab :: rest) names := by
  obtain ⟨n1, n2, rfl, hlen, h1, h2⟩ := Named_split h
  rw [Named_append hlen] at h' ⊢
  cases n2 with
  | nil => simp [Named] at h2
  | cons n ns => exact ⟨h1, h2.1, h'.2.2⟩

section
variable [LinearOrder L]

theorem alignLoop_spec (rem1 rem2 : List (List L)) :
    ∀ (done : List (List L)) (x y : NDArray Val), rem1.length = rem2.length →
    x.shape = (done ++ rem1).map List.length → y.shape = (done ++ rem2).map List.length →
    (∀ l ∈ done ++ rem1, l.Nodup) → (∀ l ∈ done ++ rem2, l.Nodup) →
    ∃ x' y' r, Larry.alignLoop (rem1.zip rem2) done.length x y = .ok (x', y', r) ∧
      Joined InnerJoined rem1 rem2 r ∧
      x'.shape = (done ++ r).map List.length ∧ y'.shape = (done ++ r).map List.length ∧
      Reindexed (done ++ rem1) x (done ++ r) x' id none ∧
      Reindexed (done ++ rem2) y (done ++ r) y' id none := by
  induction rem1 generalizing rem2 with
  | nil =>
    intro done x y hlen hx hy _ _
    have : rem2 = [] := by
      cases rem2 with
      | nil => rfl
      | cons => simp at hlen
    subst this
    exact ⟨x, y, [], rfl, .nil, hx, hy, Reindexed.refl _ _ _, Reindexed.refl _ _ _⟩
  | cons ls rem1 ih =>
    intro done x y hlen hx hy hn1 hn2
    cases rem2 with
    | nil => simp at hlen
    | cons lo rem2 =>
      have hlen' : rem1.length = rem2.length := by simpa using hlen
      simp only [List.zip_cons_cons, Larry.alignLoop]
      by_cases heq : ls = lo
      · subst heq
        rw [if_pos rfl]
        obtain ⟨x', y', r, h1, h2, h3, h4, h5, h6⟩ := ih rem2 (done ++ [ls]) x y hlen'
          (by simpa using hx) (by simpa using hy) (by simpa using hn1) (by simpa using hn2)
        simp only [List.length_append, List.length_singleton] at h1
        rw [h1]
        exact ⟨x', y', ls :: r, rfl, .cons ⟨fun _ => rfl, fun h => absurd rfl h⟩ h2,
          by simpa using h3, by simpa using h4, by simpa using h5, by simpa using h6⟩
      · rw [if_neg heq]
        have hj := innerJoined_sorted heq
        obtain ⟨ids, hids⟩ := listmap_total (list1 := ls) (list2 := pySorted (setInter ls lo))
          (fun b hb => (hj.mem.mp hb).1)
        obtain ⟨ido, hido⟩ := listmap_total (list1 := lo) (list2 := pySorted (setInter ls lo))
          (fun b hb => (hj.mem.mp hb).2)
        have hmids := listmap_ok hids
        have hmido := listmap_ok hido
        have htx : x.take (ids.map Int.ofNat) (done.length : Int) =
            .ok (x.gather ids done.length) :=
          Larry.take_nat (n := ls.length) (by simp [hx]) (Larry.listmap_bounds hmids)
        have hty : y.take (ido.map Int.ofNat) (done.length : Int) =
            .ok (y.gather ido done.length) :=
          Larry.take_nat (n := lo.length) (by simp [hy]) (Larry.listmap_bounds hmido)
        have hsx := take_step hx hn1 hmids
        have hsy := take_step hy hn2 hmido
        have hndlab : (pySorted (setInter ls lo)).Nodup := hj.nodup (hn1 ls (by simp))
        have hcn : ∀ rem : List (List L), ∀ l0, (∀ l ∈ done ++ l0 :: rem, l.Nodup) →
            ∀ l ∈ (done ++ [pySorted (setInter ls lo)]) ++ rem, l.Nodup := by
          intro rem l0 h l hl
          simp only [List.append_assoc, List.singleton_append, List.mem_append, List.mem_cons] at hl
          rcases hl with hl | rfl | hl
          · exact h l (by simp [hl])
          · exact hndlab
          · exact h l (by simp [hl])
        obtain ⟨x', y', r, h1, h2, h3, h4, h5, h6⟩ :=
          ih rem2 (done ++ [pySorted (setInter ls lo)]) (x.gather ids done.length)
          (y.gather ido done.length) hlen'
          (by simpa using hsx.1) (by simpa using hsy.1) (hcn _ _ hn1) (hcn _ _ hn2)
        simp only [List.length_append, List.length_singleton] at h1
        simp only [hids, hido, htx, hty, h1]
        simp only [List.append_assoc, List.singleton_append] at h3 h4 h5 h6
        refine ⟨x', y', _, rfl, .cons hj h2, h3, h4, ?_, ?_⟩
        · refine hsx.2.trans h5 (fun _ => rfl) ?_
          intro names ha hb
          exact Named_mid_replace ha hb
        · refine hsy.2.trans h6 (fun _ => rfl) ?_
          intro names ha hb
          exact Named_mid_replace ha hb

end
end La
