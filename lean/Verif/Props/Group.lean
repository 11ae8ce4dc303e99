import Verif.Group
import Verif.Props.Normalize
import Verif.Props.Core

/-!
# Group operations (property C53)
-/

namespace La

open Larry

/-- Two values name the same group.  None and NaN name no group. -/
def SameGroup (a b : Val) : Prop :=
  (∃ x : Flt, x ≠ .nan ∧ a.num = x ∧ b.num = x) ∨ (∃ s, a = .str s ∧ b = .str s) ∨ ∃ i, a = .obj i ∧ b = .obj i

/-- The group of every label of an axis. -/
def GroupsOf (group : Larry L) (l : List L) (gs : List Val) : Prop :=
  gs.length = l.length ∧ ∀ (j : Nat) c gv, l[j]? = some c → gs[j]? = some gv → group.Has [c] gv

open Classical in
/-- The elements of a line that belong to the group `g`. -/
noncomputable def members (vs gs : List Val) (g : Val) : List Val :=
  ((gs.zip vs).filter (fun p => SameGroup p.1 g)).map Prod.snd

/-- Position `i` of the line gets what `R` says about its group's elements and its place among them;
NaN if it is in no group. -/
def ByGroup (gs : List Val) (R : List Val → Nat → Val → Prop) (vs : List Val) (i : Nat) (v : Val) : Prop :=
  ∀ g, gs[i]? = some g → (¬ SameGroup g g → v = .flt .nan) ∧
    (SameGroup g g → (members vs gs g)[(members (vs.take i) (gs.take i) g).length]? = vs[i]? ∧
      R (members vs gs g) (members (vs.take i) (gs.take i) g).length v)

theorem sameGroup_symm {a b : Val} (h : SameGroup a b) : SameGroup b a := by
  rcases h with ⟨x, h1, h2, h3⟩ | ⟨s, h1, h2⟩ | ⟨i, h1, h2⟩
  · exact Or.inl ⟨x, h1, h3, h2⟩
  · exact Or.inr (Or.inl ⟨s, h2, h1⟩)
  · exact Or.inr (Or.inr ⟨i, h2, h1⟩)

theorem sameGroup_trans {a b c : Val} (h : SameGroup a b) (h' : SameGroup b c) : SameGroup a c := by
  rcases h with ⟨x, h1, h2, h3⟩ | ⟨s, h1, h2⟩ | ⟨i, h1, h2⟩
  · rcases h' with ⟨x', g1, g2, g3⟩ | ⟨s, g1, g2⟩ | ⟨i, g1, g2⟩
    · exact Or.inl ⟨x, h1, h2, by rw [g3, ← g2, h3]⟩
    · subst g1; exact absurd h3.symm (by simpa [Val.num] using h1)
    · subst g1; exact absurd h3.symm (by simpa [Val.num] using h1)
  · subst h2
    rcases h' with ⟨x', g1, g2, g3⟩ | ⟨s, g1, g2⟩ | ⟨i, g1, g2⟩
    · exact absurd g2.symm (by simpa [Val.num] using g1)
    · exact Or.inr (Or.inl ⟨s, by rw [h1, g1], g2⟩)
    · simp at g1
  · subst h2
    rcases h' with ⟨x', g1, g2, g3⟩ | ⟨s, g1, g2⟩ | ⟨i, g1, g2⟩
    · exact absurd g2.symm (by simpa [Val.num] using g1)
    · simp at g1
    · exact Or.inr (Or.inr ⟨i, by rw [h1, g1], g2⟩)

theorem grpEq_iff {a b : Val} : a.grpEq b = true ↔ SameGroup a b ∨ (a = .none ∧ b = .none) := by
  have num : ∀ {a b : Val}, a.num.eq b.num = true ↔ ∃ x : Flt, x ≠ .nan ∧ a.num = x ∧ b.num = x := by
    intro a b
    rw [eq_iff]
    constructor
    · rintro ⟨h1, h2⟩; exact ⟨a.num, h2, rfl, h1.symm⟩
    · rintro ⟨x, h1, h2, h3⟩; exact ⟨by rw [h2, h3], by rw [h2]; exact h1⟩
  cases a <;> cases b <;> simp [Val.grpEq, SameGroup, num] <;> simp [Val.num] <;>
    first
    | (intro x h1 h2 h3; exact absurd h2.symm h1)
    | exact eq_comm
    | skip

theorem sameGroup_none {a : Val} : ¬ SameGroup a .none := by
  rintro (⟨x, h1, h2, h3⟩ | ⟨s, h1, h2⟩ | ⟨i, h1, h2⟩)
  · exact h1 h3.symm
  · simp at h2
  · simp at h2

/-- `grpEq` to a value other than None. -/
theorem grpEq_iff' {a b : Val} (hb : b ≠ .none) : a.grpEq b = true ↔ SameGroup a b := by
  rw [grpEq_iff]; simp [hb]

theorem uniqueGroup_spec {sort : List Val → List Val} (hsort : ∀ l, (sort l).Perm l) (gs : List Val) :
    (∀ g ∈ uniqueGroup sort gs, g ≠ .none) ∧
    (uniqueGroup sort gs).Pairwise (fun a b => ¬ SameGroup a b) ∧
    (∀ g ∈ gs, SameGroup g g → ∃ h ∈ uniqueGroup sort gs, SameGroup g h) := by
  have fold : ∀ (gs u : List Val), u.Pairwise (fun a b => ¬ SameGroup a b) →
      (gs.foldl addGroup u).Pairwise (fun a b => ¬ SameGroup a b) ∧
      (∀ g ∈ u, g ∈ gs.foldl addGroup u) ∧
      (∀ g ∈ gs, SameGroup g g → ∃ h ∈ gs.foldl addGroup u, SameGroup g h) := by
    intro gs
    induction gs with
    | nil => intro u hu; exact ⟨hu, fun g hg => hg, by simp⟩
    | cons g gs ih =>
      intro u hu
      have hstep : (addGroup u g).Pairwise (fun a b => ¬ SameGroup a b) ∧ (∀ h ∈ u, h ∈ addGroup u g) ∧
          (SameGroup g g → ∃ h ∈ addGroup u g, SameGroup g h) := by
        unfold addGroup
        by_cases hc : u.any (fun h => h.grpEq g) = true
        · rw [if_pos hc]
          refine ⟨hu, fun h hh => hh, fun hg => ?_⟩
          obtain ⟨h, hh, he⟩ := List.any_eq_true.mp hc
          rcases grpEq_iff.mp he with h1 | ⟨_, rfl⟩
          · exact ⟨h, hh, sameGroup_symm h1⟩
          · exact absurd hg sameGroup_none
        · rw [if_neg hc]
          refine ⟨?_, fun h hh => List.mem_append_left _ hh, fun hg => ⟨g, by simp, hg⟩⟩
          rw [List.pairwise_append]
          refine ⟨hu, by simp, fun a ha b hb hab => hc ?_⟩
          rw [List.mem_singleton] at hb; subst hb
          exact List.any_eq_true.mpr ⟨a, ha, grpEq_iff.mpr (Or.inl hab)⟩
      obtain ⟨i1, i2, i3⟩ := ih (addGroup u g) hstep.1
      refine ⟨i1, fun h hh => i2 h (hstep.2.1 h hh), ?_⟩
      intro h hh hs
      rcases List.mem_cons.mp hh with rfl | hh
      · obtain ⟨h', hm, he⟩ := hstep.2.2 hs
        exact ⟨h', i2 h' hm, he⟩
      · exact i3 h hh hs
  obtain ⟨f1, _, f3⟩ := fold gs [] List.Pairwise.nil
  have hp := hsort ((gs.foldl addGroup []).filter (fun g => g ≠ .none))
  refine ⟨fun g hg => ?_, ?_, fun g hg hs => ?_⟩
  · have := hp.mem_iff.mp hg
    simpa using (List.mem_filter.mp this).2
  · refine (hp.pairwise_iff (R := fun a b => ¬ SameGroup a b) (fun {a b} h h' => h (sameGroup_symm h'))).mpr ?_
    exact f1.filter _
  · obtain ⟨h, hm, he⟩ := f3 g hg hs
    refine ⟨h, hp.mem_iff.mpr (List.mem_filter.mpr ⟨hm, ?_⟩), he⟩
    simp only [ne_eq, decide_not, Bool.not_eq_eq_eq_not, Bool.not_true, decide_eq_false_iff_not]
    rintro rfl; exact sameGroup_none he

theorem maskAssign_length (mask : List Bool) (out vals : List Val) : (maskAssign mask out vals).length = out.length := by
  induction out generalizing mask vals with
  | nil => cases mask <;> simp [maskAssign]
  | cons o out ih =>
    cases mask with
    | nil => simp [maskAssign]
    | cons b mask => simp only [maskAssign]; split <;> simp [ih]

theorem maskAssign_false (mask : List Bool) (out vals : List Val) (i : Nat) (h : mask[i]? ≠ some true) :
    (maskAssign mask out vals)[i]? = out[i]? := by
  induction out generalizing mask vals i with
  | nil => cases mask <;> simp [maskAssign]
  | cons o out ih =>
    cases mask with
    | nil => simp [maskAssign]
    | cons b mask =>
      cases i with
      | zero => simp at h; simp [maskAssign, h]
      | succ i =>
        simp at h
        simp only [maskAssign]
        split <;> simp [ih _ _ _ (by simpa using h)]

theorem maskAssign_true (mask : List Bool) (out vals vs : List Val) (i : Nat) (h : mask[i]? = some true)
    (hlen : vals.length = (maskSelect mask vs).length) (hout : vs.length = out.length) (hi : i < vs.length) :
    (maskSelect mask vs)[(maskSelect (mask.take i) (vs.take i)).length]? = vs[i]? ∧
    (maskAssign mask out vals)[i]? = vals[(maskSelect (mask.take i) (vs.take i)).length]? := by
  induction vs generalizing mask out vals i with
  | nil => simp at hi
  | cons v vs ih =>
    cases out with
    | nil => simp at hout
    | cons o out =>
      cases mask with
      | nil => simp at h
      | cons b mask =>
        cases i with
        | zero =>
          simp at h; subst h
          simp only [maskSelect, if_true] at hlen ⊢
          cases vals with
          | nil => simp at hlen
          | cons w vals => simp [maskAssign, maskSelect]
        | succ i =>
          simp at h
          cases b with
          | true =>
            simp only [maskSelect, if_true, List.length_cons] at hlen
            cases vals with
            | nil => simp at hlen
            | cons w vals =>
              have := ih mask out vals i h (by simpa using hlen) (by simpa using hout) (by simpa using hi)
              simp only [List.take_succ_cons, maskSelect, if_true, List.length_cons, List.getElem?_cons_succ,
                maskAssign, List.tail_cons]
              exact this
          | false =>
            simp only [maskSelect, Bool.false_eq_true, if_false] at hlen
            have := ih mask out vals i h hlen (by simpa using hout) (by simpa using hi)
            simp only [List.take_succ_cons, maskSelect, Bool.false_eq_true, if_false, List.getElem?_cons_succ,
              maskAssign]
            exact this

theorem maskSelect_members {g h : Val} (hh : h ≠ .none) (hgh : SameGroup g h) (gs vs : List Val) :
    maskSelect (gs.map (fun a => a.grpEq h)) vs = members vs gs g := by
  induction gs generalizing vs with
  | nil => cases vs <;> simp [maskSelect, members]
  | cons a gs ih =>
    cases vs with
    | nil => simp [maskSelect, members]
    | cons v vs =>
      have e : a.grpEq h = true ↔ SameGroup a g := by
        rw [grpEq_iff' hh]
        exact ⟨fun h' => sameGroup_trans h' (sameGroup_symm hgh), fun h' => sameGroup_trans h' hgh⟩
      have ih' := ih vs
      unfold members at ih' ⊢
      simp only [List.map_cons, maskSelect, List.zip_cons_cons]
      by_cases hc : SameGroup a g
      · rw [if_pos (e.mpr hc), List.filter_cons_of_pos (by simpa using hc), List.map_cons, ih']
      · rw [if_neg (fun h' => hc (e.mp h')), List.filter_cons_of_neg (by simpa using hc), ih']

/-- The loop over the groups. -/
theorem groupFold_spec {f : List Val → List Val} (hf : ∀ vs, (f vs).length = vs.length) (gs vs : List Val)
    (i : Nat) (g : Val) (hg : gs[i]? = some g) (hi : i < vs.length) (U : List Val) (hnone : ∀ h ∈ U, h ≠ .none)
    (hpw : U.Pairwise (fun a b => ¬ SameGroup a b)) (out : List Val) (hout : out.length = vs.length) :
    (U.foldl (groupStep f gs vs) out).length = vs.length ∧
    ((∀ h ∈ U, ¬ SameGroup g h) → (U.foldl (groupStep f gs vs) out)[i]? = out[i]?) ∧
    (∀ h ∈ U, SameGroup g h → (members vs gs g)[(members (vs.take i) (gs.take i) g).length]? = vs[i]? ∧
      (U.foldl (groupStep f gs vs) out)[i]? = (f (members vs gs g))[(members (vs.take i) (gs.take i) g).length]?) := by
  induction U generalizing out with
  | nil => exact ⟨hout, fun _ => rfl, by simp⟩
  | cons h U ih =>
    rw [List.pairwise_cons] at hpw
    have hh := hnone h List.mem_cons_self
    have hlen : (groupStep f gs vs out h).length = vs.length := by rw [groupStep, maskAssign_length, hout]
    obtain ⟨i1, i2, i3⟩ := ih (fun h' hh' => hnone h' (List.mem_cons_of_mem _ hh')) hpw.2 _ hlen
    have hmask : (gs.map (fun a => a.grpEq h))[i]? = some (g.grpEq h) := by rw [List.getElem?_map, hg]; rfl
    rw [List.foldl_cons]
    refine ⟨i1, fun hno => ?_, fun h' hh' hs => ?_⟩
    · rw [i2 fun h' hh' => hno h' (List.mem_cons_of_mem _ hh'), groupStep, maskAssign_false]
      rw [hmask]
      simp only [ne_eq, Option.some.injEq]
      rw [grpEq_iff' hh]
      exact hno h List.mem_cons_self
    · rcases List.mem_cons.mp hh' with rfl | hm
      · have hno : ∀ h ∈ U, ¬ SameGroup g h := fun h hU hgh => hpw.1 h hU (sameGroup_trans (sameGroup_symm hs) hgh)
        rw [i2 hno, groupStep]
        have := maskAssign_true (gs.map (fun a => a.grpEq h')) out (f (maskSelect (gs.map (fun a => a.grpEq h')) vs)) vs i
          (by rw [hmask, (grpEq_iff' hh).mpr hs]) (hf _) hout.symm hi
        rw [← List.map_take, maskSelect_members hh hs, maskSelect_members hh hs] at this
        rw [maskSelect_members hh hs]
        exact this
      · exact i3 h' hm hs

theorem groupLine_spec {sort : List Val → List Val} (hsort : ∀ l, (sort l).Perm l) {f : List Val → List Val}
    (hf : ∀ vs, (f vs).length = vs.length) {R : List Val → Nat → Val → Prop}
    (hR : ∀ ms (k : Nat) x v, ms[k]? = some x → (f ms)[k]? = some v → R ms k v) (gs vs : List Val) (i : Nat)
    (hi : i < vs.length) (hl : i < gs.length) :
    ∃ v, (groupLine sort f gs vs)[i]? = some v ∧ ByGroup gs R vs i v := by
  obtain ⟨u1, u2, u3⟩ := uniqueGroup_spec hsort gs
  have hg : gs[i]? = some gs[i] := List.getElem?_eq_getElem hl
  obtain ⟨f1, f2, f3⟩ := groupFold_spec hf gs vs i gs[i] hg hi (uniqueGroup sort gs) u1 u2
    (List.replicate vs.length (.flt .nan)) (by simp)
  have hlen : i < (groupLine sort f gs vs).length := by rw [groupLine, f1]; exact hi
  refine ⟨_, List.getElem?_eq_getElem hlen, fun g hg' => ?_⟩
  rw [hg] at hg'
  simp only [Option.some.injEq] at hg'
  subst hg'
  refine ⟨fun hno => ?_, fun hs => ?_⟩
  · have := f2 fun h _ hgh => hno (sameGroup_trans hgh (sameGroup_symm hgh))
    change (groupLine sort f gs vs)[i]? = _ at this
    rw [List.getElem?_eq_getElem hlen, List.getElem?_replicate_of_lt hi] at this
    simpa using this
  · obtain ⟨h, hm, he⟩ := u3 _ (List.getElem_mem hl) hs
    obtain ⟨g1, g2⟩ := f3 h hm he
    refine ⟨g1, hR _ _ vs[i] _ (by rw [g1]; exact List.getElem?_eq_getElem hi) ?_⟩
    change (groupLine sort f gs vs)[i]? = _ at g2
    rw [← g2]
    exact List.getElem?_eq_getElem hlen

/-- The groups handed to the array functions are those of the labels. -/
theorem groupAlign_spec [LinearOrder L] {y group : Larry L} (hg : group.Valid) (hg1 : group.ndim = 1)
    {axis : Int} {ax : Nat} (hax : pyIdx y.label.length axis = some ax) {l gl : List L} (hl : y.label[ax]? = some l)
    (hnd : l.Nodup) (hgl : group.label[0]? = some gl) (hsub : ∀ b ∈ l, b ∈ gl) :
    ∃ gs, y.groupAlign group axis = .ok gs ∧ GroupsOf group l gs := by
  have hlab : group.label = [gl] := by
    have : group.label.length = 1 := by rw [hg.label_length]; exact hg1
    match h : group.label, this with
    | [a], _ => rw [h] at hgl; simp at hgl; rw [hgl]
  obtain ⟨z, h1, h2, h3, h4, h5⟩ := morph_spec hg hnd (axis := 0) (ax := 0)
    (by rw [hg1]; rfl) hgl
  refine ⟨z.x.vals, ?_, ?_⟩
  · simp only [groupAlign, hg1, hax, List.getD_eq_getElem?_getD, hl, hgl, Option.getD_some, h1]
    rw [if_neg (by simp), if_neg]
    rw [List.any_eq_true]
    rintro ⟨n, hn, h⟩
    exact absurd (hsub n hn) (by simpa using h)
  · have hzl : z.label = [l] := by rw [h2, hlab]; rfl
    have hzs : z.x.shape = [l.length] := by rw [h3.shape_eq, hzl]; rfl
    have hvals : z.x.vals = (List.range l.length).map (fun i => z.x.get [i]) := by
      rw [NDArray.vals, hzs]
      have : ∀ n, allIdx [n] = (List.range n).map (fun i => [i]) := by
        intro n
        simp only [allIdx, List.map_cons, List.map_nil]
        exact List.map_eq_flatMap.symm
      rw [this, List.map_map]; rfl
    refine ⟨by rw [hvals]; simp, ?_⟩
    intro j c gv hj hgv
    have hjl := (List.getElem?_eq_some_iff.mp hj).1
    rw [hvals, List.getElem?_map, List.getElem?_range hjl] at hgv
    simp only [Option.map_some, Option.some.injEq] at hgv
    have hz : z.Has [c] gv := ⟨[j], by rw [hzl]; exact ⟨hj, trivial⟩, hgv⟩
    have hc : c ∈ l := List.mem_of_getElem? hj
    have hN : Named group.label [c] := by
      rw [hlab]
      obtain ⟨i, hi⟩ := List.mem_iff_getElem?.mp (hsub c hc)
      exact Named_of_At (idx := [i]) ⟨hi, trivial⟩
    rcases ((h5 [c] gv).mp hz).2 with ⟨w, hw, e⟩ | ⟨hno, _⟩
    · have hdt : z.dtype = group.dtype := by
        rw [h4, morphDType, if_neg]
        rintro ⟨_, _, h | ⟨b, hb, hb'⟩⟩
        · rw [h] at hc; simp at hc
        · exact hb' (hsub b hb)
      rw [hdt, castVal_self] at e
      simp at e; subst e; exact hw
    · exact absurd hN hno

/-- The group methods: every line along the axis is treated group by group. -/
theorem groupBy_spec [LinearOrder L] {sort : List Val → List Val} (hsort : ∀ l, (sort l).Perm l)
    {f : List Val → List Val} (hf : ∀ vs, (f vs).length = vs.length) {R : List Val → Nat → Val → Prop}
    (hR : ∀ ms (k : Nat) x v, ms[k]? = some x → (f ms)[k]? = some v → R ms k v)
    {y group : Larry L} (hv : y.Valid) (hg : group.Valid) (hg1 : group.ndim = 1)
    (hd : y.dtype ≠ .str ∧ y.dtype ≠ .object) {axis : Int} {ax : Nat} (hax : pyIdx y.ndim axis = some ax)
    {l gl : List L} (hl : y.label[ax]? = some l) (hgl : group.label[0]? = some gl) (hsub : ∀ b ∈ l, b ∈ gl) :
    ∃ z gs, y.groupBy sort f group axis = .ok z ∧ z.dtype = .float ∧ GroupsOf group l gs ∧
      y.Along z ax (ByGroup gs R) := by
  have hd' : y.dtype.isNumeric = true := by cases h : y.dtype <;> simp_all [DType.isNumeric]
  obtain ⟨gs, h1, h2⟩ := groupAlign_spec hg hg1 (by rw [hv.label_length]; exact hax) hl
    (hv.nodup l (List.mem_of_getElem? hl)) hgl hsub
  refine ⟨y.copy.along (groupLine sort f gs) .float ax, gs, by simp [groupBy, h1, hd', hax], rfl, h2, ?_⟩
  refine along_of_get hv hl (by rfl) (by rfl) fun ridx i hr hi => ?_
  have hlen : (y.x.line ax ridx).length = l.length := by
    rw [line_length]; simp [hv.shape_eq, hl]
  obtain ⟨v, g1, g2⟩ := groupLine_spec hsort hf hR gs (y.x.line ax ridx) i hi (by rw [h2.1, ← hlen]; exact hi)
  have : (y.copy.along (groupLine sort f gs) .float ax).x.get (ridx.insertIdx ax i) = v := by
    simp only [Larry.along, NDArray.mapLines, Larry.copy]
    rw [List.eraseIdx_insertIdx_self]
    have e : (ridx.insertIdx ax i).getD ax 0 = i := by
      rw [List.getD_eq_getElem?_getD, List.getElem?_insertIdx_self, if_pos hr]; rfl
    rw [e]
    simp [g1]
  rw [this]; exact g2

/-- C53. `group_mean(group, axis)`: the mean of the non-NaN elements of the same group, NaN for an
element in no group and for a group without a number. -/
theorem C53_group_mean [LinearOrder L] {sort : List Val → List Val} (hsort : ∀ l, (sort l).Perm l)
    {y group : Larry L} (hv : y.Valid) (hg : group.Valid) (hg1 : group.ndim = 1)
    (hd : y.dtype ≠ .str ∧ y.dtype ≠ .object) {axis : Int} {ax : Nat} (hax : pyIdx y.ndim axis = some ax)
    {l gl : List L} (hl : y.label[ax]? = some l) (hgl : group.label[0]? = some gl) (hsub : ∀ b ∈ l, b ∈ gl) :
    ∃ z gs, y.groupMean sort group axis = .ok z ∧ z.dtype = .float ∧ GroupsOf group l gs ∧
      y.Along z ax (ByGroup gs fun ms _ v => NoInf (ms.map Val.num) →
        (finites (ms.map Val.num) = [] → v = .flt .nan) ∧
        (finites (ms.map Val.num) ≠ [] →
          v = .flt (.fin ((finites (ms.map Val.num)).sum / (finites (ms.map Val.num)).length)))) := by
  refine groupBy_spec hsort (by simp [groupMeanLine]) ?_ hv hg hg1 hd hax hl hgl hsub
  intro ms k x v hx hv' hinf
  simp only [groupMeanLine, List.getElem?_map, hx, Option.map_some, Option.some.injEq] at hv'
  subst hv'
  refine ⟨fun h => ?_, fun h => ?_⟩
  · have : (ms.map Val.num).filter (fun x => !x.isNan) = [] := by
      rw [List.filter_eq_nil_iff]
      intro a ha
      have h2 := hinf a ha
      rw [finites, List.filterMap_eq_nil_iff] at h
      have h1 := h a ha
      cases a <;> simp_all [Flt.isNan]
    simp [nanmean, this, Flt.sum, Flt.div, Flt.infOf]
  · rw [nanmean_fin hinf (by simpa using h)]

/-- C53. `group_median(group, axis)`: a median of the non-NaN elements of the same group.  `med` is any
function that gives a median. -/
theorem C53_group_median [LinearOrder L] {sort : List Val → List Val} (hsort : ∀ l, (sort l).Perm l)
    {med : List Flt → Flt}
    (hmed : ∀ xs : List Flt, NoInf xs → finites xs ≠ [] → ∃ m, med xs = .fin m ∧ IsMedian (finites xs) m)
    {y group : Larry L} (hv : y.Valid) (hg : group.Valid) (hg1 : group.ndim = 1)
    (hd : y.dtype ≠ .str ∧ y.dtype ≠ .object) {axis : Int} {ax : Nat} (hax : pyIdx y.ndim axis = some ax)
    {l gl : List L} (hl : y.label[ax]? = some l) (hgl : group.label[0]? = some gl) (hsub : ∀ b ∈ l, b ∈ gl) :
    ∃ z gs, y.groupMedian sort med group axis = .ok z ∧ z.dtype = .float ∧ GroupsOf group l gs ∧
      y.Along z ax (ByGroup gs fun ms _ v => NoInf (ms.map Val.num) → finites (ms.map Val.num) ≠ [] →
        ∃ m, v = .flt (.fin m) ∧ IsMedian (finites (ms.map Val.num)) m) := by
  refine groupBy_spec hsort (by simp [groupMedianLine]) ?_ hv hg hg1 hd hax hl hgl hsub
  intro ms k x v hx hv' hinf hne
  simp only [groupMedianLine, List.getElem?_map, hx, Option.map_some, Option.some.injEq] at hv'
  subst hv'
  obtain ⟨m, hm, hmm⟩ := hmed _ hinf hne
  exact ⟨m, by rw [hm], hmm⟩

/-- C53. `group_ranking(group, axis)`: the rank among the elements of the same group. -/
theorem C53_group_ranking [LinearOrder L] {sort : List Val → List Val} (hsort : ∀ l, (sort l).Perm l)
    {y group : Larry L} (hv : y.Valid) (hg : group.Valid) (hg1 : group.ndim = 1)
    (hd : y.dtype ≠ .str ∧ y.dtype ≠ .object) {axis : Int} {ax : Nat} (hax : pyIdx y.ndim axis = some ax)
    {l gl : List L} (hl : y.label[ax]? = some l) (hgl : group.label[0]? = some gl) (hsub : ∀ b ∈ l, b ∈ gl) :
    ∃ z gs, y.groupRanking sort group axis = .ok z ∧ z.dtype = .float ∧ GroupsOf group l gs ∧
      y.Along z ax (ByGroup gs fun ms k v => ∃ ws, RankedLine (-1) 1 0 ms ws ∧ ws[k]? = some v) := by
  refine groupBy_spec hsort (by simp [rankingLine]) ?_ hv hg hg1 hd hax hl hgl hsub
  intro ms k x v hx hv'
  exact ⟨_, rankingLine_pm1 ms, hv'⟩

/-- C53. The result at a position depends only on the elements of its own group. -/
theorem C53_within (gs vs vs' : List Val) (g : Val) (hlen : vs.length = vs'.length)
    (h : ∀ (i : Nat) g', gs[i]? = some g' → SameGroup g' g → vs[i]? = vs'[i]?) :
    members vs gs g = members vs' gs g := by
  induction gs generalizing vs vs' with
  | nil => simp [members]
  | cons a gs ih =>
    cases vs with
    | nil =>
      cases vs' with
      | nil => rfl
      | cons v' vs' => simp at hlen
    | cons v vs =>
      cases vs' with
      | nil => simp at hlen
      | cons v' vs' =>
        have ih' := ih vs vs' (by simpa using hlen) fun i g' h1 h2 => by
          have := h (i + 1) g' (by simpa using h1) h2
          simpa using this
        unfold members at ih' ⊢
        simp only [List.zip_cons_cons]
        by_cases hc : SameGroup a g
        · have hv := h 0 a rfl hc
          simp at hv
          rw [List.filter_cons_of_pos (by simpa using hc), List.filter_cons_of_pos (by simpa using hc), List.map_cons,
            List.map_cons, ih', hv]
        · rw [List.filter_cons_of_neg (by simpa using hc), List.filter_cons_of_neg (by simpa using hc), ih']

/-- C53: refusals. -/
theorem C53_errors [LinearOrder L] (sort : List Val → List Val) (f : List Val → List Val) (y group : Larry L)
    (axis : Int) :
    (group.ndim ≠ 1 → y.groupBy sort f group axis = .error .valueError) ∧
    (group.ndim = 1 → pyIdx y.label.length axis = none → y.groupBy sort f group axis = .error .indexError) ∧
    (∀ ax l gl b, group.ndim = 1 → pyIdx y.label.length axis = some ax → y.label[ax]? = some l →
      group.label[0]? = some gl → b ∈ l → b ∉ gl → y.groupBy sort f group axis = .error .indexError) := by
  refine ⟨fun h => by simp [groupBy, groupAlign, h], fun h h' => by simp [groupBy, groupAlign, h, h'], ?_⟩
  intro ax l gl b h1 hax hl hgl hb hb'
  have : y.groupAlign group axis = .error .indexError := by
    simp only [groupAlign, h1, hax, List.getD_eq_getElem?_getD, hl, hgl, Option.getD_some]
    rw [if_neg (by simp), if_pos]
    exact List.any_eq_true.mpr ⟨b, hb, by simpa using hb'⟩
  simp [groupBy, this]

/-- Groups for the columns of `exA`: 1 and 2 in "x", 3 in none. -/
def exG : Larry Nat :=
  ⟨⟨[3], fun idx => match idx with | [0] => .str "x" | [1] => .str "x" | _ => .none⟩, .object, [[1, 2, 3]]⟩

example : (∀ l : List Val, (id l).Perm l) ∧ exA.Valid ∧ exG.Valid ∧ exG.ndim = 1 ∧ exA.dtype ≠ .str ∧
    exA.dtype ≠ .object ∧ pyIdx exA.ndim 1 = some 1 ∧ exA.label[1]? = some [3, 1, 2] ∧
    exG.label[0]? = some [1, 2, 3] ∧ (∀ b ∈ [3, 1, 2], b ∈ [1, 2, 3]) ∧
    GroupsOf exG [3, 1, 2] [.none, .str "x", .str "x"] ∧
    members [fl 4, fl 5, fl 6] [.none, .str "x", .str "x"] (.str "x") = [fl 5, fl 6] := by
  have hx : SameGroup (.str "x") (.str "x") := Or.inr (Or.inl ⟨_, rfl, rfl⟩)
  have hn : ¬ SameGroup .none (.str "x") := fun h => sameGroup_none (sameGroup_symm h)
  refine ⟨fun l => List.Perm.refl l, exA_valid, ⟨rfl, by simp [exG], by simp [exG]⟩, rfl, by decide, by decide, rfl, rfl,
    rfl, by decide, ⟨rfl, ?_⟩, ?_⟩
  · intro j c gv hj hg
    match j with
    | 0 => simp at hj hg; subst hj hg; exact ⟨[2], ⟨rfl, trivial⟩, rfl⟩
    | 1 => simp at hj hg; subst hj hg; exact ⟨[0], ⟨rfl, trivial⟩, rfl⟩
    | 2 => simp at hj hg; subst hj hg; exact ⟨[1], ⟨rfl, trivial⟩, rfl⟩
    | j + 3 => simp at hj
  · simp [members, hx, hn]

end La
