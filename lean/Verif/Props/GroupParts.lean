import Verif.Props.Group
import Verif.Props.Moving
import Verif.Props.Stats
import Verif.Props.Parts
import Verif.Props.AnyOrder
import Verif.Props.Twice

/-!
# The group methods are the ordinary methods on the part of the larry that holds a group (property C102)
-/

namespace La

open Larry

/-- The label `c` is in the group named by `g`. -/
def InGroup (group : Larry L) (g : Val) (c : L) : Prop := ∃ gv, group.Has [c] gv ∧ SameGroup gv g

open Classical in
/-- The labels of an axis that are in the group named by `g`, in the order of the axis. -/
noncomputable def groupLabels (group : Larry L) (l : List L) (g : Val) : List L := l.filter (fun c => InGroup group g c)

theorem mem_groupLabels {group : Larry L} {l : List L} {g : Val} {c : L} :
    c ∈ groupLabels group l g ↔ c ∈ l ∧ InGroup group g c := by simp [groupLabels]

theorem filter_zip_fst {α β : Type _} (P : α → Bool) (Q : β → Bool) : ∀ (l : List α) (t : List β), t.length = l.length →
    (∀ (i : Nat) a b, l[i]? = some a → t[i]? = some b → P a = Q b) →
    l.filter P = ((l.zip t).filter (fun p => Q p.2)).map Prod.fst
  | [], [], _, _ => rfl
  | [], _ :: _, h, _ => by simp at h
  | _ :: _, [], h, _ => by simp at h
  | a :: l, b :: t, h, hPQ => by
    have ih := filter_zip_fst P Q l t (by simpa using h) fun i x y hx hy => hPQ (i + 1) x y (by simpa using hx)
      (by simpa using hy)
    have h0 := hPQ 0 a b rfl rfl
    rw [List.filter_cons, List.zip_cons_cons, List.filter_cons, ih]
    simp only [h0]
    split_ifs <;> rfl

theorem filter_zip_snd {α β : Type _} (Q : β → Bool) : ∀ (l : List α) (t : List β), t.length = l.length →
    t.filter Q = ((l.zip t).filter (fun p => Q p.2)).map Prod.snd
  | [], [], _ => rfl
  | [], _ :: _, h => by simp at h
  | _ :: _, [], h => by simp at h
  | a :: l, b :: t, h => by
    have ih := filter_zip_snd Q l t (by simpa using h)
    rw [List.filter_cons, List.zip_cons_cons, List.filter_cons, ih]
    simp only
    split_ifs <;> rfl

theorem filter_at {α : Type _} (Q : α → Bool) : ∀ (t : List α) (i : Nat) (a : α), t[i]? = some a → Q a = true →
    (t.filter Q)[((t.take i).filter Q).length]? = some a
  | [], i, a, h, _ => by simp at h
  | b :: t, 0, a, h, ha => by
    simp only [List.getElem?_cons_zero, Option.some.injEq] at h
    subst h
    rw [List.filter_cons_of_pos ha]; rfl
  | b :: t, i + 1, a, h, ha => by
    have ih := filter_at Q t i a (by simpa using h) ha
    rw [List.take_succ_cons]
    by_cases hb : Q b = true
    · rw [List.filter_cons_of_pos hb, List.filter_cons_of_pos hb]
      simpa using ih
    · rw [List.filter_cons_of_neg hb, List.filter_cons_of_neg hb]
      exact ih

theorem zip_take {α β : Type _} (l : List α) (t : List β) (i : Nat) : (l.zip t).take i = (l.take i).zip (t.take i) :=
  List.take_zipWith

theorem groupsOf_iff {group : Larry L} (hg : group.Valid) {l : List L} {gs : List Val} (h : GroupsOf group l gs)
    {i : Nat} {c : L} {gv : Val} (hc : l[i]? = some c) (hgv : gs[i]? = some gv) (g : Val) :
    InGroup group g c ↔ SameGroup gv g := by
  have h1 := h.2 i c gv hc hgv
  refine ⟨fun ⟨gv', h2, h3⟩ => ?_, fun h3 => ⟨gv, h1, h3⟩⟩
  rw [Holds_unique hg.nodup h1 h2]
  exact h3

/-- The labels of a group, and the elements of a line that belong to it, sit at the same places. -/
theorem group_places {group : Larry L} (hg : group.Valid) {l : List L} {gs vs : List Val} (h : GroupsOf group l gs)
    (hlen : vs.length = l.length) (g : Val) :
    ∃ t : List (L × Val), groupLabels group l g = t.map Prod.fst ∧ members vs gs g = t.map Prod.snd ∧
      (∀ p ∈ t, ∃ i : Nat, l[i]? = some p.1 ∧ vs[i]? = some p.2) ∧
      ∀ (i : Nat) c gv, l[i]? = some c → gs[i]? = some gv → SameGroup gv g →
        (groupLabels group l g)[(members (vs.take i) (gs.take i) g).length]? = some c := by
  classical
  have hzl : (gs.zip vs).length = l.length := by simp [h.1, hlen]
  have e1 : groupLabels group l g = ((l.zip (gs.zip vs)).filter (fun p => decide (SameGroup p.2.1 g))).map Prod.fst := by
    unfold groupLabels
    refine filter_zip_fst (β := Val × Val) _ (fun q => decide (SameGroup q.1 g)) l (gs.zip vs) hzl
      fun i a b ha hb => ?_
    rw [List.getElem?_zip_eq_some] at hb
    have := groupsOf_iff hg h ha hb.1 g
    simp only [this]
  have e2 : (gs.zip vs).filter (fun q => decide (SameGroup q.1 g)) =
      ((l.zip (gs.zip vs)).filter (fun p => decide (SameGroup p.2.1 g))).map Prod.snd :=
    filter_zip_snd (fun q : Val × Val => decide (SameGroup q.1 g)) l (gs.zip vs) hzl
  refine ⟨((l.zip (gs.zip vs)).filter (fun p => decide (SameGroup p.2.1 g))).map (fun p => (p.1, p.2.2)), ?_, ?_, ?_, ?_⟩
  · rw [e1, List.map_map]; rfl
  · unfold members
    rw [show (fun p : Val × Val => decide (SameGroup p.1 g)) = fun q => decide (SameGroup q.1 g) from rfl, e2,
      List.map_map, List.map_map]
    rfl
  · intro p hp
    obtain ⟨q, hq, rfl⟩ := List.mem_map.mp hp
    obtain ⟨i, hi⟩ := List.mem_iff_getElem?.mp (List.mem_of_mem_filter hq)
    rw [List.getElem?_zip_eq_some, List.getElem?_zip_eq_some] at hi
    exact ⟨i, hi.1, hi.2.2⟩
  · intro i c gv hc hgv hs
    have hil := (List.getElem?_eq_some_iff.mp hc).1
    obtain ⟨v, hv⟩ : ∃ v, vs[i]? = some v := ⟨vs[i]'(by omega), List.getElem?_eq_getElem _⟩
    have ht : (l.zip (gs.zip vs))[i]? = some (c, gv, v) := by
      rw [List.getElem?_zip_eq_some, List.getElem?_zip_eq_some]; exact ⟨hc, hgv, hv⟩
    have := filter_at (fun p : L × Val × Val => decide (SameGroup p.2.1 g)) _ i _ ht (by simpa using hs)
    rw [e1, List.getElem?_map]
    have hk : (members (vs.take i) (gs.take i) g).length =
        (((l.zip (gs.zip vs)).take i).filter (fun p : L × Val × Val => decide (SameGroup p.2.1 g))).length := by
      unfold members
      rw [List.length_map, zip_take, zip_take]
      have := filter_zip_snd (fun q : Val × Val => decide (SameGroup q.1 g)) (l.take i) ((gs.take i).zip (vs.take i))
        (by simp [h.1, hlen])
      rw [show (fun p : Val × Val => decide (SameGroup p.1 g)) = fun q => decide (SameGroup q.1 g) from rfl, this,
        List.length_map]
    rw [hk, this]
    rfl

/-- The part of a larry that holds a group has, as its lines, the elements of the group. -/
theorem group_part_line {y part group : Larry L} (hg : group.Valid) {ax : Nat} {l : List L} (hl : y.label[ax]? = some l)
    {gs : List Val} (h : GroupsOf group l gs) {g : Val} (hp : part.PartOf y (y.label.set ax (groupLabels group l g)))
    {rest : List L} {vs : List Val} (hline : y.LineAt ax rest vs) : part.LineAt ax rest (members vs gs g) := by
  obtain ⟨l', hl', hlen, hh⟩ := hline
  rw [hl] at hl'
  cases hl'
  have haxlt := (List.getElem?_eq_some_iff.mp hl).1
  obtain ⟨t, t1, t2, t3, -⟩ := group_places hg h hlen g
  refine ⟨_, by rw [hp.label_eq, List.getElem?_set_self haxlt], by rw [t1, t2]; simp, fun j b w hb hw => ?_⟩
  rw [t1, List.getElem?_map, Option.map_eq_some_iff] at hb
  rw [t2, List.getElem?_map, Option.map_eq_some_iff] at hw
  obtain ⟨p, hp1, rfl⟩ := hb
  obtain ⟨q, hq1, rfl⟩ := hw
  rw [hp1] at hq1
  cases hq1
  obtain ⟨i, i1, i2⟩ := t3 p (List.mem_of_getElem? hp1)
  have hy := hh _ _ _ i1 i2
  refine (hp.has _ _).mpr ⟨?_, hy⟩
  obtain ⟨hx, n, hn, -⟩ := (Named_iff_except hl).mp (Named_of_Holds hy)
  refine (Named_set_iff haxlt).mpr ⟨hx, n, hn, ?_⟩
  have hn' : n = p.1 := by
    rw [List.getElem?_insertIdx_self] at hn
    split_ifs at hn
    simpa using hn.symm
  subst hn'
  rw [t1]
  exact List.mem_map.mpr ⟨p, List.mem_of_getElem? hp1, rfl⟩

/-- A larry, the groups of the labels of one of its axes, and nothing that makes the group methods refuse. -/
structure CanGroup [LinearOrder L] (sort : List Val → List Val) (y group : Larry L) (axis : Int) (ax : Nat)
    (l : List L) : Prop where
  sorts : ∀ l, (sort l).Perm l
  valid : y.Valid
  groups : group.Valid
  one : group.ndim = 1
  number : y.dtype ≠ .str ∧ y.dtype ≠ .object
  axis : pyIdx y.ndim axis = some ax
  labels : y.label[ax]? = some l
  known : ∀ gl, group.label[0]? = some gl → ∀ b ∈ l, b ∈ gl

theorem CanGroup.isNumeric [LinearOrder L] {sort : List Val → List Val} {y group : Larry L} {axis : Int} {ax : Nat}
    {l : List L} (h : CanGroup sort y group axis ax l) : y.dtype.isNumeric = true := by
  have := h.number
  cases hd : y.dtype <;> simp_all [DType.isNumeric]

/-- What a group method that treats the elements of a group by `f` leaves in a cell. -/
theorem group_part [LinearOrder L] {sort : List Val → List Val} {f : List Val → List Val}
    (hf : ∀ vs, (f vs).length = vs.length) {y group : Larry L} {axis : Int} {ax : Nat} {l : List L}
    (h : CanGroup sort y group axis ax l) :
    ∃ z, y.groupBy sort f group axis = .ok z ∧ z.Valid ∧ z.dtype = .float ∧ z.label = y.label ∧
      ∀ (b : L) (g : Val) (rest : List L), b ∈ l → group.Has [b] g → Named (y.label.eraseIdx ax) rest →
        (¬ SameGroup g g → z.Has (rest.insertIdx ax b) (.flt .nan)) ∧
        (SameGroup g g → b ∈ groupLabels group l g ∧ ∃ part, y.morph (groupLabels group l g) axis = .ok part ∧
          part.PartOf y (y.label.set ax (groupLabels group l g)) ∧
          ∃ (vs : List Val) (k : Nat) (v : Val), part.LineAt ax rest vs ∧ (groupLabels group l g)[k]? = some b ∧
            (f vs)[k]? = some v ∧ z.Has (rest.insertIdx ax b) v) := by
  obtain ⟨gl, hgl⟩ : ∃ gl, group.label[0]? = some gl := by
    have := h.groups.label_length
    exact ⟨_, List.getElem?_eq_getElem (by have := h.one; omega)⟩
  obtain ⟨z, gs, e, hd, hgs, hal⟩ := groupBy_spec h.sorts hf (R := fun ms k v => (f ms)[k]? = some v)
    (fun ms k x v _ hv => hv) h.valid h.groups h.one h.number h.axis h.labels hgl (h.known gl hgl)
  refine ⟨z, e, hal.valid, hd, hal.label_eq, fun b g rest hb hg hr => ?_⟩
  obtain ⟨i, hi⟩ := List.mem_iff_getElem?.mp hb
  have hil := (List.getElem?_eq_some_iff.mp hi).1
  obtain ⟨gv, hgv⟩ : ∃ gv, gs[i]? = some gv := ⟨gs[i]'(by rw [hgs.1]; exact hil), List.getElem?_eq_getElem _⟩
  have : gv = g := Holds_unique h.groups.nodup (hgs.2 i b gv hi hgv) hg
  subst this
  obtain ⟨vs, hline⟩ := lineAt_exists h.valid h.labels hr
  have hlen : vs.length = l.length := by
    obtain ⟨l', hl', h1, -⟩ := hline
    rw [h.labels] at hl'; cases hl'; exact h1
  obtain ⟨v, hz⟩ := Holds_of_Named (x := z.x) (label := z.label) (names := rest.insertIdx ax b)
    (by rw [hal.label_eq]; exact named_insert h.labels hr hi)
  have hc := hal.cell rest vs l i b v hline h.labels hi hz gv hgv
  refine ⟨fun hs => by rw [← hc.1 hs]; exact hz, fun hs => ?_⟩
  have hmem : b ∈ groupLabels group l gv := mem_groupLabels.mpr ⟨hb, gv, hg, hs⟩
  obtain ⟨part, ep, hp⟩ := pick_run h.valid h.axis h.labels (lab := groupLabels group l gv)
    (p := .morph (groupLabels group l gv))
    ⟨rfl, (h.valid.nodup l (List.mem_of_getElem? h.labels)).sublist List.filter_sublist,
      fun c hc => (mem_groupLabels.mp hc).1, fun h0 => by rw [h0] at hmem; simp at hmem⟩
  obtain ⟨t, -, -, -, t4⟩ := group_places h.groups hgs hlen gv
  exact ⟨hmem, part, ep, hp, members vs gs gv, _, v, group_part_line h.groups h.labels hgs hp hline,
    t4 i b gv hi hgv hs, (hc.2 hs).2, hz⟩

theorem PartOf_ndim {y part : Larry L} (hv : y.Valid) {ax : Nat} {lab : List L}
    (hp : part.PartOf y (y.label.set ax lab)) : part.ndim = y.ndim := by
  have e1 := hp.valid.label_length
  have e2 := hv.label_length
  rw [hp.label_eq, List.length_set] at e1
  omega

theorem along_has {y : Larry L} (hv : y.Valid) {f : List Val → List Val} (hf : ∀ vs, (f vs).length = vs.length)
    (d : DType) {ax : Nat} {l : List L} (hl : y.label[ax]? = some l) {rest : List L} {vs : List Val}
    (hr : Named (y.label.eraseIdx ax) rest) (hline : y.LineAt ax rest vs) {k : Nat} {b : L} {v : Val}
    (hb : l[k]? = some b) (hk : (f vs)[k]? = some v) : (y.along f d ax).Has (rest.insertIdx ax b) v := by
  have hal : y.Along (y.along f d ax) ax (fun vs i v => (f vs)[i]? = some v) :=
    along_mapLines hv hl f d fun vs i hi => ⟨(f vs)[i]'(by rw [hf]; exact hi), List.getElem?_eq_getElem _,
      List.getElem?_eq_getElem _⟩
  obtain ⟨w, hw⟩ := Holds_of_Named (x := (y.along f d ax).x) (label := (y.along f d ax).label)
    (names := rest.insertIdx ax b) (by rw [hal.label_eq]; exact named_insert hl hr hb)
  have := hal.cell rest vs l k b w hline hl hb hw
  rw [hk] at this
  cases this
  exact hw

/-- C102. `group_ranking`: the label `b` of a group gets the rank it has in the larry that holds the labels of
the group only; a label in no group gets NaN. -/
theorem C102_ranking [LinearOrder L] {sort : List Val → List Val} {y group : Larry L} {axis : Int} {ax : Nat} {l : List L}
    (h : CanGroup sort y group axis ax l) :
    ∃ z, y.groupRanking sort group axis = .ok z ∧ z.Valid ∧ z.dtype = .float ∧ z.label = y.label ∧
      ∀ (b : L) (g : Val) (rest : List L), b ∈ l → group.Has [b] g → Named (y.label.eraseIdx ax) rest →
        (¬ SameGroup g g → z.Has (rest.insertIdx ax b) (.flt .nan)) ∧
        (SameGroup g g → ∃ part r v, y.morph (groupLabels group l g) axis = .ok part ∧
          part.ranking (some axis) .pm1 = .ok r ∧ r.Has (rest.insertIdx ax b) v ∧
          z.Has (rest.insertIdx ax b) v) := by
  obtain ⟨z, e, z1, z2, z3, hz⟩ := group_part (f := rankingLine .pm1) (by simp [rankingLine]) h
  refine ⟨z, e, z1, z2, z3, fun b g rest hb hg hr => ⟨(hz b g rest hb hg hr).1, fun hs => ?_⟩⟩
  obtain ⟨-, part, ep, hp, vs, k, v, h1, h2, h3, h4⟩ := (hz b g rest hb hg hr).2 hs
  have hnd := PartOf_ndim h.valid hp
  have haxlt := (List.getElem?_eq_some_iff.mp h.labels).1
  refine ⟨part, part.along (rankingLine .pm1) .float ax, v, ep, ?_, ?_, h4⟩
  · simp only [Larry.ranking, hp.dtype_eq, h.isNumeric, hnd, h.axis]
    simp
  · refine along_has hp.valid (by simp [rankingLine]) .float (l := groupLabels group l g) ?_ ?_ h1 h2 h3
    · rw [hp.label_eq, List.getElem?_set_self haxlt]
    · rw [hp.label_eq, List.eraseIdx_set_eq]; exact hr

/-- A group method that gives every member of a group the same number `r.f` of the elements of the group. -/
theorem group_reduce [LinearOrder L] (r : Red) {f : List Val → List Val} (hf : ∀ vs, f vs = vs.map (fun _ => r.f vs))
    {sort : List Val → List Val} {y group : Larry L} {axis : Int} {ax : Nat} {l : List L}
    (h : CanGroup sort y group axis ax l) {d : DType} (hd : r.dt y.dtype = .ok d) (hsz : y.shape.prod ≠ 0) :
    ∃ z, y.groupBy sort f group axis = .ok z ∧ z.Valid ∧ z.dtype = .float ∧ z.label = y.label ∧
      ∀ (b : L) (g : Val) (rest : List L), b ∈ l → group.Has [b] g → Named (y.label.eraseIdx ax) rest →
        (¬ SameGroup g g → z.Has (rest.insertIdx ax b) (.flt .nan)) ∧
        (SameGroup g g → ∃ part, y.morph (groupLabels group l g) axis = .ok part ∧
          (2 ≤ y.ndim → ∃ s v, part.reduce r (some axis) = .ok (.larry s) ∧ s.Has rest v ∧
            z.Has (rest.insertIdx ax b) v) ∧
          (y.ndim = 1 → ∃ v, part.reduce r (some axis) = .ok (.scalar v) ∧ z.Has [b] v)) := by
  obtain ⟨z, e, z1, z2, z3, hz⟩ := group_part (f := f) (by simp [hf]) h
  refine ⟨z, e, z1, z2, z3, fun b g rest hb hg hr => ⟨(hz b g rest hb hg hr).1, fun hs => ?_⟩⟩
  obtain ⟨hmem, part, ep, hp, vs, k, v, h1, h2, h3, h4⟩ := (hz b g rest hb hg hr).2 hs
  have hnd := PartOf_ndim h.valid hp
  have haxlt := (List.getElem?_eq_some_iff.mp h.labels).1
  have hsz' := PartOf_size h.valid hp (List.ne_nil_of_mem hmem) hsz
  rw [hf, List.getElem?_map, Option.map_eq_some_iff] at h3
  obtain ⟨w, -, rfl⟩ := h3
  refine ⟨part, ep, fun h2 => ?_, fun h1d => ?_⟩
  · obtain ⟨s, es, -, -, hsl, hsc⟩ := C42_reduce_axis r hp.valid (by rw [hp.dtype_eq]; exact hd) hsz'
      (by rw [hnd]; exact h.axis) (by rw [hnd]; exact h2)
    refine ⟨s, _, es, (hsc rest _).mpr ⟨?_, _, h1, rfl⟩, h4⟩
    rw [hsl, hp.label_eq, List.eraseIdx_set_eq]
    exact hr
  · have hax0 : ax = 0 := by have := h.valid.label_length; omega
    subst hax0
    have hrest : rest = [] := by
      have := (Named_iff.mp hr).1
      rw [List.length_eraseIdx_of_lt haxlt, h.valid.label_length, h1d] at this
      exact List.length_eq_zero_iff.mp this
    subst hrest
    obtain ⟨ws, hws, es⟩ := C42_reduce_1d r hp.valid (by rw [hp.dtype_eq]; exact hd) hsz' (by rw [hnd]; exact h1d)
      (axis := axis) (by
        have := h.axis
        rw [h1d] at this
        simp only [pyIdx] at this
        split_ifs at this <;> omega)
    rw [Larry.LineAt.unique hp.valid hws h1] at es
    exact ⟨_, es, h4⟩

theorem CanGroup.stat [LinearOrder L] {sort : List Val → List Val} {y group : Larry L} {axis : Int} {ax : Nat}
    {l : List L} (h : CanGroup sort y group axis ax l) : ∃ d, statDType y.dtype = .ok d := by
  have := h.number
  cases hd : y.dtype <;> simp_all [statDType]

/-- C102. `group_mean`: every label of a group gets the mean of the larry that holds the labels of the group only; a
label in no group gets NaN. -/
theorem C102_mean [LinearOrder L] {sort : List Val → List Val} {y group : Larry L} {axis : Int} {ax : Nat} {l : List L}
    (h : CanGroup sort y group axis ax l) (hsz : y.shape.prod ≠ 0) :
    ∃ z, y.groupMean sort group axis = .ok z ∧ z.Valid ∧ z.dtype = .float ∧ z.label = y.label ∧
      ∀ (b : L) (g : Val) (rest : List L), b ∈ l → group.Has [b] g → Named (y.label.eraseIdx ax) rest →
        (¬ SameGroup g g → z.Has (rest.insertIdx ax b) (.flt .nan)) ∧
        (SameGroup g g → ∃ part, y.morph (groupLabels group l g) axis = .ok part ∧
          (2 ≤ y.ndim → ∃ s v, part.mean (some axis) = .ok (.larry s) ∧ s.Has rest v ∧
            z.Has (rest.insertIdx ax b) v) ∧
          (y.ndim = 1 → ∃ v, part.mean (some axis) = .ok (.scalar v) ∧ z.Has [b] v)) := by
  obtain ⟨d, hd⟩ := h.stat
  exact group_reduce bnNanmean (f := groupMeanLine) (fun _ => rfl) h hd hsz

/-- C102. `group_median`, with the median that `y.median` takes. -/
theorem C102_median [LinearOrder L] {sort : List Val → List Val} {y group : Larry L} {axis : Int} {ax : Nat} {l : List L}
    (h : CanGroup sort y group axis ax l) (hsz : y.shape.prod ≠ 0) :
    ∃ z, y.groupMedian sort medianOf group axis = .ok z ∧ z.Valid ∧ z.dtype = .float ∧ z.label = y.label ∧
      ∀ (b : L) (g : Val) (rest : List L), b ∈ l → group.Has [b] g → Named (y.label.eraseIdx ax) rest →
        (¬ SameGroup g g → z.Has (rest.insertIdx ax b) (.flt .nan)) ∧
        (SameGroup g g → ∃ part, y.morph (groupLabels group l g) axis = .ok part ∧
          (2 ≤ y.ndim → ∃ s v, part.median (some axis) = .ok (.larry s) ∧ s.Has rest v ∧
            z.Has (rest.insertIdx ax b) v) ∧
          (y.ndim = 1 → ∃ v, part.median (some axis) = .ok (.scalar v) ∧ z.Has [b] v)) := by
  obtain ⟨d, hd⟩ := h.stat
  exact group_reduce bnNanmedian (f := groupMedianLine medianOf) (fun _ => rfl) h hd hsz

/-- The three group methods. -/
inductive GroupMethod
  | ranking | mean | median

def GroupMethod.run [LinearOrder L] (sort : List Val → List Val) (y group : Larry L) (axis : Int) : GroupMethod → Res (Larry L)
  | .ranking => y.groupRanking sort group axis
  | .mean => y.groupMean sort group axis
  | .median => y.groupMedian sort medianOf group axis

/-- What the methods do to the elements of one group. -/
def GroupMethod.line : GroupMethod → List Val → List Val
  | .ranking => rankingLine .pm1
  | .mean => groupMeanLine
  | .median => groupMedianLine medianOf

theorem GroupMethod.line_length (m : GroupMethod) (vs : List Val) : (m.line vs).length = vs.length := by
  cases m <;> simp [GroupMethod.line, rankingLine, groupMeanLine, groupMedianLine]

theorem GroupMethod.run_eq [LinearOrder L] (sort : List Val → List Val) (y group : Larry L) (axis : Int)
    (m : GroupMethod) : m.run sort y group axis = y.groupBy sort m.line group axis := by cases m <;> rfl

theorem same_of_has {y z : Larry L} (hy : y.Valid) (hz : z.Valid) (hd : y.dtype = z.dtype) (hl : y.label = z.label)
    (h : ∀ names, Named y.label names → ∃ v, y.Has names v ∧ z.Has names v) : y.Same z := by
  have hsh : y.x.shape = z.x.shape := by rw [hy.shape_eq, hz.shape_eq, hl]
  refine ⟨hl, hd, hsh, fun idx hin => ?_⟩
  rw [hy.shape_eq] at hin
  obtain ⟨names, hat⟩ := At_of_inB hin
  obtain ⟨v, h1, h2⟩ := h names (Named_of_At hat)
  obtain ⟨i, hi, rfl⟩ := h1
  obtain ⟨j, hj, e⟩ := h2
  rw [At_unique hy.nodup hat hi, ← e]
  rw [← hl] at hj
  rw [At_unique hy.nodup hi hj]

/-- The labels `b` and `c` are in the same group. -/
def Grouped (group : Larry L) (b c : L) : Prop := ∃ g, group.Has [b] g ∧ InGroup group g c

theorem groupLabels_congr {group : Larry L} {l : List L} {g g' : Val} (h : SameGroup g g') :
    groupLabels group l g = groupLabels group l g' := by
  classical
  unfold groupLabels
  refine List.filter_congr fun c _ => ?_
  simp only [decide_eq_decide]
  exact ⟨fun ⟨gv, h1, h2⟩ => ⟨gv, h1, sameGroup_trans h2 h⟩,
    fun ⟨gv, h1, h2⟩ => ⟨gv, h1, sameGroup_trans h2 (sameGroup_symm h)⟩⟩

theorem CanGroup.has [LinearOrder L] {sort : List Val → List Val} {y group : Larry L} {axis : Int} {ax : Nat}
    {l : List L} (h : CanGroup sort y group axis ax l) {b : L} (hb : b ∈ l) : ∃ g, group.Has [b] g := by
  obtain ⟨gl, hgl⟩ : ∃ gl, group.label[0]? = some gl := by
    have := h.groups.label_length
    exact ⟨_, List.getElem?_eq_getElem (by have := h.one; omega)⟩
  have hlab : group.label = [gl] := by
    have := h.groups.label_length
    rw [h.one] at this
    match hg : group.label, this with
    | [a], _ => rw [hg] at hgl; simpa using hgl
  obtain ⟨i, hi⟩ := List.mem_iff_getElem?.mp (h.known gl hgl b hb)
  exact Holds_of_Named (by rw [hlab]; exact Named_of_At (idx := [i]) ⟨hi, trivial⟩)

/-- C102. The names of the groups do not matter, nor their dtype, nor the order in which the groups are
treated: two larrys that put the same labels together give the same result. -/
theorem C102_names [LinearOrder L] (m : GroupMethod) {sort sort' : List Val → List Val} {y group group' : Larry L}
    {axis : Int} {ax : Nat} {l : List L} (h : CanGroup sort y group axis ax l) (h' : CanGroup sort' y group' axis ax l)
    (hsame : ∀ b ∈ l, ∀ c ∈ l, Grouped group b c ↔ Grouped group' b c) :
    ∃ z z', m.run sort y group axis = .ok z ∧ m.run sort' y group' axis = .ok z' ∧ z.Same z' := by
  obtain ⟨z, e, z1, z2, z3, hz⟩ := group_part m.line_length h
  obtain ⟨z', e', z1', z2', z3', hz'⟩ := group_part m.line_length h'
  refine ⟨z, z', by rw [m.run_eq, e], by rw [m.run_eq, e'], same_of_has z1 z1' (by rw [z2, z2']) (by rw [z3, z3']) ?_⟩
  intro names hn
  rw [z3] at hn
  obtain ⟨i, b, rest, hi, hr, rfl⟩ := named_split h.labels hn
  have hb := List.mem_of_getElem? hi
  obtain ⟨g, hg⟩ := h.has hb
  obtain ⟨g', hg'⟩ := h'.has hb
  have hgr : ∀ c ∈ l, InGroup group g c ↔ InGroup group' g' c := by
    intro c hc
    have := hsame b hb c hc
    constructor
    · intro hin
      obtain ⟨g1, h1, h2⟩ := this.mp ⟨g, hg, hin⟩
      rw [Holds_unique h'.groups.nodup hg' h1]; exact h2
    · intro hin
      obtain ⟨g1, h1, h2⟩ := this.mpr ⟨g', hg', hin⟩
      rw [Holds_unique h.groups.nodup hg h1]; exact h2
  have hself : ∀ {G : Larry L} {g : Val} (_ : G.Valid) (_ : G.Has [b] g), InGroup G g b ↔ SameGroup g g :=
    fun hG hb' => ⟨fun ⟨gv, q1, q2⟩ => by rwa [Holds_unique hG.nodup hb' q1] at q2 ⊢, fun q => ⟨_, hb', q⟩⟩
  have hsg : SameGroup g g ↔ SameGroup g' g' :=
    (hself h.groups hg).symm.trans ((hgr b hb).trans (hself h'.groups hg'))
  have hlab : groupLabels group l g = groupLabels group' l g' := by
    classical
    unfold groupLabels
    exact List.filter_congr fun c hc => by simp only [hgr c hc]
  by_cases hs : SameGroup g g
  · obtain ⟨-, part, ep, hp, vs, k, v, a1, a2, a3, a4⟩ := (hz b g rest hb hg hr).2 hs
    obtain ⟨-, part', ep', hp', vs', k', v', b1, b2, b3, b4⟩ := (hz' b g' rest hb hg' hr).2 (hsg.mp hs)
    rw [← hlab, ep] at ep'
    cases ep'
    cases Larry.LineAt.unique hp.valid a1 b1
    have hnd : (groupLabels group l g).Nodup :=
      (h.valid.nodup l (List.mem_of_getElem? h.labels)).sublist List.filter_sublist
    rw [← hlab] at b2
    have hk : k = k' := by
      obtain ⟨q1, q2⟩ := List.getElem?_eq_some_iff.mp a2
      obtain ⟨q3, q4⟩ := List.getElem?_eq_some_iff.mp b2
      exact (List.Nodup.getElem_inj_iff hnd).mp (q2.trans q4.symm)
    subst hk
    rw [a3] at b3
    cases b3
    exact ⟨v, a4, b4⟩
  · exact ⟨_, (hz b g rest hb hg hr).1 hs, (hz' b g' rest hb hg' hr).1 (fun q => hs (hsg.mpr q))⟩

/-- C102. One group for all the labels: `group_ranking` is `ranking`. -/
theorem C102_one_ranking [LinearOrder L] {sort : List Val → List Val} {y group : Larry L}
    {axis : Int} {ax : Nat} {l : List L} (h : CanGroup sort y group axis ax l)
    (hone : ∀ b ∈ l, ∀ c ∈ l, Grouped group b c) :
    ∃ z r, y.groupRanking sort group axis = .ok z ∧ y.ranking (some axis) .pm1 = .ok r ∧ z.Same r := by
  obtain ⟨z, e, z1, z2, z3, hz⟩ := group_part (f := rankingLine .pm1) (by simp [rankingLine]) h
  refine ⟨z, y.along (rankingLine .pm1) .float ax, e, ?_, same_of_has z1 ⟨h.valid.shape_eq, h.valid.nodup, h.valid.ndim_pos⟩
    z2 z3 ?_⟩
  · simp only [Larry.ranking, h.isNumeric, h.axis]; simp
  intro names hn
  rw [z3] at hn
  obtain ⟨i, b, rest, hi, hr, rfl⟩ := named_split h.labels hn
  have hb := List.mem_of_getElem? hi
  obtain ⟨g, hg⟩ := h.has hb
  have hall : ∀ c ∈ l, InGroup group g c := fun c hc => by
    obtain ⟨g1, q1, q2⟩ := hone b hb c hc
    rw [Holds_unique h.groups.nodup hg q1]; exact q2
  have hs : SameGroup g g := by
    obtain ⟨gv, q1, q2⟩ := hall b hb
    rwa [← Holds_unique h.groups.nodup hg q1] at q2
  have hlab : groupLabels group l g = l := by
    classical
    unfold groupLabels
    exact List.filter_eq_self.mpr fun c hc => by simpa using hall c hc
  obtain ⟨-, part, -, hp, vs, k, v, a1, a2, a3, a4⟩ := (hz b g rest hb hg hr).2 hs
  rw [hlab] at hp a2
  have haxlt := (List.getElem?_eq_some_iff.mp h.labels).1
  have hline : y.LineAt ax rest vs := by
    obtain ⟨l', q1, q2, q3⟩ := a1
    rw [hp.label_eq, List.getElem?_set_self haxlt] at q1
    cases q1
    exact ⟨l, h.labels, q2, fun j c w hc hw => ((hp.has _ _).mp (q3 j c w hc hw)).2⟩
  exact ⟨v, a4, along_has h.valid (by simp [rankingLine]) .float h.labels hr hline a2 a3⟩

/-- C102. One group for all the labels: `group_mean` and `group_median` repeat the mean and the median. -/
theorem group_one [LinearOrder L] (r : Red) {f : List Val → List Val} (hf : ∀ vs, f vs = vs.map (fun _ => r.f vs))
    {sort : List Val → List Val} {y group : Larry L} {axis : Int} {ax : Nat} {l : List L}
    (h : CanGroup sort y group axis ax l) {d : DType} (hd : r.dt y.dtype = .ok d) (hsz : y.shape.prod ≠ 0)
    (hone : ∀ b ∈ l, ∀ c ∈ l, Grouped group b c) :
    ∃ z, y.groupBy sort f group axis = .ok z ∧ z.Valid ∧ z.dtype = .float ∧ z.label = y.label ∧
      (2 ≤ y.ndim → ∃ s, y.reduce r (some axis) = .ok (.larry s) ∧
        ∀ rest v, s.Has rest v → ∀ b ∈ l, z.Has (rest.insertIdx ax b) v) ∧
      (y.ndim = 1 → ∃ v, y.reduce r (some axis) = .ok (.scalar v) ∧ ∀ b ∈ l, z.Has [b] v) := by
  obtain ⟨z, e, z1, z2, z3, hz⟩ := group_part (f := f) (by simp [hf]) h
  have haxlt := (List.getElem?_eq_some_iff.mp h.labels).1
  have cell : ∀ (rest : List L) (vs : List Val) (b : L), b ∈ l → Named (y.label.eraseIdx ax) rest →
      y.LineAt ax rest vs → z.Has (rest.insertIdx ax b) (r.f vs) := by
    intro rest vs b hb hr hline
    obtain ⟨g, hg⟩ := h.has hb
    have hall : ∀ c ∈ l, InGroup group g c := fun c hc => by
      obtain ⟨g1, q1, q2⟩ := hone b hb c hc
      rw [Holds_unique h.groups.nodup hg q1]; exact q2
    have hs : SameGroup g g := by
      obtain ⟨gv, q1, q2⟩ := hall b hb
      rwa [← Holds_unique h.groups.nodup hg q1] at q2
    have hlab : groupLabels group l g = l := by
      classical
      unfold groupLabels
      exact List.filter_eq_self.mpr fun c hc => by simpa using hall c hc
    obtain ⟨-, part, -, hp, ws, k, v, a1, a2, a3, a4⟩ := (hz b g rest hb hg hr).2 hs
    rw [hlab] at hp
    have hline' : y.LineAt ax rest ws := by
      obtain ⟨l', q1, q2, q3⟩ := a1
      rw [hp.label_eq, List.getElem?_set_self haxlt] at q1
      cases q1
      exact ⟨l, h.labels, q2, fun j c w hc hw => ((hp.has _ _).mp (q3 j c w hc hw)).2⟩
    cases Larry.LineAt.unique h.valid hline hline'
    rw [hf, List.getElem?_map, Option.map_eq_some_iff] at a3
    obtain ⟨w, -, rfl⟩ := a3
    exact a4
  refine ⟨z, e, z1, z2, z3, fun h2 => ?_, fun h1 => ?_⟩
  · obtain ⟨s, es, -, -, hsl, hsc⟩ := C42_reduce_axis r h.valid hd hsz h.axis h2
    refine ⟨s, es, fun rest v hv b hb => ?_⟩
    obtain ⟨hn, vs, hline, rfl⟩ := (hsc rest v).mp hv
    exact cell rest vs b hb (by rw [← hsl]; exact hn) hline
  · have hax0 : ax = 0 := by have := h.valid.label_length; omega
    subst hax0
    obtain ⟨ws, hws, es⟩ := C42_reduce_1d r h.valid hd hsz h1 (axis := axis) (by
        have := h.axis
        rw [h1] at this
        simp only [pyIdx] at this
        split_ifs at this <;> omega)
    refine ⟨_, es, fun b hb => cell [] ws b hb ?_ hws⟩
    have : (y.label.eraseIdx 0).length = 0 := by
      rw [List.length_eraseIdx_of_lt haxlt, h.valid.label_length, h1]
    rw [List.length_eq_zero_iff.mp this]
    exact Named_of_At (idx := []) trivial

/-- C102. One group for all the labels: `group_mean` repeats the mean along the axis. -/
theorem C102_one_mean [LinearOrder L] {sort : List Val → List Val} {y group : Larry L} {axis : Int} {ax : Nat}
    {l : List L} (h : CanGroup sort y group axis ax l) (hsz : y.shape.prod ≠ 0)
    (hone : ∀ b ∈ l, ∀ c ∈ l, Grouped group b c) :
    ∃ z, y.groupMean sort group axis = .ok z ∧ z.Valid ∧ z.dtype = .float ∧ z.label = y.label ∧
      (2 ≤ y.ndim → ∃ s, y.mean (some axis) = .ok (.larry s) ∧
        ∀ rest v, s.Has rest v → ∀ b ∈ l, z.Has (rest.insertIdx ax b) v) ∧
      (y.ndim = 1 → ∃ v, y.mean (some axis) = .ok (.scalar v) ∧ ∀ b ∈ l, z.Has [b] v) := by
  obtain ⟨d, hd⟩ := h.stat
  exact group_one bnNanmean (f := groupMeanLine) (fun _ => rfl) h hd hsz hone

/-- C102. One group for all the labels: `group_median` repeats the median along the axis. -/
theorem C102_one_median [LinearOrder L] {sort : List Val → List Val} {y group : Larry L} {axis : Int} {ax : Nat}
    {l : List L} (h : CanGroup sort y group axis ax l) (hsz : y.shape.prod ≠ 0)
    (hone : ∀ b ∈ l, ∀ c ∈ l, Grouped group b c) :
    ∃ z, y.groupMedian sort medianOf group axis = .ok z ∧ z.Valid ∧ z.dtype = .float ∧ z.label = y.label ∧
      (2 ≤ y.ndim → ∃ s, y.median (some axis) = .ok (.larry s) ∧
        ∀ rest v, s.Has rest v → ∀ b ∈ l, z.Has (rest.insertIdx ax b) v) ∧
      (y.ndim = 1 → ∃ v, y.median (some axis) = .ok (.scalar v) ∧ ∀ b ∈ l, z.Has [b] v) := by
  obtain ⟨d, hd⟩ := h.stat
  exact group_one bnNanmedian (f := groupMedianLine medianOf) (fun _ => rfl) h hd hsz hone

theorem meanIs_const {fs : List Flt} {m x : Flt} (hne : fs ≠ []) (hc : ∀ f ∈ fs, f = m) (h : MeanIs fs x) : x = m := by
  obtain ⟨f0, hf0⟩ := List.exists_mem_of_ne_nil fs hne
  cases h with
  | none h => rw [← hc f0 hf0, h f0 hf0]
  | finite qs hq e =>
    have hq' : ∀ q ∈ qs, Flt.fin q = m := fun q hq => by
      have : Flt.fin q ∈ fs.filter (· ≠ .nan) := by rw [e]; exact List.mem_map_of_mem hq
      exact hc _ (List.mem_of_mem_filter this)
    obtain ⟨q0, hq0⟩ := List.exists_mem_of_ne_nil qs hq
    have e0 := hq' q0 hq0
    subst e0
    have hall : ∀ q ∈ qs, q = q0 := fun q hq => by simpa using hq' q hq
    have hsum : qs.sum = qs.length * q0 := by
      rw [List.eq_replicate_iff.mpr ⟨rfl, hall⟩]; simp
    have hl : ((qs.length : Nat) : ℚ) ≠ 0 := by simpa using hq
    rw [hsum]
    congr 1
    field_simp
  | plus h _ => exact hc _ h
  | minus h _ => exact hc _ h
  | both h h' => exact absurd ((hc _ h).trans (hc _ h').symm) (by simp)

theorem medianIs_const {fs : List Flt} {m x : Flt} (hne : fs ≠ []) (hc : ∀ f ∈ fs, f = m) (h : MedianIs fs x) :
    x = m := by
  obtain ⟨f0, hf0⟩ := List.exists_mem_of_ne_nil fs hne
  rcases h with ⟨h, rfl⟩ | ⟨s, hp, -, h⟩
  · rw [← hc f0 hf0, h f0 hf0]
  · have hs : ∀ f ∈ s, f = m ∧ f ≠ .nan := fun f hf => by
      have := hp.mem_iff.mp hf
      rw [List.mem_filter] at this
      exact ⟨hc f this.1, by simpa using this.2⟩
    rcases h with ⟨k, -, hk⟩ | ⟨k, a, b, -, ha, hb, hh⟩
    · exact (hs _ (List.mem_of_getElem? hk)).1
    · obtain ⟨a1, a2⟩ := hs a (List.mem_of_getElem? ha)
      obtain ⟨b1, -⟩ := hs b (List.mem_of_getElem? hb)
      subst b1
      subst a1
      cases hh with
      | finite => congr 1; ring
      | low => rfl
      | high => rfl

theorem GroupMethod.line_twice (m : GroupMethod) (vs : List Val) : m.line (m.line vs) = m.line vs := by
  have key : ∀ (c : List Flt → Flt), (∀ fs m, fs ≠ [] → (∀ f ∈ fs, f = m) → c fs = m) →
      (vs.map (fun _ => Val.flt (c (vs.map Val.num)))).map
        (fun _ => Val.flt (c ((vs.map (fun _ => Val.flt (c (vs.map Val.num)))).map Val.num))) =
      vs.map (fun _ => Val.flt (c (vs.map Val.num))) := by
    intro c hc
    rw [List.map_map]
    refine List.map_congr_left fun v hv => ?_
    simp only [Function.comp]
    rw [hc _ (c (vs.map Val.num)) (by simp; exact List.ne_nil_of_mem hv) (by simp [Val.num])]
  cases m with
  | ranking => exact rankingLine_twice keepsOrder_pm1 vs
  | mean => exact key nanmean fun fs m h1 h2 => meanIs_const h1 h2 (mean_is fs)
  | median => exact key medianOf fun fs m h1 h2 => medianIs_const h1 h2 (median_is fs)

/-- C102. A second time with the same groups changes nothing. -/
theorem C102_twice [LinearOrder L] (m : GroupMethod) {sort : List Val → List Val} {y group : Larry L}
    {axis : Int} {ax : Nat} {l : List L} (h : CanGroup sort y group axis ax l) :
    ∃ z w, m.run sort y group axis = .ok z ∧ m.run sort z group axis = .ok w ∧ w.Same z := by
  obtain ⟨z, e, z1, z2, z3, hz⟩ := group_part m.line_length h
  have hnd : z.ndim = y.ndim := by
    have e1 := z1.label_length
    have e2 := h.valid.label_length
    rw [z3] at e1
    omega
  have h' : CanGroup sort z group axis ax l :=
    ⟨h.sorts, z1, h.groups, h.one, by rw [z2]; decide, by rw [hnd]; exact h.axis, by rw [z3]; exact h.labels, h.known⟩
  obtain ⟨w, e', w1, w2, w3, hw⟩ := group_part m.line_length h'
  refine ⟨z, w, by rw [m.run_eq, e], by rw [m.run_eq, e'], same_of_has w1 z1 (by rw [w2, z2]) w3 ?_⟩
  intro names hn
  rw [w3, z3] at hn
  obtain ⟨i, b, rest, hi, hr, rfl⟩ := named_split h.labels hn
  have hb := List.mem_of_getElem? hi
  obtain ⟨g, hg⟩ := h.has hb
  have hr' : Named (z.label.eraseIdx ax) rest := by rw [z3]; exact hr
  by_cases hs : SameGroup g g
  · obtain ⟨hmem, part, ep, hp, vs, k, v, a1, a2, a3, a4⟩ := (hz b g rest hb hg hr).2 hs
    obtain ⟨-, part', ep', hp', vs', k', v', b1, b2, b3, b4⟩ := (hw b g rest hb hg hr').2 hs
    have hnd : (groupLabels group l g).Nodup :=
      (h.valid.nodup l (List.mem_of_getElem? h.labels)).sublist List.filter_sublist
    have haxlt := (List.getElem?_eq_some_iff.mp h.labels).1
    have inj : ∀ {k k' : Nat} {c : L}, (groupLabels group l g)[k]? = some c → (groupLabels group l g)[k']? = some c →
        k = k' := fun q q' => by
      obtain ⟨q1, q2⟩ := List.getElem?_eq_some_iff.mp q
      obtain ⟨q3, q4⟩ := List.getElem?_eq_some_iff.mp q'
      exact (List.Nodup.getElem_inj_iff hnd).mp (q2.trans q4.symm)
    have hlen : vs.length = (groupLabels group l g).length := by
      obtain ⟨l', q1, q2, -⟩ := a1
      rw [hp.label_eq, List.getElem?_set_self haxlt] at q1
      cases q1
      exact q2
    have hline : part'.LineAt ax rest (m.line vs) := by
      refine ⟨groupLabels group l g, ?_, by rw [m.line_length, hlen], fun j c x hc hx => ?_⟩
      · rw [hp'.label_eq, List.getElem?_set_self (by rw [z3]; exact haxlt)]
      · obtain ⟨hcl, gc, hgc, hsc⟩ := mem_groupLabels.mp (List.mem_of_getElem? hc)
        have hlc : groupLabels group l gc = groupLabels group l g := groupLabels_congr hsc
        obtain ⟨-, pc, epc, hpc, vc, kc, xc, c1, c2, c3, c4⟩ :=
          (hz c gc rest hcl hgc hr).2 (sameGroup_trans hsc (sameGroup_symm hsc))
        rw [hlc, ep] at epc
        cases epc
        cases Larry.LineAt.unique hp.valid a1 c1
        rw [hlc] at c2
        cases inj hc c2
        rw [hx] at c3
        cases c3
        refine (hp'.has _ _).mpr ⟨?_, c4⟩
        rw [z3]
        obtain ⟨l', q1, -, q3⟩ := a1
        rw [hp.label_eq, List.getElem?_set_self haxlt] at q1
        cases q1
        exact ((hp.has _ _).mp (q3 j c (vs[j]'(by
          rw [hlen]; exact (List.getElem?_eq_some_iff.mp hc).1)) hc (List.getElem?_eq_getElem _))).1
    cases Larry.LineAt.unique hp'.valid b1 hline
    cases inj a2 b2
    rw [m.line_twice, a3] at b3
    cases b3
    exact ⟨v, b4, a4⟩
  · exact ⟨_, (hw b g rest hb hg hr').1 hs, (hz b g rest hb hg hr).1 hs⟩

/-- What the methods make of an element that is alone in its group. -/
def GroupMethod.alone (v : Val) : GroupMethod → Flt
  | .ranking => if v.num = .nan then .nan else .fin 0
  | .mean => v.num
  | .median => v.num

theorem GroupMethod.line_alone (m : GroupMethod) (v : Val) : m.line [v] = [.flt (m.alone v)] := by
  cases m with
  | mean =>
    have hmean : nanmean [v.num] = v.num := meanIs_const (by simp) (by simp) (mean_is _)
    simp [GroupMethod.line, groupMeanLine, GroupMethod.alone, hmean]
  | median =>
    have hmed : medianOf [v.num] = v.num := medianIs_const (by simp) (by simp) (median_is _)
    simp [GroupMethod.line, groupMedianLine, GroupMethod.alone, hmed]
  | ranking =>
    simp only [GroupMethod.line, rankingLine, GroupMethod.alone]
    cases hn : v.num <;>
      simp [Flt.isNan, nanrank, RankNorm.middle, RankNorm.scale, Flt.sub, Flt.div, Flt.mul, Flt.add, hn]

/-- C102. Every label in a group of its own: `group_mean` and `group_median` give back the elements as floats,
`group_ranking` gives zero for a number and NaN for NaN. -/
theorem C102_own [LinearOrder L] {sort : List Val → List Val} {y group : Larry L}
    {axis : Int} {ax : Nat} {l : List L} (h : CanGroup sort y group axis ax l)
    (hself : ∀ b ∈ l, Grouped group b b) (hown : ∀ b ∈ l, ∀ c ∈ l, Grouped group b c → c = b) (m : GroupMethod) :
    ∃ z, m.run sort y group axis = .ok z ∧ z.Valid ∧ z.dtype = .float ∧ z.label = y.label ∧
      ∀ names v, y.Has names v → z.Has names (.flt (m.alone v)) := by
  obtain ⟨z, e, z1, z2, z3, hz⟩ := group_part m.line_length h
  refine ⟨z, by rw [m.run_eq, e], z1, z2, z3, fun names v hv => ?_⟩
  obtain ⟨i, b, rest, hi, hr, rfl⟩ := named_split h.labels (Named_of_Holds hv)
  have hb := List.mem_of_getElem? hi
  obtain ⟨g, hg⟩ := h.has hb
  have hs : SameGroup g g := by
    obtain ⟨g1, q1, gv, q2, q3⟩ := hself b hb
    rw [Holds_unique h.groups.nodup hg q1]
    rwa [Holds_unique h.groups.nodup q2 q1] at q3
  have haxlt := (List.getElem?_eq_some_iff.mp h.labels).1
  obtain ⟨hmem, part, ep, hp, vs, k, x, a1, a2, a3, a4⟩ := (hz b g rest hb hg hr).2 hs
  have hnd : (groupLabels group l g).Nodup :=
    (h.valid.nodup l (List.mem_of_getElem? h.labels)).sublist List.filter_sublist
  have hlab : groupLabels group l g = [b] := by
    have hall : ∀ c ∈ groupLabels group l g, c = b := fun c hc => by
      obtain ⟨hcl, hin⟩ := mem_groupLabels.mp hc
      exact hown b hb c hcl ⟨g, hg, hin⟩
    match hgl : groupLabels group l g, hmem with
    | [c], _ => rw [hall c (by rw [hgl]; simp)]
    | c :: d :: t, _ =>
      rw [hgl] at hnd
      have e1 := hall c (by rw [hgl]; simp)
      have e2 := hall d (by rw [hgl]; simp)
      simp [e1, e2] at hnd
  obtain ⟨l', q1, q2, q3⟩ := a1
  rw [hp.label_eq, List.getElem?_set_self haxlt, hlab] at q1
  cases q1
  obtain ⟨w, rfl⟩ := List.length_eq_one_iff.mp (show vs.length = 1 from q2)
  have hw := ((hp.has _ _).mp (q3 0 b w rfl rfl)).2
  cases Holds_unique h.valid.nodup hv hw
  rw [hlab] at a2
  have hk : k = 0 := by
    have := (List.getElem?_eq_some_iff.mp a2).1
    simpa using this
  subst hk
  rw [m.line_alone] at a3
  cases a3
  exact a4

/-- The groups of `exG` under other names: 7 for 1 and 2, NaN for 3. -/
def exNumbered : Larry Nat :=
  ⟨⟨[3], fun idx => match idx with | [0] => .flt (.fin 7) | [1] => .flt (.fin 7) | _ => .flt .nan⟩, .float, [[1, 2, 3]]⟩

/-- Groups for the columns of `exA` from a function of the label. -/
def exGroups (f : Nat → Int) : Larry Nat :=
  ⟨⟨[3], fun idx => match idx with | [0] => .int (f 1) | [1] => .int (f 2) | _ => .int (f 3)⟩, .int, [[1, 2, 3]]⟩

theorem exGroups_has (f : Nat → Int) {b : Nat} {v : Val} : (exGroups f).Has [b] v ↔ b ∈ [1, 2, 3] ∧ v = .int (f b) := by
  constructor
  · rintro ⟨idx, hat, rfl⟩
    match idx, hat with
    | [0], ⟨h, _⟩ => simp at h; subst h; simp [exGroups]
    | [1], ⟨h, _⟩ => simp at h; subst h; simp [exGroups]
    | [2], ⟨h, _⟩ => simp at h; subst h; simp [exGroups]
    | [k + 3], ⟨h, _⟩ => simp at h
  · rintro ⟨hb, rfl⟩
    simp only [List.mem_cons, List.not_mem_nil, or_false] at hb
    rcases hb with rfl | rfl | rfl
    · exact ⟨[0], ⟨rfl, trivial⟩, rfl⟩
    · exact ⟨[1], ⟨rfl, trivial⟩, rfl⟩
    · exact ⟨[2], ⟨rfl, trivial⟩, rfl⟩

theorem sameGroup_int {i j : Int} : SameGroup (.int i) (.int j) ↔ i = j := by
  constructor
  · rintro (⟨x, -, h1, h2⟩ | ⟨s, h, -⟩ | ⟨k, h, -⟩)
    · have := h1.trans h2.symm
      simpa [Val.num] using this
    · cases h
    · cases h
  · rintro rfl
    exact .inl ⟨_, by simp [Val.num], rfl, rfl⟩

theorem exGroups_grouped (f : Nat → Int) {b c : Nat} (hb : b ∈ [1, 2, 3]) (hc : c ∈ [1, 2, 3]) :
    Grouped (exGroups f) b c ↔ f c = f b := by
  constructor
  · rintro ⟨g, h1, gv, h2, h3⟩
    rw [((exGroups_has f).mp h1).2, ((exGroups_has f).mp h2).2, sameGroup_int] at h3
    exact h3
  · intro h
    exact ⟨_, (exGroups_has f).mpr ⟨hb, rfl⟩, _, (exGroups_has f).mpr ⟨hc, rfl⟩, sameGroup_int.mpr h⟩

theorem exCanGroup {group : Larry Nat} (hg : group.Valid) (h1 : group.label = [[1, 2, 3]]) :
    CanGroup id exA group 1 1 [3, 1, 2] :=
  ⟨fun l => List.Perm.refl l, exA_valid, hg, by have := hg.label_length; rw [h1] at this; exact this.symm,
    by decide, rfl, rfl, fun gl hgl => by
      rw [h1] at hgl
      simp only [List.getElem?_cons_zero, Option.some.injEq] at hgl
      subst hgl
      decide⟩

/-- The hypotheses hold of `exA`, with a group of two and a label in no group; with the same groups under other names;
with one group for all; with every label in its own group. -/
example : CanGroup id exA exG 1 1 [3, 1, 2] ∧ exA.shape.prod ≠ 0 ∧ exG.Has [1] (.str "x") ∧
    SameGroup (.str "x") (.str "x") ∧ exG.Has [3] .none ∧ ¬ SameGroup .none .none ∧ Named (exA.label.eraseIdx 1) [20] ∧
    CanGroup id exA exNumbered 1 1 [3, 1, 2] ∧
    CanGroup id exA (exGroups fun _ => 5) 1 1 [3, 1, 2] ∧
    (∀ b ∈ [3, 1, 2], ∀ c ∈ [3, 1, 2], Grouped (exGroups fun _ => 5) b c) ∧
    CanGroup id exA (exGroups fun n => n) 1 1 [3, 1, 2] ∧
    (∀ b ∈ [3, 1, 2], Grouped (exGroups fun n => n) b b) ∧
    (∀ b ∈ [3, 1, 2], ∀ c ∈ [3, 1, 2], Grouped (exGroups fun n => n) b c → c = b) ∧
    (∀ b ∈ [3, 1, 2], ∀ c ∈ [3, 1, 2],
      Grouped (exGroups fun n => n) b c ↔ Grouped (exGroups fun n => 10 - 2 * n) b c) := by
  have hm : ∀ b ∈ [3, 1, 2], b ∈ [1, 2, 3] := by decide
  have hG : ∀ f, (exGroups f).Valid := fun f => ⟨rfl, by simp [exGroups], by simp [exGroups]⟩
  refine ⟨exCanGroup ⟨rfl, by simp [exG], by simp [exG]⟩ rfl, by decide, ⟨[0], ⟨rfl, trivial⟩, rfl⟩,
    .inr (.inl ⟨_, rfl, rfl⟩), ⟨[2], ⟨rfl, trivial⟩, rfl⟩, fun h => sameGroup_none h, ?_,
    exCanGroup ⟨rfl, by simp [exNumbered], by simp [exNumbered]⟩ rfl, exCanGroup (hG _) rfl, ?_,
    exCanGroup (hG _) rfl, ?_, ?_, ?_⟩
  · exact Named_of_At (idx := [1]) ⟨rfl, trivial⟩
  · intro b hb c hc
    exact (exGroups_grouped _ (hm b hb) (hm c hc)).mpr rfl
  · intro b hb
    exact (exGroups_grouped _ (hm b hb) (hm b hb)).mpr rfl
  · intro b hb c hc h
    have := (exGroups_grouped _ (hm b hb) (hm c hc)).mp h
    omega
  · intro b hb c hc
    rw [exGroups_grouped _ (hm b hb) (hm c hc), exGroups_grouped _ (hm b hb) (hm c hc)]
    omega

end La
