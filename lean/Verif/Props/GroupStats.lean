import Verif.Props.GroupParts
import Verif.Props.Growth
import Verif.Props.StatUnits
import Verif.Props.Gaps

/-!
C123: group means and medians lie among the values of the group, grow with them, are missing where the whole group is, and are zero
once they are subtracted.
-/

namespace La
open Larry
variable {L : Type _}

/-- `group_mean` and `group_median`. -/
inductive GroupCenter
  | mean | median

/-- The method. -/
def GroupCenter.run [LinearOrder L] (sort : List Val → List Val) (y group : Larry L) (axis : Int) : GroupCenter → Res (Larry L)
  | .mean => y.groupMean sort group axis
  | .median => y.groupMedian sort medianOf group axis

/-- The statistic it takes of each group. -/
def GroupCenter.statistic : GroupCenter → Statistic
  | .mean => .mean
  | .median => .median

/-- The centre of some floats. -/
def GroupCenter.of : GroupCenter → List Flt → Flt
  | .mean => nanmean
  | .median => medianOf

theorem GroupCenter.is (c : GroupCenter) (fs : List Flt) : c.statistic.Is fs (c.of fs) := by
  cases c
  · exact mean_is fs
  · exact median_is fs

theorem GroupCenter.moves (c : GroupCenter) : MovesAlong c.of := by
  cases c
  · exact nanmean_moves
  · exact fun a b ha xs => medianIs_unique (median_is _) (medianIs_units ha b (median_is xs))

theorem GroupCenter.all_nan (c : GroupCenter) {fs : List Flt} (h : ∀ f ∈ fs, f = .nan) : c.of fs = .nan := by
  cases c
  · exact meanIs_unique (mean_is fs) (.none h)
  · exact medianIs_unique (median_is fs) (.inl ⟨h, rfl⟩)

theorem GroupCenter.finite (c : GroupCenter) {fs : List Flt} (h : NoInf fs) : c.of fs = .nan ∨ ∃ q, c.of fs = .fin q := by
  have hg : List.Forall₂ GapF fs fs := by
    rw [List.forall₂_same]
    intro f hf
    obtain ⟨h1, h2⟩ := h f hf
    cases f <;> simp_all [GapF]
  have : GapF (c.of fs) (c.of fs) := by
    cases c
    · exact nanmean_gap hg
    · exact median_gap hg
  rcases this with ⟨p, q, e, -⟩ | ⟨e, -⟩
  · exact .inr ⟨p, e⟩
  · exact .inl e

/-- What a group method puts at one place. -/
theorem group_center [LinearOrder L] (c : GroupCenter) {sort : List Val → List Val} {y group : Larry L} {axis : Int} {ax : Nat} {l : List L}
    (h : CanGroup sort y group axis ax l) :
    ∃ z, c.run sort y group axis = .ok z ∧ z.Valid ∧ z.dtype = .float ∧ z.label = y.label ∧
      ∀ (b : L) (g : Val) (rest : List L), b ∈ l → group.Has [b] g → Named (y.label.eraseIdx ax) rest →
        (¬ SameGroup g g → z.Has (rest.insertIdx ax b) (.flt .nan)) ∧
        (SameGroup g g → b ∈ groupLabels group l g ∧ ∃ (part : Larry L) (vs : List Val), part.PartOf y (y.label.set ax (groupLabels group l g)) ∧
          part.LineAt ax rest vs ∧ z.Has (rest.insertIdx ax b) (.flt (c.of (vs.map Val.num)))) := by
  obtain ⟨f, hf, e⟩ : ∃ f : List Val → List Val, (∀ vs, f vs = vs.map fun _ => .flt (c.of (vs.map Val.num))) ∧
      c.run sort y group axis = y.groupBy sort f group axis := by
    cases c
    · exact ⟨groupMeanLine, fun _ => rfl, rfl⟩
    · exact ⟨groupMedianLine medianOf, fun _ => rfl, rfl⟩
  obtain ⟨z, e', z1, z2, z3, hz⟩ := group_part (f := f) (fun vs => by rw [hf]; simp) h
  refine ⟨z, e.trans e', z1, z2, z3, fun b g rest hb hg hr => ⟨(hz b g rest hb hg hr).1, fun hs => ?_⟩⟩
  obtain ⟨hm, part, -, hp, vs, k, v, h1, -, h3, h4⟩ := (hz b g rest hb hg hr).2 hs
  refine ⟨hm, part, vs, hp, h1, ?_⟩
  rw [hf, List.getElem?_map] at h3
  obtain ⟨_, -, rfl⟩ := Option.map_eq_some_iff.mp h3
  exact h4

/-- The elements of the line of a part are elements of the larry at labels of the group. -/
theorem part_line_mem {y part : Larry L} {ax : Nat} {l gl : List L} (hl : y.label[ax]? = some l)
    (hp : part.PartOf y (y.label.set ax gl)) {rest : List L} {vs : List Val} (hline : part.LineAt ax rest vs) {v : Val} :
    v ∈ vs → ∃ b ∈ gl, y.Has (rest.insertIdx ax b) v := by
  intro hv
  obtain ⟨l', hl', hlen, hh⟩ := hline
  rw [hp.label_eq, List.getElem?_set_self (List.getElem?_eq_some_iff.mp hl).1] at hl'
  cases hl'
  obtain ⟨i, hi⟩ := List.mem_iff_getElem?.mp hv
  have hil : i < gl.length := by rw [← hlen]; exact (List.getElem?_eq_some_iff.mp hi).1
  exact ⟨gl[i], List.getElem_mem hil, ((hp.has _ _).mp (hh i _ _ (List.getElem?_eq_getElem hil) hi)).2⟩

/-- And the other way round. -/
theorem part_line_has {y part : Larry L} (hv : y.Valid) {ax : Nat} {l gl : List L} (hl : y.label[ax]? = some l)
    (hp : part.PartOf y (y.label.set ax gl)) {rest : List L} {vs : List Val} (hline : part.LineAt ax rest vs) {b : L} (hb : b ∈ gl)
    {v : Val} (hy : y.Has (rest.insertIdx ax b) v) : v ∈ vs := by
  obtain ⟨l', hl', hlen, hh⟩ := hline
  rw [hp.label_eq, List.getElem?_set_self (List.getElem?_eq_some_iff.mp hl).1] at hl'
  cases hl'
  obtain ⟨i, hi⟩ := List.mem_iff_getElem?.mp hb
  have hil : i < vs.length := by rw [hlen]; exact (List.getElem?_eq_some_iff.mp hi).1
  have := ((hp.has _ _).mp (hh i _ _ hi (List.getElem?_eq_getElem hil))).2
  rw [Holds_unique hv.nodup hy this]
  exact List.getElem_mem hil

/-- `b` and `c` are labels of the same group; a label without a group is not in the group of any label. -/
theorem grouped_mem {group : Larry L} (hg : group.Valid) {l : List L} {b c : L} {g : Val} (h : group.Has [b] g) :
    c ∈ groupLabels group l g ↔ c ∈ l ∧ Grouped group b c := by
  rw [mem_groupLabels]
  refine and_congr_right fun _ => ⟨fun h' => ⟨g, h, h'⟩, fun ⟨g', h1, h2⟩ => ?_⟩
  rw [Holds_unique hg.nodup h h1]
  exact h2

theorem grouped_self {group : Larry L} (hv : group.Valid) {b : L} {g : Val} (hg : group.Has [b] g) : Grouped group b b ↔ SameGroup g g := by
  constructor
  · rintro ⟨g', q1, gv, q2, q3⟩
    rwa [Holds_unique hv.nodup q1 hg, Holds_unique hv.nodup q2 hg] at q3
  · exact fun q => ⟨g, hg, g, hg, q⟩

/-- C123. A group mean or median that is a number has an element of the group, on the same line, that is not above it, and one that
is not below it. -/
theorem C123_between [LinearOrder L] (c : GroupCenter) {sort : List Val → List Val} {y group : Larry L} {axis : Int} {ax : Nat} {l : List L}
    (h : CanGroup sort y group axis ax l) (hy : y.Numeric) :
    ∃ z, c.run sort y group axis = .ok z ∧ z.label = y.label ∧
      ∀ (b : L) (rest : List L) (v : Val), b ∈ l → z.Has (rest.insertIdx ax b) v → Named (y.label.eraseIdx ax) rest → v.num ≠ .nan →
        (∃ a u, a ∈ l ∧ Grouped group b a ∧ y.Has (rest.insertIdx ax a) u ∧ LeF u.num v.num) ∧
        (∃ a u, a ∈ l ∧ Grouped group b a ∧ y.Has (rest.insertIdx ax a) u ∧ LeF v.num u.num) := by
  obtain ⟨z, e, z1, z2, z3, hz⟩ := group_center c h
  refine ⟨z, e, z3, fun b rest v hb hv hr hn => ?_⟩
  obtain ⟨g, hg⟩ := h.has hb
  obtain ⟨k1, k2⟩ := hz b g rest hb hg hr
  by_cases hs : SameGroup g g
  · obtain ⟨-, part, vs, hp, hl, hv'⟩ := k2 hs
    obtain rfl := Holds_unique z1.nodup hv hv'
    have hne : ¬ ∀ f ∈ vs.map Val.num, f = .nan := fun k => hn (c.all_nan k)
    have hne' : vs ≠ [] := by rintro rfl; exact hne (by simp)
    have ht : ∀ v ∈ vs, v.hasDType y.dtype = true := line_typed' hy fun v hv => by
      obtain ⟨a, -, h1⟩ := part_line_mem h.labels hp hl hv
      exact ⟨_, h1⟩
    have imin := stat_is .min hy.dtype hne' ht
    have imax := stat_is .max hy.dtype hne' ht
    have nmin : (Statistic.min.red.f vs).num ≠ .nan := fun k => hne ((min_nan imin).mp k)
    have nmax : (Statistic.max.red.f vs).num ≠ .nan := fun k => hne ((max_nan imax).mp k)
    have lo : LeF (Statistic.min.red.f vs).num (c.of (vs.map Val.num)) := by
      cases c
      · exact min_le_mean imin (mean_is _) nmin hn
      · exact (median_between imin (median_is _) imax).1 nmin hn
    have hi : LeF (c.of (vs.map Val.num)) (Statistic.max.red.f vs).num := by
      cases c
      · exact mean_le_max (mean_is _) imax hn nmax
      · exact (median_between imin (median_is _) imax).2 hn nmax
    have find : ∀ x, x ∈ vs.map Val.num → ∃ a u, a ∈ l ∧ Grouped group b a ∧ y.Has (rest.insertIdx ax a) u ∧ u.num = x := fun x hx => by
      obtain ⟨u, hu, rfl⟩ := List.mem_map.mp hx
      obtain ⟨a, ha, h1⟩ := part_line_mem h.labels hp hl hu
      obtain ⟨ha1, ha2⟩ := (grouped_mem h.groups hg).mp ha
      exact ⟨a, u, ha1, ha2, h1, rfl⟩
    rcases imin with ⟨k, -⟩ | ⟨m1, -, -⟩
    · exact absurd k hne
    rcases imax with ⟨k, -⟩ | ⟨m2, -, -⟩
    · exact absurd k hne
    obtain ⟨a, u, q1, q2, q3, q4⟩ := find _ m1
    obtain ⟨a', u', q1', q2', q3', q4'⟩ := find _ m2
    exact ⟨⟨a, u, q1, q2, q3, by rw [q4]; exact lo⟩, ⟨a', u', q1', q2', q3', by rw [q4']; exact hi⟩⟩
  · exact absurd (by rw [Holds_unique z1.nodup hv (k1 hs)]; rfl) hn

/-- C123. Where a group mean or median is missing: the label has no group, or all of the group is missing on that line. -/
theorem C123_missing [LinearOrder L] (c : GroupCenter) {sort : List Val → List Val} {y group : Larry L} {axis : Int} {ax : Nat} {l : List L}
    (h : CanGroup sort y group axis ax l) (hinf : y.NoInfinities) :
    ∃ z, c.run sort y group axis = .ok z ∧ z.label = y.label ∧
      ∀ (b : L) (rest : List L) (v : Val), b ∈ l → z.Has (rest.insertIdx ax b) v → Named (y.label.eraseIdx ax) rest →
        (v.num = .nan ↔ ∀ a u, a ∈ l → Grouped group b a → y.Has (rest.insertIdx ax a) u → u.num = .nan) := by
  obtain ⟨z, e, z1, z2, z3, hz⟩ := group_center c h
  refine ⟨z, e, z3, fun b rest v hb hv hr => ?_⟩
  obtain ⟨g, hg⟩ := h.has hb
  obtain ⟨k1, k2⟩ := hz b g rest hb hg hr
  by_cases hs : SameGroup g g
  · obtain ⟨-, part, vs, hp, hl, hv'⟩ := k2 hs
    obtain rfl := Holds_unique z1.nodup hv hv'
    have hni : NoInf (vs.map Val.num) := line_noInf hinf fun v hv => by
      obtain ⟨a, -, h1⟩ := part_line_mem h.labels hp hl hv
      exact ⟨_, h1⟩
    show c.of (vs.map Val.num) = .nan ↔ _
    rw [stat_nan c.statistic hni (c.is _)]
    constructor
    · intro k a u ha hga hu
      exact k _ (List.mem_map_of_mem (part_line_has h.valid h.labels hp hl ((grouped_mem h.groups hg).mpr ⟨ha, hga⟩) hu))
    · intro k f hf
      obtain ⟨u, hu, rfl⟩ := List.mem_map.mp hf
      obtain ⟨a, ha, h1⟩ := part_line_mem h.labels hp hl hu
      obtain ⟨ha1, ha2⟩ := (grouped_mem h.groups hg).mp ha
      exact k a u ha1 ha2 h1
  · obtain rfl := Holds_unique z1.nodup hv (k1 hs)
    refine ⟨fun _ a u _ hga _ => ?_, fun _ => rfl⟩
    obtain ⟨g', q1, gv, q2, q3⟩ := hga
    rw [Holds_unique h.groups.nodup q1 hg] at q3
    exact absurd (sameGroup_trans (sameGroup_symm q3) q3) hs

/-- C123. A group ranking is missing where the element is, and where the label has no group; infinities are ranked. -/
theorem C123_missing_ranking [LinearOrder L] {sort : List Val → List Val} {y group : Larry L} {axis : Int} {ax : Nat} {l : List L}
    (h : CanGroup sort y group axis ax l) :
    ∃ z, y.groupRanking sort group axis = .ok z ∧ z.label = y.label ∧
      ∀ (b : L) (rest : List L) (v x : Val), b ∈ l → z.Has (rest.insertIdx ax b) v → y.Has (rest.insertIdx ax b) x →
        Named (y.label.eraseIdx ax) rest → (v.num = .nan ↔ ¬ Grouped group b b ∨ x.num = .nan) := by
  obtain ⟨z, e, z1, z2, z3, hz⟩ := group_part (f := rankingLine .pm1) (by simp [rankingLine]) h
  refine ⟨z, e, z3, fun b rest v x hb hv hx hr => ?_⟩
  obtain ⟨g, hg⟩ := h.has hb
  obtain ⟨k1, k2⟩ := hz b g rest hb hg hr
  rw [grouped_self h.groups hg]
  by_cases hs : SameGroup g g
  · obtain ⟨-, part, -, hp, vs, k, v', ⟨l', hl', hlen, hh⟩, hk, hv', hz'⟩ := k2 hs
    obtain rfl := Holds_unique z1.nodup hv hz'
    rw [hp.label_eq, List.getElem?_set_self (List.getElem?_eq_some_iff.mp h.labels).1] at hl'
    cases hl'
    have hkl : k < vs.length := by rw [hlen]; exact (List.getElem?_eq_some_iff.mp hk).1
    have hxk := ((hp.has _ _).mp (hh k _ _ hk (List.getElem?_eq_getElem hkl))).2
    have hx' : vs[k]? = some x := by rw [Holds_unique h.valid.nodup hx hxk]; exact List.getElem?_eq_getElem hkl
    obtain ⟨r1, r2⟩ := ranking_nums (norm := .pm1) trivial (by simp) vs k x v hx' hv'
    refine ⟨fun hn => .inr ?_, fun hn => ?_⟩
    · by_contra hx0
      obtain ⟨q, rfl⟩ := r2 hx0
      cases hn
    · rcases hn with hn | hn
      · exact absurd hs hn
      · rw [r1 hn]; rfl
  · obtain rfl := Holds_unique z1.nodup hv (k1 hs)
    exact ⟨fun _ => .inl hs, fun _ => rfl⟩

/-- The parts of two larrys with the same labels that hold one group, line by line. -/
theorem parts_line {y w part part' : Larry L} {ax : Nat} {l gl : List L} (hl : y.label[ax]? = some l) (hlab : w.label = y.label)
    (hp : part.PartOf y (y.label.set ax gl)) (hp' : part'.PartOf w (w.label.set ax gl)) {rest : List L} {R : Val → Val → Prop}
    (hc : ∀ b ∈ gl, ∀ v u, y.Has (rest.insertIdx ax b) v → w.Has (rest.insertIdx ax b) u → R v u) {vs us : List Val}
    (h : part.LineAt ax rest vs) (h' : part'.LineAt ax rest us) : List.Forall₂ R vs us := by
  obtain ⟨l1, hl1, hlen, hh⟩ := h
  obtain ⟨l2, hl2, hlen', hh'⟩ := h'
  have hlt := (List.getElem?_eq_some_iff.mp hl).1
  rw [hp.label_eq, List.getElem?_set_self hlt] at hl1
  rw [hp'.label_eq, hlab, List.getElem?_set_self hlt] at hl2
  cases hl1
  cases hl2
  rw [List.forall₂_iff_get]
  refine ⟨by omega, fun i h1 h2 => ?_⟩
  have hi : i < gl.length := by omega
  exact hc _ (List.getElem_mem hi) _ _
    ((hp.has _ _).mp (hh i _ _ (List.getElem?_eq_getElem hi) (List.getElem?_eq_getElem h1))).2
    ((hp'.has _ _).mp (hh' i _ _ (List.getElem?_eq_getElem hi) (List.getElem?_eq_getElem h2))).2

/-- C123. If no element of `y` is above that of `w`, no group mean or median is; without infinities they are missing at the same
places. -/
theorem C123_grows [LinearOrder L] (c : GroupCenter) {sort sort' : List Val → List Val} {y w group : Larry L} {axis : Int} {ax : Nat}
    {l : List L} (h : CanGroup sort y group axis ax l) (h' : CanGroup sort' w group axis ax l) (hyw : y.Under w) :
    ∃ z z', c.run sort y group axis = .ok z ∧ c.run sort' w group axis = .ok z' ∧ z.label = z'.label ∧
      (∀ names v u, z.Has names v → z'.Has names u → NotAbove v u) ∧
      (y.NoInfinities → w.NoInfinities → z.Under z') := by
  obtain ⟨z, e, z1, z2, z3, hz⟩ := group_center c h
  obtain ⟨z', e', z1', z2', z3', hz'⟩ := group_center c h'
  have hlab : z.label = z'.label := by rw [z3, z3', hyw.label]
  have key : ∀ names v u, z.Has names v → z'.Has names u → (v.num = .nan ∧ u.num = .nan) ∨
      ∃ vs us : List Val, List.Forall₂ AtMost vs us ∧ v = .flt (c.of (vs.map Val.num)) ∧ u = .flt (c.of (us.map Val.num)) ∧
        (∀ v ∈ vs, ∃ names, y.Has names v) ∧ (∀ v ∈ us, ∃ names, w.Has names v) := by
    intro names v u hv hu
    have hN : Named y.label names := by rw [← z3]; exact Named_of_Holds hv
    obtain ⟨i, b, rest, hi, hr, rfl⟩ := named_split h.labels hN
    have hb := List.mem_of_getElem? hi
    obtain ⟨g, hg⟩ := h.has hb
    obtain ⟨k1, k2⟩ := hz b g rest hb hg hr
    obtain ⟨k1', k2'⟩ := hz' b g rest hb hg (by rw [← hyw.label]; exact hr)
    by_cases hs : SameGroup g g
    · obtain ⟨-, part, vs, hp, hl, hv'⟩ := k2 hs
      obtain ⟨-, part', us, hp', hl', hu'⟩ := k2' hs
      refine .inr ⟨vs, us, parts_line h.labels hyw.label.symm hp hp' (fun a _ v u => hyw.cells _ v u) hl hl',
        Holds_unique z1.nodup hv hv', Holds_unique z1'.nodup hu hu', fun v hv => ?_, fun v hv => ?_⟩
      · obtain ⟨a, -, q⟩ := part_line_mem h.labels hp hl hv
        exact ⟨_, q⟩
      · obtain ⟨a, -, q⟩ := part_line_mem h'.labels hp' hl' hv
        exact ⟨_, q⟩
    · rw [Holds_unique z1.nodup hv (k1 hs), Holds_unique z1'.nodup hu (k1' hs)]
      exact .inl ⟨rfl, rfl⟩
  refine ⟨z, z', e, e', hlab, fun names v u hv hu => ?_, fun iy iw => ⟨hlab, fun names v u hv hu => ?_⟩⟩
  · rcases key names v u hv hu with ⟨k, -⟩ | ⟨vs, us, hf, rfl, rfl, -, -⟩
    · exact fun hn => absurd k hn
    · exact stat_grows c.statistic (atMost_nums hf) (c.is _) (c.is _)
  · rcases key names v u hv hu with k | ⟨vs, us, hf, rfl, rfl, m1, m2⟩
    · exact .inl k
    · have e : c.of (vs.map Val.num) = .nan ↔ c.of (us.map Val.num) = .nan := by
        rw [stat_nan c.statistic (line_noInf iy m1) (c.is _), stat_nan c.statistic (line_noInf iw m2) (c.is _), atMost_nan (atMost_nums hf)]
      by_cases hn : c.of (vs.map Val.num) = .nan
      · exact .inl ⟨hn, e.mp hn⟩
      · exact .inr (stat_grows c.statistic (atMost_nums hf) (c.is _) (c.is _) hn fun k => hn (e.mpr k))

/-- C123. `y - y.group_mean(group, axis)` has the group mean zero wherever there is anything, and it is missing where `y` is and for
labels without a group; the same with medians. -/
theorem C123_neutral [LinearOrder L] (c : GroupCenter) (py3 : Bool) {sort : List Val → List Val} {y group : Larry L} {axis : Int} {ax : Nat}
    {l : List L} (h : CanGroup sort y group axis ax l) (hinf : y.NoInfinities) :
    ∃ z n w, c.run sort y group axis = .ok z ∧ Larry.binop (ArithOp.uf py3 .sub) y z = .ok n ∧ n.label = y.label ∧ n.dtype = .float ∧
      c.run sort n group axis = .ok w ∧ w.label = y.label ∧
      (∀ (b : L) (rest : List L) (v x : Val), b ∈ l → n.Has (rest.insertIdx ax b) v → y.Has (rest.insertIdx ax b) x →
        Named (y.label.eraseIdx ax) rest → (v.num = .nan ↔ ¬ Grouped group b b ∨ x.num = .nan)) ∧
      ∀ (b : L) (rest : List L) (v : Val), b ∈ l → w.Has (rest.insertIdx ax b) v → Named (y.label.eraseIdx ax) rest →
        (v = .flt (.fin 0) ∧ ∃ a u, a ∈ l ∧ Grouped group b a ∧ y.Has (rest.insertIdx ax a) u ∧ u.num ≠ .nan) ∨
        (v = .flt .nan ∧ ∀ a u, a ∈ l → Grouped group b a → y.Has (rest.insertIdx ax a) u → u.num = .nan) := by
  obtain ⟨z, e, z1, z2, z3, hz⟩ := group_center c h
  have hlab : y.label = z.label := z3.symm
  obtain ⟨x, h1, n1, n4⟩ := aligned_apply (uf := ArithOp.uf py3 .sub) (d := .float) (a := y) (b := z) h.valid
    (by
      have hy := h.isNumeric
      show Arith.loopDt .bool .int y.dtype z.dtype = .ok .float
      rw [z2, Arith.loopDt, if_neg (by rw [hy]; decide), if_pos (.inr rfl)])
    (hlab ▸ Joined.refl_inner y.label) h.valid.shape_eq (hlab ▸ z1.shape_eq) (Reindexed.refl _ _ _)
    (hlab ▸ Reindexed.refl _ _ _)
  have en : Larry.binop (ArithOp.uf py3 .sub) y z = .ok ⟨x, .float, y.label⟩ := by simp [Larry.binop, hlab, h1]
  have n1 : Larry.Valid ⟨x, .float, y.label⟩ := n1
  have zf : ∀ names v, z.Has names v → ∃ f, v = .flt f := fun names v hv => by
    have hN : Named y.label names := by rw [← z3]; exact Named_of_Holds hv
    obtain ⟨i, b, rest, hi, hr, rfl⟩ := named_split h.labels hN
    obtain ⟨g, hg⟩ := h.has (List.mem_of_getElem? hi)
    obtain ⟨k1, k2⟩ := hz b g rest (List.mem_of_getElem? hi) hg hr
    by_cases hs : SameGroup g g
    · obtain ⟨-, part, vs, -, -, q⟩ := k2 hs
      exact ⟨_, Holds_unique z1.nodup hv q⟩
    · exact ⟨_, Holds_unique z1.nodup hv (k1 hs)⟩
  have n4 : ∀ names v, Larry.Has ⟨x, .float, y.label⟩ names v ↔ ∃ u w, y.Has names u ∧ z.Has names w ∧ v = .flt (u.num.sub w.num) := by
    intro names v
    refine (n4 names v).trans ⟨?_, ?_⟩ <;> rintro ⟨u, w, hu, hw, rfl⟩ <;> obtain ⟨f, rfl⟩ := zf names w hw <;>
      exact ⟨u, _, hu, hw, by cases u <;> rfl⟩
  have hnd : Larry.ndim ⟨x, .float, y.label⟩ = y.ndim := by
    rw [← n1.label_length, ← h.valid.label_length]
  have hn : CanGroup sort ⟨x, .float, y.label⟩ group axis ax l :=
    ⟨h.sorts, n1, h.groups, h.one, ⟨by simp, by simp⟩, by rw [hnd]; exact h.axis, h.labels, h.known⟩
  obtain ⟨w, ew, w1, w2, w3, hw⟩ := group_center c hn
  refine ⟨z, _, w, e, en, rfl, rfl, ew, w3, fun b rest v u hb hv hu hr => ?_, fun b rest v hb hv hr => ?_⟩
  · obtain ⟨g, hg⟩ := h.has hb
    obtain ⟨k1, k2⟩ := hz b g rest hb hg hr
    rw [grouped_self h.groups hg]
    obtain ⟨u', m, hu', hm, rfl⟩ := (n4 _ _).mp hv
    obtain rfl := Holds_unique h.valid.nodup hu hu'
    by_cases hs : SameGroup g g
    · obtain ⟨hbg, part, vs, hp, hl, hm'⟩ := k2 hs
      obtain rfl := Holds_unique z1.nodup hm hm'
      have hni : NoInf (vs.map Val.num) := line_noInf hinf fun v hv => by
        obtain ⟨a, -, q⟩ := part_line_mem h.labels hp hl hv
        exact ⟨_, q⟩
      have hmem := List.mem_map_of_mem (f := Val.num) (part_line_has h.valid h.labels hp hl hbg hu)
      show u.num.sub (c.of (vs.map Val.num)) = .nan ↔ _
      refine ⟨fun q => .inr ?_, fun q => ?_⟩
      · by_contra hu0
        rcases c.finite hni with q' | ⟨q', q''⟩
        · exact hu0 ((stat_nan c.statistic hni (c.is _)).mp q' _ hmem)
        · rw [q''] at q
          have := hni _ hmem
          cases hun : u.num <;> rw [hun] at q hu0 this <;> simp_all [Flt.sub, Flt.neg, Flt.add]
      · rcases q with q | q
        · exact absurd hs q
        · rw [q]; rfl
    · obtain rfl := Holds_unique z1.nodup hm (k1 hs)
      refine ⟨fun _ => .inl hs, fun _ => ?_⟩
      show u.num.sub .nan = .nan
      cases u.num <;> rfl
  · obtain ⟨g, hg⟩ := h.has hb
    obtain ⟨k1, k2⟩ := hz b g rest hb hg hr
    obtain ⟨k1', k2'⟩ := hw b g rest hb hg hr
    by_cases hs : SameGroup g g
    · obtain ⟨hbg, part, vs, hp, hl, hm⟩ := k2 hs
      obtain ⟨-, part', us, hp', hl', hv'⟩ := k2' hs
      obtain rfl := Holds_unique w1.nodup hv hv'
      have hni : NoInf (vs.map Val.num) := line_noInf hinf fun v hv => by
        obtain ⟨a, -, q⟩ := part_line_mem h.labels hp hl hv
        exact ⟨_, q⟩
      -- the same centre everywhere in the group
      have same : ∀ a ∈ groupLabels group l g, ∀ m, z.Has (rest.insertIdx ax a) m → m = .flt (c.of (vs.map Val.num)) := by
        intro a ha m hm'
        obtain ⟨ha1, g', hg', hs'⟩ := mem_groupLabels.mp ha
        obtain ⟨-, part2, vs2, hp2, hl2, hm2⟩ := (hz a g' rest ha1 hg' hr).2 (sameGroup_trans hs' (sameGroup_symm hs'))
        rw [groupLabels_congr hs'] at hp2
        have := parts_line h.labels rfl hp hp2 (R := (· = ·)) (fun a _ v u hv hu => Holds_unique h.valid.nodup hv hu) hl hl2
        rw [self_forall₂ this]
        exact Holds_unique z1.nodup hm' hm2
      have sub : List.Forall₂ (fun v u : Val => u.num = v.num.sub (c.of (vs.map Val.num))) vs us := by
        refine parts_line (w := ⟨x, .float, y.label⟩) h.labels rfl hp hp' (fun a ha v u hv hu => ?_) hl hl'
        obtain ⟨v', m, q1, q2, rfl⟩ := (n4 _ _).mp hu
        rw [Holds_unique h.valid.nodup hv q1, same a ha m q2]
        rfl
      rcases c.finite hni with hm0 | ⟨q, hq⟩
      · refine .inr ⟨?_, fun a u ha hga hu => ?_⟩
        · rw [c.all_nan fun f hf => ?_]
          obtain ⟨u, hu, rfl⟩ := List.mem_map.mp hf
          obtain ⟨k, hk, rfl⟩ := List.getElem_of_mem hu
          obtain ⟨hlen, hget⟩ := List.forall₂_iff_get.mp sub
          have hvu := hget k (by rw [hlen]; exact hk) hk
          generalize vs.get ⟨k, _⟩ = v at hvu
          rw [show us[k].num = _ from hvu, hm0]
          cases v.num <;> rfl
        · exact (stat_nan c.statistic hni (c.is _)).mp hm0 _ (List.mem_map_of_mem
            (part_line_has h.valid h.labels hp hl ((grouped_mem h.groups hg).mpr ⟨ha, hga⟩) hu))
      · have hus : us.map Val.num = (vs.map Val.num).map (Flt.units 1 (-q)) := by
          rw [hq] at sub
          clear hl hl' hv' hv hm same hni hq
          induction sub with
          | nil => rfl
          | cons h1 _ ih =>
            simp only [List.map_cons, ih, h1]
            congr 1
            rename_i v _ _ _ _
            cases v.num with
            | fin p => rw [units_fin]; simp [Flt.sub, Flt.neg, Flt.add]
            | nan => rfl
            | pinf => rw [units_pinf one_ne_zero, if_pos one_pos]; rfl
            | ninf => rw [units_ninf one_ne_zero, if_pos one_pos]; rfl
        refine .inl ⟨?_, ?_⟩
        · rw [hus, c.moves 1 (-q) (by norm_num), hq, units_fin]
          norm_num
        · by_contra hno
          have : c.of (vs.map Val.num) = .nan := c.all_nan fun f hf => by
            obtain ⟨u, hu, rfl⟩ := List.mem_map.mp hf
            obtain ⟨a, ha, q1⟩ := part_line_mem h.labels hp hl hu
            obtain ⟨ha1, ha2⟩ := (grouped_mem h.groups hg).mp ha
            by_contra hu0
            exact hno ⟨a, u, ha1, ha2, q1, hu0⟩
          rw [hq] at this
          cases this
    · obtain rfl := Holds_unique w1.nodup hv (k1' hs)
      refine .inr ⟨rfl, fun a u _ hga _ => ?_⟩
      obtain ⟨g', q1, gv, q2, q3⟩ := hga
      rw [Holds_unique h.groups.nodup q1 hg] at q3
      exact absurd (sameGroup_trans (sameGroup_symm q3) q3) hs

/-! ### Cases -/

/-- Two groups and a label without one: the means, and what is left when they are subtracted. -/
example : groupLine id groupMeanLine [.str "x", .str "y", .str "x", .none, .str "y"] [fl 1, .flt .nan, fl 4, fl 7, .flt .nan] =
      [fl (5 / 2), .flt .nan, fl (5 / 2), .flt .nan, .flt .nan] ∧
    groupLine id groupMeanLine [.str "x", .str "y", .str "x", .none, .str "y"] [fl (-3 / 2), .flt .nan, fl (3 / 2), .flt .nan, .flt .nan] =
      [fl 0, .flt .nan, fl 0, .flt .nan, .flt .nan] := by decide +kernel

/-- C123. An infinity in a group takes all of it away: the mean is infinite, and infinity minus infinity is NaN. -/
theorem C123_infinity : groupLine id groupMeanLine [.str "x", .str "x"] [fl 1, .flt .pinf] = [.flt .pinf, .flt .pinf] ∧
    Flt.sub .pinf .pinf = .nan := by decide +kernel

/-- `exA` with larger numbers. -/
def exAUp : Larry Nat :=
  ⟨NDArray.ofList [2, 3] [fl 1, fl 5, fl 3, fl 9, .flt .nan, fl 6], .float, [[10, 20], [3, 1, 2]]⟩

example : CanGroup id exA exG 1 1 [3, 1, 2] ∧ CanGroup id exAUp exG 1 1 [3, 1, 2] ∧ exA.Numeric ∧ exA.NoInfinities ∧ exAUp.NoInfinities ∧
    exA.Under exAUp ∧ Grouped exG 1 2 ∧ ¬ Grouped exG 3 3 ∧ Named (exA.label.eraseIdx 1) [20] := by
  have hG : exG.Valid := ⟨rfl, by simp [exG], by simp [exG]⟩
  have hU : exAUp.Valid := ⟨rfl, by decide, by decide⟩
  have none : ∀ y : Larry Nat, y.Valid → (∀ idx ∈ allIdx y.x.shape, (y.x.get idx).num ≠ .pinf ∧ (y.x.get idx).num ≠ .ninf) →
      y.NoInfinities := by
    rintro y hy h names v ⟨idx, hat, rfl⟩
    exact h idx (mem_allIdx.mpr (by rw [hy.shape_eq]; exact At_inB hat))
  have h1 : exG.Has [1] (.str "x") := ⟨[0], ⟨rfl, trivial⟩, rfl⟩
  have h2 : exG.Has [2] (.str "x") := ⟨[1], ⟨rfl, trivial⟩, rfl⟩
  have h3 : exG.Has [3] .none := ⟨[2], ⟨rfl, trivial⟩, rfl⟩
  refine ⟨exCanGroup hG rfl, ⟨fun l => List.Perm.refl l, hU, hG, rfl, by decide, rfl, rfl, fun gl hgl => ?_⟩,
    ⟨exA_valid, typed_cells (by decide +kernel), .inl rfl, by decide⟩, none _ exA_valid (by decide +kernel), none _ hU (by decide +kernel),
    under_cells exA_valid rfl ?_, ⟨_, h1, _, h2, .inr (.inl ⟨_, rfl, rfl⟩)⟩, ?_, Named_of_At (idx := [1]) ⟨rfl, trivial⟩⟩
  · have : gl = [1, 2, 3] := (Option.some.inj hgl).symm
    subst this
    decide
  · intro idx hidx
    have : idx ∈ [[0, 0], [0, 1], [0, 2], [1, 0], [1, 1], [1, 2]] := by revert idx; decide
    simp only [List.mem_cons, List.not_mem_nil, or_false] at this
    rcases this with rfl | rfl | rfl | rfl | rfl | rfl
    · exact .inr (show (1 : ℚ) ≤ 1 by norm_num)
    · exact .inr (show (2 : ℚ) ≤ 5 by norm_num)
    · exact .inr (show (3 : ℚ) ≤ 3 by norm_num)
    · exact .inr (show (4 : ℚ) ≤ 9 by norm_num)
    · exact .inl ⟨rfl, rfl⟩
    · exact .inr (show (6 : ℚ) ≤ 6 by norm_num)
  · exact fun h => sameGroup_none ((grouped_self hG h3).mp h)

end La
