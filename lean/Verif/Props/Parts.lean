import Verif.Props.Axes
import Verif.Props.Index
import Verif.Props.Structure
import Verif.Props.Missing
import Verif.Props.Reduce
import Verif.Props.Move
import Verif.Props.Stats
import Verif.Group
import Verif.Examples

/-!
# C92: a part of a larry gets the numbers of the whole

A calculation along one axis looks at one line at a time.  So it does not matter whether the other axes are
cut, reordered or picked from before the calculation or after it.
-/

namespace La
variable {L : Type _}

/-- `z` has whole lines of `y` along axis `ax`: the same labels on that axis, and in each cell the value `y`
has under the same names.  On the other axes `z` may lack labels of `y` or have them in another order. -/
structure FullLines (ax : Nat) (z y : Larry L) : Prop where
  dtype_eq : z.dtype = y.dtype
  naxes : z.label.length = y.label.length
  axis_eq : z.label[ax]? = y.label[ax]?
  cells : ∀ names v, z.Has names v → y.Has names v

/-- Two results that go together: the same exception, or again whole lines of one in the other. -/
inductive Together (ax : Nat) : Res (Larry L) → Res (Larry L) → Prop
  | ok {z y : Larry L} (h : FullLines ax z y) : Together ax (.ok z) (.ok y)
  | error (e : PyErr) : Together ax (.error e) (.error e)

namespace FullLines

theorem lineAt {ax : Nat} {z y : Larry L} (h : FullLines ax z y) {rest : List L} {vs : List Val}
    (hl : z.LineAt ax rest vs) : y.LineAt ax rest vs := by
  obtain ⟨l, h1, h2, h3⟩ := hl
  exact ⟨l, h.axis_eq ▸ h1, h2, fun i b w hb hw => h.cells _ _ (h3 i b w hb hw)⟩

theorem named {ax : Nat} {z y : Larry L} (h : FullLines ax z y) {names : List L}
    (hN : Named z.label names) : Named y.label names := by
  obtain ⟨w, hw⟩ := Holds_of_Named (x := z.x) hN
  exact Named_of_Holds (h.cells _ _ hw)

theorem ndim_eq {ax : Nat} {z y : Larry L} (h : FullLines ax z y) (hz : z.Valid) (hy : y.Valid) :
    z.ndim = y.ndim := by rw [← hz.label_length, ← hy.label_length, h.naxes]

/-- Every cell lies on a line. -/
theorem split_names {y : Larry L} (hv : y.Valid) {ax : Nat} {l : List L} (hl : y.label[ax]? = some l)
    {names : List L} (hN : Named y.label names) :
    ∃ rest vs i b, names = rest.insertIdx ax b ∧ y.LineAt ax rest vs ∧ l[i]? = some b ∧ i < vs.length := by
  obtain ⟨e1, e2⟩ := eraseIdx_insertIdx_label hl
  have hax := (List.getElem?_eq_some_iff.mp hl).1
  obtain ⟨idx, hat⟩ := At_of_Named hN
  obtain ⟨h1, h2⟩ := At_length hat
  obtain ⟨j, ridx, hj, hj', -⟩ := exists_insertIdx (l := idx) (k := ax) (by omega)
  obtain ⟨b, rest, hb, hb', -⟩ := exists_insertIdx (l := names) (k := ax) (by omega)
  have hr1 : ridx.length = (y.label.eraseIdx ax).length := by
    rw [hj', List.length_eraseIdx_of_lt (by omega)]; omega
  have hr2 : rest.length = (y.label.eraseIdx ax).length := by
    rw [hb', List.length_eraseIdx_of_lt (by omega)]; omega
  rw [hj, hb, ← e1, At_insertIdx (by omega) hr1 hr2] at hat
  have hline := line_at hv hl hat.1
  refine ⟨rest, _, j, b, hb, hline, hat.2, ?_⟩
  obtain ⟨l', hl', hlen, -⟩ := hline
  rw [hl] at hl'
  simp only [Option.some.injEq] at hl'
  subst hl'
  rw [hlen]
  exact (List.getElem?_eq_some_iff.mp hat.2).1

theorem along {ax : Nat} {z y z' y' : Larry L} (h : FullLines ax z y) (hz : z.Valid) {l : List L}
    (hl : y.label[ax]? = some l) {R : List Val → Nat → Val → Prop}
    (hR : ∀ vs i v v', i < vs.length → R vs i v → R vs i v' → v = v')
    (hz' : z.Along z' ax R) (hy' : y.Along y' ax R) (hd : z'.dtype = y'.dtype) : FullLines ax z' y' := by
  refine ⟨hd, by rw [hz'.label_eq, hy'.label_eq, h.naxes], by rw [hz'.label_eq, hy'.label_eq, h.axis_eq], ?_⟩
  intro names v hv
  have hN : Named z.label names := by rw [← hz'.label_eq]; exact Named_of_Holds hv
  have hl' : z.label[ax]? = some l := by rw [h.axis_eq]; exact hl
  obtain ⟨rest, vs, i, b, rfl, hline, hb, hi⟩ := split_names hz hl' hN
  obtain ⟨u, hu⟩ := Holds_of_Named (x := y'.x) (label := y'.label) (by rw [hy'.label_eq]; exact h.named hN)
  have e := hR _ _ _ _ hi (hz'.cell rest vs l i b v hline hl' hb hv)
    (hy'.cell rest vs l i b u (h.lineAt hline) hl hb hu)
  rw [e]
  exact hu

end FullLines

/-- The values a function on lines leaves. -/
theorem along_getD {y : Larry L} (hv : y.Valid) {ax : Nat} {l : List L} (hl : y.label[ax]? = some l)
    (f : List Val → List Val) (d : DType) :
    y.Along (y.along f d ax) ax (fun vs i v => v = (f vs).getD i .none) := by
  refine along_of_get (z := y.along f d ax) hv hl rfl rfl (fun ridx i hr _ => ?_)
  simp only [Larry.along, NDArray.mapLines]
  rw [List.eraseIdx_insertIdx_self]
  simp only [List.getD, List.getElem?_insertIdx_self, hr, if_true, Option.getD_some]

theorem FullLines.along_same {ax : Nat} {z y : Larry L} (h : FullLines ax z y) (hz : z.Valid) (hy : y.Valid)
    {l : List L} (hl : y.label[ax]? = some l) (f : List Val → List Val) (d : DType) :
    FullLines ax (z.along f d ax) (y.along f d ax) :=
  h.along hz hl (R := fun vs i v => v = (f vs).getD i .none) (fun _ _ _ _ _ h1 h2 => h1.trans h2.symm)
    (along_getD hz (h.axis_eq.trans hl) f d) (along_getD hy hl f d) rfl

/-- The calls that calculate along one axis and keep the labels.  The functions that the model leaves open
(numpy's argsort and sort, the standard deviation and the median of a line) are the same for both larrys. -/
inductive LineCall (L : Type _)
  | cumsum | cumprod
  | push (window : Int)
  | ranking (norm : RankNorm)
  | quantile (argsort : List ℚ → List Nat) (q : Int)
  | demean (center : List Flt → Flt)
  | zscore (std : List Flt → Flt)
  | movingsumForward (window : Int) (skip : Nat) (norm : Bool)
  | moveBn (k : MoveKind) (window : Int)
  | groupRanking (sort : List Val → List Val) (group : Larry L)
  | groupMean (sort : List Val → List Val) (group : Larry L)
  | groupMedian (sort : List Val → List Val) (med : List Flt → Flt) (group : Larry L)

/-- The call itself, with the model's definition of each method. -/
def LineCall.run [LinearOrder L] (y : Larry L) (axis : Int) : LineCall L → Res (Larry L)
  | .cumsum => y.cumsum (some axis)
  | .cumprod => y.cumprod (some axis)
  | .push w => y.push w axis
  | .ranking n => y.ranking (some axis) n
  | .quantile a q => y.quantile a q (some axis)
  | .demean c => y.demean c (some axis)
  | .zscore s => y.zscore s (some axis)
  | .movingsumForward w s n => y.movingsumForward w s axis n
  | .moveBn k w => k.run y w axis
  | .groupRanking s g => y.groupRanking s g axis
  | .groupMean s g => y.groupMean s g axis
  | .groupMedian s m g => y.groupMedian s m g axis

theorem line_getD {a : NDArray Val} {ax i : Nat} {ridx : List Nat} (hi : i < (a.line ax ridx).length) :
    (a.line ax ridx).getD i .none = a.get (ridx.insertIdx ax i) := by
  simp only [List.getD, List.getElem?_eq_getElem hi, Option.getD_some]
  simp [NDArray.line]

theorem along_cumulate {y : Larry L} (hv : y.Valid) {ax : Nat} {l : List L} (hl : y.label[ax]? = some l)
    (op : Val → Val → Val) (u : Val) (d : DType) :
    y.Along ⟨⟨y.x.shape, fun i => if (y.x.get i).isNan then .flt .nan else
        ((y.x.map (replaceNan u)).mapLines (cumGo op u) .none ax).get i⟩, d, y.label⟩ ax
      (fun vs i v => v = if (vs.getD i .none).isNan then .flt .nan else
        (cumGo op u (vs.map (replaceNan u))).getD i .none) := by
  refine along_of_get (z := ⟨⟨y.x.shape, fun i => if (y.x.get i).isNan then .flt .nan else
        ((y.x.map (replaceNan u)).mapLines (cumGo op u) .none ax).get i⟩, d, y.label⟩) hv hl rfl rfl
    fun ridx i hr hi => ?_
  have h1 := line_getD hi
  have h2 : (y.x.map (replaceNan u)).line ax ridx = (y.x.line ax ridx).map (replaceNan u) := by
    simp [NDArray.line, NDArray.map]
  simp only [NDArray.mapLines]
  rw [List.eraseIdx_insertIdx_self, h1, h2]
  simp only [List.getD, List.getElem?_insertIdx_self, hr, if_true, Option.getD_some]

theorem cumulate_together {op : DType → Val → Val → Val} {unit : Int} {z y : Larry L} {axis : Int} {ax : Nat}
    (h : FullLines ax z y) (hz : z.Valid) (hy : y.Valid) (hax : pyIdx y.ndim axis = some ax) {l : List L}
    (hl : y.label[ax]? = some l) :
    Together ax (z.cumulate op unit (some axis)) (y.cumulate op unit (some axis)) := by
  have hn := h.ndim_eq hz hy
  unfold Larry.cumulate
  simp only [h.dtype_eq, hn, npAxis, hax]
  split
  · exact .error _
  · exact .ok (h.along hz hl (fun _ _ _ _ _ h1 h2 => h1.trans h2.symm)
      (along_cumulate hz (h.axis_eq.trans hl) _ _ _) (along_cumulate hy hl _ _ _) rfl)

theorem quantile1_along {y : Larry L} (hv : y.Valid) {ax : Nat} {l : List L} (hl : y.label[ax]? = some l)
    (g : Val → Val) (d : DType) :
    y.Along ⟨y.x.map g, d, y.label⟩ ax (fun vs i v => v = g (vs.getD i .none)) := by
  refine along_of_get (z := ⟨y.x.map g, d, y.label⟩) hv hl rfl rfl fun ridx i hr hi => ?_
  have h1 := line_getD hi
  simp only [NDArray.map, h1]

theorem groupBy_together [LinearOrder L] {sort f : List Val → List Val} {g z y : Larry L} {axis : Int} {ax : Nat}
    (h : FullLines ax z y) (hz : z.Valid) (hy : y.Valid) (hax : pyIdx y.ndim axis = some ax) {l : List L}
    (hl : y.label[ax]? = some l) :
    Together ax (z.groupBy sort f g axis) (y.groupBy sort f g axis) := by
  have hn := h.ndim_eq hz hy
  have hg : z.groupAlign g axis = y.groupAlign g axis := by
    unfold Larry.groupAlign
    rw [hz.label_length, hy.label_length, hn, hax]
    have e : z.label.getD ax [] = y.label.getD ax [] := by simp only [List.getD, h.axis_eq]
    simp only [e]
  unfold Larry.groupBy
  rw [hg, hn, h.dtype_eq, hax]
  cases y.groupAlign g axis with
  | error e => exact .error _
  | ok groups =>
    dsimp only
    split
    · exact .error _
    · exact .ok (h.along_same hz hy hl _ _)

/-- C92. A calculation along an axis gives the cells of a part with whole lines the values it gives them in the
whole larry: the same numbers under the same names, the same dtype and the same exceptions. -/
theorem C92_part [LinearOrder L] {z y : Larry L} (hz : z.Valid) (hy : y.Valid) {axis : Int} {ax : Nat}
    (hax : pyIdx y.ndim axis = some ax) (h : FullLines ax z y) (c : LineCall L) :
    Together ax (c.run z axis) (c.run y axis) := by
  obtain ⟨l, hl, -⟩ := label_at hy hax
  have hn := h.ndim_eq hz hy
  have hsy := (shape_at hy hl).1
  have hsz := (shape_at hz (h.axis_eq.trans hl)).1
  cases c with
  | cumsum => exact cumulate_together h hz hy hax hl
  | cumprod => exact cumulate_together h hz hy hax hl
  | push w =>
    simp only [LineCall.run, Larry.push, npAxis, hn, hax, h.dtype_eq]
    split
    · exact .error _
    · exact .ok (h.along_same hz hy hl _ _)
  | ranking n =>
    simp only [LineCall.run, Larry.ranking, hn, hax, h.dtype_eq]
    split
    · exact .error _
    · cases n <;> first | exact .error _ | exact .ok (h.along_same hz hy hl _ _)
  | quantile a q =>
    simp only [LineCall.run, Larry.quantile, hn, hax, h.dtype_eq, hsy, hsz]
    split
    · exact .error _
    · split
      · exact .error _
      · split
        · exact .ok (h.along hz hl (fun _ _ _ _ _ h1 h2 => h1.trans h2.symm)
            (quantile1_along hz (h.axis_eq.trans hl) _ _) (quantile1_along hy hl _ _) rfl)
        · split
          · exact .error _
          · exact .ok (h.along_same hz hy hl _ _)
  | demean c =>
    simp only [LineCall.run, Larry.demean, npAxis, hn, hax, h.dtype_eq]
    split
    · exact .error _
    · exact .ok (h.along_same hz hy hl _ _)
  | zscore s =>
    simp only [LineCall.run, Larry.zscore, npAxis, hn, hax, h.dtype_eq]
    split
    · exact .error _
    · exact .ok (h.along_same hz hy hl _ _)
  | movingsumForward w s n =>
    simp only [LineCall.run, Larry.movingsumForward, hn, hax, h.dtype_eq, hsy, hsz]
    repeat' split
    all_goals first | exact .error _ | exact .ok (h.along_same hz hy hl _ _)
  | moveBn k w =>
    simp only [LineCall.run, MoveKind.run_eq, Larry.moveBn, hn, hax, h.dtype_eq, hsy, hsz]
    repeat' split
    all_goals first | exact .error _ | exact .ok (h.along_same hz hy hl _ _)
  | groupRanking s g => exact groupBy_together h hz hy hax hl
  | groupMean s g => exact groupBy_together h hz hy hax hl
  | groupMedian s m g => exact groupBy_together h hz hy hax hl

theorem run_keeps [LinearOrder L] {y y' : Larry L} (hy : y.Valid) {axis : Int} {c : LineCall L}
    (h : c.run y axis = .ok y') : y'.Valid ∧ y'.label = y.label := by
  suffices h' : y'.x.shape = y.x.shape ∧ y'.label = y.label from
    ⟨⟨by rw [h'.1, h'.2]; exact hy.shape_eq, by rw [h'.2]; exact hy.nodup, by rw [h'.2]; exact hy.ndim_pos⟩, h'.2⟩
  cases c <;>
    simp only [LineCall.run, Larry.cumsum, Larry.cumprod, Larry.cumulate, Larry.push, Larry.ranking, Larry.quantile,
      Larry.demean, Larry.zscore, Larry.movingsumForward, MoveKind.run_eq, Larry.moveBn,
      Larry.groupRanking, Larry.groupMean, Larry.groupMedian,
      Larry.groupBy] at h <;>
    (repeat' (split at h)) <;>
    first
    | (cases h; done)
    | (cases h; exact ⟨rfl, rfl⟩)

/-! ## Picking on another axis -/

/-- The calls that pick labels of one axis or reorder them. -/
inductive Pick (L : Type _)
  | take (indices : List Int)
  | flipaxis
  | sortaxis (reverse : Bool)
  | keepLabel (op : LabelOp L)
  | morph (labels : List L)

def Pick.run [LinearOrder L] (y : Larry L) (axis : Int) : Pick L → Res (Larry L)
  | .take is => y.take is axis
  | .flipaxis => y.flipaxis (some axis)
  | .sortaxis r => y.sortaxis (some axis) r
  | .keepLabel op => y.keepLabel op (some axis)
  | .morph ls => y.morph ls axis

/-- What a pick leaves of the labels `l` of its axis, when it finds what it looks for. -/
def PickLeaves [LinearOrder L] (l lab : List L) : Pick L → Prop
  | .take is => ∃ ks : List Nat, List.Forall₂ (fun i k => pyIdx l.length i = some k) is ks ∧ ks.Nodup ∧
      lab.map some = ks.map (fun (k : Nat) => l[k]?)
  | .flipaxis => lab = l.reverse
  | .sortaxis r => lab.Perm l ∧ InOrder r lab
  | .keepLabel op => op ≠ .unknown ∧ lab ≠ [] ∧ lab.Sublist l ∧ ∀ b, b ∈ lab ↔ b ∈ l ∧ Wanted op b
  | .morph ls => lab = ls ∧ ls.Nodup ∧ (∀ b ∈ ls, b ∈ l) ∧ (ls = [] → l = [])

theorem axesMeant_one {n : Nat} {a : Int} {k : Nat} (h : pyIdx n a = some k) : AxesMeant n (some a) [k] := by
  obtain ⟨h1, h2⟩ := pyIdx_some.mp h
  exact ⟨k, rfl, h1, by omega⟩

theorem label_of_set {y z : Larry L} {bx : Nat} {lab : List L}
    (hlen : z.label.length = y.label.length) (h1 : ∀ l', z.label[bx]? = some l' → l' = lab)
    (h2 : ∀ (k : Nat) m m', y.label[k]? = some m → z.label[k]? = some m' → k ≠ bx → m' = m) :
    z.label = y.label.set bx lab := by
  refine List.ext_getElem (by simpa using hlen) fun k hk hk' => ?_
  have hky : k < y.label.length := by simpa using hk'
  rw [List.getElem_set]
  split
  · next e => subst e; exact h1 _ (List.getElem?_eq_getElem hk)
  · next e =>
    exact h2 k _ _ (List.getElem?_eq_getElem hky) (List.getElem?_eq_getElem hk) (fun h => e h.symm)

theorem pick_run [LinearOrder L] {y : Larry L} (hy : y.Valid) {b : Int} {bx : Nat} (hb : pyIdx y.ndim b = some bx)
    {l lab : List L} (hl : y.label[bx]? = some l) {p : Pick L} (hp : PickLeaves l lab p) :
    ∃ z, p.run y b = .ok z ∧ z.PartOf y (y.label.set bx lab) := by
  cases p with
  | take is =>
    obtain ⟨ks, h1, h2, h3⟩ := hp
    obtain ⟨z, lab', h4, h5, h6⟩ := C34_take hy hb hl h1 h2
    have : lab' = lab := by
      have := h5.trans h3.symm
      exact List.map_injective_iff.mpr (Option.some_injective _) this
    subst this
    exact ⟨z, h4, h6⟩
  | flipaxis =>
    simp only [PickLeaves] at hp
    subst hp
    obtain ⟨z, h1, h2, h3, h4, h5, h6⟩ := C25_flipaxis hy (axesMeant_one hb)
    have hlab : z.label = y.label.set bx l.reverse := label_of_set h4
      (fun l' h => (h5 bx l l' hl h).1 (by simp)) (fun k m m' h h' hk => (h5 k m m' h h').2 (by simpa using hk))
    exact ⟨z, h1, hlab, h2, h3, fun names v => ⟨fun h => ⟨by rw [← hlab]; exact Named_of_Holds h, (h6 _ _).mp h⟩,
      fun h => (h6 _ _).mpr h.2⟩⟩
  | sortaxis r =>
    obtain ⟨hp1, hp2⟩ := hp
    obtain ⟨z, h1, h2, h3, h4, h5, h6⟩ := C24_sortaxis hy r (axesMeant_one hb)
    have hlab : z.label = y.label.set bx lab := label_of_set h4
      (fun l' h => by
        obtain ⟨g1, g2⟩ := (h5 bx l l' hl h).1 (by simp)
        exact g2.unique hp2 (g1.trans hp1.symm))
      (fun k m m' h h' hk => (h5 k m m' h h').2 (by simpa using hk))
    exact ⟨z, h1, hlab, h2, h3, fun names v => ⟨fun h => ⟨by rw [← hlab]; exact Named_of_Holds h, (h6 _ _).mp h⟩,
      fun h => (h6 _ _).mpr h.2⟩⟩
  | keepLabel op =>
    obtain ⟨h1, h2, h3, h4⟩ := hp
    obtain ⟨b0, hb0⟩ := List.exists_mem_of_ne_nil lab h2
    obtain ⟨z, lab', g1, g2, g3, g4⟩ := (C38_keep_label hy h1 hb hl).2 ⟨b0, (h4 b0).mp hb0⟩
    have : lab' = lab := sublist_eq_of_mem (hy.nodup l (List.mem_of_getElem? hl)) g3 h3
      (fun x => (g4 x).trans (h4 x).symm)
    subst this
    exact ⟨z, g1, g2⟩
  | morph ls =>
    obtain ⟨rfl, h1, h2, h3⟩ := hp
    exact Larry.morph_sub hy h1 hb hl h2 h3

theorem fullLines_of_part {z y : Larry L} {ax : Nat} {lab : List (List L)} (h : z.PartOf y lab)
    (hlen : lab.length = y.label.length) (hax : lab[ax]? = y.label[ax]?) : FullLines ax z y :=
  ⟨h.dtype_eq, by rw [h.label_eq, hlen], by rw [h.label_eq, hax], fun names v hh => ((h.has names v).mp hh).2⟩

/-- C92. `take`, `flipaxis`, `sortaxis`, `keep_label` and `morph` on one axis commute with a calculation along
another: picking first and calculating on the part gives the larry that calculating on the whole and then
picking gives. -/
theorem C92_commute [LinearOrder L] {y y' : Larry L} (hy : y.Valid) {axis b : Int} {ax bx : Nat}
    (hax : pyIdx y.ndim axis = some ax) (hb : pyIdx y.ndim b = some bx) (hne : bx ≠ ax) {l lab : List L}
    (hl : y.label[bx]? = some l) {p : Pick L} (hp : PickLeaves l lab p) {c : LineCall L}
    (hc : c.run y axis = .ok y') :
    ∃ z w w', p.run y b = .ok z ∧ c.run z axis = .ok w ∧ p.run y' b = .ok w' ∧ w.Same w' := by
  obtain ⟨z, h1, h2⟩ := pick_run hy hb hl hp
  have hf : FullLines ax z y := fullLines_of_part h2 (by simp) (by simp [hne])
  obtain ⟨hy', hlab⟩ := run_keeps hy hc
  have hn : y'.ndim = y.ndim := by rw [← hy'.label_length, ← hy.label_length, hlab]
  obtain ⟨w', h3, h4⟩ := pick_run hy' (hn ▸ hb) (hlab ▸ hl) hp
  have h5 := C92_part h2.valid hy hax hf c
  rw [hc] at h5
  generalize hr : c.run z axis = r at h5
  cases h5 with
  | ok hw =>
    obtain ⟨g1, g2⟩ := run_keeps h2.valid hr
    refine ⟨z, _, w', h1, hr, h3, g1.same_of_has h4.valid ?_ (hw.dtype_eq.trans h4.dtype_eq.symm) ?_⟩
    · rw [g2, h2.label_eq, h4.label_eq, hlab]
    · intro names v hh
      refine (h4.has names v).mpr ⟨?_, hw.cells _ _ hh⟩
      rw [hlab, ← h2.label_eq, ← g2]
      exact Named_of_Holds hh

/-- C92. When the calculation on the whole larry raises, so does the calculation on the part: the same
exception. -/
theorem C92_errors [LinearOrder L] {y z : Larry L} (hy : y.Valid) {axis b : Int} {ax bx : Nat}
    (hax : pyIdx y.ndim axis = some ax) (hb : pyIdx y.ndim b = some bx) (hne : bx ≠ ax) {l lab : List L}
    (hl : y.label[bx]? = some l) {p : Pick L} (hp : PickLeaves l lab p) (hz : p.run y b = .ok z) {c : LineCall L}
    (e : PyErr) : c.run y axis = .error e ↔ c.run z axis = .error e := by
  obtain ⟨z', h1, h2⟩ := pick_run hy hb hl hp
  rw [hz] at h1
  simp only [Except.ok.injEq] at h1
  subst h1
  have hf : FullLines ax z y := fullLines_of_part h2 (by simp) (by simp [hne])
  have h5 := C92_part h2.valid hy hax hf c
  generalize c.run z axis = r at h5
  generalize c.run y axis = s at h5
  cases h5 <;> simp

/-! ## Picks that look at the values -/

/-- C92. `vacuum`, which drops labels without a finite value, leaves whole lines along an axis it was told to
keep. -/
theorem C92_vacuum [LinearOrder L] {y : Larry L} (hy : y.Valid) (hd : y.dtype ≠ .str ∧ y.dtype ≠ .object)
    {axis : Int} {ax : Nat} (hax : pyIdx y.ndim axis = some ax) {keep : List Int} (hk : (ax : Int) ∈ keep)
    (c : LineCall L) :
    ∃ z, y.vacuum (some keep) = .ok z ∧ FullLines ax z y ∧ Together ax (c.run z axis) (c.run y axis) := by
  obtain ⟨l, hl, hlt⟩ := label_at hy hax
  obtain ⟨z, h1, h2⟩ := C39_vacuum hy hd (some keep)
  have hax' : z.label[ax]? = y.label[ax]? := by
    have hz := List.getElem?_eq_getElem (l := z.label) (i := ax) (by rw [h2.naxes]; exact hlt)
    rw [hz, hl, h2.others ax _ _ hl hz (fun h => h keep rfl hk)]
  have hf : FullLines ax z y := fullLines_of_part h2.part h2.naxes hax'
  exact ⟨z, h1, hf, C92_part h2.part.valid hy hax hf c⟩

/-- C92. So does `cut_missing(fraction, axis)` along `axis`, unless nothing is left. -/
theorem C92_cut_missing [LinearOrder L] {y z : Larry L} (hy : y.Valid) (hd : y.dtype ≠ .str ∧ y.dtype ≠ .object)
    {axis : Int} {ax : Nat} (hax : pyIdx y.ndim axis = some ax) {fraction : ℚ}
    (hz : y.cutMissing fraction (some axis) = .ok z) (hne : z.shape.prod ≠ 0) (c : LineCall L) :
    FullLines ax z y ∧ Together ax (c.run z axis) (c.run y axis) := by
  obtain ⟨l, hl, hlt⟩ := label_at hy hax
  obtain ⟨label', hc, h⟩ := C40_cut_missing hy hd fraction axis hax
  rcases h with ⟨-, h⟩ | ⟨-, z', h1, -, h3⟩
  · rw [hz] at h
    simp only [Except.ok.injEq] at h
    subst h
    exact absurd rfl hne
  · rw [hz] at h1
    simp only [Except.ok.injEq] at h1
    subst h1
    have hax' : label'[ax]? = y.label[ax]? := by
      have hz := List.getElem?_eq_getElem (l := label') (i := ax) (by rw [hc.naxes]; exact hlt)
      rw [hz, hl, hc.others ax _ _ hl hz (by simp)]
    have hf : FullLines ax z y := fullLines_of_part h3 hc.naxes hax'
    exact ⟨hf, C92_part h3.valid hy hax hf c⟩

/-! ## lag, moving functions and reductions -/

/-- C92. `lag` on a part is the part of the lagged larry. -/
theorem C92_lag {z y : Larry L} (hz : z.Valid) (hy : y.Valid) {axis : Int} {ax : Nat}
    (hax : pyIdx y.ndim axis = some ax) (h : FullLines ax z y) (k : Int) :
    ∃ z' y', z.lag k (some axis) = .ok z' ∧ y.lag k (some axis) = .ok y' ∧ z'.Valid ∧ FullLines ax z' y' := by
  obtain ⟨l, hl, hlt⟩ := label_at hy hax
  have hl' := h.axis_eq.trans hl
  have hltz : ax < z.label.length := by rw [h.naxes]; exact hlt
  have hax' : pyIdx z.ndim axis = some ax := by rw [h.ndim_eq hz hy]; exact hax
  obtain ⟨y0, y1, y2⟩ := C26_lag hy hax hl
  obtain ⟨z0, z1, z2⟩ := C26_lag hz hax' hl'
  rcases lt_trichotomy k 0 with hk | rfl | hk
  · obtain ⟨n, rfl⟩ : ∃ n : Nat, k = -(n : Int) := ⟨k.natAbs, by omega⟩
    obtain ⟨y', a1, a2, a3, a4, a5⟩ := y2 n (by omega)
    obtain ⟨z', b1, b2, b3, b4, b5⟩ := z2 n (by omega)
    refine ⟨z', y', b1, a1, b2, by rw [a3, b3, h.dtype_eq], by simp [a4, b4, h.naxes], by simp [a4, b4, hlt, hltz], ?_⟩
    intro names v hh
    have hN := Named_of_Holds hh
    rw [b4, Named_iff] at hN
    have hlen : names.length = z.label.length := by simpa using hN.1
    have hn := List.getElem?_eq_getElem (l := names) (i := ax) (by omega)
    have hm := hN.2 ax (l.take (l.length - n)) _ (by simp [hltz]) hn
    obtain ⟨i, hi, e⟩ := List.mem_iff_getElem.mp hm
    have hi' : i < l.length - n := by simp at hi; omega
    have e1 : l[i]? = some names[ax] := by rw [List.getElem?_eq_getElem (by omega), ← e]; simp
    have e2 : l[i + n]? = some (l[i + n]'(by omega)) := List.getElem?_eq_getElem _
    have e3 : names.set ax names[ax] = names := List.set_getElem_self _
    have := (b5 i _ _ names v e1 e2).mp (by rw [e3]; exact hh)
    have := (a5 i _ _ names v e1 e2).mpr (h.cells _ _ this)
    rwa [e3] at this
  · exact ⟨z, y, z0, y0, hz, h⟩
  · obtain ⟨n, rfl⟩ : ∃ n : Nat, k = (n : Int) := ⟨k.toNat, by omega⟩
    obtain ⟨y', a1, a2, a3, a4, a5⟩ := y1 n (by omega)
    obtain ⟨z', b1, b2, b3, b4, b5⟩ := z1 n (by omega)
    refine ⟨z', y', b1, a1, b2, by rw [a3, b3, h.dtype_eq], by simp [a4, b4, h.naxes], by simp [a4, b4, hlt, hltz], ?_⟩
    intro names v hh
    have hN := Named_of_Holds hh
    rw [b4, Named_iff] at hN
    have hlen : names.length = z.label.length := by simpa using hN.1
    have hn := List.getElem?_eq_getElem (l := names) (i := ax) (by omega)
    have hm := hN.2 ax (l.drop n) _ (by simp [hltz]) hn
    obtain ⟨i, hi, e⟩ := List.mem_iff_getElem.mp hm
    have hi' : i + n < l.length := by simp at hi; omega
    have e1 : l[i + n]? = some names[ax] := by
      rw [List.getElem?_eq_getElem hi', ← e]; simp [Nat.add_comm]
    have e2 : l[i]? = some (l[i]'(by omega)) := List.getElem?_eq_getElem _
    have e3 : names.set ax names[ax] = names := List.set_getElem_self _
    have := (b5 i _ _ names v e1 e2).mp (by rw [e3]; exact hh)
    have := (a5 i _ _ names v e1 e2).mpr (h.cells _ _ this)
    rwa [e3] at this

/-- C92. The moving functions (`move_func` and the methods made from it), however the two larrys lie in memory
and with either method. -/
theorem C92_move {f : List Val → Val} {z y : Larry L} (hz : z.Valid) (hy : y.Valid) {axis : Int} {ax : Nat}
    (hax : pyIdx y.ndim axis = some ax) (h : FullLines ax z y) {buf buf' : Int → Val} {arr arr' : Strided}
    (hsy : StoredAs y buf arr) (hsz : StoredAs z buf' arr') {m m' : MoveMethod}
    (hm : m = .loop ∨ m = .strides ∧ y.ndim ≤ 3) (hm' : m' = .loop ∨ m' = .strides ∧ z.ndim ≤ 3) {window : Nat}
    (hw : 1 ≤ window) {l : List L} (hl : y.label[ax]? = some l) (hn : window ≤ l.length) :
    ∃ z' y', z.moveFunc f buf' arr' window (some axis) m' = .ok z' ∧
      y.moveFunc f buf arr window (some axis) m = .ok y' ∧ z'.Valid ∧ FullLines ax z' y' := by
  have hax' : pyIdx z.ndim axis = some ax := by rw [h.ndim_eq hz hy]; exact hax
  obtain ⟨y', a1, a2, a3⟩ := C50_move_func (f := f) hy hsy hm hw hax hl hn
  obtain ⟨z', b1, b2, b3⟩ := C50_move_func (f := f) hz hsz hm' hw hax' (h.axis_eq.trans hl) hn
  refine ⟨z', y', b1, a1, b3.valid, h.along hz hl ?_ b3 a3 (b2.trans a2.symm)⟩
  intro vs i v v' _ h1 h2
  by_cases hi : i + 1 < window
  · rw [h1.1 hi, h2.1 hi]
  · rw [h1.2 (by omega), h2.2 (by omega)]

/-- Two results of a reduction that go together: the same number, or the cells of one with the values the other
has under the same names, or the same exception. -/
inductive ReducedTogether : Res (Out L) → Res (Out L) → Prop
  | scalar (v : Val) : ReducedTogether (.ok (.scalar v)) (.ok (.scalar v))
  | larry {z y : Larry L} (dtype_eq : z.dtype = y.dtype) (naxes : z.label.length = y.label.length)
      (cells : ∀ names v, z.Has names v → y.Has names v) : ReducedTogether (.ok (.larry z)) (.ok (.larry y))
  | error (e : PyErr) : ReducedTogether (.error e) (.error e)

theorem FullLines.reduced {z y z' y' : Larry L} {ax : Nat} (h : FullLines ax z y) {l : List L}
    (hl : y.label[ax]? = some l) {f : List Val → Val}
    (hz' : z'.label = z.label.eraseIdx ax) (hy' : y'.label = y.label.eraseIdx ax)
    (fz : ∀ rest v, z'.Has rest v ↔ Named z'.label rest ∧ ∃ vs, z.LineAt ax rest vs ∧ v = f vs)
    (fy : ∀ rest v, y'.Has rest v ↔ Named y'.label rest ∧ ∃ vs, y.LineAt ax rest vs ∧ v = f vs)
    (hne : l ≠ []) : ∀ names v, z'.Has names v → y'.Has names v := by
  intro rest v hh
  obtain ⟨hN, vs, hline, rfl⟩ := (fz rest v).mp hh
  refine (fy _ _).mpr ⟨?_, vs, h.lineAt hline, rfl⟩
  obtain ⟨b, hb⟩ := List.exists_mem_of_ne_nil l hne
  have hl' := h.axis_eq.trans hl
  have hlt := (List.getElem?_eq_some_iff.mp hl').1
  obtain ⟨l0, g1, g2, g3⟩ := hline
  rw [hl'] at g1
  simp only [Option.some.injEq] at g1
  subst g1
  obtain ⟨i, hi, e⟩ := List.mem_iff_getElem.mp hb
  have hz1 := g3 i b _ (by rw [List.getElem?_eq_getElem hi, e]) (List.getElem?_eq_getElem (by omega))
  have hyN := Named_iff.mp (Named_of_Holds (h.cells _ _ hz1))
  rw [hy', Named_iff]
  rw [hz', Named_iff] at hN
  have hrl : rest.length = z.label.length - 1 := by rw [hN.1, List.length_eraseIdx_of_lt hlt]
  have hlty : ax < y.label.length := by rw [← h.naxes]; exact hlt
  refine ⟨by rw [List.length_eraseIdx_of_lt hlty, hrl, h.naxes], fun k m n hm hn => ?_⟩
  rw [List.getElem?_eraseIdx] at hm
  split at hm
  · refine hyN.2 k m n hm ?_
    rw [List.getElem?_insertIdx_of_lt (by omega)]; exact hn
  · refine hyN.2 (k + 1) m n hm ?_
    rw [List.getElem?_insertIdx_of_gt (by omega)]; simpa using hn

/-- C92. Reductions (`sum`, `mean`, `median`, `std`, `var`, `max`, `min`, `any`, `all`, `lastrank`, each given by
its function on a line, its dtype rule and its default) along an axis of a part that has cells. -/
theorem C92_reduce (r : Red) {z y : Larry L} (hz : z.Valid) (hy : y.Valid) {axis : Int} {ax : Nat}
    (hax : pyIdx y.ndim axis = some ax) (h : FullLines ax z y) (hsz : z.shape.prod ≠ 0)
    (hsy : y.shape.prod ≠ 0) :
    ReducedTogether (z.reduce r (some axis)) (y.reduce r (some axis)) := by
  obtain ⟨l, hl, hlt⟩ := label_at hy hax
  have hnd := h.ndim_eq hz hy
  have hax' : pyIdx z.ndim axis = some ax := by rw [hnd]; exact hax
  have hne : l ≠ [] := by
    rintro rfl
    have := (shape_at hy hl)
    refine hsy (size_pos_iff.mpr ?_)
    obtain ⟨t1, t2⟩ := this
    have t3 : y.shape[ax]? = some 0 := by
      have := List.getElem?_eq_getElem (l := y.shape) (i := ax) t2
      rw [this]
      simpa [List.getD, this] using t1
    exact List.mem_of_getElem? t3
  cases hd : r.dt y.dtype with
  | error e =>
    rw [(C42_reduce_errors r (y := y) (some axis)).2 e hsy hd,
      (C42_reduce_errors r (y := z) (some axis)).2 e hsz (by rw [h.dtype_eq]; exact hd)]
    exact .error e
  | ok d =>
    have hd' : r.dt z.dtype = .ok d := by rw [h.dtype_eq]; exact hd
    by_cases h2 : 2 ≤ y.ndim
    · obtain ⟨y', a1, a2, a3, a4, a5⟩ := C42_reduce_axis r hy hd hsy hax h2
      obtain ⟨z', b1, b2, b3, b4, b5⟩ := C42_reduce_axis r hz hd' hsz hax' (by omega)
      rw [a1, b1]
      refine .larry (b3.trans a3.symm) ?_ (h.reduced hl b4 a4 b5 a5 hne)
      rw [a4, b4, List.length_eraseIdx_of_lt hlt, List.length_eraseIdx_of_lt (by rw [h.naxes]; exact hlt), h.naxes]
    · have h1 : y.ndim = 1 := by have := pyIdx_lt hax; omega
      have e : axis = 0 ∨ axis = -1 := by have := pyIdx_some.mp hax; omega
      have e' : ax = 0 := by have := pyIdx_lt hax; omega
      subst e'
      obtain ⟨vs, a1, a2⟩ := C42_reduce_1d r hy hd hsy h1 e
      obtain ⟨ws, b1, b2⟩ := C42_reduce_1d r hz hd' hsz (by omega) e
      rw [a2, b2, Larry.LineAt.unique hy (h.lineAt b1) a1]
      exact .scalar _

/-- C92. `prod` of floats along an axis. -/
theorem C92_prod {z y : Larry L} (hz : z.Valid) (hy : y.Valid) (hd : y.dtype = .float) {axis : Int} {ax : Nat}
    (hax : pyIdx y.ndim axis = some ax) (h : FullLines ax z y) (hsz : z.shape.prod ≠ 0)
    (hsy : y.shape.prod ≠ 0) :
    ReducedTogether (z.prod (some axis)) (y.prod (some axis)) := by
  obtain ⟨l, hl, hlt⟩ := label_at hy hax
  have hnd := h.ndim_eq hz hy
  have hax' : pyIdx z.ndim axis = some ax := by rw [hnd]; exact hax
  have hd' : z.dtype = .float := by rw [h.dtype_eq]; exact hd
  have hne : l ≠ [] := by
    rintro rfl
    have := (shape_at hy hl)
    refine hsy (size_pos_iff.mpr ?_)
    obtain ⟨t1, t2⟩ := this
    have t3 : y.shape[ax]? = some 0 := by
      have := List.getElem?_eq_getElem (l := y.shape) (i := ax) t2
      rw [this]
      simpa [List.getD, this] using t1
    exact List.mem_of_getElem? t3
  by_cases h2 : 2 ≤ y.ndim
  · obtain ⟨y', a1, a2, a3, a4, a5⟩ := C44_prod_axis hy hd hsy hax h2
    obtain ⟨z', b1, b2, b3, b4, b5⟩ := C44_prod_axis hz hd' hsz hax' (by omega)
    rw [a1, b1]
    refine .larry (b3.trans a3.symm) ?_ (h.reduced hl b4 a4 b5 a5 hne)
    rw [a4, b4, List.length_eraseIdx_of_lt hlt, List.length_eraseIdx_of_lt (by rw [h.naxes]; exact hlt), h.naxes]
  · have h1 : y.ndim = 1 := by have := pyIdx_lt hax; omega
    have e : axis = 0 ∨ axis = -1 := by have := pyIdx_some.mp hax; omega
    have e' : ax = 0 := by have := pyIdx_lt hax; omega
    subst e'
    obtain ⟨vs, a1, a2⟩ := C44_prod_1d hy hd hsy h1 e
    obtain ⟨ws, b1, b2⟩ := C44_prod_1d hz hd' hsz (by omega) e
    rw [a2, b2, Larry.LineAt.unique hy (h.lineAt b1) a1]
    exact .scalar _

/-! ## A case -/

/-- `exA` has the labels 3, 1, 2 on axis 1; the positions 2 and 0 are picked there and a running sum goes down
axis 0. -/
example : exA.Valid ∧ pyIdx exA.ndim 0 = some 0 ∧ pyIdx exA.ndim (-1) = some 1 ∧ (1 : Nat) ≠ 0 ∧
    exA.label[1]? = some [3, 1, 2] ∧ PickLeaves [3, 1, 2] [2, 3] (.take [2, 0]) ∧
    PickLeaves [3, 1, 2] [2, 1, 3] .flipaxis ∧ PickLeaves [3, 1, 2] [1, 2] (.keepLabel (.lt 3)) ∧
    ∃ y', LineCall.run exA 0 .cumsum = .ok y' ∧ y'.Has [20, 2] (fl 9) := by
  refine ⟨exA_valid, by decide, by decide, by decide, rfl, ⟨[2, 0], ?_, by decide, rfl⟩, rfl,
    ⟨by simp, by simp, ?_, ?_⟩, _, rfl, [1, 2], ?_, by decide +kernel⟩
  · exact .cons (by decide) (.cons (by decide) .nil)
  · exact List.sublist_cons_self _ _
  · intro b
    simp only [Wanted, List.mem_cons, List.not_mem_nil, or_false]
    omega
  · exact ⟨rfl, rfl, trivial⟩

/-- Two larrys as `C92_part` wants them: the second column of `exA` and `exA`. -/
example : ∃ z, exA.take [1] 1 = .ok z ∧ z.Valid ∧ FullLines 0 z exA ∧ z.shape.prod ≠ 0 ∧ exA.shape.prod ≠ 0 := by
  obtain ⟨z, h1, h2⟩ := pick_run (p := .take [1]) exA_valid (b := 1) (bx := 1) (by decide) (l := [3, 1, 2])
    (lab := [1]) rfl ⟨[1], .cons (by decide) .nil, by decide, rfl⟩
  refine ⟨z, h1, h2.valid, fullLines_of_part h2 (by simp) (by simp), ?_, by decide⟩
  have : z.x.shape = [2, 1] := by rw [h2.valid.shape_eq, h2.label_eq]; rfl
  simp [Larry.shape, this]

end La
