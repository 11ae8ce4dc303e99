import Verif.Props.AnyOrder
import Verif.Props.Reorder

/-!
# C112: no axis is special

A larry can be turned: its axes put in another order, with the labels and the cells that go with them.  A call
along an axis gives the turned larry, along the same axis in its new place, the turned result.
-/

namespace La
variable {L : Type _}

/-! ## Specification -/

/-- The entries of `l` in the order `σ`. -/
def turn {α : Type _} (σ : List Nat) (l : List α) : List α := σ.filterMap (fun k : Nat => l[k]?)

/-- `z` is `y` with its axes in the order `σ`: axis `k` of `z` is axis `σ[k]` of `y`. -/
structure Larry.Turned (σ : List Nat) (y z : Larry L) : Prop where
  order : σ.Perm (List.range y.ndim)
  dtype : z.dtype = y.dtype
  label : z.label = turn σ y.label
  has : ∀ names v, names.length = y.ndim → (z.Has (turn σ names) v ↔ y.Has names v)

/-- What is left of an order of the axes without axis `ax`. -/
def without (ax : Nat) (σ : List Nat) : List Nat :=
  (σ.filter (· ≠ ax)).map (fun k => if k < ax then k else k - 1)

/-- Two results that go together: the same exception, or larrys of which the second is the first turned. -/
inductive Turns (σ : List Nat) : Res (Larry L) → Res (Larry L) → Prop
  | ok {y z : Larry L} (h : y.Turned σ z) : Turns σ (.ok y) (.ok z)
  | error (e : PyErr) : Turns σ (.error e) (.error e)

/-! ## Orders -/

theorem turn_get {α : Type _} {σ : List Nat} {l : List α} (h : ∀ k ∈ σ, k < l.length) (j : Nat) :
    (turn σ l)[j]? = (σ[j]?).bind (fun k : Nat => l[k]?) := by
  induction σ generalizing j with
  | nil => simp [turn]
  | cons k σ ih =>
    have hk := h k (by simp)
    have : turn (k :: σ) l = l[k] :: turn σ l := by
      simp [turn, List.getElem?_eq_getElem hk]
    rw [this]
    cases j with
    | zero => simp [List.getElem?_eq_getElem hk]
    | succ j => simpa using ih (fun k hk => h k (by simp [hk])) j

theorem turn_length {α : Type _} {σ : List Nat} {l : List α} (h : ∀ k ∈ σ, k < l.length) :
    (turn σ l).length = σ.length := by
  induction σ with
  | nil => rfl
  | cons k σ ih =>
    have hk := h k (by simp)
    have : turn (k :: σ) l = l[k] :: turn σ l := by simp [turn, List.getElem?_eq_getElem hk]
    rw [this]
    simp [ih (fun k hk => h k (by simp [hk]))]

theorem turn_append {α : Type _} (s t : List Nat) (l : List α) : turn (s ++ t) l = turn s l ++ turn t l := by
  simp [turn]

theorem order_mem {σ : List Nat} {n : Nat} (h : σ.Perm (List.range n)) {k : Nat} : k ∈ σ ↔ k < n := by
  rw [h.mem_iff, List.mem_range]

theorem order_nodup {σ : List Nat} {n : Nat} (h : σ.Perm (List.range n)) : σ.Nodup :=
  h.nodup_iff.mpr List.nodup_range

theorem order_length {σ : List Nat} {n : Nat} (h : σ.Perm (List.range n)) : σ.length = n := by
  simpa using h.length_eq

theorem split_order {σ : List Nat} {bx ax : Nat} (hs : σ.Nodup) (hb : σ[bx]? = some ax) :
    ∃ s t, σ = s ++ ax :: t ∧ s.length = bx ∧ ax ∉ s ∧ ax ∉ t := by
  obtain ⟨hlt, hget⟩ := List.getElem?_eq_some_iff.mp hb
  refine ⟨σ.take bx, σ.drop (bx + 1), ?_, by simp; omega, ?_, ?_⟩
  · rw [← hget]; simp
  all_goals
    have e : σ = σ.take bx ++ ax :: σ.drop (bx + 1) := by rw [← hget]; simp
    rw [e, List.nodup_append, List.nodup_cons] at hs
  · intro hm
    exact hs.2.2 ax hm ax (by simp) rfl
  · exact hs.2.1.1

theorem insertIdx_length_append {α : Type _} (s t : List α) (b : α) : (s ++ t).insertIdx s.length b = s ++ b :: t := by
  induction s with
  | nil => simp
  | cons a s ih => simp [ih]

theorem without_split {ax : Nat} {s t : List Nat} :
    without ax (s ++ ax :: t) = without ax s ++ without ax t := by
  simp [without]

theorem without_none {ax : Nat} {s : List Nat} (h : ax ∉ s) :
    without ax s = s.map (fun k => if k < ax then k else k - 1) := by
  unfold without
  rw [List.filter_eq_self.mpr]
  intro k hk
  simp only [ne_eq, decide_not, Bool.not_eq_eq_eq_not, Bool.not_true, decide_eq_false_iff_not]
  rintro rfl
  exact h hk

theorem without_turn {α : Type _} {ax : Nat} {s : List Nat} (h : ax ∉ s) {rest : List α}
    (b : α) : turn s (rest.insertIdx ax b) = turn (without ax s) rest := by
  rw [without_none h]
  unfold turn
  rw [List.filterMap_map]
  refine List.filterMap_congr fun k hk => ?_
  have hne : k ≠ ax := fun e => h (e ▸ hk)
  simp only [Function.comp]
  rw [List.getElem?_insertIdx, if_neg hne]
  split <;> rfl

theorem without_perm {σ : List Nat} {n ax bx : Nat} (h : σ.Perm (List.range (n + 1))) (hb : σ[bx]? = some ax) :
    (without ax σ).Perm (List.range n) := by
  have hax : ax < n + 1 := (order_mem h).mp (List.mem_of_getElem? hb)
  rw [List.perm_ext_iff_of_nodup _ List.nodup_range]
  · intro k
    simp only [without, List.mem_map, List.mem_filter, List.mem_range, order_mem h, ne_eq, decide_not,
      Bool.not_eq_eq_eq_not, Bool.not_true, decide_eq_false_iff_not]
    constructor
    · rintro ⟨m, ⟨h1, h2⟩, rfl⟩
      split <;> omega
    · intro hk
      by_cases hlt : k < ax
      · exact ⟨k, ⟨by omega, by omega⟩, if_pos hlt⟩
      · exact ⟨k + 1, ⟨by omega, by omega⟩, by rw [if_neg (by omega)]; omega⟩
  · refine (List.nodup_map_iff_inj_on ((order_nodup h).filter _)).mpr ?_
    intro x hx y hy
    simp only [List.mem_filter, ne_eq, decide_not, Bool.not_eq_eq_eq_not, Bool.not_true,
      decide_eq_false_iff_not] at hx hy
    split <;> split <;> omega

theorem turn_insertIdx {α : Type _} {σ : List Nat} {n ax bx : Nat} (h : σ.Perm (List.range (n + 1)))
    (hb : σ[bx]? = some ax) {rest : List α} (hr : rest.length = n) (b : α) :
    turn σ (rest.insertIdx ax b) = (turn (without ax σ) rest).insertIdx bx b := by
  have hax : ax < n + 1 := (order_mem h).mp (List.mem_of_getElem? hb)
  obtain ⟨s, t, rfl, rfl, hs, ht⟩ := split_order (order_nodup h) hb
  have hm := fun k => (order_mem h (k := k)).mp
  rw [without_split, turn_append, turn_append]
  have e1 : turn (ax :: t) (rest.insertIdx ax b) = b :: turn t (rest.insertIdx ax b) := by
    simp only [turn, List.filterMap_cons]
    rw [List.getElem?_insertIdx_self, if_pos (by omega)]
  rw [e1, without_turn hs, without_turn ht]
  have hlen : (turn (without ax s) rest).length = s.length := by
    rw [turn_length, without_none hs, List.length_map]
    intro k hk
    rw [without_none hs, List.mem_map] at hk
    obtain ⟨m, h1, rfl⟩ := hk
    have h2 := hm m (by simp [h1])
    have h3 : m ≠ ax := fun e => hs (e ▸ h1)
    split <;> omega
  rw [← hlen, insertIdx_length_append]

/-! ## Turned larrys -/

namespace Larry.Turned

theorem valid_order {σ : List Nat} {y z : Larry L} (h : y.Turned σ z) (hy : y.Valid) :
    ∀ k ∈ σ, k < y.label.length := fun k hk => by
  rw [hy.label_length]
  exact (order_mem h.order).mp hk

theorem ndim_eq {σ : List Nat} {y z : Larry L} (h : y.Turned σ z) (hy : y.Valid) (hz : z.Valid) :
    z.ndim = y.ndim := by
  rw [← hz.label_length, h.label, turn_length (h.valid_order hy), order_length h.order]

theorem axis_eq {σ : List Nat} {y z : Larry L} (h : y.Turned σ z) (hy : y.Valid) {ax bx : Nat}
    (hb : σ[bx]? = some ax) : z.label[bx]? = y.label[ax]? := by
  rw [h.label, turn_get (h.valid_order hy), hb]
  rfl

theorem named {σ : List Nat} {y z : Larry L} (h : y.Turned σ z) {names : List L} (hn : names.length = y.ndim) :
    Named z.label (turn σ names) ↔ Named y.label names := by
  constructor <;> intro hN
  · obtain ⟨w, hw⟩ := Holds_of_Named (x := z.x) hN
    exact Named_of_Holds ((h.has _ _ hn).mp hw)
  · obtain ⟨w, hw⟩ := Holds_of_Named (x := y.x) hN
    exact Named_of_Holds ((h.has _ _ hn).mpr hw)

theorem lineAt {σ : List Nat} {y z : Larry L} (h : y.Turned σ z) (hy : y.Valid) {ax bx : Nat}
    (hb : σ[bx]? = some ax) {rest : List L} (hr : rest.length + 1 = y.ndim) {vs : List Val} :
    z.LineAt bx (turn (without ax σ) rest) vs ↔ y.LineAt ax rest vs := by
  have ho : σ.Perm (List.range (rest.length + 1)) := hr ▸ h.order
  have hax : ax < rest.length + 1 := (order_mem ho).mp (List.mem_of_getElem? hb)
  have e := fun b : L => turn_insertIdx ho hb rfl b
  have hlen := fun b : L => (List.length_insertIdx_of_le_length (a := b) (Nat.lt_succ_iff.mp hax)).trans hr
  unfold Larry.LineAt
  simp only [← e, h.axis_eq hy hb]
  constructor
  · rintro ⟨l, h1, h2, h3⟩
    exact ⟨l, h1, h2, fun i b w hb hw => (h.has _ _ (hlen b)).mp (h3 i b w hb hw)⟩
  · rintro ⟨l, h1, h2, h3⟩
    exact ⟨l, h1, h2, fun i b w hb hw => (h.has _ _ (hlen b)).mpr (h3 i b w hb hw)⟩

theorem along {σ : List Nat} {y z y' z' : Larry L} (h : y.Turned σ z) (hy : y.Valid) {ax bx : Nat}
    (hb : σ[bx]? = some ax) {l : List L} (hl : y.label[ax]? = some l) {R : List Val → Nat → Val → Prop}
    (hR : ∀ vs i v v', i < vs.length → R vs i v → R vs i v' → v = v')
    (hy' : y.Along y' ax R) (hz' : z.Along z' bx R) (hd : z'.dtype = y'.dtype) : y'.Turned σ z' := by
  have hnd : y'.ndim = y.ndim := by rw [← hy'.valid.label_length, ← hy.label_length, hy'.label_eq]
  have hlz := (h.axis_eq hy hb).trans hl
  have key : ∀ names u v, names.length = y.ndim → y'.Has names u → z'.Has (turn σ names) v → u = v := by
    intro names u v hn hu hv
    have hN : Named y.label names := by rw [← hy'.label_eq]; exact Named_of_Holds hu
    obtain ⟨rest, vs, i, b, rfl, hline, hbi, hi⟩ := FullLines.split_names hy hl hN
    have hax : ax < y.ndim := (order_mem h.order).mp (List.mem_of_getElem? hb)
    have hr : rest.length + 1 = y.ndim := by
      rw [List.length_insertIdx] at hn
      split at hn <;> omega
    have e := turn_insertIdx (hr ▸ h.order : σ.Perm (List.range (rest.length + 1))) hb rfl b
    rw [e] at hv
    exact hR _ _ _ _ hi (hy'.cell rest vs l i b u hline hl hbi hu)
      (hz'.cell _ vs l i b v ((h.lineAt hy hb hr).mpr hline) hlz hbi hv)
  refine ⟨hnd ▸ h.order, hd, by rw [hz'.label_eq, hy'.label_eq, h.label], ?_⟩
  intro names v hn
  rw [hnd] at hn
  have hNN := h.named hn
  constructor
  · intro hv
    have hN : Named y'.label names := by
      rw [hy'.label_eq, ← hNN, ← hz'.label_eq]; exact Named_of_Holds hv
    obtain ⟨u, hu⟩ := Holds_of_Named (x := y'.x) hN
    rwa [← key names u v hn hu hv]
  · intro hu
    have hN : Named z'.label (turn σ names) := by
      rw [hz'.label_eq, hNN, ← hy'.label_eq]; exact Named_of_Holds hu
    obtain ⟨v', hv⟩ := Holds_of_Named (x := z'.x) hN
    rwa [key names v v' hn hu hv]

theorem along_same {σ : List Nat} {y z : Larry L} (h : y.Turned σ z) (hy : y.Valid) (hz : z.Valid) {ax bx : Nat}
    (hb : σ[bx]? = some ax) {l : List L} (hl : y.label[ax]? = some l) (f : List Val → List Val) (d : DType) :
    (y.along f d ax).Turned σ (z.along f d bx) :=
  h.along hy hb hl (R := fun vs i v => v = (f vs).getD i .none) (fun _ _ _ _ _ h1 h2 => h1.trans h2.symm)
    (along_getD hy hl f d) (along_getD hz ((h.axis_eq hy hb).trans hl) f d) rfl

end Larry.Turned

theorem cumulate_turns {op : DType → Val → Val → Val} {unit : Int} {σ : List Nat} {y z : Larry L} {a b : Int}
    {ax bx : Nat} (h : y.Turned σ z) (hy : y.Valid) (hz : z.Valid) (ha : pyIdx y.ndim a = some ax)
    (hb : pyIdx z.ndim b = some bx) (hs : σ[bx]? = some ax) {l : List L} (hl : y.label[ax]? = some l) :
    Turns σ (y.cumulate op unit (some a)) (z.cumulate op unit (some b)) := by
  unfold Larry.cumulate
  simp only [h.dtype, npAxis, ha, hb]
  split
  · exact .error _
  · exact .ok (h.along hy hs hl (fun _ _ _ _ _ h1 h2 => h1.trans h2.symm) (along_cumulate hy hl _ _ _)
      (along_cumulate hz ((h.axis_eq hy hs).trans hl) _ _ _) rfl)

theorem groupBy_turns [LinearOrder L] {sort f : List Val → List Val} {g : Larry L} {σ : List Nat} {y z : Larry L}
    {a b : Int} {ax bx : Nat} (h : y.Turned σ z) (hy : y.Valid) (hz : z.Valid) (ha : pyIdx y.ndim a = some ax)
    (hb : pyIdx z.ndim b = some bx) (hs : σ[bx]? = some ax) {l : List L} (hl : y.label[ax]? = some l) :
    Turns σ (y.groupBy sort f g a) (z.groupBy sort f g b) := by
  have hg : z.groupAlign g b = y.groupAlign g a := by
    unfold Larry.groupAlign
    rw [hz.label_length, hy.label_length, ha, hb]
    have e : z.label.getD bx [] = y.label.getD ax [] := by simp only [List.getD, h.axis_eq hy hs]
    simp only [e]
  unfold Larry.groupBy
  rw [hg, ha, hb, h.dtype]
  cases y.groupAlign g a with
  | error e => exact .error _
  | ok groups =>
    dsimp only
    split
    · exact .error _
    · exact .ok (h.along_same hy hz hs hl _ _)

/-- C112. A calculation along an axis gives the turned larry, along the same axis in its new place, the turned
result: the same numbers under the same names, the same dtype and the same exceptions. -/
theorem C112_line [LinearOrder L] {σ : List Nat} {y z : Larry L} (hy : y.Valid) (hz : z.Valid) (h : y.Turned σ z)
    {a b : Int} {ax bx : Nat} (ha : pyIdx y.ndim a = some ax) (hb : pyIdx z.ndim b = some bx)
    (hs : σ[bx]? = some ax) (c : LineCall L) : Turns σ (c.run y a) (c.run z b) := by
  obtain ⟨l, hl, -⟩ := label_at hy ha
  have hsy := (shape_at hy hl).1
  have hsz := (shape_at hz ((h.axis_eq hy hs).trans hl)).1
  cases c with
  | cumsum => exact cumulate_turns h hy hz ha hb hs hl
  | cumprod => exact cumulate_turns h hy hz ha hb hs hl
  | push w =>
    simp only [LineCall.run, Larry.push, npAxis, ha, hb, h.dtype]
    split
    · exact .error _
    · exact .ok (h.along_same hy hz hs hl _ _)
  | ranking n =>
    simp only [LineCall.run, Larry.ranking, ha, hb, h.dtype]
    split
    · exact .error _
    · cases n <;> first | exact .error _ | exact .ok (h.along_same hy hz hs hl _ _)
  | quantile f q =>
    simp only [LineCall.run, Larry.quantile, ha, hb, h.dtype, hsy, hsz]
    split
    · exact .error _
    · split
      · exact .error _
      · split
        · exact .ok (h.along hy hs hl (fun _ _ _ _ _ h1 h2 => h1.trans h2.symm) (quantile1_along hy hl _ _)
            (quantile1_along hz ((h.axis_eq hy hs).trans hl) _ _) rfl)
        · split
          · exact .error _
          · exact .ok (h.along_same hy hz hs hl _ _)
  | demean c =>
    simp only [LineCall.run, Larry.demean, npAxis, ha, hb, h.dtype]
    split
    · exact .error _
    · exact .ok (h.along_same hy hz hs hl _ _)
  | zscore s =>
    simp only [LineCall.run, Larry.zscore, npAxis, ha, hb, h.dtype]
    split
    · exact .error _
    · exact .ok (h.along_same hy hz hs hl _ _)
  | movingsumForward w s n =>
    simp only [LineCall.run, Larry.movingsumForward, ha, hb, h.dtype, hsy, hsz]
    repeat' split
    all_goals first | exact .error _ | exact .ok (h.along_same hy hz hs hl _ _)
  | moveBn k w =>
    simp only [LineCall.run, MoveKind.run_eq, Larry.moveBn, ha, hb, h.dtype, hsy, hsz]
    repeat' split
    all_goals first | exact .error _ | exact .ok (h.along_same hy hz hs hl _ _)
  | groupRanking s g => exact groupBy_turns h hy hz ha hb hs hl
  | groupMean s g => exact groupBy_turns h hy hz ha hb hs hl
  | groupMedian s m g => exact groupBy_turns h hy hz ha hb hs hl

/-! ## Orders can be undone -/

theorem turn_map {α β : Type _} (σ : List Nat) (f : α → β) (l : List α) : turn σ (l.map f) = (turn σ l).map f := by
  simp [turn, List.map_filterMap]

theorem turn_set {α : Type _} {σ : List Nat} {l : List α} (h : σ.Perm (List.range l.length)) {ax bx : Nat}
    (hb : σ[bx]? = some ax) (a : α) : turn σ (l.set ax a) = (turn σ l).set bx a := by
  have hlt := fun k (hk : k ∈ σ) => (order_mem h).mp hk
  refine List.ext_getElem? fun j => ?_
  rw [turn_get (by simpa using hlt), List.getElem?_set, turn_length hlt]
  by_cases hj : bx = j
  · subst hj
    rw [if_pos rfl, hb, if_pos (List.getElem?_eq_some_iff.mp hb).1]
    simp [hlt ax (List.mem_of_getElem? hb)]
  · rw [if_neg hj, turn_get hlt]
    cases hk : σ[j]? with
    | none => rfl
    | some k =>
      have hne : ax ≠ k := by
        rintro rfl
        obtain ⟨h1, h2⟩ := List.getElem?_eq_some_iff.mp hb
        obtain ⟨h3, h4⟩ := List.getElem?_eq_some_iff.mp hk
        exact hj ((order_nodup h).getElem_inj_iff.mp (h2.trans h4.symm))
      simp [List.getElem?_set_ne hne]

/-- The order that undoes `σ`. -/
def unturn (σ : List Nat) : List Nat := (List.range σ.length).map (fun k => σ.idxOf k)

theorem turn_unturn {α : Type _} {σ : List Nat} {l : List α} (h : σ.Perm (List.range l.length)) :
    turn σ (turn (unturn σ) l) = l ∧ turn (unturn σ) (turn σ l) = l := by
  have hn := order_length h
  have hlt := fun k (hk : k ∈ σ) => (order_mem h).mp hk
  have hu : ∀ k ∈ unturn σ, k < l.length := by
    intro k hk
    obtain ⟨m, hm, rfl⟩ := List.mem_map.mp hk
    rw [← hn]
    exact List.idxOf_lt_length_iff.mpr ((order_mem h).mpr (by rw [← hn]; exact List.mem_range.mp hm))
  have hul : (unturn σ).length = l.length := by simp [unturn, hn]
  have hug : ∀ k : Nat, k < l.length → (unturn σ)[k]? = some (σ.idxOf k) := by
    intro k hk
    simp [unturn, hn, hk]
  have h1 : ∀ k ∈ σ, k < (turn (unturn σ) l).length := by rw [turn_length hu, hul]; exact hlt
  have h2 : ∀ k ∈ unturn σ, k < (turn σ l).length := by rw [turn_length hlt, hn]; exact hu
  constructor
  · refine List.ext_getElem? fun j => ?_
    rw [turn_get h1]
    by_cases hj : j < σ.length
    · rw [List.getElem?_eq_getElem hj, Option.bind_some, turn_get hu, hug _ (hlt _ (List.getElem_mem hj)),
        Option.bind_some, (order_nodup h).idxOf_getElem]
    · rw [List.getElem?_eq_none (by omega), List.getElem?_eq_none (by omega)]
      rfl
  · refine List.ext_getElem? fun j => ?_
    rw [turn_get h2]
    by_cases hj : j < l.length
    · have hm : σ.idxOf j < σ.length := List.idxOf_lt_length_iff.mpr ((order_mem h).mpr hj)
      rw [hug j hj, Option.bind_some, turn_get hlt, List.getElem?_eq_getElem hm, Option.bind_some,
        List.getElem_idxOf]
    · rw [List.getElem?_eq_none (by omega), List.getElem?_eq_none (by omega)]
      rfl

theorem turn_inj {α : Type _} {σ : List Nat} {l m : List α} (h : σ.Perm (List.range l.length))
    (hm : m.length = l.length) (he : turn σ l = turn σ m) : l = m := by
  rw [← (turn_unturn h).2, he, (turn_unturn (hm ▸ h : σ.Perm (List.range m.length))).2]

theorem turn_perm {α : Type _} {σ : List Nat} {l : List α} (h : σ.Perm (List.range l.length)) :
    (turn σ l).Perm l := by
  have e : turn (List.range l.length) l = l := by
    refine List.ext_getElem? fun j => ?_
    rw [turn_get (by simp)]
    by_cases hj : j < l.length
    · simp [hj]
    · rw [List.getElem?_eq_none (by simpa using hj), List.getElem?_eq_none (by omega)]
      rfl
  have := h.filterMap (fun k : Nat => l[k]?)
  exact this.trans (by rw [show List.filterMap (fun k : Nat => l[k]?) (List.range l.length) = l from e])

theorem turn_named {σ : List Nat} {label : List (List L)} {names : List L} (h : σ.Perm (List.range label.length))
    (hn : names.length = label.length) : Named (turn σ label) (turn σ names) ↔ Named label names := by
  have h1 := fun k (hk : k ∈ σ) => (order_mem h).mp hk
  have h2 : ∀ k ∈ σ, k < names.length := by rw [hn]; exact h1
  rw [Named_iff, Named_iff, turn_length h1, turn_length h2]
  simp only [hn, true_and, turn_get h1, turn_get h2]
  constructor
  · intro hh k l n hk hk'
    have hm : k ∈ σ := (order_mem h).mpr (List.getElem?_eq_some_iff.mp hk).1
    obtain ⟨j, hj⟩ := List.mem_iff_getElem?.mp hm
    exact hh j l n (by rw [hj]; exact hk) (by rw [hj]; exact hk')
  · intro hh j l n hj hj'
    cases hk : σ[j]? with
    | none => rw [hk] at hj; simp at hj
    | some k =>
      rw [hk] at hj hj'
      exact hh k l n hj hj'

theorem turned_of {σ : List Nat} {y z : Larry L} (hy : y.Valid) (ho : σ.Perm (List.range y.ndim))
    (hd : z.dtype = y.dtype) (hl : z.label = turn σ y.label)
    (h : ∀ names u v, y.Has names u → z.Has (turn σ names) v → u = v) : y.Turned σ z := by
  refine ⟨ho, hd, hl, fun names v hn => ?_⟩
  have hN : Named z.label (turn σ names) ↔ Named y.label names := by
    rw [hl]
    exact turn_named (by rw [hy.label_length]; exact ho) (by rw [hy.label_length]; exact hn)
  constructor
  · intro hv
    obtain ⟨u, hu⟩ := Holds_of_Named (x := y.x) (hN.mp (Named_of_Holds hv))
    rwa [← h names u v hu hv]
  · intro hu
    obtain ⟨w, hw⟩ := Holds_of_Named (x := z.x) (hN.mpr (Named_of_Holds hu))
    rwa [h names v w hu hw]

namespace Larry.Turned

/-- There is only one larry that is `y` turned. -/
theorem same {σ : List Nat} {y z w : Larry L} (h : y.Turned σ z) (h' : y.Turned σ w) (hy : y.Valid) (hz : z.Valid)
    (hw : w.Valid) : z.Same w := by
  refine hz.same_of_has hw (h.label.trans h'.label.symm) (h.dtype.trans h'.dtype.symm) fun names v hv => ?_
  have hlen : names.length = y.ndim := by
    rw [(Named_iff.mp (Named_of_Holds hv)).1, hz.label_length, h.ndim_eq hy hz]
  have ho : σ.Perm (List.range names.length) := hlen ▸ h.order
  obtain ⟨e, -⟩ := turn_unturn ho
  have hl' : (turn (unturn σ) names).length = y.ndim := by
    rw [turn_length, unturn, List.length_map, List.length_range, order_length h.order]
    intro k hk
    obtain ⟨m, hm, rfl⟩ := List.mem_map.mp hk
    rw [hlen, ← order_length h.order]
    exact List.idxOf_lt_length_iff.mpr ((order_mem h.order).mpr (by
      rw [← order_length h.order]; exact List.mem_range.mp hm))
  rw [← e] at hv ⊢
  exact (h'.has _ _ hl').mpr ((h.has _ _ hl').mp hv)

theorem shape_eq {σ : List Nat} {y z : Larry L} (h : y.Turned σ z) (hy : y.Valid) (hz : z.Valid) :
    z.x.shape = turn σ y.x.shape := by
  rw [hz.shape_eq, hy.shape_eq, turn_map, h.label]

theorem size_eq {σ : List Nat} {y z : Larry L} (h : y.Turned σ z) (hy : y.Valid) (hz : z.Valid) :
    z.x.shape.prod = y.x.shape.prod := by
  rw [h.shape_eq hy hz]
  exact (turn_perm h.order).prod_eq

theorem valueAt_eq {σ : List Nat} {y z : Larry L} (h : y.Turned σ z) {names : List L} (hn : names.length = y.ndim) :
    z.valueAt (turn σ names) = y.valueAt names :=
  congrArg someVal (funext fun v => propext (h.has names v hn))

end Larry.Turned

theorem allNames_nodup {z : Larry L} (hz : z.Valid) : ((allIdx z.x.shape).map (namesOf z.label)).Nodup := by
  refine List.Nodup.map_on ?_ (nodup_allIdx _)
  intro i hi j hj he
  rw [mem_allIdx, hz.shape_eq] at hi hj
  obtain ⟨n, hn⟩ := At_of_inB hi
  obtain ⟨m, hm⟩ := At_of_inB hj
  rw [namesOf_at hn, namesOf_at hm] at he
  subst he
  exact At_unique hz.nodup hn hm

theorem mem_allNames {z : Larry L} (hz : z.Valid) {names : List L} :
    names ∈ (allIdx z.x.shape).map (namesOf z.label) ↔ Named z.label names := by
  rw [List.mem_map]
  constructor
  · rintro ⟨i, hi, rfl⟩
    rw [mem_allIdx, hz.shape_eq] at hi
    obtain ⟨n, hn⟩ := At_of_inB hi
    rw [namesOf_at hn]
    exact Named_of_At hn
  · intro hN
    obtain ⟨i, hi⟩ := At_of_Named hN
    exact ⟨i, by rw [mem_allIdx, hz.shape_eq]; exact At_inB hi, namesOf_at hi⟩

theorem unturn_length {α : Type _} {σ : List Nat} {l : List α} (h : σ.Perm (List.range l.length)) :
    (turn (unturn σ) l).length = l.length := by
  have hn := order_length h
  rw [turn_length, unturn, List.length_map, List.length_range, hn]
  intro k hk
  obtain ⟨m, hm, rfl⟩ := List.mem_map.mp hk
  rw [← hn]
  exact List.idxOf_lt_length_iff.mpr ((order_mem h).mpr (by rw [← hn]; exact List.mem_range.mp hm))

/-- The elements of a turned larry are those of the larry. -/
theorem turned_vals {σ : List Nat} {y z : Larry L} (h : y.Turned σ z) (hy : y.Valid) (hz : z.Valid) :
    z.x.vals.Perm y.x.vals := by
  have hlen : ∀ names ∈ (allIdx y.x.shape).map (namesOf y.label), names.length = y.ndim := fun names hm => by
    rw [(Named_iff.mp ((mem_allNames hy).mp hm)).1, hy.label_length]
  have e : y.x.vals = (((allIdx y.x.shape).map (namesOf y.label)).map (turn σ)).map z.valueAt := by
    rw [vals_eq hy, List.map_map (g := z.valueAt)]
    exact List.map_congr_left fun names hm => (h.valueAt_eq (hlen names hm)).symm
  rw [e, vals_eq hz]
  refine List.Perm.map _ ?_
  rw [List.perm_ext_iff_of_nodup (allNames_nodup hz)]
  · intro names
    rw [mem_allNames hz]
    constructor
    · intro hN
      have hl : names.length = y.ndim := by rw [(Named_iff.mp hN).1, hz.label_length, h.ndim_eq hy hz]
      have ho : σ.Perm (List.range names.length) := hl ▸ h.order
      refine List.mem_map.mpr ⟨turn (unturn σ) names, ?_, (turn_unturn ho).1⟩
      rw [mem_allNames hy, ← h.named ((unturn_length ho).trans hl), (turn_unturn ho).1]
      exact hN
    · intro hm
      obtain ⟨n, hn, rfl⟩ := List.mem_map.mp hm
      exact (h.named (hlen n hn)).mpr ((mem_allNames hy).mp hn)
  · refine List.Nodup.map_on ?_ (allNames_nodup hy)
    intro n hn m hm he
    exact turn_inj ((hlen n hn).symm ▸ h.order) ((hlen m hm).trans (hlen n hn).symm) he

/-! ## Turning -/

/-- C112. `T` puts the axes in the opposite order. -/
theorem C112_T {y : Larry L} (hy : y.Valid) : y.Turned (List.range y.ndim).reverse y.T := by
  obtain ⟨-, h2, h3, h4, -⟩ := C27_transpose hy
  have e : ∀ {α : Type _} (l : List α), turn (List.range l.length).reverse l = l.reverse := by
    intro α l
    have hlt : ∀ k ∈ (List.range l.length).reverse, k < l.length := by simp
    refine List.ext_getElem? fun j => ?_
    rw [turn_get hlt]
    by_cases hj : j < l.length
    · rw [List.getElem?_reverse (by simpa using hj), List.getElem?_reverse hj]
      simp only [List.length_range]
      rw [List.getElem?_range (by omega)]
      rfl
    · rw [List.getElem?_eq_none (by simpa using hj), List.getElem?_eq_none (by simpa using hj)]
      rfl
  refine ⟨List.reverse_perm _, h2, ?_, fun names v hn => ?_⟩
  · rw [h3, ← hy.label_length, e]
  · rw [← hn, e]
    exact h4 names v

/-- C112. `swapaxes` exchanges two entries of the order. -/
theorem C112_swapaxes {y : Larry L} (hy : y.Valid) {a b : Int} {i j : Nat} (ha : pyIdx y.ndim a = some i)
    (hb : pyIdx y.ndim b = some j) :
    ∃ z, y.swapaxes a b = .ok z ∧ z.Valid ∧ y.Turned (swapList (List.range y.ndim) i j) z := by
  obtain ⟨z, h1, h2, h3, h4, h5, -⟩ := C27_swapaxes hy ha hb
  have hi := pyIdx_lt ha
  have hj := pyIdx_lt hb
  have hir : i < (List.range y.ndim).length := by simpa using hi
  have hjr : j < (List.range y.ndim).length := by simpa using hj
  have ho : (swapList (List.range y.ndim) i j).Perm (List.range y.ndim) := by
    rw [List.perm_ext_iff_of_nodup _ List.nodup_range]
    · intro k
      rw [List.mem_iff_getElem?, List.mem_iff_getElem?]
      constructor
      · rintro ⟨m, hm⟩
        rw [swapList_getElem? hir hjr] at hm
        split at hm
        · exact ⟨_, hm⟩
        · split at hm <;> exact ⟨_, hm⟩
      · rintro ⟨m, hm⟩
        have hk : m = k ∧ k < y.ndim := by
          obtain ⟨t1, t2⟩ := List.getElem?_eq_some_iff.mp hm
          simp only [List.getElem_range] at t2
          simp only [List.length_range] at t1
          exact ⟨t2, by omega⟩
        obtain ⟨rfl, hk⟩ := hk
        by_cases e1 : m = i
        · refine ⟨j, ?_⟩
          rw [swapList_getElem? hir hjr]
          by_cases e2 : j = i
          · rw [if_pos e2, e2, ← e1]; exact hm
          · rw [if_neg e2, if_pos rfl, ← e1]; exact hm
        · by_cases e2 : m = j
          · refine ⟨i, ?_⟩
            rw [swapList_getElem? hir hjr, if_pos rfl, ← e2]; exact hm
          · refine ⟨m, ?_⟩
            rw [swapList_getElem? hir hjr, if_neg e1, if_neg e2]; exact hm
    · rw [List.nodup_iff_injective_getElem]
      intro p q hpq
      have hp := List.getElem?_eq_getElem p.2
      have hq := List.getElem?_eq_getElem q.2
      dsimp only at hpq
      rw [hpq, ← hq, swapList_getElem? hir hjr, swapList_getElem? hir hjr] at hp
      have l1 : p.1 < y.ndim := by simpa [swapList_length] using p.2
      have l2 : q.1 < y.ndim := by simpa [swapList_length] using q.2
      ext
      repeat' split at hp
      all_goals
        rw [List.getElem?_range (by omega)] at hp
        try rw [List.getElem?_range (by omega)] at hp
        simp only [Option.some.injEq] at hp
        omega
  have e : ∀ {α : Type _} (l : List α), l.length = y.ndim →
      turn (swapList (List.range y.ndim) i j) l = swapList l i j := by
    intro α l hl
    have hlt : ∀ k ∈ swapList (List.range y.ndim) i j, k < l.length := by
      intro k hk
      rw [hl]
      exact (order_mem ho).mp hk
    refine List.ext_getElem? fun m => ?_
    rw [turn_get hlt, swapList_getElem? hir hjr, swapList_getElem? (by omega) (by omega)]
    by_cases hm : m < y.ndim
    · split
      · simp [hj]
      · split
        · simp [hi]
        · simp [hm]
    · rw [if_neg (by omega), if_neg (by omega), if_neg (by omega), if_neg (by omega),
        List.getElem?_eq_none (by simpa using hm), List.getElem?_eq_none (by omega)]
      rfl
  refine ⟨z, h1, h2, ho, h3, ?_, fun names v hn => ?_⟩
  · rw [e _ hy.label_length]
    exact (exchanged_iff (by rw [hy.label_length]; exact hi) (by rw [hy.label_length]; exact hj)).mp h4
  · rw [e names hn]
    exact h5 names _ v ((exchanged_iff (by omega) (by omega)).mpr rfl) hn

/-! ## Reductions -/

/-- Two results of a reduction that go together: the same exception, the same number, or larrys of which the second
is the first turned. -/
inductive TurnsOut (σ : List Nat) : Res (Out L) → Res (Out L) → Prop
  | larry {y z : Larry L} (h : y.Turned σ z) : TurnsOut σ (.ok (.larry y)) (.ok (.larry z))
  | scalar (v : Val) : TurnsOut σ (.ok (.scalar v)) (.ok (.scalar v))
  | error (e : PyErr) : TurnsOut σ (.error e) (.error e)

theorem turn_eraseIdx {α : Type _} {σ : List Nat} {l : List α} (h : σ.Perm (List.range l.length)) {ax bx : Nat}
    (hb : σ[bx]? = some ax) : (turn σ l).eraseIdx bx = turn (without ax σ) (l.eraseIdx ax) := by
  have hax : ax < l.length := (order_mem h).mp (List.mem_of_getElem? hb)
  obtain ⟨a, r, e1, e2, -⟩ := exists_insertIdx hax
  have hl : (l.eraseIdx ax).length + 1 = l.length := by rw [List.length_eraseIdx_of_lt hax]; omega
  have := turn_insertIdx (hl.symm ▸ h : σ.Perm (List.range ((l.eraseIdx ax).length + 1))) hb rfl a
  rw [← e2, ← e1] at this
  rw [this, List.eraseIdx_insertIdx_self, e2]

theorem reduceAx_turned {β : Type _} {σ : List Nat} {y z : Larry L} (h : y.Turned σ z) (hy : y.Valid) (hz : z.Valid)
    {ax bx : Nat} (hs : σ[bx]? = some ax) {l : List L} (hl : y.label[ax]? = some l) (f : List Val → β) {rest : List L}
    (hr : rest.length + 1 = y.ndim) (v : β) :
    Holds (z.label.eraseIdx bx) (z.x.reduceAx f bx) (turn (without ax σ) rest) v ↔
      Holds (y.label.eraseIdx ax) (y.x.reduceAx f ax) rest v := by
  have ho : σ.Perm (List.range y.label.length) := by rw [hy.label_length]; exact h.order
  have hax := (List.getElem?_eq_some_iff.mp hl).1
  have hE : (y.label.eraseIdx ax).length + 1 = y.label.length := by rw [List.length_eraseIdx_of_lt hax]; omega
  rw [holds_reduceAx hz ((h.axis_eq hy hs).trans hl), holds_reduceAx hy hl, h.label, turn_eraseIdx ho hs, turn_named]
  · simp only [h.lineAt hy hs hr]
  · exact without_perm (hE.symm ▸ ho) hs
  · have := hy.label_length
    omega

theorem pyPop_at {α : Type _} {l : List α} {a : Int} {k : Nat} (h : pyIdx l.length a = some k) :
    pyPop l a = .ok (l.eraseIdx k) := by
  unfold pyPop
  rw [h]

theorem pop_order {σ : List Nat} {n ax bx : Nat} (h : σ.Perm (List.range n)) (hs : σ[bx]? = some ax) :
    (without ax σ).Perm (List.range (n - 1)) := by
  have : ax < n := (order_mem h).mp (List.mem_of_getElem? hs)
  exact without_perm (n := n - 1) (by rwa [show n - 1 + 1 = n by omega]) hs

/-- C112. A reduction along one axis (`sum`, `mean`, `median`, `std`, `var`, `max`, `min`, `any`, `all`, `lastrank`,
each given by its function on a line, its dtype rule and its default) gives the turned larry, along that axis in its
new place, the result with the other axes turned. -/
theorem C112_reduce (r : Red) {σ : List Nat} {y z : Larry L} (hy : y.Valid) (hz : z.Valid) (h : y.Turned σ z)
    {a b : Int} {ax bx : Nat} (ha : pyIdx y.ndim a = some ax) (hb : pyIdx z.ndim b = some bx)
    (hs : σ[bx]? = some ax) : TurnsOut (without ax σ) (y.reduce r (some a)) (z.reduce r (some b)) := by
  obtain ⟨l, hl, hlt⟩ := label_at hy ha
  have hn := h.ndim_eq hy hz
  have ho : σ.Perm (List.range y.label.length) := by rw [hy.label_length]; exact h.order
  have hltb : bx < z.ndim := pyIdx_lt hb
  have hlta : ax < y.ndim := pyIdx_lt ha
  have hsize : z.size = y.size := h.size_eq hy hz
  have hpy : pyPop y.label a = .ok (y.label.eraseIdx ax) := pyPop_at (by rw [hy.label_length]; exact ha)
  have hpz : pyPop z.label b = .ok (z.label.eraseIdx bx) := pyPop_at (by rw [hz.label_length]; exact hb)
  have hlab : z.label.eraseIdx bx = turn (without ax σ) (y.label.eraseIdx ax) := by rw [h.label, turn_eraseIdx ho hs]
  have hE : (y.label.eraseIdx ax).length = y.ndim - 1 := by
    rw [List.length_eraseIdx_of_lt hlt, hy.label_length]
  have hsy : (y.x.shape.eraseIdx ax).length = y.ndim - 1 := List.length_eraseIdx_of_lt hlta
  have hsz : (z.x.shape.eraseIdx bx).length = y.ndim - 1 := by rw [← hn]; exact List.length_eraseIdx_of_lt hltb
  unfold Larry.reduce
  rw [hsize, h.dtype]
  split
  · have e1 : pyPop y.shape a = .ok (y.x.shape.eraseIdx ax) := pyPop_at ha
    have e2 : pyPop z.shape b = .ok (z.x.shape.eraseIdx bx) := pyPop_at hb
    dsimp only
    rw [e1, e2, hpy, hpz]
    dsimp only
    rw [hsy, hsz]
    split
    · exact .scalar _
    · cases fillVal? (if r.logical = true then DType.bool else y.dtype) r.default with
      | error e => exact .error _
      | ok v =>
        refine .larry ⟨?_, rfl, hlab, fun names w hnm => ?_⟩
        · show (without ax σ).Perm (List.range (y.x.shape.eraseIdx ax).length)
          rw [hsy]
          exact pop_order h.order hs
        · have hnm' : names.length = y.ndim - 1 := hnm.trans hsy
          show Holds _ _ _ _ ↔ Holds _ _ _ _
          rw [full_holds, full_holds, hlab, turn_named (by rw [hE]; exact pop_order h.order hs) (hnm'.trans hE.symm)]
  · cases r.dt y.dtype with
    | error e => exact .error _
    | ok d =>
      dsimp only
      rw [ha, hb, hpy, hpz]
      dsimp only
      have s1 : (y.x.reduceAx r.f ax).shape.length = y.ndim - 1 := hsy
      have s2 : (z.x.reduceAx r.f bx).shape.length = y.ndim - 1 := hsz
      rw [s1, s2]
      by_cases h0 : y.ndim - 1 = 0
      · rw [if_pos h0, if_pos h0]
        have g := (reduceAx_turned h hy hz hs hl r.f (rest := []) (by simp; omega) ((y.x.reduceAx r.f ax).get [])).mpr
        rw [hlab, List.length_eq_zero_iff.mp (hE.trans h0)] at g
        have e : turn (without ax σ) ([] : List (List L)) = [] := by simp [turn]
        have e' : turn (without ax σ) ([] : List L) = [] := by simp [turn]
        rw [e, e'] at g
        obtain ⟨idx, hat, hg⟩ := g ⟨[], trivial, rfl⟩
        have : idx = [] := by
          have := (At_length hat).1
          simpa using this
        subst this
        rw [hg]
        exact .scalar _
      · rw [if_neg h0, if_neg h0]
        refine .larry ⟨?_, rfl, hlab, fun names w hnm => ?_⟩
        · show (without ax σ).Perm (List.range (y.x.shape.eraseIdx ax).length)
          rw [hsy]
          exact pop_order h.order hs
        · have hnm' : names.length = y.ndim - 1 := hnm.trans hsy
          exact reduceAx_turned h hy hz hs hl r.f (by omega) w

/-- C112. A reduction of all elements gives a turned larry the same number, when it does not depend on the order of
the elements. -/
theorem C112_reduce_none {r : Red} (hr : Unordered r.f) {σ : List Nat} {y z : Larry L} (hy : y.Valid) (hz : z.Valid)
    (h : y.Turned σ z) : z.reduce r none = y.reduce r none := by
  unfold Larry.reduce
  rw [show z.size = y.size from h.size_eq hy hz, h.dtype, hr _ _ (turned_vals h hy hz)]

theorem Larry.Turned.mapped {σ : List Nat} {y z : Larry L} (h : y.Turned σ z) (hy : y.Valid) (hz : z.Valid)
    (g : Val → Val) (d : DType) : (y.mapped g d).Turned σ (z.mapped g d) := by
  refine turned_of (mapped_valid hy g d) h.order rfl h.label ?_
  rintro names u v ⟨idx, hat, rfl⟩ ⟨idx', hat', rfl⟩
  have hlen : names.length = y.ndim := by rw [(Named_iff.mp (Named_of_At hat)).1]; exact hy.label_length
  exact congrArg g (Holds_unique hz.nodup ((h.has names _ hlen).mpr ⟨idx, hat, rfl⟩) ⟨idx', hat', rfl⟩)

theorem alongAll_turned {σ : List Nat} {y z : Larry L} (hy : y.Valid) (hz : z.Valid) (h : y.Turned σ z)
    {f : List Val → List Val} (hf : Pointwise f) (d : DType) : (y.alongAll f d).Turned σ (z.alongAll f d) := by
  obtain ⟨g, h1, h2⟩ := hf
  refine turned_of ⟨hy.shape_eq, hy.nodup, hy.ndim_pos⟩ h.order rfl h.label ?_
  have key : ∀ (w : Larry L), w.Valid → ∀ names v, (w.alongAll f d).Has names v → v = g w.x.vals (w.valueAt names) := by
    rintro w hw names v ⟨idx, hat, rfl⟩
    have hat' : At w.label idx names := hat
    have hin : InB w.x.shape idx := by rw [hw.shape_eq]; exact At_inB hat'
    have hval : w.x.vals[rowMajor w.x.shape idx]? = some (w.x.get idx) := by
      simp only [NDArray.vals, List.getElem?_map, allIdx_getElem? hin, Option.map_some]
    rw [valueAt_of hw ⟨idx, hat', rfl⟩]
    simp only [Larry.alongAll, ravelC_eq, List.getD, h1, List.getElem?_map, hval, Option.map_some, Option.getD_some]
  intro names v v' hv hv'
  have hlen : names.length = y.ndim := by rw [(Named_iff.mp (Named_of_Holds hv)).1]; exact hy.label_length
  rw [key y hy names v hv, key z hz _ v' hv', h2 _ _ (turned_vals h hy hz), h.valueAt_eq hlen]

/-- C112. `ranking`, `demean` and `zscore` of the whole larry (`axis=None`). -/
theorem C112_whole {σ : List Nat} {y z : Larry L} (hy : y.Valid) (hz : z.Valid) (h : y.Turned σ z) :
    (∀ norm, Turns σ (y.ranking none norm) (z.ranking none norm)) ∧
    (∀ center, Unordered center → Turns σ (y.demean center none) (z.demean center none)) ∧
    (∀ std, Unordered std → Turns σ (y.zscore std none) (z.zscore std none)) := by
  refine ⟨fun norm => ?_, fun center hc => ?_, fun std hstd => ?_⟩
  · unfold Larry.ranking
    rw [h.dtype]
    split
    · exact .error _
    · split
      · exact .error _
      · exact .ok (alongAll_turned hy hz h (rankingLine_pointwise _) _)
  · unfold Larry.demean
    rw [h.dtype]
    split
    · exact .error _
    · exact .ok (alongAll_turned hy hz h (demeanLine_pointwise hc) _)
  · unfold Larry.zscore
    rw [h.dtype]
    split
    · exact .error _
    · exact .ok (alongAll_turned hy hz h (zscoreLine_pointwise hstd) _)

/-! ## Elementwise methods and operators -/

/-- C112. The elementwise methods. -/
theorem C112_elementwise {σ : List Nat} {y z : Larry L} (hy : y.Valid) (hz : z.Valid) (h : y.Turned σ z)
    (m : ElemMethod) : Turns σ (y.elem m) (z.elem m) := by
  cases m <;> simp only [Larry.elem, h.dtype] <;> split <;>
    first | exact .error _ | exact .ok (h.mapped hy hz _ _)

/-- C112. `a op b` for two larrys turned the same way. -/
theorem C112_binop [LinearOrder L] {σ : List Nat} {a b a' b' : Larry L} (ha : a.Valid) (hb : b.Valid) (ha' : a'.Valid)
    (hb' : b'.Valid) (h : a.Turned σ a') (g : b.Turned σ b') (uf : UFunc2) :
    Turns σ (Larry.binop uf a b) (Larry.binop uf a' b') := by
  have hn : a.ndim = b.ndim := by rw [← order_length h.order, ← order_length g.order]
  have hn' : a'.ndim = b'.ndim := by rw [h.ndim_eq ha ha', g.ndim_eq hb hb', hn]
  cases hd : uf.dt a.dtype b.dtype with
  | error e =>
    rw [C09_binop_dtype_error ha hb hn uf hd, C09_binop_dtype_error ha' hb' hn' uf (by rw [h.dtype, g.dtype]; exact hd)]
    exact .error e
  | ok d =>
    obtain ⟨z, h1, h2, h3, h4, h5⟩ := C09_binop ha hb hn uf hd
    obtain ⟨z', g1, g2, g3, g4, g5⟩ := C09_binop ha' hb' hn' uf (by rw [h.dtype, g.dtype]; exact hd)
    rw [h1, g1]
    have hzn : z.ndim = a.ndim := by rw [← h2.label_length, ← ha.label_length, h4.lengths.1]
    have hzn' : z'.label.length = a.ndim := by
      rw [g4.lengths.1, ha'.label_length, h.ndim_eq ha ha']
    refine .ok (turned_of h2 (hzn ▸ h.order) (g3.trans h3.symm) ?_ ?_)
    · have hlt : ∀ k ∈ σ, k < z.label.length := by
        intro k hk
        rw [h2.label_length, hzn]
        exact (order_mem h.order).mp hk
      refine List.ext_getElem? fun j => ?_
      rw [turn_get hlt]
      by_cases hj : j < σ.length
      · have hsj := List.getElem?_eq_getElem hj
        have hk := hlt _ (List.getElem_mem hj)
        have hka : σ[j] < a.label.length := by rw [← h4.lengths.1]; exact hk
        have hkb : σ[j] < b.label.length := by rw [← h4.lengths.2]; exact hk
        have ea := List.getElem?_eq_getElem hka
        have eb := List.getElem?_eq_getElem hkb
        obtain ⟨c, c1, c2⟩ := h4.get σ[j] _ _ ea eb
        obtain ⟨c', c1', c2'⟩ := g4.get j _ _ ((h.axis_eq ha hsj).trans ea) ((g.axis_eq hb hsj).trans eb)
        rw [hsj, Option.bind_some, c1, c1', c2.unique c2']
      · rw [List.getElem?_eq_none (by rw [hzn', ← order_length h.order]; omega), List.getElem?_eq_none (l := σ) (by omega)]
        rfl
    · intro names u v hu hv
      have hlen : names.length = a.ndim := by
        rw [(Named_iff.mp (Named_of_Holds hu)).1, h2.label_length, hzn]
      obtain ⟨p, q, p1, p2, p3⟩ := (h5 names u).mp ((Larry.get_ok_iff h2).mpr hu)
      obtain ⟨p', q', p1', p2', p3'⟩ := (g5 _ v).mp ((Larry.get_ok_iff g2).mpr hv)
      rw [Larry.get_ok_iff ha] at p1
      rw [Larry.get_ok_iff hb] at p2
      rw [Larry.get_ok_iff ha'] at p1'
      rw [Larry.get_ok_iff hb'] at p2'
      rw [p3, p3', Holds_unique ha'.nodup ((h.has _ _ hlen).mpr p1) p1',
        Holds_unique hb'.nodup ((g.has _ _ (hlen.trans hn)).mpr p2) p2']

/-! ## Moves along an axis -/

theorem moved_turns {σ : List Nat} {y z y' z' : Larry L} (hy : y.Valid) (h : y.Turned σ z) {ax bx : Nat}
    (hs : σ[bx]? = some ax) {l lab : List L} {m : AxisMove L} (my : MovedBy m ax l lab y y')
    (mz : MovedBy m bx l lab z z') : y'.Turned σ z' := by
  have hd : z'.dtype = y'.dtype := by
    by_cases hw : (y.dtype = .int ∨ y.dtype = .bool) ∧ Widens l m
    · rw [my.widened hw, mz.widened (by rw [h.dtype]; exact hw)]
    · rw [my.kept hw, mz.kept (by rw [h.dtype]; exact hw), h.dtype]
  have ho : σ.Perm (List.range y.label.length) := by rw [hy.label_length]; exact h.order
  have hl : z'.label = turn σ y'.label := by rw [mz.label_eq, my.label_eq, h.label, turn_set ho hs]
  have hnd := my.ndim_eq hy
  refine ⟨hnd ▸ h.order, hd, hl, fun names v hn => ?_⟩
  rw [hnd] at hn
  have hon : σ.Perm (List.range names.length) := hn ▸ h.order
  have hat : (turn σ names)[bx]? = names[ax]? := by
    rw [turn_get (fun k hk => (order_mem hon).mp hk), hs]
    rfl
  have hset : ∀ c, (turn σ names).set bx c = turn σ (names.set ax c) := fun c => (turn_set hon hs c).symm
  have hN : Named z'.label (turn σ names) ↔ Named y'.label names := by
    rw [hl]
    refine turn_named (by rw [my.valid.label_length, hnd]; exact h.order) (by rw [my.valid.label_length, hnd]; exact hn)
  rw [mz.has, my.has, hat, hN, hd, h.dtype]
  simp only [hset, h.has (names.set ax _) _ (by simpa using hn)]

/-- C112. Moving along an axis: `take`, `flipaxis`, `sortaxis`, `keep_label`, `morph`, `lag`, `maplabel` and indexing
with a slice, list or bool larry. -/
theorem C112_move [LinearOrder L] {σ : List Nat} {y z : Larry L} (hy : y.Valid) (hz : z.Valid) (h : y.Turned σ z)
    {a b : Int} {ax bx : Nat} (ha : pyIdx y.ndim a = some ax) (hb : pyIdx z.ndim b = some bx)
    (hs : σ[bx]? = some ax) {l lab : List L} (hl : y.label[ax]? = some l) {m : AxisMove L} (hm : MoveLeaves l lab m) :
    ∃ y' z', m.run y a = .ok y' ∧ m.run z b = .ok z' ∧ y'.Valid ∧ z'.Valid ∧ y'.Turned σ z' := by
  obtain ⟨y', h1, h2⟩ := C100_each hy ha hl hm
  obtain ⟨z', g1, g2⟩ := C100_each hz hb ((h.axis_eq hy hs).trans hl) hm
  exact ⟨y', z', h1, g1, h2.valid, g2.valid, moved_turns hy h hs h2 g2⟩

/-! ## Programs -/

/-- One call: a calculation or a move along axis `k`, or an elementwise method. -/
inductive AxisStep (L : Type _)
  | line (c : LineCall L) (k : Nat)
  | move (m : AxisMove L) (k : Nat)
  | elem (e : ElemMethod)

def AxisStep.run [LinearOrder L] (y : Larry L) : AxisStep L → Res (Larry L)
  | .line c k => c.run y k
  | .move m k => m.run y k
  | .elem e => y.elem e

/-- The same call for a turned larry. -/
def AxisStep.turned (σ : List Nat) : AxisStep L → AxisStep L
  | .line c k => .line c (σ.idxOf k)
  | .move m k => .move m (σ.idxOf k)
  | .elem e => .elem e

/-- The axis is one of `n`, and the move is not one of the two that can leave a larry unfit for the next call. -/
def AxisStep.Fit (n : Nat) : AxisStep L → Prop
  | .line _ k => k < n
  | .move m k => k < n ∧ m.Plain
  | .elem _ => True

/-- The calls, each on the result of the one before. -/
def runSteps [LinearOrder L] : List (AxisStep L) → Larry L → Res (Larry L)
  | [], y => .ok y
  | s :: P, y => match s.run y with
    | .error e => .error e
    | .ok z => runSteps P z

theorem pyIdx_nat {n k : Nat} (h : k < n) : pyIdx n (k : Int) = some k := pyIdx_some.mpr ⟨h, .inl rfl⟩

theorem step_turns [LinearOrder L] {σ : List Nat} {y z : Larry L} (hy : y.Valid) (hz : z.Valid) (h : y.Turned σ z)
    {s : AxisStep L} (hs : s.Fit y.ndim) :
    (∃ y' z', s.run y = .ok y' ∧ (s.turned σ).run z = .ok z' ∧ y'.Valid ∧ z'.Valid ∧ y'.ndim = y.ndim ∧
      y'.Turned σ z') ∨ (∃ e e', s.run y = .error e ∧ (s.turned σ).run z = .error e') := by
  have hn := h.ndim_eq hy hz
  have place : ∀ k, k < y.ndim → pyIdx y.ndim (k : Int) = some k ∧
      pyIdx z.ndim ((σ.idxOf k : Nat) : Int) = some (σ.idxOf k) ∧ σ[σ.idxOf k]? = some k := by
    intro k hk
    have hm : σ.idxOf k < σ.length := List.idxOf_lt_length_iff.mpr ((order_mem h.order).mpr hk)
    refine ⟨pyIdx_nat hk, pyIdx_nat (by rw [hn, ← order_length h.order]; exact hm), ?_⟩
    rw [List.getElem?_eq_getElem hm, List.getElem_idxOf]
  cases s with
  | line c k =>
    obtain ⟨p1, p2, p3⟩ := place k hs
    have := C112_line hy hz h p1 p2 p3 c
    simp only [AxisStep.run, AxisStep.turned]
    generalize hr : c.run y k = r at this
    generalize hr' : c.run z (σ.idxOf k : Nat) = r' at this
    cases this with
    | ok ht =>
      obtain ⟨g1, g2⟩ := run_keeps hy hr
      obtain ⟨g3, -⟩ := run_keeps hz hr'
      exact .inl ⟨_, _, rfl, rfl, g1, g3, by rw [← g1.label_length, g2, hy.label_length], ht⟩
    | error e => exact .inr ⟨e, e, rfl, rfl⟩
  | move m k =>
    obtain ⟨p1, p2, p3⟩ := place k hs.1
    obtain ⟨l, hl, -⟩ := label_at hy p1
    have hlz := (h.axis_eq hy p3).trans hl
    simp only [AxisStep.run, AxisStep.turned]
    by_cases hm : ∃ lab, MoveLeaves l lab m
    · obtain ⟨lab, hm⟩ := hm
      obtain ⟨y', h1, h2⟩ := C100_each hy p1 hl hm
      obtain ⟨z', g1, g2⟩ := C100_each hz p2 hlz hm
      exact .inl ⟨y', z', h1, g1, h2.valid, g2.valid, h2.ndim_eq hy, moved_turns hy h p3 h2 g2⟩
    · have r1 := mt (C100_returns hy p1 hl hs.2).mp hm
      have r2 := mt (C100_returns hz p2 hlz hs.2).mp hm
      cases e1 : m.run y k with
      | ok y' => exact absurd ⟨y', e1⟩ r1
      | error e =>
        cases e2 : m.run z (σ.idxOf k : Nat) with
        | ok z' => exact absurd ⟨z', e2⟩ r2
        | error e' => exact .inr ⟨e, e', rfl, rfl⟩
  | elem e =>
    have := C112_elementwise hy hz h e
    simp only [AxisStep.run, AxisStep.turned]
    generalize hr : y.elem e = r at this
    generalize hr' : z.elem e = r' at this
    have shape : ∀ w w' : Larry L, w.Valid → w.elem e = .ok w' → w'.Valid ∧ w'.ndim = w.ndim := by
      intro w w' hw he
      cases e <;> simp only [Larry.elem] at he <;> split at he <;>
        first | (cases he; done) | (cases he; exact ⟨hw, rfl⟩)
    cases this with
    | ok ht => exact .inl ⟨_, _, rfl, rfl, (shape _ _ hy hr).1, (shape _ _ hz hr').1, (shape _ _ hy hr).2, ht⟩
    | error e => exact .inr ⟨e, e, rfl, rfl⟩

/-- C112. A program of such calls returns for the turned larry, with the axes numbered as they lie in it, if and only
if it returns for the larry, and then the result is the turned result. -/
theorem C112_program [LinearOrder L] {σ : List Nat} {P : List (AxisStep L)} {y z : Larry L} (hy : y.Valid)
    (hz : z.Valid) (h : y.Turned σ z) (hP : ∀ s ∈ P, s.Fit y.ndim) :
    (∃ y' z', runSteps P y = .ok y' ∧ runSteps (P.map (·.turned σ)) z = .ok z' ∧ y'.Turned σ z') ∨
    (∃ e e', runSteps P y = .error e ∧ runSteps (P.map (·.turned σ)) z = .error e') := by
  induction P generalizing y z with
  | nil => exact .inl ⟨y, z, rfl, rfl, h⟩
  | cons s P ih =>
    simp only [List.map_cons, runSteps]
    rcases step_turns hy hz h (hP s (by simp)) with ⟨y', z', h1, h2, h3, h4, h5, h6⟩ | ⟨e, e', h1, h2⟩
    · rw [h1, h2]
      exact ih h3 h4 h6 fun s hs => by rw [h5]; exact hP s (by simp [hs])
    · rw [h1, h2]
      exact .inr ⟨e, e', rfl, rfl⟩

/-- C112. Calculating and then transposing is transposing and then calculating along the axis in its new place. -/
theorem C112_transpose_first [LinearOrder L] {y y' : Larry L} (hy : y.Valid) {ax : Nat} (hax : ax < y.ndim)
    {c : LineCall L} (hc : c.run y ax = .ok y') :
    ∃ z, c.run y.T ((y.ndim - 1 - ax : Nat) : Int) = .ok z ∧ z.Same y'.T := by
  obtain ⟨hv, -⟩ := C27_transpose hy
  have h := C112_T hy
  have hn := h.ndim_eq hy hv
  have hs : (List.range y.ndim).reverse[y.ndim - 1 - ax]? = some ax := by
    rw [List.getElem?_reverse (by simp; omega), List.getElem?_range (by simp; omega)]
    simp only [List.length_range]
    congr 1
    omega
  have := C112_line hy hv h (pyIdx_nat hax) (pyIdx_nat (by omega)) hs c
  rw [hc] at this
  generalize hr : c.run y.T ((y.ndim - 1 - ax : Nat) : Int) = r at this
  cases this with
  | ok ht =>
    obtain ⟨g1, g2⟩ := run_keeps hy hc
    have e : y'.ndim = y.ndim := by rw [← g1.label_length, g2, hy.label_length]
    refine ⟨_, rfl, ht.same (e ▸ C112_T g1) g1 (run_keeps hv hr).1 (C27_transpose g1).1⟩

/-- C112. The moving functions (`move_func` and the methods made from it), however the two larrys lie in memory and
with either method. -/
theorem C112_move_func {f : List Val → Val} {σ : List Nat} {y z : Larry L} (hy : y.Valid) (hz : z.Valid)
    (h : y.Turned σ z) {a b : Int} {ax bx : Nat} (ha : pyIdx y.ndim a = some ax) (hb : pyIdx z.ndim b = some bx)
    (hs : σ[bx]? = some ax) {buf buf' : Int → Val} {arr arr' : Strided} (hsy : StoredAs y buf arr)
    (hsz : StoredAs z buf' arr') {m m' : MoveMethod} (hm : m = .loop ∨ m = .strides ∧ y.ndim ≤ 3)
    (hm' : m' = .loop ∨ m' = .strides ∧ z.ndim ≤ 3) {window : Nat} (hw : 1 ≤ window) {l : List L}
    (hl : y.label[ax]? = some l) (hn : window ≤ l.length) :
    ∃ y' z', y.moveFunc f buf arr window (some a) m = .ok y' ∧ z.moveFunc f buf' arr' window (some b) m' = .ok z' ∧
      y'.Turned σ z' := by
  obtain ⟨y', a1, a2, a3⟩ := C50_move_func (f := f) hy hsy hm hw ha hl hn
  obtain ⟨z', b1, b2, b3⟩ := C50_move_func (f := f) hz hsz hm' hw hb ((h.axis_eq hy hs).trans hl) hn
  refine ⟨y', z', a1, b1, h.along hy hs hl ?_ a3 b3 (b2.trans a2.symm)⟩
  intro vs i v v' _ h1 h2
  by_cases hi : i + 1 < window
  · rw [h1.1 hi, h2.1 hi]
  · rw [h1.2 (by omega), h2.2 (by omega)]

/-- C112. `prod` of floats along an axis, when there are cells. -/
theorem C112_prod {σ : List Nat} {y z : Larry L} (hy : y.Valid) (hz : z.Valid) (h : y.Turned σ z)
    (hd : y.dtype = .float) {a b : Int} {ax bx : Nat} (ha : pyIdx y.ndim a = some ax) (hb : pyIdx z.ndim b = some bx)
    (hs : σ[bx]? = some ax) (hne : y.shape.prod ≠ 0) :
    TurnsOut (without ax σ) (y.prod (some a)) (z.prod (some b)) := by
  have hn := h.ndim_eq hy hz
  have hsz : z.shape.prod ≠ 0 := by rw [show z.shape.prod = y.shape.prod from h.size_eq hy hz]; exact hne
  have hd' : z.dtype = .float := h.dtype.trans hd
  have hlt : ax < y.label.length := by rw [hy.label_length]; exact pyIdx_lt ha
  have ho : σ.Perm (List.range y.label.length) := by rw [hy.label_length]; exact h.order
  by_cases h2 : 2 ≤ y.ndim
  · obtain ⟨y', a1, a2, a3, a4, a5⟩ := C44_prod_axis hy hd hne ha h2
    obtain ⟨z', b1, b2, b3, b4, b5⟩ := C44_prod_axis hz hd' hsz hb (by omega)
    have hlab : z'.label = turn (without ax σ) y'.label := by rw [a4, b4, h.label, turn_eraseIdx ho hs]
    have hnd : y'.ndim = y.ndim - 1 := by
      rw [← a2.label_length, a4, List.length_eraseIdx_of_lt hlt, hy.label_length]
    have ho' : (without ax σ).Perm (List.range y'.ndim) := by rw [hnd]; exact pop_order h.order hs
    rw [a1, b1]
    refine .larry ⟨ho', b3.trans a3.symm, hlab, fun names v hnm => ?_⟩
    rw [a5, b5, hlab, turn_named (by rw [a2.label_length]; exact ho') (by rw [a2.label_length]; exact hnm)]
    simp only [h.lineAt hy hs (rest := names) (by omega)]
  · have h1 : y.ndim = 1 := by have := pyIdx_lt ha; omega
    have e : a = 0 ∨ a = -1 := by have := pyIdx_some.mp ha; omega
    have e' : b = 0 ∨ b = -1 := by have := pyIdx_some.mp hb; omega
    have ea : ax = 0 := by have := pyIdx_lt ha; omega
    have eb : bx = 0 := by have := pyIdx_lt hb; omega
    subst ea
    subst eb
    obtain ⟨vs, a1, a2⟩ := C44_prod_1d hy hd hne h1 e
    obtain ⟨ws, b1, b2⟩ := C44_prod_1d hz hd' hsz (by omega) e'
    have := (h.lineAt hy hs (rest := []) (by simp; omega)).mpr a1
    have e0 : turn (without 0 σ) ([] : List L) = [] := by simp [turn]
    rw [e0] at this
    rw [a2, b2, Larry.LineAt.unique hz this b1]
    exact .scalar _

/-! ## Cases -/

/-- `exA` is 2 by 3; axis 1 of it is axis 0 of `exA.T`. -/
example : exA.Turned [1, 0] exA.T ∧ exA.T.Valid ∧ pyIdx exA.ndim 1 = some 1 ∧ pyIdx exA.T.ndim 0 = some 0 ∧
    [1, 0][0]? = some 1 ∧ without 1 [1, 0] = [0] ∧ exA.label[1]? = some [3, 1, 2] ∧
    MoveLeaves [3, 1, 2] [2, 1, 3] (.pick .flipaxis) ∧ (AxisMove.pick .flipaxis : AxisMove Nat).Plain :=
  ⟨C112_T exA_valid, (C27_transpose exA_valid).1, by decide, by decide, by decide, by decide, rfl, rfl, trivial⟩

/-- A program: a running sum along axis 1, a flip of axis 0, absolute values. -/
example : ∀ s ∈ [AxisStep.line .cumsum 1, .move (.pick .flipaxis) 0, .elem .abs], AxisStep.Fit (L := Nat) exA.ndim s := by
  intro s hs
  simp only [List.mem_cons, List.not_mem_nil, or_false] at hs
  rcases hs with rfl | rfl | rfl
  · exact (by decide : 1 < 2)
  · exact ⟨(by decide : 0 < 2), trivial⟩
  · trivial

/-- Four equal values. -/
def exEven : Larry Nat := ⟨NDArray.ofList [2, 2] [fl 1, fl 1, fl 1, fl 1], .float, [[10, 20], [1, 2]]⟩

/-- `quantile(q, None)` breaks ties by the place in the array, and so does depend on the order of the axes: of four
equal values, those under the name 10 on axis 0 get -1; in the transposed larry it is those under the name 1 on the
other axis. -/
theorem C112_quantile_none :
    exEven.Valid ∧ exEven.Turned [1, 0] exEven.T ∧
    (exEven.quantile (fun l => List.range l.length) 2 none).toOption.map (fun w => (w.label, w.x.vals)) =
      some ([[10, 20], [1, 2]], [fl (-1), fl (-1), fl 1, fl 1]) ∧
    (exEven.T.quantile (fun l => List.range l.length) 2 none).toOption.map (fun w => (w.label, w.x.vals)) =
      some ([[1, 2], [10, 20]], [fl (-1), fl (-1), fl 1, fl 1]) := by
  have hv : exEven.Valid := ⟨rfl, by decide, by decide⟩
  exact ⟨hv, C112_T hv, by decide +kernel, by decide +kernel⟩

end La
