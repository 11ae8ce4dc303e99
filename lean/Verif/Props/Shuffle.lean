import Verif.Shuffle
import Verif.Reorder
import Verif.Reduce

/-!
# C70: shuffle and shufflelabel
-/

namespace La
variable {L : Type _}

/-! ## Specification -/

/-- What the random number generator guarantees: `rk_interval(i)` is at most `i`. -/
def Drawn (draw : Nat → Nat) : Prop := ∀ i, draw i ≤ i

/-- `axis` (an integer, negative ones counting from the end, or None for all axes) asks for axis `k`. -/
def Asks (n : Nat) (axis : Option Int) (k : Nat) : Prop :=
  match axis with
  | none => True
  | some a => a = k ∨ a = (k : Int) - n

/-- `ps` are the label lists `ls`, in another order along the axes asked for. -/
def OtherOrder (asked : Nat → Prop) (ls ps : List (List L)) : Prop :=
  List.Forall₂ List.Perm ls ps ∧ ∀ k, ¬ asked k → ps[k]? = ls[k]?

/-! ## One swap -/

/-- Where position `k` comes from when `i` and `j` are swapped. -/
def swapIdx (i j k : Nat) : Nat := if k = i then j else if k = j then i else k

theorem swapList_get? {α : Type _} {l : List α} {i j : Nat} (hi : i < l.length) (hj : j < l.length) (k : Nat) :
    (swapList l i j)[k]? = l[swapIdx i j k]? := by
  rw [swapList_getElem? hi hj, swapIdx]
  split
  · rfl
  · split <;> rfl

theorem swapList_perm {α : Type _} (l : List α) (i j : Nat) : (swapList l i j).Perm l := by
  unfold swapList
  split
  · next a b ha hb =>
    obtain ⟨hi, rfl⟩ := List.getElem?_eq_some_iff.mp ha
    obtain ⟨hj, rfl⟩ := List.getElem?_eq_some_iff.mp hb
    exact List.set_set_perm hi hj
  · exact .refl _

theorem At_swapIdx {label : List (List L)} {ax i j : Nat} {l : List L} (hl : label[ax]? = some l) (hi : i < l.length)
    (hj : j < l.length) {idx : List Nat} {names : List L} :
    At (label.modify ax fun m => swapList m i j) idx names ↔ At label (idx.modify ax (swapIdx i j)) names := by
  induction label generalizing ax idx names with
  | nil => simp at hl
  | cons m label ih =>
    cases ax with
    | zero =>
      obtain rfl : m = l := by simpa using hl
      cases idx <;> cases names <;> simp [At, swapList_get? hi hj]
    | succ ax =>
      cases idx <;> cases names <;> simp [At, ih (show label[ax]? = some l by simpa using hl)]

theorem swapRows_get {x : NDArray Val} {ax i j : Nat} {idx : List Nat} (h : ax < idx.length) :
    (x.swapRows ax i j).get idx = x.get (idx.modify ax (swapIdx i j)) := by
  have e : idx.getD ax 0 = idx[ax] := by simp [List.getD, h]
  have hm : ∀ k, (idx.eraseIdx ax).insertIdx ax k = idx.set ax k := fun k => by
    rw [List.insertIdx_eraseIdx_self h.ne]
  have hs : idx.modify ax (swapIdx i j) = idx.set ax (swapIdx i j idx[ax]) := by
    rw [List.modify_eq_set_getElem?]
    simp [h]
  simp only [NDArray.swapRows, NDArray.setRow, NDArray.row, hm, e, hs, swapIdx]
  by_cases h1 : idx[ax] = j
  · by_cases h2 : idx[ax] = i
    · rw [if_pos h1, if_pos h2, ← h1, ← h2]
    · rw [if_pos h1, if_neg h2, if_pos h1]
  · by_cases h2 : idx[ax] = i
    · rw [if_neg h1, if_pos h2, if_pos h2]
    · rw [if_neg h1, if_neg h2, if_neg h2, if_neg h1, List.set_getElem_self]

theorem forall₂_modify {α : Type _} {R : α → α → Prop} (hrefl : ∀ a, R a a) {f : α → α} (hf : ∀ a, R a (f a)) (l : List α) (k : Nat) :
    List.Forall₂ R l (l.modify k f) := by
  induction l generalizing k with
  | nil => simp
  | cons a l ih =>
    cases k with
    | zero => exact .cons (hf a) (List.forall₂_same.mpr fun b _ => hrefl b)
    | succ k => exact .cons (hrefl a) (ih k)

/-- Swapping two slices and their labels changes nothing. -/
theorem swap_reordered {y : Larry L} (hv : y.Valid) {ax i j : Nat} {l : List L} (hl : y.label[ax]? = some l)
    (hi : i < l.length) (hj : j < l.length) :
    Larry.Valid ⟨y.x.swapRows ax i j, y.dtype, y.label.modify ax fun m => swapList m i j⟩ ∧
      y.Reordered ⟨y.x.swapRows ax i j, y.dtype, y.label.modify ax fun m => swapList m i j⟩ := by
  have hax := (List.getElem?_eq_some_iff.mp hl).1
  have hp : List.Forall₂ List.Perm y.label (y.label.modify ax fun m => swapList m i j) :=
    forall₂_modify (fun _ => .refl _) (fun m => (swapList_perm m i j).symm) _ _
  have hval : Larry.Valid ⟨y.x.swapRows ax i j, y.dtype, y.label.modify ax fun m => swapList m i j⟩ := by
    refine ⟨?_, ?_, ?_⟩
    · show y.x.shape = _
      rw [hv.shape_eq]
      exact Larry.Reordered.lengths hp
    · intro m hm
      obtain ⟨k, hk⟩ := List.getElem?_of_mem hm
      rw [List.getElem?_modify] at hk
      cases hy : y.label[k]? with
      | none => rw [hy] at hk; split at hk <;> cases hk
      | some m' =>
        have hn := hv.nodup m' (List.mem_of_getElem? hy)
        rw [hy] at hk
        split at hk
        · obtain rfl := Option.some.inj hk
          exact (swapList_perm m' i j).nodup_iff.mpr hn
        · obtain rfl := Option.some.inj hk
          exact hn
    · intro h
      have := congrArg List.length h
      rw [List.length_modify] at this
      exact hv.ndim_pos (List.length_eq_zero_iff.mp this)
  refine ⟨hval, rfl, hp, fun names v => ?_⟩
  constructor
  · rintro ⟨idx, h, rfl⟩
    refine ⟨idx.modify ax (swapIdx i j), (At_swapIdx hl hi hj).mpr ?_, ?_⟩
    · rw [List.modify_modify_eq]
      have : (swapIdx i j ∘ swapIdx i j) = id := by
        funext k
        simp only [Function.comp, swapIdx, id]
        split_ifs <;> simp_all
      rw [this, List.modify_id]
      exact h
    · have hlen := (At_length h).1
      show (y.x.swapRows ax i j).get _ = _
      rw [swapRows_get (by rw [List.length_modify, hlen]; exact hax), List.modify_modify_eq]
      have : (swapIdx i j ∘ swapIdx i j) = id := by
        funext k
        simp only [Function.comp, swapIdx, id]
        split_ifs <;> simp_all
      rw [this, List.modify_id]
  · rintro ⟨idx, h, rfl⟩
    refine ⟨idx.modify ax (swapIdx i j), (At_swapIdx hl hi hj).mp h, ?_⟩
    have hlen := (At_length h).1
    rw [List.length_modify] at hlen
    exact (swapRows_get (by rw [hlen]; exact hax)).symm

/-! ## The loop -/

theorem shuffleLoop_perm {α : Type _} (draw : Nat → Nat) (n : Nat) (l : List α) :
    (shuffleLoop (fun i j m => swapList m i j) draw n l).Perm l := by
  induction n generalizing l with
  | zero => exact .refl _
  | succ n ih => exact (ih _).trans (swapList_perm _ _ _)

theorem shuffleList_perm {α : Type _} (draw : Nat → Nat) (l : List α) : (shuffleList draw l).Perm l := shuffleLoop_perm _ _ _

theorem loop_reordered {draw : Nat → Nat} (hd : Drawn draw) {ax n : Nat} {y : Larry L} (hv : y.Valid) {l : List L}
    (hl : y.label[ax]? = some l) (hn : n < l.length ∨ n = 0) :
    Larry.Valid ⟨shuffleLoop (fun i j b => b.swapRows ax i j) draw n y.x, y.dtype,
        y.label.modify ax (shuffleLoop (fun i j m => swapList m i j) draw n)⟩ ∧
      y.Reordered ⟨shuffleLoop (fun i j b => b.swapRows ax i j) draw n y.x, y.dtype,
        y.label.modify ax (shuffleLoop (fun i j m => swapList m i j) draw n)⟩ := by
  induction n generalizing y l with
  | zero =>
    have : y.label.modify ax (shuffleLoop (fun i j m => swapList m i j) draw 0) = y.label := List.modify_id _ _
    rw [this]
    exact ⟨hv, Larry.Reordered.refl y⟩
  | succ n ih =>
    have hn : n + 1 < l.length := by omega
    have hj : draw (n + 1) < l.length := lt_of_le_of_lt (hd _) hn
    obtain ⟨v1, r1⟩ := swap_reordered hv hl hn hj
    have hl' : (y.label.modify ax fun m => swapList m (n + 1) (draw (n + 1)))[ax]? =
        some (swapList l (n + 1) (draw (n + 1))) := by simp [hl]
    obtain ⟨v2, r2⟩ := ih v1 hl' (by rw [swapList_length]; left; omega)
    simp only [List.modify_modify_eq] at v2 r2
    exact ⟨v2, r1.trans r2⟩

/-- Shuffling an axis and its labels with the same draws changes nothing. -/
theorem shuffleAx_reordered {draw : Nat → Nat} (hd : Drawn draw) {ax : Nat} {y : Larry L} (hv : y.Valid)
    (hax : ax < y.label.length) :
    Larry.Valid ⟨y.x.shuffleAx ax draw, y.dtype, y.label.modify ax (shuffleList draw)⟩ ∧
      y.Reordered ⟨y.x.shuffleAx ax draw, y.dtype, y.label.modify ax (shuffleList draw)⟩ := by
  have hl : y.label[ax]? = some y.label[ax] := List.getElem?_eq_getElem hax
  have hs : y.x.shape.getD ax 0 = (y.label[ax]).length := by
    rw [hv.shape_eq]
    simp [List.getD, hax]
  have e : y.label.modify ax (shuffleList draw) =
      y.label.modify ax (shuffleLoop (fun i j m => swapList m i j) draw ((y.label[ax]).length - 1)) := by
    rw [List.modify_eq_set_getElem?, List.modify_eq_set_getElem?]
    simp [hax, shuffleList]
  rw [e, NDArray.shuffleAx, hs]
  exact loop_reordered hd hv hl (by omega)

theorem shuffleAll_reordered {draws : Nat → Nat → Nat} (hd : ∀ k, Drawn (draws k)) (axs : List Nat) {y : Larry L} (hv : y.Valid)
    (hax : ∀ a ∈ axs, a < y.label.length) :
    Larry.Valid ⟨axs.foldl (fun x ax => x.shuffleAx ax (draws ax)) y.x, y.dtype,
        axs.foldl (fun ls ax => ls.modify ax (shuffleList (draws ax))) y.label⟩ ∧
      y.Reordered ⟨axs.foldl (fun x ax => x.shuffleAx ax (draws ax)) y.x, y.dtype,
        axs.foldl (fun ls ax => ls.modify ax (shuffleList (draws ax))) y.label⟩ := by
  induction axs generalizing y with
  | nil => exact ⟨hv, Larry.Reordered.refl y⟩
  | cons a axs ih =>
    obtain ⟨v1, r1⟩ := shuffleAx_reordered (hd a) hv (hax a (by simp))
    obtain ⟨v2, r2⟩ := ih v1 (fun b hb => by simpa using hax b (by simp [hb]))
    exact ⟨v2, r1.trans r2⟩

theorem pyIdx_asks {n : Nat} {a : Int} {k k' : Nat} (h : pyIdx n a = some k) (hk : Asks n (some a) k') (hk' : k' < n) : k' = k := by
  have := pyIdx_lt h
  unfold pyIdx at h
  simp only [Asks] at hk
  split at h <;> split at h <;> simp at h <;> omega

theorem asks_pyIdx {n : Nat} {a : Int} {k : Nat} (h : pyIdx n a = some k) : Asks n (some a) k := by
  unfold pyIdx at h
  simp only [Asks]
  split at h <;> split at h <;> simp at h <;> omega

theorem foldl_shuffle_perm (draws : Nat → Nat → Nat) (axs : List Nat) (ls : List (List L)) :
    List.Forall₂ List.Perm ls (axs.foldl (fun ls ax => ls.modify ax (shuffleList (draws ax))) ls) := by
  induction axs generalizing ls with
  | nil => exact List.forall₂_same.mpr fun _ _ => .refl _
  | cons a axs ih =>
    have h1 : List.Forall₂ List.Perm ls (ls.modify a (shuffleList (draws a))) :=
      forall₂_modify (fun _ => .refl _) (fun m => (shuffleList_perm _ m).symm) _ _
    have h2 := ih (ls.modify a (shuffleList (draws a)))
    exact List.forall₂_iff_get.mpr ⟨h1.length_eq.trans h2.length_eq, fun i hi hi' =>
      ((List.forall₂_iff_get.mp h1).2 i hi (h1.length_eq ▸ hi)).trans ((List.forall₂_iff_get.mp h2).2 i _ hi')⟩

/-- What both methods do, with the same draws. -/
theorem shuffle_main {y : Larry L} (hv : y.Valid) {axis : Option Int} (ha : axis = none ∨ ∃ k < y.ndim, Asks y.ndim axis k)
    {draws : Nat → Nat → Nat} (hd : ∀ k, Drawn (draws k)) :
    ∃ x ps, y.shuffle axis draws = .ok ⟨x, y.dtype, y.label⟩ ∧ y.shufflelabel axis draws = .ok ⟨y.x, y.dtype, ps⟩ ∧
      OtherOrder (Asks y.ndim axis) y.label ps ∧ Larry.Valid ⟨x, y.dtype, ps⟩ ∧ y.Reordered ⟨x, y.dtype, ps⟩ := by
  have hlen := hv.label_length
  match axis with
  | none =>
    obtain ⟨v, r⟩ := shuffleAll_reordered hd (List.range y.ndim) hv (fun a h => by rw [hlen]; exact List.mem_range.mp h)
    exact ⟨_, _, rfl, rfl, ⟨foldl_shuffle_perm _ _ _, fun k hk => absurd trivial hk⟩, v, r⟩
  | some a =>
    obtain ⟨k, hk, h⟩ := ha.resolve_left (by simp)
    have hp : pyIdx y.ndim a = some k := by
      simp only [Asks] at h
      unfold pyIdx
      rcases h with rfl | rfl
      · simp [hk]
      · rw [if_neg (by omega), if_pos (by omega)]
        congr 1
        omega
    obtain ⟨v, r⟩ := shuffleAx_reordered (hd k) hv (by rw [hlen]; exact hk)
    refine ⟨_, _, by simp only [Larry.shuffle, hp], by simp only [Larry.shufflelabel, hlen, hp], ⟨r.label, fun i hi => ?_⟩, v, r⟩
    rw [List.getElem?_modify]
    split
    · next e => subst e; exact absurd h hi
    · simp

/-- C70. shuffle keeps the labels and rearranges whole slices along the axes asked for: there are reorderings of the
label lists under which the new data would be the old larry. -/
theorem C70_shuffle {y : Larry L} (hv : y.Valid) {axis : Option Int} (ha : axis = none ∨ ∃ k < y.ndim, Asks y.ndim axis k)
    {draws : Nat → Nat → Nat} (hd : ∀ k, Drawn (draws k)) :
    ∃ z, y.shuffle axis draws = .ok z ∧ z.Valid ∧ z.label = y.label ∧ z.dtype = y.dtype ∧
      ∃ ps, OtherOrder (Asks y.ndim axis) y.label ps ∧ y.Reordered ⟨z.x, z.dtype, ps⟩ := by
  obtain ⟨x, ps, h1, -, h2, h3, h4⟩ := shuffle_main hv ha hd
  refine ⟨_, h1, ?_, rfl, rfl, ps, h2, h4⟩
  refine ⟨?_, hv.nodup, hv.ndim_pos⟩
  have := h3.shape_eq
  rw [show NDArray.shape x = List.map List.length ps from this]
  exact (Larry.Reordered.lengths h2.1).symm

/-- C70. shufflelabel keeps the data and puts the labels of the axes asked for in another order; labels never move to
another axis. -/
theorem C70_shufflelabel {y : Larry L} (hv : y.Valid) {axis : Option Int} (ha : axis = none ∨ ∃ k < y.ndim, Asks y.ndim axis k)
    {draws : Nat → Nat → Nat} (hd : ∀ k, Drawn (draws k)) :
    ∃ z, y.shufflelabel axis draws = .ok z ∧ z.Valid ∧ z.x = y.x ∧ z.dtype = y.dtype ∧
      OtherOrder (Asks y.ndim axis) y.label z.label := by
  obtain ⟨x, ps, -, h1, h2, h3, h4⟩ := shuffle_main hv ha hd
  refine ⟨_, h1, ⟨?_, h3.nodup, h3.ndim_pos⟩, rfl, rfl, h2⟩
  show y.x.shape = _
  rw [hv.shape_eq]
  exact Larry.Reordered.lengths h2.1

/-- C70. An axis out of range is a ValueError of shuffle and an IndexError of shufflelabel. -/
theorem C70_axis {y : Larry L} (hv : y.Valid) {a : Int} (ha : ¬ ∃ k < y.ndim, Asks y.ndim (some a) k) (draws : Nat → Nat → Nat) :
    y.shuffle (some a) draws = .error .valueError ∧ y.shufflelabel (some a) draws = .error .indexError := by
  have hp : pyIdx y.ndim a = none := by
    cases h : pyIdx y.ndim a with
    | none => rfl
    | some k => exact absurd ⟨k, pyIdx_lt h, asks_pyIdx h⟩ ha
  simp [Larry.shuffle, Larry.shufflelabel, hv.label_length, hp]

/-! ## Every order is reached, by exactly one sequence of draws -/

theorem loop_above {α : Type _} {draw : Nat → Nat} (hd : Drawn draw) {n : Nat} {l : List α} (hn : n < l.length ∨ n = 0) {k : Nat} (hk : n < k) :
    (shuffleLoop (fun i j m => swapList m i j) draw n l)[k]? = l[k]? := by
  induction n generalizing l with
  | zero => rfl
  | succ n ih =>
    have hn : n + 1 < l.length := by omega
    rw [shuffleLoop, ih (by rw [swapList_length]; omega) (by omega),
      swapList_get? hn (lt_of_le_of_lt (hd _) hn), swapIdx, if_neg (by omega), if_neg]
    have := hd (n + 1)
    omega

theorem loop_top {α : Type _} {draw : Nat → Nat} (hd : Drawn draw) {n : Nat} {l : List α} (hn : n + 1 < l.length) :
    (shuffleLoop (fun i j m => swapList m i j) draw (n + 1) l)[n + 1]? = l[draw (n + 1)]? := by
  rw [shuffleLoop, loop_above hd (by rw [swapList_length]; omega) (by omega),
    swapList_get? hn (lt_of_le_of_lt (hd _) hn), swapIdx, if_pos rfl]

theorem loop_unique {α : Type _} {draw draw' : Nat → Nat} (hd : Drawn draw) (hd' : Drawn draw') {n : Nat} {l : List α}
    (hl : l.Nodup) (hn : n < l.length ∨ n = 0)
    (h : shuffleLoop (fun i j m => swapList m i j) draw n l = shuffleLoop (fun i j m => swapList m i j) draw' n l)
    {i : Nat} (h1 : 1 ≤ i) (h2 : i ≤ n) : draw i = draw' i := by
  induction n generalizing l with
  | zero => omega
  | succ n ih =>
    have hn : n + 1 < l.length := by omega
    have e : draw (n + 1) = draw' (n + 1) := by
      have h3 := loop_top hd hn
      rw [h, loop_top hd' hn] at h3
      have g1 : draw (n + 1) < l.length := lt_of_le_of_lt (hd _) hn
      have g2 : draw' (n + 1) < l.length := lt_of_le_of_lt (hd' _) hn
      rw [List.getElem?_eq_getElem g1, List.getElem?_eq_getElem g2] at h3
      exact ((hl.getElem_inj_iff).mp (Option.some.inj h3)).symm
    by_cases hi : i = n + 1
    · rw [hi, e]
    · rw [shuffleLoop, shuffleLoop, ← e] at h
      exact ih ((swapList_perm _ _ _).nodup_iff.mpr hl) (by rw [swapList_length]; omega) h (by omega)

theorem loop_reach {α : Type _} [DecidableEq α] {n : Nat} {l p : List α} (hl : l.Nodup) (hn : n < l.length ∨ n = 0) (hp : p.Perm l)
    (hab : ∀ k, n < k → p[k]? = l[k]?) :
    ∃ draw, Drawn draw ∧ shuffleLoop (fun i j m => swapList m i j) draw n l = p := by
  induction n generalizing l with
  | zero =>
    refine ⟨fun _ => 0, fun i => Nat.zero_le i, ?_⟩
    rw [shuffleLoop]
    match l, p, hp.length_eq with
    | [], [], _ => rfl
    | a :: l, b :: p, _ =>
      have : l = p := List.ext_getElem? fun k => (hab (k + 1) (by omega)).symm
      subst this
      have := hp.mem_iff (a := b)
      have h1 : b ∈ a :: l := this.mp (by simp)
      rcases List.mem_cons.mp h1 with rfl | h1
      · rfl
      · exact absurd h1 (List.nodup_cons.mp (hp.nodup_iff.mpr hl)).1
  | succ n ih =>
    have hn : n + 1 < l.length := by omega
    have hnp : n + 1 < p.length := by rw [hp.length_eq]; exact hn
    obtain ⟨j, hj, e⟩ := List.getElem_of_mem (hp.mem_iff.mp (List.getElem_mem hnp))
    have hjn : j ≤ n + 1 := by
      by_contra hc
      have h1 := hab j (by omega)
      rw [List.getElem?_eq_getElem hj, e, List.getElem?_eq_getElem (by rw [hp.length_eq]; exact hj)] at h1
      have := ((hp.nodup_iff.mpr hl).getElem_inj_iff).mp (Option.some.inj h1)
      omega
    obtain ⟨draw, hd, hr⟩ := ih (l := swapList l (n + 1) j) ((swapList_perm _ _ _).nodup_iff.mpr hl) (by rw [swapList_length]; omega)
      (hp.trans (swapList_perm _ _ _).symm) (fun k hk => by
        rw [swapList_get? hn hj, swapIdx]
        split
        · next h => rw [h, List.getElem?_eq_getElem hnp, List.getElem?_eq_getElem hj, e]
        · rw [if_neg (by omega)]; exact hab k (by omega))
    refine ⟨fun i => if i = n + 1 then j else draw i, fun i => ?_, ?_⟩
    · show (if i = n + 1 then j else draw i) ≤ i
      split
      · next h => rw [h]; exact hjn
      · exact hd i
    · rw [shuffleLoop, if_pos rfl, ← hr]
      have : ∀ (m : Nat) (q : List α), m ≤ n → shuffleLoop (fun i j m => swapList m i j) (fun i => if i = n + 1 then j else draw i) m q =
          shuffleLoop (fun i j m => swapList m i j) draw m q := by
        intro m
        induction m with
        | zero => intros; rfl
        | succ m ih =>
          intro q hm
          rw [shuffleLoop, shuffleLoop, if_neg (by omega), ih _ (by omega)]
      exact this n _ (le_refl _)

/-- C70. Every order of a list of distinct labels is reached, by exactly one sequence of draws: equally likely draws give
equally likely orders. -/
theorem C70_uniform {α : Type _} [DecidableEq α] {l p : List α} (hl : l.Nodup) (hp : p.Perm l) :
    (∃ draw, Drawn draw ∧ shuffleList draw l = p) ∧
      ∀ draw draw', Drawn draw → Drawn draw' → shuffleList draw l = p → shuffleList draw' l = p →
        ∀ i, 1 ≤ i → i < l.length → draw i = draw' i := by
  refine ⟨loop_reach hl (by omega) hp (fun k hk => ?_), fun draw draw' hd hd' h h' i h1 h2 =>
    loop_unique hd hd' hl (by omega) (h.trans h'.symm) h1 (by omega)⟩
  rw [List.getElem?_eq_none (by rw [hp.length_eq]; omega), List.getElem?_eq_none (by omega)]

/-! ## A concrete case -/

/-- A 2 by 3 larry. -/
def exShuffle : Larry Nat := ⟨⟨[2, 3], fun idx => .int (idx.getD 0 0 * 10 + idx.getD 1 0)⟩, .int, [[7, 8], [3, 1, 2]]⟩

theorem exShuffle_valid : exShuffle.Valid := ⟨rfl, by decide, by decide⟩

/-- Drawing 0 for 2 and 0 for 1 takes columns 0, 1, 2 to 1, 2, 0. -/
example : ∃ z, exShuffle.shuffle (some (-1)) (fun _ _ => 0) = .ok z ∧ z.label = [[7, 8], [3, 1, 2]] ∧
    (allIdx [2, 3]).map z.x.get = [.int 1, .int 2, .int 0, .int 11, .int 12, .int 10] :=
  ⟨_, rfl, rfl, by decide⟩

example : ∃ z, exShuffle.shuffle (some (-1)) (fun _ _ => 0) = .ok z ∧ z.Valid ∧ z.label = exShuffle.label ∧ z.dtype = .int ∧
    ∃ ps, OtherOrder (Asks 2 (some (-1))) exShuffle.label ps ∧ exShuffle.Reordered ⟨z.x, z.dtype, ps⟩ :=
  C70_shuffle exShuffle_valid (axis := some (-1)) (.inr ⟨1, by decide, Or.inr (by decide)⟩) (fun _ _ => Nat.zero_le _)

end La
