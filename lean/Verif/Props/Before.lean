import Verif.BeforeLines
import Verif.Props.Lookback

/-!
# Property C108: adding later data changes nothing that was there before

`later` says which labels are later ones, for example the dates after a day `t`.  One run of a program starts from the data up
to `t`, where the later labels do not occur, the other from all of them.  What the first run computes is what the second one
computes, without the later labels.  C106 compares two runs on the same labels; here the lengths of the axes differ as well, and
with them where things stand, how long the lines are, and which labels are merged.
-/

namespace La
open Larry
variable {L : Type _} [LinearOrder L]

/-! ## Specification -/

/-- Two stores, variable by variable: the first without the later labels. -/
abbrev Store.Before (later : L → Prop) [DecidablePred later] : Store L → Store L → Prop := List.Forall₂ (Larry.Before later)

/-- `k` is the axis that `axis` means. -/
def Larry.IsAxis (y : Larry L) (axis : Option Int) (k : Nat) : Prop := ∃ a, axis = some a ∧ (a = k ∨ a = (k : Int) - y.ndim)

/-- Two calls, the first in the run on the data so far (`st'`) and the second in the run on all data (`st`), that do the same.
The labels a call is given as an argument are cut as well (`new`, `morph`).  Where labels are merged, those of an axis are the
same on both sides or the merged ones are in order anyway (`SameOrAscending`); values that have no missing marker are not
reindexed; and along the time axis a call looks back only. -/
inductive Cmd.Cuts (later : L → Prop) [DecidablePred later] (st' st : Store L) : Cmd L → Cmd L → Prop
  | new {x' x d label} : (∀ names v, Holds (label.map (sofar later)) x' names v → Holds label x names v) →
      Cmd.Cuts later st' st (.new x' d (label.map (sofar later))) (.new x d label)
  | morph {i lab axis} : (∀ y, st[i]? = some y → HasMarker y.dtype) →
      Cmd.Cuts later st' st (.morph i (sofar later lab) axis) (.morph i lab axis)
  | morphLike {i j} : (∀ y, st[i]? = some y → HasMarker y.dtype) →
      Cmd.Cuts later st' st (.morphLike i j) (.morphLike i j)
  | binop {uf i j} : (∀ y z, st[i]? = some y → st[j]? = some z → List.Forall₂ SameOrAscending y.label z.label) →
      Cmd.Cuts later st' st (.binop uf i j) (.binop uf i j)
  | binopNumber {uf i x d} : x.shape = [] → Cmd.Cuts later st' st (.binopArray uf i x d) (.binopArray uf i x d)
  | compare {uf i j} : (∀ y z, st[i]? = some y → st[j]? = some z → List.Forall₂ SameOrAscending y.label z.label) →
      Cmd.Cuts later st' st (.compare uf i j) (.compare uf i j)
  | merge {i j} : (∀ y z, st[i]? = some y → st[j]? = some z →
        y.dtype = z.dtype ∧ HasMarker y.dtype ∧ List.Forall₂ SameOrAscending y.label z.label) →
      Cmd.Cuts later st' st (.merge i j true) (.merge i j true)
  | align {i j join cast} : (∀ y z, st[i]? = some y → st[j]? = some z →
        HasMarker y.dtype ∧ HasMarker z.dtype ∧ List.Forall₂ SameOrAscending y.label z.label) →
      Cmd.Cuts later st' st (.align i j join cast) (.align i j join cast)
  | binaryop {cv uf i j join cast m1 m2} : join.NoSkip → (∀ y z, st[i]? = some y → st[j]? = some z →
        HasMarker y.dtype ∧ HasMarker z.dtype ∧ List.Forall₂ SameOrAscending y.label z.label) →
      Cmd.Cuts later st' st (.binaryop cv uf i j join cast m1 m2) (.binaryop cv uf i j join cast m1 m2)
  | stack {mode kwargs} : (kwargs.map Prod.fst).Nodup → (∀ p ∈ kwargs, ¬ later p.1 ∧ ∀ y, st[p.2]? = some y → y.dtype.IsNum) →
      Cmd.Cuts later st' st (.stack mode kwargs) (.stack mode kwargs)
  | sortaxis (i axis reverse) : Cmd.Cuts later st' st (.sortaxis i axis reverse) (.sortaxis i axis reverse)
  | keepLabel {i op} {axis : Option Int} : (∀ a, axis = some a → st.OnAxis i a fun l => ∃ b ∈ l, Wanted op b ∧ ¬ later b) →
      Cmd.Cuts later st' st (.keepLabel i op axis) (.keepLabel i op axis)
  | pull {i name} {axis : Option Int} : ¬ later name →
      (∀ y k m, st[i]? = some y → y.IsAxis axis k → y.label.eraseIdx k ≠ [[m]]) →
      (∀ y k m, st'[i]? = some y → y.IsAxis axis k → y.label.eraseIdx k ≠ [[m]]) →
      Cmd.Cuts later st' st (.pull i name axis) (.pull i name axis)
  | take {i indices axis} : st.OnAxis i axis (Early later) → Cmd.Cuts later st' st (.take i indices axis) (.take i indices axis)
  | flipaxis (i axis) : Cmd.Cuts later st' st (.flipaxis i axis) (.flipaxis i axis)
  | lag {i nlag} {axis : Option Int} :
      (∀ a, axis = some a → st.OnAxis i a fun l => (0 < nlag → InTime later l) ∧ (nlag < 0 → BackInTime later l)) →
      Cmd.Cuts later st' st (.lag i nlag axis) (.lag i nlag axis)
  | transpose (i) : Cmd.Cuts later st' st (.transpose i) (.transpose i)
  | swapaxes (i a b) : Cmd.Cuts later st' st (.swapaxes i a b) (.swapaxes i a b)
  | insertaxis {i axis name} : ¬ later name → Cmd.Cuts later st' st (.insertaxis i axis name) (.insertaxis i axis name)
  | maplabel {i f} {axis : Option Int} : (∀ y, st[i]? = some y → ∀ (k : Nat) l, y.label[k]? = some l →
        (∀ a, axis = some a → a = k ∨ a = (k : Int) - y.ndim) → (l.map f).Nodup ∧ ∀ b ∈ l, later (f b) ↔ later b) →
      Cmd.Cuts later st' st (.maplabel i f axis) (.maplabel i f axis)
  | reduce {r i} {axis : Option Int} : (∀ y, st'[i]? = some y → y.size ≠ 0) →
      (∀ a, axis = some a → (∀ y, st[i]? = some y → y.ndim = 1) ∨ st.OnAxis i a (Early later)) →
      Cmd.Cuts later st' st (.reduce r i axis) (.reduce r i axis)
  | prod {i} {axis : Option Int} : (∀ y, st'[i]? = some y → y.size ≠ 0) →
      (∀ a, axis = some a → (∀ y, st[i]? = some y → y.ndim = 1) ∨ st.OnAxis i a (Early later)) →
      Cmd.Cuts later st' st (.prod i axis) (.prod i axis)
  | cumsum {i} {axis : Option Int} : (∀ a, axis = some a → st.OnAxis i a (InTime later)) →
      Cmd.Cuts later st' st (.cumsum i axis) (.cumsum i axis)
  | cumprod {i} {axis : Option Int} : (∀ a, axis = some a → st.OnAxis i a (InTime later)) →
      Cmd.Cuts later st' st (.cumprod i axis) (.cumprod i axis)
  | clip (i lo hi) : Cmd.Cuts later st' st (.clip i lo hi) (.clip i lo hi)
  | push {i window axis} : st.OnAxis i axis (InTime later) → Cmd.Cuts later st' st (.push i window axis) (.push i window axis)
  | ranking {i a norm} : st.OnAxis i a (Early later) →
      Cmd.Cuts later st' st (.ranking i (some a) norm) (.ranking i (some a) norm)
  | quantile {argsort i q a} : st.OnAxis i a (Early later) →
      Cmd.Cuts later st' st (.quantile argsort i q (some a)) (.quantile argsort i q (some a))
  | quantileOne {argsort i q axis} : q ≤ 1 → Cmd.Cuts later st' st (.quantile argsort i q axis) (.quantile argsort i q axis)
  | demean {center i a} : st.OnAxis i a (Early later) →
      Cmd.Cuts later st' st (.demean center i (some a)) (.demean center i (some a))
  | zscore {std i a} : st.OnAxis i a (Early later) →
      Cmd.Cuts later st' st (.zscore std i (some a)) (.zscore std i (some a))
  | movingsumForward {i window skip axis norm} : st.OnAxis i axis (BackInTime later) →
      Cmd.Cuts later st' st (.movingsumForward i window skip axis norm) (.movingsumForward i window skip axis norm)
  | moveFunc {f i buf' buf strides' strides offset' offset window m} {axis : Option Int} :
      (∀ y, st'[i]? = some y → StoredAs y buf' ⟨y.x.shape, strides', offset'⟩) →
      (∀ y, st[i]? = some y → StoredAs y buf ⟨y.x.shape, strides, offset⟩) →
      (∀ a, axis = some a → st.OnAxis i a (InTime later)) →
      Cmd.Cuts later st' st (.moveFunc f i buf' strides' offset' window axis m) (.moveFunc f i buf strides offset window axis m)
  | moveBn {k i window axis} : st.OnAxis i axis (InTime later) →
      Cmd.Cuts later st' st (.moveBn k i window axis) (.moveBn k i window axis)
  | group {sort f i j axis} : st.OnAxis i axis (Early later) →
      Cmd.Cuts later st' st (.group sort f i j axis) (.group sort f i j axis)
  | ismissing (i) : Cmd.Cuts later st' st (.ismissing i) (.ismissing i)
  | set (i names v) : Cmd.Cuts later st' st (.set i names v) (.set i names v)
  | setMask {i j v} : (∀ m, st[j]? = some m → m.dtype ≠ .int) → Cmd.Cuts later st' st (.setMask i j v) (.setMask i j v)

/-- Two programs, call by call. -/
def CutsAll (later : L → Prop) [DecidablePred later] : Store L → Store L → List (Cmd L) → List (Cmd L) → Prop
  | _, _, [], [] => True
  | st', st, c' :: cs', c :: cs => Cmd.Cuts later st' st c' c ∧
      ∀ s' s, c'.step st' = .ok s' → c.step st = .ok s → CutsAll later s' s cs' cs
  | _, _, _, _ => False

/-- A program runs from one store to another and no call raises. -/
inductive Runs : Store L → List (Cmd L) → Store L → Prop
  | nil (st) : Runs st [] st
  | cons {st s t : Store L} {c : Cmd L} {cs : List (Cmd L)} : c.step st = .ok s → Runs s cs t → Runs st (c :: cs) t

/-! ## Proofs -/

variable {later : L → Prop} [DecidablePred later]

omit [LinearOrder L] in
theorem before_get? {st' st : Store L} (h : st'.Before later st) (i : Nat) :
    (∃ z y, st'[i]? = some z ∧ st[i]? = some y ∧ z.Before later y) ∨ (st'[i]? = none ∧ st[i]? = none) := by
  induction h generalizing i with
  | nil => exact .inr ⟨rfl, rfl⟩
  | cons h1 _ ih =>
    cases i with
    | zero => exact .inl ⟨_, _, rfl, rfl, h1⟩
    | succ i => exact ih i

omit [LinearOrder L] in
theorem on_before {β γ : Type _} {S : β → γ → Prop} {st' st : Store L} (hv' : st'.Valid) (hv : st.Valid) (h : st'.Before later st)
    (i : Nat) {f' : Larry L → Res β} {f : Larry L → Res γ}
    (hf : ∀ z y, st'[i]? = some z → st[i]? = some y → z.Valid → y.Valid → z.Before later y → Res.Both S (f' z) (f y)) :
    Res.Both S (st'.on i f') (st.on i f) := by
  unfold Store.on Store.var
  rcases before_get? h i with ⟨z, y, h1, h2, h3⟩ | ⟨h1, h2⟩
  · rw [h1, h2]; exact hf z y h1 h2 (hv' z (List.mem_of_getElem? h1)) (hv y (List.mem_of_getElem? h2)) h3
  · rw [h1, h2]; exact .left

omit [LinearOrder L] in
theorem one_before {r' r : Res (Larry L)} (h : Res.Both (Larry.Before later) r' r) :
    Res.Both (Store.Before later) (Res.one r') (Res.one r) := by
  cases r' with
  | error e => exact .left
  | ok a => cases r with
    | error e => exact .right
    | ok b => exact .ok (.cons (h a b rfl rfl) .nil)

omit [LinearOrder L] in
theorem out_before {r' r : Res (Out L)} (h : Res.Both (Out.Before later) r' r) :
    Res.Both (Store.Before later) (Res.out r') (Res.out r) := by
  cases r' with
  | error e => exact .left
  | ok a => cases r with
    | error e => cases a <;> exact .right
    | ok b =>
      have := h a b rfl rfl
      cases a <;> cases b <;> first
        | exact this.elim
        | exact .ok .nil
        | exact .ok (.cons this .nil)

omit [LinearOrder L] in
theorem vars_before {st' st : Store L} (h : st'.Before later st) :
    ∀ is : List Nat, Res.Both (List.Forall₂ (Larry.Before later)) (mapRes st'.var is) (mapRes st.var is)
  | [] => .ok .nil
  | i :: is => by
    intro as bs ha hb
    unfold mapRes at ha hb
    split at ha
    · simp at ha
    · rename_i a ha1
      split at ha
      · simp at ha
      · rename_i as' ha2
        obtain rfl : _ = as := by simpa using ha
        split at hb
        · simp at hb
        · rename_i b hb1
          split at hb
          · simp at hb
          · rename_i bs' hb2
            obtain rfl : _ = bs := by simpa using hb
            refine .cons ?_ (vars_before h is _ _ ha2 hb2)
            unfold Store.var at ha1 hb1
            rcases before_get? h i with ⟨z, y, h1, h2, h3⟩ | ⟨h1, h2⟩
            · rw [h1] at ha1; rw [h2] at hb1
              cases ha1; cases hb1
              exact h3
            · rw [h1] at ha1; simp at ha1

omit [LinearOrder L] in
theorem zip_before {ys' ys : List (Larry L)} (h : List.Forall₂ (Larry.Before later) ys' ys) (ks : List L) :
    List.Forall₂ (fun p q => p.1 = q.1 ∧ p.2.Before later q.2) (ks.zip ys') (ks.zip ys) := by
  induction h generalizing ks with
  | nil => simp
  | cons h1 _ ih =>
    cases ks with
    | nil => simp
    | cons k ks => exact .cons ⟨rfl, h1⟩ (ih ks)

theorem results_before {st' st : Store L} (hv' : st'.Valid) (hv : st.Valid) (h : st'.Before later st) {c' c : Cmd L}
    (hc : Cmd.Cuts later st' st c' c) : Res.Both (Store.Before later) (c'.results st') (c.results st) := by
  cases hc with
  | @new x' x d label hx =>
    refine one_before fun z' z h1 h2 => ?_
    have e : ∀ {x : NDArray Val} {label : List (List L)} {z : Larry L}, mk' x d label = .ok z → z = ⟨x, d, label⟩ := by
      intro x label z hz
      unfold mk' at hz
      split_ifs at hz
      cases hz; rfl
    obtain rfl := e h1
    obtain rfl := e h2
    exact ⟨rfl, rfl, hx⟩
  | morph hm =>
    exact on_before hv' hv h _ fun z y _ e hz hy hzy => one_before fun a b h1 h2 => (morph_before hz hy hzy (hm y e) _ _ a b h1 h2).1
  | morphLike hm =>
    exact on_before hv' hv h _ fun z y _ e hz hy hzy => on_before hv' hv h _ fun z2 y2 _ _ hz2 hy2 h2 =>
      one_before (morphLike_before hz hy hzy hz2 hy2 h2 (hm y e))
  | binop hs =>
    exact on_before hv' hv h _ fun z y _ e hz hy hzy => on_before hv' hv h _ fun z2 y2 _ e2 hz2 hy2 h2 =>
      one_before (binop_before _ hz hy hzy hz2 hy2 h2 (hs y y2 e e2))
  | binopNumber hx =>
    exact on_before hv' hv h _ fun z y _ e hz hy hzy => one_before (binopArray_before _ hz hy hzy hx _)
  | compare hs =>
    exact on_before hv' hv h _ fun z y _ e hz hy hzy => on_before hv' hv h _ fun z2 y2 _ e2 hz2 hy2 h2 =>
      one_before (compare_before _ hz hy hzy hz2 hy2 h2 (hs y y2 e e2))
  | merge hs =>
    exact on_before hv' hv h _ fun z y _ e hz hy hzy => on_before hv' hv h _ fun z2 y2 _ e2 hz2 hy2 h2 =>
      one_before (merge_before hz hy hzy hz2 hy2 h2 (hs y y2 e e2).1 (hs y y2 e e2).2.1 (hs y y2 e e2).2.2)
  | @align i j join cast hs =>
    exact on_before hv' hv h _ fun z y _ e hz hy hzy => on_before hv' hv h _ fun z2 y2 _ e2 hz2 hy2 h2 => by
      have hb := align_before hz hy hzy hz2 hy2 h2 (hs y y2 e e2).1 (hs y y2 e e2).2.1 (hs y y2 e e2).2.2 join cast
      generalize La.align z z2 join cast = r' at hb ⊢
      generalize La.align y y2 join cast = r at hb ⊢
      cases r' with
      | error e => exact .left
      | ok a => cases r with
        | error e => exact .right
        | ok b => exact .ok (.cons (hb a b rfl rfl).1 (.cons (hb a b rfl rfl).2 .nil))
  | @binaryop cv uf i j join cast m1 m2 hns hs =>
    exact on_before hv' hv h _ fun z y _ e hz hy hzy => on_before hv' hv h _ fun z2 y2 _ e2 hz2 hy2 h2 => by
      have hb := binaryop_before cv uf hz hy hzy hz2 hy2 h2 (hs y y2 e e2).1 (hs y y2 e e2).2.1 (hs y y2 e e2).2.2 hns cast m1 m2
      generalize La.binaryop cv uf z z2 join cast m1 m2 = r' at hb ⊢
      generalize La.binaryop cv uf y y2 join cast m1 m2 = r at hb ⊢
      cases r' with
      | error e => exact .left
      | ok a => cases r with
        | error e => exact .right
        | ok b => exact .ok (.cons (hb a b rfl rfl) .nil)
  | @stack mode kwargs hk hnum =>
    simp only [Cmd.results]
    have hb := vars_before h (kwargs.map Prod.snd)
    cases h1 : mapRes st'.var (kwargs.map Prod.snd) with
    | error e => exact .left
    | ok ys' => cases h2 : mapRes st.var (kwargs.map Prod.snd) with
      | error e => exact .right
      | ok ys =>
        refine one_before (stack_before mode (zip_before (hb _ _ h1 h2) _) (hk.sublist (zip_fst _ _)) (fun p hp => ?_)
          (fun p hp => vars_valid hv' h1 _ (List.of_mem_zip (a := p.1) (b := p.2) hp).2) fun p hp => ?_)
        · obtain ⟨q, hq, e⟩ := List.mem_map.mp (List.of_mem_zip (a := p.1) (b := p.2) hp).1
          rw [← e]; exact (hnum q hq).1
        · have hm := (List.of_mem_zip (a := p.1) (b := p.2) hp).2
          obtain ⟨i, hi, e⟩ := var_of h2 hm
          obtain ⟨q, hq, rfl⟩ := List.mem_map.mp hi
          exact ⟨vars_valid hv h2 _ hm, (hnum q hq).2 _ e⟩
  | sortaxis i axis reverse =>
    exact on_before hv' hv h _ fun z y _ e hz hy hzy => one_before (sortaxis_before hz hy hzy axis reverse)
  | keepLabel ho =>
    exact on_before hv' hv h _ fun z y _ e hz hy hzy => one_before (keepLabel_before hz hy hzy _ fun a ax l h1 h2 h3 =>
      ho a h1 y l e (axis_of_pyIdx h2 h3))
  | pull hn hs hs' =>
    have isAxis : ∀ {y : Larry L} {axis : Option Int} {a : Int} {ax : Nat}, axis = some a → pyIdx y.ndim a = some ax → y.IsAxis axis ax := by
      intro y axis a ax h1 h2
      refine ⟨a, h1, ?_⟩
      rcases (pyIdx_some.mp h2).2 with h | h <;> omega
    exact on_before hv' hv h _ fun z y e' e hz hy hzy => out_before (pull_before hz hy hzy hn
      (fun a ax m h1 h2 => hs y ax m e (isAxis h1 h2))
      (fun a ax m h1 h2 => hs' z ax m e' (isAxis h1 (by rw [hzy.ndim hz hy]; exact h2))))
  | take ho =>
    exact on_before hv' hv h _ fun z y _ e hz hy hzy => one_before (take_before hz hy hzy _ fun ax l h2 h3 =>
      ho y l e (axis_of_pyIdx h2 h3))
  | flipaxis i axis =>
    exact on_before hv' hv h _ fun z y _ e hz hy hzy => one_before (flipaxis_before hz hy hzy axis)
  | lag ho =>
    exact on_before hv' hv h _ fun z y _ e hz hy hzy => one_before (lag_before hz hy hzy _ fun a ax l h1 h2 h3 =>
      ho a h1 y l e (axis_of_pyIdx h2 h3))
  | transpose i =>
    exact on_before hv' hv h _ fun z y _ e hz hy hzy => .ok (.cons (T_before hz hy hzy) .nil)
  | swapaxes i a b =>
    exact on_before hv' hv h _ fun z y _ e hz hy hzy => one_before (swapaxes_before hz hy hzy a b)
  | insertaxis hn =>
    exact on_before hv' hv h _ fun z y _ e hz hy hzy => one_before (insertaxis_before hz hy hzy _ hn)
  | maplabel hf =>
    exact on_before hv' hv h _ fun z y _ e hz hy hzy => one_before (maplabel_before hy hzy _ _
      fun k l hl ha => (hf y e k l hl ha).2)
  | reduce hs ho =>
    exact on_before hv' hv h _ fun z y e' e hz hy hzy => out_before (reduce_before hz hy hzy (hs z e') _ fun a ax l h1 h0 h2 h3 => by
      rcases ho a h1 with hn | hn
      · exact absurd (hn y e) h0
      · exact hn y l e (axis_of_pyIdx h2 h3))
  | prod hs ho =>
    exact on_before hv' hv h _ fun z y e' e hz hy hzy => out_before (prod_before hz hy hzy (hs z e') fun a ax l h1 h0 h2 h3 => by
      rcases ho a h1 with hn | hn
      · exact absurd (hn y e) h0
      · exact hn y l e (axis_of_pyIdx h2 h3))
  | cumsum ho =>
    exact on_before hv' hv h _ fun z y _ e hz hy hzy => one_before (cumulate_before hz hy hzy
      (fun a ax l h1 h2 h3 => ho a h1 y l e (axis_of_pyIdx h2 h3)) _ _)
  | cumprod ho =>
    exact on_before hv' hv h _ fun z y _ e hz hy hzy => one_before (cumulate_before hz hy hzy
      (fun a ax l h1 h2 h3 => ho a h1 y l e (axis_of_pyIdx h2 h3)) _ _)
  | clip i lo hi =>
    exact on_before hv' hv h _ fun z y _ e hz hy hzy => one_before (clip_before hy hzy lo hi)
  | push ho =>
    exact on_before hv' hv h _ fun z y _ e hz hy hzy => one_before (push_before hz hy hzy
      (fun ax l h2 h3 => ho y l e (axis_of_pyIdx h2 h3)) _)
  | ranking ho =>
    exact on_before hv' hv h _ fun z y _ e hz hy hzy => one_before (ranking_before hz hy hzy
      (fun ax l h2 h3 => ho y l e (axis_of_pyIdx h2 h3)) _)
  | quantile ho =>
    exact on_before hv' hv h _ fun z y _ e hz hy hzy => one_before (quantile_before hz hy hzy
      (.inr ⟨_, rfl, fun ax l h2 h3 => ho y l e (axis_of_pyIdx h2 h3)⟩))
  | quantileOne hq =>
    exact on_before hv' hv h _ fun z y _ e hz hy hzy => one_before (quantile_before hz hy hzy (.inl hq))
  | demean ho =>
    exact on_before hv' hv h _ fun z y _ e hz hy hzy => one_before (demean_before hz hy hzy
      (fun ax l h2 h3 => ho y l e (axis_of_pyIdx h2 h3)) _)
  | zscore ho =>
    exact on_before hv' hv h _ fun z y _ e hz hy hzy => one_before (zscore_before hz hy hzy
      (fun ax l h2 h3 => ho y l e (axis_of_pyIdx h2 h3)) _)
  | movingsumForward ho =>
    exact on_before hv' hv h _ fun z y _ e hz hy hzy => one_before (movingsumForward_before hz hy hzy
      (fun ax l h2 h3 => ho y l e (axis_of_pyIdx h2 h3)) _ _ _)
  | moveFunc hs' hs ho =>
    exact on_before hv' hv h _ fun z y e' e hz hy hzy => one_before (moveFunc_before hz hy hzy (hs' z e') (hs y e)
      (fun a ax l h1 h2 h3 => ho a h1 y l e (axis_of_pyIdx h2 h3)) _ _)
  | moveBn ho =>
    exact on_before hv' hv h _ fun z y _ e hz hy hzy => one_before (moveKind_before _ hz hy hzy
      fun ax l h2 h3 => ho y l e (axis_of_pyIdx h2 h3))
  | group ho =>
    exact on_before hv' hv h _ fun z y _ e hz hy hzy => on_before hv' hv h _ fun z2 y2 _ e2 hz2 hy2 h2 =>
      one_before (group_before _ _ hz hy hzy hz2 hy2 h2 fun ax l h2 h3 => ho y l e (axis_of_pyIdx h2 h3))
  | ismissing i =>
    exact on_before hv' hv h _ fun z y _ e hz hy hzy => .ok (.cons (ismissing_before hy hzy) .nil)
  | set i names v =>
    exact on_before hv' hv h _ fun z y _ e hz hy hzy => one_before (set_before hz hy hzy names v)
  | setMask hd =>
    exact on_before hv' hv h _ fun z y _ e hz hy hzy => on_before hv' hv h _ fun z2 y2 _ e2 hz2 hy2 h2 =>
      one_before (setMask_before hy hzy hy2 h2 (hd y2 e2) _)

omit [LinearOrder L] in
theorem set_store_before {st' st : Store L} (h : st'.Before later st) (i : Nat) {z y : Larry L} (hzy : z.Before later y) :
    Store.Before later (st'.set i z) (st.set i y) := by
  induction h generalizing i with
  | nil => exact .nil
  | cons h1 h2 ih =>
    cases i with
    | zero => exact .cons hzy h2
    | succ i => exact .cons h1 (ih i)

omit [LinearOrder L] in
theorem foldl_before {st' st zs' zs : Store L} (h : st'.Before later st) (i : Nat) (hz : Store.Before later zs' zs) :
    Store.Before later (zs'.foldl (fun st z => st.set i z) st') (zs.foldl (fun st z => st.set i z) st) := by
  induction hz generalizing st' st with
  | nil => exact h
  | cons h1 _ ih => exact ih (set_store_before h i h1)

theorem target_before {st' st : Store L} {c' c : Cmd L} (hc : Cmd.Cuts later st' st c' c) : c'.target = c.target := by cases hc <;> rfl

theorem fair_before {st' st : Store L} (hv' : st'.Valid) (hv : st.Valid) (h : st'.Before later st) {c' c : Cmd L}
    (hc : Cmd.Cuts later st' st c' c) : c'.Fair st' ∧ c.Fair st := by
  have back : ∀ {i : Nat} {z : Larry L}, st'[i]? = some z → ∃ y, st[i]? = some y ∧ z.label = y.label.map (sofar later) ∧ z.ndim = y.ndim := by
    intro i z hz
    rcases before_get? h i with ⟨z', y, h1, h2, h3⟩ | ⟨h1, h2⟩
    · obtain rfl : z = z' := by rw [hz] at h1; simpa using h1
      exact ⟨y, h2, h3.label, h3.ndim (hv' z (List.mem_of_getElem? h1)) (hv y (List.mem_of_getElem? h2))⟩
    · rw [hz] at h1; simp at h1
  have sub : ∀ {l : List L} {f : L → L}, (l.map f).Nodup → ((sofar later l).map f).Nodup := fun hn =>
    hn.sublist ((List.filter_sublist).map _)
  cases hc with
  | binopNumber hx =>
    exact ⟨fun y _ => by rw [hx]; exact bfits_nil _, fun y _ => by rw [hx]; exact bfits_nil _⟩
  | binaryop hns _ => exact ⟨hns, hns⟩
  | @maplabel i f axis hf =>
    cases axis with
    | none =>
      refine ⟨fun z hz l hl => ?_, fun y hy l hl => ?_⟩
      · obtain ⟨y, h1, h2, _⟩ := back hz
        rw [h2] at hl
        obtain ⟨l', hl', rfl⟩ := List.mem_map.mp hl
        obtain ⟨k, hk⟩ := List.getElem?_of_mem hl'
        exact sub (hf y h1 k l' hk (by simp)).1
      · obtain ⟨k, hk⟩ := List.getElem?_of_mem hl
        exact (hf y hy k l hk (by simp)).1
    | some a =>
      refine ⟨fun z hz k l hk ha => ?_, fun y hy k l hk ha => ?_⟩
      · obtain ⟨y, h1, h2, h4⟩ := back hz
        rw [h2, List.getElem?_map] at hk
        obtain ⟨l', hl', rfl⟩ := Option.map_eq_some_iff.mp hk
        exact sub (hf y h1 k l' hl' fun b hb => by cases hb; rw [← h4]; exact ha).1
      · exact (hf y hy k l hk fun b hb => by cases hb; exact ha).1
  | _ => exact ⟨trivial, trivial⟩

/-- C108. If one call on the data so far and the same call on all data both return, the first gives what the second gives,
without the later labels. -/
theorem C108_step {st' st : Store L} (hv' : st'.Valid) (hv : st.Valid) (h : st'.Before later st) {c' c : Cmd L}
    (hc : Cmd.Cuts later st' st c' c) : Res.Both (Store.Before later) (c'.step st') (c.step st) := by
  unfold Cmd.step
  rw [target_before hc]
  have hb := results_before hv' hv h hc
  generalize c'.results st' = r' at hb ⊢
  generalize c.results st = r at hb ⊢
  cases r' with
  | error e => exact .left
  | ok zs' => cases r with
    | error e => exact .right
    | ok zs =>
      have hz := hb _ _ rfl rfl
      simp only
      cases c.target with
      | none => exact .ok (List.rel_append h hz)
      | some i => exact .ok (foldl_before h i hz)

/-- C108. A program that runs through on the data so far and on all data computes from the data so far what it computes from
all data, without the later labels. -/
theorem C108_program {st' st t' t : Store L} (hv' : st'.Valid) (hv : st.Valid) (h : st'.Before later st) {cs' cs : List (Cmd L)}
    (hc : CutsAll later st' st cs' cs) (hr' : Runs st' cs' t') (hr : Runs st cs t) : t'.Before later t := by
  induction hr' generalizing st cs with
  | nil st' => cases hr with
    | nil => exact h
    | cons => exact hc.elim
  | cons k1 _ ih => cases hr with
    | nil => exact hc.elim
    | cons k2 kr =>
      obtain ⟨f1, f2⟩ := hc
      obtain ⟨g1, g2⟩ := fair_before hv' hv h f1
      exact ih (C64_step hv' g1 k1) (C64_step hv g2 k2) (C108_step hv' hv h f1 _ _ k1 k2) (f2 _ _ k1 k2) kr

/-- A program that runs through ends where `runAll` ends. -/
theorem Runs.eq {st t : Store L} {cs : List (Cmd L)} (h : Runs st cs t) : runAll st cs = t := by
  induction h with
  | nil => rfl
  | cons k _ ih => unfold runAll; rw [k]; exact ih

omit [LinearOrder L] in
/-- C108. There is one larry without the later labels only: any two have the same labels, dtype and values. -/
theorem C108_unique {y z z' : Larry L} (hy : y.Valid) (hz : z.Valid) (hz' : z'.Valid) (h : z.Before later y) (h' : z'.Before later y) :
    z.Same z' := by
  have hl : z.label = z'.label := by rw [h.label, h'.label]
  refine ⟨hl, by rw [h.dtype, h'.dtype], same_of_holds hz.shape_eq (hl ▸ hz'.shape_eq) hz.nodup fun names v hv => ?_⟩
  have : z'.Has names v := (h'.has hy).mpr ((h.has hy).mp hv)
  unfold Larry.Has at this
  rwa [← hl] at this

/-- C108. `keep_label` gives the data so far: if the condition holds of exactly the labels of the axis that are not later ones,
there are such labels, and no other axis has later ones. -/
theorem C108_keep_label {y z : Larry L} (hy : y.Valid) {op : LabelOp L} {a : Int} {ax : Nat} {l : List L} (ha : pyIdx y.ndim a = some ax)
    (hl : y.label[ax]? = some l) (hw : ∀ b ∈ l, Wanted op b ↔ ¬ later b) (hne : ∃ b ∈ l, ¬ later b)
    (ho : ∀ (k : Nat) m, y.label[k]? = some m → k ≠ ax → Early later m) (h : y.keepLabel op (some a) = .ok z) :
    z.Valid ∧ z.Before later y := by
  have hop : op ≠ .unknown := by
    rintro rfl
    rw [(C38_keep_label_errors hy .unknown).1] at h
    simp at h
  obtain ⟨b, b1, b2⟩ := hne
  obtain ⟨w, lab, e1, e2, e3, e4⟩ := (C38_keep_label hy hop ha hl).2 ⟨b, b1, (hw b b1).mpr b2⟩
  obtain rfl : w = z := by rw [h] at e1; simpa using e1.symm
  refine ⟨e2.valid, ?_, e2.dtype_eq, fun names v hv => ((e2.has _ _).mp hv).2⟩
  rw [e2.label_eq]
  have hlab : lab = sofar later l :=
    sublist_eq_of_mem (hy.nodup l (List.mem_of_getElem? hl)) e3 List.filter_sublist fun b => by
      have : b ∈ sofar later l ↔ b ∈ l ∧ ¬ later b := mem_sofar
      rw [e4, this]
      exact and_congr_right fun hb => hw b hb
  refine List.ext_getElem? fun k => ?_
  rw [List.getElem?_set, List.getElem?_map]
  split
  · rename_i hk
    subst hk
    rw [if_pos (List.getElem?_eq_some_iff.mp hl).1, hl, hlab]; rfl
  · rename_i hk
    cases hm : y.label[k]? with
    | none => rfl
    | some m => rw [Option.map_some, sofar_early (ho k m hm (Ne.symm hk))]

/-- C108. Cutting off the later labels first and computing then gives what computing first and cutting then gives. -/
theorem C108_commutes {y y' z z' w : Larry L} (hy : y.Valid) (hy' : y'.Valid) (h : y'.Before later y) {c' c : Cmd L}
    (hc : Cmd.Cuts later [y'] [y] c' c) (h1 : c'.results [y'] = .ok [z']) (h2 : c.results [y] = .ok [z])
    (hz' : z'.Valid) (hz : z.Valid) {op : LabelOp L} {a : Int} {ax : Nat} {l : List L} (ha : pyIdx z.ndim a = some ax)
    (hl : z.label[ax]? = some l) (hw : ∀ b ∈ l, Wanted op b ↔ ¬ later b) (hne : ∃ b ∈ l, ¬ later b)
    (ho : ∀ (k : Nat) m, z.label[k]? = some m → k ≠ ax → Early later m) (h3 : z.keepLabel op (some a) = .ok w) : z'.Same w := by
  obtain ⟨v1, b1⟩ := C108_keep_label hz ha hl hw hne ho h3
  have hr := results_before (later := later) (st' := [y']) (st := [y]) (by simpa [Store.Valid] using hy')
    (by simpa [Store.Valid] using hy) (.cons h .nil) hc _ _ h1 h2
  cases hr with
  | cons h0 _ => exact C108_unique hz hz' v1 h0 b1

/-! ## The conditions are needed -/

instance : DecidablePred exLate := fun n => inferInstanceAs (Decidable (n = 3))

/-- The first two days of `exThree`. -/
def exTwoDays : Larry Nat := ⟨NDArray.ofList [2] [fl 1, fl 2], .float, [[1, 2]]⟩

theorem exTwoDays_valid : exTwoDays.Valid := ⟨rfl, by simp [exTwoDays], by simp [exTwoDays]⟩

theorem exTwoDays_before (q : ℚ) : exTwoDays.Before exLate (exThree q) := by
  refine ⟨rfl, rfl, ?_⟩
  rintro names v ⟨idx, hat, rfl⟩
  have hb := At_inB hat
  match idx, names, hat, hb with
  | [0], [n], hat, _ => exact ⟨[0], hat, rfl⟩
  | [1], [n], hat, _ => exact ⟨[1], hat, rfl⟩
  | [k + 2], [n], _, hb => simp [exTwoDays, InB] at hb

omit [LinearOrder L] in
/-- Both calls return, but in a cell that both have they give different values. -/
theorem not_before {r' r : Res (Larry L)} {z' z : Larry L} (h1 : r' = .ok z') (h2 : r = .ok z) (hz : z.Valid) {names : List L} {v' v : Val}
    (hv' : z'.Has names v') (hv : z.Has names v) (hne : v' ≠ v) : ¬ Res.Both (Larry.Before later) r' r := by
  intro h
  exact hne (Holds_unique hz.nodup ((h z' z h1 h2).cells _ _ hv') hv)

/-- C108. Ranking along time changes when days are added. -/
theorem C108_ranking_changes : exTwoDays.Before exLate (exThree 4) ∧
    ¬ Res.Both (Larry.Before exLate) (exTwoDays.ranking (some 0) .pm1) ((exThree 4).ranking (some 0) .pm1) :=
  ⟨exTwoDays_before 4, not_before (names := [2]) rfl rfl ⟨rfl, by simp [exThree, along], by simp [exThree, along]⟩
    ⟨[1], ⟨rfl, trivial⟩, rfl⟩ ⟨[1], ⟨rfl, trivial⟩, rfl⟩ (by decide +kernel)⟩

/-- C108. So does what `demean` gives along time. -/
theorem C108_demean_changes : exTwoDays.Before exLate (exThree 4) ∧
    ¬ Res.Both (Larry.Before exLate) (exTwoDays.demean nanmean (some 0)) ((exThree 4).demean nanmean (some 0)) :=
  ⟨exTwoDays_before 4, not_before (names := [2]) rfl rfl ⟨rfl, by simp [exThree, along], by simp [exThree, along]⟩
    ⟨[1], ⟨rfl, trivial⟩, rfl⟩ ⟨[1], ⟨rfl, trivial⟩, rfl⟩ (by decide +kernel)⟩

/-- C108. Reindexing counts: integers stay integers as long as no day is missing. -/
theorem C108_morph_changes :
    let y : Larry Nat := ⟨NDArray.ofList [2] [.int 1, .int 2], .int, [[1, 2]]⟩
    y.Before exLate y ∧ ∃ z' z, y.morph (sofar exLate [1, 2, 3]) 0 = .ok z' ∧ y.morph [1, 2, 3] 0 = .ok z ∧
      z'.dtype = .int ∧ z.dtype = .float := by
  intro y
  exact ⟨.refl (by simp [y, Early, exLate]), _, _, rfl, rfl, by decide +kernel, by decide +kernel⟩

/-- C108. `pull` gives a number as long as there is one day, and a larry from the second day on. -/
theorem C108_pull_changes :
    let y : Larry Nat := ⟨NDArray.ofList [2, 2] [fl 1, fl 2, fl 3, fl 4], .float, [[2, 3], [100, 200]]⟩
    let y' : Larry Nat := ⟨NDArray.ofList [1, 2] [fl 1, fl 2], .float, [[2], [100, 200]]⟩
    y'.Before exLate y ∧ ∃ v z, y'.pull 100 (some 1) = .ok (.scalar v) ∧ y.pull 100 (some 1) = .ok (.larry z) := by
  intro y y'
  refine ⟨⟨rfl, rfl, ?_⟩, _, _, rfl, rfl⟩
  rintro names v ⟨idx, hat, rfl⟩
  have hb := At_inB hat
  match idx, names, hat, hb with
  | [0, 0], [m, n], hat, _ => exact ⟨[0, 0], hat, rfl⟩
  | [0, 1], [m, n], hat, _ => exact ⟨[0, 1], hat, rfl⟩
  | [0, k + 2], [m, n], _, hb => simp [y', InB] at hb
  | [k + 1, _], [m, n], _, hb => simp [y', InB] at hb

/-- C108. The means of truth values are truth values as long as there are no data. -/
theorem C108_mean_changes :
    let y : Larry Nat := ⟨NDArray.ofList [1, 2] [.bool true, .bool false], .bool, [[3], [100, 200]]⟩
    let y' : Larry Nat := ⟨NDArray.ofList [0, 2] [], .bool, [[], [100, 200]]⟩
    y'.Before exLate y ∧ ∃ z' z, y'.reduce bnNanmean (some 1) = .ok (.larry z') ∧ y.reduce bnNanmean (some 1) = .ok (.larry z) ∧
      z'.dtype = .bool ∧ z.dtype = .float := by
  intro y y'
  refine ⟨⟨rfl, rfl, ?_⟩, _, _, rfl, rfl, rfl, rfl⟩
  rintro names v ⟨idx, hat, rfl⟩
  have hb := At_inB hat
  match idx, hb with
  | [i, j], hb => simp [y', InB] at hb

/-- C108. Two larrys with the same labels are added in the order of these, whatever it is; as soon as one of them has a label
more, the labels of the sum are sorted. -/
theorem C108_sum_changes :
    let y : Larry Nat := ⟨NDArray.ofList [2] [fl 1, fl 2], .float, [[2, 1]]⟩
    let z : Larry Nat := ⟨NDArray.ofList [3] [fl 1, fl 2, fl 3], .float, [[2, 1, 3]]⟩
    y.Before exLate y ∧ y.Before exLate z ∧ ∃ w' w, binop exPlus y y = .ok w' ∧ binop exPlus y z = .ok w ∧
      w'.label = [[2, 1]] ∧ w.label = [[1, 2]] := by
  intro y z
  have hy : y.Valid := ⟨rfl, by simp [y], by simp [y]⟩
  have hz : z.Valid := ⟨rfl, by simp [z], by simp [z]⟩
  obtain ⟨w, e1, -, -, e4, -⟩ := C09_binop hy hz rfl exPlus (d := .float) rfl
  obtain ⟨w', e1', -, -, e4', -⟩ := C09_binop hy hy rfl exPlus (d := .float) rfl
  refine ⟨.refl (by simp [y, Early, exLate]), ⟨rfl, rfl, ?_⟩, w', w, e1', e1, ?_, ?_⟩
  · rintro names v ⟨idx, hat, rfl⟩
    have hb := At_inB hat
    match idx, names, hat, hb with
    | [0], [n], hat, _ => exact ⟨[0], hat, rfl⟩
    | [1], [n], hat, _ => exact ⟨[1], hat, rfl⟩
    | [k + 2], [n], _, hb => simp [y, InB] at hb
  · generalize w'.label = lab at e4'
    cases e4' with
    | cons h1 h2 => cases h2; rw [h1.1 rfl]
  · generalize w.label = lab at e4
    cases e4 with
    | cons h1 h2 =>
      cases h2
      obtain ⟨k1, k2⟩ := h1.2 (by decide)
      congr 1
      exact ascending_ext k1 (by decide) fun a => by rw [k2]; simp only [List.mem_cons, List.not_mem_nil, or_false]; omega

/-! ## Examples -/

/-- The first two days of the panel. -/
def exPanelTwo : Larry Nat := ⟨NDArray.ofList [2, 2] [fl 1, fl 2, fl 3, fl 4], .float, [[1, 2], [100, 200]]⟩

theorem exPanelTwo_valid : exPanelTwo.Valid := ⟨rfl, by simp [exPanelTwo], by simp [exPanelTwo]⟩

theorem exPanelTwo_before (a b : ℚ) : exPanelTwo.Before exLate (exPanel a b) := by
  refine ⟨rfl, rfl, ?_⟩
  rintro names v ⟨idx, hat, rfl⟩
  have hb := At_inB hat
  match idx, names, hat, hb with
  | [0, 0], [m, n], hat, _ => exact ⟨[0, 0], hat, rfl⟩
  | [0, 1], [m, n], hat, _ => exact ⟨[0, 1], hat, rfl⟩
  | [1, 0], [m, n], hat, _ => exact ⟨[1, 0], hat, rfl⟩
  | [1, 1], [m, n], hat, _ => exact ⟨[1, 1], hat, rfl⟩
  | [0, k + 2], [m, n], _, hb => simp [exPanelTwo, InB] at hb
  | [1, k + 2], [m, n], _, hb => simp [exPanelTwo, InB] at hb
  | [k + 2, _], [m, n], _, hb => simp [exPanelTwo, InB] at hb

/-- `keep_label('<', 3)` on the panel. -/
example : ∃ z, (exPanel 5 6).keepLabel (.lt 3) (some 0) = .ok z ∧ z.Before exLate (exPanel 5 6) ∧ z.label = [[1, 2], [100, 200]] := by
  obtain ⟨z, hz⟩ : ∃ z, (exPanel 5 6).keepLabel (.lt 3) (some 0) = .ok z := ⟨_, rfl⟩
  have := (C108_keep_label (later := exLate) (exPanel_valid 5 6) (op := .lt 3) (a := 0) (ax := 0) (l := [1, 2, 3]) rfl rfl
    (by simp [Wanted, exLate]) ⟨1, by simp, by simp [exLate]⟩ (fun k m hk hne => by
      match k, hk with
      | 0, _ => exact absurd rfl hne
      | 1, hk =>
        obtain rfl : [100, 200] = m := by simpa [exPanel] using hk
        simp [Early, exLate]
      | k + 2, hk => simp [exPanel] at hk) hz).2
  exact ⟨z, hz, this, this.label⟩

/-- Lag the series, add up, average the last two days, rank the series on each day, multiply and mask. -/
def exGrowing : List (Cmd Nat) :=
  [.lag 0 1 (some 0), .cumsum 0 (some 0), .moveBn .mean 0 2 (-2), .ranking 0 (some 1) .pm1, .binop exPlus 0 0, .set 0 [2, 100] (fl 7)]

/-- The program meets the conditions, and every call returns in both runs. -/
example : CutsAll exLate [exPanelTwo] [exPanel 5 6] exGrowing exGrowing ∧
    Runs [exPanelTwo] exGrowing (runAll [exPanelTwo] exGrowing) ∧ Runs [exPanel 5 6] exGrowing (runAll [exPanel 5 6] exGrowing) ∧
    (runAll [exPanelTwo] exGrowing).map Larry.label = [[[1, 2], [100, 200]], [[2], [100, 200]], [[1, 2], [100, 200]],
      [[1, 2], [100, 200]], [[1, 2], [100, 200]], [[1, 2], [100, 200]]] ∧
    (runAll [exPanel 5 6] exGrowing).map Larry.label = [[[1, 2, 3], [100, 200]], [[2, 3], [100, 200]], [[1, 2, 3], [100, 200]],
      [[1, 2, 3], [100, 200]], [[1, 2, 3], [100, 200]], [[1, 2, 3], [100, 200]]] := by
  have step : ∀ {st' st : Store Nat} {c : Cmd Nat} {cs : List (Cmd Nat)}, c.target = none → st[0]? = some (exPanel 5 6) →
      (∀ st' st : Store Nat, st[0]? = some (exPanel 5 6) → Cmd.Cuts exLate st' st c c) →
      (∀ st' st : Store Nat, st[0]? = some (exPanel 5 6) → CutsAll exLate st' st cs cs) → CutsAll exLate st' st (c :: cs) (c :: cs) :=
    fun ht h0 h1 h2 => ⟨h1 _ _ h0, fun s' s _ k => h2 _ _ (first_step h0 ht k)⟩
  have late : InTime exLate [1, 2, 3] := by simp [InTime, exLate]
  have all : ∀ st' st : Store Nat, st[0]? = some (exPanel 5 6) → CutsAll exLate st' st exGrowing exGrowing := by
    intro st' st h
    refine step rfl h (fun st' st h => .lag fun a ha => ?_) fun st' st h => ?_
    · cases ha
      exact onAxis_first h 0 (fun _ => ⟨fun _ => late, by simp⟩) (by simp)
    refine step rfl h (fun st' st h => .cumsum fun a ha => ?_) fun st' st h => ?_
    · cases ha
      exact onAxis_first h 0 (fun _ => late) (by simp)
    refine step rfl h (fun st' st h => .moveBn (onAxis_first h (-2) (fun _ => late) (by simp))) fun st' st h => ?_
    refine step rfl h (fun st' st h => .ranking (onAxis_first h 1 (by simp) fun _ => by simp [Early, exLate])) fun st' st h => ?_
    refine step rfl h (fun st' st h => .binop fun y z hy hz => ?_) fun st' st h => ?_
    · obtain rfl : y = z := by rw [hy] at hz; simpa using hz
      exact List.forall₂_same.mpr fun _ _ => .inl rfl
    exact ⟨.set .., fun _ _ _ _ => trivial⟩
  exact ⟨all _ _ rfl, .cons rfl (.cons rfl (.cons rfl (.cons rfl (.cons rfl (.cons rfl (.nil _)))))),
    .cons rfl (.cons rfl (.cons rfl (.cons rfl (.cons rfl (.cons rfl (.nil _)))))), by decide +kernel, by decide +kernel⟩

end La
