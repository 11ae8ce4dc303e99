import Verif.Lara
import Verif.Props.IO
import Verif.Props.Index

/-!
# C60: indexing into a lara is indexing into the larry
-/

namespace La
variable {L : Type _}

/-! ## Specification -/

/-- No list of positions counts from the end. -/
def NoNegative (its : List (Item L)) : Prop := ∀ is, Item.seq is ∈ its → ∀ i ∈ is, 0 ≤ i

/-- What h5py can select: slices that go forward, lists that increase. -/
def Item.Forward : Item L → Prop
  | .slice s => 1 ≤ s.step.getD 1
  | .seq is => is.Pairwise (· < ·)
  | _ => True

/-- Not a list, an array or a larry standing alone between the brackets. -/
def Index.Lazy : Index L → Prop
  | .one it => it.IsInt ∨ it.IsSlice
  | .tuple _ => True

/-- The same outcome: the same element, or arrays of the same shape and elements, or larrys with the same labels,
dtype and elements. -/
def GetOut.Same : GetOut L → GetOut L → Prop
  | .scalar v, .scalar w => v = w
  | .array x, .array x' => x.Same x'
  | .larry z, .larry z' => z.Same z'
  | _, _ => False

/-! ## h5py's selections -/

/-- A selection that is not empty. -/
def NpSel.Nonempty : NpSel → Prop
  | .int _ => True
  | .slice ids => ids ≠ []
  | .fancy ids => ids ≠ []

theorem trues_sorted (bs : List Bool) : (trues bs).Pairwise (· < ·) := by
  unfold trues
  have h1 : ((bs.zipIdx.filter Prod.fst).map Prod.snd).Sublist (bs.zipIdx.map Prod.snd) :=
    List.filter_sublist.map _
  have h2 : (bs.zipIdx.map Prod.snd).Pairwise (· < ·) := by
    rw [List.zipIdx_map_snd]
    exact List.pairwise_lt_range'
  exact List.Pairwise.sublist h1 h2

theorem ids_cast {n : Nat} {is : List Int} {ids : List Nat} (hn : ∀ i ∈ is, 0 ≤ i)
    (h : mapRes (pyIdxE n) is = .ok ids) : is = ids.map (fun k : Nat => (k : Int)) := by
  rw [mapRes_ok] at h
  induction h with
  | nil => rfl
  | cons h0 _ ih =>
    have := pyIdx_some.mp (pyIdxE_ok.mp h0)
    have := hn _ (List.mem_cons_self)
    rw [List.map_cons, ← ih (fun i hi => hn i (List.mem_cons_of_mem _ hi))]
    congr 1
    omega

theorem h5Seq_ok {z : Bool} {n : Nat} {is : List Int} (hn : ∀ i ∈ is, 0 ≤ i) {sel : NpSel} :
    h5Seq z n is = .ok sel ↔ ∃ ids, mapRes (pyIdxE n) is = .ok ids ∧ sel = .fancy ids ∧
      is.Pairwise (· < ·) ∧ (z = false → ids ≠ []) := by
  unfold h5Seq
  by_cases hp : is.Pairwise (· < ·)
  · rw [if_neg (by simpa using hp)]
    cases hm : mapRes (pyIdxE n) is with
    | error e => simp
    | ok ids =>
      have hs : ids.Pairwise (· < ·) := by
        have h1 := ids_cast hn hm
        rw [h1, List.pairwise_map] at hp
        exact hp.imp (by intro a b h; omega)
      have hd : hasDup ids = false := hasDup_false.mpr (hs.imp (by intro a b h; omega))
      have he : pySorted ids = ids :=
        List.Pairwise.insertionSort_eq (hs.imp (by intro a b h; omega))
      simp only [hd, he, Except.ok.injEq, exists_eq_left', hp, true_and, Bool.false_eq_true, if_false]
      by_cases hz : ids = [] ∧ z = false
      · rw [if_pos hz]
        simp [hz.1, hz.2]
      · rw [if_neg hz]
        simp only [Except.ok.injEq]
        constructor
        · rintro rfl
          exact ⟨rfl, fun h1 h2 => hz ⟨h2, h1⟩⟩
        · rintro ⟨rfl, -⟩; rfl
  · rw [if_pos hp]
    simp [hp]

theorem h5Resolve_ok {z : Bool} {n : Nat} {it : Item L} (hn : ∀ is, it = .seq is → ∀ i ∈ is, 0 ≤ i)
    (hd : it ≠ .nd) (ho : it ≠ .other) {sel : NpSel} :
    h5Resolve z n it.np = .ok sel ↔ it.np.resolve n = .ok sel ∧ it.Forward ∧ (z = false → sel.Nonempty) := by
  have hmask : ∀ bs, h5Seq z n ((trues bs).map (fun k : Nat => (k : Int))) = .ok sel ↔
      (NpItem.mask bs).resolve n = .ok sel ∧ (z = false → sel.Nonempty) := by
    intro bs
    rw [h5Seq_ok (by simp)]
    simp only [NpItem.resolve]
    have hp : ((trues bs).map (fun k : Nat => (k : Int))).Pairwise (· < ·) := by
      rw [List.pairwise_map]
      exact (trues_sorted bs).imp (by intro a b h; omega)
    by_cases hb : (trues bs).any (fun k => decide (n ≤ k)) = true
    · rw [if_pos hb]
      simp only [reduceCtorEq, false_and, iff_false]
      rintro ⟨ids, h1, -⟩
      rw [List.any_eq_true] at hb
      obtain ⟨k, hk, hkn⟩ := hb
      have hkn : n ≤ k := by simpa using hkn
      cases hj : pyIdxE n (k : Int) with
      | error e =>
        obtain ⟨e', he⟩ := mapRes_error_of (List.mem_map.mpr ⟨k, hk, rfl⟩) hj
        rw [h1] at he; simp at he
      | ok j =>
        have := pyIdx_some.mp (pyIdxE_ok.mp hj)
        omega
    · rw [if_neg hb]
      have hlt : ∀ k ∈ trues bs, k < n := by
        intro k hk
        by_contra hc
        exact hb (List.any_eq_true.mpr ⟨k, hk, by simpa using hc⟩)
      rw [mapRes_trues hlt]
      simp only [Except.ok.injEq, exists_eq_left', hp, true_and]
      constructor
      · rintro ⟨rfl, h2⟩; exact ⟨rfl, h2⟩
      · rintro ⟨rfl, h2⟩; exact ⟨rfl, h2⟩
  cases it with
  | int i =>
    simp only [Item.np, h5Resolve, NpItem.resolve, Item.Forward, true_and]
    cases pyIdx n i with
    | none => simp
    | some k =>
      simp only [Except.ok.injEq]
      constructor
      · rintro rfl; exact ⟨rfl, fun _ => trivial⟩
      · exact fun h => h.1
  | slice s =>
    simp only [Item.np, h5Resolve, NpItem.resolve, Item.Forward]
    by_cases hs : s.step.getD 1 < 1
    · rw [if_pos hs]
      simp only [reduceCtorEq, false_iff]
      rintro ⟨-, h, -⟩
      omega
    · rw [if_neg hs]
      cases sliceIndices n s with
      | error e => simp
      | ok ids =>
        simp only [Except.ok.injEq]
        by_cases hz : ids = [] ∧ z = false
        · rw [if_pos hz]
          simp only [reduceCtorEq, false_iff]
          rintro ⟨rfl, -, h⟩
          exact h hz.2 hz.1
        · rw [if_neg hz]
          simp only [Except.ok.injEq]
          constructor
          · rintro rfl
            exact ⟨rfl, by omega, fun h1 h2 => hz ⟨h2, h1⟩⟩
          · exact fun h => h.1
  | seq is =>
    simp only [Item.np, h5Resolve, NpItem.resolve, Item.Forward]
    rw [h5Seq_ok (hn is rfl)]
    cases mapRes (pyIdxE n) is with
    | error e => simp
    | ok ids =>
      simp only [Except.ok.injEq, exists_eq_left']
      constructor
      · rintro ⟨rfl, h1, h2⟩; exact ⟨rfl, h1, h2⟩
      · rintro ⟨rfl, h1, h2⟩; exact ⟨rfl, h1, h2⟩
  | mask bs =>
    simp only [Item.np, h5Resolve, Item.Forward, true_and]
    exact hmask bs
  | lar m =>
    simp only [Item.np, h5Resolve, Item.Forward, true_and]
    exact hmask _
  | nd => exact absurd rfl hd
  | other => exact absurd rfl ho

theorem nonempty_iff {ss : List NpSel} : (∀ s ∈ ss, s.Nonempty) ↔ ∀ n ∈ keptLens ss, n ≠ 0 := by
  induction ss with
  | nil => simp [keptLens]
  | cons s ss ih =>
    cases s with
    | int k => simpa [keptLens, NpSel.Nonempty] using ih
    | slice ids =>
      simp only [List.mem_cons, forall_eq_or_imp, keptLens, ih]
      simp [NpSel.Nonempty]
    | fancy ids =>
      simp only [List.mem_cons, forall_eq_or_imp, keptLens, ih]
      simp [NpSel.Nonempty]

/-- The entries are among those the code recognises. -/
def Known (it : Item L) : Prop := it ≠ .nd ∧ it ≠ .other

theorem h5_list {z : Bool} {its : List (Item L)} {ns : List Nat} (hl : its.length = ns.length)
    (hn : NoNegative its) (hk : ∀ it ∈ its, Known it) {ss : List NpSel} :
    mapRes (fun p : NpItem × Nat => h5Resolve z p.2 p.1) ((its.map Item.np).zip ns) = .ok ss ↔
      mapRes (fun p : NpItem × Nat => p.1.resolve p.2) ((its.map Item.np).zip ns) = .ok ss ∧
      (∀ it ∈ its, it.Forward) ∧ (z = false → ∀ s ∈ ss, s.Nonempty) := by
  rw [mapRes_ok, mapRes_ok]
  induction its generalizing ns ss with
  | nil =>
    simp only [List.map_nil, List.zip_nil_left, List.forall₂_nil_left_iff]
    constructor
    · rintro rfl; simp
    · exact fun h => h.1
  | cons it its ih =>
    cases ns with
    | nil => simp at hl
    | cons n ns =>
      simp only [List.map_cons, List.zip_cons_cons]
      have ihh := fun ss => ih (ns := ns) (by simpa using hl) (fun is his => hn is (by simp [his]))
        (fun it hit => hk it (by simp [hit])) (ss := ss)
      have h0 := fun sel => h5Resolve_ok (z := z) (n := n) (it := it)
        (fun is his => hn is (by simp [his])) (hk it (by simp)).1 (hk it (by simp)).2 (sel := sel)
      cases ss with
      | nil => simp
      | cons s ss =>
        rw [List.forall₂_cons, List.forall₂_cons, ihh, h0]
        simp only [List.mem_cons, forall_eq_or_imp]
        constructor
        · rintro ⟨⟨a, b, c⟩, d, e, f⟩
          exact ⟨⟨a, d⟩, ⟨b, e⟩, fun hz => ⟨c hz, f hz⟩⟩
        · rintro ⟨⟨a, d⟩, ⟨b, e⟩, f⟩
          exact ⟨⟨a, b, fun hz => (f hz).1⟩, d, e, fun hz => (f hz).2⟩

theorem padTo_forward {n : Nat} {its : List (Item L)} :
    (∀ it ∈ padTo n its, it.Forward) ↔ ∀ it ∈ its, it.Forward := by
  unfold padTo
  constructor
  · intro h it hit; exact h it (by simp [hit])
  · intro h it hit
    rcases List.mem_append.mp hit with h1 | h1
    · exact h it h1
    · rw [(List.mem_replicate.mp h1).2]
      simp [Item.Forward]

section
variable [DecidableEq L]
namespace Larry

theorem h5Index_ok {z : Bool} {y : Larry L} (hv : y.Valid) {its : List (Item L)} (hn : NoNegative its)
    (hk : ∀ it ∈ its, Known it) {x : NDArray Val} : h5Index z y.x (its.map Item.np) = .ok x ↔
    its.length ≤ y.ndim ∧ (∀ it ∈ its, it.Forward) ∧ ∃ ss,
      mapRes (fun p : NpItem × Nat => p.1.resolve p.2)
        (((padTo y.label.length its).map Item.np).zip (y.label.map List.length)) = .ok ss ∧
      (z = false → ∀ n ∈ keptLens ss, n ≠ 0) ∧ (fancyLens ss).length ≤ 1 ∧
      x = ⟨keptLens ss, fun idx => y.x.get (fill ss idx)⟩ := by
  have h1 : y.x.shape.length = y.label.length := by rw [hv.shape_eq]; simp
  have hlab := hv.label_length
  unfold h5Index
  by_cases hlen : its.length ≤ y.ndim
  · rw [if_neg (by simp only [List.length_map]; omega)]
    have hpad : (its.map Item.np ++ List.replicate (y.x.shape.length - (its.map Item.np).length)
        (NpItem.slice {})).zip y.x.shape =
        ((padTo y.label.length its).map Item.np).zip (y.label.map List.length) := by
      unfold padTo
      rw [List.map_append, List.map_replicate, List.length_map, h1, hv.shape_eq]
      rfl
    rw [hpad]
    have key := fun ss => h5_list (z := z) (its := padTo y.label.length its) (ns := y.label.map List.length)
      (by rw [padTo_length (by omega)]; simp)
      (by
        intro is his i hi
        unfold padTo at his
        rcases List.mem_append.mp his with h2 | h2
        · exact hn is h2 i hi
        · rw [List.mem_replicate] at h2; simp at h2)
      (by
        intro it hit
        unfold padTo at hit
        rcases List.mem_append.mp hit with h2 | h2
        · exact hk it h2
        · rw [(List.mem_replicate.mp h2).2]
          exact ⟨by simp, by simp⟩) (ss := ss)
    simp only [padTo_forward, nonempty_iff] at key
    cases hm : mapRes (fun p : NpItem × Nat => h5Resolve z p.2 p.1)
        (((padTo y.label.length its).map Item.np).zip (y.label.map List.length)) with
    | error e =>
      simp only [reduceCtorEq, false_iff]
      rintro ⟨-, hf, ss, h2, h3, h4, -⟩
      have := (key ss).mpr ⟨h2, hf, h3⟩
      rw [hm] at this; simp at this
    | ok ss =>
      obtain ⟨k1, k2, k3⟩ := (key ss).mp hm
      simp only [hlen, true_and, k1, Except.ok.injEq, exists_eq_left']
      by_cases h2 : (fancyLens ss).length > 1
      · rw [if_pos h2]
        simp only [reduceCtorEq, false_iff]
        rintro ⟨-, -, h3, -⟩
        omega
      · rw [if_neg h2]
        simp only [Except.ok.injEq]
        constructor
        · rintro rfl
          exact ⟨k2, k3, by omega, rfl⟩
        · rintro ⟨-, -, -, h⟩
          exact h.symm
  · rw [if_pos (by simp only [List.length_map]; omega)]
    simp [hlen]

theorem known_of_keep {l : List L} {n : Nat} {it : Item L} {o : Option (List L)} (h : it.keep l n = .ok o) :
    Known it := by
  constructor <;> rintro rfl <;> simp [Item.keep] at h

theorem known_of_keepAll {y : Larry L} (hv : y.Valid) {its : List (Item L)} (hlen : its.length ≤ y.ndim)
    {labs : List (Option (List L))} (h : y.keepAll its = .ok labs) : ∀ it ∈ its, Known it := by
  intro it hit
  obtain ⟨p, hp, rfl⟩ := List.getElem_of_mem hit
  have hlab := hv.label_length
  rw [keepAll_eq hv, mapRes_ok] at h
  obtain ⟨hl, hg⟩ := List.forall₂_iff_get.mp h
  have hplen : (padTo y.label.length its).length = y.label.length := padTo_length (by omega)
  have h1 : p < ((y.label.zip (y.label.map List.length)).zip (padTo y.label.length its)).length := by
    simp [hplen]; omega
  have := hg p h1 (by omega)
  simp only [List.get_eq_getElem, List.getElem_zip] at this
  have he : (padTo y.label.length its)[p]'(by omega) = its[p] := by
    unfold padTo
    rw [List.getElem_append_left hp]
  rw [he] at this
  exact known_of_keep this

/-- Everything about `a[i0, i1, ...]` for a lara `a`. -/
theorem lazyTuple_spec {z : Bool} {y : Larry L} (hv : y.Valid) {its : List (Item L)}
    (hm : ∀ m, Item.lar m ∈ its → m.Valid) (hn : NoNegative its) {r : GetOut L}
    (h : y.lazyTuple z its = .ok r) :
    ∃ parts, TakesParts y.label its parts ∧ OneList its ∧ its.length ≤ y.ndim ∧
      (∀ it ∈ its, it.Forward) ∧ (z = false → ∀ l ∈ Part.labels parts, l ≠ []) ∧
      (∀ l ∈ Part.labels parts, l.Nodup) ∧
      r.Shows y.dtype (Part.labels parts) (fun names v => y.Has (Part.names parts names) v) ∧
      ((∃ v, r = .scalar v) ↔ (∀ it ∈ its, it.IsInt) ∧ its.length = y.ndim) ∧
      ((∃ x, r = .array x) ↔ (∀ it ∈ its, it.IsInt) ∧ its.length < y.ndim) := by
  unfold lazyTuple at h
  rw [if_neg (by rw [hv.label_length]; omega)] at h
  cases hk : y.keepAll its with
  | error e => simp [hk] at h
  | ok labs =>
  simp only [hk] at h
  cases hx : h5Index z y.x (its.map Item.np) with
  | error e => simp [hx] at h
  | ok x =>
  simp only [hx] at h
  have hlab := hv.label_length
  have hlen : its.length ≤ y.ndim := by
    by_contra hc
    unfold h5Index at hx
    rw [if_pos (by simp only [List.length_map]; unfold ndim NDArray.ndim at hc; omega)] at hx
    simp at hx
  obtain ⟨-, hf, ss, hr, hz, hone, hxe⟩ := (h5Index_ok hv hn (known_of_keepAll hv hlen hk)).mp hx
  have hplen : (padTo y.label.length its).length = y.label.length := padTo_length (by omega)
  have hm' : ∀ m, Item.lar m ∈ padTo y.label.length its → m.Valid := by
    intro m hmem
    unfold padTo at hmem
    rcases List.mem_append.mp hmem with hh | hh
    · exact hm m hh
    · rw [List.mem_replicate] at hh; simp at hh
  rw [keepAll_eq hv] at hk
  obtain ⟨parts, g1, g2, g3, g4, g5⟩ := axes_ok hplen hm' hk hr
  refine ⟨parts, g1, oneList_padTo.mp ((fancy_le_one g2).mp hone), hlen, hf, ?_,
    tuple_tail hv hlen g1 g3 g4 g5 (by rw [hxe]) (fun idx _ => by rw [hxe]) h⟩
  intro hz' l hl h0
  rw [g4] at hz
  exact hz hz' l.length (List.mem_map_of_mem hl) (by rw [h0]; rfl)

/-- When it succeeds. -/
theorem lazyTuple_of {z : Bool} {y : Larry L} (hv : y.Valid) {its : List (Item L)}
    (hm : ∀ m, Item.lar m ∈ its → m.Valid) (hn : NoNegative its) {parts : List (Part L)}
    (hp : TakesParts y.label its parts) (hone : OneList its) (hlen : its.length ≤ y.ndim)
    (hf : ∀ it ∈ its, it.Forward) (hz : z = false → ∀ l ∈ Part.labels parts, l ≠ [])
    (hnd : ∀ l ∈ Part.labels parts, l.Nodup) : ∃ r, y.lazyTuple z its = .ok r := by
  have hlab := hv.label_length
  have hplen : (padTo y.label.length its).length = y.label.length := padTo_length (by omega)
  have hm' : ∀ m, Item.lar m ∈ padTo y.label.length its → m.Valid := by
    intro m hmem
    unfold padTo at hmem
    rcases List.mem_append.mp hmem with hh | hh
    · exact hm m hh
    · rw [List.mem_replicate] at hh; simp at hh
  obtain ⟨⟨labs, hk⟩, ss, hr⟩ := axes_of_picks hm' hplen hp
  obtain ⟨parts', g1, g2, g3, g4, g5⟩ := axes_ok hplen hm' hk hr
  have := takesParts_unique hv.nodup hp g1
  subst this
  have hk' : y.keepAll its = .ok labs := by rw [keepAll_eq hv]; exact hk
  have hx := (h5Index_ok (z := z) hv hn (known_of_keepAll hv hlen hk')).mpr ⟨hlen, hf, ss, hr, ?_,
    (fancy_le_one g2).mpr (oneList_padTo.mpr hone), rfl⟩
  · unfold lazyTuple
    rw [if_neg (by omega), hk']
    simp only [hx]
    by_cases hai : its.all Item.isInt = true
    · rw [if_pos hai]; exact ⟨_, rfl⟩
    · rw [if_neg hai]
      have hmk : make ⟨keptLens ss, fun idx => y.x.get (fill ss idx)⟩ y.dtype (labs.filterMap id)
          (its.any Item.isSeq) = .ok ⟨⟨keptLens ss, fun idx => y.x.get (fill ss idx)⟩, y.dtype,
            labs.filterMap id⟩ := by
        unfold make
        split
        · rw [mk'_ok]
          refine ⟨rfl, ?_, by rw [g3]; exact hnd, ?_⟩
          · rw [g3, ← g4]
          · rw [g3]
            intro h0
            apply hai
            rw [List.all_eq_true]
            intro it hit
            exact isInt_iff.mpr ((labels_nil_iff hplen g1).mp h0 it (by unfold padTo; simp [hit]))
        · rfl
      rw [hmk]
      exact ⟨_, rfl⟩
  · intro hz' n hn' h0
    rw [g4, List.mem_map] at hn'
    obtain ⟨l, hl, rfl⟩ := hn'
    exact hz hz' l hl (List.length_eq_zero_iff.mp h0)

/-- A slice alone. -/
theorem lazySlice {z : Bool} {y : Larry L} (hv : y.Valid) (s : PySlice) :
    y.lazyGet z (.one (.slice s)) = y.lazyTuple z [.slice s] := by
  obtain ⟨l, ls, hl⟩ := List.exists_cons_of_ne_nil hv.ndim_pos
  unfold lazyTuple
  rw [if_neg (by rw [hv.label_length]; omega), keepAll_one hv hl]
  simp only [lazyGet, hl, List.getD_cons_zero, Item.keep]
  cases pySliceList l s with
  | error e => rfl
  | ok lab =>
    simp only [List.map_cons, List.map_nil, Item.np]
    cases h5Index z y.x [.slice s] with
    | error e => rfl
    | ok x => simp [Item.isInt, Item.isSeq, make, List.filterMap_map]

/-- An integer alone takes away the first axis. -/
theorem parts_int {label : List (List L)} (hnd : ∀ l ∈ label, l.Nodup) (hne : label ≠ []) {i : Int}
    {parts : List (Part L)} (h : TakesParts label [.int i] parts) : Part.labels parts = label.drop 1 := by
  obtain ⟨l, ls, rfl⟩ := List.exists_cons_of_ne_nil hne
  have h' := h
  unfold TakesParts at h'
  have hpad : padTo (l :: ls).length [Item.int (L := L) i] = .int i :: List.replicate ls.length (Item.slice {}) := by
    simp [padTo]
  rw [hpad, List.zip_cons_cons] at h'
  cases h' with
  | @cons _ part _ parts h0 hs =>
    cases part with
    | many ms => simp [Picks] at h0
    | one n =>
      rw [takesParts_unique hnd h (takesParts_one.mpr h0)]
      exact labels_whole ls

theorem lazyInt {z : Bool} {y : Larry L} (hv : y.Valid) (i : Int) {r : GetOut L} :
    y.lazyGet z (.one (.int i)) = .ok r ↔
    ∃ x, y.lazyTuple z [.int i] = .ok (.ofArray x) ∧ x.shape = (y.label.drop 1).map List.length ∧
      r = if y.ndim ≤ 1 then .ofArray x else .larry ⟨x, y.dtype, y.label.drop 1⟩ := by
  obtain ⟨l, ls, hl⟩ := List.exists_cons_of_ne_nil hv.ndim_pos
  have hsh : y.shape = l.length :: ls.map List.length := by rw [shape, hv.shape_eq, hl]; rfl
  have hshape : ∀ x, y.lazyTuple z [.int i] = .ok (.ofArray x) →
      x.shape = (y.label.drop 1).map List.length := by
    intro x hx
    obtain ⟨parts, h1, -, -, -, -, -, h2, -⟩ := lazyTuple_spec hv (by simp) (by intro is his; simp at his) hx
    rw [← parts_int hv.nodup hv.ndim_pos h1]
    unfold GetOut.ofArray at h2
    split at h2
    · rename_i h0
      rw [h2.1, h0]; rfl
    · exact h2.1
  have htup : ∀ r, y.lazyTuple z [.int i] = .ok r ↔ ¬ i ≥ (l.length : Int) ∧
      ∃ x, h5Index z y.x [.int i] = .ok x ∧ r = .ofArray x := by
    intro r
    unfold lazyTuple
    rw [if_neg (by rw [hv.label_length]; omega), keepAll_one hv hl]
    simp only [Item.keep]
    by_cases h1 : i ≥ (l.length : Int)
    · simp [h1]
    · simp only [h1, if_false, List.map_cons, List.map_nil, Item.np, not_false_eq_true, true_and]
      cases h5Index z y.x [.int i] with
      | error e => simp
      | ok x =>
        simp only [List.all_cons, List.all_nil, Item.isInt, Bool.and_true, if_true, Except.ok.injEq,
          exists_eq_left']
        exact eq_comm
  simp only [lazyGet, hsh, List.getD_cons_zero]
  by_cases h1 : i ≥ (l.length : Int)
  · simp only [h1, if_true, reduceCtorEq, false_iff]
    rintro ⟨x, hx, -⟩
    exact ((htup _).mp hx).1 h1
  · simp only [h1, if_false]
    cases hx : h5Index z y.x [.int i] with
    | error e =>
      simp only [reduceCtorEq, false_iff]
      rintro ⟨x, hx', -⟩
      obtain ⟨-, x', h2, -⟩ := (htup _).mp hx'
      rw [hx] at h2; simp at h2
    | ok x =>
      have ht : y.lazyTuple z [.int i] = .ok (.ofArray x) := (htup _).mpr ⟨h1, x, hx, rfl⟩
      have hs := hshape x ht
      simp only
      constructor
      · intro h
        refine ⟨x, ht, hs, ?_⟩
        split at h
        · rename_i h2; rw [if_pos h2]; simpa using h.symm
        · rename_i h2; rw [if_neg h2]; simpa using h.symm
      · rintro ⟨x', h2, h3, rfl⟩
        rw [ht] at h2
        simp only [Except.ok.injEq] at h2
        by_cases h4 : y.ndim ≤ 1
        · rw [if_pos h4, if_pos h4, h2]
        · rw [if_neg h4, if_neg h4]
          have hne : x.shape ≠ [] := by
            rw [hs, hl]
            rw [← hv.label_length, hl] at h4
            cases ls with
            | nil => simp at h4
            | cons => simp
          have hne' : x'.shape ≠ [] := by rw [h3, ← hs]; exact hne
          unfold GetOut.ofArray at h2
          rw [if_neg hne, if_neg hne'] at h2
          simp only [GetOut.array.injEq] at h2
          rw [h2]

theorem lazy_of_ok {z : Bool} {y : Larry L} {idx : Index L} {r : GetOut L} (h : y.lazyGet z idx = .ok r) :
    idx.Lazy := by
  cases idx with
  | tuple its => trivial
  | one it =>
    cases it with
    | int i => exact .inl ⟨i, rfl⟩
    | slice s => exact .inr ⟨s, rfl⟩
    | seq is => simp only [lazyGet] at h; split at h <;> [skip; split at h] <;> simp at h
    | mask bs => simp only [lazyGet] at h; split at h <;> [skip; split at h] <;> simp at h
    | lar m => simp only [lazyGet] at h; split at h <;> [skip; split at h] <;> simp at h
    | nd => simp [lazyGet] at h
    | other => simp [lazyGet] at h

/-- Everything about `a[index]`. -/
theorem lazyGet_spec {z : Bool} {y : Larry L} (hv : y.Valid) {idx : Index L}
    (hm : ∀ m, Item.lar m ∈ idx.items → m.Valid) (hn : NoNegative idx.items) {r : GetOut L}
    (h : y.lazyGet z idx = .ok r) :
    ∃ parts, TakesParts y.label idx.items parts ∧ OneList idx.items ∧ idx.items.length ≤ y.ndim ∧
      (∀ it ∈ idx.items, it.Forward) ∧ (z = false → ∀ l ∈ Part.labels parts, l ≠ []) ∧
      (∀ l ∈ Part.labels parts, l.Nodup) ∧
      r.Shows y.dtype (Part.labels parts) (fun names v => y.Has (Part.names parts names) v) ∧
      ((∃ v, r = .scalar v) ↔ (∀ it ∈ idx.items, it.IsInt) ∧ idx.items.length = y.ndim) ∧
      ((∃ x, r = .array x) ↔ ∃ its, idx = .tuple its ∧ (∀ it ∈ its, it.IsInt) ∧ its.length < y.ndim) := by
  have hlab := hv.label_length
  have hpos := hv.ndim_pos
  cases idx with
  | tuple its =>
    obtain ⟨parts, h1, h2, h3, h4, h5, h6, h7, h8, h9⟩ := lazyTuple_spec hv hm hn h
    refine ⟨parts, h1, h2, h3, h4, h5, h6, h7, h8, h9.trans ⟨fun hh => ⟨its, rfl, hh⟩, ?_⟩⟩
    rintro ⟨its', he, hh⟩
    cases he
    exact hh
  | one it =>
    rcases lazy_of_ok h with ⟨i, rfl⟩ | ⟨s, rfl⟩
    · obtain ⟨x, g1, g2, hr⟩ := (lazyInt hv i).mp h
      obtain ⟨parts, h1, h2, h3, h4, h5, h6, h7, h8, h9⟩ := lazyTuple_spec hv hm hn g1
      have hlabs := parts_int hv.nodup hpos h1
      refine ⟨parts, h1, h2, h3, h4, h5, h6, ?_, ?_, ?_⟩
      · by_cases h10 : y.ndim ≤ 1
        · rw [hr, if_pos h10]; exact h7
        · have hne : y.label.drop 1 ≠ [] := by
            intro h0
            have := congrArg List.length h0
            simp at this; omega
          have hxne : x.shape ≠ [] := by rw [g2]; exact fun h0 => hne (List.map_eq_nil_iff.mp h0)
          rw [hr, if_neg h10]
          unfold GetOut.ofArray at h7
          rw [if_neg hxne] at h7
          refine ⟨hlabs.symm, rfl, ⟨g2, ?_, hne⟩, ?_⟩
          · intro l hl; exact hv.nodup l (List.mem_of_mem_drop hl)
          · intro names v
            rw [← h7.2, hlabs]
            rfl
      · by_cases h10 : y.ndim ≤ 1
        · rw [hr, if_pos h10, h8]
        · rw [hr, if_neg h10]
          simp only [reduceCtorEq, exists_false, Index.items, List.length_singleton, false_iff]
          omega
      · by_cases h10 : y.ndim ≤ 1
        · rw [hr, if_pos h10, h9]
          simp only [reduceCtorEq, false_and, exists_false, iff_false, Index.items, List.length_singleton]
          have := List.length_pos_iff.mpr hpos
          omega
        · rw [hr, if_neg h10]; simp
    · rw [lazySlice hv] at h
      obtain ⟨parts, h1, h2, h3, h4, h5, h6, h7, h8, h9⟩ := lazyTuple_spec hv hm hn h
      refine ⟨parts, h1, h2, h3, h4, h5, h6, h7, h8, h9.trans ?_⟩
      simp [Index.items, Item.IsInt]

/-- When it succeeds. -/
theorem lazyGet_of {z : Bool} {y : Larry L} (hv : y.Valid) {idx : Index L}
    (hm : ∀ m, Item.lar m ∈ idx.items → m.Valid) (hn : NoNegative idx.items) (hl : idx.Lazy)
    {parts : List (Part L)} (hp : TakesParts y.label idx.items parts) (hone : OneList idx.items)
    (hlen : idx.items.length ≤ y.ndim) (hf : ∀ it ∈ idx.items, it.Forward)
    (hz : z = false → ∀ l ∈ Part.labels parts, l ≠ []) (hnd : ∀ l ∈ Part.labels parts, l.Nodup) :
    ∃ r, y.lazyGet z idx = .ok r := by
  obtain ⟨r, h⟩ := lazyTuple_of hv hm hn hp hone hlen hf hz hnd
  cases idx with
  | tuple its => exact ⟨r, h⟩
  | one it =>
    rcases hl with ⟨i, rfl⟩ | ⟨s, rfl⟩
    · have h' : y.lazyTuple z [.int i] = .ok r := h
      obtain ⟨parts', g1, -, -, -, -, -, g2, g3, g4⟩ := lazyTuple_spec hv hm hn h
      have hlabs := parts_int hv.nodup hv.ndim_pos g1
      cases r with
      | scalar v =>
        refine ⟨_, (lazyInt hv i).mpr ⟨⟨[], fun _ => v⟩, by simpa [GetOut.ofArray] using h', ?_, rfl⟩⟩
        rw [← hlabs, g2.1]; rfl
      | array x =>
        have hx : x.shape ≠ [] := by
          intro h0
          have h2 := g2.1
          rw [h0, hlabs] at h2
          have h3 := congrArg List.length h2
          simp only [List.length_nil, List.length_map, List.length_drop] at h3
          have h4 := (g4.mp ⟨x, rfl⟩).2
          have h5 := hv.label_length
          simp only [Index.items, List.length_singleton] at h4
          omega
        refine ⟨_, (lazyInt hv i).mpr ⟨x, by rw [GetOut.ofArray, if_neg hx]; exact h', ?_, rfl⟩⟩
        rw [← hlabs]; exact g2.1
      | larry w =>
        exfalso
        unfold lazyTuple at h'
        split at h'
        · simp at h'
        · split at h'
          · simp at h'
          · split at h'
            · simp at h'
            · simp only [List.all_cons, List.all_nil, Item.isInt, Bool.and_true, if_true,
                Except.ok.injEq, GetOut.ofArray] at h'
              split at h' <;> simp at h'
    · exact ⟨r, by rw [lazySlice hv]; exact h⟩

end Larry

theorem GetOut.Shows.same {d : DType} {label : List (List L)} {P : List L → Val → Prop} {r r' : GetOut L}
    (hnd : ∀ l ∈ label, l.Nodup) (hP : ∀ names v w, P names v → P names w → v = w)
    (h : r.Shows d label P) (h' : r'.Shows d label P)
    (h1 : (∃ v, r = .scalar v) ↔ ∃ v, r' = .scalar v) (h2 : (∃ v, r = .array v) ↔ ∃ v, r' = .array v) :
    r.Same r' := by
  cases r with
  | scalar v =>
    obtain ⟨w, rfl⟩ := h1.mp ⟨v, rfl⟩
    exact hP _ _ _ h.2 h'.2
  | array x =>
    obtain ⟨w, rfl⟩ := h2.mp ⟨x, rfl⟩
    refine same_of_holds h.1 h'.1 hnd (fun names v hv => ?_)
    rw [h'.2, ← h.2]; exact hv
  | larry z =>
    cases r' with
    | scalar v => obtain ⟨w, hw⟩ := h1.mpr ⟨v, rfl⟩; simp at hw
    | array v => obtain ⟨w, hw⟩ := h2.mpr ⟨v, rfl⟩; simp at hw
    | larry z' =>
      refine Larry.Valid.same_of_has h.2.2.1 h'.2.2.1 (h.1.trans h'.1.symm) (h.2.1.trans h'.2.1.symm) ?_
      intro names v hv
      rw [h'.2.2.2, ← h.2.2.2]; exact hv

end

/-! ## C60 -/

/-- What `load` returns, in terms of the archive. -/
theorem load_ok {f : Archive} {key : String} {y : Larry PyLabel} (h : f.load key = .ok y) :
    f.checkKey (comps key) = .ok () ∧ f.get (comps key ++ ["x"]) = some (.arr y.x y.dtype) ∧
      f.loadLabel (comps key) = .ok y.label ∧ y.Valid := by
  unfold Archive.load at h
  split at h
  · simp at h
  · rename_i u hc
    split at h
    · simp at h
    · rename_i x dt hx
      split at h
      · simp at h
      · rename_i label hl
        obtain ⟨rfl, hv⟩ := Larry.mk'_ok.mp h
        refine ⟨hc, ?_, hl, hv⟩
        unfold Archive.readX at hx
        split at hx
        · rename_i x' dt' hg
          split at hx
          · simp at hx
          · simp only [Except.ok.injEq, Prod.mk.injEq] at hx
            rw [hg, hx.1, hx.2]
        · simp at hx

theorem lara_get {f : Archive} {key : String} {y : Larry PyLabel} {a : Lara} (hl : f.load key = .ok y)
    (ha : f.lara key = .ok a) (z : Bool) (idx : Index PyLabel) : a.get z f idx = y.lazyGet z idx := by
  obtain ⟨h1, h2, h3, -⟩ := load_ok hl
  unfold Archive.lara at ha
  rw [h1, h3] at ha
  simp only [Except.ok.injEq] at ha
  subst ha
  unfold Lara.get
  rw [h2]

/-- A key that can be loaded gives a lara with the labels of the larry. -/
theorem C60_lara (f : Archive) (key : String) (y : Larry PyLabel) (hl : f.load key = .ok y) :
    ∃ a, f.lara key = .ok a ∧ a.label = y.label := by
  obtain ⟨h1, h2, h3, -⟩ := load_ok hl
  exact ⟨⟨key, y.label⟩, by unfold Archive.lara; rw [h1, h3], rfl⟩

/-- `io[key][index]`: whatever comes back holds the values of the stored larry under its labels.  This
includes the indices for which `load(file, key)[index]` mixes up the axes. -/
theorem C60_lazy (f : Archive) (key : String) (y : Larry PyLabel) (a : Lara) (z : Bool)
    (idx : Index PyLabel) (r : GetOut PyLabel) (hl : f.load key = .ok y) (ha : f.lara key = .ok a)
    (hm : ∀ m, Item.lar m ∈ idx.items → m.Valid) (hn : NoNegative idx.items)
    (h : a.get z f idx = .ok r) :
    ∃ parts, TakesParts y.label idx.items parts ∧
      r.Shows y.dtype (Part.labels parts) (fun names v => y.Has (Part.names parts names) v) := by
  rw [lara_get hl ha] at h
  obtain ⟨parts, h1, -, -, -, -, -, h2, -⟩ := Larry.lazyGet_spec (load_ok hl).2.2.2 hm hn h
  exact ⟨parts, h1, h2⟩

/-- `io[key][index]` succeeds exactly when `load(file, key)[index]` would (`C33_succeeds`), the index is
not a list standing alone, slices go forward, lists increase, and (with an h5py that asks for it) nothing
selected is empty. -/
theorem C60_succeeds (f : Archive) (key : String) (y : Larry PyLabel) (a : Lara) (z : Bool)
    (idx : Index PyLabel) (hl : f.load key = .ok y) (ha : f.lara key = .ok a)
    (hm : ∀ m, Item.lar m ∈ idx.items → m.Valid) (hn : NoNegative idx.items) :
    (∃ r, a.get z f idx = .ok r) ↔ idx.items.length ≤ y.ndim ∧ OneList idx.items ∧ idx.Lazy ∧
      (∀ it ∈ idx.items, it.Forward) ∧
      ∃ parts, TakesParts y.label idx.items parts ∧ (∀ l ∈ Part.labels parts, l.Nodup) ∧
        (z = false → ∀ l ∈ Part.labels parts, l ≠ []) := by
  rw [lara_get hl ha]
  have hv := (load_ok hl).2.2.2
  constructor
  · rintro ⟨r, h⟩
    obtain ⟨parts, h1, h2, h3, h4, h5, h6, -⟩ := Larry.lazyGet_spec hv hm hn h
    exact ⟨h3, h2, Larry.lazy_of_ok h, h4, parts, h1, h6, h5⟩
  · rintro ⟨h3, h2, h7, h4, parts, h1, h6, h5⟩
    exact Larry.lazyGet_of hv hm hn h7 h1 h2 h3 h4 h5 h6

/-- `io[key][index]` and `load(file, key)[index]` are the same when both succeed and the latter does not
mix up the axes. -/
theorem C60_eq (f : Archive) (key : String) (y : Larry PyLabel) (a : Lara) (z : Bool)
    (idx : Index PyLabel) (r r' : GetOut PyLabel) (hl : f.load key = .ok y) (ha : f.lara key = .ok a)
    (hm : ∀ m, Item.lar m ∈ idx.items → m.Valid) (hn : NoNegative idx.items)
    (hs : ¬ Scrambled idx.items) (h : a.get z f idx = .ok r) (h' : y.getitem idx = .ok r') :
    r.Same r' := by
  rw [lara_get hl ha] at h
  have hv := (load_ok hl).2.2.2
  obtain ⟨parts, h1, -, -, -, -, h6, h7, h8, h9⟩ := Larry.lazyGet_spec hv hm hn h
  obtain ⟨parts', g1, g2⟩ := C33_getitem hv hm hs h'
  have := takesParts_unique hv.nodup h1 g1
  subst this
  obtain ⟨k1, k2⟩ := C33_kind hv hm hs h'
  refine GetOut.Shows.same h6 ?_ h7 g2 (h8.trans k1.symm) (h9.trans k2.symm)
  intro names v w h2 h3
  exact Holds_unique hv.nodup h2 h3

/-- A list, a boolean array or a larry alone between the brackets never works on a lara. -/
theorem C60_list (f : Archive) (key : String) (y : Larry PyLabel) (a : Lara) (z : Bool)
    (it : Item PyLabel) (hl : f.load key = .ok y) (ha : f.lara key = .ok a) (hit : it.IsList) :
    ∃ e, a.get z f (.one it) = .error e ∧
      (e = .indexError ∨ e = .attributeError ∨ e = .typeError) := by
  rw [lara_get hl ha]
  cases it with
  | int i => exact absurd ⟨i, rfl⟩ hit.1
  | slice s => exact absurd ⟨s, rfl⟩ hit.2
  | seq is =>
    simp only [Larry.lazyGet]
    split
    · exact ⟨_, rfl, by simp⟩
    · split <;> exact ⟨_, rfl, by simp⟩
  | mask bs =>
    simp only [Larry.lazyGet]
    split
    · exact ⟨_, rfl, by simp⟩
    · split <;> exact ⟨_, rfl, by simp⟩
  | lar m =>
    simp only [Larry.lazyGet]
    split
    · rename_i e he
      refine ⟨e, rfl, ?_⟩
      unfold larMask at he
      repeat' split at he
      all_goals simp_all
    · split <;> exact ⟨_, rfl, by simp⟩
  | nd => exact ⟨_, rfl, by simp⟩
  | other => exact ⟨_, rfl, by simp⟩

/-! ## Witnesses and examples -/

/-- An archive with one larry. -/
def exLara : Archive := (Archive.empty.save exIO2 "v").1

theorem exLara_load : exLara.load "v" = .ok exIO2 :=
  C56_save_load Archive.empty _ Archive.wf_empty "v" exIO2 exIO2_archivable (by
    have : (Archive.empty.save exIO2 "v").2 = .ok () := by decide +kernel
    exact Prod.ext rfl this)

theorem exLara_lara : exLara.lara "v" = .ok ⟨"v", exIO2.label⟩ := by
  obtain ⟨h1, h2, h3, -⟩ := load_ok exLara_load
  unfold Archive.lara
  rw [h1, h3]

/-- `C60_lazy` needs lists that do not count from the end: `io['v'][[-1, 0],]` passes h5py's test that
positions increase, h5py reads the rows in the order of the file, and the labels are in the order
written: the value 4 of label 1 comes back under label 3. -/
theorem C60_negative (z : Bool) : ∃ w, Lara.get z exLara ⟨"v", exIO2.label⟩ (.tuple [.seq [-1, 0]]) = .ok (.larry w) ∧
    w.Valid ∧ w.Has [.int 3] (.int 4) ∧ exIO2.Has [.int 3] (.int 6) := by
  rw [lara_get exLara_load exLara_lara]
  refine ⟨⟨⟨[2], fun idx => exIO2.x.get (fill [.fancy [0, 2]] idx)⟩, .int, [[.int 3, .int 1]]⟩, ?_, ?_, ?_, ?_⟩
  · cases z <;> rfl
  · exact ⟨rfl, by decide +kernel, by decide⟩
  · exact ⟨[0], by simp [At], by decide +kernel⟩
  · exact ⟨[2], by simp [exIO2, At], by decide +kernel⟩

/-- The larry stored later under the same key. -/
def exIO3 : Larry PyLabel :=
  ⟨NDArray.ofList [3] [.int 4, .int 5, .int 6], .int, [[.int 3, .int 7, .int 1]]⟩

/-- A lara keeps the labels it was made with: after the key is overwritten it shows the new values under
the old labels. -/
theorem C60_stale (z : Bool) : ∃ w, Lara.get z (exLara.setitem "v" exIO3).1 ⟨"v", exIO2.label⟩ (.one (.slice {})) =
      .ok (.larry w) ∧ (exLara.setitem "v" exIO3).2 = .ok () ∧
    w.Has [.int 1] (.int 4) ∧ exIO3.Has [.int 1] (.int 6) := by
  have hx : (exLara.setitem "v" exIO3).1.get (comps "v" ++ ["x"]) = some (.arr exIO3.x .int) := by rfl
  unfold Lara.get
  rw [hx]
  refine ⟨⟨⟨[3], fun idx => exIO3.x.get (fill [.slice [0, 1, 2]] idx)⟩, .int, [[.int 1, .int 7, .int 3]]⟩, ?_, ?_, ?_, ?_⟩
  · cases z <;> rfl
  · decide +kernel
  · exact ⟨[0], by simp [At], by decide +kernel⟩
  · exact ⟨[2], by simp [exIO3, At], by decide +kernel⟩

/-- The hypotheses of `C60_lazy`, `C60_eq` and `C60_succeeds` are met by a list and by a slice with a step. -/
example : NoNegative (L := PyLabel) [.seq [0, 2]] ∧ ¬ Scrambled (L := PyLabel) [.seq [0, 2]] ∧
    (∃ r, Lara.get false exLara ⟨"v", exIO2.label⟩ (.tuple [.seq [0, 2]]) = .ok r) ∧
    (∃ r, Lara.get false exLara ⟨"v", exIO2.label⟩ (.one (.slice ⟨none, none, some 2⟩)) = .ok r) ∧
    ∃ r, exIO2.getitem (.tuple [.seq [0, 2]]) = .ok r := by
  refine ⟨?_, Larry.not_scrambled_one _, ?_, ?_, _, rfl⟩
  · intro is his i hi
    simp only [List.mem_cons, Item.seq.injEq, List.not_mem_nil, or_false] at his
    subst his
    simp at hi; omega
  · rw [lara_get exLara_load exLara_lara]; exact ⟨_, rfl⟩
  · rw [lara_get exLara_load exLara_lara]; exact ⟨_, rfl⟩

end La
