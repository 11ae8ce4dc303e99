import Verif.KernelFacts
import Verif.SpecNum
import Verif.Props.Reduce
import Verif.Examples

/-!
# Properties C43, C45, C46: cumsum, cumprod, clip, push
-/

namespace La
open Larry
variable {L : Type _}

/-! ## C43: cumsum and cumprod -/

/-- The numbers that are not NaN among the first values, up to and including position `i`. -/
def soFar (vs : List Val) (i : Nat) : List Flt :=
  ((vs.take (i + 1)).map Val.num).filter (fun f => !f.isNan)

/-- The running result of a float line: NaN where the line has NaN, elsewhere `total` of the numbers so
far. -/
def RunningFloat (total : List Flt → Flt) (vs : List Val) (i : Nat) (v : Val) : Prop :=
  ∀ w, vs[i]? = some w →
    (w.num = .nan → v = .flt .nan) ∧ (w.num ≠ .nan → v = .flt (total (soFar vs i)))

/-- The running result of a line of ints. -/
def RunningInt (total : List Int → Int) (vs : List Val) (i : Nat) (v : Val) : Prop :=
  ∀ ns : List Int, vs = ns.map Val.int → v = .int (total (ns.take (i + 1)))

theorem foldl_skip_nan (op : Flt → Flt → Flt) (u : Flt) (hu : ∀ a, op a u = a) (F : Val → Val → Val)
    (hF : ∀ a b, F (.flt a) b = .flt (op a b.num)) (w : Val) (hw : w.num = u) (vs : List Val) (acc : Flt) :
    (vs.map (replaceNan w)).foldl F (.flt acc) =
      .flt (((vs.map Val.num).filter (fun f => !f.isNan)).foldl op acc) := by
  induction vs generalizing acc with
  | nil => rfl
  | cons v vs ih =>
    simp only [List.map_cons, List.foldl_cons]
    by_cases hn : v.num.isNan = true
    · have : replaceNan w v = w := by simp [replaceNan, Val.isNan, hn]
      rw [this, hF, hw, hu, ih, List.filter_cons_of_neg (by simp [hn])]
    · have : replaceNan w v = v := by simp [replaceNan, Val.isNan, hn]
      rw [this, hF, ih, List.filter_cons_of_pos (by simpa using hn), List.foldl_cons]

theorem cumulate_eq {op : DType → Val → Val → Val} {unit : Int} {y : Larry L} {axis : Int} {ax : Nat}
    (hd : y.dtype.isNumeric = true) (hax : pyIdx y.ndim axis = some ax) :
    y.cumulate op unit (some axis) = .ok
      ⟨⟨y.x.shape, fun i => if (y.x.get i).isNan then .flt .nan else
        ((y.x.map (replaceNan (ofInt y.dtype unit))).mapLines
          (cumGo (op y.dtype) (ofInt y.dtype unit)) .none ax).get i⟩,
        if y.dtype = .bool then .int else y.dtype, y.label⟩ := by
  simp only [cumulate, hd, npAxis, hax, NDArray.mapLines, NDArray.map]
  rfl

theorem cumulate_get {op : Val → Val → Val} {u : Val} (x : NDArray Val) {ax i : Nat} {ridx : List Nat}
    (hr : ax ≤ ridx.length) (hi : i < (x.line ax ridx).length) :
    ((x.map (replaceNan u)).mapLines (cumGo op u) .none ax).get (ridx.insertIdx ax i) =
      (((x.line ax ridx).take (i + 1)).map (replaceNan u)).foldl op u := by
  have hi' : i < ((x.map (replaceNan u)).line ax ridx).length := by
    rw [line_length] at hi ⊢; exact hi
  simp only [NDArray.mapLines]
  rw [List.eraseIdx_insertIdx_self]
  simp only [List.getD, List.getElem?_insertIdx_self, hr, if_true, Option.getD_some]
  rw [cumGo_getElem? _ _ _ _ hi', Option.getD_some, line_map, List.map_take]

theorem line_get (x : NDArray Val) {ax i : Nat} {ridx : List Nat} {w : Val}
    (h : (x.line ax ridx)[i]? = some w) : x.get (ridx.insertIdx ax i) = w := by
  have hi := (List.getElem?_eq_some_iff.mp h).1
  rw [line_length] at hi
  simp only [NDArray.line, List.getElem?_map, List.getElem?_range hi, Option.map_some, Option.some.injEq] at h
  exact h

theorem cumulate_float {op : DType → Val → Val → Val} {unit : Int} {total : List Flt → Flt}
    (fop : Flt → Flt → Flt) (hop : ∀ a b, op .float (.flt a) b = .flt (fop a b.num))
    (hunit : ∀ a, fop a (.fin unit) = a) (htot : ∀ l, total l = l.foldl fop (.fin unit))
    {y : Larry L} (hv : y.Valid) (hd : y.dtype = .float) {axis : Int} {ax : Nat}
    (hax : pyIdx y.ndim axis = some ax) :
    ∃ z, y.cumulate op unit (some axis) = .ok z ∧ z.dtype = .float ∧ y.Along z ax (RunningFloat total) := by
  obtain ⟨l, hl, _⟩ := label_at hv hax
  refine ⟨_, cumulate_eq (by simp [hd, DType.isNumeric]) hax, by simp [hd], ?_⟩
  refine along_of_get hv hl (by rfl) (by rfl) ?_
  intro ridx i hr hi w hw
  have hget := line_get y.x hw
  constructor
  · intro hn
    simp [hget, Val.isNan, hn, Flt.isNan]
  · intro hn
    have : w.isNan = false := by
      have := mt isNan_iff.mp hn
      simpa [Val.isNan] using this
    simp only [hget, this, Bool.false_eq_true, if_false]
    rw [cumulate_get y.x hr hi, hd]
    have := foldl_skip_nan fop (.fin unit) hunit (op .float) hop (ofInt .float unit) rfl
      ((y.x.line ax ridx).take (i + 1)) (.fin unit)
    rw [htot, soFar, ← this]
    rfl

theorem cumulate_int {op : DType → Val → Val → Val} {unit : Int} {total : List Int → Int}
    (iop : Int → Int → Int) (hop : ∀ a b, op .int (.int a) (.int b) = .int (iop a b))
    (htot : ∀ l, total l = l.foldl iop unit)
    {y : Larry L} (hv : y.Valid) (hd : y.dtype = .int) {axis : Int} {ax : Nat}
    (hax : pyIdx y.ndim axis = some ax) :
    ∃ z, y.cumulate op unit (some axis) = .ok z ∧ z.dtype = .int ∧ y.Along z ax (RunningInt total) := by
  obtain ⟨l, hl, _⟩ := label_at hv hax
  refine ⟨_, cumulate_eq (by simp [hd, DType.isNumeric]) hax, by simp [hd], ?_⟩
  refine along_of_get hv hl (by rfl) (by rfl) ?_
  intro ridx i hr hi ns hns
  obtain ⟨w, hw⟩ : ∃ w, (y.x.line ax ridx)[i]? = some w := ⟨_, List.getElem?_eq_getElem hi⟩
  have hget := line_get y.x hw
  have : w.isNan = false := by
    rw [hns, List.getElem?_map] at hw
    cases h : ns[i]? with
    | none => rw [h] at hw; simp at hw
    | some n => rw [h] at hw; simp at hw; rw [← hw]; rfl
  simp only [hget, this, Bool.false_eq_true, if_false]
  rw [cumulate_get y.x hr hi, hd, hns, htot]
  have key : ∀ (ns : List Int) (acc : Int),
      ((ns.map Val.int).map (replaceNan (ofInt .int unit))).foldl (op .int) (.int acc) =
      .int (ns.foldl iop acc) := by
    intro ns
    induction ns with
    | nil => intro acc; rfl
    | cons n ns ih =>
      intro acc
      have : replaceNan (ofInt .int unit) (.int n) = .int n := rfl
      simp only [List.map_cons, List.foldl_cons, this, hop, ih]
  rw [← List.map_take]
  exact key _ unit

theorem add_zero_flt (a : Flt) : a.add (.fin 0) = a := by cases a <;> simp [Flt.add]
theorem mul_one_flt (a : Flt) : a.mul (.fin 1) = a := by cases a <;> simp [Flt.mul, Flt.infOf]

/-- C43. `cumsum` of a float larry: NaN where the value is NaN, elsewhere the sum of the values up to
there along the axis that are not NaN. -/
theorem C43_cumsum {y : Larry L} (hv : y.Valid) (hd : y.dtype = .float) {axis : Int} {ax : Nat}
    (hax : pyIdx y.ndim axis = some ax) :
    ∃ z, y.cumsum (some axis) = .ok z ∧ z.dtype = .float ∧ y.Along z ax (RunningFloat Flt.sum) :=
  cumulate_float Flt.add (fun _ _ => rfl) (by simpa using add_zero_flt) (fun l => by simp [Flt.sum]) hv hd hax

/-- C43. `cumprod` of a float larry. -/
theorem C43_cumprod {y : Larry L} (hv : y.Valid) (hd : y.dtype = .float) {axis : Int} {ax : Nat}
    (hax : pyIdx y.ndim axis = some ax) :
    ∃ z, y.cumprod (some axis) = .ok z ∧ z.dtype = .float ∧ y.Along z ax (RunningFloat Flt.prod) :=
  cumulate_float Flt.mul (fun _ _ => rfl) (by simpa using mul_one_flt) (fun l => by simp [Flt.prod]) hv hd hax

/-- C43. `cumsum` and `cumprod` of an int larry are the running sums and products. -/
theorem C43_int {y : Larry L} (hv : y.Valid) (hd : y.dtype = .int) {axis : Int} {ax : Nat}
    (hax : pyIdx y.ndim axis = some ax) :
    (∃ z, y.cumsum (some axis) = .ok z ∧ z.dtype = .int ∧ y.Along z ax (RunningInt List.sum)) ∧
    (∃ z, y.cumprod (some axis) = .ok z ∧ z.dtype = .int ∧ y.Along z ax (RunningInt List.prod)) :=
  ⟨cumulate_int (· + ·) (fun _ _ => rfl) (fun l => by rw [List.sum_eq_foldl]) hv hd hax,
   cumulate_int (· * ·) (fun _ _ => rfl) (fun l => by rw [List.prod_eq_foldl]) hv hd hax⟩

/-- The running results of a line of booleans: how many are True so far, and whether all are. -/
def RunningTrue (vs : List Val) (i : Nat) (v : Val) : Prop :=
  ∀ bs : List Bool, vs = bs.map Val.bool → v = .int ((bs.take (i + 1)).count true : Nat)

@[inherit_doc RunningTrue]
def RunningAll (vs : List Val) (i : Nat) (v : Val) : Prop :=
  ∀ bs : List Bool, vs = bs.map Val.bool → v = .int (if ∀ b ∈ bs.take (i + 1), b = true then 1 else 0)

theorem cumulate_bool {op : DType → Val → Val → Val} {unit : Int} {total : List Bool → Int}
    (hop : ∀ (bs : List Bool), (bs.map Val.bool).foldl (op .bool) (.int unit) = .int (total bs))
    {y : Larry L} (hv : y.Valid) (hd : y.dtype = .bool) {axis : Int} {ax : Nat}
    (hax : pyIdx y.ndim axis = some ax) :
    ∃ z, y.cumulate op unit (some axis) = .ok z ∧ z.dtype = .int ∧
      y.Along z ax (fun vs i v => ∀ bs : List Bool, vs = bs.map Val.bool → v = .int (total (bs.take (i + 1)))) := by
  obtain ⟨l, hl, _⟩ := label_at hv hax
  refine ⟨_, cumulate_eq (by simp [hd, DType.isNumeric]) hax, by simp [hd], ?_⟩
  refine along_of_get hv hl (by rfl) (by rfl) ?_
  intro ridx i hr hi bs hbs
  obtain ⟨w, hw⟩ : ∃ w, (y.x.line ax ridx)[i]? = some w := ⟨_, List.getElem?_eq_getElem hi⟩
  have hget := line_get y.x hw
  have : w.isNan = false := by
    rw [hbs, List.getElem?_map] at hw
    cases h : bs[i]? with
    | none => rw [h] at hw; simp at hw
    | some n => rw [h] at hw; simp at hw; rw [← hw]; cases n <;> rfl
  simp only [hget, this, Bool.false_eq_true, if_false]
  rw [cumulate_get y.x hr hi, hd, hbs, ← List.map_take, ← hop]
  congr 1
  rw [List.map_map]
  exact List.map_congr_left fun b _ => by cases b <;> rfl

/-- C43. `cumsum` of a boolean larry counts the True values so far; `cumprod` is 1 while all are True. -/
theorem C43_bool {y : Larry L} (hv : y.Valid) (hd : y.dtype = .bool) {axis : Int} {ax : Nat}
    (hax : pyIdx y.ndim axis = some ax) :
    (∃ z, y.cumsum (some axis) = .ok z ∧ z.dtype = .int ∧ y.Along z ax RunningTrue) ∧
    (∃ z, y.cumprod (some axis) = .ok z ∧ z.dtype = .int ∧ y.Along z ax RunningAll) := by
  refine ⟨cumulate_bool (total := fun bs => (bs.count true : Nat)) (fun bs => ?_) hv hd hax,
    cumulate_bool (total := fun bs => if ∀ b ∈ bs, b = true then 1 else 0) (fun bs => ?_) hv hd hax⟩
  · have : ∀ acc : Int, (bs.map Val.bool).foldl (addVal .bool) (.int acc) = .int (acc + (bs.count true : Nat)) := by
      induction bs with
      | nil => intro acc; simp
      | cons b bs ih =>
        intro acc
        cases b
        · have e : addVal .bool (.int acc) (.bool false) = .int (acc + 0) := rfl
          simp only [List.map_cons, List.foldl_cons, e, ih, List.count_cons]
          simp
        · have e : addVal .bool (.int acc) (.bool true) = .int (acc + 1) := rfl
          simp only [List.map_cons, List.foldl_cons, e, ih, List.count_cons]
          simp; omega
    simpa using this 0
  · have : ∀ acc : Int, (bs.map Val.bool).foldl (mulVal .bool) (.int acc) =
        .int (acc * if ∀ b ∈ bs, b = true then 1 else 0) := by
      induction bs with
      | nil => intro acc; simp
      | cons b bs ih =>
        intro acc
        cases b
        · have e : mulVal .bool (.int acc) (.bool false) = .int (acc * 0) := rfl
          simp only [List.map_cons, List.foldl_cons, e, ih]
          simp
        · have e : mulVal .bool (.int acc) (.bool true) = .int (acc * 1) := rfl
          simp only [List.map_cons, List.foldl_cons, e, ih]
          simp
    simpa using this 1

/-- A 1d larry of booleans. -/
def exYes : Larry Nat := ⟨NDArray.full [3] (.bool true), .bool, [[1, 2, 3]]⟩

theorem exYes_valid : exYes.Valid := ⟨rfl, by decide, by decide⟩

example : exYes.Valid ∧ exYes.dtype = .bool ∧ pyIdx exYes.ndim 0 = some 0 ∧
    RunningTrue [.bool true, .bool false, .bool true] 2 (.int 2) :=
  ⟨exYes_valid, rfl, rfl, fun bs h => by
    match bs, h with
    | [true, false, true], _ => rfl⟩

theorem sum_fin (qs : List ℚ) : Flt.sum (qs.map Flt.fin) = .fin qs.sum := by
  have : ∀ acc : ℚ, (qs.map Flt.fin).foldl Flt.add (.fin acc) = .fin (acc + qs.sum) := by
    induction qs with
    | nil => intro acc; simp
    | cons q qs ih => intro acc; simp [Flt.add, ih, add_assoc]
  simpa [Flt.sum] using this 0

theorem prod_fin (qs : List ℚ) : Flt.prod (qs.map Flt.fin) = .fin qs.prod := by
  have : ∀ acc : ℚ, (qs.map Flt.fin).foldl Flt.mul (.fin acc) = .fin (acc * qs.prod) := by
    induction qs with
    | nil => intro acc; simp
    | cons q qs ih => intro acc; simp [Flt.mul, ih, mul_assoc]
  simpa [Flt.prod] using this 1

/-- C43. When the numbers so far are finite the result is their exact sum or product. -/
theorem C43_exact (vs : List Val) (i : Nat) (qs : List ℚ) (h : soFar vs i = qs.map Flt.fin) :
    Flt.sum (soFar vs i) = .fin qs.sum ∧ Flt.prod (soFar vs i) = .fin qs.prod := by
  rw [h]; exact ⟨sum_fin qs, prod_fin qs⟩

/-- C43: refusals. -/
theorem C43_errors (y : Larry L) (axis : Int) :
    y.cumsum none = .error .valueError ∧ y.cumprod none = .error .valueError ∧
    (pyIdx y.ndim axis = none → y.dtype = .float → y.cumsum (some axis) = .error .valueError ∧
      y.cumprod (some axis) = .error .valueError) ∧
    (y.dtype = .str → y.cumsum (some axis) = .error .typeError ∧ y.cumprod (some axis) = .error .typeError) := by
  refine ⟨rfl, rfl, fun h hd => ?_, fun hd => ?_⟩
  · simp [cumsum, cumprod, cumulate, hd, DType.isNumeric, npAxis, h]
  · simp [cumsum, cumprod, cumulate, hd, DType.isNumeric]

example : exA.Valid ∧ exA.dtype = .float ∧ pyIdx exA.ndim (-1) = some 1 ∧
    soFar [fl 4, .flt .nan, fl 6] 2 = [4, 6].map Flt.fin :=
  ⟨exA_valid, rfl, rfl, rfl⟩

/-! ## C45: clip -/

/-- `w` is `v` moved into `[lo, hi]`: unchanged when inside, else the bound on its side. -/
def ClippedTo (lo hi v w : Flt) : Prop :=
  (v = .nan → w = .nan) ∧
  (LeF lo v → LeF v hi → w = v) ∧ (v ≠ .nan → ¬ LeF lo v → w = lo) ∧ (v ≠ .nan → ¬ LeF v hi → w = hi)

theorem clip1_spec {lo hi : Flt} (h : LeF lo hi) (v : Flt) : ClippedTo lo hi v (clip1 lo hi v) := by
  cases lo <;> cases hi <;> simp only [LeF] at h <;> cases v <;>
    simp [ClippedTo, LeF, clip1, Flt.lt] <;> grind

/-- What numpy writes into an array of dtype `d` for the number `q`. -/
def WrittenAs (d : DType) (q : Flt) (w : Val) : Prop :=
  match d, q with
  | .int, .fin q => ∃ i, w = .int i ∧ Truncates q i
  | .int, _ => ∃ i, w = .int i
  | .bool, q => ∃ b, w = .bool b ∧ (b = false ↔ q = .fin 0)
  | _, q => w = .flt q

theorem truncInt_spec (q : ℚ) : Truncates q (Flt.fin q).truncInt := by
  unfold Flt.truncInt Truncates
  refine ⟨fun h => ?_, fun h => ?_⟩
  · simp only [h, if_true]
    exact ⟨Int.floor_le q, Int.lt_floor_add_one q⟩
  · have : ¬ 0 ≤ q := not_le.mpr h
    simp only [this, if_false]
    exact ⟨by linarith [Int.ceil_lt_add_one q], Int.le_ceil q⟩

theorem storeAs_spec (d : DType) (q : Flt) : WrittenAs d q (storeAs d q) := by
  cases d
  case int => cases q <;> first | exact ⟨_, rfl⟩ | exact ⟨_, rfl, truncInt_spec _⟩
  case bool => exact ⟨_, rfl, by simp⟩
  all_goals rfl

/-- C45. With `lo <= hi` a larry of numbers gets, in place of each value, the nearest point of `[lo, hi]` written as the dtype
demands; NaN stays NaN, labels and dtype are unchanged. -/
theorem C45_clip {y : Larry L} (hv : y.Valid) (hd : y.dtype = .float ∨ y.dtype = .int ∨ y.dtype = .bool) {lo hi : Flt}
    (h : LeF lo hi) :
    ∃ z, y.clip lo hi = .ok z ∧ z.Valid ∧ z.label = y.label ∧ z.dtype = y.dtype ∧
      ∀ names v, y.Has names v → ∃ q w, z.Has names w ∧ ClippedTo lo hi v.num q ∧ WrittenAs y.dtype q w := by
  have hlt : hi.lt lo = false := by
    cases lo <;> cases hi <;> simp [LeF, Flt.lt] at h ⊢
    exact h
  have hnum : y.dtype.isNumeric = true := by rcases hd with hd | hd | hd <;> rw [hd] <;> rfl
  refine ⟨⟨y.x.map (fun v => storeAs y.dtype (clip1 lo hi v.num)), y.dtype, y.label⟩, by simp [clip, hlt, hnum],
    ⟨hv.shape_eq, hv.nodup, hv.ndim_pos⟩, rfl, rfl, ?_⟩
  rintro names v ⟨idx, hat, rfl⟩
  exact ⟨_, _, ⟨idx, hat, rfl⟩, clip1_spec h _, storeAs_spec _ _⟩

/-- C45. The nearest point is in the range. -/
theorem C45_range {lo hi v w : Flt} (h : LeF lo hi) (hc : ClippedTo lo hi v w) (hv : v ≠ .nan) :
    LeF lo w ∧ LeF w hi := by
  obtain ⟨h1, h2, h3, h4⟩ := hc
  by_cases hl : LeF lo v
  · by_cases hh : LeF v hi
    · rw [h2 hl hh]; exact ⟨hl, hh⟩
    · rw [h4 hv hh]
      refine ⟨h, ?_⟩
      cases lo <;> cases hi <;> simp_all [LeF]
  · rw [h3 hv hl]
    refine ⟨?_, h⟩
    cases lo <;> cases hi <;> simp_all [LeF]

/-- C45. In a float larry every number is afterwards the nearest point of `[lo, hi]`. -/
theorem C45_float {y : Larry L} (hv : y.Valid) (hd : y.dtype = .float) {lo hi : Flt} (h : LeF lo hi) :
    ∃ z, y.clip lo hi = .ok z ∧ z.Valid ∧ z.label = y.label ∧ z.dtype = .float ∧
      ∀ names v, y.Has names v → ∃ w, z.Has names (.flt w) ∧ ClippedTo lo hi v.num w := by
  obtain ⟨z, h1, h2, h3, h4, h5⟩ := C45_clip hv (.inl hd) h
  refine ⟨z, h1, h2, h3, h4.trans hd, fun names v hn => ?_⟩
  obtain ⟨q, w, hw, hc, hs⟩ := h5 names v hn
  rw [hd] at hs
  have : w = .flt q := hs
  exact ⟨q, this ▸ hw, hc⟩

/-- A bound that an int larry can hold, or none at all: a whole number or the infinity on its side. -/
def WholeBounds (lo hi : Flt) : Prop :=
  (lo = .ninf ∨ ∃ k : ℤ, lo = .fin k) ∧ (hi = .pinf ∨ ∃ k : ℤ, hi = .fin k)

theorem Truncates.whole {k i : ℤ} (h : Truncates k i) : i = k := by
  by_cases hk : 0 ≤ (k : ℚ)
  · obtain ⟨h1, h2⟩ := h.1 hk
    have h1 : i ≤ k := by exact_mod_cast h1
    have h2 : k < i + 1 := by exact_mod_cast h2
    omega
  · obtain ⟨h1, h2⟩ := h.2 (not_le.mp hk)
    have h1 : i - 1 < k := by exact_mod_cast h1
    have h2 : k ≤ i := by exact_mod_cast h2
    omega

/-- C45. In an int larry too, if the bounds are whole numbers (or infinite on their side). -/
theorem C45_int {y : Larry L} (hv : y.Valid) (hd : y.dtype = .int) {lo hi : Flt} (h : LeF lo hi) (hw : WholeBounds lo hi) :
    ∃ z, y.clip lo hi = .ok z ∧ z.Valid ∧ z.label = y.label ∧ z.dtype = .int ∧
      ∀ names n, y.Has names (.int n) → ∃ m, z.Has names (.int m) ∧ ClippedTo lo hi (.fin n) (.fin m) := by
  obtain ⟨z, h1, h2, h3, h4, h5⟩ := C45_clip hv (.inr (.inl hd)) h
  refine ⟨z, h1, h2, h3, h4.trans hd, fun names n hn => ?_⟩
  obtain ⟨q, w, hz, hc, hs⟩ := h5 names _ hn
  rw [hd] at hs
  have hq : ∃ k : ℤ, q = .fin k := by
    have hc' : ClippedTo lo hi (.fin n) q := hc
    by_cases hl : LeF lo (.fin n)
    · by_cases hh : LeF (.fin n) hi
      · exact ⟨n, hc'.2.1 hl hh⟩
      · rw [hc'.2.2.2 (by simp) hh]
        rcases hw.2 with rfl | hk
        · exact absurd trivial hh
        · exact hk
    · rw [hc'.2.2.1 (by simp) hl]
      rcases hw.1 with rfl | hk
      · exact absurd trivial hl
      · exact hk
  obtain ⟨k, rfl⟩ := hq
  obtain ⟨i, rfl, hi⟩ := hs
  rw [hi.whole] at hz
  exact ⟨k, hz, hc⟩

theorem Truncates.mono {p q : ℚ} {i j : ℤ} (hi : Truncates p i) (hj : Truncates q j) (h : p ≤ q) : i ≤ j := by
  by_cases hp : 0 ≤ p
  · obtain ⟨a1, -⟩ := hi.1 hp
    obtain ⟨-, b2⟩ := hj.1 (hp.trans h)
    have : (i : ℚ) < j + 1 := by linarith
    have : i < j + 1 := by exact_mod_cast this
    omega
  · obtain ⟨a1, a2⟩ := hi.2 (not_le.mp hp)
    by_cases hq : 0 ≤ q
    · obtain ⟨-, b2⟩ := hj.1 hq
      have h1 : (i : ℚ) - 1 < 0 := a1.trans (not_le.mp hp)
      have h2 : (0 : ℚ) < j + 1 := by linarith
      have h1 : i - 1 < 0 := by exact_mod_cast h1
      have h2 : 0 < j + 1 := by exact_mod_cast h2
      omega
    · obtain ⟨-, b2⟩ := hj.2 (not_le.mp hq)
      have : (i : ℚ) - 1 < j := by linarith
      have : i - 1 < j := by exact_mod_cast this
      omega

theorem truncInt_whole (i : ℤ) : (Flt.fin i).truncInt = i := (truncInt_spec i).whole

theorem truncInt_between {i : ℤ} {p q : ℚ} (hi : Truncates q i) (h : ((i : ℚ) ≤ p ∧ p ≤ q) ∨ (q ≤ p ∧ p ≤ i)) :
    (Flt.fin p).truncInt = i := by
  have hii : Truncates (i : ℚ) i := by
    have := truncInt_spec (i : ℚ)
    rwa [truncInt_whole] at this
  rcases h with ⟨h1, h2⟩ | ⟨h1, h2⟩
  · exact le_antisymm ((truncInt_spec p).mono hi h2) (hii.mono (truncInt_spec p) h1)
  · exact le_antisymm ((truncInt_spec p).mono hii h2) (hi.mono (truncInt_spec p) h1)

theorem clip1_clip1 {lo hi : Flt} (h : LeF lo hi) (v : Flt) : clip1 lo hi (clip1 lo hi v) = clip1 lo hi v := by
  have h1 := clip1_spec h v
  have h2 := clip1_spec h (clip1 lo hi v)
  by_cases hn : v = .nan
  · rw [h1.1 hn] at h2 ⊢
    exact h2.1 rfl
  · obtain ⟨r1, r2⟩ := C45_range h h1 hn
    exact h2.2.1 r1 r2

theorem clip1_truncInt {lo hi : Flt} (h : LeF lo hi) (q : ℚ) :
    (clip1 lo hi (.fin (clip1 lo hi (.fin q)).truncInt)).truncInt = (clip1 lo hi (.fin q)).truncInt := by
  have h1 := clip1_spec h (.fin q)
  have r := C45_range h h1 (by simp)
  generalize hc : clip1 lo hi (.fin q) = c at *
  cases c with
  | nan => cases lo <;> simp [LeF] at r
  | pinf =>
    have e1 : hi = .pinf := by cases hi <;> simp_all [LeF]
    have e2 : lo = .pinf := by
      subst e1
      by_contra hlo
      have : LeF lo (.fin q) ∨ ¬ LeF lo (.fin q) := em _
      rcases this with h2 | h2
      · simpa using h1.2.1 h2 trivial
      · exact hlo (h1.2.2.1 (by simp) h2).symm
    subst e1 e2
    rfl
  | ninf =>
    have e1 : lo = .ninf := by cases lo <;> simp_all [LeF]
    have e2 : hi = .ninf := by
      subst e1
      by_contra hhi
      rcases em (LeF (.fin q) hi) with h2 | h2
      · simpa using h1.2.1 trivial h2
      · exact hhi (h1.2.2.2 (by simp) h2).symm
    subst e1 e2
    rfl
  | fin c =>
    have ht := truncInt_spec c
    generalize hi' : (Flt.fin c).truncInt = i at *
    have h2 := clip1_spec h (.fin i)
    by_cases hl : LeF lo (.fin i)
    · by_cases hh : LeF (.fin i) hi
      · rw [h2.2.1 hl hh]; exact truncInt_whole i
      · rw [h2.2.2.2 (by simp) hh]
        cases hi with
        | fin b =>
          simp only [LeF, not_le] at hh r
          exact truncInt_between ht (.inr ⟨r.2, hh.le⟩)
        | _ => simp [LeF] at hh r
    · rw [h2.2.2.1 (by simp) hl]
      cases lo with
      | fin a =>
        simp only [LeF, not_le] at hl r
        exact truncInt_between ht (.inl ⟨hl.le, r.1⟩)
      | _ => simp [LeF] at hl r

theorem clip1_bool {lo hi : Flt} (h : LeF lo hi) (b : Bool) :
    (clip1 lo hi (Val.bool (decide (clip1 lo hi (Val.bool b).num ≠ .fin 0))).num ≠ .fin 0) ↔
      clip1 lo hi (Val.bool b).num ≠ .fin 0 := by
  cases lo <;> cases hi <;> simp only [LeF] at h <;> cases b <;> simp only [clip1, Val.num, Flt.lt] <;> grind

theorem storeAs_clip_twice {d : DType} {lo hi : Flt} (h : LeF lo hi) {v : Val} (hv : v.hasDType d = true)
    (hd : d = .float ∨ d = .int ∨ d = .bool) :
    storeAs d (clip1 lo hi (storeAs d (clip1 lo hi v.num)).num) = storeAs d (clip1 lo hi v.num) := by
  rcases hd with rfl | rfl | rfl
  · exact congrArg Val.flt (clip1_clip1 h _)
  · cases v with
    | int n => exact congrArg Val.int (clip1_truncInt h n)
    | _ => simp [Val.hasDType] at hv
  · cases v with
    | bool b =>
      have := clip1_bool h b
      exact congrArg Val.bool (decide_eq_decide.mpr this)
    | _ => simp [Val.hasDType] at hv

/-- C45. Clipping twice is clipping once. -/
theorem C45_idempotent {y : Larry L} (ht : y.Typed) (hd : y.dtype = .float ∨ y.dtype = .int ∨ y.dtype = .bool) {lo hi : Flt}
    (h : LeF lo hi) : ∃ z z', y.clip lo hi = .ok z ∧ z.clip lo hi = .ok z' ∧ z'.Same z := by
  have hlt : hi.lt lo = false := by
    cases lo <;> cases hi <;> simp [LeF, Flt.lt] at h ⊢
    exact h
  have hnum : y.dtype.isNumeric = true := by rcases hd with hd | hd | hd <;> rw [hd] <;> rfl
  have key : ∀ w : Larry L, w.dtype = y.dtype →
      w.clip lo hi = .ok { w with x := w.x.map (fun v => storeAs w.dtype (clip1 lo hi v.num)) } := by
    intro w hw
    simp only [clip, hlt, hw, hnum, if_false, Bool.false_eq_true, Bool.true_eq_false]
  exact ⟨_, _, key y rfl, key _ rfl, rfl, rfl, rfl, fun idx hidx => storeAs_clip_twice h (ht idx hidx) hd⟩

/-- C45. Bounds in the wrong order raise ValueError, and only those. -/
theorem C45_errors (y : Larry L) {lo hi : Flt} (hlo : lo ≠ .nan) (hhi : hi ≠ .nan) :
    y.clip lo hi = .error .valueError ↔ ¬ LeF lo hi := by
  have key : hi.lt lo = true ↔ ¬ LeF lo hi := by
    cases lo <;> cases hi <;> simp [Flt.lt, LeF] at *
  rw [← key]
  unfold clip
  cases hi.lt lo with
  | true => simp
  | false =>
    simp only [Bool.false_eq_true, if_false, iff_false]
    split <;> simp

/-- `larry([1, 2])` -/
def exOneTwo : Larry Nat := ⟨NDArray.ofList [2] [.int 1, .int 2], .int, [[0, 1]]⟩

/-- C45 needs whole bounds for an int larry: `larry([1, 2]).clip(1.5, 3)` still holds 1, which is below 1.5. -/
theorem C45_int_below : exOneTwo.Valid ∧ exOneTwo.Typed ∧
    (exOneTwo.clip (.fin (3 / 2)) (.fin 3)).toOption.map (fun z => (z.dtype, z.x.vals)) = some (.int, [.int 1, .int 2]) ∧
    ¬ LeF (.fin (3 / 2)) (.fin 1) := by
  refine ⟨⟨rfl, by decide, by decide⟩, ?_, by decide +kernel, by simp only [LeF]; norm_num⟩
  rintro idx hidx
  match idx, hidx with
  | [0], _ => rfl
  | [1], _ => rfl
  | [k + 2], h => simp [exOneTwo, NDArray.ofList, InB] at h

example : exA.Valid ∧ exA.dtype = .float ∧ LeF (.fin 2) (.fin 4) ∧ ClippedTo (.fin 2) (.fin 4) (.fin 5) (.fin 4) ∧
    ClippedTo (.fin 2) .pinf (.fin 1) (.fin 2) :=
  ⟨exA_valid, rfl, by simp only [LeF]; decide, clip1_spec (by simp only [LeF]; decide) (.fin 5),
    clip1_spec (lo := .fin 2) (hi := .pinf) trivial (.fin 1)⟩

example : exB.Valid ∧ exB.dtype = .int ∧ LeF (.fin 2) .pinf ∧ WholeBounds (.fin 2) .pinf :=
  ⟨exB_valid, rfl, trivial, .inr ⟨2, rfl⟩, .inl rfl⟩

/-! ## C46: push -/

/-- `j` is the position of the most recent finite value before `i`. -/
def LastFinite (vs : List Val) (i j : Nat) : Prop :=
  j < i ∧ (∃ u, vs[j]? = some u ∧ u.isFin = true) ∧
    ∀ k, j < k → k < i → ∀ u, vs[k]? = some u → u.isFin = false

/-- What `push` is to leave at position `i`. -/
def Pushed (n : Int) (vs : List Val) (i : Nat) (v : Val) : Prop :=
  ∀ w, vs[i]? = some w →
    (w.isFin = true → v = w) ∧
    (w.isFin = false →
      (∀ j, LastFinite vs i j → (i : Int) - j ≤ n → vs[j]? = some v) ∧
      ((¬ ∃ j, LastFinite vs i j ∧ (i : Int) - j ≤ n) → v = .flt .nan))

/-- What the loop knows before position `i`. -/
structure PushInv (n : Int) (vs : List Val) (i : Nat) (recent : Val) (count : Option Nat) : Prop where
  some_iff : ∀ j, count = some j ↔ LastFinite vs i j
  fresh : ∀ j, count = some j → (i : Int) - j ≤ n → vs[j]? = some recent
  empty : count = none → recent = .flt .nan

theorem pushGo_spec (n : Int) (vs pre ws : List Val) (hvs : vs = pre ++ ws) (recent : Val) (count : Option Nat)
    (inv : PushInv n vs pre.length recent count) (k : Nat) (hk : k < ws.length) :
    ∃ v, (pushGo n pre.length recent count ws)[k]? = some v ∧ Pushed n vs (pre.length + k) v := by
  induction ws generalizing pre recent count k with
  | nil => simp at hk
  | cons w ws ih =>
    have hw : vs[pre.length]? = some w := by rw [hvs]; simp
    have hlast : ∀ j, LastFinite vs (pre.length + 1) j ↔
        (w.isFin = true ∧ j = pre.length) ∨ (w.isFin = false ∧ LastFinite vs pre.length j) := by
      intro j
      constructor
      · rintro ⟨h1, h2, h3⟩
        by_cases hj : j = pre.length
        · subst hj
          obtain ⟨u, hu, hf⟩ := h2
          rw [hw] at hu
          simp only [Option.some.injEq] at hu
          exact .inl ⟨hu ▸ hf, rfl⟩
        · exact .inr ⟨h3 _ (by omega) (by omega) _ hw, by omega, h2, fun k hk hk' => h3 k hk (by omega)⟩
      · rintro (⟨h1, rfl⟩ | ⟨h1, h2, h3, h4⟩)
        · exact ⟨by omega, ⟨w, hw, h1⟩, fun k hk hk' => by omega⟩
        · refine ⟨by omega, h3, fun k hk hk' u hu => ?_⟩
          by_cases hkk : k = pre.length
          · subst hkk
            rw [hw] at hu
            simp only [Option.some.injEq] at hu
            exact hu ▸ h1
          · exact h4 k hk (by omega) u hu
    have hvs' : vs = (pre ++ [w]) ++ ws := by rw [hvs]; simp
    have hlen : (pre ++ [w]).length = pre.length + 1 := by simp
    by_cases hf : w.isFin = true
    · simp only [pushGo, hf, if_true]
      cases k with
      | zero =>
        refine ⟨w, rfl, fun w' hw' => ?_⟩
        simp only [Nat.add_zero] at hw'
        rw [hw] at hw'
        simp only [Option.some.injEq] at hw'
        subst hw'
        exact ⟨fun _ => rfl, fun h => by rw [hf] at h; simp at h⟩
      | succ k =>
        have inv' : PushInv n vs (pre ++ [w]).length w (some pre.length) := by
          rw [hlen]
          refine ⟨fun j => ?_, fun j hj _ => ?_, fun h => by simp at h⟩
          · rw [hlast]
            constructor
            · intro h; simp only [Option.some.injEq] at h; exact .inl ⟨hf, h.symm⟩
            · rintro (⟨_, rfl⟩ | ⟨h, _⟩)
              · rfl
              · rw [hf] at h; simp at h
          · simp only [Option.some.injEq] at hj; subst hj; exact hw
        have := ih (pre ++ [w]) hvs' w (some pre.length) inv' k (by simpa using hk)
        rw [hlen] at this
        simpa [Nat.add_assoc, Nat.add_comm 1 k] using this
    · have hf' : w.isFin = false := by simpa using hf
      simp only [pushGo, hf', Bool.false_eq_true, if_false]
      have hfresh : ∀ j, count = some j → (pre.length : Int) - j ≤ n →
          vs[j]? = some (if pushGo.pushStale n pre.length count then .flt .nan else recent) := by
        intro j hj hn
        rw [if_neg, inv.fresh j hj hn]
        subst hj
        simp only [pushGo.pushStale, decide_eq_true_eq]; omega
      cases k with
      | zero =>
        refine ⟨_, rfl, fun w' hw' => ?_⟩
        simp only [Nat.add_zero] at hw' ⊢
        rw [hw] at hw'
        simp only [Option.some.injEq] at hw'
        subst hw'
        refine ⟨fun h => absurd h hf, fun _ => ⟨fun j hj hn => hfresh j ((inv.some_iff j).mpr hj) hn, fun hno => ?_⟩⟩
        cases hc : count with
        | none => simp [pushGo.pushStale, inv.empty hc]
        | some c =>
          have hnn : ¬ (pre.length : Int) - c ≤ n := fun h => hno ⟨c, (inv.some_iff c).mp hc, h⟩
          rw [if_pos]
          simp only [pushGo.pushStale, decide_eq_true_eq]; omega
      | succ k =>
        have inv' : PushInv n vs (pre ++ [w]).length
            (if pushGo.pushStale n pre.length count then .flt .nan else recent) count := by
          rw [hlen]
          refine ⟨fun j => ?_, fun j hj hn => ?_, fun h => ?_⟩
          · rw [hlast, inv.some_iff]
            constructor
            · intro h; exact .inr ⟨hf', h⟩
            · rintro (⟨h, _⟩ | ⟨_, h⟩)
              · exact absurd h hf
              · exact h
          · exact hfresh j hj (by push_cast at hn; omega)
          · subst h; simp [pushGo.pushStale, inv.empty rfl]
        have := ih (pre ++ [w]) hvs' _ count inv' k (by simpa using hk)
        rw [hlen] at this
        simpa [Nat.add_assoc, Nat.add_comm 1 k] using this

/-- C46. `push(window, axis)`: along the axis, a finite value stays; any other becomes the most recent
finite value before it when that is at most `window` places back, else NaN. -/
theorem C46_push {y : Larry L} (hv : y.Valid) (hd : y.dtype ≠ .str ∧ y.dtype ≠ .object) (window axis : Int)
    {ax : Nat} (hax : pyIdx y.ndim axis = some ax) :
    ∃ z, y.push window axis = .ok z ∧ z.dtype = y.dtype ∧ y.Along z ax (Pushed window) := by
  obtain ⟨l, hl, _⟩ := label_at hv hax
  have hd' : y.dtype.isNumeric = true := by cases h : y.dtype <;> simp_all [DType.isNumeric]
  refine ⟨y.along (pushLine window) y.dtype ax, by simp [push, npAxis, hax, hd'], rfl,
    along_mapLines hv hl _ _ fun vs i hi => ?_⟩
  have := pushGo_spec window vs [] vs rfl (.flt .nan) none
    ⟨fun j => by simp [LastFinite], fun j h => by simp at h, fun _ => rfl⟩ i hi
  simpa [pushLine] using this

/-- C46: refusals. -/
theorem C46_errors (y : Larry L) (window axis : Int) :
    (pyIdx y.ndim axis = none → y.push window axis = .error .valueError) ∧
    (∀ ax, pyIdx y.ndim axis = some ax → y.dtype = .str → y.push window axis = .error .typeError) := by
  constructor
  · intro h; simp [push, npAxis, h]
  · intro ax h hd; simp [push, npAxis, h, hd, DType.isNumeric]

example : exA.Valid ∧ exA.dtype ≠ .str ∧ exA.dtype ≠ .object ∧ pyIdx exA.ndim (-1) = some 1 ∧
    LastFinite [fl 4, .flt .nan, .flt .nan] 2 0 ∧ ¬ ((2 : Int) - 0 ≤ 1) :=
  ⟨exA_valid, by decide, by decide, rfl, ⟨by decide, ⟨_, rfl, rfl⟩, fun k h1 h2 u hu => by
    have : k = 1 := by omega
    subst this; simp at hu; subst hu; rfl⟩, by decide⟩

end La
