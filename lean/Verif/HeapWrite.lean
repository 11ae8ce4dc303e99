import Verif.HeapRun
import Verif.ReduceFacts
import Verif.SetitemFacts
import Verif.LarryFacts
import Verif.BinopFacts

/-!
# Running the methods that write: in-place operations, `keep_x`, `binaryop`, `merge`

Elements outside the shape of an array mean nothing; after a write the array is known only inside
its shape, hence `Same`.
-/

namespace La
variable {L : Type} {h : Heap L} {p : Nat} {o : Obj} {y : Larry L} {b : Nat}

/-! ### Writing in place -/

/-- The elements after an in-place operation. -/
def writeAt (x : NDArray Val) (sel : List Nat → Bool) (val : List Nat → Val) : NDArray Val :=
  ⟨x.shape, fun i => if sel i then val i else x.get i⟩

theorem writeCells_get {v : View} (hv : v.Inj) (sel : List Nat → Bool) (val : List Nat → Val) (f : List Nat → Val)
    {i : List Nat} (hi : InB v.ix.shape i) :
    writeCells v sel val f (v.ix.get i) = if sel i then val i else f (v.ix.get i) := by
  unfold writeCells
  cases hf : (allIdx v.ix.shape).find? (fun j => sel j && decide (v.ix.get j = v.ix.get i)) with
  | some j =>
    have h1 := List.find?_some hf
    have h2 := mem_allIdx.mp (List.mem_of_find?_eq_some hf)
    simp only [Bool.and_eq_true, decide_eq_true_eq] at h1
    have := hv j i h2 hi h1.2
    subst this
    simp [h1.1]
  | none =>
    rw [List.find?_eq_none] at hf
    have := hf i (mem_allIdx.mpr hi)
    simp only [Bool.and_eq_true, decide_eq_true_eq, and_true, Bool.not_eq_true] at this
    simp [this]

theorem writeWhere_run {v : View} {x : NDArray Val} {d : DType} (ha : ArrayAt h b v x d) (sel : List Nat → Bool)
    (val : List Nat → Val) : ∃ h', Run h (writeWhere v sel val) () h' ∧ ExtBut v.buf h h' ∧ ∃ x', ArrayAt h' b v x' d ∧
      x'.shape = x.shape ∧ (v.Inj → x'.Same (writeAt x sel val)) := by
  obtain ⟨f, h1, h2⟩ := ha.data
  have hf : h.buf v.buf = f := by unfold Heap.buf; rw [h1]
  refine ⟨_, Run.bind Run.look Run.put, ExtBut.upd, v.ix.map (writeCells v sel val f),
    ⟨ha.lo, ha.hi, ha.dtype, _, by simp [Heap.upd, hf], rfl⟩, ?_, fun hv => ⟨?_, fun i hi => ?_⟩⟩
  · rw [← h2]; rfl
  · rw [← h2]; rfl
  · rw [← h2]
    exact writeCells_get hv sel val f hi

/-- Like `Makes`, up to what is outside the array. -/
def MakesSame (h : Heap L) (m : HM L Nat) (z : Larry L) : Prop := ∃ z', Makes h m z' ∧ z'.Same z

def RefinesSame (h : Heap L) (m : HM L Nat) : Res (Larry L) → Prop
  | .ok z => MakesSame h m z
  | .error e => m.out h = .error e

theorem Larry.Same.trans' {y z w : Larry L} (h1 : y.Same z) (h2 : z.Same w) : y.Same w :=
  ⟨h1.1.trans h2.1, h1.2.1.trans h2.2.1, NDArray.Same.trans h1.2.2 h2.2.2⟩

/-- A copy has an array of its own. -/
theorem hCopy_inj (ho : ObjAt h b p o y) : ∃ q h', Run h (hCopy p) q h' ∧ Ext h.next h h' ∧
    ∃ o, ObjAt h' h.next q o y ∧ o.x.Inj := by
  obtain ⟨q, h1, r1, e1, o1, ho1⟩ := hCopy_makes ho
  refine ⟨q, h1, r1, e1, o1, ho1, ?_⟩
  obtain ⟨label, h2, r2, e2, hl⟩ := copylabel_run (h := h) ho.label
  have h3 : Run h (hCopy p) _ _ := Run.bind (Run.getObj ho.cell) (Run.bind r2 (Run.bind Run.look
    (Run.bind (Run.bind Run.alloc Run.pure) Run.alloc)))
  have hq := r1.1.symm.trans h3.1
  have hh := r1.2.symm.trans h3.2
  simp only [Except.ok.injEq] at hq
  have hc := ho1.cell
  rw [hh, hq] at hc
  simp only [Heap.push, if_true, Option.some.injEq, HCell.obj.injEq] at hc
  rw [← hc]
  intro i j _ _ hij
  exact hij

theorem ObjAt.rewrite {h' : Heap L} {q : Nat} {z : Larry L} {x' : NDArray Val} (ho : ObjAt h b q o z)
    (e : ExtBut o.x.buf h h') (ha : ArrayAt h' b o.x x' z.dtype) : ObjAt h' b q o ⟨x', z.dtype, z.label⟩ := by
  obtain ⟨f, hf, -⟩ := ho.array.data
  refine ⟨ho.lo, lt_of_lt_of_le ho.hi e.le, ?_, ha, ?_⟩
  · rw [e.same _ ho.hi (fun hn => by have := ho.cell; rw [hn, hf] at this; simp at this), ho.cell]
  · refine ho.label.pres (le_refl _) e.le (fun as has => ?_) (fun a l ha hal => ?_)
    · rw [e.same _ ho.label.hi (fun hn => by rw [hn, hf] at has; simp at has), has]
    · rw [e.same _ ha (fun hn => by rw [hn, hf] at hal; simp at hal), hal]

theorem hCopyWrite_refines (f : Larry L → Res (NDArray Val)) (ho : ObjAt h b p o y) :
    RefinesSame h (hCopyWrite f p)
      (match f y with | .error e => .error e | .ok x => .ok ⟨⟨y.x.shape, x.get⟩, y.dtype, y.label⟩) := by
  obtain ⟨q, h1, r1, e1, o1, ho1, hinj⟩ := hCopy_inj ho
  cases hf : f y with
  | error e =>
    refine Run.raises r1 (Run.raises (Run.getObj ho1.cell) (Run.raises Run.look (HM.raises_left ?_)))
    rw [ho1.value]
    exact hf
  | ok x =>
    obtain ⟨h2, r2, e2, x', ha2, hsh, hs⟩ := writeWhere_run ho1.array (fun _ => true) x.get
    have hv : Run h1 (HM.lift (f (h1.value o1))) x h1 := Run.lift (by rw [ho1.value]; exact hf)
    refine ⟨⟨x', y.dtype, y.label⟩, ⟨q, h2, Run.bind r1 (Run.bind (Run.getObj ho1.cell) (Run.bind Run.look
      (Run.bind hv (Run.bind r2 Run.pure)))), e1.trans (e2.ext ho1.array.lo e1.le) (le_refl _), o1, ho1.rewrite e2 ha2⟩,
      rfl, rfl, (hs hinj).1, fun i hi => (hs hinj).2 i hi⟩

/-- What an in-place operation on a larry does: the buffer of the larry is the only thing that changes. -/
theorem hInPlace_run (f : Larry L → Res (Larry L)) (ho : ObjAt h b p o y) :
    match f y with
    | .error e => (hInPlace f p).out h = .error e ∧ (hInPlace f p).after h = h
    | .ok z => ∃ h', Run h (hInPlace f p) () h' ∧ ExtBut o.x.buf h h' ∧ ∃ x', ObjAt h' b p o ⟨x', y.dtype, y.label⟩ ∧
        (o.x.Inj → x'.Same ⟨y.x.shape, z.x.get⟩) := by
  cases hf : f y with
  | error e =>
    have hl : (HM.lift (f (h.value o)) : HM L _).out h = .error e := by rw [ho.value]; exact hf
    have hh := Run.getObj ho.cell
    constructor
    · exact Run.raises hh (Run.raises Run.look (HM.raises_left hl))
    · unfold hInPlace
      rw [(HM.bind_ok hh.1).2, hh.2, (HM.bind_ok (m := HM.look _) rfl).2]
      exact (HM.bind_error hl).2
  | ok z =>
    obtain ⟨h2, r2, e2, x', ha2, hsh, hs⟩ := writeWhere_run ho.array (fun _ => true) z.x.get
    have hv : Run h (HM.lift (f (h.value o))) z h := Run.lift (by rw [ho.value]; exact hf)
    exact ⟨h2, Run.bind (Run.getObj ho.cell) (Run.bind Run.look (Run.bind hv r2)), e2, x', ho.rewrite e2 ha2, hs⟩

/-! ### keep_x -/

theorem NDArray.Same.map {α β : Type _} {x x' : NDArray α} (hs : x.Same x') (f : α → β) : (x.map f).Same (x'.map f) :=
  ⟨hs.1, fun i hi => congrArg f (hs.2 i hi)⟩

theorem InB_insert {s r : List Nat} {ax k : Nat} (hax : ax < s.length) (hk : k < s.getD ax 0)
    (hr : InB (s.eraseIdx ax) r) : InB s (r.insertIdx ax k) := by
  have hs : s = (s.eraseIdx ax).insertIdx ax (s.getD ax 0) := by
    rw [List.getD_eq_getElem?_getD, List.getElem?_eq_getElem hax, Option.getD_some, List.insertIdx_eraseIdx_getElem hax]
  have hlen : r.length = (s.eraseIdx ax).length := InB_length hr
  rw [List.length_eraseIdx_of_lt hax] at hlen
  have hle : ax ≤ r.length := by omega
  rw [hs, InB_insertIdx (by rw [List.length_eraseIdx_of_lt hax]; omega)]
  refine ⟨?_, ?_, ?_⟩
  · rw [List.getD_eq_getElem?_getD, List.getElem?_insertIdx_self]
    simpa [hle] using hk
  · rw [List.length_insertIdx_of_le_length hle]; omega
  · rw [List.eraseIdx_insertIdx_self]; exact hr

theorem NDArray.Same.reduceLast {α : Type _} {x x' : NDArray α} (hs : x.Same x') (f : List α → α) (hn : 0 < x.ndim) :
    (x.reduceLast f).Same (x'.reduceLast f) := by
  have hnd : x'.ndim = x.ndim := by unfold NDArray.ndim; rw [hs.1]
  unfold NDArray.reduceLast
  rw [hnd]
  refine ⟨?_, fun idx hi => ?_⟩
  · unfold NDArray.reduceAx
    dsimp only
    rw [hs.1]
  · unfold NDArray.reduceAx NDArray.line
    dsimp only
    rw [← hs.1]
    congr 1
    refine List.map_congr_left (fun k hk => hs.2 _ (InB_insert ?_ (List.mem_range.mp hk) hi))
    unfold NDArray.ndim at hn ⊢
    omega

theorem NDArray.Same.reduceLastN {α : Type _} (f : List α → α) : ∀ (k : Nat) {x x' : NDArray α}, x.Same x' → k ≤ x.ndim →
    (NDArray.reduceLastN f k x).Same (NDArray.reduceLastN f k x')
  | 0, _, _, hs, _ => hs
  | k + 1, x, x', hs, hk => by
    refine NDArray.Same.reduceLastN f k (hs.reduceLast f (by omega)) ?_
    unfold NDArray.reduceLast NDArray.reduceAx NDArray.ndim
    dsimp only
    unfold NDArray.ndim at hk
    rw [List.length_eraseIdx_of_lt (by omega)]
    omega

theorem NDArray.Same.rollFront {α : Type _} {x x' : NDArray α} (hs : x.Same x') {ax : Nat} (hax : ax < x.ndim) :
    (x.rollFront ax).Same (x'.rollFront ax) := by
  refine ⟨?_, fun idx hi => ?_⟩
  · unfold NDArray.rollFront
    dsimp only
    rw [hs.1]
  · cases idx with
    | nil => exact absurd hi (by unfold NDArray.rollFront; simp [InB])
    | cons k r => exact hs.2 _ (InB_insert hax hi.1 hi.2)

theorem reduceLastN_shape {α : Type _} (f : List α → α) : ∀ (s : List Nat) (n : Nat) (g : List Nat → α),
    (NDArray.reduceLastN f s.length ⟨n :: s, g⟩).shape = [n] := by
  intro s
  induction s using List.reverseRecOn with
  | nil => intro n g; rfl
  | append_singleton s m ih =>
    intro n g
    rw [List.length_append, List.length_singleton]
    unfold NDArray.reduceLastN NDArray.reduceLast NDArray.reduceAx
    have : (n :: (s ++ [m])).eraseIdx (NDArray.ndim (⟨n :: (s ++ [m]), g⟩ : NDArray α) - 1) = n :: s := by
      unfold NDArray.ndim
      simp [List.eraseIdx_append_of_length_le]
    simp only [this]
    exact ih n _

theorem NDArray.Same.nonzero1 {x x' : NDArray Bool} (hs : x.Same x') {n : Nat} (hsh : x.shape = [n]) :
    x.nonzero1 = x'.nonzero1 := by
  unfold NDArray.nonzero1
  rw [← hs.1]
  refine List.filter_congr (fun i hi => ?_)
  rw [hsh] at hi
  exact hs.2 [i] (by rw [hsh]; exact ⟨List.mem_range.mp hi, trivial⟩)

theorem NDArray.Same.grid {α : Type _} {x x' : NDArray α} (hs : x.Same x') {ids : List (List Nat)}
    (hids : List.Forall₂ (fun n is => ∀ i ∈ is, i < n) x.shape ids) : (x.grid ids).Same (x'.grid ids) := by
  refine ⟨rfl, fun idx hi => hs.2 _ ?_⟩
  replace hi : InB (ids.map List.length) idx := hi
  clear hs
  change InB x.shape (List.zipWith (fun l i => l.getD i 0) ids idx)
  generalize x.shape = s at hids
  induction hids generalizing idx with
  | nil => cases idx <;> simp_all [InB]
  | cons h1 _ ih =>
    cases idx with
    | nil => simp [InB] at hi
    | cons k r =>
      refine ⟨?_, ih r hi.2⟩
      have hk : k < _ := hi.1
      change List.getD _ k 0 < _
      rw [List.getD_eq_getElem?_getD, List.getElem?_eq_getElem hk, Option.getD_some]
      exact h1 _ (List.getElem_mem _)

theorem mapRes_congr {α β : Type _} {f g : α → Res β} : ∀ {l : List α}, (∀ a ∈ l, f a = g a) → mapRes f l = mapRes g l
  | [], _ => rfl
  | a :: l, hfg => by
    unfold mapRes
    rw [hfg a (List.mem_cons_self ..), mapRes_congr (fun a ha => hfg a (List.mem_cons_of_mem _ ha))]

/-- `vacuum` looks inside the array only. -/
theorem vacuumAxis_same {z : Larry L} (hs : y.Same z) {axes : List Nat} {ax : Nat} (hax : ax < y.ndim) :
    y.vacuumAxis axes ax = z.vacuumAxis axes ax := by
  have hsh : y.shape = z.shape := hs.2.2.1
  have hnd : y.ndim = z.ndim := by unfold Larry.ndim NDArray.ndim; rw [hs.2.2.1]
  unfold Larry.vacuumAxis
  split
  · rw [hsh]
  · rw [← hs.2.1]
    unfold npIsfinite
    cases y.dtype <;> try rfl
    all_goals
      dsimp only
      rw [← hnd]
      congr 1
      have h1 := (hs.2.2.map Val.isFin).rollFront (ax := ax) hax
      refine NDArray.Same.nonzero1 (n := y.shape.getD ax 0)
        (NDArray.Same.reduceLastN _ _ h1 ?_) ?_
      · unfold NDArray.rollFront NDArray.ndim NDArray.map
        dsimp only
        unfold Larry.ndim NDArray.ndim at hax ⊢
        rw [List.length_cons, List.length_eraseIdx_of_lt hax]
        omega
      · have : y.ndim - 1 = (y.x.shape.eraseIdx ax).length := by
          unfold Larry.ndim NDArray.ndim at hax ⊢
          rw [List.length_eraseIdx_of_lt hax]
        rw [this]
        exact reduceLastN_shape _ _ _ _

theorem vacuumAxis_range {axes : List Nat} {ax : Nat} (hax : ax < y.ndim) {is : List Nat}
    (his : y.vacuumAxis axes ax = .ok is) : ∀ i ∈ is, i < y.shape.getD ax 0 := by
  unfold Larry.vacuumAxis at his
  split at his
  · cases his
    exact fun i hi => List.mem_range.mp hi
  · split at his
    · simp at his
    · rename_i bb hb
      cases his
      intro i hi
      unfold NDArray.nonzero1 at hi
      have h1 := List.mem_range.mp (List.mem_filter.mp hi).1
      have hbs : bb.shape = y.x.shape := by
        unfold npIsfinite at hb
        split at hb <;> simp at hb
        rw [← hb]; rfl
      have : y.ndim - 1 = (bb.shape.eraseIdx ax).length := by
        unfold Larry.ndim NDArray.ndim at hax ⊢
        rw [hbs, List.length_eraseIdx_of_lt hax]
      rw [this] at h1
      unfold NDArray.rollFront at h1
      rw [reduceLastN_shape] at h1
      rw [hbs] at h1
      exact h1

theorem vacuum_same {z : Larry L} (hs : y.Same z) (axis : Option (List Int)) :
    match y.vacuum axis, z.vacuum axis with
    | .ok u, .ok w => u.Same w
    | .error e, .error e' => e = e'
    | _, _ => False := by
  have hnd : y.ndim = z.ndim := by unfold Larry.ndim NDArray.ndim; rw [hs.2.2.1]
  have hm : mapRes (y.vacuumAxis (Larry.vacuumAxes y.ndim axis)) (List.range y.ndim) =
      mapRes (z.vacuumAxis (Larry.vacuumAxes z.ndim axis)) (List.range z.ndim) := by
    rw [← hnd]
    refine mapRes_congr (fun ax hax => vacuumAxis_same hs (List.mem_range.mp hax))
  unfold Larry.vacuum
  rw [← hm]
  cases hr : mapRes (y.vacuumAxis (Larry.vacuumAxes y.ndim axis)) (List.range y.ndim) with
  | error e => rfl
  | ok ids =>
    refine ⟨?_, hs.2.1, hs.2.2.grid ?_⟩
    · dsimp only
      unfold Larry.keptLab
      rw [hs.1]
    · have hf := mapRes_ok.mp hr
      rw [List.forall₂_iff_get]
      refine ⟨by have := hf.length_eq; rw [List.length_range] at this; exact this, fun k h1 h2 => ?_⟩
      have := (List.forall₂_iff_get.mp hf).2 k (by rw [List.length_range]; exact h1) h2
      simp only [List.get_eq_getElem, List.getElem_range] at this ⊢
      have h3 := vacuumAxis_range h1 this
      unfold Larry.shape at h3
      rw [List.getD_eq_getElem?_getD, List.getElem?_eq_getElem h1] at h3
      exact h3

theorem hKeepX_refines (op : CmpOp) (value : Flt) (vac : Bool) (ho : ObjAt h b p o y) (hf : y.Fits) :
    RefinesSame h (hKeepX op value vac p) (y.keepX op value vac) := by
  unfold Larry.keepX
  have hv := Run.value ho
  by_cases h1 : vac = true ∧ y.ndim ≠ 2
  · rw [if_pos h1]
    refine Run.raises hv (HM.raises_left ?_)
    rw [if_pos h1]; rfl
  rw [if_neg h1]
  by_cases h2 : op = .unknown
  · rw [if_pos h2]
    refine Run.raises hv (HM.raises_left ?_)
    rw [if_neg h1, if_pos h2]; rfl
  rw [if_neg h2]
  cases h3 : Larry.nanAs y.dtype with
  | error e =>
    refine Run.raises hv (HM.raises_left ?_)
    rw [if_neg h1, if_neg h2]; exact h3
  | ok w =>
    have hw : Run h (HM.lift (if vac = true ∧ y.ndim ≠ 2 then .error .valueError
        else if op = .unknown then .error .valueError else Larry.nanAs y.dtype)) w h :=
      Run.lift (by rw [if_neg h1, if_neg h2]; exact h3)
    obtain ⟨z, ⟨q, h4, r4, e4, o4, ho4⟩, hs⟩ := hCopyWrite_refines
      (fun y => .ok (y.x.map (fun v => if op.test v.num value then v else w))) ho
    have hs' : z.Same { y with x := y.x.map (fun v => if op.test v.num value then v else w) } := hs
    dsimp only
    cases vac with
    | false => exact ⟨z, ⟨q, h4, Run.bind hv (Run.bind hw (Run.bind r4 Run.pure)), e4, o4, ho4⟩, hs'⟩
    | true =>
      have hfz : z.Fits := by
        unfold Larry.Fits Larry.shape at hf ⊢
        rw [hs'.1, hs'.2.2.1]
        exact hf
      have hr := hVacuum_refines none ho4 hfz
      have hvs := vacuum_same hs' none
      simp only [if_true]
      cases hz : z.vacuum none with
      | error e =>
        rw [hz] at hvs hr
        cases hz2 : Larry.vacuum { y with x := y.x.map (fun v => if op.test v.num value then v else w) } none with
        | error e' =>
          rw [hz2] at hvs
          have : e = e' := hvs
          subst this
          exact Run.raises hv (Run.raises hw (Run.raises r4 hr))
        | ok u => rw [hz2] at hvs; exact hvs.elim
      | ok u =>
        rw [hz] at hvs hr
        cases hz2 : Larry.vacuum { y with x := y.x.map (fun v => if op.test v.num value then v else w) } none with
        | error e' => rw [hz2] at hvs; exact hvs.elim
        | ok u' =>
          rw [hz2] at hvs
          obtain ⟨q5, h5, r5, e5, o5, ho5⟩ := hr
          exact ⟨u, ⟨q5, h5, Run.bind hv (Run.bind hw (Run.bind r4 r5)), e4.trans e5 e4.le, o5, ho5.weaken e4.le⟩, hvs⟩

/-! ### binaryop -/

/-- `h'` has all that `h` has, except at `c` and `d`. -/
structure ExtBut2 (c d : Nat) (h h' : Heap L) : Prop where
  le : h.next ≤ h'.next
  same : ∀ a < h.next, a ≠ c → a ≠ d → h'.cell a = h.cell a

theorem ExtBut2.refl {c d : Nat} : ExtBut2 c d h h := ⟨le_refl _, fun _ _ _ _ => rfl⟩

theorem ExtBut2.trans {c d : Nat} {h1 h2 h3 : Heap L} (e1 : ExtBut2 c d h1 h2) (e2 : ExtBut2 c d h2 h3) :
    ExtBut2 c d h1 h3 :=
  ⟨e1.le.trans e2.le, fun a ha hc hd => by rw [e2.same a (lt_of_lt_of_le ha e1.le) hc hd, e1.same a ha hc hd]⟩

theorem ExtBut.left {c d : Nat} {h' : Heap L} (e : ExtBut c h h') : ExtBut2 c d h h' :=
  ⟨e.le, fun a ha hc _ => e.same a ha hc⟩

theorem ExtBut.right {c d : Nat} {h' : Heap L} (e : ExtBut d h h') : ExtBut2 c d h h' :=
  ⟨e.le, fun a ha _ hd => e.same a ha hd⟩

theorem ExtBut.array_ne {c : Nat} {h' : Heap L} (e : ExtBut c h h') {v : View} {x : NDArray Val} {d : DType}
    (ha : ArrayAt h b v x d) (hne : v.buf ≠ c) : ArrayAt h' b v x d :=
  ha.pres (le_refl _) e.le (fun f hf => by rw [e.same _ ha.hi hne, hf])

theorem writeAt_same {x x' : NDArray Val} (hs : x.Same x') {s s' : List Nat → Bool} (hss : ∀ i, InB x.shape i → s i = s' i)
    (w : Val) : (writeAt x s (fun _ => w)).Same (writeAt x' s' (fun _ => w)) := by
  refine ⟨hs.1, fun i hi => ?_⟩
  have hi' : InB x.shape i := hi
  unfold writeAt
  dsimp only
  rw [hss i hi', hs.2 i hi']

/-- After a fill of two arrays that share no cell. -/
theorem hFillOne_run (cv : DType → Val → Val) (miss : Option Val) {v1 v2 : View} {x1 x2 : NDArray Val} {d1 d2 : DType}
    (s1 s2 : List Nat → Bool) (h1 : ArrayAt h b v1 x1 d1) (h2 : ArrayAt h b v2 x2 d2) (hne : v1.buf ≠ v2.buf)
    (i1 : v1.Inj) (i2 : v2.Inj) :
    ∃ h', Run h (hFillOne cv miss v1 v2 s1 s2) () h' ∧ ExtBut2 v1.buf v2.buf h h' ∧ ∃ x1' x2', ArrayAt h' b v1 x1' d1 ∧
      ArrayAt h' b v2 x2' d2 ∧
      x1'.Same (match miss with | none => x1 | some w => writeAt x1 s1 (fun _ => cv d1 w)) ∧
      x2'.Same (match miss with | none => x2 | some w => writeAt x2 s2 (fun _ => cv d2 w)) := by
  cases miss with
  | none => exact ⟨h, Run.pure, ExtBut2.refl, x1, x2, h1, h2, NDArray.Same.refl _, NDArray.Same.refl _⟩
  | some w =>
    obtain ⟨ha, ra, ea, xa, a1, -, sa⟩ := writeWhere_run h1 s1 (fun _ => cv v1.dtype w)
    obtain ⟨hb, rb, eb, xb, b2, -, sb⟩ := writeWhere_run (ea.array_ne h2 hne.symm) s2 (fun _ => cv v2.dtype w)
    refine ⟨hb, Run.bind ra rb, ea.left.trans eb.right, xa, xb, eb.array_ne a1 hne, b2, ?_, ?_⟩
    · rw [← h1.dtype]; exact sa i1
    · rw [← h2.dtype]; exact sb i2

/-- Without any assumption on the arrays, nothing else changes. -/
theorem hFillOne_frame (cv : DType → Val → Val) (miss : Option Val) {v1 v2 : View} {x1 x2 : NDArray Val} {d1 d2 : DType}
    (s1 s2 : List Nat → Bool) (h1 : ArrayAt h b v1 x1 d1) (h2 : ArrayAt h b v2 x2 d2) :
    ∃ h', Run h (hFillOne cv miss v1 v2 s1 s2) () h' ∧ ExtBut2 v1.buf v2.buf h h' ∧ ∃ x1' x2', ArrayAt h' b v1 x1' d1 ∧
      ArrayAt h' b v2 x2' d2 := by
  cases miss with
  | none => exact ⟨h, Run.pure, ExtBut2.refl, x1, x2, h1, h2⟩
  | some w =>
    have keep : ∀ {g g' : Heap L} {u v : View} {x x' : NDArray Val} {d d' : DType}, ExtBut u.buf g g' →
        ArrayAt g' b u x' d' → ArrayAt g b v x d → ∃ x'', ArrayAt g' b v x'' d := by
      intro g g' u v x x' d d' e hu hv
      by_cases hne : v.buf = u.buf
      · obtain ⟨f, hf, -⟩ := hu.data
        exact ⟨_, hv.lo, lt_of_lt_of_le hv.hi e.le, hv.dtype, f, by rw [hne]; exact hf, rfl⟩
      · exact ⟨x, e.array_ne hv hne⟩
    obtain ⟨ha, ra, ea, xa, a1, -, -⟩ := writeWhere_run h1 s1 (fun _ => cv v1.dtype w)
    obtain ⟨x2', a2⟩ := keep ea a1 h2
    obtain ⟨hb, rb, eb, xb, b2, -, -⟩ := writeWhere_run a2 s2 (fun _ => cv v2.dtype w)
    obtain ⟨x1', b1⟩ := keep eb b2 a1
    exact ⟨hb, Run.bind ra rb, ea.left.trans eb.right, x1', xb, b1, b2⟩

theorem hFill_frame (cv : DType → Val → Val) (missone misstwo : Option Val) {v1 v2 : View} {x1 x2 : NDArray Val}
    {d1 d2 : DType} (h1 : ArrayAt h b v1 x1 d1) (h2 : ArrayAt h b v2 x2 d2) :
    ∃ h', Run h (hFill cv missone misstwo v1 v2) () h' ∧ ExtBut2 v1.buf v2.buf h h' ∧ ∃ x1' x2', ArrayAt h' b v1 x1' d1 ∧
      ArrayAt h' b v2 x2' d2 := by
  obtain ⟨ha, ra, ea, xa1, xa2, a1, a2⟩ := hFillOne_frame cv missone
    (fun i => isMissingVal v1.dtype ((h.array v1).get i) && !isMissingVal v2.dtype ((h.array v2).get i))
    (fun i => isMissingVal v2.dtype ((h.array v2).get i) && !isMissingVal v1.dtype ((h.array v1).get i)) h1 h2
  obtain ⟨hb, rb, eb, xb1, xb2, b1, b2⟩ := hFillOne_frame cv misstwo
    (fun i => isMissingVal v1.dtype ((h.array v1).get i) && isMissingVal v2.dtype ((h.array v2).get i))
    (fun i => isMissingVal v1.dtype ((h.array v1).get i) && isMissingVal v2.dtype ((h.array v2).get i)) a1 a2
  exact ⟨hb, Run.bind Run.look (Run.bind Run.look (Run.bind ra rb)), ea.trans eb, xb1, xb2, b1, b2⟩

/-- After the fills of `binaryop`. -/
theorem hFill_run (cv : DType → Val → Val) (missone misstwo : Option Val) {v1 v2 : View} {s : AlignSt}
    (h1 : ArrayAt h b v1 s.x1 s.d1) (h2 : ArrayAt h b v2 s.x2 s.d2) (hne : v1.buf ≠ v2.buf) (i1 : v1.Inj) (i2 : v2.Inj) :
    ∃ h', Run h (hFill cv missone misstwo v1 v2) () h' ∧ ExtBut2 v1.buf v2.buf h h' ∧ ∃ x1' x2', ArrayAt h' b v1 x1' s.d1 ∧
      ArrayAt h' b v2 x2' s.d2 ∧ x1'.Same (fillMiss cv missone misstwo s).x1 ∧
      x2'.Same (fillMiss cv missone misstwo s).x2 := by
  obtain ⟨ha, ra, ea, xa1, xa2, a1, a2, sa1, sa2⟩ := hFillOne_run cv missone
    (fun i => isMissingVal v1.dtype ((h.array v1).get i) && !isMissingVal v2.dtype ((h.array v2).get i))
    (fun i => isMissingVal v2.dtype ((h.array v2).get i) && !isMissingVal v1.dtype ((h.array v1).get i)) h1 h2 hne i1 i2
  obtain ⟨hb, rb, eb, xb1, xb2, b1, b2, sb1, sb2⟩ := hFillOne_run cv misstwo
    (fun i => isMissingVal v1.dtype ((h.array v1).get i) && isMissingVal v2.dtype ((h.array v2).get i))
    (fun i => isMissingVal v1.dtype ((h.array v1).get i) && isMissingVal v2.dtype ((h.array v2).get i)) a1 a2 hne i1 i2
  refine ⟨hb, Run.bind Run.look (Run.bind Run.look (Run.bind ra rb)), ea.trans eb, xb1, xb2, b1, b2, ?_, ?_⟩
  · refine NDArray.Same.trans sb1 ?_
    rw [h1.get, h2.get, h1.dtype, h2.dtype] at sa1 ⊢
    cases missone <;> cases misstwo
    · exact sa1
    · exact writeAt_same sa1 (fun _ _ => rfl) _
    · exact sa1
    · exact writeAt_same sa1 (fun _ _ => rfl) _
  · refine NDArray.Same.trans sb2 ?_
    rw [h1.get, h2.get, h1.dtype, h2.dtype] at sa2 ⊢
    cases missone <;> cases misstwo
    · exact sa2
    · exact writeAt_same sa2 (fun _ _ => rfl) _
    · exact sa2
    · exact writeAt_same sa2 (fun _ _ => rfl) _

theorem fillMiss_shape (cv : DType → Val → Val) (missone misstwo : Option Val) (s : AlignSt) :
    (fillMiss cv missone misstwo s).x1.shape = s.x1.shape ∧ (fillMiss cv missone misstwo s).x2.shape = s.x2.shape ∧
    (fillMiss cv missone misstwo s).d1 = s.d1 ∧ (fillMiss cv missone misstwo s).d2 = s.d2 := by
  cases missone <;> cases misstwo <;> exact ⟨rfl, rfl, rfl, rfl⟩

theorem npBinop_congr {uf : UFunc2} {x1 x2 y1 y2 : NDArray Val} {d1 d2 : DType} (h1 : x1.Same y1) (h2 : x2.Same y2)
    (hs : y1.shape = y2.shape) :
    match npBinop uf y1 d1 y2 d2 with
    | .error e => npBinop uf x1 d1 x2 d2 = .error e
    | .ok (z, d) => ∃ z', npBinop uf x1 d1 x2 d2 = .ok (z', d) ∧ z'.Same z := by
  have hx : x1.shape = x2.shape := by rw [h1.1, h2.1, hs]
  unfold npBinop
  cases uf.dt d1 d2 with
  | error e => rfl
  | ok d =>
    rw [← hs, ← hx, broadcastShape_self, broadcastShape_self]
    refine ⟨_, rfl, h1.1, fun i hi => ?_⟩
    have hi1 : InB x1.shape i := hi
    dsimp only
    rw [bget_inB x1 hi1, bget_inB x2 (hx ▸ hi1), bget_inB y1 (h1.1 ▸ hi1), bget_inB y2 (h2.1 ▸ hx ▸ hi1),
      h1.2 i hi1, h2.2 i (hx ▸ hi1)]

section order
variable [LinearOrder L]

/-- `binaryop` on references: the fills reach the array of a larry only if the alignment left it alone. -/
theorem hBinaryop_run (cv : DType → Val → Val) (uf : UFunc2) (join : JoinArg) (cast : Bool) (missone misstwo : Option Val)
    {r : Nat} {o' : Obj} {lar : Larry L} (ho : ObjAt h 0 p o y) (ho' : ObjAt h 0 r o' lar)
    (hc : (missone = none ∧ misstwo = none) ∨ (o.x.buf ≠ o'.x.buf ∧ o.x.Inj ∧ o'.x.Inj)) :
    match alignRaw y lar join cast with
    | .error e => (hBinaryop cv uf join cast missone misstwo p r).out h = .error e
    | .ok (s, labs) =>
      if (missone.isSome || misstwo.isSome) && s.x1.shape != s.x2.shape then
        (hBinaryop cv uf join cast missone misstwo p r).out h = .error .valueError
      else match npBinop uf (fillMiss cv missone misstwo s).x1 s.d1 (fillMiss cv missone misstwo s).x2 s.d2 with
        | .error e => (hBinaryop cv uf join cast missone misstwo p r).out h = .error e
        | .ok (x, d) => ∃ q h', Run h (hBinaryop cv uf join cast missone misstwo p r) q h' ∧ h.next ≤ h'.next ∧
            (∀ a < h.next, (a = o.x.buf → s.v1 = false ∨ (missone = none ∧ misstwo = none)) →
              (a = o'.x.buf → s.v2 = false ∨ (missone = none ∧ misstwo = none)) → h'.cell a = h.cell a) ∧
            (∃ oq z, ObjAt h' h.next q oq z ∧ z.Same ⟨x, d, labs.map (fun l => l.getD [])⟩) ∧
            (s.v1 = true → ∃ x1, ArrayAt h' 0 o.x x1 s.d1 ∧ x1.Same (fillMiss cv missone misstwo s).x1) ∧
            (s.v2 = true → ∃ x2, ArrayAt h' 0 o'.x x2 s.d2 ∧ x2.Same (fillMiss cv missone misstwo s).x2) := by
  have hal := hAlignRaw_run join cast ho ho'
  cases hs : alignRaw y lar join cast with
  | error e =>
    rw [hs] at hal
    exact HM.raises_left hal
  | ok t =>
    obtain ⟨s, labs⟩ := t
    rw [hs] at hal
    obtain ⟨v1, v2, ha, ra, ea, a1, a2, n1, n2, k1, k2, j1, j2, hd⟩ := hal
    have hsh : v1.ix.shape = s.x1.shape ∧ v2.ix.shape = s.x2.shape := ⟨a1.shape, a2.shape⟩
    dsimp only
    by_cases hg : ((missone.isSome || misstwo.isSome) && s.x1.shape != s.x2.shape) = true
    · rw [if_pos hg]
      refine Run.raises ra ?_
      rw [hsh.1, hsh.2, if_pos hg]
      rfl
    · rw [if_neg hg]
      obtain ⟨hb, rb, eb, x1, x2, b1, b2, s1, s2⟩ : ∃ h', Run ha (hFill cv missone misstwo v1 v2) () h' ∧
          ExtBut2 v1.buf v2.buf ha h' ∧ ∃ x1' x2', ArrayAt h' 0 v1 x1' s.d1 ∧ ArrayAt h' 0 v2 x2' s.d2 ∧
          x1'.Same (fillMiss cv missone misstwo s).x1 ∧ x2'.Same (fillMiss cv missone misstwo s).x2 := by
        rcases hc with ⟨rfl, rfl⟩ | ⟨hne, i1, i2⟩
        · exact ⟨ha, ⟨rfl, rfl⟩, ⟨le_refl _, fun _ _ _ _ => rfl⟩, s.x1, s.x2, a1, a2, NDArray.Same.refl _, NDArray.Same.refl _⟩
        · exact hFill_run cv missone misstwo a1 a2 (hd hne) (j1 i1) (j2 i2)
      -- without fills nothing is written
      have hnone : missone = none ∧ misstwo = none → hb = ha := by
        rintro ⟨rfl, rfl⟩
        rw [← rb.2]
        rfl
      -- the function sees the filled arrays
      have hop : match npBinop uf (fillMiss cv missone misstwo s).x1 s.d1 (fillMiss cv missone misstwo s).x2 s.d2 with
          | .error e => npBinop uf x1 s.d1 x2 s.d2 = .error e
          | .ok (z, d) => ∃ z', npBinop uf x1 s.d1 x2 s.d2 = .ok (z', d) ∧ z'.Same z := by
        by_cases hm : missone = none ∧ misstwo = none
        · have hba := hnone hm
          obtain ⟨rfl, rfl⟩ := hm
          have e1 : x1 = s.x1 := by rw [← b1.get, hba, a1.get]
          have e2 : x2 = s.x2 := by rw [← b2.get, hba, a2.get]
          rw [e1, e2]
          change match npBinop uf s.x1 s.d1 s.x2 s.d2 with
            | .error e => npBinop uf s.x1 s.d1 s.x2 s.d2 = .error e
            | .ok (z, d) => ∃ z', npBinop uf s.x1 s.d1 s.x2 s.d2 = .ok (z', d) ∧ z'.Same z
          cases npBinop uf s.x1 s.d1 s.x2 s.d2 with
          | error e => rfl
          | ok t => exact ⟨_, rfl, NDArray.Same.refl _⟩
        · refine npBinop_congr s1 s2 ?_
          rw [(fillMiss_shape cv missone misstwo s).1, (fillMiss_shape cv missone misstwo s).2.1]
          have hsome : (missone.isSome || misstwo.isSome) = true := by
            cases missone <;> cases misstwo <;> simp_all
          rw [hsome] at hg
          simpa using hg
      have hv : Run hb (HM.look (fun h => h.array v1)) x1 hb := by
        have := Run.look (h := hb) (f := fun h => h.array v1)
        rwa [b1.get] at this
      have hv' : Run hb (HM.look (fun h => h.array v2)) x2 hb := by
        have := Run.look (h := hb) (f := fun h => h.array v2)
        rwa [b2.get] at this
      cases hn : npBinop uf (fillMiss cv missone misstwo s).x1 s.d1 (fillMiss cv missone misstwo s).x2 s.d2 with
      | error e =>
        rw [hn] at hop
        refine Run.raises ra ?_
        rw [hsh.1, hsh.2, if_neg hg]
        refine Run.raises rb (Run.raises hv (Run.raises hv' (HM.raises_left ?_)))
        rw [b1.dtype, b2.dtype]
        exact hop
      | ok t =>
        obtain ⟨x, d⟩ := t
        rw [hn] at hop
        obtain ⟨z', hz, hzs⟩ := hop
        obtain ⟨v, hc, rc, ec, c1⟩ := newArray_run (h := hb) z' d
        obtain ⟨as, hd1, label, hd2, rd1, rd2, ed, hl⟩ := newLabel_run (h := hc) (labs.map (fun l => l.getD []))
        have hbase : h.next ≤ hb.next := ea.le.trans eb.le
        obtain ⟨q, he, re, ee, hq⟩ := newLarry_run (h := hd2) (b := h.next) ((c1.ext ed).ext Ext.refl hbase)
          (hl.ext Ext.refl (hbase.trans ec.le)) ((hbase.trans ec.le).trans ed.le)
        have hup : Ext hb.next hb he := (ec.trans ed ec.le).trans ee (ec.le.trans ed.le)
        refine ⟨q, he, Run.bind ra ?_, hbase.trans hup.le, ?_, ⟨_, _, hq, rfl, rfl, hzs⟩, ?_, ?_⟩
        · rw [hsh.1, hsh.2, if_neg hg]
          refine Run.bind rb (Run.bind hv (Run.bind hv' (Run.bind (Run.lift (v := (z', d)) ?_) (Run.bind rc (Run.bind rd1 (Run.bind rd2 re))))))
          rw [b1.dtype, b2.dtype]
          exact hz
        · intro a ha1 hw1 hw2
          rw [hup.same a (lt_of_lt_of_le ha1 hbase)]
          by_cases hm : missone = none ∧ misstwo = none
          · rw [hnone hm, ea.same a ha1]
          · rw [eb.same a (lt_of_lt_of_le ha1 ea.le) ?_ ?_, ea.same a ha1]
            · rintro rfl
              cases hf : s.v1 with
              | true =>
                rw [k1 hf] at hw1
                have := hw1 rfl
                rw [hf] at this
                simp [hm] at this
              | false => have := n1 hf; omega
            · rintro rfl
              cases hf : s.v2 with
              | true =>
                rw [k2 hf] at hw2
                have := hw2 rfl
                rw [hf] at this
                simp [hm] at this
              | false => have := n2 hf; omega
        · intro hf
          rw [← k1 hf]
          exact ⟨x1, b1.ext hup, s1⟩
        · intro hf
          rw [← k2 hf]
          exact ⟨x2, b2.ext hup, s2⟩

/-! ### merge -/

theorem hMorph_inj {lab : List L} {axis : Int} {z : Larry L} (ho : ObjAt h b p o y) (hz : y.morph lab axis = .ok z) :
    ∃ q h', Run h (hMorph lab axis p) q h' ∧ Ext h.next h h' ∧ ∃ o, ObjAt h' h.next q o z ∧ o.x.Inj := by
  have hlift : (HM.lift ((h.value o).morph lab axis) : HM L _).out h = .ok z := by rw [ho.value]; exact hz
  obtain ⟨ax, hi, hcase⟩ := morph_label hz
  have hax : (pyIdx (h.value o).label.length axis).getD 0 = ax := by rw [ho.value, hi]; rfl
  rcases hcase with ⟨he, rfl⟩ | ⟨hne, hl⟩
  · obtain ⟨q, h1, r1, e1, o1, ho1, hinj⟩ := hCopy_inj ho
    refine ⟨q, h1, Run.bind (Run.getObj ho.cell) (Run.bind Run.look (Run.bind ⟨hlift, rfl⟩ ?_)), e1, o1, ho1, hinj⟩
    dsimp only
    rw [hax, ho.value, if_pos he]
    exact r1
  · obtain ⟨v, h1, r1, e1, ha⟩ := newArray_run (h := h) z.x z.dtype
    obtain ⟨label, h2, r2, e2, hl2⟩ := copylabel_run (ho.label.ext e1)
    have e02 := e1.trans e2 e1.le
    obtain ⟨h3, r3, e3, hl3⟩ := setLab_run (hl2.ext Ext.refl e1.le) e02.le ax lab
    have e03 := e02.trans (e3.ext (e1.le.trans hl2.lo) e02.le) (le_refl _)
    have ha3 : ArrayAt h3 h.next v z.x z.dtype := (ha.ext e2).pres (le_refl _) e3.le (fun f hf => by
      rw [e3.same _ (ha.ext e2).hi (fun hn => by rw [hn, hl2.out.2] at hf; simp at hf), hf])
    obtain ⟨q, h4, r4, e4, ho4⟩ := newLarry_run ha3 hl3 e03.le
    refine ⟨q, h4, Run.bind (Run.getObj ho.cell) (Run.bind Run.look (Run.bind ⟨hlift, rfl⟩ ?_)),
      e03.trans e4 e03.le, _, by rw [← hl] at ho4; exact ho4, newArray_inj r1⟩
    dsimp only
    rw [hax, ho.value, if_neg hne]
    exact Run.bind r1 (Run.bind r2 (Run.bind r3 r4))

theorem hMergeLoop_run : ∀ (axs : List Nat) (h : Heap L) (q1 q2 : Nat) (o1 o2 : Obj) (y1 y2 : Larry L),
    ObjAt h 0 q1 o1 y1 → ObjAt h 0 q2 o2 y2 →
    match mergeLoop axs y1 y2 with
    | .error e => (hMergeLoop axs q1 q2).out h = .error e
    | .ok (z1, z2) => ∃ q1' q2' h' o1' o2', Run h (hMergeLoop axs q1 q2) (q1', q2') h' ∧ Ext h.next h h' ∧
        ObjAt h' 0 q1' o1' z1 ∧ ObjAt h' 0 q2' o2' z2 ∧
        ((q1' = q1 ∧ o1' = o1 ∧ h' = h) ∨ (ObjAt h' h.next q1' o1' z1 ∧ o1'.x.Inj))
  | [], h, q1, q2, o1, o2, y1, y2, ho1, ho2 =>
    ⟨q1, q2, h, o1, o2, Run.pure, Ext.refl, ho1, ho2, Or.inl ⟨rfl, rfl, rfl⟩⟩
  | ax :: rest, h, q1, q2, o1, o2, y1, y2, ho1, ho2 => by
    have v1 := Run.value ho1
    have v2 := Run.value ho2
    unfold mergeLoop
    by_cases hl : y1.label.getD ax [] = y2.label.getD ax []
    · have := hMergeLoop_run rest h q1 q2 o1 o2 y1 y2 ho1 ho2
      dsimp only
      rw [if_pos hl]
      cases hm : mergeLoop rest y1 y2 with
      | error e =>
        rw [hm] at this
        refine Run.raises v1 (Run.raises v2 ?_)
        rw [if_pos hl]
        exact this
      | ok zs =>
        rw [hm] at this
        obtain ⟨q1', q2', h', o1', o2', r, rest'⟩ := this
        refine ⟨q1', q2', h', o1', o2', Run.bind v1 (Run.bind v2 ?_), rest'⟩
        rw [if_pos hl]
        exact r
    · dsimp only
      rw [if_neg hl]
      generalize hlab : pySorted (setUnion (y1.label.getD ax []) (y2.label.getD ax [])) = lab
      cases hm1 : y1.morph lab ax with
      | error e =>
        refine Run.raises v1 (Run.raises v2 ?_)
        rw [if_neg hl, hlab]
        have := hMorph_refines lab ax ho1
        rw [hm1] at this
        exact HM.raises_left this
      | ok w1 =>
        obtain ⟨p1, ha, ra, ea, oa, hoa, ia⟩ := hMorph_inj ho1 hm1
        cases hm2 : y2.morph lab ax with
        | error e =>
          refine Run.raises v1 (Run.raises v2 ?_)
          rw [if_neg hl, hlab]
          have := hMorph_refines lab ax (ho2.ext ea)
          rw [hm2] at this
          exact Run.raises ra (HM.raises_left this)
        | ok w2 =>
          obtain ⟨p2, hb, rb, eb, ob, hob, ib⟩ := hMorph_inj (ho2.ext ea) hm2
          have eab := ea.trans eb ea.le
          have := hMergeLoop_run rest hb p1 p2 oa ob w1 w2 ((hoa.ext eb).weaken (Nat.zero_le _)) (hob.weaken (Nat.zero_le _))
          dsimp only
          cases hm : mergeLoop rest w1 w2 with
          | error e =>
            rw [hm] at this
            refine Run.raises v1 (Run.raises v2 ?_)
            rw [if_neg hl, hlab]
            exact Run.raises ra (Run.raises rb this)
          | ok zs =>
            rw [hm] at this
            obtain ⟨q1', q2', h', o1', o2', r, e', k1, k2, hcase⟩ := this
            refine ⟨q1', q2', h', o1', o2', Run.bind v1 (Run.bind v2 ?_), eab.trans e' eab.le, k1, k2, Or.inr ?_⟩
            · rw [if_neg hl, hlab]
              exact Run.bind ra (Run.bind rb r)
            · rcases hcase with ⟨rfl, rfl, rfl⟩ | ⟨g1, g2⟩
              · refine ⟨?_, ia⟩
                have h1 := k1.value
                have h2 := (hoa.ext eb).value
                rw [h2] at h1
                rw [← h1]
                exact hoa.ext eb
              · exact ⟨g1.weaken eab.le, g2⟩

/-- With the same labels everywhere the loop does nothing. -/
theorem hMergeLoop_same {o' : Obj} {r : Nat} {lar : Larry L} (ho : ObjAt h b p o y) (ho' : ObjAt h b r o' lar)
    (hl : y.label = lar.label) : ∀ axs : List Nat, Run h (hMergeLoop axs p r) (p, r) h
  | [] => Run.pure
  | ax :: rest => by
    refine Run.bind (Run.value ho) (Run.bind (Run.value ho') ?_)
    rw [if_pos (by rw [hl])]
    exact hMergeLoop_same ho ho' hl rest

/-- `merge` on references: the result is the first larry itself or all new. -/
theorem hMerge_run (update : Bool) {r : Nat} {o' : Obj} {other : Larry L} (ho : ObjAt h 0 p o y)
    (ho' : ObjAt h 0 r o' other) :
    match merge y other update with
    | .error e => (hMerge update p r).out h = .error e
    | .ok z => ∃ q h' oq z', Run h (hMerge update p r) q h' ∧ ObjAt h' 0 q oq z' ∧ ((q = p → o.x.Inj) → z'.Same z) ∧
        ((q = p ∧ ExtBut o.x.buf h h') ∨ (Ext h.next h h' ∧ ObjAt h' h.next q oq z')) ∧
        (y.label = other.label → q = p) := by
  have v1 := Run.value ho
  have v2 := Run.value ho'
  have hsame : y.label = other.label → Run h (hMergeLoop (List.range y.ndim) p r) (p, r) h :=
    fun hl => hMergeLoop_same ho ho' hl _
  unfold merge
  by_cases hn : y.ndim ≠ other.ndim
  · rw [if_pos hn]
    refine Run.raises v1 (Run.raises v2 ?_)
    rw [if_pos hn]; rfl
  rw [if_neg hn]
  have := hMergeLoop_run (List.range y.ndim) h p r o o' y other ho ho'
  cases hm : mergeLoop (List.range y.ndim) y other with
  | error e =>
    rw [hm] at this
    refine Run.raises v1 (Run.raises v2 ?_)
    rw [if_neg hn]
    exact HM.raises_left this
  | ok zs =>
    obtain ⟨lar1, lar2⟩ := zs
    rw [hm] at this
    obtain ⟨q1, q2, ha, oa, ob, ra, ea, k1, k2, hcase⟩ := this
    have hqp : y.label = other.label → q1 = p := by
      intro hl
      have := ra.1.symm.trans (hsame hl).1
      simp only [Except.ok.injEq, Prod.mk.injEq] at this
      exact this.1
    have hi : (q1 = p → o.x.Inj) → oa.x.Inj := by
      intro hinj
      rcases hcase with ⟨hq, rfl, _⟩ | hc
      · exact hinj hq
      · exact hc.2
    have hg := Run.getObj k1.cell
    have hlook : Run ha (HM.look (fun h => h.value oa)) lar1 ha := by
      have := Run.look (h := ha) (f := fun h => h.value oa)
      rwa [k1.value] at this
    have hv2 := Run.value k2
    dsimp only
    by_cases ht : (y.dtype = .object ∨ other.dtype = .object ∨ y.dtype = .str ∨ other.dtype = .str) ∧
        y.dtype ≠ other.dtype
    · rw [if_pos ht]
      refine Run.raises v1 (Run.raises v2 ?_)
      rw [if_neg hn]
      refine Run.raises ra (Run.raises hg (Run.raises hlook (Run.raises hv2 ?_)))
      dsimp only
      rw [if_pos ht]; rfl
    rw [if_neg ht]
    by_cases hu : (!update && anyAt lar1.x.shape
        (fun i => presentVal y.dtype (lar1.x.get i) && presentVal other.dtype (lar2.x.get i))) = true
    · rw [if_pos hu]
      refine Run.raises v1 (Run.raises v2 ?_)
      rw [if_neg hn]
      refine Run.raises ra (Run.raises hg (Run.raises hlook (Run.raises hv2 ?_)))
      dsimp only
      rw [if_neg ht, if_pos hu]; rfl
    rw [if_neg hu]
    by_cases hany : anyAt lar1.x.shape (fun i => presentVal other.dtype (lar2.x.get i)) = true
    · rw [if_pos hany]
      by_cases hcast : canCast lar2.dtype lar1.dtype = true
      · rw [if_pos hcast]
        obtain ⟨hb, rb, eb, x', b1, hsh, hs⟩ := writeWhere_run k1.array (fun i => presentVal other.dtype (lar2.x.get i))
          (fun i => castSafe lar2.dtype lar1.dtype (lar2.x.get i))
        refine ⟨q1, hb, oa, ⟨x', lar1.dtype, lar1.label⟩, Run.bind v1 (Run.bind v2 ?_), k1.rewrite eb b1,
          fun hinj => ⟨rfl, rfl, hs (hi hinj)⟩, ?_, hqp⟩
        · rw [if_neg hn]
          refine Run.bind ra (Run.bind hg (Run.bind hlook (Run.bind hv2 ?_)))
          dsimp only
          rw [if_neg ht, if_neg hu, if_pos hany, if_pos hcast]
          exact Run.bind rb Run.pure
        · rcases hcase with ⟨rfl, rfl, rfl⟩ | ⟨g1, _⟩
          · exact Or.inl ⟨rfl, eb⟩
          · refine Or.inr ⟨ea.trans (eb.ext g1.array.lo ea.le) (le_refl _), ?_⟩
            obtain ⟨f, hf⟩ := b1.data
            exact g1.rewrite eb ⟨g1.array.lo, b1.hi, b1.dtype, f, hf⟩
      · rw [if_neg hcast]
        refine Run.raises v1 (Run.raises v2 ?_)
        rw [if_neg hn]
        refine Run.raises ra (Run.raises hg (Run.raises hlook (Run.raises hv2 ?_)))
        dsimp only
        rw [if_neg ht, if_neg hu, if_pos hany, if_neg hcast]; rfl
    · rw [if_neg hany]
      refine ⟨q1, ha, oa, lar1, Run.bind v1 (Run.bind v2 ?_), k1, fun _ => Larry.Same.refl _, ?_, hqp⟩
      · rw [if_neg hn]
        refine Run.bind ra (Run.bind hg (Run.bind hlook (Run.bind hv2 ?_)))
        dsimp only
        rw [if_neg ht, if_neg hu, if_neg hany]
        exact Run.pure
      · rcases hcase with ⟨rfl, rfl, rfl⟩ | ⟨g1, _⟩
        · exact Or.inl ⟨rfl, le_refl _, fun _ _ _ => rfl⟩
        · exact Or.inr ⟨ea, g1⟩

end order
end La
