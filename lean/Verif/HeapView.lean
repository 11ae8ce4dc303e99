import Verif.HeapWrite
import Verif.IndexFacts

/-!
# Running the methods that give views: `squeeze`, `pull`, `y[index]`

A view stays one as long as neither larry gets a new array or new labels.
-/

namespace La
variable {L : Type} {h h' h2 : Heap L} {p : Nat} {o : Obj} {y : Larry L} {b : Nat}

/-- Elements of an array and entries of a list of labels may change; which array a larry has, and which
lists, may not. -/
def HCell.Evolves : HCell L → HCell L → Prop
  | .buf _, .buf _ => True
  | .lst _, .lst _ => True
  | .out as, c => c = .out as
  | .obj o, c => c = .obj o
  | _, _ => False

/-- From `h` to `h'` elements were written, lists of labels were written, and new things were made;
no `y.x = ...`, no `y.label = ...`, no `y.label[k] = ...`. -/
structure Heap.Evolves (h h' : Heap L) : Prop where
  le : h.next ≤ h'.next
  cell : ∀ a c, h.cell a = some c → ∃ c', h'.cell a = some c' ∧ c.Evolves c'

theorem HCell.Evolves.refl : ∀ c : HCell L, c.Evolves c
  | .buf _ => trivial
  | .lst _ => trivial
  | .out _ => rfl
  | .obj _ => rfl

theorem HCell.Evolves.trans : ∀ {c c' c'' : HCell L}, c.Evolves c' → c'.Evolves c'' → c.Evolves c''
  | .buf _, .buf _, .buf _, _, _ => trivial
  | .lst _, .lst _, .lst _, _, _ => trivial
  | .out _, _, _, h1, h2 => by cases h1; exact h2
  | .obj _, _, _, h1, h2 => by cases h1; exact h2

theorem Heap.Evolves.refl (h : Heap L) : h.Evolves h := ⟨le_refl _, fun _ c hc => ⟨c, hc, HCell.Evolves.refl c⟩⟩

theorem Heap.Evolves.trans {h1 h2 h3 : Heap L} (e1 : h1.Evolves h2) (e2 : h2.Evolves h3) : h1.Evolves h3 := by
  refine ⟨e1.le.trans e2.le, fun a c hc => ?_⟩
  obtain ⟨c', hc', k'⟩ := e1.cell a c hc
  obtain ⟨c'', hc'', k''⟩ := e2.cell a c' hc'
  exact ⟨c'', hc'', k'.trans k''⟩

theorem Heap.Evolves.obj (e : h.Evolves h') {q : Nat} (hc : h.cell q = some (.obj o)) : h'.cell q = some (.obj o) := by
  obtain ⟨c, h1, h2⟩ := e.cell _ _ hc
  rw [h1, show c = .obj o from h2]

theorem Heap.Evolves.out_ (e : h.Evolves h') {a : Nat} {as : List Nat} (hc : h.cell a = some (.out as)) :
    h'.cell a = some (.out as) := by
  obtain ⟨c, h1, h2⟩ := e.cell _ _ hc
  rw [h1, show c = .out as from h2]

theorem Heap.Evolves.buf_ (e : h.Evolves h') {a : Nat} {f : List Nat → Val} (hc : h.cell a = some (.buf f)) :
    ∃ f', h'.cell a = some (.buf f') := by
  obtain ⟨c, h1, h2⟩ := e.cell _ _ hc
  cases c with
  | buf f' => exact ⟨f', h1⟩
  | _ => exact h2.elim

theorem Heap.Evolves.lst_ (e : h.Evolves h') {a : Nat} {l : List L} (hc : h.cell a = some (.lst l)) :
    ∃ l', h'.cell a = some (.lst l') := by
  obtain ⟨c, h1, h2⟩ := e.cell _ _ hc
  cases c with
  | lst l' => exact ⟨l', h1⟩
  | _ => exact h2.elim

/-- The lists at some of the addresses. -/
theorem ListsAt.sub {as bs : List Nat} {ls : List (List L)} (hl : ListsAt h b as ls) (hs : ∀ a ∈ bs, a ∈ as) :
    ListsAt h b bs (bs.map h.lst) := by
  have hall : ∀ a ∈ as, b ≤ a ∧ a < h.next ∧ h.cell a = some (.lst (h.lst a)) := by
    intro a ha
    obtain ⟨k, hk⟩ := List.mem_iff_getElem?.mp ha
    have hlen := hl.length
    have hk' := (List.getElem?_eq_some_iff.mp hk).1
    have := (List.forall₂_iff_get.mp hl).2 k hk' (by omega)
    have he : as.get ⟨k, hk'⟩ = a := (List.getElem?_eq_some_iff.mp hk).2
    rw [he] at this
    refine ⟨this.1, this.2.1, ?_⟩
    unfold Heap.lst
    rw [this.2.2]
  unfold ListsAt
  rw [List.forall₂_map_right_iff]
  exact List.forall₂_same.mpr (fun a ha => hall a (hs a ha))

/-- A larry is a larry later on. -/
theorem ObjAt.evolves {q : Nat} {z : Larry L} (ho : ObjAt h b q o z) (e : h.Evolves h2) : ObjAt h2 b q o (h2.value o) := by
  obtain ⟨f, hf, -⟩ := ho.array.data
  obtain ⟨f', hf'⟩ := e.buf_ hf
  refine ⟨ho.lo, lt_of_lt_of_le ho.hi e.le, e.obj ho.cell,
    ⟨ho.array.lo, lt_of_lt_of_le ho.array.hi e.le, rfl, f', hf', ?_⟩,
    ⟨ho.label.lo, lt_of_lt_of_le ho.label.hi e.le, h.out o.label, e.out_ ho.label.out.2, ?_⟩⟩
  · unfold Heap.value Heap.array Heap.buf
    rw [hf']
  · have hout : h2.out o.label = h.out o.label := by
      have := e.out_ ho.label.out.2
      unfold Heap.out at this ⊢
      rw [this]
    unfold Heap.value
    rw [hout]
    unfold ListsAt
    rw [List.forall₂_map_right_iff]
    refine List.forall₂_same.mpr (fun a ha => ?_)
    obtain ⟨k, hk⟩ := List.mem_iff_getElem?.mp ha
    have hlen := ho.label.out.1.length
    have hk' := (List.getElem?_eq_some_iff.mp hk).1
    have h1 := (List.forall₂_iff_get.mp ho.label.out.1).2 k hk' (by omega)
    have he : (h.out o.label).get ⟨k, hk'⟩ = a := (List.getElem?_eq_some_iff.mp hk).2
    rw [he] at h1
    obtain ⟨l', hl'⟩ := e.lst_ h1.2.2
    refine ⟨h1.1, lt_of_lt_of_le h1.2.1 e.le, ?_⟩
    unfold Heap.lst
    rw [hl']

theorem Heap.Evolves.out (e : h.Evolves h2) {label : Nat} {ls : List (List L)} (hl : LabelAt h b label ls) :
    h2.out label = h.out label := by
  have := e.out_ hl.out.2
  unfold Heap.out at this ⊢
  rw [this]

/-- A view of the array of a larry, with labels made from lists there are. -/
theorem viewLarry_run {as : List Nat} {ix : NDArray (List Nat)} (ho : ObjAt h b p o y) (hs : ∀ a ∈ as, a ∈ h.out o.label) :
    ∃ q label h1 h', Run h (alloc (.out as)) label h1 ∧ Run h1 (newLarry ⟨o.x.buf, ix, o.x.dtype⟩ label) q h' ∧
      Ext h.next h h' ∧ (∃ z, ObjAt h' b q ⟨⟨o.x.buf, ix, o.x.dtype⟩, label⟩ z) ∧ h'.out label = as ∧
      h1 = h.push (.out as) ∧ label = h.next := by
  have hb : b ≤ h.next := ho.array.lo.trans (Nat.le_of_lt ho.array.hi)
  obtain ⟨r1, e1, hl⟩ := allocOut_run (ho.label.out.1.sub hs) hb
  have ha : ArrayAt (h.push (.out as)) b ⟨o.x.buf, ix, o.x.dtype⟩ (ix.map (h.buf o.x.buf)) o.x.dtype := by
    obtain ⟨f, hf, -⟩ := ho.array.data
    have hfb : h.buf o.x.buf = f := by unfold Heap.buf; rw [hf]
    refine ⟨ho.array.lo, lt_of_lt_of_le ho.array.hi e1.le, rfl, f, ?_, by rw [hfb]⟩
    change (h.push (.out as)).cell o.x.buf = _
    rw [e1.same _ ho.array.hi, hf]
  obtain ⟨q, h', r2, e2, hq⟩ := newLarry_run ha hl (hb.trans e1.le)
  refine ⟨q, h.next, _, h', r1, r2, e1.trans e2 e1.le, ⟨_, hq⟩, ?_, rfl, rfl⟩
  unfold Heap.out
  rw [e2.same _ hl.hi]
  simp [Heap.push]

/-! ### squeeze -/

theorem zip_filter_map {α β : Type} (f : α → β) : ∀ (as : List α) (ns : List Nat),
    (((as.zip ns).filter (fun c => c.2 ≠ 1)).map Prod.fst).map f =
      (((as.map f).zip ns).filter (fun c => c.2 ≠ 1)).map Prod.fst
  | [], _ => rfl
  | _ :: _, [] => rfl
  | a :: as, n :: ns => by
    have ih := zip_filter_map f as ns
    rw [List.map_cons, List.zip_cons_cons, List.zip_cons_cons, List.filter_cons, List.filter_cons]
    dsimp only
    split
    · rw [List.map_cons, List.map_cons, List.map_cons, ih]
    · exact ih

theorem hSqueeze_run (ho : ObjAt h b p o y) : ∃ q h', Run h (hSqueeze p) q h' ∧ Ext h.next h h' ∧
    ∀ h2, h'.Evolves h2 → ObjAt h2 b p o (h2.value o) ∧ ∃ oq, ObjAt h2 b q oq (h2.value o).squeeze := by
  obtain ⟨q, label, h1, h', r1, r2, e, ⟨z, hq⟩, hout, -, -⟩ := viewLarry_run
    (as := ((((h.out o.label).zip o.x.ix.shape).filter (fun c => c.2 ≠ 1)).map Prod.fst)) (ix := o.x.ix.squeeze) ho
    (fun a ha => by
      obtain ⟨c, hc, rfl⟩ := List.mem_map.mp ha
      exact (List.of_mem_zip (List.mem_filter.mp hc).1).1)
  refine ⟨q, h', Run.bind (Run.getObj ho.cell) (Run.bind Run.look (Run.bind r1 r2)), e, fun h2 ev => ?_⟩
  have hp := (ho.ext e).evolves ev
  refine ⟨hp, ⟨⟨o.x.buf, o.x.ix.squeeze, o.x.dtype⟩, label⟩, ?_⟩
  have hq2 := hq.evolves ev
  have hval : h2.value ⟨⟨o.x.buf, o.x.ix.squeeze, o.x.dtype⟩, label⟩ = (h2.value o).squeeze := by
    have h1 : h2.out label = h'.out label := ev.out hq.label
    have h3 : h2.out o.label = h.out o.label := by
      rw [ev.out (ho.ext e).label]
      unfold Heap.out
      rw [e.same _ ho.label.hi]
    unfold Heap.value Larry.squeeze Larry.shape
    dsimp only
    rw [h1, hout, h3, zip_filter_map]
    rfl
  rw [hval] at hq2
  exact hq2

/-! ### pull -/

theorem pyPop_map {α β : Type} (f : α → β) (as : List α) (axis : Int) :
    pyPop (as.map f) axis = (match pyPop as axis with | .error e => .error e | .ok bs => .ok (bs.map f)) := by
  unfold pyPop
  rw [List.length_map]
  cases pyIdx as.length axis with
  | none => rfl
  | some k => simp [List.eraseIdx_map]

/-- What is seen later through an object that was there. -/
theorem value_later {q : Nat} {oq : Obj} {z : Larry L} {as : List Nat} (hq : ObjAt h' b q oq z) (hout : h'.out oq.label = as)
    (ev : h'.Evolves h2) : h2.value oq = ⟨oq.x.ix.map (h2.buf oq.x.buf), oq.x.dtype, as.map h2.lst⟩ := by
  unfold Heap.value
  rw [ev.out hq.label, hout]
  rfl

theorem Ext.out (e : Ext h.next h h') {label : Nat} (hl : label < h.next) : h'.out label = h.out label := by
  unfold Heap.out
  rw [e.same _ hl]

theorem hMake_run [DecidableEq L] {v : View} {label : Nat} {x : NDArray Val} {d : DType} {ls : List (List L)} (validate : Bool)
    (ha : ArrayAt h b v x d) (hl : LabelAt h b label ls) :
    match Larry.make x d ls validate with
    | .error e => (hMake v label validate).out h = .error e
    | .ok z => z = ⟨x, d, ls⟩ ∧ ∃ q h', Run h (hMake v label validate) q h' ∧ Ext h.next h h' ∧
        ObjAt h' b q ⟨v, label⟩ ⟨x, d, ls⟩ ∧ h'.out label = h.out label := by
  have hb : b ≤ h.next := ha.lo.trans (Nat.le_of_lt ha.hi)
  obtain ⟨q, h', r, e, hq⟩ := newLarry_run ha hl hb
  have hv : h.value ⟨v, label⟩ = ⟨x, d, ls⟩ := by
    unfold Heap.value
    rw [ha.get, hl.get, ha.dtype]
  cases validate with
  | false => exact ⟨rfl, q, h', r, e, hq, e.out hl.hi⟩
  | true =>
    change match Larry.mk' x d ls with
      | .error e => (hInit v label).out h = .error e
      | .ok z => z = ⟨x, d, ls⟩ ∧ ∃ q h', Run h (hInit v label) q h' ∧ Ext h.next h h' ∧
        ObjAt h' b q ⟨v, label⟩ ⟨x, d, ls⟩ ∧ h'.out label = h.out label
    cases hm : Larry.mk' x d ls with
    | error e =>
      refine Run.raises Run.look (HM.raises_left ?_)
      rw [hv]
      exact hm
    | ok z =>
      refine ⟨mk'_eq hm, q, h', Run.bind Run.look (Run.bind (v := z) (Run.lift ?_) r), e, hq, e.out hl.hi⟩
      rw [hv]
      exact hm

theorem hPull_run [LinearOrder L] (name : L) (axis : Option Int) (ho : ObjAt h b p o y) :
    match y.pull name axis with
    | .error e => (hPull name axis p).out h = .error e
    | .ok (.scalar _) => Run h (hPull name axis p) .scalar h
    | .ok (.larry z) => ∃ q h', Run h (hPull name axis p) (.larry q) h' ∧ Ext h.next h h' ∧ ∃ oq, ObjAt h' b q oq z ∧
        ∃ ax k idx, (∃ a, axis = some a ∧ pyIdx y.ndim a = some ax ∧ pyIdx y.label.length a = some k) ∧
          y.labelindex name axis = .ok idx ∧
          ∀ h2, h'.Evolves h2 → ObjAt h2 b p o (h2.value o) ∧
            ObjAt h2 b q oq ⟨(h2.value o).x.pick idx ax, (h2.value o).dtype, (h2.value o).label.eraseIdx k⟩ := by
  cases axis with
  | none => exact rfl
  | some a =>
    have hg := Run.getObj ho.cell
    have hlook : Run h (HM.look (fun h => h.value o)) y h := by
      have := Run.look (h := h) (f := fun h => h.value o)
      rwa [ho.value] at this
    have hlen : y.label.length = (h.out o.label).length := by rw [← ho.label.get, List.length_map]
    have hsh : o.x.ix.shape = y.x.shape := ho.array.shape
    unfold Larry.pull
    dsimp only
    have hpop := pyPop_map h.lst (h.out o.label) a
    rw [ho.label.get] at hpop
    rw [hpop]
    cases hk : pyPop (h.out o.label) a with
    | error e => exact Run.raises hg (Run.raises hlook (Run.raises Run.look (HM.raises_left hk)))
    | ok as =>
      dsimp only
      obtain ⟨k, hk1, rfl⟩ : ∃ k, pyIdx y.label.length a = some k ∧ as = (h.out o.label).eraseIdx k := by
        unfold pyPop at hk
        rw [← hlen] at hk
        cases hi : pyIdx y.label.length a with
        | none => rw [hi] at hk; simp at hk
        | some k => rw [hi] at hk; simp at hk; exact ⟨k, rfl, hk.symm⟩
      cases hidx : y.labelindex name (some a) with
      | error e =>
        exact Run.raises hg (Run.raises hlook (Run.raises Run.look (Run.raises (Run.lift hk) (HM.raises_left hidx))))
      | ok idx =>
        dsimp only
        cases hax : pyIdx y.ndim a with
        | none =>
          refine Run.raises hg (Run.raises hlook (Run.raises Run.look (Run.raises (Run.lift hk)
            (Run.raises (Run.lift hidx) (HM.raises_left ?_)))))
          change pyIdxE o.x.ix.shape.length a = _
          rw [hsh]
          unfold pyIdxE
          change pyIdx y.x.shape.length a = none at hax
          rw [hax]
        | some ax =>
          have haxr : pyIdxE o.x.ix.ndim a = .ok ax := by
            change pyIdxE o.x.ix.shape.length a = _
            rw [hsh]
            unfold pyIdxE
            change pyIdx y.x.shape.length a = some ax at hax
            rw [hax]
          have hpre : ∀ {r : Res Ref} , ((if idx ≥ o.x.ix.shape.getD ax 0 then HM.lift (.error .indexError) else (do
                let v : View := ⟨o.x.buf, o.x.ix.pick idx ax, o.x.dtype⟩
                if v.ix.shape = [1] then return .scalar
                else do
                  let label ← alloc (.out ((h.out o.label).eraseIdx k))
                  let q ← hInit v label
                  return .larry q) : HM L Ref).out h = r) → (hPull name (some a) p).out h = r := by
            intro r hr
            rw [← hr]
            unfold hPull
            dsimp only
            rw [(HM.bind_ok hg.1).1, hg.2, (HM.bind_ok hlook.1).1, hlook.2,
              (HM.bind_ok (Run.look (h := h)).1).1, (Run.look (h := h)).2, (HM.bind_ok (Run.lift (h := h) hk).1).1,
              (Run.lift (h := h) hk).2, (HM.bind_ok (Run.lift (h := h) hidx).1).1, (Run.lift (h := h) hidx).2,
              (HM.bind_ok (Run.lift (h := h) haxr).1).1, (Run.lift (h := h) haxr).2]
          dsimp only
          by_cases hge : idx ≥ y.x.shape.getD ax 0
          · rw [if_pos hge]
            refine hpre ?_
            rw [hsh, if_pos hge]
            rfl
          · rw [if_neg hge]
            by_cases h1 : (y.x.pick idx ax).shape = [1]
            · rw [if_pos h1]
              refine Run.bind hg (Run.bind hlook (Run.bind Run.look (Run.bind (Run.lift hk) (Run.bind (Run.lift hidx)
                (Run.bind (Run.lift haxr) ?_)))))
              rw [hsh, if_neg hge]
              have h2 : (o.x.ix.pick idx ax).shape = [1] := by
                unfold NDArray.pick at h1 ⊢
                dsimp only at h1 ⊢
                rw [hsh]; exact h1
              dsimp only
              rw [if_pos h2]
              exact Run.pure
            · rw [if_neg h1]
              have h2 : ¬ (o.x.ix.pick idx ax).shape = [1] := by
                unfold NDArray.pick at h1 ⊢
                dsimp only at h1 ⊢
                rw [hsh]; exact h1
              have hb : b ≤ h.next := ho.array.lo.trans (Nat.le_of_lt ho.array.hi)
              obtain ⟨r1, e1, hl⟩ := allocOut_run (ho.label.out.1.sub (bs := (h.out o.label).eraseIdx k)
                (fun c hc => List.mem_of_mem_eraseIdx hc)) hb
              have ha : ArrayAt (h.push (.out ((h.out o.label).eraseIdx k))) b ⟨o.x.buf, o.x.ix.pick idx ax, o.x.dtype⟩
                  (y.x.pick idx ax) y.dtype := by
                obtain ⟨f, hf, hf2⟩ := ho.array.data
                refine ⟨ho.array.lo, lt_of_lt_of_le ho.array.hi e1.le, ho.array.dtype, f, ?_, ?_⟩
                · rw [e1.same _ ho.array.hi, hf]
                · rw [← hf2]; rfl
              have hm := hMake_run true ha hl
              change match Larry.mk' (y.x.pick idx ax) y.dtype (((h.out o.label).eraseIdx k).map h.lst) with
                | .error e => (hInit _ _).out _ = .error e
                | .ok z => z = _ ∧ ∃ q h', Run _ (hInit _ _) q h' ∧ _ at hm
              cases hmk : Larry.mk' (y.x.pick idx ax) y.dtype (((h.out o.label).eraseIdx k).map h.lst) with
              | error e =>
                rw [hmk] at hm
                refine hpre ?_
                rw [hsh, if_neg hge]
                dsimp only
                rw [if_neg h2]
                exact Run.raises r1 (HM.raises_left hm)
              | ok z =>
                rw [hmk] at hm
                obtain ⟨hz, q, h', r2, e2, hq, hout⟩ := hm
                have e12 := e1.trans e2 e1.le
                refine ⟨q, h', Run.bind hg (Run.bind hlook (Run.bind Run.look (Run.bind (Run.lift hk) (Run.bind (Run.lift hidx)
                  (Run.bind (Run.lift haxr) ?_))))), e12, _, by rw [hz]; exact hq, ax, k, idx, ⟨a, rfl, hax, hk1⟩, rfl,
                  fun h3 ev => ?_⟩
                · rw [hsh, if_neg hge]
                  dsimp only
                  rw [if_neg h2]
                  exact Run.bind r1 (Run.bind r2 Run.pure)
                · have hp := (ho.ext e12).evolves ev
                  have hq3 := hq.evolves ev
                  refine ⟨hp, ?_⟩
                  have hout' : h'.out h.next = (h.out o.label).eraseIdx k := by
                    rw [hout]
                    unfold Heap.out
                    simp [Heap.push]
                  rw [value_later hq hout' ev] at hq3
                  rw [value_later (ho.ext e12) (e12.out ho.label.hi) ev]
                  dsimp only
                  rw [List.eraseIdx_map]
                  exact hq3

/-! ### `y[index]` -/

theorem index_map {α β : Type} (f : α → β) (a : NDArray α) (its : List NpItem) :
    (a.map f).index its = (match a.index its with | .error e => .error e | .ok x => .ok (x.map f)) := by
  unfold NDArray.index
  change (match npSelect a.shape its with | .error e => _ | .ok g => _) = _
  cases npSelect a.shape its with
  | error e => rfl
  | ok g => rfl

/-- `x[index]`, and what it shows later. -/
theorem hIndex_run {v : View} {x : NDArray Val} {d : DType} (its : List NpItem) (ha : ArrayAt h b v x d) :
    match x.index its with
    | .error e => (hIndex v its : HM L View).out h = .error e
    | .ok x' => ∃ v' h', Run h (hIndex v its) v' h' ∧ Ext h.next h h' ∧ ArrayAt h' b v' x' d ∧
        (its.any NpItem.copies = false → ∀ h2 : Heap L, (h2.array v).index its = .ok (h2.array v')) := by
  obtain ⟨f, hf, rfl⟩ := ha.data
  rw [index_map]
  cases hi : v.ix.index its with
  | error e => exact HM.raises_left hi
  | ok ix =>
    dsimp only
    by_cases hc : its.any NpItem.copies = true
    · have hfb : h.buf v.buf = f := by unfold Heap.buf; rw [hf]
      obtain ⟨v', h', r, e, ha'⟩ := newArray_run (h := h) (ix.map f) v.dtype
      refine ⟨v', h', Run.bind (Run.lift hi) ?_, e, ?_, by simp [hc]⟩
      · rw [if_pos hc]
        refine Run.bind Run.look ?_
        unfold Heap.array
        dsimp only
        rw [hfb]
        exact r
      · have := ha'.ext Ext.refl (ha.lo.trans (Nat.le_of_lt ha.hi))
        rw [ha.dtype] at this
        exact this
    · refine ⟨⟨v.buf, ix, v.dtype⟩, h, Run.bind (Run.lift hi) ?_, Ext.refl,
        ⟨ha.lo, ha.hi, ha.dtype, f, hf, rfl⟩, fun _ h2 => ?_⟩
      · rw [if_neg hc]
        exact Run.pure
      · unfold Heap.array
        rw [index_map, hi]

/-- The part of the array for a whole index. -/
def partOf (np : NpItem) (x : NDArray Val) : Res (NDArray Val) :=
  match np with
  | .seq is => x.take is 0
  | np => x.index [np]

theorem hPart_run {v : View} {x : NDArray Val} {d : DType} (np : NpItem) (ha : ArrayAt h b v x d) :
    match partOf np x with
    | .error e => (hPart np v : HM L View).out h = .error e
    | .ok x' => ∃ v' h', Run h (hPart np v) v' h' ∧ Ext h.next h h' ∧ ArrayAt h' b v' x' d ∧
        (np.copies = false → ∀ h2 : Heap L, (h2.array v).index [np] = .ok (h2.array v')) := by
  have hidx := hIndex_run [np] ha
  have hlook : Run h (HM.look (fun h => h.array v)) x h := by
    have := Run.look (h := h) (f := fun h => h.array v)
    rwa [ha.get] at this
  cases np with
  | seq is =>
    change match x.take is 0 with | .error e => _ | .ok x' => _
    cases hx : x.take is 0 with
    | error e => exact Run.raises hlook (HM.raises_left hx)
    | ok x' =>
      obtain ⟨v', h', r, e, ha'⟩ := newArray_run (h := h) x' v.dtype
      refine ⟨v', h', Run.bind hlook (Run.bind (Run.lift hx) r), e, ?_, by simp [NpItem.copies]⟩
      have := ha'.ext Ext.refl (ha.lo.trans (Nat.le_of_lt ha.hi))
      rw [ha.dtype] at this
      exact this
  | int i => simpa [partOf, hPart] using hidx
  | slice s => simpa [partOf, hPart] using hidx
  | mask bs => simpa [partOf, hPart] using hidx

theorem setLab_exact {label ax : Nat} {l : List L} {as : List Nat} (hl : h.cell label = some (.out as)) (hlt : label < h.next) :
    Run h (setLab label ax l) () ((h.push (.lst l)).upd label (.out (as.set ax h.next))) := by
  have hout : (h.push (.lst l)).out label = as := by
    unfold Heap.out
    simp [Heap.push, Nat.ne_of_lt hlt, hl]
  refine Run.bind Run.alloc (Run.bind Run.look ?_)
  rw [hout]
  exact Run.put

section dec
variable [DecidableEq L]

/-- The whole index is one entry. -/
theorem hGetOne_run (np : NpItem) (lab : List L) (shallow validate : Bool) (ho : ObjAt h 0 p o y) :
    match partOf np y.x with
    | .error e => (hGetOne np lab shallow validate p).out h = .error e
    | .ok x => match Larry.make x y.dtype (y.label.set 0 lab) validate with
      | .error e => (hGetOne np lab shallow validate p).out h = .error e
      | .ok z => ∃ q h' oq, Run h (hGetOne np lab shallow validate p) (.larry q) h' ∧ Ext h.next h h' ∧ ObjAt h' 0 q oq z ∧
          ∀ h2, h'.Evolves h2 →
            (np.copies = false → (h2.array o.x).index [np] = .ok (h2.array oq.x)) ∧
            (shallow = true → (h2.value o).label.drop 1 <:+ (h2.value oq).label) := by
  have hg := Run.getObj ho.cell
  -- the labels
  obtain ⟨label, h1, as, rl, e1, hl1, has⟩ : ∃ label h1 as, Run h (shallowIf shallow (h.out o.label) o) label h1 ∧
      Ext h.next h h1 ∧ LabelAt h1 0 label y.label ∧ h1.cell label = some (.out as) ∧
      h.next ≤ label ∧ (shallow = true → as = h.out o.label) := by
    cases shallow with
    | true =>
      obtain ⟨r1, e1, hl⟩ := allocOut_run ho.label.out.1 (Nat.zero_le _)
      exact ⟨h.next, _, h.out o.label, r1, e1, hl, by simp [Heap.push], le_refl _, fun _ => rfl⟩
    | false =>
      obtain ⟨label, h1, r1, e1, hl⟩ := copylabel_run ho.label
      exact ⟨label, h1, h1.out label, r1, e1, hl.ext Ext.refl (Nat.zero_le _), hl.out.2, hl.lo, by simp⟩
  obtain ⟨has, hlo, hsh⟩ := has
  have rs := setLab_exact (ax := 0) (l := lab) has hl1.hi
  obtain ⟨h2', rs', es, hls⟩ := setLab_run hl1 (Nat.zero_le _) 0 lab
  have hh : h2' = (h1.push (.lst lab)).upd label (.out (as.set 0 h1.next)) := rs'.2.symm.trans rs.2
  have e2 : Ext h.next h h2' := e1.trans (es.ext hlo e1.le) (le_refl _)
  have hout2 : h2'.out label = as.set 0 h1.next := by
    unfold Heap.out
    rw [hh]
    simp [Heap.upd]
  have ho2 := ho.ext e2
  have hpart := hPart_run np ho2.array
  cases hx : partOf np y.x with
  | error e =>
    rw [hx] at hpart
    exact Run.raises hg (Run.raises Run.look (Run.raises rl (Run.raises rs' (HM.raises_left hpart))))
  | ok x =>
    rw [hx] at hpart
    obtain ⟨v, h3, r3, e3, ha3, hview⟩ := hpart
    have hl3 := hls.ext e3
    have hm := hMake_run validate ha3 hl3
    dsimp only
    cases hmk : Larry.make x y.dtype (y.label.set 0 lab) validate with
    | error e =>
      rw [hmk] at hm
      exact Run.raises hg (Run.raises Run.look (Run.raises rl (Run.raises rs' (Run.raises r3 (HM.raises_left hm)))))
    | ok z =>
      rw [hmk] at hm
      obtain ⟨hz, q, h4, r4, e4, hq, hout4⟩ := hm
      have e04 : Ext h.next h h4 := (e2.trans e3 e2.le).trans e4 (e2.le.trans e3.le)
      refine ⟨q, h4, _, Run.bind hg (Run.bind Run.look (Run.bind rl (Run.bind rs' (Run.bind r3 (Run.bind r4 Run.pure))))),
        e04, by rw [hz]; exact hq, fun g ev => ⟨fun hc => hview hc g, fun hs => ?_⟩⟩
      have hout : h4.out label = (h.out o.label).set 0 h1.next := by
        rw [hout4, e3.out hls.hi, hout2, hsh hs]
      rw [value_later hq hout ev, value_later (ho.ext e04) (e04.out ho.label.hi) ev]
      dsimp only
      cases h.out o.label with
      | nil => exact List.nil_suffix
      | cons a as => exact List.suffix_cons _ _

omit [DecidableEq L] in
theorem hTupleLabels_run : ∀ (cs : List (Nat × Option (List L))) (n : Nat) (h : Heap L),
    (∀ c ∈ cs, ∃ l, c.1 < h.next ∧ h.cell c.1 = some (.lst l)) →
    (∀ c ∈ cs.drop n, c.2 = some (h.lst c.1)) →
    ∃ bs h', Run h (hTupleLabels cs n) bs h' ∧ Ext h.next h h' ∧ ListsAt h' 0 bs (cs.filterMap Prod.snd) ∧
      (cs.drop n).map Prod.fst <:+ bs
  | [], n, h, _, _ => ⟨[], h, Run.pure, Ext.refl, List.Forall₂.nil, by simp⟩
  | (a, none) :: rest, 0, h, h1, h2 => by simp at h2
  | (a, none) :: rest, n + 1, h, h1, h2 => by
    obtain ⟨bs, h', r, e, hl, hs⟩ := hTupleLabels_run rest n h (fun c hc => h1 c (List.mem_cons_of_mem _ hc)) (by simpa using h2)
    exact ⟨bs, h', r, e, by simpa using hl, by simpa using hs⟩
  | (a, some lab) :: rest, 0, h, h1, h2 => by
    obtain ⟨bs, h', r, e, hl, hs⟩ := hTupleLabels_run rest 0 h (fun c hc => h1 c (List.mem_cons_of_mem _ hc))
      (by simp only [List.drop_zero]; exact fun c hc => h2 c (by simp [hc]))
    obtain ⟨l, hlt, hcell⟩ := h1 (a, some lab) (List.mem_cons_self ..)
    have hlab : lab = l := by
      have := h2 (a, some lab) (by simp)
      simp only [Option.some.injEq] at this
      rw [this]
      unfold Heap.lst
      rw [hcell]
    refine ⟨a :: bs, h', Run.bind Run.pure (Run.bind r Run.pure), e, ?_, ?_⟩
    · refine List.Forall₂.cons ⟨Nat.zero_le _, lt_of_lt_of_le hlt e.le, ?_⟩ hl
      rw [e.same _ hlt, hlab]
      exact hcell
    · simp only [List.drop_zero, List.map_cons] at hs ⊢
      obtain ⟨t, ht⟩ := hs
      cases t with
      | nil => rw [← ht]; exact ⟨[], rfl⟩
      | cons c t =>
        exfalso
        have h3 := hl.length
        have h4 : bs.length = t.length + 1 + rest.length := by rw [← ht]; simp; omega
        have h5 := List.length_filterMap_le Prod.snd rest
        omega
  | (a, some lab) :: rest, n + 1, h, h1, h2 => by
    have e0 : Ext h.next h (h.push (.lst lab)) := Ext.push
    have hkeep : ∀ c ∈ rest, ∃ l, c.1 < h.next ∧ h.cell c.1 = some (.lst l) := fun c hc => h1 c (List.mem_cons_of_mem _ hc)
    obtain ⟨bs, h', r, e, hl, hs⟩ := hTupleLabels_run rest n (h.push (.lst lab))
      (fun c hc => by
        obtain ⟨l, hlt, hc⟩ := hkeep c hc
        exact ⟨l, lt_of_lt_of_le hlt e0.le, by rw [e0.same _ hlt, hc]⟩)
      (fun c hc => by
        rw [h2 c (by simpa using hc)]
        obtain ⟨l, hlt, hc⟩ := hkeep c (List.mem_of_mem_drop hc)
        unfold Heap.lst
        rw [e0.same _ hlt])
    refine ⟨h.next :: bs, h', Run.bind Run.alloc (Run.bind r Run.pure), e0.trans e e0.le, ?_, ?_⟩
    · refine List.Forall₂.cons ⟨Nat.zero_le _, lt_of_lt_of_le (Nat.lt_succ_self _) e.le, ?_⟩ hl
      rw [e.same _ (Nat.lt_succ_self _)]
      simp [Heap.push]
    · simp only [List.drop_succ_cons]
      exact hs.trans (List.suffix_cons _ _)

omit [DecidableEq L] in
theorem pySliceList_all (l : List L) : pySliceList l {} = .ok l := by
  rw [pySliceList_ok]
  refine ⟨List.range l.length, sliceIndices_all _, ?_⟩
  apply List.ext_getElem?
  intro k
  by_cases hk : k < l.length <;> simp [hk]

omit [DecidableEq L] in
theorem filterMap_zip_snd {α β : Type} : ∀ {as : List α} {ls : List (Option β)}, ls.length ≤ as.length →
    (as.zip ls).filterMap Prod.snd = ls.filterMap id
  | _, [], _ => by simp
  | [], _ :: _, h => by simp at h
  | a :: as, l :: ls, h => by
    have ih := filterMap_zip_snd (as := as) (ls := ls) (by simpa using h)
    cases l <;> simp [ih]

/-- What the index says of an axis it does not mention. -/
theorem keepAll_rest {its : List (Item L)} {labs : List (Option (List L))} (hf : y.Fits)
    (hk : y.keepAll its = .ok labs) : labs.length = y.label.length ∧
    ∀ k l, its.length ≤ k → y.label[k]? = some l → labs[k]? = some (some l) := by
  have hlen : y.label.length = y.shape.length := by
    unfold Larry.Fits at hf
    rw [← hf, List.length_map]
  have hnd : y.ndim = y.label.length := hlen.symm
  have hm := mapRes_ok.mp hk
  have h1 := hm.length_eq
  refine ⟨?_, fun k l hge hl => ?_⟩
  · rw [← h1]
    simp only [List.length_zip, List.length_append, List.length_replicate]
    omega
  · have hlt := (List.getElem?_eq_some_iff.mp hl).1
    have hlt2 : k < labs.length := by
      rw [← h1]
      simp only [List.length_zip, List.length_append, List.length_replicate]
      omega
    have := (List.forall₂_iff_get.mp hm).2 k (by omega) hlt2
    simp only [List.get_eq_getElem, List.getElem_zip] at this
    rw [List.getElem_append_right hge, List.getElem_replicate] at this
    have hl' : y.label[k] = l := (List.getElem?_eq_some_iff.mp hl).2
    rw [hl'] at this
    simp only [Item.keep, pySliceList_all, Except.ok.injEq] at this
    rw [List.getElem?_eq_getElem hlt2, ← this]

omit [DecidableEq L] in
theorem GetOut.ofArray_cases (x : NDArray Val) :
    (x.shape = [] ∧ (GetOut.ofArray x : GetOut L) = .scalar (x.get [])) ∨
    (x.shape ≠ [] ∧ (GetOut.ofArray x : GetOut L) = .array x) := by
  unfold GetOut.ofArray
  by_cases hx : x.shape = []
  · exact Or.inl ⟨hx, if_pos hx⟩
  · exact Or.inr ⟨hx, if_neg hx⟩

/-- The entries of an index. -/
def Index.entries : Index L → List (Item L)
  | .one it => [it]
  | .tuple its => its

/-- What the run of `y[index]` is to do, given what the value model says. -/
def GetRun (h : Heap L) (o : Obj) (d : DType) (m : HM L Ref) (its : List (Item L)) (shallow : Bool) :
    Res (GetOut L) → Prop
  | .error e => m.out h = .error e
  | .ok (.scalar _) => ∃ h', Run h m .scalar h' ∧ Ext h.next h h'
  | .ok (.array x) => ∃ v h', Run h m (.array v) h' ∧ Ext h.next h h' ∧ ArrayAt h' 0 v x d ∧
      ∀ h2 : Heap L, (h2.array o.x).index (its.map Item.np) = .ok (h2.array v)
  | .ok (.larry z) => ∃ q h' oq, Run h m (.larry q) h' ∧ Ext h.next h h' ∧ ObjAt h' 0 q oq z ∧
      ∀ h2, h'.Evolves h2 →
        ((its.map Item.np).any NpItem.copies = false → (h2.array o.x).index (its.map Item.np) = .ok (h2.array oq.x)) ∧
        (shallow = true → (h2.value o).label.drop its.length <:+ (h2.value oq).label)

theorem hGetTuple_run (its : List (Item L)) (ho : ObjAt h 0 p o y) (hf : y.Fits) :
    GetRun h o y.dtype (hGetTuple its p) its true (y.getTuple its) := by
  have hg := Run.getObj ho.cell
  have hlook : Run h (HM.look (fun h => h.value o)) y h := by
    have := Run.look (h := h) (f := fun h => h.value o)
    rwa [ho.value] at this
  unfold Larry.getTuple
  cases hk : y.keepAll its with
  | error e => exact Run.raises hg (Run.raises hlook (Run.raises Run.look (HM.raises_left hk)))
  | ok labs =>
    obtain ⟨k1, k2⟩ := keepAll_rest hf hk
    have hlists := ho.label.out.1
    have hlen := hlists.length
    obtain ⟨bs, h1, r1, e1, hl1, hs1⟩ := hTupleLabels_run ((h.out o.label).zip labs) its.length h
      (fun c hc => by
        obtain ⟨k, hk⟩ := List.mem_iff_getElem?.mp (List.of_mem_zip hc).1
        have hk' := (List.getElem?_eq_some_iff.mp hk).1
        have := (List.forall₂_iff_get.mp hlists).2 k hk' (by omega)
        have he : (h.out o.label).get ⟨k, hk'⟩ = c.1 := (List.getElem?_eq_some_iff.mp hk).2
        rw [he] at this
        exact ⟨_, this.2⟩)
      (fun c hc => by
        obtain ⟨k, hk⟩ := List.mem_iff_getElem?.mp hc
        rw [List.getElem?_drop, List.getElem?_zip_eq_some] at hk
        have h3 := k2 (its.length + k) (h.lst c.1) (by omega)
          (by rw [← ho.label.get, List.getElem?_map, hk.1]; rfl)
        rw [hk.2] at h3
        simpa using h3)
    rw [filterMap_zip_snd (by omega)] at hl1
    have hi := hIndex_run (its.map Item.np) (ho.array.ext e1)
    dsimp only
    cases hx : y.x.index (its.map Item.np) with
    | error e =>
      rw [hx] at hi
      exact Run.raises hg (Run.raises hlook (Run.raises Run.look (Run.raises (Run.lift hk) (Run.raises r1 (HM.raises_left hi)))))
    | ok x =>
      rw [hx] at hi
      obtain ⟨v, h2, r2, e2, ha2, hview⟩ := hi
      have hvs : v.ix.shape = x.shape := ha2.shape
      have e02 := e1.trans e2 e1.le
      dsimp only
      by_cases hall : its.all Item.isInt = true
      · rw [if_pos hall]
        have hnc : (its.map Item.np).any NpItem.copies = false := by
          rw [List.any_map]
          rw [List.all_eq_true] at hall
          rw [List.any_eq_false]
          intro it hit
          have := hall it hit
          cases it <;> simp_all [Item.isInt, Item.np, NpItem.copies]
        rcases GetOut.ofArray_cases (L := L) x with ⟨hsx, he⟩ | ⟨hsx, he⟩
        · rw [he]
          refine ⟨h2, Run.bind hg (Run.bind hlook (Run.bind Run.look (Run.bind (Run.lift hk) (Run.bind r1 (Run.bind r2 ?_))))), e02⟩
          rw [if_pos hall, hvs, if_pos hsx]
          exact Run.pure
        · rw [he]
          refine ⟨v, h2, Run.bind hg (Run.bind hlook (Run.bind Run.look (Run.bind (Run.lift hk) (Run.bind r1 (Run.bind r2 ?_))))),
            e02, ha2, hview hnc⟩
          rw [if_pos hall, hvs, if_neg hsx]
          exact Run.pure
      · rw [if_neg hall]
        obtain ⟨r3, e3, hl3⟩ := allocOut_run (hl1.ext e2) (Nat.zero_le _)
        have hm := hMake_run (its.any Item.isSeq) (ha2.ext e3) hl3
        cases hmk : Larry.make x y.dtype (labs.filterMap id) (its.any Item.isSeq) with
        | error e =>
          rw [hmk] at hm
          refine Run.raises hg (Run.raises hlook (Run.raises Run.look (Run.raises (Run.lift hk) (Run.raises r1 (Run.raises r2 ?_)))))
          rw [if_neg hall]
          exact Run.raises r3 (HM.raises_left hm)
        | ok z =>
          rw [hmk] at hm
          obtain ⟨hz, q, h4, r4, e4, hq, hout4⟩ := hm
          have e04 : Ext h.next h h4 := (e02.trans e3 e02.le).trans e4 (e02.le.trans e3.le)
          refine ⟨q, h4, _, Run.bind hg (Run.bind hlook (Run.bind Run.look (Run.bind (Run.lift hk) (Run.bind r1 (Run.bind r2 ?_))))),
            e04, by rw [hz]; exact hq, fun g ev => ⟨fun hc => hview hc g, fun _ => ?_⟩⟩
          · rw [if_neg hall]
            exact Run.bind r3 (Run.bind r4 Run.pure)
          · have hout : h4.out h2.next = bs := by
              rw [hout4]
              unfold Heap.out
              simp [Heap.push]
            rw [value_later hq hout ev, value_later (ho.ext e04) (e04.out ho.label.hi) ev]
            dsimp only
            rw [← List.map_drop]
            have : ((h.out o.label).drop its.length) = (((h.out o.label).zip labs).drop its.length).map Prod.fst := by
              rw [List.map_drop, List.map_fst_zip (by omega)]
            rw [this]
            obtain ⟨t, ht⟩ := hs1
            exact ⟨t.map g.lst, by rw [← List.map_append, ht]⟩

/-- The whole index goes with new lists for all axes, not only for axis 0. -/
def Index.deep (isList : Bool) : Index L → Bool
  | .one (.seq _) => !isList
  | .one (.mask _) => true
  | .one (.lar _) => true
  | _ => false

theorem getOne_run {np : NpItem} {lab : List L} {shallow validate : Bool} {it : Item L} (ho : ObjAt h 0 p o y)
    (hnp : it.np = np) {r : Res (GetOut L)} (hr : r = match partOf np y.x with
      | .error e => .error e
      | .ok x => match Larry.make x y.dtype (y.label.set 0 lab) validate with
        | .error e => .error e
        | .ok z => .ok (.larry z)) :
    GetRun h o y.dtype (hGetOne np lab shallow validate p) [it] shallow r := by
  have hone := hGetOne_run np lab shallow validate ho
  subst hr
  cases hx : partOf np y.x with
  | error e => rw [hx] at hone; exact hone
  | ok x =>
    rw [hx] at hone
    dsimp only at hone ⊢
    cases hmk : Larry.make x y.dtype (y.label.set 0 lab) validate with
    | error e => rw [hmk] at hone; exact hone
    | ok z =>
      rw [hmk] at hone
      obtain ⟨q, h', oq, r1, e1, hq, hlater⟩ := hone
      refine ⟨q, h', oq, r1, e1, hq, fun g ev => ⟨fun hc => ?_, fun hs => (hlater g ev).2 hs⟩⟩
      simp only [List.map_cons, List.map_nil, hnp] at hc ⊢
      exact (hlater g ev).1 (by simpa using hc)

omit [DecidableEq L] in
theorem GetRun.step {α : Type} {m : HM L α} {f : α → HM L Ref} {a : α} {d : DType} {its : List (Item L)} {shallow : Bool}
    {r : Res (GetOut L)} (hm : Run h m a h) (hf : GetRun h o d (f a) its shallow r) : GetRun h o d (m >>= f) its shallow r := by
  cases r with
  | error e => exact Run.raises hm hf
  | ok t =>
    cases t with
    | scalar v =>
      obtain ⟨h', r1, e⟩ := hf
      exact ⟨h', Run.bind hm r1, e⟩
    | array x =>
      obtain ⟨v, h', r1, rest⟩ := hf
      exact ⟨v, h', Run.bind hm r1, rest⟩
    | larry z =>
      obtain ⟨q, h', oq, r1, rest⟩ := hf
      exact ⟨q, h', oq, Run.bind hm r1, rest⟩

/-- `y[index]` on references. -/
theorem hGetitem_run (isList : Bool) (idx : Index L) (ho : ObjAt h 0 p o y) (hf : y.Fits) :
    GetRun h o y.dtype (hGetitem isList idx p) idx.entries (!idx.deep isList) (y.getitem idx) := by
  have hg := Run.getObj ho.cell
  have hlook : Run h (HM.look (fun h => h.value o)) y h := by
    have := Run.look (h := h) (f := fun h => h.value o)
    rwa [ho.value] at this
  have hv := Run.value ho
  cases idx with
  | tuple its => exact hGetTuple_run its ho hf
  | one it =>
    cases it with
    | int i =>
      refine GetRun.step hg (GetRun.step hlook (GetRun.step Run.look ?_))
      simp only [Larry.getitem]
      by_cases hge : i ≥ y.shape.getD 0 0
      · rw [if_pos hge, if_pos hge]
        rfl
      · rw [if_neg hge, if_neg hge]
        have hi := hIndex_run [.int i] ho.array
        cases hx : y.x.index [.int i] with
        | error e => rw [hx] at hi; exact HM.raises_left hi
        | ok x =>
          rw [hx] at hi
          obtain ⟨v, h1, r1, e1, ha1, hview⟩ := hi
          have hvs : v.ix.shape = x.shape := ha1.shape
          dsimp only
          by_cases hnd : y.ndim ≤ 1
          · rw [if_pos hnd]
            rcases GetOut.ofArray_cases (L := L) x with ⟨hsx, he⟩ | ⟨hsx, he⟩
            · rw [he]
              refine ⟨h1, Run.bind r1 ?_, e1⟩
              rw [if_pos hnd, hvs, if_pos hsx]
              exact Run.pure
            · rw [he]
              refine ⟨v, h1, Run.bind r1 ?_, e1, ha1, hview rfl⟩
              rw [if_pos hnd, hvs, if_neg hsx]
              exact Run.pure
          · rw [if_neg hnd]
            have hl : ListsAt h1 0 ((h.out o.label).drop 1) (y.label.drop 1) := by
              have := List.forall₂_drop 1 (ho.label.ext e1).out.1
              rw [e1.out ho.label.hi] at this
              exact this
            obtain ⟨r2, e2, hl2⟩ := allocOut_run hl (Nat.zero_le _)
            obtain ⟨q, h3, r3, e3, hq⟩ := newLarry_run (ha1.ext e2) hl2 (Nat.zero_le _)
            have e03 := (e1.trans e2 e1.le).trans e3 (e1.le.trans e2.le)
            refine ⟨q, h3, _, Run.bind r1 ?_, e03, hq, fun g ev => ⟨fun hc => hview hc g, fun _ => ?_⟩⟩
            · rw [if_neg hnd]
              exact Run.bind r2 (Run.bind r3 Run.pure)
            · have hout : h3.out h1.next = (h.out o.label).drop 1 := by
                rw [e3.out hl2.hi]
                unfold Heap.out
                simp [Heap.push]
              rw [value_later hq hout ev, value_later (ho.ext e03) (e03.out ho.label.hi) ev]
              dsimp only [Index.entries]
              rw [List.map_drop]
              exact List.suffix_rfl
    | slice s =>
      refine GetRun.step hv ?_
      simp only [Larry.getitem]
      cases hl : pySliceList (y.label.getD 0 []) s with
      | error e => exact HM.raises_left rfl
      | ok lab =>
        refine GetRun.step (Run.lift rfl) (getOne_run (np := .slice s) (it := .slice s) (validate := false) ho rfl ?_)
        simp only [partOf, Larry.make]
        cases y.x.index [NpItem.slice s] <;> rfl
    | seq is =>
      refine GetRun.step hv ?_
      simp only [Larry.getitem]
      cases hs : y.getSeq is with
      | error e => exact HM.raises_left rfl
      | ok t =>
        refine GetRun.step (Run.lift rfl) ?_
        have hs' := hs
        unfold Larry.getSeq at hs
        cases hl : pyItems (y.label.getD 0 []) is with
        | error e => rw [hl] at hs; simp at hs
        | ok lab =>
          rw [hl] at hs
          refine GetRun.step (Run.lift rfl) ?_
          have hsh : (!(Index.one (Item.seq (L := L) is)).deep isList) = isList := by simp [Index.deep]
          rw [hsh]
          refine getOne_run (np := .seq is) (it := .seq is) (validate := false) ho rfl ?_
          simp only [partOf, Larry.make]
          dsimp only at hs
          split at hs
          · simp at hs
          · cases hx : y.x.take is 0 with
            | error e => rw [hx] at hs; simp at hs
            | ok x => rw [hx] at hs; exact hs.symm
    | nd => exact rfl
    | mask bs =>
      refine GetRun.step hv ?_
      simp only [Larry.getitem]
      cases hl : maskLabels (y.label.getD 0 []) bs with
      | error e => exact HM.raises_left rfl
      | ok lab =>
        refine GetRun.step (Run.lift rfl) (getOne_run (np := .mask bs) (it := .mask bs) (validate := false) ho rfl ?_)
        simp only [partOf, Larry.make]
        cases y.x.index [NpItem.mask bs] <;> rfl
    | lar m =>
      refine GetRun.step hv ?_
      simp only [Larry.getitem]
      cases hm : larMask (y.label.getD 0 []) m with
      | error e => exact HM.raises_left rfl
      | ok bs =>
        refine GetRun.step (Run.lift rfl) ?_
        dsimp only
        have hbs : (Item.lar m).np = NpItem.mask bs := by
          unfold larMask at hm
          split at hm
          · simp at hm
          split at hm
          · simp at hm
          split at hm
          · simp at hm
          · simp only [Except.ok.injEq] at hm
            rw [← hm]
            rfl
        cases hl : maskLabels (y.label.getD 0 []) bs with
        | error e => exact HM.raises_left rfl
        | ok lab =>
          refine GetRun.step (Run.lift rfl) (getOne_run (np := .mask bs) (it := .lar m) (validate := true) ho hbs ?_)
          simp only [partOf, Larry.make]
          cases y.x.index [NpItem.mask bs] <;> rfl
    | other => exact rfl

end dec
end La
