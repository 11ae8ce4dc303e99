import Verif.Props.Heap
import Verif.HeapView
import Verif.History

/-!
# C23: what copying calls return

Copying calls on references return what the methods of the other modules return on values.
-/

namespace La
variable {L : Type} [LinearOrder L]

/-! ## Specification -/

/-- The positions of the larrys a call works on; for calls on one larry, twice the same. -/
def Act.args : Act L → Nat × Nat
  | .copy i | .unary _ i | .copyAssign _ i | .copyWrite _ i | .reduce _ _ i | .morph _ _ i | .sortaxis _ _ i
  | .take _ _ i | .keepLabel _ _ i | .lag _ _ i | .transpose i | .swapaxes _ _ i | .flipaxis _ _ i | .maplabel _ _ _ i
  | .vacuum _ i | .cutMissing _ _ i | .keepX _ _ _ i | .insertaxis _ _ i | .squeeze i | .pull _ _ i | .getitem _ _ i => (i, i)
  | .morphLike i j | .binop _ _ i j | .align _ _ i j | .binaryop _ _ _ _ _ _ i j | .merge _ i j => (i, j)
  | _ => (0, 0)

/-- What a copying call on the larrys `y` and `z` returns, as values. -/
def Act.means (y z : Larry L) : Act L → Res (List (Larry L))
  | .copy _ => .ok [y]
  | .unary f _ => match f y with
    | .error e => .error e
    | .ok r => .ok [⟨r.1, r.2, y.label⟩]
  | .copyAssign f _ => match f y with
    | .error e => .error e
    | .ok r => .ok [⟨r.1, r.2, y.label⟩]
  | .copyWrite f _ => match f y with
    | .error e => .error e
    | .ok x => .ok [⟨⟨y.x.shape, x.get⟩, y.dtype, y.label⟩]
  | .reduce f axis _ => match f y with
    | .error e => .error e
    | .ok r => match pyPop y.label axis with
      | .error e => .error e
      | .ok ls => .ok [⟨r.1, r.2, ls⟩]
  | .morph lab axis _ => Res.one (y.morph lab axis)
  | .morphLike _ _ => Res.one (y.morphLike z)
  | .sortaxis axis reverse _ => Res.one (y.sortaxis axis reverse)
  | .take indices axis _ => Res.one (y.take indices axis)
  | .keepLabel op axis _ => Res.one (y.keepLabel op axis)
  | .lag nlag axis _ => Res.one (y.lag nlag axis)
  | .transpose _ => .ok [y.T]
  | .swapaxes a1 a2 _ => Res.one (y.swapaxes a1 a2)
  | .flipaxis axis _ _ => Res.one (y.flipaxis axis)
  | .maplabel f axis _ _ => Res.one (y.maplabel f axis)
  | .vacuum axis _ => Res.one (y.vacuum axis)
  | .cutMissing fraction axis _ => Res.one (y.cutMissing fraction axis)
  | .keepX op value vac _ => Res.one (y.keepX op value vac)
  | .insertaxis axis name _ => Res.one (y.insertaxis axis name)
  | .binop uf always _ _ => Res.one (if always then y.compare uf z else Larry.binop uf y z)
  | .align join cast _ _ => Res.both (La.align y z join cast)
  | .binaryop cv uf join cast m1 m2 _ _ => Res.raw (La.binaryop cv uf y z join cast m1 m2)
  | .merge update _ _ => Res.one (La.merge y z update)
  | .getitem _ idx _ => Res.getOut (y.getitem idx)
  | _ => .ok []

/-- The call returns references to larrys with the given values, or raises the given exception. -/
def Returns (h : Heap L) (m : HM L (List Ref)) : Res (List (Larry L)) → Prop
  | .error e => m.out h = .error e
  | .ok zs => ∃ qs : List Nat, m.out h = .ok (qs.map Ref.larry) ∧
      List.Forall₂ (fun q z => ∃ z', (m.after h).larry q = some z' ∧ z'.Same z) qs zs

/-! ## Lemmas -/

section
variable {h : Heap L}

omit [LinearOrder L] in
theorem Returns.step {α : Type} {m : HM L α} {v : α} {f : α → HM L (List Ref)} {r : Res (List (Larry L))}
    (hm : Run h m v h) (hf : Returns h (f v) r) : Returns h (m >>= f) r := by
  cases r with
  | error e => exact Run.raises hm hf
  | ok zs =>
    obtain ⟨qs, h1, h2⟩ := hf
    obtain ⟨e1, e2⟩ := HM.bind_ok (f := f) hm.1
    rw [hm.2] at e1 e2
    exact ⟨qs, by rw [e1, h1], by rw [e2]; exact h2⟩

omit [LinearOrder L] in
theorem Run.asLarry {env : List Ref} {i p : Nat} (hi : env[i]? = some (.larry p)) :
    Run h (La.asLarry env i) p h := by
  unfold La.asLarry
  rw [hi]
  exact Run.pure

omit [LinearOrder L] in
theorem Returns.same {m : HM L Nat} {r : Res (Larry L)} (hm : RefinesSame h m r) : Returns h (giveLarry m) (Res.one r) := by
  cases r with
  | error e => exact HM.raises_left hm
  | ok z =>
    obtain ⟨z', ⟨q, h', r1, e1, o, ho⟩, hs⟩ := hm
    have r2 : Run h (giveLarry m) [Ref.larry q] h' := Run.bind r1 Run.pure
    refine ⟨[q], r2.1, List.Forall₂.cons ⟨z', ?_, hs⟩ List.Forall₂.nil⟩
    rw [r2.2]
    exact ho.larry

omit [LinearOrder L] in
theorem Returns.one {m : HM L Nat} {r : Res (Larry L)} (hm : Refines h m r) : Returns h (giveLarry m) (Res.one r) := by
  refine Returns.same ?_
  cases r with
  | error e => exact hm
  | ok z => exact ⟨z, hm, Larry.Same.refl _⟩

/-- An index that copies gives a larry. -/
theorem getitem_copies {y : Larry L} {idx : Index L} {t : GetOut L} (hs : idx.entries.any Item.isSeq = true)
    (hg : y.getitem idx = .ok t) : ∃ z, t = .larry z := by
  have done : ∀ {r : Res (Larry L)}, (match r with | .error e => Except.error e | .ok z => Except.ok (GetOut.larry z)) = Except.ok t →
      ∃ z, t = .larry z := by
    intro r hr
    cases r with
    | error e => simp at hr
    | ok z => exact ⟨z, by simpa using hr.symm⟩
  cases idx with
  | tuple its =>
    simp only [Larry.getitem, Larry.getTuple] at hg
    split at hg
    · simp at hg
    split at hg
    · simp at hg
    rw [if_neg] at hg
    · exact done hg
    · intro hall
      obtain ⟨it, h1, h2⟩ := List.any_eq_true.mp hs
      have := List.all_eq_true.mp hall it h1
      cases it <;> simp_all [Item.isInt, Item.isSeq]
  | one it =>
    have hs' : it.isSeq = true := by simpa [Index.entries] using hs
    cases it with
    | seq is =>
      simp only [Larry.getitem, Larry.getSeq] at hg
      split at hg
      · simp at hg
      split at hg
      · simp at hg
      split at hg
      · simp at hg
      · exact ⟨_, by simpa using hg.symm⟩
    | mask bs =>
      simp only [Larry.getitem] at hg
      split at hg
      · simp at hg
      split at hg
      · simp at hg
      · exact ⟨_, by simpa using hg.symm⟩
    | lar m =>
      simp only [Larry.getitem] at hg
      split at hg
      · simp at hg
      split at hg
      · simp at hg
      split at hg
      · simp at hg
      · exact done hg
    | _ => simp [Item.isSeq] at hs'

omit [LinearOrder L] in
theorem Larry.Valid.fits {y : Larry L} (hv : y.Valid) : y.Fits := hv.shape_eq.symm

end

/-- Copying calls return larrys with the values the methods compute (up to what the model keeps outside
the arrays), and raise what the methods raise. -/
theorem C23_values {h : Heap L} (hw : h.Wf) {env : List Ref} {a : Act L} (hc : a.Copies env h) {p r : Nat}
    {y z : Larry L} (hi : env[a.args.1]? = some (.larry p)) (hj : env[a.args.2]? = some (.larry r))
    (hy : h.larry p = some y) (hz : h.larry r = some z) (hv : y.Valid) :
    Returns h (a.run env) (a.means y z) := by
  obtain ⟨o, ho⟩ := ObjAt.of_larry hw hy
  obtain ⟨o', ho'⟩ := ObjAt.of_larry hw hz
  have hf := hv.fits
  cases a with
  | copy i => exact Returns.step (Run.asLarry hi) (Returns.one (r := .ok y) (hCopy_refines ho))
  | unary f i =>
    refine Returns.step (Run.asLarry hi) ?_
    have := Returns.one (hUnary_refines f ho)
    simp only [Act.means]
    cases hfy : f y with
    | error e => rw [hfy] at this; exact this
    | ok t => rw [hfy] at this; exact this
  | copyAssign f i =>
    refine Returns.step (Run.asLarry hi) ?_
    have := Returns.one (hCopyAssign_refines f ho)
    simp only [Act.means]
    cases hfy : f y with
    | error e => rw [hfy] at this; exact this
    | ok t => rw [hfy] at this; exact this
  | copyWrite f i =>
    refine Returns.step (Run.asLarry hi) ?_
    have := Returns.same (hCopyWrite_refines f ho)
    simp only [Act.means]
    cases hfy : f y with
    | error e => rw [hfy] at this; exact this
    | ok t => rw [hfy] at this; exact this
  | reduce f axis i =>
    refine Returns.step (Run.asLarry hi) ?_
    have := Returns.one (hReduce_refines f axis ho)
    simp only [Act.means]
    cases hfy : f y with
    | error e => rw [hfy] at this; exact this
    | ok t =>
      rw [hfy] at this
      dsimp only at this ⊢
      cases hp : pyPop y.label axis with
      | error e => rw [hp] at this; exact this
      | ok t => rw [hp] at this; exact this
  | morph lab axis i => exact Returns.step (Run.asLarry hi) (Returns.one (hMorph_refines lab axis ho))
  | morphLike i j => exact Returns.step (Run.asLarry hi) (Returns.step (Run.asLarry hj) (Returns.one (hMorphLike_refines ho ho')))
  | sortaxis axis reverse i =>
    refine Returns.step (Run.asLarry hi) (Returns.one (hSortaxis_refines axis reverse ho ?_))
    intro hn
    cases axis with
    | some a => simp [Larry.axesOf] at hn
    | none =>
      have := hc rfl p o hi ho.cell
      rw [ho.array.shape] at this
      apply this
      simp only [Larry.axesOf, List.map_eq_nil_iff, List.range_eq_nil] at hn
      exact List.length_eq_zero_iff.mp hn
  | take indices axis i => exact Returns.step (Run.asLarry hi) (Returns.one (hTake_refines indices axis ho))
  | keepLabel op axis i => exact Returns.step (Run.asLarry hi) (Returns.one (hKeepLabel_refines op axis ho))
  | lag nlag axis i => exact Returns.step (Run.asLarry hi) (Returns.one (hLag_refines nlag axis ho))
  | transpose i => exact Returns.step (Run.asLarry hi) (Returns.one (r := .ok y.T) (hT_refines ho))
  | swapaxes a1 a2 i => exact Returns.step (Run.asLarry hi) (Returns.one (hSwapaxes_refines a1 a2 ho))
  | flipaxis axis c i =>
    cases hc
    exact Returns.step (Run.asLarry hi) (Returns.one (hFlipaxis_refines axis ho))
  | maplabel f axis c i =>
    cases hc
    exact Returns.step (Run.asLarry hi) (Returns.one (hMaplabel_refines f axis ho))
  | vacuum axis i => exact Returns.step (Run.asLarry hi) (Returns.one (hVacuum_refines axis ho hf))
  | cutMissing fr axis i => exact Returns.step (Run.asLarry hi) (Returns.one (hCutMissing_refines fr axis ho hf))
  | keepX op value vac i => exact Returns.step (Run.asLarry hi) (Returns.same (hKeepX_refines op value vac ho hf))
  | insertaxis axis name i => exact Returns.step (Run.asLarry hi) (Returns.one (hInsertaxis_refines axis name ho))
  | binop uf always i j =>
    exact Returns.step (Run.asLarry hi) (Returns.step (Run.asLarry hj) (Returns.one (hBinop_run uf always ho ho')))
  | align join cast i j =>
    refine Returns.step (Run.asLarry hi) (Returns.step (Run.asLarry hj) ?_)
    have := hAlign_run join cast ho ho'
    simp only [Act.means]
    cases hal : La.align y z join cast with
    | error e => rw [hal] at this; exact HM.raises_left this
    | ok t =>
      obtain ⟨z1, z2⟩ := t
      rw [hal] at this
      obtain ⟨q1, q2, h', r1, -, ⟨o1, k1⟩, o2, k2⟩ := this
      have r2 : Run h (do
        let q ← hAlign join cast p r
        return [Ref.larry q.1, Ref.larry q.2]) [.larry q1, .larry q2] h' := Run.bind r1 Run.pure
      refine ⟨[q1, q2], r2.1, ?_⟩
      rw [r2.2]
      exact List.Forall₂.cons ⟨z1, k1.larry, Larry.Same.refl _⟩
        (List.Forall₂.cons ⟨z2, k2.larry, Larry.Same.refl _⟩ List.Forall₂.nil)
  | binaryop cv uf join cast m1 m2 i j =>
    refine Returns.step (Run.asLarry hi) (Returns.step (Run.asLarry hj) ?_)
    have := hBinaryop_run cv uf join cast m1 m2 ho ho' (Or.inl hc)
    simp only [Act.means, La.binaryop]
    cases hal : alignRaw y z join cast with
    | error e => rw [hal] at this; exact HM.raises_left this
    | ok t =>
      obtain ⟨s, labs⟩ := t
      rw [hal] at this
      dsimp only at this ⊢
      by_cases hg : ((m1.isSome || m2.isSome) && s.x1.shape != s.x2.shape) = true
      · rw [if_pos hg] at this ⊢
        exact HM.raises_left this
      · rw [if_neg hg] at this ⊢
        have hd : (fillMiss cv m1 m2 s).d1 = s.d1 ∧ (fillMiss cv m1 m2 s).d2 = s.d2 := by
          obtain ⟨rfl, rfl⟩ := hc
          exact ⟨rfl, rfl⟩
        rw [hd.1, hd.2]
        cases hn : npBinop uf (fillMiss cv m1 m2 s).x1 s.d1 (fillMiss cv m1 m2 s).x2 s.d2 with
        | error e => rw [hn] at this; exact HM.raises_left this
        | ok t =>
          obtain ⟨x, d⟩ := t
          rw [hn] at this
          obtain ⟨q, h', r1, -, -, ⟨oq, z', hq, hs⟩, -⟩ := this
          have r2 : Run h (giveLarry (hBinaryop cv uf join cast m1 m2 p r)) [.larry q] h' := Run.bind r1 Run.pure
          refine ⟨[q], r2.1, List.Forall₂.cons ⟨z', ?_, hs⟩ List.Forall₂.nil⟩
          rw [r2.2]
          exact hq.larry
  | merge update i j =>
    have hcopy := (C23_copy hw (a := .merge update i j) hc).2.2
    have hrun : ∀ {q h'}, Run h (hMerge update p r) q h' → Run h (Act.run env (.merge update i j)) [.larry q] h' :=
      fun r1 => Run.bind (Run.asLarry hi) (Run.bind (Run.asLarry hj) (Run.bind r1 Run.pure))
    have := hMerge_run update ho ho'
    simp only [Act.means]
    cases hm : La.merge y z update with
    | error e =>
      rw [hm] at this
      exact Returns.step (Run.asLarry hi) (Returns.step (Run.asLarry hj) (HM.raises_left this))
    | ok t =>
      rw [hm] at this
      obtain ⟨q, h', oq, z', r1, hq, hs, -, -⟩ := this
      have r2 := hrun r1
      refine ⟨[q], r2.1, List.Forall₂.cons ⟨z', ?_, hs ?_⟩ List.Forall₂.nil⟩
      · rw [r2.2]
        exact hq.larry
      · rintro rfl
        have h1 := (hcopy _ r2.1 q (by simp) q (by
          rw [r2.2]
          unfold Heap.foot
          rw [hq.cell]
          simp)).1
        have := ho.hi
        omega
  | getitem isList idx i =>
    refine Returns.step (Run.asLarry hi) ?_
    have := hGetitem_run isList idx ho hf
    simp only [Act.means]
    cases hg : y.getitem idx with
    | error e => rw [hg] at this; exact HM.raises_left this
    | ok t =>
      rw [hg] at this
      obtain ⟨w, rfl⟩ := getitem_copies (idx := idx) (by
        cases idx with
        | one it => simpa [Index.entries] using hc.1
        | tuple its => exact hc.1) hg
      obtain ⟨q, h', oq, r1, -, hq, -⟩ := this
      have r2 : Run h (do
        let r ← hGetitem isList idx p
        return [r]) [.larry q] h' := Run.bind r1 Run.pure
      refine ⟨[q], r2.1, List.Forall₂.cons ⟨w, ?_, Larry.Same.refl _⟩ List.Forall₂.nil⟩
      rw [r2.2]
      exact hq.larry
  | _ => exact absurd hc (by simp [Act.Copies])

/-- Met for `exA` and `exD`. -/
example : exS.2.Wf ∧ (Act.align (L := Nat) (.one .outer) true 4 9).Copies exS.1 exS.2 ∧
    exS.1[(Act.align (L := Nat) (.one .outer) true 4 9).args.1]? = some (.larry 4) ∧
    exS.1[(Act.align (L := Nat) (.one .outer) true 4 9).args.2]? = some (.larry 9) ∧
    exS.2.larry 4 = some exA ∧ exS.2.larry 9 = some exD ∧ exA.Valid :=
  ⟨exS_wf.1, trivial, rfl, rfl, rfl, rfl, exA_valid⟩

end La
