import Verif.HeapFacts
import Verif.Examples

/-!
# C23: what a larry shares with the larrys it was made from

Copying calls give larrys that share nothing with what was there before, and later steps of a program on
one side never change what the other side sees.  `squeeze`, `pull` and indexing with integers and slices
give views.  `merge` and `binaryop` with fills write into their arguments in exactly the cases stated.
-/

namespace La
variable {L : Type}

/-! ## Specification -/

/-- Everything in the memory is at an address given out and refers to addresses given out. -/
def Heap.Wf (h : Heap L) : Prop := ∀ a c, h.cell a = some c → a < h.next ∧ c.Refs (· < h.next)

/-- The addresses a larry consists of: itself, the buffer of its array, its list of lists, its lists. -/
def Heap.foot (h : Heap L) (p : Nat) : List Nat :=
  match h.cell p with
  | some (.obj o) => p :: o.x.buf :: o.label :: h.out o.label
  | _ => [p]

/-- What a program sees through a reference. -/
inductive Seen (L : Type)
  | larry (y : Option (Larry L))
  | array (x : NDArray Val) (d : DType)
  | lst (l : List L)
  | out (ls : List (List L))
  | scalar

def Heap.see (h : Heap L) : Ref → Seen L
  | .larry p => .larry (h.larry p)
  | .array v => .array (h.array v) v.dtype
  | .lst a => .lst (h.lst a)
  | .out a => .out ((h.out a).map h.lst)
  | .scalar => .scalar

/-- The references held are to addresses given out. -/
def Live (env : List Ref) (h : Heap L) : Prop := ∀ r ∈ env, r.In (· < h.next)

/-- The calls that are to return something independent of their arguments, among the steps of a program
that holds `env` in the memory `h`:
- `sortaxis()` of a 0d larry returns the larry itself;
- `flipaxis` and `maplabel` have to be called with `copy=True`, the default;
- `binaryop` has to be called without fills (see `C23_binaryop` for the others);
- `merge` only if the labels differ on some axis (see `C23_merge_self`);
- `y[index]` if the index is a mask, a larry or an integer array, or a tuple with a list, mask or larry
  among its entries and an entry for every axis. -/
def Act.Copies (env : List Ref) (h : Heap L) : Act L → Prop
  | .copy _ | .unary .. | .copyAssign .. | .copyWrite .. | .reduce .. | .morph .. | .morphLike .. | .take ..
  | .keepLabel .. | .lag .. | .transpose _ | .swapaxes .. | .vacuum .. | .cutMissing .. | .keepX .. | .insertaxis ..
  | .binop .. | .align .. => True
  | .sortaxis axis _ i => axis = none → ∀ p o, env[i]? = some (.larry p) → h.cell p = some (.obj o) → o.x.ix.shape ≠ []
  | .flipaxis _ c _ => c = true
  | .maplabel _ _ c _ => c = true
  | .binaryop _ _ _ _ missone misstwo _ _ => missone = none ∧ misstwo = none
  | .merge _ i j => ∀ p r o1 o2, env[i]? = some (.larry p) → env[j]? = some (.larry r) →
      h.cell p = some (.obj o1) → h.cell r = some (.obj o2) →
      ∃ ax < (h.value o1).ndim, (h.value o1).label.getD ax [] ≠ (h.value o2).label.getD ax []
  | .getitem isList (.one it) _ => it.isSeq = true ∧ isList = false
  | .getitem _ (.tuple its) i => its.any Item.isSeq = true ∧
      ∀ p o, env[i]? = some (.larry p) → h.cell p = some (.obj o) → (h.out o.label).length ≤ its.length
  | _ => False

/-! ## Lemmas -/

theorem HCell.Refs.mono {P P' : Nat → Prop} (hP : ∀ a, P a → P' a) : ∀ {c : HCell L}, c.Refs P → c.Refs P'
  | .buf _, _ => trivial
  | .lst _, _ => trivial
  | .out _, h => fun a ha => hP a (h a ha)
  | .obj _, h => ⟨hP _ h.1, hP _ h.2⟩

theorem Ref.In.mono {P P' : Nat → Prop} (hP : ∀ a, P a → P' a) : ∀ {r : Ref}, r.In P → r.In P'
  | .larry _, h => hP _ h
  | .array _, h => hP _ h
  | .lst _, h => hP _ h
  | .out _, h => hP _ h
  | .scalar, _ => trivial

/-- What is seen through a reference depends on the addresses it leads to. -/
theorem Heap.see_congr {P : Nat → Prop} {h h' : Heap L} (hcl : h.Closed P) (he : ∀ a, P a → h'.cell a = h.cell a)
    {r : Ref} (hr : r.In P) : h'.see r = h.see r := by
  have hbuf : ∀ a, P a → h'.buf a = h.buf a := fun a ha => by unfold Heap.buf; rw [he a ha]
  have hlst : ∀ a, P a → h'.lst a = h.lst a := fun a ha => by unfold Heap.lst; rw [he a ha]
  have hout : ∀ a, P a → h'.out a = h.out a := fun a ha => by unfold Heap.out; rw [he a ha]
  have hib : ∀ a, P a → h'.isBuf a = h.isBuf a := fun a ha => by unfold Heap.isBuf; rw [he a ha]
  have hil : ∀ a, P a → h'.isLst a = h.isLst a := fun a ha => by unfold Heap.isLst; rw [he a ha]
  have hio : ∀ a, P a → h'.isOut a = h.isOut a := fun a ha => by unfold Heap.isOut; rw [he a ha]
  have hin : ∀ a, P a → ∀ b ∈ h.out a, P b := by
    intro a ha b hb
    unfold Heap.out at hb
    split at hb
    · rename_i as has
      exact hcl a _ ha has b hb
    · simp at hb
  have hmap : ∀ a, P a → (h'.out a).map h'.lst = (h.out a).map h.lst := by
    intro a ha
    rw [hout a ha]
    exact List.map_congr_left (fun b hb => hlst b (hin a ha b hb))
  cases r with
  | larry p =>
    simp only [Heap.see, Heap.larry]
    rw [he p hr]
    cases hc : h.cell p with
    | none => rfl
    | some c =>
      cases c with
      | buf f => rfl
      | lst l => rfl
      | out as => rfl
      | obj o =>
        obtain ⟨h1, h2⟩ := hcl p _ hr hc
        have hall : (h'.out o.label).all h'.isLst = (h.out o.label).all h.isLst := by
          rw [hout _ h2, Bool.eq_iff_iff]
          simp only [List.all_eq_true]
          exact forall₂_congr (fun b hb => by rw [hil b (hin _ h2 b hb)])
        simp only [hib _ h1, hio _ h2, hall, Heap.value, Heap.array, hbuf _ h1, hmap _ h2]
  | array v => simp only [Heap.see, Heap.array, hbuf _ hr]
  | lst a => simp only [Heap.see, hlst _ hr]
  | out a => simp only [Heap.see, hmap _ hr]
  | scalar => rfl

theorem Heap.foot_in {P : Nat → Prop} {h : Heap L} (hcl : h.Closed P) {p : Nat} (hp : P p) : ∀ a ∈ h.foot p, P a := by
  intro a ha
  unfold Heap.foot at ha
  split at ha
  · rename_i o ho
    obtain ⟨h1, h2⟩ := hcl p _ hp ho
    simp only [List.mem_cons] at ha
    rcases ha with rfl | rfl | rfl | ha
    · exact hp
    · exact h1
    · exact h2
    · unfold Heap.out at ha
      split at ha
      · rename_i as has
        exact hcl _ _ h2 has a ha
      · simp at ha
  · simp only [List.mem_singleton] at ha
    rw [ha]; exact hp

section
variable [LinearOrder L]

/-- Every step keeps the memory in order. -/
theorem Act.wf {h : Heap L} (hw : h.Wf) {env : List Ref} (he : Live env h) (a : Act L) :
    ((a.run env).after h).Wf ∧ ∀ rs, (a.run env).out h = .ok rs → Live rs ((a.run env).after h) := by
  have hle := HM.next_le (a.run env) h
  obtain ⟨h1, h2, h3⟩ := SafeAt.use (P := fun b => b < ((a.run env).after h).next) (h := h)
    (Safe.at (Safe.run (fun _ _ hb => hb) (fun r hr => (he r hr).mono (fun b hb => lt_of_lt_of_le hb hle)) a))
    (fun b c _ hc => (hw b c hc).2.mono (fun b hb => lt_of_lt_of_le hb hle))
  refine ⟨fun b c hc => ?_, h3⟩
  have hb : b < ((a.run env).after h).next := by
    by_contra hn
    rw [h1 b hn] at hc
    have := (hw b c hc).1
    omega
  exact ⟨hb, h2 b c hb hc⟩

omit [LinearOrder L] in
theorem asLarry_after (env : List Ref) (i : Nat) (h : Heap L) : (asLarry env i : HM L Nat).after h = h := by
  unfold asLarry
  split <;> rfl

omit [LinearOrder L] in
theorem asLarry_ok {env : List Ref} {i : Nat} {h : Heap L} {p : Nat} (hp : (asLarry env i : HM L Nat).out h = .ok p) :
    env[i]? = some (.larry p) := by
  unfold asLarry at hp
  split at hp
  · rename_i p' h'
    cases hp
    exact h'
  · cases hp

/-- Copying calls stay within what is new. -/
theorem Act.copies_safe {P : Nat → Prop} {h0 : Base L} {h : Heap L} (hP : ∀ a, h0.next ≤ a → a < h0.top → P a)
    {env : List Ref} {a : Act L} (hc : a.Copies env h) :
    SafeAt P h0 h (a.run env) (fun rs => ∀ r ∈ rs, r.In P) := by
  cases a with
  | copy i => exact SafeAt.read (asLarry_after _ _ _) (fun p _ => (Safe.give (Safe.hCopy hP p)).at)
  | unary f i => exact SafeAt.read (asLarry_after _ _ _) (fun p _ => (Safe.give (Safe.hUnary hP f p)).at)
  | copyAssign f i => exact SafeAt.read (asLarry_after _ _ _) (fun p _ => (Safe.give (Safe.hCopyAssign hP f p)).at)
  | copyWrite f i => exact SafeAt.read (asLarry_after _ _ _) (fun p _ => (Safe.give (Safe.hCopyWrite hP f p)).at)
  | reduce f axis i => exact SafeAt.read (asLarry_after _ _ _) (fun p _ => (Safe.give (Safe.hReduce hP f axis p)).at)
  | morph lab axis i => exact SafeAt.read (asLarry_after _ _ _) (fun p _ => (Safe.give (Safe.hMorph hP lab axis p)).at)
  | morphLike i j =>
    refine SafeAt.read (asLarry_after _ _ _) (fun p _ => ?_)
    exact SafeAt.read (asLarry_after _ _ _) (fun r _ => (Safe.give (Safe.hMorphLike hP p r)).at)
  | sortaxis axis reverse i =>
    refine SafeAt.read (asLarry_after _ _ _) (fun p hp => ?_)
    refine SafeAt.bind (SafeAt.hSortaxis hP axis reverse (fun hn o ho => hc hn p o (asLarry_ok hp) ho)) (fun q hq => ?_)
    exact Safe.pure (by simpa [Ref.In] using hq)
  | take indices axis i => exact SafeAt.read (asLarry_after _ _ _) (fun p _ => (Safe.give (Safe.hTake hP indices axis p)).at)
  | keepLabel op axis i => exact SafeAt.read (asLarry_after _ _ _) (fun p _ => (Safe.give (Safe.hKeepLabel hP op axis p)).at)
  | lag nlag axis i => exact SafeAt.read (asLarry_after _ _ _) (fun p _ => (Safe.give (Safe.hLag hP nlag axis p)).at)
  | transpose i => exact SafeAt.read (asLarry_after _ _ _) (fun p _ => (Safe.give (Safe.hT hP p)).at)
  | swapaxes a1 a2 i => exact SafeAt.read (asLarry_after _ _ _) (fun p _ => (Safe.give (Safe.hSwapaxes hP a1 a2 p)).at)
  | flipaxis axis c i =>
    exact SafeAt.read (asLarry_after _ _ _) (fun p _ => (Safe.give (Safe.hFlipaxis hP axis (Or.inl hc))).at)
  | maplabel f axis c i =>
    exact SafeAt.read (asLarry_after _ _ _) (fun p _ => (Safe.give (Safe.hMaplabel hP f axis (Or.inl hc))).at)
  | vacuum axis i => exact SafeAt.read (asLarry_after _ _ _) (fun p _ => (Safe.give (Safe.hVacuum hP axis p)).at)
  | cutMissing fr axis i =>
    exact SafeAt.read (asLarry_after _ _ _) (fun p _ => (Safe.give (Safe.hCutMissing hP fr axis p)).at)
  | keepX op value vac i =>
    exact SafeAt.read (asLarry_after _ _ _) (fun p _ => (Safe.give (Safe.hKeepX hP op value vac p)).at)
  | insertaxis axis name i =>
    exact SafeAt.read (asLarry_after _ _ _) (fun p _ => (Safe.give (Safe.hInsertaxis hP axis name p)).at)
  | binop uf always i j =>
    refine SafeAt.read (asLarry_after _ _ _) (fun p _ => ?_)
    exact SafeAt.read (asLarry_after _ _ _) (fun r _ => (Safe.give (Safe.hBinop hP uf always p r)).at)
  | align join cast i j =>
    refine SafeAt.read (asLarry_after _ _ _) (fun p _ => ?_)
    refine SafeAt.read (asLarry_after _ _ _) (fun r _ => ?_)
    exact (Safe.bind (Safe.hAlign hP join cast p r) (fun q hq => Safe.pure (by simpa [Ref.In] using hq))).at
  | binaryop cv uf join cast m1 m2 i j =>
    obtain ⟨rfl, rfl⟩ := hc
    refine SafeAt.read (asLarry_after _ _ _) (fun p _ => ?_)
    exact SafeAt.read (asLarry_after _ _ _) (fun r _ => (Safe.give (Safe.hBinaryopNone hP cv uf join cast p r)).at)
  | merge update i j =>
    refine SafeAt.read (asLarry_after _ _ _) (fun p hp => ?_)
    refine SafeAt.read (asLarry_after _ _ _) (fun r hr => ?_)
    refine SafeAt.bind (SafeAt.hMerge hP update (fun o1 o2 h1 h2 => hc p r o1 o2 (asLarry_ok hp) (asLarry_ok hr) h1 h2))
      (fun q hq => ?_)
    exact Safe.pure (by simpa [Ref.In] using hq)
  | getitem isList idx i =>
    cases idx with
    | one it =>
      obtain ⟨hs, rfl⟩ := hc
      refine SafeAt.read (asLarry_after _ _ _) (fun p _ => ?_)
      exact (Safe.bind (Safe.hGetitemNew hP hs p) (fun r hr => Safe.pure (by simpa using hr))).at
    | tuple its =>
      refine SafeAt.read (asLarry_after _ _ _) (fun p hp => ?_)
      refine SafeAt.bind (SafeAt.hGetTuple hP its hc.1 (fun o ho => hc.2 p o (asLarry_ok hp) ho)) (fun r hr => ?_)
      exact Safe.pure (by simpa using hr)
  | _ => exact absurd hc (by simp [Act.Copies])

/-- A step, as memory and references held. -/
theorem Act.step_after (s : List Ref × Heap L) (a : Act L) : (Act.step s a).2 = (a.run s.1).after s.2 ∧
    ((Act.step s a).1 = s.1 ∨ ∃ rs, (a.run s.1).out s.2 = .ok rs ∧ (Act.step s a).1 = s.1 ++ rs) := by
  unfold Act.step HM.after HM.out
  split
  · rename_i rs h' heq
    rw [heq]
    exact ⟨rfl, Or.inr ⟨rs, rfl, rfl⟩⟩
  · rename_i heq
    rw [heq]
    exact ⟨rfl, Or.inl rfl⟩

/-- A program keeps the memory in order. -/
theorem Act.exec_wf : ∀ (acts : List (Act L)) (s : List Ref × Heap L), s.2.Wf → Live s.1 s.2 →
    (Act.exec acts s).2.Wf ∧ Live (Act.exec acts s).1 (Act.exec acts s).2
  | [], _, hw, hl => ⟨hw, hl⟩
  | a :: acts, s, hw, hl => by
    obtain ⟨h1, h2⟩ := Act.step_after s a
    obtain ⟨w1, w2⟩ := Act.wf hw hl a
    have hle := HM.next_le (a.run s.1) s.2
    rw [← h1] at w1 w2 hle
    refine Act.exec_wf acts _ w1 ?_
    have hl1 : Live s.1 (Act.step s a).2 := fun r hr => (hl r hr).mono (fun b hb => lt_of_lt_of_le hb hle)
    rcases h2 with h2 | ⟨rs, hrs, h2⟩
    · rw [h2]; exact hl1
    · rw [h2]
      intro r hr
      rcases List.mem_append.mp hr with hr | hr
      · exact hl1 r hr
      · exact w2 rs hrs r hr

/-- A memory with nothing in it. -/
def Heap.empty : Heap L := ⟨fun _ => none, 0⟩

/-- A larry with the labels of `exA`. -/
def exD : Larry Nat :=
  ⟨NDArray.ofList [2, 3] [.flt .nan, fl 20, fl 30, fl 40, fl 50, fl 60], .float, [[10, 20], [3, 1, 2]]⟩

/-- A program that holds `exA` and `exD`, made from their parts. -/
def exS : List Ref × Heap Nat := Act.exec
  [.mkArray exA.x .float, .mkList [10, 20], .mkList [3, 1, 2], .mkOut [1, 2], .init 0 3,
   .mkArray exD.x .float, .mkList [10, 20], .mkList [3, 1, 2], .mkOut [6, 7], .init 5 8] ([], Heap.empty)

theorem exS_wf : exS.2.Wf ∧ Live exS.1 exS.2 :=
  Act.exec_wf _ _ (fun a c hc => by cases hc) (fun r hr => by cases hr)

theorem exS_larry : exS.1[4]? = some (.larry 4) ∧ exS.1[9]? = some (.larry 9) ∧ exS.2.larry 4 = some exA ∧
    exS.2.larry 9 = some exD := ⟨rfl, rfl, rfl, rfl⟩

/-- A copying call writes to nothing that was there, whether it returns or raises, and what it returns
consists of nothing that was there. -/
theorem C23_copy {h : Heap L} (hw : h.Wf) {env : List Ref} {a : Act L} (hc : a.Copies env h) :
    (∀ b < h.next, ((a.run env).after h).cell b = h.cell b) ∧
    (∀ r, r.In (· < h.next) → ((a.run env).after h).see r = h.see r) ∧
    ∀ rs, (a.run env).out h = .ok rs →
      ∀ q, Ref.larry q ∈ rs → ∀ b ∈ ((a.run env).after h).foot q, h.next ≤ b ∧ ∀ p < h.next, b ∉ h.foot p := by
  obtain ⟨h1, h2, h3⟩ := SafeAt.use (P := fun b => h.next ≤ b) (h := h) (m := a.run env)
    (Act.copies_safe (fun _ hb _ => hb) hc) (fun b c hb hcell => absurd (hw b c hcell).1 (by omega))
  have h4 : ∀ b < h.next, ((a.run env).after h).cell b = h.cell b := fun b hb => h1 b (by omega)
  refine ⟨h4, ?_, ?_⟩
  · intro r hr
    exact Heap.see_congr (P := (· < h.next)) (fun b c _ hcell => (hw b c hcell).2) h4 hr
  · intro rs hrs q hq b hb
    have hb1 := Heap.foot_in h2 (h3 rs hrs _ hq) b hb
    refine ⟨hb1, fun p hp hmem => ?_⟩
    have := Heap.foot_in (P := (· < h.next)) (fun b c _ hcell => (hw b c hcell).2) hp b hmem
    omega

/-- Met by the program that holds `exA` and `exD`; `copy`, `morph` to other labels and `binaryop` without
fills return larrys. -/
example : exS.2.Wf ∧ (Act.copy 4).Copies exS.1 exS.2 ∧ (Act.morph [20, 30] 0 4).Copies exS.1 exS.2 ∧
    ((Act.copy 4).run exS.1).out exS.2 = .ok [.larry 14] ∧
    (Act.exec [.morph [20, 30] 0 4] exS).1.length = exS.1.length + 1 :=
  ⟨exS_wf.1, trivial, trivial, rfl, by decide +kernel⟩

/-- A call that is not among the copying ones: a write to `y[0:1].x` is seen in `y`. -/
example : ((Act.exec [.getitem false (.tuple [.slice ⟨some 0, some 1, none⟩]) 4, .attrX 10,
      .write (fun _ => true) (fun _ => fl 7) 11] exS).2.larry 4).map (fun y => (y.x.get [0, 1], y.x.get [1, 0])) =
    some (fl 7, fl 4) := by decide +kernel

/-! ## Two sides -/

/-- Two parts of a program that hold the references `s.1.1` and `s.1.2` in one memory. -/
abbrev Sides (L : Type) := (List Ref × List Ref) × Heap L

/-- One step by the first (`true`) or second part. -/
def Sides.step (s : Sides L) (c : Bool × Act L) : Sides L :=
  if c.1 then
    let t := Act.step (s.1.1, s.2) c.2
    ((t.1, s.1.2), t.2)
  else
    let t := Act.step (s.1.2, s.2) c.2
    ((s.1.1, t.1), t.2)

/-- The steps of both parts, in any order. -/
def Sides.exec (s : Sides L) (prog : List (Bool × Act L)) : Sides L := prog.foldl Sides.step s

/-- What the first (`true`) or second part holds. -/
def Sides.held (s : Sides L) (side : Bool) : List Ref := if side then s.1.1 else s.1.2

/-- The memory falls into two parts, `A` and the rest, that do not refer to each other. -/
structure Apart (A : Nat → Prop) (env1 env2 : List Ref) (h : Heap L) : Prop where
  wf : h.Wf
  live1 : Live env1 h
  live2 : Live env2 h
  in1 : ∀ r ∈ env1, r.In A
  in2 : ∀ r ∈ env2, r.In (fun a => ¬ A a)
  closed1 : h.Closed A
  closed2 : h.Closed (fun a => ¬ A a)

theorem Ref.In.and {P P' : Nat → Prop} : ∀ {r : Ref}, r.In P → r.In P' → r.In (fun a => P a ∧ P' a)
  | .larry _, h, h' => ⟨h, h'⟩
  | .array _, h, h' => ⟨h, h'⟩
  | .lst _, h, h' => ⟨h, h'⟩
  | .out _, h, h' => ⟨h, h'⟩
  | .scalar, _, _ => trivial

omit [LinearOrder L] in
theorem HCell.Refs.and {P P' : Nat → Prop} : ∀ {c : HCell L}, c.Refs P → c.Refs P' → c.Refs (fun a => P a ∧ P' a)
  | .buf _, _, _ => trivial
  | .lst _, _, _ => trivial
  | .out _, h, h' => fun a ha => ⟨h a ha, h' a ha⟩
  | .obj _, h, h' => ⟨⟨h.1, h'.1⟩, ⟨h.2, h'.2⟩⟩

omit [LinearOrder L] in
theorem Apart.swap {A : Nat → Prop} {env1 env2 : List Ref} {h : Heap L} (ha : Apart A env1 env2 h) :
    Apart (fun a => ¬ A a) env2 env1 h where
  wf := ha.wf
  live1 := ha.live2
  live2 := ha.live1
  in1 := ha.in2
  in2 := fun r hr => (ha.in1 r hr).mono (fun _ h => not_not_intro h)
  closed1 := ha.closed2
  closed2 := fun a c h1 h2 => (ha.closed1 a c (not_not.mp h1) h2).mono (fun _ h => not_not_intro h)

/-- A step by the first part keeps the parts apart, and the second part sees no change. -/
theorem Apart.step {A : Nat → Prop} {env1 env2 : List Ref} {h : Heap L} (ha : Apart A env1 env2 h) (a : Act L) :
    (∃ A', Apart A' (Act.step (env1, h) a).1 env2 (Act.step (env1, h) a).2) ∧
    ∀ r ∈ env2, (Act.step (env1, h) a).2.see r = h.see r := by
  have hle := HM.next_le (a.run env1) h
  have hstep : (Act.step (env1, h) a).2 = (a.run env1).after h ∧
      ((Act.step (env1, h) a).1 = env1 ∨ ∃ rs, (a.run env1).out h = .ok rs ∧ (Act.step (env1, h) a).1 = env1 ++ rs) := by
    unfold Act.step HM.after HM.out
    dsimp only
    split
    · rename_i rs h' heq
      rw [heq]
      exact ⟨rfl, Or.inr ⟨rs, rfl, rfl⟩⟩
    · rename_i heq
      rw [heq]
      exact ⟨rfl, Or.inl rfl⟩
  set h' := (a.run env1).after h with hh'
  set A' : Nat → Prop := fun b => (A b ∧ b < h.next) ∨ (h.next ≤ b ∧ b < h'.next) with hA'
  have hlow : ∀ b, A b ∧ b < h.next → A' b := fun b hb => Or.inl hb
  obtain ⟨h1, h2, h3⟩ := SafeAt.use (P := A') (h := h) (m := a.run env1)
    (Safe.at (Safe.run (fun b hb hb' => Or.inr ⟨hb, hb'⟩)
      (fun r hr => ((ha.in1 r hr).and (ha.live1 r hr)).mono hlow) a))
    (by
      intro b c hb hc
      have hbn := (ha.wf b c hc).1
      rcases hb with hb | hb
      · exact ((ha.closed1 b c hb.1 hc).and (ha.wf b c hc).2).mono hlow
      · omega)
  obtain ⟨w1, w2⟩ := Act.wf ha.wf ha.live1 a
  have hcomp : ∀ b, ¬ A b → b < h.next → ¬ A' b := by
    rintro b hb hlt (h | h)
    · exact hb h.1
    · omega
  have hsame : ∀ b, (¬ A b ∧ b < h.next) → h'.cell b = h.cell b := fun b hb => h1 b (hcomp b hb.1 hb.2)
  have hcl2 : h.Closed (fun b => ¬ A b ∧ b < h.next) :=
    fun b c hb hc => (ha.closed2 b c hb.1 hc).and (ha.wf b c hc).2
  have hin2 : ∀ r ∈ env2, r.In (fun b => ¬ A b ∧ b < h.next) := fun r hr => (ha.in2 r hr).and (ha.live2 r hr)
  rw [hstep.1]
  refine ⟨⟨A', ⟨w1, ?_, ?_, ?_, ?_, h2, ?_⟩⟩, fun r hr => Heap.see_congr hcl2 hsame (hin2 r hr)⟩
  · have hl : Live env1 h' := fun r hr => (ha.live1 r hr).mono (fun b hb => lt_of_lt_of_le hb hle)
    rcases hstep.2 with he | ⟨rs, hrs, he⟩
    · rw [he]; exact hl
    · rw [he]
      intro r hr
      rcases List.mem_append.mp hr with hr | hr
      · exact hl r hr
      · exact w2 rs hrs r hr
  · exact fun r hr => (ha.live2 r hr).mono (fun b hb => lt_of_lt_of_le hb hle)
  · have hl : ∀ r ∈ env1, r.In A' := fun r hr => ((ha.in1 r hr).and (ha.live1 r hr)).mono hlow
    rcases hstep.2 with he | ⟨rs, hrs, he⟩
    · rw [he]; exact hl
    · rw [he]
      intro r hr
      rcases List.mem_append.mp hr with hr | hr
      · exact hl r hr
      · exact h3 rs hrs r hr
  · exact fun r hr => (hin2 r hr).mono (fun b hb => hcomp b hb.1 hb.2)
  · intro b c hb hc
    rw [h1 b hb] at hc
    have hbn := (ha.wf b c hc).1
    have hnA : ¬ A b := fun h => hb (Or.inl ⟨h, hbn⟩)
    exact (hcl2 b c ⟨hnA, hbn⟩ hc).mono (fun b hb => hcomp b hb.1 hb.2)

theorem Apart.sides {s : Sides L} (hs : ∃ A, Apart A s.1.1 s.1.2 s.2) (c : Bool × Act L) :
    (∃ A, Apart A (s.step c).1.1 (s.step c).1.2 (s.step c).2) ∧
    ∀ r ∈ s.held (!c.1), (s.step c).2.see r = s.2.see r := by
  obtain ⟨A, hA⟩ := hs
  obtain ⟨side, a⟩ := c
  cases side with
  | true => exact hA.step a
  | false =>
    obtain ⟨⟨B, hB⟩, h2⟩ := hA.swap.step a
    exact ⟨⟨_, hB.swap⟩, h2⟩

/-- Whatever one part of a program does after a copying call with the references that were held before,
and the other part with those the call returned, in any order and number of steps: no step of one part
changes what the other part sees. -/
theorem C23_independent {h : Heap L} (hw : h.Wf) {env : List Ref} (he : Live env h) {a : Act L} (hc : a.Copies env h)
    {rs : List Ref} (hrs : (a.run env).out h = .ok rs) (prog : List (Bool × Act L)) (side : Bool) (b : Act L) :
    let s := Sides.exec ((env, rs), (a.run env).after h) prog
    ∀ r ∈ s.held (!side), (s.step (side, b)).2.see r = s.2.see r := by
  intro s
  have start : ∃ A, Apart A env rs ((a.run env).after h) := by
    obtain ⟨w1, w2⟩ := Act.wf hw he a
    obtain ⟨h1, h2, h3⟩ := SafeAt.use (P := fun b => h.next ≤ b) (h := h) (m := a.run env)
      (Act.copies_safe (fun _ hb _ => hb) hc) (fun b c hb hcell => absurd (hw b c hcell).1 (by omega))
    have hle := HM.next_le (a.run env) h
    refine ⟨(· < h.next), ⟨w1, ?_, w2 rs hrs, he, ?_, ?_, ?_⟩⟩
    · exact fun r hr => (he r hr).mono (fun b hb => lt_of_lt_of_le hb hle)
    · exact fun r hr => (h3 rs hrs r hr).mono (fun b hb => Nat.not_lt.mpr hb)
    · intro b c hb hcell
      rw [h1 b (by omega)] at hcell
      exact (hw b c hcell).2
    · exact fun b c hb hcell => (h2 b c (by omega) hcell).mono (fun b hb => by omega)
  have main : ∀ (prog : List (Bool × Act L)) (s : Sides L), (∃ A, Apart A s.1.1 s.1.2 s.2) →
      ∃ A, Apart A (s.exec prog).1.1 (s.exec prog).1.2 (s.exec prog).2 := by
    intro prog
    induction prog with
    | nil => exact fun s hs => hs
    | cons c prog ih => exact fun s hs => ih (s.step c) (Apart.sides hs c).1
  exact (Apart.sides (main prog _ start) (side, b)).2

/-- Met with `copy`; the other side goes on to write to its array and its labels. -/
example : exS.2.Wf ∧ Live exS.1 exS.2 ∧ (Act.copy 4).Copies exS.1 exS.2 ∧
    ((Act.copy 4).run exS.1).out exS.2 = .ok [.larry 14] ∧
    ((Sides.exec ((exS.1, [.larry 14]), ((Act.copy 4).run exS.1).after exS.2)
      [(false, .attrX 0), (false, .write (fun _ => true) (fun _ => fl 7) 1),
       (false, .shuffleLabel List.reverse 0 0)]).2.larry 14).map (fun y => (y.x.get [1, 2], y.label)) =
        some (fl 7, [[20, 10], [3, 1, 2]]) :=
  ⟨exS_wf.1, exS_wf.2, trivial, rfl, by decide +kernel⟩

end
end La
