import Verif.Testing
import Verif.Props.Heap
import Verif.ReduceFacts
import Verif.Kernel

/-!
# Property C87: what the helpers of the test suite guarantee
-/

namespace La
variable {L : Type}

/-! ## Specification -/

/-- What is asked of `np.may_share_memory`: it sees a common element, and does not see one in different
buffers.  Two parts of one buffer it may or may not tell apart. -/
structure SeesSharing (mayShare : View → View → Bool) : Prop where
  common : ∀ v w i j, v.buf = w.buf → InB v.ix.shape i → InB w.ix.shape j → v.ix.get i = w.ix.get j → mayShare v w = true
  apart : ∀ v w, v.buf ≠ w.buf → mayShare v w = false

/-- The larrys at `p` and `q` are not disjoint parts of one array, and no list of labels of one is a list
of the other along another axis. -/
structure Ordinary (h : Heap L) (o1 o2 : Obj) : Prop where
  parts : o1.x.buf = o2.x.buf → ∃ i j, InB o1.x.ix.shape i ∧ InB o2.x.ix.shape j ∧ o1.x.ix.get i = o2.x.ix.get j
  axes : ∀ (i j : Nat) (a : Nat), (h.out o1.label)[i]? = some a → (h.out o2.label)[j]? = some a → i = j

/-- Equal elements, or finite floats that are close. -/
def CloseTo (close : ℚ → ℚ → Bool) (v w : Val) : Prop :=
  v = w ∨ ∃ a b, v = .flt (.fin a) ∧ w = .flt (.fin b) ∧ close a b = true

/-- The same number, or, if one of them is a float, close ones. -/
def CloseNumber (close : ℚ → ℚ → Bool) (inexact : Prop) (v w : Val) : Prop :=
  v.num = w.num ∨ (inexact ∧ ∃ a b, v.num = .fin a ∧ w.num = .fin b ∧ close a b = true)

/-! ## Lemmas -/

theorem larryAt_ok {h : Heap L} {p : Nat} {o : Obj} : h.larryAt p = .ok o ↔ h.cell p = some (.obj o) := by
  unfold Heap.larryAt
  split <;> simp_all

theorem axisComplaints_nil {bad : Nat → Nat → Bool} {as1 as2 : List Nat} {is : List Nat} :
    axisComplaints bad as1 as2 is = .ok [] ↔
      ∀ i ∈ is, ∃ a b, as1[i]? = some a ∧ as2[i]? = some b ∧ bad a b = false := by
  induction is with
  | nil => simp [axisComplaints]
  | cons i is ih =>
    simp only [axisComplaints, List.forall_mem_cons]
    cases h1 : as1[i]? with
    | none => simp
    | some a =>
      cases h2 : as2[i]? with
      | none => simp
      | some b =>
        rw [← ih]
        cases hr : axisComplaints bad as1 as2 is with
        | error e => simp
        | ok cs => cases hb : bad a b <;> simp [hb]

theorem sharing_nil {badData : Bool} {badLabel : Nat → Nat → Bool} {h : Heap L} {o1 o2 : Obj} :
    sharingComplaints badData badLabel h o1 o2 = .ok [] ↔
      badData = false ∧ ∀ i < min o1.x.ix.ndim o2.x.ix.ndim,
        ∃ a b, (h.out o1.label)[i]? = some a ∧ (h.out o2.label)[i]? = some b ∧ badLabel a b = false := by
  have := axisComplaints_nil (bad := badLabel) (as1 := h.out o1.label) (as2 := h.out o2.label)
    (is := List.range (min o1.x.ix.ndim o2.x.ix.ndim))
  simp only [List.mem_range] at this
  rw [← this]
  unfold sharingComplaints
  cases axisComplaints badLabel (h.out o1.label) (h.out o2.label) _ with
  | error e => simp
  | ok cs => cases badData <;> simp [dataComplaint]

theorem iscopy_nil {mayShare : View → View → Bool} {h : Heap L} {p q : Nat} {o1 o2 : Obj}
    (h1 : h.cell p = some (.obj o1)) (h2 : h.cell q = some (.obj o2)) :
    assertIscopy mayShare h p q = .ok [] ↔ mayShare o1.x o2.x = false ∧ ∀ i < min o1.x.ix.ndim o2.x.ix.ndim,
      ∃ a b, (h.out o1.label)[i]? = some a ∧ (h.out o2.label)[i]? = some b ∧ a ≠ b := by
  unfold assertIscopy
  rw [larryAt_ok.mpr h1, larryAt_ok.mpr h2]
  dsimp only
  rw [sharing_nil]
  simp

theorem isview_nil {mayShare : View → View → Bool} {h : Heap L} {p q : Nat} {o1 o2 : Obj}
    (h1 : h.cell p = some (.obj o1)) (h2 : h.cell q = some (.obj o2)) :
    assertIsview mayShare h p q = .ok [] ↔ mayShare o1.x o2.x = true ∧ ∀ i < min o1.x.ix.ndim o2.x.ix.ndim,
      ∃ a, (h.out o1.label)[i]? = some a ∧ (h.out o2.label)[i]? = some a := by
  unfold assertIsview
  rw [larryAt_ok.mpr h1, larryAt_ok.mpr h2]
  dsimp only
  rw [sharing_nil]
  simp

/-- The larry at an address and its parts. -/
theorem larry_parts {h : Heap L} {p : Nat} {y : Larry L} (hy : h.larry p = some y) :
    ∃ o, h.cell p = some (.obj o) ∧ h.value o = y ∧ (∃ f, h.cell o.x.buf = some (.buf f)) ∧
      h.cell o.label = some (.out (h.out o.label)) ∧ ∀ a ∈ h.out o.label, ∃ l, h.cell a = some (.lst l) := by
  unfold Heap.larry at hy
  split at hy
  · rename_i o ho
    split at hy
    · rename_i hc
      simp only [Bool.and_eq_true, List.all_eq_true] at hc
      obtain ⟨⟨c1, c2⟩, c3⟩ := hc
      refine ⟨o, ho, by simpa using hy, ?_, ?_, fun a ha => ?_⟩
      · unfold Heap.isBuf at c1
        split at c1
        · rename_i f hf; exact ⟨f, hf⟩
        · simp at c1
      · unfold Heap.isOut at c2
        split at c2
        · rename_i as has; simp [Heap.out, has]
        · simp at c2
      · have := c3 a ha
        unfold Heap.isLst at this
        split at this
        · rename_i l hl; exact ⟨l, hl⟩
        · simp at this
    · simp at hy
  · simp at hy

theorem foot_closed {h : Heap L} {p : Nat} {y : Larry L} (hy : h.larry p = some y) :
    h.Closed (fun a => a ∈ h.foot p) := by
  obtain ⟨o, ho, -, ⟨f, hf⟩, hl, hls⟩ := larry_parts hy
  have hfoot : h.foot p = p :: o.x.buf :: o.label :: h.out o.label := by simp [Heap.foot, ho]
  intro a c ha hc
  rw [hfoot] at ha ⊢
  simp only [List.mem_cons] at ha
  rcases ha with rfl | rfl | rfl | ha
  · rw [ho] at hc; cases hc
    exact ⟨by simp, by simp⟩
  · rw [hf] at hc; cases hc; trivial
  · rw [hl] at hc; cases hc
    intro b hb
    simp [hb]
  · obtain ⟨l, hl'⟩ := hls a ha
    rw [hl'] at hc; cases hc; trivial

section
variable [LinearOrder L]

/-- Two parts of the memory that do not refer to each other, the rest being of no concern. -/
structure TwoParts (A B : Nat → Prop) (env1 env2 : List Ref) (h : Heap L) : Prop where
  wf : h.Wf
  in1 : ∀ r ∈ env1, r.In A
  in2 : ∀ r ∈ env2, r.In B
  closed1 : h.Closed A
  closed2 : h.Closed B
  disjoint : ∀ a, A a → ¬ B a
  below1 : ∀ a, A a → a < h.next
  below2 : ∀ a, B a → a < h.next

omit [LinearOrder L] in
theorem TwoParts.swap {A B : Nat → Prop} {env1 env2 : List Ref} {h : Heap L} (hs : TwoParts A B env1 env2 h) :
    TwoParts B A env2 env1 h :=
  ⟨hs.wf, hs.in2, hs.in1, hs.closed2, hs.closed1, fun a hb ha => hs.disjoint a ha hb, hs.below2, hs.below1⟩

theorem TwoParts.step {A B : Nat → Prop} {env1 env2 : List Ref} {h : Heap L} (hs : TwoParts A B env1 env2 h) (a : Act L) :
    (∃ A', TwoParts A' B (Act.step (env1, h) a).1 env2 (Act.step (env1, h) a).2) ∧
    ∀ r ∈ env2, (Act.step (env1, h) a).2.see r = h.see r := by
  have hle := HM.next_le (a.run env1) h
  have hstep : (Act.step (env1, h) a).2 = (a.run env1).after h ∧
      ((Act.step (env1, h) a).1 = env1 ∨ ∃ rs, (a.run env1).out h = .ok rs ∧ (Act.step (env1, h) a).1 = env1 ++ rs) := by
    unfold Act.step HM.after HM.out
    dsimp only
    split
    · rename_i rs h' heq
      rw [heq]
      exact ⟨rfl, Or.inr ⟨rs, rfl, rfl⟩⟩
    · rename_i heq
      rw [heq]
      exact ⟨rfl, Or.inl rfl⟩
  set h' := (a.run env1).after h with hh'
  set A' : Nat → Prop := fun b => A b ∨ (h.next ≤ b ∧ b < h'.next) with hA'
  obtain ⟨h1, h2, h3⟩ := SafeAt.use (P := A') (h := h) (m := a.run env1)
    (Safe.at (Safe.run (fun b hb hb' => Or.inr ⟨hb, hb'⟩) (fun r hr => (hs.in1 r hr).mono fun _ => Or.inl) a))
    (by
      intro b c hb hc
      have hbn := (hs.wf b c hc).1
      rcases hb with hb | hb
      · exact (hs.closed1 b c hb hc).mono fun _ => Or.inl
      · omega)
  have live1 : Live env1 h := fun r hr => (hs.in1 r hr).mono hs.below1
  obtain ⟨w1, w2⟩ := Act.wf hs.wf live1 a
  have hnot : ∀ b, B b → ¬ A' b := by
    rintro b hb (h | h)
    · exact hs.disjoint b h hb
    · have := hs.below2 b hb; omega
  have hsame : ∀ b, B b → h'.cell b = h.cell b := fun b hb => h1 b (hnot b hb)
  rw [hstep.1]
  refine ⟨⟨A', ⟨w1, ?_, hs.in2, h2, ?_, fun b hb hB => hnot b hB hb, ?_, ?_⟩⟩,
    fun r hr => Heap.see_congr hs.closed2 hsame (hs.in2 r hr)⟩
  · have hl : ∀ r ∈ env1, r.In A' := fun r hr => (hs.in1 r hr).mono fun _ => Or.inl
    rcases hstep.2 with he | ⟨rs, hrs, he⟩
    · rw [he]; exact hl
    · rw [he]
      intro r hr
      rcases List.mem_append.mp hr with hr | hr
      · exact hl r hr
      · exact h3 rs hrs r hr
  · intro b c hb hc
    rw [hsame b hb] at hc
    exact hs.closed2 b c hb hc
  · rintro b (hb | hb)
    · exact lt_of_lt_of_le (hs.below1 b hb) hle
    · exact hb.2
  · exact fun b hb => lt_of_lt_of_le (hs.below2 b hb) hle

theorem TwoParts.sides {s : Sides L} (hs : ∃ A B, TwoParts A B s.1.1 s.1.2 s.2) (c : Bool × Act L) :
    (∃ A B, TwoParts A B (s.step c).1.1 (s.step c).1.2 (s.step c).2) ∧
    ∀ r ∈ s.held (!c.1), (s.step c).2.see r = s.2.see r := by
  obtain ⟨A, B, hA⟩ := hs
  obtain ⟨side, a⟩ := c
  cases side with
  | true =>
    obtain ⟨⟨A', hA'⟩, h2⟩ := hA.step a
    exact ⟨⟨A', B, hA'⟩, h2⟩
  | false =>
    obtain ⟨⟨B', hB⟩, h2⟩ := hA.swap.step a
    exact ⟨⟨A, B', hB.swap⟩, h2⟩

/-! ## The theorems -/

/-- C87. If `assert_iscopy` passes on two larrys, then, whatever one part of a program does with the
one and another part with the other, no step of one part changes what the other part sees; unless the two
are disjoint parts of one array or share a list of labels along different axes, which the assertion does
not look at. -/
theorem C87_iscopy {mayShare : View → View → Bool} (hm : SeesSharing mayShare) {h : Heap L} (hw : h.Wf) {p q : Nat}
    {y z : Larry L} (hy : h.larry p = some y) (hz : h.larry q = some z) (vy : y.Valid) (vz : z.Valid)
    (hord : ∀ o1 o2, h.cell p = some (.obj o1) → h.cell q = some (.obj o2) → Ordinary h o1 o2)
    (hpass : assertIscopy mayShare h p q = .ok []) (prog : List (Bool × Act L)) (side : Bool) (b : Act L) :
    let s := Sides.exec (([.larry p], [.larry q]), h) prog
    ∀ r ∈ s.held (!side), (s.step (side, b)).2.see r = s.2.see r := by
  intro s
  obtain ⟨o1, c1, e1, ⟨f1, b1⟩, l1, t1⟩ := larry_parts hy
  obtain ⟨o2, c2, e2, ⟨f2, b2⟩, l2, t2⟩ := larry_parts hz
  obtain ⟨hshare, hlab⟩ := (iscopy_nil c1 c2).mp hpass
  obtain ⟨hparts, haxes⟩ := hord o1 o2 c1 c2
  have n1 : (h.out o1.label).length = o1.x.ix.ndim := by
    have := vy.label_length
    rw [← e1] at this
    simpa [Heap.value, Larry.ndim, NDArray.ndim, Heap.array, NDArray.map] using this
  have n2 : (h.out o2.label).length = o2.x.ix.ndim := by
    have := vz.label_length
    rw [← e2] at this
    simpa [Heap.value, Larry.ndim, NDArray.ndim, Heap.array, NDArray.map] using this
  have pos1 : 0 < o1.x.ix.ndim := by
    rw [← n1]
    refine List.length_pos_iff.mpr fun h0 => vy.ndim_pos ?_
    rw [← e1]; simp [Heap.value, h0]
  have pos2 : 0 < o2.x.ix.ndim := by
    rw [← n2]
    refine List.length_pos_iff.mpr fun h0 => vz.ndim_pos ?_
    rw [← e2]; simp [Heap.value, h0]
  have hlists : ∀ a, a ∈ h.out o1.label → a ∉ h.out o2.label := by
    intro a h1 h2
    obtain ⟨i, hi⟩ := List.mem_iff_getElem?.mp h1
    obtain ⟨j, hj⟩ := List.mem_iff_getElem?.mp h2
    obtain rfl := haxes i j a hi hj
    have hi1 : i < o1.x.ix.ndim := by rw [← n1]; exact (List.getElem?_eq_some_iff.mp hi).1
    have hi2 : i < o2.x.ix.ndim := by rw [← n2]; exact (List.getElem?_eq_some_iff.mp hj).1
    obtain ⟨a', b', g1, g2, hne⟩ := hlab i (by omega)
    rw [hi] at g1; rw [hj] at g2
    cases g1; cases g2
    exact hne rfl
  have hbuf : o1.x.buf ≠ o2.x.buf := by
    intro he
    obtain ⟨i, j, hi, hj, hc⟩ := hparts he
    rw [hm.common _ _ i j he hi hj hc] at hshare
    simp at hshare
  have houter : o1.label ≠ o2.label := by
    intro he
    obtain ⟨a, ha⟩ := List.exists_mem_of_length_pos (by rw [n1]; exact pos1 : 0 < (h.out o1.label).length)
    exact hlists a ha (he ▸ ha)
  have hobj : p ≠ q := by
    rintro rfl
    rw [c1] at c2
    cases c2
    exact houter rfl
  have start : ∃ A B, TwoParts A B [.larry p] [.larry q] h := by
    refine ⟨fun a => a ∈ h.foot p, fun a => a ∈ h.foot q, ⟨hw, ?_, ?_, foot_closed hy, foot_closed hz, ?_, ?_, ?_⟩⟩
    · intro r hr; rw [List.mem_singleton.mp hr]; simp [Ref.In, Heap.foot, c1]
    · intro r hr; rw [List.mem_singleton.mp hr]; simp [Ref.In, Heap.foot, c2]
    · intro a h1 h2
      simp only [Heap.foot, c1, List.mem_cons] at h1
      simp only [Heap.foot, c2, List.mem_cons] at h2
      -- the four kinds of cell
      have k1 : (a = p ∧ ∃ o, h.cell a = some (.obj o)) ∨ (a = o1.x.buf ∧ ∃ f, h.cell a = some (.buf f)) ∨
          (a = o1.label ∧ ∃ as, h.cell a = some (.out as)) ∨ (a ∈ h.out o1.label ∧ ∃ l, h.cell a = some (.lst l)) := by
        rcases h1 with rfl | rfl | rfl | h1
        · exact Or.inl ⟨rfl, o1, c1⟩
        · exact Or.inr (Or.inl ⟨rfl, f1, b1⟩)
        · exact Or.inr (Or.inr (Or.inl ⟨rfl, _, l1⟩))
        · exact Or.inr (Or.inr (Or.inr ⟨h1, t1 a h1⟩))
      have k2 : (a = q ∧ ∃ o, h.cell a = some (.obj o)) ∨ (a = o2.x.buf ∧ ∃ f, h.cell a = some (.buf f)) ∨
          (a = o2.label ∧ ∃ as, h.cell a = some (.out as)) ∨ (a ∈ h.out o2.label ∧ ∃ l, h.cell a = some (.lst l)) := by
        rcases h2 with rfl | rfl | rfl | h2
        · exact Or.inl ⟨rfl, o2, c2⟩
        · exact Or.inr (Or.inl ⟨rfl, f2, b2⟩)
        · exact Or.inr (Or.inr (Or.inl ⟨rfl, _, l2⟩))
        · exact Or.inr (Or.inr (Or.inr ⟨h2, t2 a h2⟩))
      clear h1 h2
      rcases k1 with ⟨x1, w1, hc1⟩ | ⟨x1, w1, hc1⟩ | ⟨x1, w1, hc1⟩ | ⟨x1, w1, hc1⟩ <;>
      rcases k2 with ⟨x2, w2, hc2⟩ | ⟨x2, w2, hc2⟩ | ⟨x2, w2, hc2⟩ | ⟨x2, w2, hc2⟩ <;>
      first
      | (rw [hc1] at hc2; cases hc2; done)
      | exact hobj (x1.symm.trans x2)
      | exact hbuf (x1.symm.trans x2)
      | exact houter (x1.symm.trans x2)
      | exact hlists a x1 x2
    · exact Heap.foot_in (P := (· < h.next)) (fun b c _ hcell => (hw b c hcell).2) (hw _ _ c1).1
    · exact Heap.foot_in (P := (· < h.next)) (fun b c _ hcell => (hw b c hcell).2) (hw _ _ c2).1
  have main : ∀ (prog : List (Bool × Act L)) (s : Sides L), (∃ A B, TwoParts A B s.1.1 s.1.2 s.2) →
      ∃ A B, TwoParts A B (s.exec prog).1.1 (s.exec prog).1.2 (s.exec prog).2 := by
    intro prog
    induction prog with
    | nil => exact fun s hs => hs
    | cons c prog ih => exact fun s hs => ih (s.step c) (TwoParts.sides hs c).1
  exact (TwoParts.sides (main prog _ start) (side, b)).2


/-- Met by the two larrys of `exS`, whose labels are equal but in different lists. -/
example : SeesSharing (fun v w => decide (v.buf = w.buf)) ∧ exS.2.Wf ∧ exS.2.larry 4 = some exA ∧ exS.2.larry 9 = some exD ∧
    exA.label = exD.label ∧
    (∀ o1 o2, exS.2.cell 4 = some (.obj o1) → exS.2.cell 9 = some (.obj o2) → Ordinary exS.2 o1 o2) ∧
    assertIscopy (fun v w => decide (v.buf = w.buf)) exS.2 4 9 = .ok [] := by
  refine ⟨⟨fun v w _ _ h _ _ _ => by simpa using h, fun v w h => by simpa using h⟩, exS_wf.1, exS_larry.2.2.1,
    exS_larry.2.2.2, rfl, ?_, rfl⟩
  intro o1 o2 h1 h2
  have e1 : exS.2.cell 4 = some (.obj _) := rfl
  have e2 : exS.2.cell 9 = some (.obj _) := rfl
  rw [e1] at h1
  rw [e2] at h2
  cases h1
  cases h2
  refine ⟨fun h => absurd h (by decide), ?_⟩
  have g1 : ∀ a, a ∈ ([1, 2] : List Nat) → a ∉ ([6, 7] : List Nat) := by decide
  intro i j a hi hj
  exact absurd (List.mem_of_getElem? hj) (g1 a (List.mem_of_getElem? hi))

/-- C87. What a copying call returns passes `assert_iscopy` against every larry from before. -/
theorem C87_copies_pass {mayShare : View → View → Bool} (hm : SeesSharing mayShare) {h : Heap L} (hw : h.Wf)
    {env : List Ref} {a : Act L} (hc : a.Copies env h) {rs : List Ref} (hrs : (a.run env).out h = .ok rs)
    {p q : Nat} (hp : p < h.next) (hq : Ref.larry q ∈ rs) {y z : Larry L}
    (hy : h.larry p = some y) (hz : ((a.run env).after h).larry q = some z) (vy : y.Valid) (vz : z.Valid) :
    assertIscopy mayShare ((a.run env).after h) q p = .ok [] := by
  obtain ⟨k1, -, k3⟩ := C23_copy hw hc
  set h' := (a.run env).after h
  obtain ⟨o1, c1, e1, -, l1, -⟩ := larry_parts hy
  obtain ⟨o2, c2, e2, -, l2, -⟩ := larry_parts hz
  have hfoot : ∀ b ∈ h.foot p, b < h.next :=
    Heap.foot_in (P := (· < h.next)) (fun b c _ hcell => (hw b c hcell).2) hp
  have hf1 : h.foot p = p :: o1.x.buf :: o1.label :: h.out o1.label := by simp [Heap.foot, c1]
  have hf2 : h'.foot q = q :: o2.x.buf :: o2.label :: h'.out o2.label := by simp [Heap.foot, c2]
  have c1' : h'.cell p = some (.obj o1) := by rw [k1 p hp]; exact c1
  have out1 : h'.out o1.label = h.out o1.label := by
    simp only [Heap.out, k1 o1.label (hfoot _ (by simp [hf1]))]
  have new : ∀ b ∈ h'.foot q, h.next ≤ b := fun b hb => (k3 rs hrs q hq b hb).1
  have n1 : (h.out o1.label).length = o1.x.ix.ndim := by
    have := vy.label_length
    rw [← e1] at this
    simpa [Heap.value, Larry.ndim, NDArray.ndim, Heap.array, NDArray.map] using this
  have n2 : (h'.out o2.label).length = o2.x.ix.ndim := by
    have := vz.label_length
    rw [← e2] at this
    simpa [Heap.value, Larry.ndim, NDArray.ndim, Heap.array, NDArray.map] using this
  rw [iscopy_nil c2 c1']
  refine ⟨hm.apart _ _ fun he => ?_, fun i hi => ?_⟩
  · have b1 := hfoot o1.x.buf (by simp [hf1])
    have b2 := new o2.x.buf (by simp [hf2])
    omega
  · have i1 : i < (h.out o1.label).length := by omega
    have i2 : i < (h'.out o2.label).length := by omega
    refine ⟨_, _, List.getElem?_eq_getElem i2, by rw [out1]; exact List.getElem?_eq_getElem i1, fun he => ?_⟩
    have b1 := hfoot _ (by rw [hf1]; simp only [List.mem_cons]; exact Or.inr (Or.inr (Or.inr (List.getElem_mem i1))))
    have b2 := new _ (by rw [hf2]; simp only [List.mem_cons]; exact Or.inr (Or.inr (Or.inr (List.getElem_mem i2))))
    omega

/-- Met by `copy`. -/
example : exS.2.Wf ∧ (Act.copy 4).Copies exS.1 exS.2 ∧ ((Act.copy 4).run exS.1).out exS.2 = .ok [.larry 14] ∧
    4 < exS.2.next ∧ exS.2.larry 4 = some exA ∧ (((Act.copy 4).run exS.1).after exS.2).larry 14 = some exA :=
  ⟨exS_wf.1, trivial, rfl, by decide, rfl, rfl⟩

omit [LinearOrder L] in
/-- A write to cells an array does not show. -/
theorem write_other {v w : View} {sel : List Nat → Bool} {val : List Nat → Val} {h : Heap L}
    (hno : ∀ i j, v.buf = w.buf → InB v.ix.shape i → InB w.ix.shape j → v.ix.get i ≠ w.ix.get j)
    {j : List Nat} (hj : InB w.ix.shape j) :
    (((writeWhere v sel val : HM L Unit).after h).array w).get j = (h.array w).get j := by
  show ((writeWhere v sel val : HM L Unit).after h).buf w.buf (w.ix.get j) = h.buf w.buf (w.ix.get j)
  have hcell : ∀ a, ((writeWhere v sel val : HM L Unit).after h).cell a =
      if a = v.buf then some (.buf (writeCells v sel val (h.buf v.buf))) else h.cell a := fun a => rfl
  unfold Heap.buf
  rw [hcell]
  by_cases he : w.buf = v.buf
  · rw [if_pos he]
    show writeCells v sel val (h.buf v.buf) (w.ix.get j) = _
    unfold writeCells
    rw [List.find?_eq_none.mpr]
    · show h.buf v.buf _ = _
      rw [← he]; rfl
    · intro i hi
      have := hno i j he.symm (mem_allIdx.mp hi) hj
      simp [this]
  · rw [if_neg he]

/-- C87. If `assert_iscopy` passes, no write to the elements of one changes an element of the other, also
where the two are parts of one array. -/
theorem C87_write {mayShare : View → View → Bool} (hm : SeesSharing mayShare) {h : Heap L} {p q : Nat} {o1 o2 : Obj}
    (h1 : h.cell p = some (.obj o1)) (h2 : h.cell q = some (.obj o2))
    (hpass : assertIscopy mayShare h p q = .ok []) (sel : List Nat → Bool) (val : List Nat → Val) {j : List Nat} :
    (InB o2.x.ix.shape j →
      ((((Act.write sel val 0).run [.array o1.x]).after h).array o2.x).get j = (h.array o2.x).get j) ∧
    (InB o1.x.ix.shape j →
      ((((Act.write sel val 0).run [.array o2.x]).after h).array o1.x).get j = (h.array o1.x).get j) := by
  obtain ⟨hs, -⟩ := (iscopy_nil h1 h2).mp hpass
  have hno : ∀ i j, o1.x.buf = o2.x.buf → InB o1.x.ix.shape i → InB o2.x.ix.shape j → o1.x.ix.get i ≠ o2.x.ix.get j := by
    intro i j hb hi hj he
    rw [hm.common _ _ i j hb hi hj he] at hs
    simp at hs
  exact ⟨fun hj => write_other hno hj, fun hj => write_other (fun i j hb hi hj he => hno j i hb.symm hj hi he.symm) hj⟩

/-- C87. If `assert_isview` passes, a list of labels changed in place through one larry is changed in
the other. -/
theorem C87_isview {mayShare : View → View → Bool} {h : Heap L} {p q : Nat} {o1 o2 : Obj}
    (h1 : h.cell p = some (.obj o1)) (h2 : h.cell q = some (.obj o2))
    (hpass : assertIsview mayShare h p q = .ok []) {i : Nat} (hi : i < min o1.x.ix.ndim o2.x.ix.ndim) {a : Nat}
    (ha : (h.out o1.label)[i]? = some a) {old : List L} (hold : h.cell a = some (.lst old)) (l : List L)
    (hl1 : h.cell o1.label = some (.out (h.out o1.label))) (hl2 : h.cell o2.label = some (.out (h.out o2.label))) :
    let h' := ((Act.writeList l 0).run [.lst a]).after h
    (h'.value o1).label[i]? = some l ∧ (h'.value o2).label[i]? = some l := by
  intro h'
  obtain ⟨-, hlab⟩ := (isview_nil h1 h2).mp hpass
  obtain ⟨b, g1, g2⟩ := hlab i hi
  rw [ha] at g1
  cases g1
  have hcell : ∀ b, h'.cell b = if b = a then some (.lst l) else h.cell b := fun b => rfl
  have hlst : h'.lst a = l := by simp [Heap.lst, hcell]
  have hout : ∀ o : Obj, h.cell o.label = some (.out (h.out o.label)) → h'.out o.label = h.out o.label := by
    intro o ho
    have hne : o.label ≠ a := by
      intro he; rw [he, hold] at ho; cases ho
    simp [Heap.out, hcell, hne]
  refine ⟨?_, ?_⟩
  · simp [Heap.value, hout o1 hl1, ha, hlst]
  · simp [Heap.value, hout o2 hl2, g2, hlst]

omit [LinearOrder L] in
theorem noreference_true {same : Bool} {h : Heap L} {p q : Nat} {o1 o2 : Obj}
    (h1 : h.cell p = some (.obj o1)) (h2 : h.cell q = some (.obj o2)) (hn : o1.x.ix.ndim = o2.x.ix.ndim) :
    (noreference same h p q = .ok true ↔ same = false ∧ ∀ i < o1.x.ix.ndim,
      ∃ a b, (h.out o1.label)[i]? = some a ∧ (h.out o2.label)[i]? = some b ∧ a ≠ b) ∧
    (nocopy same h p q = .ok true ↔ same = true ∧ ∀ i < o1.x.ix.ndim,
      ∃ a, (h.out o1.label)[i]? = some a ∧ (h.out o2.label)[i]? = some a) := by
  have k1 := axisComplaints_nil (bad := fun a b => decide (a = b)) (as1 := h.out o1.label) (as2 := h.out o2.label)
    (is := List.range o1.x.ix.ndim)
  have k2 := axisComplaints_nil (bad := fun a b => decide (a ≠ b)) (as1 := h.out o1.label) (as2 := h.out o2.label)
    (is := List.range o1.x.ix.ndim)
  simp only [List.mem_range, decide_eq_false_iff_not, not_not] at k1 k2
  unfold noreference nocopy
  rw [larryAt_ok.mpr h1, larryAt_ok.mpr h2]
  dsimp only
  rw [if_neg (not_not.mpr hn), if_neg (not_not.mpr hn)]
  constructor
  · rw [show (∀ i < o1.x.ix.ndim, ∃ a b, (h.out o1.label)[i]? = some a ∧ (h.out o2.label)[i]? = some b ∧ a ≠ b) ↔ _ from k1.symm]
    cases axisComplaints (fun a b => decide (a = b)) (h.out o1.label) (h.out o2.label) _ with
    | error e => simp
    | ok cs => cases same <;> simp
  · have k3 : axisComplaints (fun a b => decide (a ≠ b)) (h.out o1.label) (h.out o2.label) (List.range o1.x.ix.ndim) = .ok [] ↔
        ∀ i < o1.x.ix.ndim, ∃ a, (h.out o1.label)[i]? = some a ∧ (h.out o2.label)[i]? = some a :=
      k2.trans (forall_congr' fun i => forall_congr' fun _ =>
        ⟨fun ⟨a, b, x, y, e⟩ => ⟨a, x, e ▸ y⟩, fun ⟨a, x, y⟩ => ⟨a, a, x, y, rfl⟩⟩)
    rw [← k3]
    cases axisComplaints (fun a b => decide (a ≠ b)) (h.out o1.label) (h.out o2.label) _ with
    | error e => simp
    | ok cs => cases same <;> simp

omit [LinearOrder L] in
theorem axisComplaints_ok {bad : Nat → Nat → Bool} {as1 as2 : List Nat} {is : List Nat}
    (h : ∀ i ∈ is, i < as1.length ∧ i < as2.length) : ∃ cs, axisComplaints bad as1 as2 is = .ok cs ∧
      (is.Nodup → cs.Nodup) ∧ ∀ c, c ∈ cs ↔ ∃ i ∈ is, c = .sharedLabel i ∧ ∃ a b, as1[i]? = some a ∧ as2[i]? = some b ∧ bad a b = true := by
  induction is with
  | nil => exact ⟨[], rfl, fun _ => List.nodup_nil, by simp⟩
  | cons i is ih =>
    obtain ⟨cs, e, hnd, hc⟩ := ih fun k hk => h k (List.mem_cons_of_mem _ hk)
    obtain ⟨g1, g2⟩ := h i List.mem_cons_self
    simp only [axisComplaints, List.getElem?_eq_getElem g1, List.getElem?_eq_getElem g2, e]
    refine ⟨_, rfl, fun hn => ?_, fun c => ?_⟩
    · obtain ⟨n1, n2⟩ := List.nodup_cons.mp hn
      split
      · refine List.nodup_cons.mpr ⟨fun hm => ?_, hnd n2⟩
        obtain ⟨k, hk, e, -⟩ := (hc _).mp hm
        cases e
        exact n1 hk
      · exact hnd n2
    · rw [List.exists_mem_cons_iff]
      simp only [List.getElem?_eq_getElem g1, List.getElem?_eq_getElem g2, Option.some.injEq]
      have hex : (∃ a b, as1[i] = a ∧ as2[i] = b ∧ bad a b = true) ↔ bad as1[i] as2[i] = true := by simp
      rw [hex]
      split
      · rename_i hb
        rw [List.mem_cons, hc]
        simp [hb]
      · rename_i hb
        rw [hc]
        simp [hb]

omit [LinearOrder L] in
theorem sharing_ok {badData : Bool} {badLabel : Nat → Nat → Bool} {h : Heap L} {o1 o2 : Obj}
    (n1 : (h.out o1.label).length = o1.x.ix.ndim) (n2 : (h.out o2.label).length = o2.x.ix.ndim) :
    ∃ cs, sharingComplaints badData badLabel h o1 o2 = .ok cs ∧ cs.Nodup ∧ (.sharedData ∈ cs ↔ badData = true) ∧
      (∀ i, .sharedLabel i ∈ cs ↔ ∃ a b, (h.out o1.label)[i]? = some a ∧ (h.out o2.label)[i]? = some b ∧ badLabel a b = true) ∧
      ∀ c ∈ cs, c = .sharedData ∨ ∃ i, c = .sharedLabel i := by
  obtain ⟨cs, e, hnd, hc⟩ := axisComplaints_ok (bad := badLabel) (as1 := h.out o1.label) (as2 := h.out o2.label)
    (is := List.range (min o1.x.ix.ndim o2.x.ix.ndim)) (fun i hi => by rw [List.mem_range] at hi; omega)
  have hd : Complaint.sharedData ∉ cs := fun hm => by
    obtain ⟨i, -, e, -⟩ := (hc _).mp hm
    cases e
  have hl : ∀ i, Complaint.sharedLabel i ∈ cs ↔ ∃ a b, (h.out o1.label)[i]? = some a ∧ (h.out o2.label)[i]? = some b ∧ badLabel a b = true := by
    intro i
    rw [hc]
    constructor
    · rintro ⟨k, -, e, hk⟩
      cases e
      exact hk
    · rintro ⟨a, b, ha, hb, hab⟩
      refine ⟨i, ?_, rfl, a, b, ha, hb, hab⟩
      have := (List.getElem?_eq_some_iff.mp ha).1
      have := (List.getElem?_eq_some_iff.mp hb).1
      rw [List.mem_range]
      omega
  refine ⟨dataComplaint badData ++ cs, by simp only [sharingComplaints, e], ?_, ?_, fun i => ?_, fun c hm => ?_⟩
  · cases badData
    · simpa [dataComplaint] using hnd List.nodup_range
    · simpa [dataComplaint, hd] using hnd List.nodup_range
  · cases badData <;> simp [dataComplaint, hd]
  · rw [← hl]
    cases badData <;> simp [dataComplaint]
  · rw [List.mem_append] at hm
    rcases hm with hm | hm
    · left
      cases badData <;> simp_all [dataComplaint]
    · obtain ⟨i, -, e, -⟩ := (hc _).mp hm
      exact .inr ⟨i, e⟩

omit [LinearOrder L] in
/-- C87. What a failing `assert_iscopy` or `assert_isview` complains about: the data if they share memory (do not), and each
axis, once, whose two lists of labels are one object (are not); nothing else. -/
theorem C87_complaints (mayShare : View → View → Bool) {h : Heap L} {p q : Nat} {o1 o2 : Obj}
    (h1 : h.cell p = some (.obj o1)) (h2 : h.cell q = some (.obj o2)) (vy : (h.value o1).Valid) (vz : (h.value o2).Valid) :
    (∃ cs, assertIscopy mayShare h p q = .ok cs ∧ cs.Nodup ∧ (.sharedData ∈ cs ↔ mayShare o1.x o2.x = true) ∧
      (∀ i, .sharedLabel i ∈ cs ↔ ∃ a, (h.out o1.label)[i]? = some a ∧ (h.out o2.label)[i]? = some a) ∧
      ∀ c ∈ cs, c = .sharedData ∨ ∃ i, c = .sharedLabel i) ∧
    (∃ cs, assertIsview mayShare h p q = .ok cs ∧ cs.Nodup ∧ (.sharedData ∈ cs ↔ mayShare o1.x o2.x = false) ∧
      (∀ i, .sharedLabel i ∈ cs ↔ ∃ a b, (h.out o1.label)[i]? = some a ∧ (h.out o2.label)[i]? = some b ∧ a ≠ b) ∧
      ∀ c ∈ cs, c = .sharedData ∨ ∃ i, c = .sharedLabel i) := by
  have n1 : (h.out o1.label).length = o1.x.ix.ndim := by
    simpa [Heap.value, Larry.ndim, NDArray.ndim, Heap.array, NDArray.map] using vy.label_length
  have n2 : (h.out o2.label).length = o2.x.ix.ndim := by
    simpa [Heap.value, Larry.ndim, NDArray.ndim, Heap.array, NDArray.map] using vz.label_length
  constructor
  · obtain ⟨cs, e, hnd, hd, hl, hc⟩ := sharing_ok (badData := mayShare o1.x o2.x) (badLabel := fun a b => decide (a = b)) n1 n2
    refine ⟨cs, ?_, hnd, hd, fun i => (hl i).trans ?_, hc⟩
    · simp only [assertIscopy, larryAt_ok.mpr h1, larryAt_ok.mpr h2, e]
    · simp only [decide_eq_true_eq]
      exact ⟨fun ⟨a, b, x, y, e⟩ => ⟨a, x, e ▸ y⟩, fun ⟨a, x, y⟩ => ⟨a, a, x, y, rfl⟩⟩
  · obtain ⟨cs, e, hnd, hd, hl, hc⟩ := sharing_ok (badData := !mayShare o1.x o2.x) (badLabel := fun a b => decide (a ≠ b)) n1 n2
    refine ⟨cs, ?_, hnd, by simpa using hd, fun i => by simpa using hl i, hc⟩
    simp only [assertIsview, larryAt_ok.mpr h1, larryAt_ok.mpr h2, e]

omit [LinearOrder L] in
/-- C87. `noreference` and `nocopy` against the two assertions, for larrys of the same number of dimensions with
at least one element; `same` is whether the arrays are one object.  Where `assert_iscopy` passes, `noreference` is
True; where `nocopy` is True, `assert_isview` passes, and the two larrys have the same value. -/
theorem C87_references {mayShare : View → View → Bool} (hm : SeesSharing mayShare) {same : Bool} {h : Heap L} {p q : Nat}
    {o1 o2 : Obj} (h1 : h.cell p = some (.obj o1)) (h2 : h.cell q = some (.obj o2)) (hn : o1.x.ix.ndim = o2.x.ix.ndim)
    (hsame : same = true → o1.x = o2.x) (hne : ∃ i, InB o1.x.ix.shape i)
    (vy : (h.value o1).Valid) (vz : (h.value o2).Valid) :
    (assertIscopy mayShare h p q = .ok [] → noreference same h p q = .ok true) ∧
    (nocopy same h p q = .ok true → assertIsview mayShare h p q = .ok [] ∧ h.value o1 = h.value o2) := by
  obtain ⟨i0, hi0⟩ := hne
  obtain ⟨k1, k2⟩ := noreference_true (same := same) h1 h2 hn
  rw [iscopy_nil h1 h2, isview_nil h1 h2, k1, k2, ← hn, min_self]
  have hshare : same = true → mayShare o1.x o2.x = true := fun hs =>
    hm.common _ _ i0 i0 (by rw [hsame hs]) hi0 (by rw [← hsame hs]; exact hi0) (by rw [hsame hs])
  constructor
  · rintro ⟨hs, hl⟩
    refine ⟨?_, hl⟩
    cases hsm : same with
    | false => rfl
    | true => rw [hshare hsm] at hs; simp at hs
  · rintro ⟨hs, hl⟩
    refine ⟨⟨hshare hs, hl⟩, ?_⟩
    have n1 : (h.out o1.label).length = o1.x.ix.ndim := by
      simpa [Heap.value, Larry.ndim, NDArray.ndim, Heap.array, NDArray.map] using vy.label_length
    have n2 : (h.out o2.label).length = o2.x.ix.ndim := by
      simpa [Heap.value, Larry.ndim, NDArray.ndim, Heap.array, NDArray.map] using vz.label_length
    have : h.out o1.label = h.out o2.label := by
      refine List.ext_getElem? fun i => ?_
      by_cases hi : i < o1.x.ix.ndim
      · obtain ⟨a, g1, g2⟩ := hl i hi
        rw [g1, g2]
      · rw [List.getElem?_eq_none (by omega), List.getElem?_eq_none (by omega)]
    simp only [Heap.value, hsame hs, this]

omit [LinearOrder L] in
/-- C87. What is not a larry is a TypeError in all four; for `noreference` and `nocopy` a different number of
dimensions is a ValueError. -/
theorem C87_errors (mayShare : View → View → Bool) (same : Bool) (h : Heap L) (p q : Nat) :
    ((∀ o, h.cell p ≠ some (.obj o)) ∨ (∀ o, h.cell q ≠ some (.obj o)) →
      assertIscopy mayShare h p q = .error .typeError ∧ assertIsview mayShare h p q = .error .typeError ∧
      noreference same h p q = .error .typeError ∧ nocopy same h p q = .error .typeError) ∧
    (∀ o1 o2, h.cell p = some (.obj o1) → h.cell q = some (.obj o2) → o1.x.ix.ndim ≠ o2.x.ix.ndim →
      noreference same h p q = .error .valueError ∧ nocopy same h p q = .error .valueError) := by
  have bad : ∀ r, (∀ o, h.cell r ≠ some (.obj o)) → h.larryAt r = .error .typeError := by
    intro r hr
    unfold Heap.larryAt
    split
    · rename_i o ho; exact absurd ho (hr o)
    · rfl
  constructor
  · intro hpq
    unfold assertIscopy assertIsview noreference nocopy
    have e1 : h.larryAt p = .error .typeError ∨ ∃ o, h.larryAt p = .ok o := by
      unfold Heap.larryAt
      split
      · exact Or.inr ⟨_, rfl⟩
      · exact Or.inl rfl
    rcases e1 with e1 | ⟨o, e1⟩
    · rw [e1]; exact ⟨rfl, rfl, rfl, rfl⟩
    · rcases hpq with hp | hq
      · rw [bad p hp] at e1; cases e1
      · rw [e1, bad q hq]; exact ⟨rfl, rfl, rfl, rfl⟩
  · intro o1 o2 h1 h2 hne
    unfold noreference nocopy
    rw [larryAt_ok.mpr h1, larryAt_ok.mpr h2]
    dsimp only
    rw [if_pos hne, if_pos hne]
    exact ⟨rfl, rfl⟩

/-! ## Equality -/

omit [LinearOrder L] in
theorem complain_nil {b : Bool} {c : Complaint} : complain b c = [] ↔ b = true := by
  cases b <;> simp [complain]

theorem sameArray_iff {eq : Val → Val → Bool} {x y : NDArray Val} (hs : x.shape = y.shape) :
    sameArray eq x y = true ↔ ∀ i, InB x.shape i → eq (x.get i) (y.get i) = true := by
  unfold sameArray
  rw [if_pos hs, List.all_eq_true]
  exact ⟨fun h i hi => h i (mem_allIdx.mpr hi), fun h i hi => h i (mem_allIdx.mp hi)⟩

theorem flt_eq_iff {f g : Flt} : ((f.isNan && g.isNan) || f.eq g) = true ↔ f = g := by
  cases f <;> cases g <;> simp [Flt.isNan, Flt.eq]

theorem close_float {close : ℚ → ℚ → Bool} (hr : ∀ a, close a a = true) {v w : Val}
    (hv : v.hasDType .float = true) (hw : w.hasDType .float = true) :
    closeElement close v w = true ↔ CloseTo close v w := by
  cases v <;> simp [Val.hasDType] at hv
  cases w <;> simp [Val.hasDType] at hw
  rename_i f g
  cases f <;> cases g <;> simp [closeElement, CloseTo, Val.num, Flt.isNan, Flt.eq]
  rintro rfl; exact hr _

theorem same_exact {d : DType} (hd : d ≠ .float) (ho : d ≠ .object) {v w : Val}
    (hv : v.hasDType d = true) (hw : w.hasDType d = true) : sameElement v w = true ↔ v = w := by
  cases d <;> simp at hd ho <;> cases v <;> simp [Val.hasDType] at hv <;>
    cases w <;> simp [Val.hasDType] at hw <;> simp [sameElement, Val.num, Flt.isNan, Flt.eq]
  rename_i a b
  cases a <;> cases b <;> simp

theorem close_number {close : ℚ → ℚ → Bool} (hr : ∀ a, close a a = true) {v w : Val} {d d' : DType}
    (hd : d.isNumeric = true) (hd' : d'.isNumeric = true)
    (hv : v.hasDType d = true) (hw : w.hasDType d' = true) :
    (closeElement close v w = true ↔ CloseNumber close True v w) ∧
    (sameElement v w = true ↔ CloseNumber close False v w) := by
  have num : ∀ {u : Val} {e : DType}, e.isNumeric = true → u.hasDType e = true →
      (∃ b, u = .bool b) ∨ (∃ n, u = .int n) ∨ ∃ f, u = .flt f := by
    intro u e he hu
    cases e <;> simp [DType.isNumeric] at he <;> cases u <;> simp [Val.hasDType] at hu ⊢
  have c : closeElement close v w = (match v.num, w.num with
      | .fin p, .fin q => close p q
      | f, g => (f.isNan && g.isNan) || f.eq g) ∧
      sameElement v w = ((v.num.isNan && w.num.isNan) || v.num.eq w.num) := by
    rcases num hd hv with ⟨_, rfl⟩ | ⟨_, rfl⟩ | ⟨_, rfl⟩ <;>
    rcases num hd' hw with ⟨_, rfl⟩ | ⟨_, rfl⟩ | ⟨_, rfl⟩ <;> exact ⟨rfl, rfl⟩
  rw [c.1, c.2, flt_eq_iff]
  unfold CloseNumber
  refine ⟨?_, by simp⟩
  generalize v.num = f
  generalize w.num = g
  cases f <;> cases g <;> simp [Flt.isNan, Flt.eq]
  rintro rfl; exact hr _

omit [LinearOrder L] in
/-- Elements compared position by position are compared name by name. -/
theorem by_names {y z : Larry L} (vy : y.Valid) (hl : y.label = z.label) (R : Val → Val → Prop) :
    (∀ i, InB y.x.shape i → R (y.x.get i) (z.x.get i)) ↔ ∀ names v w, y.Has names v → z.Has names w → R v w := by
  constructor
  · rintro h names v w ⟨i, hi, rfl⟩ ⟨j, hj, rfl⟩
    rw [← hl] at hj
    rw [At_unique vy.nodup hj hi]
    exact h i (vy.shape_eq ▸ At_inB hi)
  · intro h i hi
    rw [vy.shape_eq] at hi
    obtain ⟨names, hn⟩ := At_of_inB hi
    exact h names _ _ ⟨i, hn, rfl⟩ ⟨i, hl ▸ hn, rfl⟩

theorem larryEqual_nil {close : ℚ → ℚ → Bool} {mayShare : View → View → Bool} {dtype iscopy : Bool} {h : Heap L} {p q : Nat}
    {y z : Larry L} (hy : h.larry p = some y) (hz : h.larry q = some z) :
    assertLarryEqual close mayShare dtype none iscopy h p q = .ok [] ↔
      y.label = z.label ∧ sameData close y z = true ∧ (dtype = true → y.dtype = z.dtype) := by
  obtain ⟨o1, c1, rfl, -, -, -⟩ := larry_parts hy
  obtain ⟨o2, c2, rfl, -, -, -⟩ := larry_parts hz
  unfold assertLarryEqual
  rw [larryAt_ok.mpr c1, larryAt_ok.mpr c2]
  simp only [equalComplaints, Except.ok.injEq, List.append_eq_nil_iff, complain_nil]
  cases dtype <;> simp [and_assoc]

/-- C87. `assert_larry_equal` passes on two larrys exactly if they have the same labels and dtype and, under the
same names, equal elements or finite floats that are close. -/
theorem C87_equal {close : ℚ → ℚ → Bool} (hr : ∀ a, close a a = true) {mayShare : View → View → Bool} {iscopy : Bool}
    {h : Heap L} {p q : Nat} {y z : Larry L} (hy : h.larry p = some y) (hz : h.larry q = some z)
    (vy : y.Valid) (vz : z.Valid) (ty : y.Typed) (tz : z.Typed) (ho : y.dtype ≠ .object) :
    assertLarryEqual close mayShare true none iscopy h p q = .ok [] ↔
      y.label = z.label ∧ y.dtype = z.dtype ∧ ∀ names v w, y.Has names v → z.Has names w → CloseTo close v w := by
  rw [larryEqual_nil hy hz]
  refine and_congr_right fun hl => ?_
  have hs : y.x.shape = z.x.shape := by rw [vy.shape_eq, vz.shape_eq, hl]
  simp only [true_imp_iff]
  rw [and_comm]
  refine and_congr_right fun hd => ?_
  rw [← by_names vy hl]
  unfold sameData
  by_cases hf : y.dtype = .float
  · rw [if_pos (Or.inl hf), sameArray_iff hs]
    refine forall_congr' fun i => forall_congr' fun hi => close_float hr ?_ ?_
    · exact hf ▸ ty i hi
    · exact (hd.symm.trans hf) ▸ tz i (hs ▸ hi)
  · rw [if_neg (by rw [← hd]; simpa using hf), sameArray_iff hs]
    refine forall_congr' fun i => forall_congr' fun hi => ?_
    rw [same_exact hf ho (ty i hi) (hd ▸ tz i (hs ▸ hi))]
    constructor
    · exact Or.inl
    · rintro (h | ⟨a, b, h1, -, -⟩)
      · exact h
      · have := ty i hi
        rw [h1] at this
        cases hd' : y.dtype <;> simp_all [Val.hasDType]

/-- C87. Without a tolerance that is: the two larrys are the same. -/
theorem C87_equal_exact {mayShare : View → View → Bool} {iscopy : Bool}
    {h : Heap L} {p q : Nat} {y z : Larry L} (hy : h.larry p = some y) (hz : h.larry q = some z)
    (vy : y.Valid) (vz : z.Valid) (ty : y.Typed) (tz : z.Typed) (ho : y.dtype ≠ .object) :
    assertLarryEqual (fun a b => decide (a = b)) mayShare true none iscopy h p q = .ok [] ↔ y.Same z := by
  rw [C87_equal (by simp) hy hz vy vz ty tz ho]
  constructor
  · rintro ⟨hl, hd, he⟩
    refine vy.same_of_has vz hl hd fun names v hv => ?_
    obtain ⟨w, hw⟩ := Holds_of_Named (x := z.x) (hl ▸ Named_of_Holds hv)
    rcases he names v w hv hw with rfl | ⟨a, b, rfl, rfl, hab⟩
    · exact hw
    · rw [of_decide_eq_true hab]; exact hw
  · intro hs
    refine ⟨hs.1, hs.2.1, fun names v w hv hw => Or.inl ?_⟩
    exact Holds_unique vz.nodup ((hs.has vy).mp hv) hw

/-- C87. With `dtype=False` larrys of numbers pass exactly if they have the same labels and, under the same
names, the same numbers, or close ones if one of the larrys is of floats. -/
theorem C87_equal_numbers {close : ℚ → ℚ → Bool} (hr : ∀ a, close a a = true) {mayShare : View → View → Bool} {iscopy : Bool}
    {h : Heap L} {p q : Nat} {y z : Larry L} (hy : h.larry p = some y) (hz : h.larry q = some z)
    (vy : y.Valid) (vz : z.Valid) (ty : y.Typed) (tz : z.Typed)
    (ny : y.dtype.isNumeric = true) (nz : z.dtype.isNumeric = true) :
    assertLarryEqual close mayShare false none iscopy h p q = .ok [] ↔ y.label = z.label ∧
      ∀ names v w, y.Has names v → z.Has names w → CloseNumber close (y.dtype = .float ∨ z.dtype = .float) v w := by
  rw [larryEqual_nil hy hz]
  refine and_congr_right fun hl => ?_
  have hs : y.x.shape = z.x.shape := by rw [vy.shape_eq, vz.shape_eq, hl]
  rw [← by_names vy hl]
  simp only [Bool.false_eq_true, false_imp_iff, and_true]
  unfold sameData
  by_cases hf : y.dtype = .float ∨ z.dtype = .float
  · rw [if_pos hf, sameArray_iff hs]
    simp only [hf]
    exact forall_congr' fun i => forall_congr' fun hi => (close_number hr ny nz (ty i hi) (tz i (hs ▸ hi))).1
  · rw [if_neg hf, sameArray_iff hs]
    simp only [hf]
    exact forall_congr' fun i => forall_congr' fun hi => (close_number hr ny nz (ty i hi) (tz i (hs ▸ hi))).2

/-- C87. With `original` the copy or view has to pass as well. -/
theorem C87_original {close : ℚ → ℚ → Bool} {mayShare : View → View → Bool} {dtype iscopy : Bool} {h : Heap L} {p q r : Nat} :
    assertLarryEqual close mayShare dtype (some r) iscopy h p q = .ok [] ↔
      assertLarryEqual close mayShare dtype none iscopy h p q = .ok [] ∧
      (if iscopy then assertIscopy mayShare h p r else assertIsview mayShare h p r) = .ok [] := by
  unfold assertLarryEqual
  cases h.larryAt p with
  | error e => simp
  | ok o1 =>
    cases h.larryAt q with
    | error e => simp
    | ok o2 =>
      dsimp only
      generalize (if iscopy then assertIscopy mayShare h p r else assertIsview mayShare h p r) = c
      rcases c with e | (_ | ⟨c, cs⟩) <;> simp [originalComplaints]


/-! ## What the helpers do not see -/

/-- `np.may_share_memory` that looks at the buffer only. -/
def sameBuf (v w : View) : Bool := decide (v.buf = w.buf)

theorem sameBuf_sees : SeesSharing sameBuf :=
  ⟨fun v w _ _ h _ _ _ => by simpa [sameBuf] using h, fun v w h => by simpa [sameBuf] using h⟩

/-- `larry(x, [l0, l1])` and `larry(x.copy(), [l1, l0])`, at 4 and 7. -/
def exCross : List Ref × Heap Nat := Act.exec
  [.mkArray ⟨[2, 2], fun _ => fl 1⟩ .float, .mkList [10, 20], .mkList [3, 1], .mkOut [1, 2], .init 0 3,
   .mkArray ⟨[2, 2], fun _ => fl 1⟩ .float, .mkOut [2, 1], .init 5 6] ([], Heap.empty)

/-- C87. Lists shared along different axes are not seen: `assert_iscopy` passes, and a list sorted in the
one larry is sorted in the other. -/
theorem C87_iscopy_axes :
    exCross.1[4]? = some (.larry 4) ∧ exCross.1[7]? = some (.larry 7) ∧
    assertIscopy sameBuf exCross.2 4 7 = .ok [] ∧
    (exCross.2.larry 7).map (·.label) = some [[3, 1], [10, 20]] ∧
    ((Act.exec [.attrLabel 4, .item 1 8, .writeList [1, 3] 9] exCross).2.larry 7).map (·.label) =
      some [[1, 3], [10, 20]] :=
  ⟨rfl, rfl, rfl, by decide +kernel, by decide +kernel⟩

/-- `np.may_share_memory` that tells the parts of a buffer apart. -/
def sameCell (v w : View) : Bool :=
  decide (v.buf = w.buf) && (allIdx v.ix.shape).any (fun i => (allIdx w.ix.shape).any (fun j => decide (v.ix.get i = w.ix.get j)))

theorem sameCell_sees : SeesSharing sameCell := by
  refine ⟨fun v w i j h hi hj hc => ?_, fun v w h => by simp [sameCell, h]⟩
  simp only [sameCell, Bool.and_eq_true, List.any_eq_true, decide_eq_true_eq]
  exact ⟨h, i, mem_allIdx.mpr hi, j, mem_allIdx.mpr hj, hc⟩

/-- `larry(x[0:2], [l])` and `larry(x[2:4], [l'])`, at 5 and 6. -/
def exParts : List Ref × Heap Nat := Act.exec
  [.mkArray ⟨[4], fun _ => fl 1⟩ .float, .mkList [10, 20], .mkOut [1], .mkList [10, 20], .mkOut [3],
   .view ⟨[2], id⟩ 0, .view ⟨[2], fun i => [i.headD 0 + 2]⟩ 0, .init 5 2, .init 6 4] ([], Heap.empty)

/-- Two halves of one array meet the hypotheses of `C87_write`. -/
example : SeesSharing sameCell ∧ exParts.1[7]? = some (.larry 5) ∧ exParts.1[8]? = some (.larry 6) ∧
    (∃ o1 o2, exParts.2.cell 5 = some (.obj o1) ∧ exParts.2.cell 6 = some (.obj o2) ∧ o1.x.buf = o2.x.buf) ∧
    assertIscopy sameCell exParts.2 5 6 = .ok [] :=
  ⟨sameCell_sees, rfl, rfl, ⟨_, _, rfl, rfl, rfl⟩, rfl⟩

/-- `exS` and `y[0:1, 0:2]` of its first larry. -/
def exPart : List Ref × Heap Nat :=
  Act.exec [.getitem false (.tuple [.slice ⟨some 0, some 1, none⟩, .slice ⟨some 0, some 2, none⟩]) 4] exS

/-- C87. `noreference` asks whether the arrays are one object, so a view passes for a copy: it returns True
for `y` and `y[0:1, 0:2]`, though a write to the one is seen in the other.  `assert_iscopy` complains. -/
theorem C87_noreference :
    exPart.1[10]? = some (.larry 13) ∧
    noreference false exPart.2 4 13 = .ok true ∧
    assertIscopy sameBuf exPart.2 4 13 = .ok [.sharedData] ∧
    ((Act.exec [.attrX 10, .write (fun _ => true) (fun _ => fl 7) 11] exPart).2.larry 4).map
      (fun y => (y.x.get [0, 1], y.x.get [1, 0])) = some (fl 7, fl 4) :=
  ⟨rfl, rfl, rfl, by decide +kernel⟩

/-- `larry(x[0:2], [l])` and `larry(x[2:4], [l])`, at 3 and 4. -/
def exHalves : List Ref × Heap Nat := Act.exec
  [.mkArray ⟨[4], fun _ => fl 1⟩ .float, .mkList [10, 20], .mkOut [1],
   .view ⟨[2], id⟩ 0, .view ⟨[2], fun i => [i.headD 0 + 2]⟩ 0, .init 3 2, .init 4 2] ([], Heap.empty)

/-- C87. `assert_isview` passes for two halves of one array that have no element in common, if
`np.may_share_memory` does not tell them apart: a write to the one is not seen in the other. -/
theorem C87_isview_data :
    exHalves.1[5]? = some (.larry 3) ∧ exHalves.1[6]? = some (.larry 4) ∧
    assertIsview sameBuf exHalves.2 3 4 = .ok [] ∧
    ((Act.exec [.write (fun _ => true) (fun _ => fl 7) 3] exHalves).2.larry 3).map (fun y => (y.x.get [0], y.x.get [1])) =
      some (fl 7, fl 7) ∧
    ((Act.exec [.write (fun _ => true) (fun _ => fl 7) 3] exHalves).2.larry 4).map (fun y => (y.x.get [0], y.x.get [1])) =
      some (fl 1, fl 1) :=
  ⟨rfl, rfl, rfl, by decide +kernel, by decide +kernel⟩


/-- `larry(x[0:2], [l])` once more, and another number of dimensions. -/
example : nocopy true (Act.exec [.init 3 2] exHalves).2 3 5 = .ok true ∧ nocopy false exHalves.2 3 4 = .ok false ∧
    noreference false exCross.2 4 7 = .ok true ∧ noreference false exS.2 4 0 = .error .typeError :=
  ⟨rfl, rfl, rfl, rfl⟩

/-- They meet the hypotheses of `C87_isview`. -/
example : ∃ o1 o2, exHalves.2.cell 3 = some (.obj o1) ∧ exHalves.2.cell 4 = some (.obj o2) ∧
    0 < min o1.x.ix.ndim o2.x.ix.ndim ∧ (exHalves.2.out o1.label)[0]? = some 1 ∧
    exHalves.2.cell 1 = some (.lst [10, 20]) ∧ exHalves.2.cell o1.label = some (.out (exHalves.2.out o1.label)) ∧
    exHalves.2.cell o2.label = some (.out (exHalves.2.out o2.label)) :=
  ⟨_, _, rfl, rfl, by decide, rfl, rfl, rfl, rfl⟩

/-- A larry that differs from `exHalves`' by a ten-thousandth in one element. -/
def exNear : List Ref × Heap Nat := Act.exec
  [.mkArray ⟨[2], fun i => if i = [0] then fl (10001 / 10000) else fl 1⟩ .float, .mkList [10, 20], .mkOut [7 + 1],
   .init 7 9] exHalves

/-- Up to a thousandth it is equal, exactly it is not, and the labels of the two halves are one list. -/
example : exNear.1[10]? = some (.larry 8) ∧
    assertLarryEqual (fun a b => decide (|a - b| < 1 / 1000)) sameBuf true (some 3) true exNear.2 8 3 = .ok [] ∧
    assertLarryEqual (fun a b => decide (a = b)) sameBuf true none true exNear.2 8 3 = .ok [.data] ∧
    assertLarryEqual (fun a b => decide (a = b)) sameBuf true (some 3) true exNear.2 4 3 = .ok [.notACopy] ∧
    assertLarryEqual (fun a b => decide (a = b)) sameBuf true (some 3) false exNear.2 4 3 = .ok [] := by
  refine ⟨rfl, ?_, ?_, ?_, ?_⟩ <;> decide +kernel

/-- The hypotheses of `C87_equal`, met by the two. -/
example : ∃ y z, exNear.2.larry 8 = some y ∧ exNear.2.larry 3 = some z ∧ y.Valid ∧ z.Valid ∧ y.Typed ∧ z.Typed ∧
    y.dtype ≠ .object ∧ y.dtype.isNumeric = true ∧ z.dtype.isNumeric = true := by
  refine ⟨_, _, rfl, rfl, ⟨rfl, by decide, by decide⟩, ⟨rfl, by decide, by decide⟩, ?_, ?_, by decide, rfl, rfl⟩
  · intro i hi
    exact (by decide +kernel : ∀ i ∈ allIdx [2], ((if i = [0] then fl (10001 / 10000) else fl 1 : Val)).hasDType .float = true)
      i (mem_allIdx.mpr hi)
  · intro i hi
    rfl

end
end La
