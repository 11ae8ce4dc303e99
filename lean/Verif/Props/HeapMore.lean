import Verif.HeapMoreRun
import Verif.Props.HeapValues

/-!
# C99: the memory of what lix, flatten, panel, stack, cov, align_axis, sortby, getx, getlabel, copylabel, lrange, ones
# and zeros return

These calls write to nothing that was there, and what they return shares nothing with what was there, except: `lix`
with lists of labels keeps the lists between the brackets, `lix` of a single entry indexes with `y[...]`, `getx` and
`getlabel` without copy give what the larry holds, and the creating functions keep the `label` given.
-/

namespace La
variable {L : Type} [LinearOrder L]

/-! ## Specification -/

/-- The calls that are to return something independent of their arguments:
- `getx` and `getlabel` with `copy=True`, the default;
- `sortby` of a larry with at most two lists of labels (it raises for others);
- `lix` with a tuple without lists of labels, of a larry that is not of shape (0,);
- `lrange`, `ones` and `zeros` without `label`. -/
def Call.Fresh (env : List Ref) (h : Heap L) : Call L → Prop
  | .getx copy _ => copy = true
  | .getlabel _ copy _ => copy = true
  | .copylabel _ | .cov _ | .flatten .. | .panel .. | .alignAxis .. | .stack .. => True
  | .sortby _ _ _ _ i => ∀ p o, env[i]? = some (.larry p) → h.cell p = some (.obj o) → (h.out o.label).length ≤ 2
  | .lix (.tuple its) i => (∀ k, HItem.list k ∉ its) ∧
      ∀ p o, env[i]? = some (.larry p) → h.cell p = some (.obj o) → o.x.ix.shape ≠ [0]
  | .lix (.one _) _ => False
  | .lrange _ _ label _ _ _ => label = none
  | .filled _ _ _ _ label _ => label = none

/-- The addresses a program gets at through a reference. -/
def Heap.reach (h : Heap L) : Ref → List Nat
  | .larry p => h.foot p
  | .array v => [v.buf]
  | .lst a => [a]
  | .out a => a :: h.out a
  | .scalar => []

/-- The positions of the larrys, the lists and the lists of lists a call works on. -/
def Call.larrys : Call L → List Nat
  | .getx _ i | .getlabel _ _ i | .copylabel i | .cov i | .flatten _ _ i | .panel _ i | .sortby _ _ _ _ i | .lix _ i => [i]
  | .alignAxis _ _ is => is
  | .stack _ kwargs => kwargs.map Prod.snd
  | _ => []

def HItem.lists : HItem L → List Nat
  | .list k => [k]
  | _ => []

def Call.lists : Call L → List Nat
  | .lix (.one it) _ => it.lists
  | .lix (.tuple its) _ => its.flatMap HItem.lists
  | _ => []

def Call.outs : Call L → List Nat
  | .lrange _ _ (some i) _ _ _ => [i]
  | .filled _ _ _ _ (some i) _ => [i]
  | _ => []

/-- The program holds the valid larrys `ys`, the lists `ls` and the lists of lists `os` at these positions. -/
structure Holding (env : List Ref) (h : Heap L) (c : Call L) (ys : Nat → Larry L) (ls : Nat → List L)
    (os : Nat → List (List L)) : Prop where
  larrys : ∀ i ∈ c.larrys, ∃ p, env[i]? = some (.larry p) ∧ h.larry p = some (ys i) ∧ (ys i).Valid
  lists : ∀ i ∈ c.lists, ∃ a, env[i]? = some (.lst a) ∧ h.cell a = some (.lst (ls i))
  outs : ∀ i ∈ c.outs, ∃ a as, env[i]? = some (.out a) ∧ h.cell a = some (.out as) ∧
    List.Forall₂ (fun b l => h.cell b = some (.lst l)) as (os i)

/-- The entry of a lix expression with the contents of its list. -/
def HItem.means (ls : Nat → List L) : HItem L → LItem L
  | .list k => .list (ls k)
  | .slice s => .slice s
  | .int i => .int i
  | .other => .other

def HIndex.means (ls : Nat → List L) : HIndex L → LIndex L
  | .one it => .one (it.means ls)
  | .tuple its => .tuple (its.map (HItem.means ls))

/-- A larry returned. -/
def seeLarry (r : Res (Larry L)) : Res (List (Seen L)) := Res.map (fun z => [.larry (some z)]) r

/-- What indexing returns. -/
def seeGet (d : DType) (r : Res (GetOut L)) : Res (List (Seen L)) :=
  Res.map (fun
    | .scalar _ => [.scalar]
    | .array x => [.array x d]
    | .larry z => [.larry (some z)]) r

/-- What a call returns, as values. -/
def Call.means (ys : Nat → Larry L) (ls : Nat → List L) (os : Nat → List (List L)) : Call L → Res (List (Seen L))
  | .getx _ i => .ok [.array (ys i).x (ys i).dtype]
  | .getlabel axis _ i => Res.map (fun l => [.lst l]) ((ys i).getlabel axis)
  | .copylabel i => .ok [.out (ys i).label]
  | .cov i => seeLarry (La.cov (ys i))
  | .flatten tup order i => seeLarry (Res.map (Larry.rename tup) ((ys i).flatten order))
  | .panel tup i => seeLarry (Res.map (Larry.rename (Sum.elim id tup)) (La.panel (ys i)))
  | .alignAxis axis join is => Res.map (fun zs => zs.map (fun z => .larry (some z))) (La.alignAxisN (is.map ys) axis join)
  | .stack mode kwargs => seeLarry (La.stack mode (kwargs.map (fun c => (c.1, ys c.2))))
  | .sortby argsort element axis reverse i => seeGet (ys i).dtype (La.sortby argsort (ys i) element axis reverse)
  | .lix idx i => seeGet (ys i).dtype ((ys i).lixGet (idx.means ls))
  | .lrange num shape label start step dtype => seeLarry (La.lrange num shape (label.map os) start step dtype)
  | .filled mem num n shape label dtype => seeLarry (La.filled mem num n shape (label.map os) dtype)

/-- The same, up to what the model keeps outside the arrays. -/
def Seen.Same : Seen L → Seen L → Prop
  | .larry (some y), .larry (some z) => y.Same z
  | .array x d, .array x' d' => x.Same x' ∧ d = d'
  | s, s' => s = s'

/-- The call returns references through which this is seen, or raises this exception. -/
def Gives (h : Heap L) (m : HM L (List Ref)) : Res (List (Seen L)) → Prop
  | .error e => m.out h = .error e
  | .ok ss => ∃ rs, m.out h = .ok rs ∧ List.Forall₂ (fun r s => ((m.after h).see r).Same s) rs ss

/-! ## Lemmas -/

section
variable {P : Nat → Prop} {h0 : Base L} {h : Heap L}

omit [LinearOrder L] in
theorem fetchItems_none {env : List Ref} : ∀ {its : List (HItem L)}, (∀ k, HItem.list k ∉ its) → Run h (fetchItems env its) its h
  | [], _ => Run.pure
  | it :: its, hn => by
    have h1 : Run h (it.fetch env) it h := by
      cases it with
      | list k => exact absurd List.mem_cons_self (hn k)
      | slice s => exact Run.pure
      | int i => exact Run.pure
      | other => exact Run.pure
    exact Run.bind h1 (Run.bind (fetchItems_none (fun k hk => hn k (List.mem_cons_of_mem _ hk))) Run.pure)

/-- These calls stay within what is new. -/
theorem Call.fresh_safe (hP : ∀ a, h0.next ≤ a → a < h0.top → P a) {env : List Ref} {c : Call L} (hc : c.Fresh env h) :
    SafeAt P h0 h (c.run env) (fun rs => ∀ r ∈ rs, r.In P) := by
  cases c with
  | getx copy i =>
    refine SafeAt.read (asLarry_after _ _ _) (fun p _ => ?_)
    exact (Safe.bind (Safe.hGetx hP (Or.inl hc)) (fun v hv => Safe.pure (by simpa [Ref.In] using hv))).at
  | getlabel axis copy i =>
    refine SafeAt.read (asLarry_after _ _ _) (fun p _ => ?_)
    exact (Safe.bind (Safe.hGetlabel hP axis (Or.inl hc)) (fun v hv => Safe.pure (by simpa [Ref.In] using hv))).at
  | copylabel i =>
    refine SafeAt.read (asLarry_after _ _ _) (fun p _ => ?_)
    exact (Safe.bind (Safe.hCopylabel hP p) (fun v hv => Safe.pure (by simpa [Ref.In] using hv))).at
  | cov i => exact SafeAt.read (asLarry_after _ _ _) (fun p _ => (Safe.give (Safe.hCov hP p)).at)
  | flatten tup order i =>
    exact SafeAt.read (asLarry_after _ _ _) (fun p _ => (Safe.give (Safe.hFlatten hP tup order p)).at)
  | panel tup i => exact SafeAt.read (asLarry_after _ _ _) (fun p _ => (Safe.give (Safe.hPanel hP tup p)).at)
  | alignAxis axis join is =>
    refine SafeAt.read (asLarrys_after _ _ _) (fun ps _ => ?_)
    exact (Safe.bind (Safe.hAlignAxis hP axis join ps) (fun qs hqs => Safe.pure (by simpa [Ref.In] using hqs))).at
  | stack mode kwargs =>
    exact SafeAt.read (asLarrys_after _ _ _) (fun ps _ => (Safe.give (Safe.hStack hP mode _)).at)
  | sortby argsort element axis reverse i =>
    refine SafeAt.read (asLarry_after _ _ _) (fun p hp => ?_)
    refine SafeAt.bind (SafeAt.hSortby hP argsort element axis reverse (fun o ho => hc p o (asLarry_ok hp) ho)) (fun r hr => ?_)
    exact Safe.pure (by simpa using hr)
  | lix idx i =>
    cases idx with
    | one it => exact absurd hc id
    | tuple its =>
      refine SafeAt.read (asLarry_after _ _ _) (fun p hp => ?_)
      have hfetch : Run h ((HIndex.tuple its).fetch env) (HIndex.tuple its) h := Run.bind (fetchItems_none hc.1) Run.pure
      refine SafeAt.read hfetch.2 (fun idx hidx => ?_)
      rw [hfetch.1] at hidx
      cases hidx
      refine SafeAt.bind (SafeAt.hLix hP (fun it hit a ha => absurd (ha ▸ hit) (hc.1 a))
        (fun o ho => hc.2 p o (asLarry_ok hp) ho)) (fun r hr => ?_)
      exact Safe.pure (by simpa using hr)
  | lrange num shape label start step dtype =>
    obtain rfl : label = none := hc
    exact SafeAt.read rfl (fun a ha => by
      cases ha
      exact (Safe.give (Safe.hLrange hP num shape start step dtype (by simp))).at)
  | filled mem num n shape label dtype =>
    obtain rfl : label = none := hc
    exact SafeAt.read rfl (fun a ha => by
      cases ha
      exact (Safe.give (Safe.hFilled hP mem num n shape dtype (by simp))).at)

omit [LinearOrder L] in
theorem Heap.reach_in {h : Heap L} (hcl : h.Closed P) {r : Ref} (hr : r.In P) : ∀ a ∈ h.reach r, P a := by
  cases r with
  | larry p => exact Heap.foot_in hcl hr
  | array v => simpa [Heap.reach, Ref.In] using hr
  | lst a => simpa [Heap.reach, Ref.In] using hr
  | out a =>
    intro b hb
    rcases List.mem_cons.mp hb with rfl | hb
    · exact hr
    · unfold Heap.out at hb
      split at hb
      · rename_i as has
        exact hcl _ _ hr has b hb
      · simp at hb
  | scalar => simp [Heap.reach]

/-- What a program run does that stays within the references held. -/
def Owned (env : List Ref) (m : HM L (List Ref)) : Prop :=
  ∀ (P : Nat → Prop) (h0 : Base L), (∀ a, h0.next ≤ a → a < h0.top → P a) → (∀ r ∈ env, Ref.In P r) →
    Safe P h0 m (fun rs => ∀ r ∈ rs, Ref.In P r)

omit [LinearOrder L] in
theorem Owned.wf {h : Heap L} (hw : h.Wf) {env : List Ref} (he : Live env h) {m : HM L (List Ref)} (hm : Owned env m) :
    (m.after h).Wf ∧ ∀ rs, m.out h = .ok rs → Live rs (m.after h) := by
  have hle := HM.next_le m h
  obtain ⟨h1, h2, h3⟩ := SafeAt.use (P := fun b => b < (m.after h).next) (h := h)
    (Safe.at (hm _ _ (fun _ _ hb => hb) (fun r hr => (he r hr).mono (fun b hb => lt_of_lt_of_le hb hle))))
    (fun b c _ hc => (hw b c hc).2.mono (fun b hb => lt_of_lt_of_le hb hle))
  refine ⟨fun b c hc => ?_, h3⟩
  have hb : b < (m.after h).next := by
    by_contra hn
    rw [h1 b hn] at hc
    have := (hw b c hc).1
    omega
  exact ⟨hb, h2 b c hb hc⟩

/-- The references held after a run. -/
def heldAfter (env : List Ref) : Res (List Ref) → List Ref
  | .ok rs => env ++ rs
  | .error _ => env

omit [LinearOrder L] in
theorem mem_heldAfter {env : List Ref} {t : Res (List Ref)} {r : Ref} (hr : r ∈ heldAfter env t) :
    r ∈ env ∨ ∃ rs, t = .ok rs ∧ r ∈ rs := by
  cases t with
  | error e => exact Or.inl hr
  | ok rs =>
    rcases List.mem_append.mp hr with hr | hr
    · exact Or.inl hr
    · exact Or.inr ⟨rs, rfl, hr⟩

omit [LinearOrder L] in
theorem Apart.run {A : Nat → Prop} {env1 env2 : List Ref} {h : Heap L} (ha : Apart A env1 env2 h) {m : HM L (List Ref)}
    (hm : Owned env1 m) :
    (∃ A', Apart A' (heldAfter env1 (m.out h)) env2 (m.after h)) ∧ ∀ r ∈ env2, (m.after h).see r = h.see r := by
  have hle := HM.next_le m h
  set h' := m.after h with hh'
  set A' : Nat → Prop := fun b => (A b ∧ b < h.next) ∨ (h.next ≤ b ∧ b < h'.next) with hA'
  have hlow : ∀ b, A b ∧ b < h.next → A' b := fun b hb => Or.inl hb
  obtain ⟨h1, h2, h3⟩ := SafeAt.use (P := A') (h := h) (m := m)
    (Safe.at (hm _ _ (fun b hb hb' => Or.inr ⟨hb, hb'⟩)
      (fun r hr => ((ha.in1 r hr).and (ha.live1 r hr)).mono hlow)))
    (by
      intro b c hb hc
      have hbn := (ha.wf b c hc).1
      rcases hb with hb | hb
      · exact ((ha.closed1 b c hb.1 hc).and (ha.wf b c hc).2).mono hlow
      · omega)
  obtain ⟨w1, w2⟩ := hm.wf ha.wf ha.live1
  have hcomp : ∀ b, ¬ A b → b < h.next → ¬ A' b := by
    rintro b hb hlt (h | h)
    · exact hb h.1
    · omega
  have hsame : ∀ b, (¬ A b ∧ b < h.next) → h'.cell b = h.cell b := fun b hb => h1 b (hcomp b hb.1 hb.2)
  have hcl2 : h.Closed (fun b => ¬ A b ∧ b < h.next) :=
    fun b c hb hc => (ha.closed2 b c hb.1 hc).and (ha.wf b c hc).2
  have hin2 : ∀ r ∈ env2, r.In (fun b => ¬ A b ∧ b < h.next) := fun r hr => (ha.in2 r hr).and (ha.live2 r hr)
  refine ⟨⟨A', ⟨w1, ?_, ?_, ?_, ?_, h2, ?_⟩⟩, fun r hr => Heap.see_congr hcl2 hsame (hin2 r hr)⟩
  · intro r hr
    rcases mem_heldAfter hr with hr | ⟨rs, hrs, hr⟩
    · exact (ha.live1 r hr).mono (fun b hb => lt_of_lt_of_le hb hle)
    · exact w2 rs hrs r hr
  · exact fun r hr => (ha.live2 r hr).mono (fun b hb => lt_of_lt_of_le hb hle)
  · intro r hr
    rcases mem_heldAfter hr with hr | ⟨rs, hrs, hr⟩
    · exact ((ha.in1 r hr).and (ha.live1 r hr)).mono hlow
    · exact h3 rs hrs r hr
  · exact fun r hr => (hin2 r hr).mono (fun b hb => hcomp b hb.1 hb.2)
  · intro b c hb hc
    rw [h1 b hb] at hc
    have hbn := (ha.wf b c hc).1
    have hnA : ¬ A b := fun h => hb (Or.inl ⟨h, hbn⟩)
    exact (hcl2 b c ⟨hnA, hbn⟩ hc).mono (fun b hb => hcomp b hb.1 hb.2)

theorem Step.step_eq (s : List Ref × Heap L) (a : Step L) :
    Step.step s a = (heldAfter s.1 ((a.run s.1).out s.2), (a.run s.1).after s.2) := by
  unfold Step.step HM.after HM.out
  split
  · rename_i heq
    rw [heq]
    rfl
  · rename_i heq
    rw [heq]
    rfl

theorem Step.owned (env : List Ref) (a : Step L) : Owned env (a.run env) := fun _ _ hP henv => Safe.stepRun hP henv a

end

/-! ## Theorems -/

/-- Writing to nothing that was there, whether the call returns or raises; nothing a program can get at through what is
returned was there. -/
theorem C99_fresh {h : Heap L} (hw : h.Wf) {env : List Ref} {c : Call L} (hc : c.Fresh env h) :
    (∀ b < h.next, ((c.run env).after h).cell b = h.cell b) ∧
    (∀ r, r.In (· < h.next) → ((c.run env).after h).see r = h.see r) ∧
    ∀ rs, (c.run env).out h = .ok rs → ∀ r ∈ rs, ∀ b ∈ ((c.run env).after h).reach r,
      h.next ≤ b ∧ ∀ r', r'.In (· < h.next) → b ∉ h.reach r' := by
  obtain ⟨h1, h2, h3⟩ := SafeAt.use (P := fun b => h.next ≤ b) (h := h) (m := c.run env)
    (Call.fresh_safe (fun _ hb _ => hb) hc) (fun b c hb hcell => absurd (hw b c hcell).1 (by omega))
  have h4 : ∀ b < h.next, ((c.run env).after h).cell b = h.cell b := fun b hb => h1 b (by omega)
  have hcl : h.Closed (· < h.next) := fun b c _ hcell => (hw b c hcell).2
  refine ⟨h4, fun r hr => Heap.see_congr hcl h4 hr, fun rs hrs r hr b hb => ?_⟩
  have hb1 := Heap.reach_in h2 (h3 rs hrs _ hr) b hb
  refine ⟨hb1, fun r' hr' hmem => ?_⟩
  have := Heap.reach_in hcl hr' b hmem
  omega

/-- Two parts of a program, with all steps. -/
def Sides.stepAny (s : Sides L) (c : Bool × Step L) : Sides L :=
  if c.1 then
    let t := Step.step (s.1.1, s.2) c.2
    ((t.1, s.1.2), t.2)
  else
    let t := Step.step (s.1.2, s.2) c.2
    ((s.1.1, t.1), t.2)

def Sides.execAny (s : Sides L) (prog : List (Bool × Step L)) : Sides L := prog.foldl Sides.stepAny s

theorem Apart.any {s : Sides L} (hs : ∃ A, Apart A s.1.1 s.1.2 s.2) (c : Bool × Step L) :
    (∃ A, Apart A (s.stepAny c).1.1 (s.stepAny c).1.2 (s.stepAny c).2) ∧
    ∀ r ∈ s.held (!c.1), (s.stepAny c).2.see r = s.2.see r := by
  obtain ⟨A, hA⟩ := hs
  obtain ⟨side, a⟩ := c
  cases side with
  | true =>
    unfold Sides.stepAny
    simp only [if_true, Step.step_eq]
    exact hA.run (Step.owned _ a)
  | false =>
    obtain ⟨⟨B, hB⟩, h2⟩ := hA.swap.run (Step.owned _ a)
    unfold Sides.stepAny
    simp only [Bool.false_eq_true, if_false, Step.step_eq]
    exact ⟨⟨_, hB.swap⟩, h2⟩

/-- After such a call, whatever one part of a program does with the references that were held before, and the other
part with those the call returned, in any order and number of steps: no step of one part changes what the other part
sees.  The steps are those of C23 and the calls of this file. -/
theorem C99_independent {h : Heap L} (hw : h.Wf) {env : List Ref} (he : Live env h) {c : Call L} (hc : c.Fresh env h)
    {rs : List Ref} (hrs : (c.run env).out h = .ok rs) (prog : List (Bool × Step L)) (side : Bool) (b : Step L) :
    let s := Sides.execAny ((env, rs), (c.run env).after h) prog
    ∀ r ∈ s.held (!side), (s.stepAny (side, b)).2.see r = s.2.see r := by
  intro s
  have start : ∃ A, Apart A env rs ((c.run env).after h) := by
    obtain ⟨w1, w2⟩ := (Step.owned env (.call c)).wf hw he
    obtain ⟨h1, h2, h3⟩ := SafeAt.use (P := fun b => h.next ≤ b) (h := h) (m := c.run env)
      (Call.fresh_safe (fun _ hb _ => hb) hc) (fun b c hb hcell => absurd (hw b c hcell).1 (by omega))
    have hle := HM.next_le (c.run env) h
    refine ⟨(· < h.next), ⟨w1, ?_, w2 rs hrs, he, ?_, ?_, ?_⟩⟩
    · exact fun r hr => (he r hr).mono (fun b hb => lt_of_lt_of_le hb hle)
    · exact fun r hr => (h3 rs hrs r hr).mono (fun b hb => Nat.not_lt.mpr hb)
    · intro b c hb hcell
      rw [h1 b (by omega)] at hcell
      exact (hw b c hcell).2
    · exact fun b c hb hcell => (h2 b c (by omega) hcell).mono (fun b hb => by omega)
  have main : ∀ (prog : List (Bool × Step L)) (s : Sides L), (∃ A, Apart A s.1.1 s.1.2 s.2) →
      ∃ A, Apart A (s.execAny prog).1.1 (s.execAny prog).1.2 (s.execAny prog).2 := by
    intro prog
    induction prog with
    | nil => exact fun s hs => hs
    | cons c prog ih => exact fun s hs => ih (s.stepAny c) (Apart.any hs c).1
  exact (Apart.any (main prog _ start) (side, b)).2

/-! ### Values -/

section
variable {h : Heap L}

omit [LinearOrder L] in
theorem Gives.step {α : Type} {m : HM L α} {v : α} {f : α → HM L (List Ref)} {r : Res (List (Seen L))}
    (hm : Run h m v h) (hf : Gives h (f v) r) : Gives h (m >>= f) r := by
  cases r with
  | error e => exact Run.raises hm hf
  | ok ss =>
    obtain ⟨rs, h1, h2⟩ := hf
    obtain ⟨e1, e2⟩ := HM.bind_ok (f := f) hm.1
    rw [hm.2] at e1 e2
    exact ⟨rs, by rw [e1, h1], by rw [e2]; exact h2⟩

omit [LinearOrder L] in
theorem Yields.gives {α β : Type} {m : HM L α} {r : Res β} {R : α → Heap L → β → Prop} (hm : Yields h m r R)
    {f : α → List Ref} {g : β → List (Seen L)}
    (hR : ∀ v h' z, R v h' z → List.Forall₂ (fun r s => (h'.see r).Same s) (f v) (g z)) :
    Gives h (m >>= fun v => Pure.pure (f v)) (Res.map g r) := by
  cases r with
  | error e => exact HM.raises_left hm
  | ok z =>
    obtain ⟨v, h', r1, e1, hr⟩ := hm
    have r2 : Run h (m >>= fun v => Pure.pure (f v)) (f v) h' := Run.bind r1 Run.pure
    refine ⟨f v, r2.1, ?_⟩
    rw [r2.2]
    exact hR v h' z hr

omit [LinearOrder L] in
theorem Seen.Same.refl : ∀ s : Seen L, s.Same s
  | .larry none => rfl
  | .larry (some y) => Larry.Same.refl y
  | .array _ _ => ⟨⟨rfl, fun _ _ => rfl⟩, rfl⟩
  | .lst _ => rfl
  | .out _ => rfl
  | .scalar => rfl

omit [LinearOrder L] in
theorem see_new {b q : Nat} {h' : Heap L} {z : Larry L} (hq : NewAt b q h' z) :
    (h'.see (.larry q)).Same (.larry (some z)) := by
  obtain ⟨o, ho⟩ := hq
  simp only [Heap.see, ho.larry]
  exact Larry.Same.refl z

omit [LinearOrder L] in
theorem Refines.gives {m : HM L Nat} {r : Res (Larry L)} (hm : Refines h m r) : Gives h (giveLarry m) (seeLarry r) :=
  Yields.gives (f := fun q => [.larry q]) hm.yields (fun _ _ _ hq => List.Forall₂.cons (see_new hq) List.Forall₂.nil)

omit [LinearOrder L] in
theorem gotAt_gives {d : DType} {m : HM L Ref} {r : Res (GetOut L)} (hm : Yields h m r (fun r h' t => GotAt 0 d r h' t)) :
    Gives h (m >>= fun r => pure [r]) (seeGet d r) := by
  refine Yields.gives (f := fun r => [r]) hm (fun r h' t ht => ?_)
  cases t with
  | scalar v =>
    obtain rfl : r = .scalar := ht
    exact List.Forall₂.cons rfl List.Forall₂.nil
  | array x =>
    obtain ⟨v, rfl, ha⟩ := ht
    refine List.Forall₂.cons ?_ List.Forall₂.nil
    simp only [Heap.see, ha.get, ha.dtype]
    exact Seen.Same.refl _
  | larry z =>
    obtain ⟨q, rfl, hq⟩ := ht
    exact List.Forall₂.cons (see_new hq) List.Forall₂.nil

omit [LinearOrder L] in
theorem asLarrys_run {env : List Ref} {ys : Nat → Larry L} (hw : h.Wf) : ∀ {is : List Nat},
    (∀ i ∈ is, ∃ p, env[i]? = some (.larry p) ∧ h.larry p = some (ys i) ∧ (ys i).Valid) →
    ∃ ps, Run h (asLarrys env is) ps h ∧ AllAt h 0 ps (is.map ys)
  | [], _ => ⟨[], Run.pure, List.Forall₂.nil⟩
  | i :: is, hi => by
    obtain ⟨p, h1, h2, -⟩ := hi i List.mem_cons_self
    obtain ⟨ps, h3, h4⟩ := asLarrys_run hw (is := is) (fun j hj => hi j (List.mem_cons_of_mem _ hj))
    exact ⟨p :: ps, Run.bind (Run.asLarry h1) (Run.bind h3 Run.pure), List.Forall₂.cons (ObjAt.of_larry hw h2) h4⟩

omit [LinearOrder L] in
theorem fetch_run {env : List Ref} {ls : Nat → List L} {it : HItem L}
    (hit : ∀ k ∈ it.lists, ∃ a, env[k]? = some (.lst a) ∧ h.cell a = some (.lst (ls k))) :
    ∃ it', Run h (it.fetch env) it' h ∧ it'.value h = it.means ls ∧
      ∀ a, it' = .list a → h.cell a = some (.lst (h.lst a)) ∧ ∃ k, it = .list k ∧ env[k]? = some (.lst a) := by
  cases it with
  | list k =>
    obtain ⟨a, h1, h2⟩ := hit k (by simp [HItem.lists])
    have hl : h.lst a = ls k := by unfold Heap.lst; rw [h2]
    refine ⟨.list a, ?_, ?_, ?_⟩
    · refine Run.bind (v := a) ?_ Run.pure
      unfold asList
      rw [h1]
      exact Run.pure
    · simp [HItem.value, HItem.means, hl]
    · intro a' ha'
      cases ha'
      exact ⟨by rw [hl, h2], k, rfl, h1⟩
  | slice s => exact ⟨_, Run.pure, rfl, by simp⟩
  | int i => exact ⟨_, Run.pure, rfl, by simp⟩
  | other => exact ⟨_, Run.pure, rfl, by simp⟩

omit [LinearOrder L] in
theorem fetchItems_run {env : List Ref} {ls : Nat → List L} : ∀ {its : List (HItem L)},
    (∀ k ∈ its.flatMap HItem.lists, ∃ a, env[k]? = some (.lst a) ∧ h.cell a = some (.lst (ls k))) →
    ∃ its', Run h (fetchItems env its) its' h ∧ its'.map (HItem.value h) = its.map (HItem.means ls) ∧
      (∀ a, HItem.list a ∈ its' → h.cell a = some (.lst (h.lst a)) ∧ ∃ k, HItem.list k ∈ its ∧ env[k]? = some (.lst a)) ∧
      ∀ k a, HItem.list k ∈ its → env[k]? = some (.lst a) → HItem.list a ∈ its'
  | [], _ => ⟨[], Run.pure, rfl, by simp, by simp⟩
  | it :: its, hits => by
    obtain ⟨it', h1, h2, h3⟩ := fetch_run (h := h) (env := env) (ls := ls) (it := it)
      (fun k hk => hits k (by simp only [List.flatMap_cons, List.mem_append]; exact Or.inl hk))
    obtain ⟨its', h4, h5, h6, h7⟩ := fetchItems_run (env := env) (ls := ls) (its := its)
      (fun k hk => hits k (by simp only [List.flatMap_cons, List.mem_append]; exact Or.inr hk))
    refine ⟨it' :: its', Run.bind h1 (Run.bind h4 Run.pure), by simp [h2, h5], ?_, ?_⟩
    · intro a ha
      rcases List.mem_cons.mp ha with ha | ha
      · obtain ⟨i1, k, rfl, i2⟩ := h3 a ha.symm
        exact ⟨i1, k, List.mem_cons_self, i2⟩
      · obtain ⟨i1, k, i2, i3⟩ := h6 a ha
        exact ⟨i1, k, List.mem_cons_of_mem _ i2, i3⟩
    · intro k a hk ha
      rcases List.mem_cons.mp hk with hk | hk
      · subst hk
        have hf : Run h ((HItem.list k : HItem L).fetch env) (.list a) h := by
          refine Run.bind (v := a) ?_ Run.pure
          unfold asList
          rw [ha]
          exact Run.pure
        have := hf.1.symm.trans h1.1
        simp only [Except.ok.injEq] at this
        rw [← this]
        exact List.mem_cons_self
      · exact List.mem_cons_of_mem _ (h7 k a hk ha)

omit [LinearOrder L] in
theorem asOut?_run {env : List Ref} {os : Nat → List (List L)} (hw : h.Wf) {label : Option Nat}
    (hl : ∀ i, label = some i → ∃ a as, env[i]? = some (.out a) ∧ h.cell a = some (.out as) ∧
      List.Forall₂ (fun b l => h.cell b = some (.lst l)) as (os i)) :
    ∃ label', Run h (asOut? env label) label' h ∧ GivenAt h label' (label.map os) ∧
      ∀ i, label = some i → ∃ a, env[i]? = some (.out a) ∧ label' = some a := by
  cases label with
  | none => exact ⟨none, Run.pure, trivial, by simp⟩
  | some i =>
    obtain ⟨a, as, h1, h2, h3⟩ := hl i rfl
    refine ⟨some a, ?_, ⟨Nat.zero_le _, (hw _ _ h2).1, as, h2, ?_⟩, ?_⟩
    · refine Run.bind (v := a) ?_ Run.pure
      unfold asOut
      rw [h1]
      exact Run.pure
    · exact List.Forall₂.imp (fun b l hb => ⟨Nat.zero_le _, (hw _ _ hb).1, hb⟩) h3
    · rintro j hj
      cases hj
      exact ⟨a, h1, rfl⟩

end

/-- The calls return what the functions on values return, and raise what they raise, for all arguments (also those that
share). -/
theorem C99_values {h : Heap L} (hw : h.Wf) {env : List Ref} {c : Call L} {ys : Nat → Larry L} {ls : Nat → List L}
    {os : Nat → List (List L)} (hh : Holding env h c ys ls os) : Gives h (c.run env) (c.means ys ls os) := by
  have one : ∀ i, c.larrys = [i] → ∃ p o, env[i]? = some (.larry p) ∧ ObjAt h 0 p o (ys i) ∧ (ys i).Fits := by
    intro i hi
    obtain ⟨p, h1, h2, h3⟩ := hh.larrys i (by rw [hi]; exact List.mem_cons_self)
    obtain ⟨o, ho⟩ := ObjAt.of_larry hw h2
    exact ⟨p, o, h1, ho, h3.fits⟩
  cases c with
  | getx copy i =>
    obtain ⟨p, o, hp, ho, hf⟩ := one i rfl
    refine Gives.step (Run.asLarry hp) ?_
    refine Yields.gives (f := fun v => [.array v]) (g := fun x => [.array x (ys i).dtype]) (hGetx_yields copy ho) (fun v h' x ⟨ha, _⟩ => ?_)
    refine List.Forall₂.cons ?_ List.Forall₂.nil
    simp only [Heap.see, ha.get, ha.dtype]
    exact Seen.Same.refl _
  | getlabel axis copy i =>
    obtain ⟨p, o, hp, ho, hf⟩ := one i rfl
    refine Gives.step (Run.asLarry hp) ?_
    refine Yields.gives (f := fun a => [.lst a]) (hGetlabel_yields axis copy ho) (fun a h' l ⟨ha, _⟩ => ?_)
    refine List.Forall₂.cons ?_ List.Forall₂.nil
    have : h'.lst a = l := by unfold Heap.lst; rw [ha]
    simp only [Heap.see, this]
    exact Seen.Same.refl _
  | copylabel i =>
    obtain ⟨p, o, hp, ho, hf⟩ := one i rfl
    refine Gives.step (Run.asLarry hp) ?_
    refine Yields.gives (f := fun a => [.out a]) (g := fun ls => [.out ls]) (hCopylabel_yields ho) (fun a h' l ha => ?_)
    refine List.Forall₂.cons ?_ List.Forall₂.nil
    simp only [Heap.see, ha.get]
    exact Seen.Same.refl _
  | cov i =>
    obtain ⟨p, o, hp, ho, hf⟩ := one i rfl
    exact Gives.step (Run.asLarry hp) (hCov_refines ho).gives
  | flatten tup order i =>
    obtain ⟨p, o, hp, ho, hf⟩ := one i rfl
    exact Gives.step (Run.asLarry hp) (hFlatten_refines tup order ho).gives
  | panel tup i =>
    obtain ⟨p, o, hp, ho, hf⟩ := one i rfl
    exact Gives.step (Run.asLarry hp) (hPanel_refines tup ho hf).gives
  | alignAxis axis join is =>
    obtain ⟨ps, h1, h2⟩ := asLarrys_run hw (is := is) hh.larrys
    refine Gives.step h1 ?_
    refine Yields.gives (f := fun qs => qs.map Ref.larry) (hAlignAxis_yields axis join h2) (fun qs h' zs hq => ?_)
    rw [List.forall₂_map_left_iff, List.forall₂_map_right_iff]
    exact List.Forall₂.imp (fun q z hz => see_new hz) hq
  | stack mode kwargs =>
    obtain ⟨ps, h1, h2⟩ := asLarrys_run hw (is := kwargs.map Prod.snd) hh.larrys
    refine Gives.step h1 ?_
    refine Refines.gives (hStack_refines (b := 0) mode ?_)
    clear hh one h1
    unfold AllAt at h2
    induction kwargs generalizing ps with
    | nil => simp
    | cons kw kwargs ih =>
      cases h2 with
      | cons h3 h4 => exact List.Forall₂.cons ⟨rfl, h3⟩ (ih _ h4)
  | sortby argsort element axis reverse i =>
    obtain ⟨p, o, hp, ho, hf⟩ := one i rfl
    exact Gives.step (Run.asLarry hp) (gotAt_gives (hSortby_yields argsort element axis reverse ho hf))
  | lix idx i =>
    obtain ⟨p, o, hp, ho, hf⟩ := one i rfl
    refine Gives.step (Run.asLarry hp) ?_
    cases idx with
    | one it =>
      obtain ⟨it', h1, h2, -⟩ := fetch_run (h := h) (env := env) (ls := ls) (it := it) hh.lists
      refine Gives.step (v := HIndex.one it') (Run.bind h1 Run.pure) ?_
      have := gotAt_gives (hLixOne_yields it' ho hf)
      simp only [HIndex.value, h2] at this
      exact this
    | tuple its =>
      obtain ⟨its', h1, h2, h3, -⟩ := fetchItems_run (h := h) (env := env) (ls := ls) (its := its) hh.lists
      refine Gives.step (v := HIndex.tuple its') (Run.bind h1 Run.pure) ?_
      have := gotAt_gives (hLix_yields (idx := .tuple its') ho hf (fun its'' he a ha => by
        cases he
        exact ⟨(hw _ _ (h3 a ha).1).1, (h3 a ha).1⟩))
      simp only [HIndex.value, h2] at this
      exact this
  | lrange num shape label start step dtype =>
    obtain ⟨label', h1, h2, -⟩ := asOut?_run hw (label := label) (os := os) (env := env) (fun i hi => by
      subst hi
      exact hh.outs i (by simp [Call.outs]))
    refine Gives.step h1 (Yields.gives (f := fun q => [.larry q]) (hLrange_yields num shape h2 start step dtype)
      (fun q h' z ⟨o, ho, _⟩ => List.Forall₂.cons (see_new ⟨o, ho⟩) List.Forall₂.nil))
  | filled mem num n shape label dtype =>
    obtain ⟨label', h1, h2, -⟩ := asOut?_run hw (label := label) (os := os) (env := env) (fun i hi => by
      subst hi
      exact hh.outs i (by simp [Call.outs]))
    refine Gives.step h1 (Yields.gives (f := fun q => [.larry q]) (hFilled_yields mem num n shape h2 dtype)
      (fun q h' z ⟨z', ⟨o, ho, _⟩, hs⟩ => List.Forall₂.cons ?_ List.Forall₂.nil))
    simp only [Heap.see, ho.larry]
    exact hs

/-! ### What is shared -/

/-- `y.lix[...]` with a tuple that has lists of labels in it: the larry returned has a new array and a new list of
lists, but a list of two or more labels between the brackets is itself one of its lists of labels, now and whatever is
written to arrays and lists later; the other lists are new. -/
theorem C99_lix {h : Heap L} (hw : h.Wf) {env : List Ref} {its : List (HItem L)} {i p : Nat} {y z : Larry L}
    {ls : Nat → List L} (hi : env[i]? = some (.larry p)) (hy : h.larry p = some y) (hs : y.shape ≠ [0])
    (hits : ∀ k ∈ its.flatMap HItem.lists, ∃ a, env[k]? = some (.lst a) ∧ h.cell a = some (.lst (ls k)))
    (hz : y.lixGet ((HIndex.tuple its).means ls) = .ok (.larry z)) :
    let m := (Call.lix (.tuple its) i).run env
    ∃ q o, m.out h = .ok [.larry q] ∧ (m.after h).cell q = some (.obj o) ∧ (m.after h).larry q = some z ∧
      h.next ≤ q ∧ h.next ≤ o.x.buf ∧ h.next ≤ o.label ∧
      (∀ k a, HItem.list k ∈ its → env[k]? = some (.lst a) → 1 < (h.lst a).length →
        ∃ j : Nat, ∀ h2, (m.after h).Evolves h2 → (h2.value o).label[j]? = some (h2.lst a)) ∧
      ∀ a ∈ (m.after h).out o.label, h.next ≤ a ∨ ∃ k, HItem.list k ∈ its ∧ env[k]? = some (.lst a) := by
  intro m
  obtain ⟨o, ho⟩ := ObjAt.of_larry hw hy
  obtain ⟨its', h1, h2, h3, h4⟩ := fetchItems_run (h := h) (env := env) (ls := ls) (its := its) hits
  have hm := hLixTuple_yields (its := its') ho hs (fun a ha => ⟨(hw _ _ (h3 a ha).1).1, (h3 a ha).1⟩)
  have hv : (HIndex.tuple its').value h = (HIndex.tuple its).means ls := by simp [HIndex.value, HIndex.means, h2]
  rw [hv, hz] at hm
  obtain ⟨r, h', r1, e1, ⟨q, rfl, o', ho'⟩, hnew⟩ := hm
  obtain ⟨oq, hc, n1, n2, n3, hin, hout⟩ := hnew q rfl
  have hrun : Run h m [.larry q] h' := by
    refine Run.bind (Run.asLarry hi) (Run.bind (v := HIndex.tuple its') (Run.bind h1 Run.pure) (Run.bind r1 Run.pure))
  rw [hrun.2]
  refine ⟨q, oq, hrun.1, hc, ho'.larry, n1, n2, n3, ?_, ?_⟩
  · intro k a hk ha hlen
    obtain ⟨j, hj⟩ := List.mem_iff_getElem?.mp (hin a (h4 k a hk ha) hlen)
    refine ⟨j, fun g hg => ?_⟩
    have hoq : oq = o' := by
      have := hc.symm.trans ho'.cell
      simpa using this
    subst hoq
    have hgo : g.out oq.label = h'.out oq.label := by
      have := hg.out_ ho'.label.out.2
      unfold Heap.out at this ⊢
      rw [this]
    simp only [Heap.value, List.getElem?_map]
    rw [hgo, hj]
    rfl
  · intro a ha
    rcases hout a ha with hn | hn
    · exact Or.inl hn
    · obtain ⟨-, k, h5, h6⟩ := h3 a hn
      exact Or.inr ⟨k, h5, h6⟩

/-- `y.lix[...]` of a larry of shape (0,) is the larry itself. -/
theorem C99_lix_self {h : Heap L} (hw : h.Wf) {env : List Ref} {its : List (HItem L)} {i p : Nat} {y : Larry L}
    {ls : Nat → List L} (hi : env[i]? = some (.larry p)) (hy : h.larry p = some y) (hs : y.shape = [0])
    (hits : ∀ k ∈ its.flatMap HItem.lists, ∃ a, env[k]? = some (.lst a) ∧ h.cell a = some (.lst (ls k))) :
    ((Call.lix (.tuple its) i).run env).out h = .ok [.larry p] ∧ ((Call.lix (.tuple its) i).run env).after h = h := by
  obtain ⟨o, ho⟩ := ObjAt.of_larry hw hy
  obtain ⟨its', h1, -⟩ := fetchItems_run (h := h) (env := env) (ls := ls) (its := its) hits
  refine Run.bind (Run.asLarry hi) (Run.bind (v := HIndex.tuple its') (Run.bind h1 Run.pure) (Run.bind (v := .larry p) ?_ Run.pure))
  refine Run.bind (Run.value ho) ?_
  rw [if_pos hs]
  exact Run.pure

/-- `lrange`, `ones` and `zeros` with `label=`: the array is new, the list of lists is the one given.  If it is that of
a larry, what happens to the labels of one happens to those of the other. -/
theorem C99_create {h : Heap L} (hw : h.Wf) {env : List Ref} {c : Call L} {i a : Nat} {as : List Nat} {ls : List (List L)}
    (hc : (∃ num shape start step dtype, c = .lrange num shape (some i) start step dtype) ∨
      ∃ mem num n shape dtype, c = .filled mem num n shape (some i) dtype)
    (hi : env[i]? = some (.out a)) (ha : h.cell a = some (.out as))
    (has : List.Forall₂ (fun b l => h.cell b = some (.lst l)) as ls) {rs : List Ref} (hrs : (c.run env).out h = .ok rs) :
    ∃ q o, rs = [.larry q] ∧ ((c.run env).after h).cell q = some (.obj o) ∧ h.next ≤ q ∧ h.next ≤ o.x.buf ∧ o.label = a ∧
      (∀ b < h.next, ((c.run env).after h).cell b = h.cell b) ∧
      ∀ p o', h.cell p = some (.obj o') → o'.label = a → ∀ h2 : Heap L, (h2.value o).label = (h2.value o').label := by
  have key : ∀ {m : HM L Nat} {label' : Option Nat} {r : Res (Larry L)} {R : Nat → Heap L → Larry L → Prop},
      label' = some a → (c.run env).out h = (giveLarry m).out h ∧ (c.run env).after h = (giveLarry m).after h →
      Yields h m r R → (∀ q h' z, R q h' z → ∃ z', CreatedAt h.next label' q h' z') →
      ∃ q o, rs = [.larry q] ∧ ((c.run env).after h).cell q = some (.obj o) ∧ h.next ≤ q ∧ h.next ≤ o.x.buf ∧ o.label = a ∧
        ∀ b < h.next, ((c.run env).after h).cell b = h.cell b := by
    intro m label' r R hl' hcr' hy hR
    cases r with
    | error e =>
      have : (giveLarry m).out h = .error e := HM.raises_left hy
      rw [hcr'.1, this] at hrs
      simp at hrs
    | ok z =>
      obtain ⟨q, h', r1, e1, hq⟩ := hy
      obtain ⟨z', o, ho, n1, n2, -, n3, -⟩ := hR q h' z hq
      have r2 : Run h (giveLarry m) [.larry q] h' := Run.bind r1 Run.pure
      rw [hcr'.1, r2.1] at hrs
      rw [hcr'.2, r2.2]
      refine ⟨q, o, by simpa using hrs.symm, ho.cell, n1, n2, n3 a hl', fun b hb => e1.same b hb⟩
  have main : ∃ q o, rs = [.larry q] ∧ ((c.run env).after h).cell q = some (.obj o) ∧ h.next ≤ q ∧ h.next ≤ o.x.buf ∧
      o.label = a ∧ ∀ b < h.next, ((c.run env).after h).cell b = h.cell b := by
    obtain ⟨label', h1, h2, h3⟩ := asOut?_run hw (label := some i) (os := fun _ => ls) (env := env) (fun j hj => by
      cases hj
      exact ⟨a, as, hi, ha, has⟩)
    obtain ⟨a', h4, h5⟩ := h3 i rfl
    rw [hi] at h4
    obtain rfl : a = a' := by simpa using h4
    rcases hc with ⟨num, shape, start, step, dtype, rfl⟩ | ⟨mem, num, n, shape, dtype, rfl⟩
    · refine key h5 ?_ (hLrange_yields num shape h2 start step dtype) (fun q h' z hq => ⟨z, hq⟩)
      obtain ⟨e1, e2⟩ := HM.bind_ok (f := fun a => giveLarry (hLrange num shape a start step dtype)) h1.1
      rw [h1.2] at e1 e2
      exact ⟨e1, e2⟩
    · refine key h5 ?_ (hFilled_yields mem num n shape h2 dtype) (fun q h' z ⟨z', hq, _⟩ => ⟨z', hq⟩)
      obtain ⟨e1, e2⟩ := HM.bind_ok (f := fun a => giveLarry (hFilled mem num n shape a dtype)) h1.1
      rw [h1.2] at e1 e2
      exact ⟨e1, e2⟩
  obtain ⟨q, o, h1, h2, h3, h4, h5, h6⟩ := main
  refine ⟨q, o, h1, h2, h3, h4, h5, h6, fun p o' _ ho' g => ?_⟩
  simp only [Heap.value, h5, ho']

/-! ## Concrete cases -/

/-- The program that holds `exA` and `exD`, with a list of labels made by the caller at position 10. -/
def exCaller : List Ref × Heap Nat := Act.exec [.mkList [20, 10]] exS

theorem exCaller_wf : exCaller.2.Wf ∧ Live exCaller.1 exCaller.2 := Act.exec_wf _ _ exS_wf.1 exS_wf.2

/-- Meet `C99_fresh` and `C99_independent`: `stack`, `flatten`, `lix` with slices, `getlabel`, `lrange` without labels. -/
example : exCaller.2.Wf ∧ Live exCaller.1 exCaller.2 ∧
    (Call.stack (some true) [(7, 4), (5, 9)]).Fresh exCaller.1 exCaller.2 ∧
    (Call.lix (.tuple [.slice {}, .slice ⟨.list [3], .list [2], none⟩]) 4).Fresh exCaller.1 exCaller.2 ∧
    (Step.exec [.call (.stack (some true) [(7, 4), (5, 9)]), .call (.flatten List.sum "C" 4),
      .call (.lix (.tuple [.slice {}, .slice ⟨.list [3], .list [2], none⟩]) 4), .call (.getlabel 1 true 4),
      .call (.lrange id (some [2, 2]) none 5 2 none)] exCaller).1.length = exCaller.1.length + 5 := by
  refine ⟨exCaller_wf.1, exCaller_wf.2, trivial, ⟨by simp, ?_⟩, by decide +kernel⟩
  rintro p o hp ho
  obtain rfl : p = 4 := by
    have : exCaller.1[4]? = some (.larry 4) := rfl
    rw [this] at hp
    simpa using hp.symm
  have hx : (match exCaller.2.cell 4 with | some (.obj o) => o.x.ix.shape | _ => []) = [2, 3] := by decide +kernel
  rw [ho] at hx
  dsimp only at hx
  rw [hx]
  decide

/-- Met by `y.lix[names, :]` and its like: `C99_values` and `C99_lix`. -/
example : Holding exCaller.1 exCaller.2 (.lix (.tuple [.list 10, .slice {}]) 4) (fun _ => exA) (fun _ => [20, 10]) (fun _ => []) ∧
    ∃ z, exA.lixGet ((HIndex.tuple [.list 10, .slice {}]).means (fun _ => [20, 10])) = .ok (.larry z) ∧
      z.label = [[20, 10], [3, 1, 2]] := by
  refine ⟨⟨?_, ?_, by simp [Call.outs]⟩, ?_⟩
  · intro i hi
    obtain rfl : i = 4 := by simpa [Call.larrys] using hi
    exact ⟨4, rfl, rfl, exA_valid⟩
  · intro i hi
    obtain rfl : i = 10 := by simpa [Call.lists, HItem.lists] using hi
    exact ⟨10, rfl, rfl⟩
  · exact ⟨_, rfl, rfl⟩

/-- The labels of the larry at a position, and the first elements of its first two rows. -/
def exShown (s : List Ref × Heap Nat) (k : Nat) : Option (List (List Nat) × Val × Val) :=
  match s.1[k]? with
  | some (Ref.larry q) => (s.2.larry q).map (fun z => (z.label, z.x.get [0, 0], z.x.get [1, 0]))
  | _ => none

/-- `names = [20, 10]; z = y.lix[names, :]; names.reverse()`: the rows of `z` now have each other's names. -/
theorem C99_lix_list_kept :
    let s := Step.exec [.call (.lix (.tuple [.list 10, .slice {}]) 4)] exCaller
    let t := Step.exec [.act (.writeList [10, 20] 10)] s
    exShown s 11 = some ([[20, 10], [3, 1, 2]], exA.x.get [1, 0], exA.x.get [0, 0]) ∧
    exShown t 11 = some ([[10, 20], [3, 1, 2]], exA.x.get [1, 0], exA.x.get [0, 0]) ∧
    exA.x.get [1, 0] ≠ exA.x.get [0, 0] := by
  refine ⟨?_, ?_, ?_⟩ <;> decide +kernel

/-- `z = la.zeros(label=y.label); z.maplabel(lambda x: 100 - x, copy=False)`: the labels of `y` are mapped too. -/
theorem C99_create_shared :
    let s := Step.exec [.act (.attrLabel 4), .call (.filled (fun _ => fl 0) id 0 none (some 11) none)] exCaller
    let t := Step.exec [.act (.maplabel (fun x => 100 - x) none false 12)] s
    exShown s 4 = some ([[10, 20], [3, 1, 2]], exA.x.get [0, 0], exA.x.get [1, 0]) ∧
    exShown s 12 = some ([[10, 20], [3, 1, 2]], fl 0, fl 0) ∧
    exShown t 4 = some ([[90, 80], [97, 99, 98]], exA.x.get [0, 0], exA.x.get [1, 0]) := by
  refine ⟨?_, ?_, ?_⟩ <;> decide +kernel

/-- Meets `C99_create`. -/
example : ∃ (c : Call Nat) (as : List Nat) (rs : List Ref),
    let s := Step.exec [.act (.attrLabel 4)] exCaller
    c = .filled (fun _ => fl 0) id 0 none (some 11) none ∧ s.1[11]? = some (.out 3) ∧ s.2.cell 3 = some (.out as) ∧
      List.Forall₂ (fun b l => s.2.cell b = some (.lst l)) as [[10, 20], [3, 1, 2]] ∧ (c.run s.1).out s.2 = .ok rs :=
  ⟨_, _, _, rfl, rfl, rfl, List.Forall₂.cons rfl (List.Forall₂.cons rfl List.Forall₂.nil), rfl⟩

/-- Meets `C99_lix_self`: a larry of shape (0,). -/
example : let s := Act.exec [.mkArray ⟨[0], fun _ => fl 0⟩ .float, .mkList [], .mkOut [1], .init 0 2] ([], Heap.empty (L := Nat))
    s.2.Wf ∧ s.1[3]? = some (.larry 3) ∧ (s.2.larry 3).map (·.shape) = some [0] :=
  ⟨(Act.exec_wf _ _ (fun a c hc => by cases hc) (fun r hr => by cases hr)).1, rfl, rfl⟩

end La
