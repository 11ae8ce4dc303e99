import Verif.IOLoop
import Verif.Props.LaraSet

/-!
# C94: looping over an archive
-/

namespace La

/-! ## Specification -/

/-- The archive holds this dictionary: `load` gives its larrys, `keys()` lists its keys once each. -/
def ShowsDict (K : List String) (D : Dict) (f : Archive) : Prop :=
  (∀ k ∈ K, ∀ y, D k = some y → f.load k = .ok y) ∧ (∀ k ∈ K, D k = none → f.load k = .error .keyError) ∧
  ∃ ks, f.keys = .ok ks ∧ ks.Nodup ∧ ∀ s, s ∈ ks ↔ s ∈ K ∧ (D s).isSome

/-- One turn of `for k in io: y = load(file, k); ...` where `...` is one call on the key `k`, which may depend
on the larry loaded. -/
def eachTurn (z : Bool) (c : String → Larry PyLabel → IOCall) (f : Archive) (k : String) : Archive × Res Unit :=
  match f.load k with
  | .error e => (f, .error e)
  | .ok y => (c k y).run z f

/-- One turn of `for k in io: io2[k] = io[k][:]`; `f` is the archive read, `g` the one written. -/
def copyTurn (z : Bool) (f : Archive) (g : Archive) (k : String) : Archive × Res Unit :=
  match f.lara k with
  | .error e => (g, .error e)
  | .ok a => match a.get z f (.one (.slice {})) with
    | .error e => (g, .error e)
    | .ok (.scalar _) => (g, .error .typeError)
    | .ok (.array _) => (g, .error .typeError)
    | .ok (.larry w) => g.setitem k w

/-- `for k in io: io2[k] = io[k][:]` -/
def copyLoop (z : Bool) (f g : Archive) : Archive × Res Unit :=
  match f.keys with
  | .error e => (g, .error e)
  | .ok ks => loopOver (copyTurn z f) g ks

/-! ## Facts -/

theorem Rep.showsDict {K : List String} {D : Dict} {f : Archive} (h : Rep K D f) (hK : Separate K)
    (hn : ∀ k ∈ K, joinSlash (comps k) = k) (hD : ∀ k y, D k = some y → Archivable y) : ShowsDict K D f := by
  refine ⟨fun k hk y hd => (h.stored k hk y hd).1.load (hD k y hd), ?_, ?_⟩
  · intro k hk hd
    unfold Archive.load
    rw [h.load_none hk hd]
  · obtain ⟨ks, h1, h2, h3⟩ := h.keys hK
    refine ⟨ks, h1, h2, fun s => (h3 s).trans ?_⟩
    constructor
    · rintro ⟨k, hk, hd, rfl⟩
      rw [hn k hk]; exact ⟨hk, hd⟩
    · rintro ⟨hs, hd⟩
      exact ⟨s, hs, hd, (hn s hs).symm⟩

/-- A call touches its own key only. -/
theorem IOCall.spec_other (z : Bool) (D : Dict) (c : IOCall) {k : String} (hk : k ≠ c.key) :
    (c.spec z D).1 k = D k := by
  cases c with
  | op o =>
    cases o with
    | set k' y =>
      simp only [IOCall.key, Op.key] at hk
      simp only [IOCall.spec, Op.spec]
      split
      · rfl
      · exact Function.update_of_ne hk _ _
    | del k' =>
      simp only [IOCall.key, Op.key] at hk
      simp only [IOCall.spec, Op.spec]
      split
      · rfl
      · exact Function.update_of_ne hk _ _
  | write w =>
    simp only [IOCall.key] at hk
    simp only [IOCall.spec]
    repeat' split
    all_goals first | rfl | exact Function.update_of_ne hk _ _

/-- What a call does depends on what is under its key only. -/
theorem IOCall.spec_local (z : Bool) (D E : Dict) (c : IOCall) (h : D c.key = E c.key) :
    (c.spec z D).2 = (c.spec z E).2 ∧ (c.spec z D).1 c.key = (c.spec z E).1 c.key := by
  cases c with
  | op o =>
    cases o with
    | set k' y =>
      simp only [IOCall.key, Op.key] at h
      simp only [IOCall.spec, Op.spec, IOCall.key, Op.key, h]
      split <;> simp [h]
    | del k' =>
      simp only [IOCall.key, Op.key] at h
      simp only [IOCall.spec, Op.spec, IOCall.key, Op.key, h]
      split <;> simp [h]
  | write w =>
    simp only [IOCall.key] at h
    simp only [IOCall.spec, IOCall.key, h]
    repeat' split
    all_goals simp_all

/-- A call that raises leaves the dictionary as it was. -/
theorem IOCall.spec_error (z : Bool) (D : Dict) (c : IOCall) {e : PyErr} (h : (c.spec z D).2 = .error e) :
    (c.spec z D).1 = D := by
  cases c with
  | op o =>
    cases o with
    | set k' y =>
      simp only [IOCall.spec, Op.spec] at h ⊢
      split at h <;> simp_all
    | del k' =>
      simp only [IOCall.spec, Op.spec] at h ⊢
      split at h <;> simp_all
  | write w =>
    simp only [IOCall.spec] at h ⊢
    repeat' split at h
    all_goals simp_all

theorem eachTurn_loop {K : List String} (hK : Separate K) (z : Bool) (c : String → Larry PyLabel → IOCall)
    (hc : ∀ k y, (c k y).key = k)
    (ha : ∀ k y k' y', Archivable y → c k y = .op (.set k' y') → Archivable y') (ks : List String)
    (hnd : ks.Nodup) {D : Dict} {f : Archive} (h : Rep K D f) (hD : ∀ k y, D k = some y → Archivable y)
    (hks : ∀ k ∈ ks, k ∈ K ∧ (D k).isSome) :
    ∃ done rest D', ks = done ++ rest ∧ Rep K D' (loopOver (eachTurn z c) f ks).1 ∧
      (∀ k y, D' k = some y → Archivable y) ∧ (∀ k, k ∉ done → D' k = D k) ∧
      (∀ k ∈ done, ∃ y, D k = some y ∧ ((c k y).spec z D).2 = .ok () ∧ D' k = ((c k y).spec z D).1 k) ∧
      ((rest = [] ∧ (loopOver (eachTurn z c) f ks).2 = .ok ()) ∨
        ∃ k r y e, rest = k :: r ∧ D k = some y ∧ ((c k y).spec z D).2 = .error e ∧
          (loopOver (eachTurn z c) f ks).2 = .error e) := by
  induction ks generalizing D f with
  | nil => exact ⟨[], [], D, rfl, h, hD, fun _ _ => rfl, by simp, .inl ⟨rfl, rfl⟩⟩
  | cons k ks ih =>
    rw [List.nodup_cons] at hnd
    obtain ⟨hkK, hkD⟩ := hks k (by simp)
    obtain ⟨y, hy⟩ := Option.isSome_iff_exists.mp hkD
    have hl := (h.stored k hkK y hy).1.load (hD k y hy)
    have hturn : eachTurn z c f k = (c k y).run z f := by unfold eachTurn; rw [hl]
    obtain ⟨h1, h2, h3⟩ := IOCall.step z h hK hD (c k y) (by rw [hc]; exact hkK)
      (fun k' y' he => ha k y k' y' (hD k y hy) he)
    cases hr : (c k y).run z f with
    | mk f1 out =>
    rw [hr] at h1 h2
    simp only at h1 h2
    cases out with
    | error e =>
      have hlo : loopOver (eachTurn z c) f (k :: ks) = (f1, .error e) := by
        simp only [loopOver, hturn, hr]
      have hD1 : ((c k y).spec z D).1 = D := IOCall.spec_error z D _ h1.symm
      rw [hD1] at h2
      refine ⟨[], k :: ks, D, rfl, by rw [hlo]; exact h2, hD, fun _ _ => rfl, by simp, .inr ?_⟩
      exact ⟨k, ks, y, e, rfl, hy, h1.symm, by rw [hlo]⟩
    | ok u =>
      have hlo : loopOver (eachTurn z c) f (k :: ks) = loopOver (eachTurn z c) f1 ks := by
        simp only [loopOver, hturn, hr]
      have hoth : ∀ k', k' ≠ k → ((c k y).spec z D).1 k' = D k' := fun k' hk' =>
        IOCall.spec_other z D _ (by rw [hc]; exact hk')
      have hne : ∀ k' ∈ ks, k' ≠ k := fun k' hk' he => hnd.1 (he ▸ hk')
      obtain ⟨done, rest, D', e1, e2, e3, e4, e5, e6⟩ := ih hnd.2 h2 h3 (fun k' hk' =>
        ⟨(hks k' (by simp [hk'])).1, by rw [hoth k' (hne k' hk')]; exact (hks k' (by simp [hk'])).2⟩)
      have hsub : ∀ k' ∈ done, k' ∈ ks := fun k' hk' => by rw [e1]; simp [hk']
      have hloc : ∀ k' ∈ ks, ∀ y', ((c k' y').spec z ((c k y).spec z D).1).2 = ((c k' y').spec z D).2 ∧
          ((c k' y').spec z ((c k y).spec z D).1).1 k' = ((c k' y').spec z D).1 k' := by
        intro k' hk' y'
        have := IOCall.spec_local z ((c k y).spec z D).1 D (c k' y') (by rw [hc]; exact hoth k' (hne k' hk'))
        rwa [hc] at this
      refine ⟨k :: done, rest, D', by rw [e1]; rfl, by rw [hlo]; exact e2, e3, ?_, ?_, ?_⟩
      · intro k' hk'
        simp only [List.mem_cons, not_or] at hk'
        rw [e4 k' hk'.2, hoth k' hk'.1]
      · intro k' hk'
        rcases List.mem_cons.mp hk' with rfl | hk'
        · refine ⟨y, hy, h1.symm, e4 k' (fun hh => hnd.1 (hsub k' hh))⟩
        · obtain ⟨y', d1, d2, d3⟩ := e5 k' hk'
          have hin := hsub k' hk'
          rw [hoth k' (hne k' hin)] at d1
          rw [(hloc k' hin y').1] at d2
          rw [(hloc k' hin y').2] at d3
          exact ⟨y', d1, d2, d3⟩
      · rw [hlo]
        rcases e6 with e6 | ⟨k', r, y', e, e7, e8, e9, e10⟩
        · exact .inl e6
        · have hin : k' ∈ ks := by rw [e1, e7]; simp
          rw [hoth k' (hne k' hin)] at e8
          rw [(hloc k' hin y').1] at e9
          exact .inr ⟨k', r, y', e, e7, e8, e9, e10⟩

/-! ## C94 -/

/-- C94. After any history of calls, `items()` lists every key once with a lara that has the labels of the
stored larry, `values()` lists the laras in the same order, and `has_key`, `in` and `len` agree. -/
theorem C94_items (K : List String) (hK : Separate K) (hn : ∀ k ∈ K, joinSlash (comps k) = k) (z : Bool)
    (cs : List IOCall) (hk : ∀ c ∈ cs, c.key ∈ K) (hy : ∀ c ∈ cs, ∀ k y, c = .op (.set k y) → Archivable y) :
    ∃ l, (runIO z Archive.empty cs).1.items = .ok l ∧
      (runIO z Archive.empty cs).1.keys = .ok (l.map Prod.fst) ∧
      (runIO z Archive.empty cs).1.values = .ok (l.map Prod.snd) ∧
      (runIO z Archive.empty cs).1.len = .ok l.length ∧
      (∀ k, (runIO z Archive.empty cs).1.hasKey k = .ok (decide (k ∈ l.map Prod.fst))) ∧
      (l.map Prod.fst).Nodup ∧
      (∀ k, k ∈ l.map Prod.fst ↔ k ∈ K ∧ ((specIO z (fun _ => none) cs).1 k).isSome) ∧
      ∀ k a, (k, a) ∈ l → a.key = k ∧ ∃ y, (specIO z (fun _ => none) cs).1 k = some y ∧ a.label = y.label := by
  obtain ⟨-, h2, h3⟩ := (rep_empty K hK).runIO hK z cs (by simp) hk hy
  obtain ⟨s1, -, ks, s3, s4, s5⟩ := h2.showsDict hK hn h3
  generalize (runIO z Archive.empty cs).1 = f at *
  generalize (specIO z (fun _ => none) cs).1 = D at *
  have hlara : ∀ k ∈ ks, ∃ y a, D k = some y ∧ f.lara k = .ok a ∧ a.key = k ∧ a.label = y.label := by
    intro k hk
    obtain ⟨hkK, hd⟩ := (s5 k).mp hk
    obtain ⟨y, hd⟩ := Option.isSome_iff_exists.mp hd
    obtain ⟨a, ha, -⟩ := C60_lara f k y (s1 k hkK y hd)
    obtain ⟨g1, g2⟩ := lara_key (s1 k hkK y hd) ha
    exact ⟨y, a, hd, ha, g1, g2⟩
  have hall : ∀ ks : List String, (∀ k ∈ ks, ∃ y a, D k = some y ∧ f.lara k = .ok a ∧ a.key = k ∧ a.label = y.label) →
      ∃ l, mapRes f.item ks = .ok l ∧ l.map Prod.fst = ks ∧ mapRes f.lara ks = .ok (l.map Prod.snd) ∧
        ∀ k a, (k, a) ∈ l → a.key = k ∧ ∃ y, D k = some y ∧ a.label = y.label := by
    intro ks
    induction ks with
    | nil => exact fun _ => ⟨[], rfl, rfl, rfl, by simp⟩
    | cons k ks ih =>
      intro h
      obtain ⟨l, l1, l2, l3, l4⟩ := ih (fun k' hk' => h k' (by simp [hk']))
      obtain ⟨y, a, a1, a2, a3, a4⟩ := h k (by simp)
      refine ⟨(k, a) :: l, ?_, by simp [l2], ?_, ?_⟩
      · have hit : f.item k = .ok (k, a) := by unfold Archive.item; rw [a2]
        simp only [mapRes, hit, l1]
      · simp only [mapRes, a2, l3, List.map_cons]
      · intro k' a' hm
        rcases List.mem_cons.mp hm with he | hm
        · simp only [Prod.mk.injEq] at he
          obtain ⟨rfl, rfl⟩ := he
          exact ⟨a3, y, a1, a4⟩
        · exact l4 k' a' hm
  obtain ⟨l, l1, l2, l3, l4⟩ := hall ks hlara
  refine ⟨l, ?_, by rw [s3, l2], ?_, ?_, ?_, by rw [l2]; exact s4, ?_, l4⟩
  · unfold Archive.items; rw [s3]; exact l1
  · unfold Archive.values; rw [s3]; exact l3
  · unfold Archive.len; rw [s3, ← l2]; simp
  · intro k
    unfold Archive.hasKey Archive.contains
    rw [s3, l2]
    simp only [Except.ok.injEq]
    by_cases hm : k ∈ ks <;> simp [hm]
  · intro k
    rw [l2]; exact s5 k

/-- C94. After any history, a loop over the keys with one call per turn, on the key of the turn: the keys
come once each; the turns before the first that raises do to the dictionary what they would do one by one;
everything else stays as it was. -/
theorem C94_each (K : List String) (hK : Separate K) (hn : ∀ k ∈ K, joinSlash (comps k) = k) (z : Bool)
    (cs : List IOCall) (hk : ∀ c ∈ cs, c.key ∈ K) (hy : ∀ c ∈ cs, ∀ k y, c = .op (.set k y) → Archivable y)
    (c : String → Larry PyLabel → IOCall) (hc : ∀ k y, (c k y).key = k)
    (ha : ∀ k y k' y', Archivable y → c k y = .op (.set k' y') → Archivable y')
    (f : Archive) (hf : f = (runIO z Archive.empty cs).1) (D : Dict) (hD : D = (specIO z (fun _ => none) cs).1) :
    ∃ done rest D', f.keys = .ok (done ++ rest) ∧ ShowsDict K D' (f.forKeys (eachTurn z c)).1 ∧
      (∀ k, k ∉ done → D' k = D k) ∧
      (∀ k ∈ done, ∃ y, D k = some y ∧ ((c k y).spec z D).2 = .ok () ∧ D' k = ((c k y).spec z D).1 k) ∧
      ((rest = [] ∧ (f.forKeys (eachTurn z c)).2 = .ok ()) ∨
        ∃ k r y e, rest = k :: r ∧ D k = some y ∧ ((c k y).spec z D).2 = .error e ∧
          (f.forKeys (eachTurn z c)).2 = .error e) := by
  obtain ⟨-, h2, h3⟩ := (rep_empty K hK).runIO hK z cs (by simp) hk hy
  rw [← hf, ← hD] at h2
  rw [← hD] at h3
  obtain ⟨-, -, ks, s3, s4, s5⟩ := h2.showsDict hK hn h3
  obtain ⟨done, rest, D', e1, e2, e3, e4, e5, e6⟩ := eachTurn_loop hK z c hc ha ks s4 h2 h3 (fun k hk => (s5 k).mp hk)
  have hloop : f.forKeys (eachTurn z c) = loopOver (eachTurn z c) f ks := by
    unfold Archive.forKeys; rw [s3]
  rw [hloop]
  exact ⟨done, rest, D', by rw [s3, e1], e2.showsDict hK hn e3, e4, e5, e6⟩

/-- C94. `for k in io: io[k] = g(load(file, k))`, with keys without slashes, replaces every larry by its
image, once each, and raises nothing. -/
theorem C94_update (K : List String) (hK : Separate K) (hp : ∀ k ∈ K, comps k = [k]) (z : Bool)
    (cs : List IOCall) (hk : ∀ c ∈ cs, c.key ∈ K) (hy : ∀ c ∈ cs, ∀ k y, c = .op (.set k y) → Archivable y)
    (g : String → Larry PyLabel → Larry PyLabel) (hg : ∀ k y, Archivable y → Archivable (g k y)) :
    ∃ f', Archive.forKeys (eachTurn z (fun k y => .op (.set k (g k y)))) (runIO z Archive.empty cs).1 = (f', .ok ()) ∧
      ShowsDict K (fun k => ((specIO z (fun _ => none) cs).1 k).map (g k)) f' := by
  have hn : ∀ k ∈ K, joinSlash (comps k) = k := by
    intro k hk
    rw [hp k hk]; simp [joinSlash]
  obtain ⟨-, h2, h3⟩ := (rep_empty K hK).runIO hK z cs (by simp) hk hy
  obtain ⟨-, -, ks, s3, -, s5⟩ := h2.showsDict hK hn h3
  obtain ⟨done, rest, D', e1, e2, e3, e4, e5⟩ := C94_each K hK hn z cs hk hy (fun k y => .op (.set k (g k y)))
    (fun _ _ => rfl) (by
      intro k y k' y' hy' he
      simp only [IOCall.op.injEq, Op.set.injEq] at he
      rw [← he.2]; exact hg k y hy') _ rfl _ rfl
  rw [s3, Except.ok.injEq] at e1
  rcases e5 with ⟨rfl, e5⟩ | ⟨k, r, y, e, rfl, b2, b3, -⟩
  · refine ⟨_, Prod.ext rfl e5, ?_⟩
    obtain ⟨t1, t2, ks', t3, t4, t5⟩ := e2
    rw [List.append_nil] at e1
    have hD' : ∀ k ∈ K, D' k = ((specIO z (fun _ => none) cs).1 k).map (g k) := by
      intro k hkK
      by_cases hd : k ∈ done
      · obtain ⟨y, d1, d2, d3⟩ := e4 k hd
        rw [d3, d1]
        simp only [IOCall.spec, Op.spec, hp k hkK, ne_eq, not_true, and_false, if_false, Function.update_self,
          Option.map_some]
      · rw [e3 k hd]
        have : k ∉ ks := by rw [e1]; exact hd
        rw [s5] at this
        cases hk0 : (specIO z (fun _ => none) cs).1 k with
        | none => rfl
        | some y => exact absurd ⟨hkK, by rw [hk0]; rfl⟩ this
    refine ⟨fun k hkK y hd => t1 k hkK y (by rw [hD' k hkK]; exact hd),
      fun k hkK hd => t2 k hkK (by rw [hD' k hkK]; exact hd), ks', t3, t4, fun s => (t5 s).trans ?_⟩
    constructor
    · rintro ⟨a1, a2⟩
      exact ⟨a1, by rw [hD' s a1] at a2; exact a2⟩
    · rintro ⟨a1, a2⟩
      exact ⟨a1, by rw [hD' s a1]; exact a2⟩
  · have hkK : k ∈ K := ((s5 k).mp (by rw [e1]; simp)).1
    simp only [IOCall.spec, Op.spec, hp k hkK, ne_eq, not_true, and_false, if_false] at b3
    simp at b3

/-- A lara read whole is the stored larry. -/
theorem lara_whole {f : Archive} {key : String} {y : Larry PyLabel} {a : Lara} (z : Bool)
    (hl : f.load key = .ok y) (ha : f.lara key = .ok a) (hz : z = false → ∀ l ∈ y.label, l ≠ []) :
    ∃ w, a.get z f (.one (.slice {})) = .ok (.larry w) ∧ w.Valid ∧ w.Same y := by
  have hv := (load_ok hl).2.2.2
  obtain ⟨l, ls, hll⟩ := List.exists_cons_of_ne_nil hv.ndim_pos
  have hm : ∀ m, Item.lar m ∈ (Index.one (Item.slice {}) : Index PyLabel).items → m.Valid := by
    intro m h; simp [Index.items] at h
  have hnn : NoNegative (Index.one (Item.slice {}) : Index PyLabel).items := by
    intro is h; simp [Index.items] at h
  have hparts : TakesParts y.label [Item.slice {}] (y.label.map Part.many) := by
    rw [hll, List.map_cons, Larry.takesParts_one]
    refine ⟨List.range l.length, sliceIndices_all _, ?_⟩
    apply List.ext_getElem?
    intro k
    by_cases hk : k < l.length
    · simp [hk]
    · simp [hk]
  have hsucc := (C60_succeeds f key y a z (.one (.slice {})) hl ha hm hnn).mpr
    ⟨by rw [← hv.label_length, hll]; simp [Index.items], Larry.oneList_one _, .inr ⟨_, rfl⟩, by
      intro it hit
      simp only [Index.items, List.mem_singleton] at hit
      subst hit
      show (1 : Int) ≤ 1
      decide, _, hparts, by rw [Larry.labels_whole]; exact hv.nodup, by rw [Larry.labels_whole]; exact hz⟩
  obtain ⟨r, hr⟩ := hsucc
  rw [lara_get hl ha] at hr ⊢
  obtain ⟨parts, p1, -, -, -, -, -, p7, p8, p9⟩ := Larry.lazyGet_spec hv hm hnn hr
  have := takesParts_unique hv.nodup p1 hparts
  subst this
  cases r with
  | scalar v =>
    exfalso
    obtain ⟨q1, -⟩ := p8.mp ⟨v, rfl⟩
    obtain ⟨i, hi⟩ := q1 (Item.slice {}) (by simp [Index.items])
    simp at hi
  | array x =>
    exfalso
    obtain ⟨its, q1, -⟩ := p9.mp ⟨x, rfl⟩
    simp at q1
  | larry w =>
    obtain ⟨q1, q2, q3, q4⟩ := p7
    rw [Larry.labels_whole] at q1 q4
    refine ⟨w, hr, q3, q3.same_of_has hv q1 q2 ?_⟩
    intro names v hw
    obtain ⟨hN, hw⟩ := (q4 names v).mp hw
    rwa [Larry.names_whole hN] at hw

theorem Archivable.same {y w : Larry PyLabel} (hy : Archivable y) (hw : w.Valid) (h : w.Same y) : Archivable w :=
  ⟨hw, by rw [h.2.1]; exact hy.dtype, by rw [h.1]; exact hy.label⟩

/-- C94. `for k in io: io2[k] = io[k][:]` puts every larry of the one archive into the other, under its key
and with its dtype, labels and elements; what else was in the other archive stays.  Keys with slashes must
be free there.  With an h5py that refuses empty selections, larrys without cells cannot be read this way. -/
theorem C94_copy (K : List String) (hK : Separate K) (hn : ∀ k ∈ K, joinSlash (comps k) = k) (z : Bool)
    (cs ds : List IOCall) (hkc : ∀ c ∈ cs, c.key ∈ K) (hyc : ∀ c ∈ cs, ∀ k y, c = .op (.set k y) → Archivable y)
    (hkd : ∀ c ∈ ds, c.key ∈ K) (hyd : ∀ c ∈ ds, ∀ k y, c = .op (.set k y) → Archivable y)
    (D E : Dict) (hD : D = (specIO z (fun _ => none) cs).1) (hE : E = (specIO z (fun _ => none) ds).1)
    (hz : z = false → ∀ k y, D k = some y → ∀ l ∈ y.label, l ≠ [])
    (hp : ∀ k ∈ K, (D k).isSome → (E k).isSome → comps k = [k]) :
    ∃ g' E', copyLoop z (runIO z Archive.empty cs).1 (runIO z Archive.empty ds).1 = (g', .ok ()) ∧
      ShowsDict K E' g' ∧ (∀ k ∈ K, ∀ y, D k = some y → ∃ w, E' k = some w ∧ w.Same y) ∧
      ∀ k, D k = none → E' k = E k := by
  obtain ⟨-, c2, c3⟩ := (rep_empty K hK).runIO hK z cs (by simp) hkc hyc
  obtain ⟨-, d2, d3⟩ := (rep_empty K hK).runIO hK z ds (by simp) hkd hyd
  rw [← hD] at c2 c3
  rw [← hE] at d2 d3
  generalize (runIO z Archive.empty cs).1 = f at *
  generalize (runIO z Archive.empty ds).1 = g at *
  clear hD hE
  obtain ⟨s1, -, ks, s3, s4, s5⟩ := c2.showsDict hK hn c3
  have key : ∀ (ks : List String) (E : Dict) (g : Archive), ks.Nodup → (∀ k ∈ ks, k ∈ K ∧ (D k).isSome) →
      (∀ k ∈ ks, (E k).isSome → comps k = [k]) → Rep K E g → (∀ k y, E k = some y → Archivable y) →
      ∃ g' E', loopOver (copyTurn z f) g ks = (g', .ok ()) ∧ Rep K E' g' ∧ (∀ k y, E' k = some y → Archivable y) ∧
        (∀ k ∈ ks, ∀ y, D k = some y → ∃ w, E' k = some w ∧ w.Same y) ∧ ∀ k, k ∉ ks → E' k = E k := by
    intro ks
    induction ks with
    | nil => exact fun E g _ _ _ h1 h2 => ⟨g, E, rfl, h1, h2, by simp, fun _ _ => rfl⟩
    | cons k ks ih =>
      intro E g hnd hks hpl hg hE
      rw [List.nodup_cons] at hnd
      obtain ⟨hkK, hkD⟩ := hks k (by simp)
      obtain ⟨y, hy⟩ := Option.isSome_iff_exists.mp hkD
      have hl := s1 k hkK y hy
      obtain ⟨a, ha, -⟩ := C60_lara f k y hl
      obtain ⟨w, w1, w2, w3⟩ := lara_whole z hl ha (fun hz' => hz hz' k y hy)
      have hturn : copyTurn z f g k = g.setitem k w := by
        unfold copyTurn; rw [ha]; simp only [w1]
      have hwa : Archivable w := (c3 k y hy).same w2 w3
      obtain ⟨r1, r2⟩ := hg.step hK (.set k w) hkK (by
        intro k' y' he
        simp only [Op.set.injEq] at he
        rw [← he.2]; exact hwa)
      have hcond : ¬ ((E k).isSome ∧ comps k ≠ [k]) := fun hh => hh.2 (hpl k (by simp) hh.1)
      simp only [Op.spec, if_neg hcond, Op.run] at r1 r2
      obtain ⟨g', E', e1, e2, e3, e4, e5⟩ := ih _ _ hnd.2 (fun k' hk' => hks k' (by simp [hk'])) (by
          intro k' hk' hs
          have hne : k' ≠ k := fun he => hnd.1 (he ▸ hk')
          rw [Function.update_of_ne hne] at hs
          exact hpl k' (by simp [hk']) hs) r2 (by
          intro k' y' hy'
          by_cases hkk : k' = k
          · subst hkk
            simp only [Function.update_self, Option.some.injEq] at hy'
            rw [← hy']; exact hwa
          · rw [Function.update_of_ne hkk] at hy'
            exact hE k' y' hy')
      refine ⟨g', E', ?_, e2, e3, ?_, ?_⟩
      · simp only [loopOver, hturn]
        cases hr : g.setitem k w with
        | mk g1 out =>
          rw [hr] at r1 e1
          simp only at r1 e1
          subst r1
          exact e1
      · intro k' hk' y' hy'
        rcases List.mem_cons.mp hk' with rfl | hk'
        · rw [hy] at hy'
          simp only [Option.some.injEq] at hy'
          subst hy'
          exact ⟨w, by rw [e5 k' hnd.1, Function.update_self], w3⟩
        · exact e4 k' hk' y' hy'
      · intro k' hk'
        simp only [List.mem_cons, not_or] at hk'
        rw [e5 k' hk'.2, Function.update_of_ne hk'.1]
  obtain ⟨g', E', e1, e2, e3, e4, e5⟩ := key ks E g s4 (fun k hk => (s5 k).mp hk)
    (fun k hk hs => hp k ((s5 k).mp hk).1 ((s5 k).mp hk).2 hs) d2 d3
  refine ⟨g', E', ?_, e2.showsDict hK hn e3, ?_, ?_⟩
  · unfold copyLoop; rw [s3]; exact e1
  · intro k hkK y hy
    exact e4 k ((s5 k).mpr ⟨hkK, by rw [hy]; rfl⟩) y hy
  · intro k hd
    refine e5 k (fun hm => ?_)
    have := ((s5 k).mp hm).2
    rw [hd] at this
    simp at this

/-- C94. A loop over `items()` and one over `iteritems()` do the same as long as a turn changes what is under
its own key only; the laras of the other keys are then the same whenever they are made. -/
theorem C94_lazy (P : Archive → Prop) (body : Archive → String × Lara → Archive × Res Unit)
    (hP : ∀ f p, P f → P (body f p).1)
    (hb : ∀ f p k, P f → k ≠ p.1 → (body f p).1.lara k = f.lara k)
    (f : Archive) (hf : P f) (l : List (String × Lara)) (hi : f.items = .ok l) (hnd : (l.map Prod.fst).Nodup) :
    f.forItems body = f.forIterItems body := by
  have hkeys : ∃ ks, f.keys = .ok ks ∧ mapRes f.item ks = .ok l := by
    unfold Archive.items at hi
    split at hi
    · simp at hi
    · rename_i ks hk
      exact ⟨ks, hk, hi⟩
  obtain ⟨ks, hk, hm⟩ := hkeys
  have h1 : f.forItems body = loopOver body f l := by unfold Archive.forItems; rw [hi]
  have h2 : f.forIterItems body = loopOver (Archive.turn body) f ks := by
    unfold Archive.forIterItems Archive.forKeys; rw [hk]
  rw [h1, h2]
  have hm' : List.Forall₂ (fun k p => f.item k = .ok p) ks l := mapRes_ok.mp hm
  clear h1 h2 hm hk hi
  -- the items that are left are those of the present archive
  have key : ∀ (l : List (String × Lara)) (ks : List String) (g : Archive), P g → (l.map Prod.fst).Nodup →
      List.Forall₂ (fun k p => g.item k = .ok p) ks l → loopOver body g l = loopOver (Archive.turn body) g ks := by
    intro l
    induction l with
    | nil => intro ks g _ _ h; cases h; rfl
    | cons p l ih =>
      intro ks g hg hnd h
      cases h with
      | cons hp hr =>
      rename_i k ks
      rw [List.map_cons, List.nodup_cons] at hnd
      have ht : Archive.turn body g k = body g p := by unfold Archive.turn; rw [hp]
      simp only [loopOver, ht]
      cases hbo : body g p with
      | mk g1 out =>
      cases out with
      | error e => rfl
      | ok u =>
        simp only
        have hg1 : g1 = (body g p).1 := by rw [hbo]
        refine ih ks g1 (by rw [hg1]; exact hP g p hg) hnd.2 ?_
        have hmem : ∀ k' p', g.item k' = .ok p' → p'.1 = k' := by
          intro k' p' h'
          unfold Archive.item at h'
          split at h'
          · simp at h'
          · simp only [Except.ok.injEq] at h'
            rw [← h']
        clear ih hbo
        induction hr with
        | nil => exact .nil
        | cons hq _ ih2 =>
          rename_i k' p' ks' l' _
          simp only [List.map_cons, List.mem_cons, not_or, List.nodup_cons] at hnd
          refine .cons ?_ (ih2 ⟨hnd.1.2, hnd.2.2⟩)
          have hne : k' ≠ p.1 := by
            rw [← hmem k' p' hq]; exact fun he => hnd.1.1 he.symm
          unfold Archive.item at hq ⊢
          rw [hg1, hb g p k' hg hne]
          exact hq
  exact key l ks f hf hnd hm'

/-! ## Witnesses and examples -/

/-- Two keys. -/
def exTwo : List IOCall := [.op (.set "a" exIO2), .op (.set "b" exIO2)]

/-- A loop that removes a key that is still to come ends with a KeyError when its turn comes. -/
theorem C94_removed : ((runIO false Archive.empty exTwo).1.forItems
      (fun f p => if p.1 = "a" then f.delete "b" else p.2.setAt false f (.one (.int 0)) (.scalar (.int 1)))).2 =
    .error .keyError := by
  decide +kernel

/-- A turn that changes another key: the laras of `items()` have the old labels, and a boolean larry with the old labels is
written to the wrong ones; those of `iteritems()` have the new labels and the same loop raises. -/
theorem C94_stale : ((runIO false Archive.empty exTwo).1.forItems
      (fun f p => if p.1 = "a" then f.setitem "b" exIO3 else p.2.setMask f exMaskIO (.int 0))).2 = .ok () ∧
    ((runIO false Archive.empty exTwo).1.forIterItems
      (fun f p => if p.1 = "a" then f.setitem "b" exIO3 else p.2.setMask f exMaskIO (.int 0))).2 =
      .error .indexError := by
  decide +kernel

/-- Overwriting in a loop stops at the first key with a slash. -/
theorem C94_slash : ((runIO false Archive.empty exCalls).1.forKeys
      (eachTurn false (fun k y => .op (.set k y)))).2 = .error .runtimeError ∧
    (runIO false Archive.empty exCalls).1.keys = .ok ["g/a"] := by
  decide +kernel

/-- The hypotheses of the loop theorems are met. -/
example : Separate ["price", "g/a", "g/b"] ∧ (∀ k ∈ ["price", "g/a", "g/b"], joinSlash (comps k) = k) ∧
    (∀ k y, IOCall.key (.write ⟨k, .one (.slice {}), y⟩) = k) ∧
    Separate ["a", "b"] ∧ (∀ k ∈ ["a", "b"], comps k = [k]) ∧ (∀ c ∈ exTwo, c.key ∈ ["a", "b"]) := by
  refine ⟨exKeys_separate, by decide +kernel, fun _ _ => rfl, by unfold Separate; decide +kernel, by decide +kernel,
    by unfold exTwo; simp [IOCall.key, Op.key]⟩

/-- A turn that writes into the larry of its key leaves all laras as they are, as `C94_lazy` asks. -/
example (f : Archive) (p : String × Lara) (k : String) (z : Bool) :
    ((fun f p => p.2.setAt z f (.one (.int 0)) (.scalar (.int 1)) : Archive → String × Lara → Archive × Res Unit) f p).1.lara k =
      f.lara k := by
  simp only
  cases h : p.2.setAt z f (.one (.int 0)) (.scalar (.int 1)) with
  | mk f' out =>
    cases out with
    | error e => rw [(C93_error f f' p.2 z e).1 _ _ h]
    | ok u =>
      obtain ⟨x, x', d, ho⟩ := setAt_oneArray h
      exact ho.lara k

/-- `C94_copy` applies to copying the two larrys into an archive that has one of the keys. -/
example : ∃ g' E', copyLoop true (runIO true Archive.empty exTwo).1 (runIO true Archive.empty [.op (.set "b" exIO3)]).1 = (g', .ok ()) ∧
    ShowsDict ["a", "b"] E' g' ∧ ∃ w, E' "b" = some w ∧ w.Same exIO2 := by
  obtain ⟨g', E', h1, h2, h3, -⟩ := C94_copy ["a", "b"] (by unfold Separate; decide +kernel) (by decide +kernel) true exTwo
    [.op (.set "b" exIO3)] (by unfold exTwo; simp [IOCall.key, Op.key]) (by
      intro c hc k y he
      subst he
      simp only [exTwo, List.mem_cons, IOCall.op.injEq, Op.set.injEq, List.not_mem_nil, or_false] at hc
      rcases hc with ⟨-, rfl⟩ | ⟨-, rfl⟩ <;> exact exIO2_archivable) (by simp [IOCall.key, Op.key]) (by
      intro c hc k y he
      subst he
      simp only [List.mem_cons, IOCall.op.injEq, Op.set.injEq, List.not_mem_nil, or_false] at hc
      rw [hc.2]; exact exIO3_archivable) _ _ rfl rfl (by simp) (by
      intro k hk _ _
      revert k
      decide +kernel)
  exact ⟨g', E', h1, h2, h3 "b" (by simp) exIO2 (by
    simp [exTwo, specIO, IOCall.spec, Op.spec])⟩

end La
