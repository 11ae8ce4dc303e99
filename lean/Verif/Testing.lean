import Verif.Heap

/-!
# la/util/testing.py

The helpers the test suite is written with.  An assertion returns the list of its complaints; the code
raises AssertionError if there are any and returns None if there are none.  Messages are not modelled
beyond what they complain about.
-/

namespace La
variable {L : Type}

/-- A section of the message of an AssertionError. -/
inductive Complaint
  | label | data | dtype
  | notACopy | isACopy
  | sharedData | sharedLabel (i : Nat)
  deriving DecidableEq, Repr

/-- `isinstance(larry1, larry)`, else TypeError (la/util/testing.py:213-216, 230-233, 263-266, 278-281). -/
def Heap.larryAt (h : Heap L) (p : Nat) : Res Obj :=
  match h.cell p with
  | some (.obj o) => .ok o
  | _ => .error .typeError

/-- The loop over the axes (la/util/testing.py:220-222, 237-240): `bad` is `is` or `is not`, on the
addresses of the two lists. -/
def axisComplaints (bad : Nat → Nat → Bool) (as1 as2 : List Nat) : List Nat → Res (List Complaint)
  | [] => .ok []
  | i :: is =>
    match as1[i]?, as2[i]? with
    | some a, some b =>
      match axisComplaints bad as1 as2 is with
      | .error e => .error e
      | .ok cs => .ok (if bad a b then .sharedLabel i :: cs else cs)
    | _, _ => .error .indexError

/-- The complaint about the arrays, if there is one. -/
def dataComplaint (bad : Bool) : List Complaint := if bad then [.sharedData] else []

/-- The two assertions, which differ in what they find wrong. -/
def sharingComplaints (badData : Bool) (badLabel : Nat → Nat → Bool) (h : Heap L) (o1 o2 : Obj) : Res (List Complaint) :=
  match axisComplaints badLabel (h.out o1.label) (h.out o2.label)
      (List.range (min o1.x.ix.ndim o2.x.ix.ndim)) with
  | .error e => .error e
  | .ok cs => .ok (dataComplaint badData ++ cs)

/-- `assert_iscopy(larry1, larry2)` (la/util/testing.py:211-226).  `mayShare` is `np.may_share_memory`. -/
def assertIscopy (mayShare : View → View → Bool) (h : Heap L) (p q : Nat) : Res (List Complaint) :=
  match h.larryAt p with
  | .error e => .error e
  | .ok o1 => match h.larryAt q with
    | .error e => .error e
    | .ok o2 => sharingComplaints (mayShare o1.x o2.x) (fun a b => decide (a = b)) h o1 o2

/-- `assert_isview(larry1, larry2)` (la/util/testing.py:228-244). -/
def assertIsview (mayShare : View → View → Bool) (h : Heap L) (p q : Nat) : Res (List Complaint) :=
  match h.larryAt p with
  | .error e => .error e
  | .ok o1 => match h.larryAt q with
    | .error e => .error e
    | .ok o2 => sharingComplaints (!mayShare o1.x o2.x) (fun a b => decide (a ≠ b)) h o1 o2

/-- `noreference(larry1, larry2)` (la/util/testing.py:261-273).  `same` is `larry1.x is larry2.x`; arrays have no
identity in the model apart from the buffer and the cells they show. -/
def noreference (same : Bool) (h : Heap L) (p q : Nat) : Res Bool :=
  match h.larryAt p with
  | .error e => .error e
  | .ok o1 => match h.larryAt q with
    | .error e => .error e
    | .ok o2 =>
      if o1.x.ix.ndim ≠ o2.x.ix.ndim then .error .valueError             -- 267-268
      else match axisComplaints (fun a b => decide (a = b)) (h.out o1.label) (h.out o2.label)
          (List.range o1.x.ix.ndim) with                                 -- 271-273
        | .error e => .error e
        | .ok cs => .ok (!same && decide (cs = []))

/-- `nocopy(larry1, larry2)` (la/util/testing.py:275-287). -/
def nocopy (same : Bool) (h : Heap L) (p q : Nat) : Res Bool :=
  match h.larryAt p with
  | .error e => .error e
  | .ok o1 => match h.larryAt q with
    | .error e => .error e
    | .ok o2 =>
      if o1.x.ix.ndim ≠ o2.x.ix.ndim then .error .valueError
      else match axisComplaints (fun a b => decide (a ≠ b)) (h.out o1.label) (h.out o2.label)
          (List.range o1.x.ix.ndim) with
        | .error e => .error e
        | .ok cs => .ok (same && decide (cs = []))

/-! ## assert_larry_equal -/

/-- `desired == actual` for two elements (`numpy.testing.assert_equal`, external). -/
def sameElement : Val → Val → Bool
  | .none, .none => true
  | .str a, .str b => decide (a = b)
  | .str _, _ => false
  | _, .str _ => false
  | .none, _ => false
  | _, .none => false
  | a, b => (a.num.isNan && b.num.isNan) || a.num.eq b.num

/-- Two elements for `numpy.testing.assert_almost_equal` (external): NaN and the infinities have to be in the same
places, finite numbers close. -/
def closeElement (close : ℚ → ℚ → Bool) : Val → Val → Bool
  | .none, .none => true
  | .str a, .str b => decide (a = b)
  | .str _, _ => false
  | _, .str _ => false
  | .none, _ => false
  | _, .none => false
  | a, b =>
    match a.num, b.num with
    | .fin p, .fin q => close p q
    | f, g => (f.isNan && g.isNan) || f.eq g

/-- Arrays for numpy's assertions: the same shape (or one of them 0d), and the elements. -/
def sameArray (eq : Val → Val → Bool) (x y : NDArray Val) : Bool :=
  if x.shape = y.shape then (allIdx x.shape).all (fun i => eq (x.get i) (y.get i))
  else if x.shape = [] then (allIdx y.shape).all (fun i => eq (x.get []) (y.get i))
  else if y.shape = [] then (allIdx x.shape).all (fun i => eq (x.get i) (y.get []))
  else false

/-- The comparison of the data arrays (la/util/testing.py:163-177). -/
def sameData (close : ℚ → ℚ → Bool) (y z : Larry L) : Bool :=
  if y.dtype = .float ∨ z.dtype = .float then sameArray (closeElement close) y.x z.x
  else sameArray sameElement y.x z.x

/-- The complaint of a check that fails. -/
def complain (ok : Bool) (c : Complaint) : List Complaint := if ok then [] else [c]

/-- The comparison of two larrys in `assert_larry_equal` (la/util/testing.py:156-184), without `original`. -/
def equalComplaints [DecidableEq L] (close : ℚ → ℚ → Bool) (dtype : Bool) (actual desired : Larry L) : List Complaint :=
  complain (decide (actual.label = desired.label)) .label ++             -- 157-160
  complain (sameData close actual desired) .data ++                      -- 163-177
  complain (!dtype || decide (actual.dtype = desired.dtype)) .dtype      -- 180-184

/-- The complaint of `assert_iscopy` or `assert_isview` as a section (la/util/testing.py:187-200). -/
def originalComplaints (iscopy : Bool) : Res (List Complaint) → Res (List Complaint)
  | .error e => .error e
  | .ok [] => .ok []
  | .ok _ => .ok [if iscopy then .notACopy else .isACopy]

/-- `assert_larry_equal(actual, desired, dtype=dtype, original=original, iscopy=iscopy)` for two larrys
(la/util/testing.py:154-209).  No complaints: it returns None. -/
def assertLarryEqual [DecidableEq L] (close : ℚ → ℚ → Bool) (mayShare : View → View → Bool) (dtype : Bool)
    (original : Option Nat) (iscopy : Bool) (h : Heap L) (p q : Nat) : Res (List Complaint) :=
  match h.larryAt p with
  | .error e => .error e
  | .ok o1 => match h.larryAt q with
    | .error e => .error e
    | .ok o2 =>
      let cs := equalComplaints close dtype (h.value o1) (h.value o2)
      match original with
      | none => .ok cs
      | some r =>
        match originalComplaints iscopy
            (if iscopy then assertIscopy mayShare h p r else assertIsview mayShare h p r) with
        | .error e => .error e
        | .ok ds => .ok (cs ++ ds)

end La
