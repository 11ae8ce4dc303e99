import Verif.Testing
import Verif.Operand

/-!
# `assert_larry_equal` of any two objects (la/util/testing.py:10-209)

`assertLarryEqual` is the comparison of two larrys.  Here are the checks of the arguments, the comparison of scalars, the choice
between the comparisons, and the text of the AssertionError.
-/

namespace La
variable {L : Type}

/-- An object handed to `assert_larry_equal`: a larry, or an instance of a subclass; a scalar of a type (numbers are real; a
string is a scalar too); something else, without an attribute `label`. -/
inductive TestObj
  | larry (sub : Bool) (p : Nat)
  | scalar (c : PyClass) (v : Val)
  | other

/-- A section of the AssertionError. -/
inductive Section
  | scalars | type
  | larry (c : Complaint)
  deriving DecidableEq

/-- `assert_almost_equal` of two scalars (external) when they are not equal: it subtracts, which strings refuse. -/
def almostScalars (close : ℚ → ℚ → Bool) (v w : Val) : Res Bool :=
  match v, w with
  | .str _, _ => .error .typeError
  | _, .str _ => .error .typeError
  | .none, _ => .error .typeError
  | _, .none => .error .typeError
  | v, w => .ok (closeElement close v w)

/-- The section of a check that fails. -/
def complainAs (ok : Bool) (s : Section) : List Section := if ok then [] else [s]

/-- Two scalars (la/util/testing.py:128-142): equal or almost equal, then the types.  Only an AssertionError is caught. -/
def scalarSections (close : ℚ → ℚ → Bool) (dtype : Bool) (c c' : PyClass) (v w : Val) : Res (List Section) :=
  match (if sameElement v w then .ok true else almostScalars close v w) with
  | .error e => .error e
  | .ok b => .ok (complainAs b .scalars ++                               -- 128-137
      complainAs (!dtype || decide (c = c')) .type)                      -- 138-142

/-- `type(actual) == larry`, not a subclass. -/
def TestObj.plain : TestObj → Bool
  | .larry sub _ => !sub
  | _ => false

/-- `np.isscalar(actual)` and its type and value. -/
def TestObj.asScalar : TestObj → Option (PyClass × Val)
  | .scalar c v => if npIsscalar c then some (c, v) else none
  | _ => none

/-- `actual.label` exists: the address of the larry. -/
def TestObj.labelled : TestObj → Res Nat
  | .larry _ p => .ok p
  | _ => .error .attributeError

/-- The third branch (la/util/testing.py:152-200): `actual.label` and `desired.label` are looked up first (158). -/
def larrySections [DecidableEq L] (close : ℚ → ℚ → Bool) (mayShare : View → View → Bool) (dtype : Bool) (original : Option Nat)
    (iscopy : Bool) (h : Heap L) (a d : TestObj) : Res (List Section) :=
  match a.labelled with
  | .error e => .error e
  | .ok p => match d.labelled with
    | .error e => .error e
    | .ok q => (assertLarryEqual close mayShare dtype original iscopy h p q).map (·.map .larry)

/-- The branches (la/util/testing.py:124-200).  `close7` is the tolerance for scalars, `close` that for arrays. -/
def sections [DecidableEq L] (close7 close : ℚ → ℚ → Bool) (mayShare : View → View → Bool) (dtype : Bool) (original : Option Nat)
    (iscopy : Bool) (h : Heap L) (a d : TestObj) : Res (List Section) :=
  match a.asScalar, d.asScalar with
  | some s, some t => scalarSections close7 dtype s.1 t.1 s.2 t.2        -- 124
  | _, _ =>
    if xor a.plain d.plain then .ok [.type]                              -- 144-150
    else larrySections close mayShare dtype original iscopy h a d        -- 152

/-- `assert_larry_equal(actual, desired, msg, dtype, original, iscopy)` (la/util/testing.py:10-209).  A flag that is not equal to
True or False, and a `msg` that is no str, is `none`. -/
def assertAny [DecidableEq L] (close7 close : ℚ → ℚ → Bool) (mayShare : View → View → Bool) (msg : Option (List Char))
    (dtype : Option Bool) (original : Option Nat) (iscopy : Option Bool) (h : Heap L) (a d : TestObj) : Res (List Section) :=
  match dtype with
  | none => .error .typeError                                            -- 111-112
  | some dtype => match iscopy with
    | none => .error .typeError                                          -- 113-114
    | some iscopy => match msg with
      | none => .error .typeError                                        -- 115-116
      | some _ => sections close7 close mayShare dtype original iscopy h a d

/-! ## The message -/

/-- `heading(text)` (la/util/testing.py:119-121). -/
def sectionHeading (text : List Char) : List Char :=
  ['\n', '\n'] ++ List.replicate text.length '-' ++ ['\n'] ++ text ++ ['\n'] ++ List.replicate text.length '-' ++ ['\n']

/-- The titles (la/util/testing.py:137, 142, 150, 160, 177, 184, 193, 199); the complaints of `assert_iscopy` and
`assert_isview` are not sections of their own. -/
def Section.title : Section → List Char
  | .scalars => "SCALARS".toList
  | .type => "TYPE".toList
  | .larry .label => "LABEL".toList
  | .larry .data => "X DATA ARRAY".toList
  | .larry .dtype => "DTYPE".toList
  | .larry .notACopy => "NOT A COPY".toList
  | .larry .isACopy => "IS A COPY".toList
  | .larry _ => []

/-- `heading(…) + str(err)`; `text` is `str(err)`, which numpy writes. -/
def Section.block (text : Section → List Char) (s : Section) : List Char := sectionHeading s.title ++ text s

/-- One character of `err_msg.replace('\n', '\n\t')`. -/
def indentChar (c : Char) : List Char := if c = '\n' then ['\n', '\t'] else [c]

/-- `err_msg.replace('\n', '\n\t')` (la/util/testing.py:206). -/
def indentText (t : List Char) : List Char := t.flatMap indentChar

/-- The message of the AssertionError (la/util/testing.py:205-209). -/
def failMessage (msg : List Char) (text : Section → List Char) (fail : List Section) : List Char :=
  (if msg = [] then [] else sectionHeading ("TEST: ".toList ++ msg)) ++ indentText (fail.flatMap (Section.block text))

end La
