import Verif.Methods

/-!
# Model of flatten, unflatten, panel and the conversions to tuples, lists and dicts

la/deflarry.py:4332-4702, `fromlists` of la/util/misc.py:161-212, `panel` of la/flarry.py:1464-1469.
-/

namespace La

/-- The multi-index at position `p` when the first axis varies fastest. -/
def unravelF : List Nat → Nat → List Nat
  | [], _ => []
  | n :: ns, p => p % n :: unravelF ns (p / n)

/-- The multi-index at position `p` when the last axis varies fastest. -/
def unravelC (shape : List Nat) (p : Nat) : List Nat := (unravelF shape.reverse p).reverse

/-- The position of a multi-index when the first axis varies fastest. -/
def ravelF : List Nat → List Nat → Nat
  | n :: ns, i :: is => ravelF ns is * n + i
  | _, _ => 0

namespace NDArray
variable {α : Type _}

/-- `a.flatten(order)` for order 'C' or 'F'. -/
def flatten (a : NDArray α) (order : String) : NDArray α :=
  ⟨[a.size], fun idx => a.get (if order = "C" then unravelC a.shape (idx.getD 0 0)
    else unravelF a.shape (idx.getD 0 0))⟩

/-- `a.tolist()` of a 1d array. -/
def tolist1 (a : NDArray α) : List α := (List.range a.size).map (fun p => a.get [p])

/-- `a.reshape(-1, n, order="F")`: ValueError if the first dimension cannot be determined. -/
def reshapeF2 (a : NDArray α) (n : Nat) : Res (NDArray α) :=
  if n = 0 ∨ a.size % n ≠ 0 then .error .valueError
  else .ok ⟨[a.size / n, n], fun idx => a.get (unravelF a.shape (ravelF [a.size / n, n] idx))⟩

/-- `a[index] = vals` with one list of positions per axis: row `r` of the (transposed) index gets the
`r`-th value, in order, so a repeated position keeps the last value. -/
def assignRows (a : NDArray α) : List (List Nat × α) → NDArray α
  | [] => a
  | (idx, v) :: rest => assignRows (a.setItem idx v) rest

end NDArray

section
variable {L : Type _}

/-- `zip(*tuples)`: the columns of a list of tuples, as many as the shortest tuple has entries
(none for an empty list). -/
def zipStar {α : Type _} (ts : List (List α)) : List (List α) :=
  (List.range ((ts.map List.length).min?.getD 0)).map (fun k => ts.filterMap (fun t => t[k]?))

/-- Row `r` of a list of columns. -/
def rowOf {α : Type _} (cols : List (List α)) (r : Nat) : List α := cols.filterMap (fun c => c[r]?)

/-- A value `float(v)` accepts, as far as modelled: numbers and booleans.  (Strings that spell a number
are treated like other strings.) -/
def Val.isNumber : Val → Bool
  | .bool _ | .int _ | .flt _ => true
  | _ => false

/-- The value assigned to row `r`: `xs[r]`, or the single element of `xs` for every row. -/
def broadcastRow (xs : List Val) (r : Nat) : Val := (if xs.length = 1 then xs.getD 0 .none else xs.getD r .none).toFloat

/-- `fromlists(xs, labels)` (la/util/misc.py:197-212); `labels` has one list per axis.  Where the code
returns `label=None` for empty input the result carries the labels that `larry` then makes. -/
def fromlists [LinearOrder L] (xs : List Val) (labels : List (List L)) :
    Res (NDArray Val × List (List L)) :=
  if xs.length = 0 ∧ labels.length = 0 then .ok (⟨[0], fun _ => .flt .nan⟩, [[]])   -- 197-199
  else match mapRes list2index labels with                                        -- 204-208
    | .error e => .error e
    | .ok il =>
      let index := il.map Prod.fst
      let label := il.map Prod.snd
      let x := NDArray.full (label.map List.length) (Val.flt .nan)                 -- 209-210
      let nrow := (index.getD 0 []).length
      if xs.length ≠ nrow ∧ xs.length ≠ 1 then .error .valueError                  -- 211
      else if xs.any (fun v => !v.isNumber) then .error .valueError
      else .ok (x.assignRows ((List.range nrow).map (fun r => (rowOf index r, broadcastRow xs r))),
        label)

namespace Larry

/-- `larry.flatten(order)` (la/deflarry.py:4332-4334). -/
def flatten (y : Larry L) (order : String := "C") : Res (Larry (List L)) :=
  match flattenlabel y.label order with                                  -- 4332
  | .error e => .error e
  | .ok label => .ok ⟨y.x.flatten order, y.dtype, label⟩                  -- 4333-4334

/-- `larry(x, label)` on the result of `fromlists`. -/
def ofLists [LinearOrder L] (xs : List Val) (labels : List (List L)) : Res (Larry L) :=
  match fromlists xs labels with
  | .error e => .error e
  | .ok (x, label) => mk' x .float label

/-- `larry.unflatten()` (la/deflarry.py:4385-4397). -/
def unflatten [LinearOrder L] (y : Larry (List L)) : Res (Larry L) :=
  if y.ndim ≠ 1 then .error .valueError                                  -- 4385-4386
  else if y.shape = [0] then .ok emptyLarry                              -- 4388-4389
  else if ¬ (y.dtype = .float ∨ y.dtype = .int) then .error .notImplementedError  -- 4392-4394
  else ofLists y.x.tolist1 (zipStar (y.label.getD 0 []))                 -- 4395-4397

/-- `larry.totuples()` (la/deflarry.py:4482-4485): a list of (labels, value) rows. -/
def totuples (y : Larry L) : Res (List (List L × Val)) :=
  match y.flatten "C" with
  | .error e => .error e
  | .ok yf => .ok ((yf.label.getD 0 []).zip yf.x.tolist1)

/-- `larry.fromtuples(data)` (la/deflarry.py:4550-4558) for rows of labels followed by one value; rows
of different lengths (whose columns Python's zip would cut) are reported as ValueError and not
otherwise modelled. -/
def fromtuples [LinearOrder L] (data : List (List L × Val)) : Res (Larry L) :=
  if data.length = 0 then .ok emptyLarry                                 -- 4550-4551
  else if data.any (fun r => r.1.length ≠ (data.map (fun r => r.1.length)).getD 0 0) then
    .error .valueError
  else ofLists (data.map Prod.snd) (zipStar (data.map Prod.fst))         -- 4554-4558

/-- `larry.tolist()` (la/deflarry.py:4579-4580). -/
def tolist (y : Larry L) : Res (List Val × List (List L)) :=
  match y.flatten "C" with
  | .error e => .error e
  | .ok yf => .ok (yf.x.tolist1, yf.label.getD 0 [])

/-- `larry.fromlist(data)` (la/deflarry.py:4629-4633) with `data = [values, label tuples]`. -/
def fromlist [LinearOrder L] (data : List Val × List (List L)) : Res (Larry L) :=
  ofLists data.1 (zipStar data.2)

/-- `larry.todict()` (la/deflarry.py:4653-4654): the items `dict(zip(labels, values))`; a key that
occurs twice keeps its last value. -/
def todict [DecidableEq L] (y : Larry L) : Res (PyDict (List L) Val) :=
  match y.tolist with
  | .error e => .error e
  | .ok (xs, labels) => .ok ((labels.zip xs).foldl (fun d p => d.insert p.1 p.2) (fun _ => none))

/-- `larry.fromdict(data)` (la/deflarry.py:4702).  `items` are the items of the dict in the order in
which Python iterates over it (any order). -/
def fromdict [LinearOrder L] (items : List (List L × Val)) : Res (Larry L) :=
  fromlist (items.map Prod.snd, items.map Prod.fst)

end Larry

/-- `panel(lar)` (la/flarry.py:1464-1469).  The new rows are labelled by tuples, the columns by plain
labels. -/
def panel (y : Larry L) : Res (Larry (L ⊕ List L)) :=
  if y.ndim ≠ 3 then .error .valueError                                  -- 1464-1465
  else match flattenlabel [y.label.getD 1 [], y.label.getD 2 []] "C" with  -- 1467
    | .error e => .error e
    | .ok fl => match y.x.transpose.reshapeF2 (y.shape.getD 0 0) with    -- 1468
      | .error e => .error e
      | .ok x => .ok ⟨x, y.dtype, [(fl.getD 0 []).map Sum.inr, (y.label.getD 0 []).map Sum.inl]⟩

end
end La
