import Verif.Setitem

/-!
# Model of `larry.lix` (la/deflarry.py:5011-5172)

Labels in a lix expression stand in lists; scalars are positions.  Floats that `isscalar` lets through
are not modelled.
-/

namespace La

/-- A bound of a slice. -/
inductive LBound (L : Type _)
  | none
  | int (i : Int)
  | list (ls : List L)
  | other

/-- `start:stop:step` -/
structure LSlice (L : Type _) where
  start : LBound L := .none
  stop : LBound L := .none
  step : Option Int := Option.none

/-- An entry of a lix expression. -/
inductive LItem (L : Type _)
  | list (ls : List L)
  | slice (s : LSlice L)
  | int (i : Int)
  | other

/-- What stands between the brackets. -/
inductive LIndex (L : Type _)
  | one (it : LItem L)
  | tuple (its : List (LItem L))

section
variable {L : Type _} [LinearOrder L]

/-- One bound in `slicemaker` (la/deflarry.py:5144-5153, 5154-5163). -/
def LBound.resolve (y : Larry L) (ax : Nat) : LBound L → Res (Option Int)
  | .none => .ok Option.none
  | .int i => .ok (some i)
  | .list [] => .error .indexError                                       -- 5149
  | .list [n] => match y.labelindex n (some (ax : Int)) with             -- 5149, 5159
    | .error e => .error e
    | .ok k => .ok (some (k : Int))
  | .list (_ :: _ :: _) => .error .valueError                            -- 5147-5148
  | .other => .error .valueError                                         -- 5152-5153

/-- `slicemaker(index, labelindex, axis)` (la/deflarry.py:5140-5164). -/
def slicemaker (y : Larry L) (ax : Nat) (s : LSlice L) : Res PySlice :=
  match s.start.resolve y ax with
  | .error e => .error e
  | .ok a => match s.stop.resolve y ax with
    | .error e => .error e
    | .ok b => .ok ⟨a, b, s.step⟩

/-- `label.index(name)` -/
def indexE (l : List L) (n : L) : Res Nat :=
  match pyIndex l n with
  | some i => .ok i
  | none => .error .valueError

/-- `labels2indices(label, labels)` (la/deflarry.py:5166-5172). -/
def labels2indices (l : List L) (names : List L) : Res (List Nat) := mapRes (indexE l) names

/-- `[int, ...]` -/
def asInts (ids : List Nat) : List Int := ids.map (fun i : Nat => (i : Int))

/-- One turn of the loop over the axes (la/deflarry.py:5047-5064, 5106-5123): the positions and the
labels to append. -/
def LItem.sel (y : Larry L) (ax : Nat) : LItem L → Res (List Int × Option (List L))
  | .list ns => match labels2indices (y.label.getD ax []) ns with        -- 5050-5053
    | .error e => .error e
    | .ok ids => .ok (asInts ids, if ns.length > 1 then some ns else none)
  | .slice s => match slicemaker y ax s with                             -- 5055
    | .error e => .error e
    | .ok ps => match sliceIndices (y.shape.getD ax 0) ps with           -- 5056
      | .error e => .error e
      | .ok ids => match pySliceList (y.label.getD ax []) ps with        -- 5057
        | .error e => .error e
        | .ok lab => .ok (asInts ids, if lab.length > 1 then some lab else none)
  | .int i => .ok ([i], none)                                            -- 5062
  | .other => .error .indexError                                         -- 5064

/-- The loop over the axes, after padding (la/deflarry.py:5041-5064). -/
def lixSel (y : Larry L) (its : List (LItem L)) : Res (List (List Int × Option (List L))) :=
  if its.length > y.ndim then .error .indexError                         -- 5046
  else mapRes (fun p : LItem L × Nat => p.1.sel y p.2)
    (its ++ List.replicate (y.ndim - its.length) (LItem.slice {})).zipIdx

/-- Bounds check of `np.ix_(*index2)` when used as an index.  In numpy 1.6/1.7 an empty list becomes an
array of floats, which is refused as an index. -/
def ixIds (shape : List Nat) (index2 : List (List Int)) : Res (List (List Nat)) :=
  if [] ∈ index2 then .error .indexError
  else mapRes (fun p : Nat × List Int => mapRes (pyIdxE p.1) p.2) (shape.zip index2)

namespace Larry

/-- A list alone: `labels2indices`, and a list of one label becomes an integer
(la/deflarry.py:5030-5032, 5089-5091). -/
def lixList (y : Larry L) (ns : List L) : Res NpItem :=
  match labels2indices (y.label.getD 0 []) ns with
  | .error e => .error e
  | .ok ids => .ok (if ns.length = 1 then .int ((ids.getD 0 0 : Nat) : Int) else .seq (asInts ids))

/-- A single entry as an entry for `y[...]`. -/
def lixOne (y : Larry L) : LItem L → Res NpItem
  | .list ns => y.lixList ns
  | .slice s => match slicemaker y 0 s with                              -- 5037, 5096
    | .error e => .error e
    | .ok ps => .ok (.slice ps)
  | .int i => .ok (.int i)                                               -- 5072, 5136
  | .other => .error .indexError                                         -- 5074, 5138

/-- `y.lix[index]` (la/deflarry.py:5017-5074). -/
def lixGet (y : Larry L) (idx : LIndex L) : Res (GetOut L) :=
  if y.shape = [0] then .ok (.larry y)                                   -- 5021-5022
  else if 0 ∈ y.shape then .error .valueError                            -- 5023-5026
  else match idx with
    | .one it => match y.lixOne it with
      | .error e => .error e
      | .ok it' => y.getitem (.one it'.toItem)
    | .tuple its => match lixSel y its with
      | .error e => .error e
      | .ok sels => match ixIds y.shape (sels.map Prod.fst) with         -- 5065
        | .error e => .error e
        | .ok ids =>
          let x := (y.x.grid ids).squeeze
          if x.shape = [] then .ok (.scalar (x.get []))                  -- 5066-5067
          else match mk' x y.dtype (sels.filterMap Prod.snd) with        -- 5069
            | .error e => .error e
            | .ok z => .ok (.larry z)

/-- `np.ix_(*index2)` as positions. -/
def ixGrid (ids : List (List Nat)) : NDArray (List Nat) :=
  ⟨ids.map List.length, fun idx => List.zipWith (fun l i => l.getD i 0) ids idx⟩

/-- `[y.label[ax][i] for i in ix2]` on every axis (la/deflarry.py:5127-5130). -/
def lixLabels (y : Larry L) (index2 : List (List Int)) : Res (List (List L)) :=
  mapRes (fun p : List L × List Int => pyItems p.1 p.2) (y.label.zip index2)

/-- `y.lix[index] = value` (la/deflarry.py:5076-5138). -/
def lixSet (conv : Val → Val) (y : Larry L) (idx : LIndex L) (v : SetVal L) : Res (Larry L) :=
  if y.shape = [0] then .error .indexError                               -- 5080-5081
  else if 0 ∈ y.shape then .error .valueError                            -- 5082-5085
  else match idx with
    | .one it => match y.lixOne it with
      | .error e => .error e
      | .ok it' => y.setAt conv (.one it') v
    | .tuple its => match lixSel y its with
      | .error e => .error e
      | .ok sels => match v with
        | .lar z =>
          if z.ndim ≠ sels.length then .error .indexError                -- 5125-5126
          else match y.lixLabels (sels.map Prod.fst) with                -- 5127-5128
            | .error e => .error e
            | .ok labs =>
              if labs ≠ z.label then .error .indexError                  -- 5129-5130
              else match ixIds y.shape (sels.map Prod.fst) with          -- 5131
                | .error e => .error e
                | .ok ids => .ok ⟨y.x.assignGrid (ixGrid ids) (fun i => conv (z.x.get i)), y.dtype, y.label⟩
        | .scalar v => match ixIds y.shape (sels.map Prod.fst) with      -- 5133
          | .error e => .error e
          | .ok ids => .ok ⟨y.x.assignGrid (ixGrid ids) (fun _ => v), y.dtype, y.label⟩

end Larry
end
end La
