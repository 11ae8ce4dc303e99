import Verif.Kernel

/-!
# Model of la/farray/group.py and the group methods of larry

`bn.nanmedian` and the sort of the groups are parameters.  The functions act on every line along the
axis in the same way, so they are written for one line.
-/

namespace La

/-- Python's `==` between two group values: numbers by value, NaN equal to nothing. -/
def Val.grpEq : Val → Val → Bool
  | .str a, .str b => a == b
  | .obj a, .obj b => a == b
  | .none, .none => true
  | a, b => a.num.eq b.num

/-- One step of building `set(groups)`. -/
def addGroup (u : List Val) (g : Val) : List Val := if u.any (fun h => h.grpEq g) then u else u ++ [g]

/-- `unique_group(groups)` (la/farray/group.py:138-144). -/
def uniqueGroup (sort : List Val → List Val) (groups : List Val) : List Val :=
  sort ((groups.foldl addGroup []).filter (fun g => g ≠ .none))         -- 140-143

/-- `x[idx]` for a boolean `idx`. -/
def maskSelect : List Bool → List Val → List Val
  | b :: mask, v :: vs => if b then v :: maskSelect mask vs else maskSelect mask vs
  | _, _ => []

/-- `out[idx] = vals` for a boolean `idx`. -/
def maskAssign : List Bool → List Val → List Val → List Val
  | b :: mask, o :: out, vals =>
    if b then vals.headD o :: maskAssign mask out vals.tail else o :: maskAssign mask out vals
  | _, out, _ => out

/-- One turn of the loop of `group_ranking`, `group_mean`, `group_median` (la/farray/group.py:53-56, 90-96,
129-134). -/
def groupStep (f : List Val → List Val) (groups vs : List Val) (out : List Val) (g : Val) : List Val :=
  maskAssign (groups.map (fun h => h.grpEq g)) out (f (maskSelect (groups.map (fun h => h.grpEq g)) vs))

/-- The loop over the groups on one line (la/farray/group.py:51-58). -/
def groupLine (sort : List Val → List Val) (f : List Val → List Val) (groups vs : List Val) : List Val :=
  (uniqueGroup sort groups).foldl (groupStep f groups vs) (List.replicate vs.length (.flt .nan))

/-- `nansum / norm`, once for each element (la/farray/group.py:94-96). -/
def groupMeanLine (vs : List Val) : List Val := vs.map (fun _ => .flt (nanmean (vs.map Val.num)))

/-- `nanmedian`, once for each element (la/farray/group.py:133-134). -/
def groupMedianLine (med : List Flt → Flt) (vs : List Val) : List Val :=
  vs.map (fun _ => .flt (med (vs.map Val.num)))

namespace Larry
variable {L : Type _} [LinearOrder L]

/-- `larry._group_align(group, axis)` (la/deflarry.py:3278-3286); `group` is a larry. -/
def groupAlign (y group : Larry L) (axis : Int) : Res (List Val) :=
  if group.ndim ≠ 1 then .error .valueError                             -- 3280-3281
  else match pyIdx y.label.length axis with
    | none => .error .indexError
    | some ax =>
      if (y.label.getD ax []).any (fun n => n ∉ group.label.getD 0 []) then .error .indexError  -- 3282-3283
      else match group.morph (y.label.getD ax []) 0 with                -- 3284
        | .error e => .error e
        | .ok g => .ok g.x.vals                                         -- 3285

/-- `larry.group_ranking`, `group_mean`, `group_median` (la/deflarry.py:3245-3270). -/
def groupBy (sort : List Val → List Val) (f : List Val → List Val) (y group : Larry L) (axis : Int) : Res (Larry L) :=
  match y.groupAlign group axis with
  | .error e => .error e
  | .ok groups =>
    if y.dtype.isNumeric = false then .error .typeError
    else match pyIdx y.ndim axis with
      | none => .error .indexError
      | some ax => .ok (y.copy.along (groupLine sort f groups) .float ax)

/-- `larry.group_ranking` (la/deflarry.py:3239-3248; la/farray/group.py:10-58). -/
def groupRanking (sort : List Val → List Val) (y group : Larry L) (axis : Int) : Res (Larry L) :=
  y.groupBy sort (rankingLine .pm1) group axis

/-- `larry.group_mean` (la/deflarry.py:3250-3259; la/farray/group.py:60-98). -/
def groupMean (sort : List Val → List Val) (y group : Larry L) (axis : Int) : Res (Larry L) :=
  y.groupBy sort groupMeanLine group axis

/-- `larry.group_median` (la/deflarry.py:3261-3270; la/farray/group.py:100-136). -/
def groupMedian (sort : List Val → List Val) (med : List Flt → Flt) (y group : Larry L) (axis : Int) : Res (Larry L) :=
  y.groupBy sort (groupMedianLine med) group axis

end Larry
end La
