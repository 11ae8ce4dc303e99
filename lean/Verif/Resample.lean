import Verif.Lix

/-!
# Model of la/util/resample.py

A generator is modelled by the list of what it yields.  `int(1.0 * n / kfold)` is taken as the integer
quotient, which it is for `n < 2 ** 53`.
-/

namespace La

/-- `index[a:b]` for `0 <= a <= b` -/
def slc (index : List Nat) (a b : Nat) : List Nat := (index.take b).drop a

/-- One turn of the loop of `cross_validation` (la/util/resample.py:64-70): train and test index. -/
def cvFold (index : List Nat) (nperk kfold remainder k : Nat) : List Nat × List Nat :=
  let idx1 := nperk * k                                                  -- 64
  let idx2 := if k + 1 = kfold then idx1 + nperk + remainder else idx1 + nperk  -- 65-67
  (index.take idx1 ++ index.drop idx2, slc index idx1 idx2)              -- 68-70

/-- `cross_validation(n, kfold, shuffle)` (la/util/resample.py:6-70). -/
def crossValidation (shuffle : List Nat → List Nat) (n kfold : Int) : Res (List (List Nat × List Nat)) :=
  if n < 2 then .error .valueError                                       -- 50-51
  else if kfold < 2 then .error .valueError                              -- 52-53
  else if kfold > n then .error .valueError                              -- 54-55
  else
    let index := shuffle (List.range n.toNat)                            -- 56-60
    let nperk := n.toNat / kfold.toNat                                   -- 61
    let remainder := n.toNat - nperk * kfold.toNat                       -- 62
    .ok ((List.range kfold.toNat).map (cvFold index nperk kfold.toNat remainder))  -- 63

/-- `list(nrange - set(idx_train))` (la/util/resample.py:129); `setList` is the order in which the
elements of a set are listed. -/
def outOfBag (setList : List Nat → List Nat) (n : Nat) (train : List Nat) : List Nat :=
  setList ((List.range n).filter (fun i => i ∉ train))

/-- The loop of `bootstrap` (la/util/resample.py:127-134) on the successive results of `randint`; the
flag says whether the loop has been left. -/
def bootGo (setList : List Nat → List Nat) (n nboot : Nat) : Nat → List (List Nat) → List (List Nat × List Nat) × Bool
  | _, [] => ([], false)
  | count, train :: draws =>
    if (outOfBag setList n train).length > 0 then                        -- 130-132
      if count + 1 ≥ nboot then ([(train, outOfBag setList n train)], true)  -- 133-134
      else
        let r := bootGo setList n nboot (count + 1) draws
        ((train, outOfBag setList n train) :: r.1, r.2)
    else if count ≥ nboot then ([], true)                                -- 133-134
    else bootGo setList n nboot count draws

/-- `bootstrap(n, nboot, randint)` (la/util/resample.py:72-134). -/
def bootstrap (setList : List Nat → List Nat) (n nboot : Int) (draws : List (List Nat)) :
    Res (List (List Nat × List Nat) × Bool) :=
  if n < 2 then .error .valueError                                       -- 117-118
  else if nboot < 1 then .error .valueError                              -- 119-120
  else .ok (bootGo setList n.toNat nboot.toNat 0 draws)

/-- `split(data, idx_train, idx_test, axis)` for a larry (la/util/resample.py:136-231). -/
def resampleSplit {L : Type _} [LinearOrder L] (y : Larry L) (train test : List Nat) (axis : Int) : Res (Larry L × Larry L) :=
  match y.take (asInts train) axis with
  | .error e => .error e
  | .ok tr => match y.take (asInts test) axis with
    | .error e => .error e
    | .ok te => .ok (tr, te)

end La
