import Verif.Flatten
import Verif.Group

/-!
# Model of `unique`

la/flarry.py:1337 hands the data to `np.unique`, which is modelled here after numpy/lib/arraysetops.py of
NumPy 1.6 and 1.7: sort, mark the elements that differ from the one before, keep the marked ones.
Arrays of objects are not modelled (what `sort` and `!=` do to them is up to the objects).
-/

namespace La

/-- The order in which numpy sorts an array of one dtype: numbers by size with NaN at the end, strings
letter by letter. -/
def npBefore : Val → Val → Prop
  | .str s, .str t => ¬ t.toList < s.toList
  | a, b => b.num.isNan = true ∨ a.num.le b.num = true

/-- `a != b` of two elements of an array: NaN differs from NaN. -/
def npDiffers : Val → Val → Bool
  | .str s, .str t => decide (s ≠ t)
  | a, b => !a.num.eq b.num

/-- `aux[1:] != aux[:-1]`, `prev` being the element in front. -/
def flagsFrom (prev : Val) : List Val → List Bool
  | [] => []
  | v :: vs => npDiffers v prev :: flagsFrom v vs

/-- `flag = np.concatenate(([True], aux[1:] != aux[:-1]))` -/
def uniqueFlags : List Val → List Bool
  | [] => [true]
  | v :: vs => true :: flagsFrom v vs

/-- `np.cumsum(flag)`, `c` being the sum so far. -/
def cumCount (c : Nat) : List Bool → List Nat
  | [] => []
  | b :: bs => (c + if b then 1 else 0) :: cumCount (c + if b then 1 else 0) bs

/-- `a[flag]` for an array of positions. -/
def maskPositions : List Bool → List Nat → List Nat
  | b :: mask, v :: vs => if b then v :: maskPositions mask vs else maskPositions mask vs
  | _, _ => []

/-- `perm.argsort()` of an array of integers. -/
def argsortNat (perm : List Nat) : List Nat :=
  (List.range perm.length).mergeSort (fun a b => decide (perm.getD a 0 ≤ perm.getD b 0))

/-- What `np.unique` returns: the values and, if asked for, the two arrays of positions. -/
structure Uniques where
  values : List Val
  index : Option (List Nat)
  inverse : Option (List Nat)
  deriving DecidableEq

/-- `np.unique(ar, return_index, return_inverse)` of the flattened array.  `argsort` is numpy's; `ar.sort()`
puts the elements in the order of `argsort`. -/
def npUnique (argsort : List Val → List Nat) (ar : List Val) (returnIndex returnInverse : Bool) : Uniques :=
  if ar = [] then
    ⟨[], if returnIndex then some [] else none, if returnInverse then some [] else none⟩
  else
    let perm := argsort ar
    let aux := perm.map (fun i => ar.getD i .none)
    let flag := uniqueFlags aux
    let iflag := (cumCount 0 flag).map (· - 1)
    let iperm := argsortNat perm
    ⟨maskSelect flag aux, if returnIndex then some (maskPositions flag perm) else none,
      if returnInverse then some (iperm.map (fun i => iflag.getD i 0)) else none⟩

/-- `unique(lar, return_index, return_inverse)` (la/flarry.py:1337). -/
def unique {L : Type _} (argsort : List Val → List Nat) (lar : Larry L) (returnIndex returnInverse : Bool := false) :
    Uniques :=
  npUnique argsort (lar.x.flatten "C").tolist1 returnIndex returnInverse   -- 1337

end La
