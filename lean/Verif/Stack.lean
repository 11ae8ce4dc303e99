import Verif.Index
import Verif.Flarry
import Verif.Methods

/-!
# Model of `stack` and `sortby` (la/flarry.py:1339-1405, 1701-1765)
-/

namespace La
section
variable {L : Type _} [LinearOrder L]

/-- `kwargs[key]` -/
def kwGet (kwargs : List (L × Larry L)) (key : L) : Res (Larry L) :=
  match kwargs.find? (fun p => p.1 = key) with
  | some p => .ok p.2
  | none => .error .keyError

/-- `x[i] = y.x` for a float array `x` (la/flarry.py:1402): the page to store.  For str and object arrays
numpy tries to read each element as a float; the model always raises. -/
def stackPage (row col : List L) (y : Larry L) : Res (NDArray Val) :=
  if y.dtype = .str ∨ y.dtype = .object then .error .valueError
  else if y.x.shape ≠ [row.length, col.length] then .error .valueError
  else .ok (y.x.map Val.toFloat)

/-- One turn of the loop of `stack` (la/flarry.py:1399-1402). -/
def stackKey (kwargs : List (L × Larry L)) (row col : List L) (key : L) : Res (NDArray Val) :=
  match kwGet kwargs key with                                            -- 1399
  | .error e => .error e
  | .ok y => match y.morph row 0 with                                    -- 1400
    | .error e => .error e
    | .ok y => match y.morph col 1 with                                  -- 1401
      | .error e => .error e
      | .ok y => stackPage row col y                                     -- 1402

/-- The array whose pages are given. -/
def ofPages (n m : Nat) (pages : List (NDArray Val)) : NDArray Val :=
  ⟨[pages.length, n, m], fun idx => match pages[idx.headD 0]? with
    | some p => p.get idx.tail
    | none => .flt (.fin 0)⟩

/-- `stack(mode, **kwargs)` (la/flarry.py:1339-1405).  `kwargs` lists the keywords and the larrys in the
order of the dictionary.  A mode is `some true` for 'union', `some false` for 'intersection'. -/
def stack (mode : Option Bool) (kwargs : List (L × Larry L)) : Res (Larry L) :=
  if ¬ ∀ p ∈ kwargs, p.2.ndim = 2 then .error .valueError                -- 1385-1386
  else match mode with
    | none => .error .valueError                                         -- 1391-1392
    | some m =>
      match (if m then union 0 (kwargs.map Prod.snd) else intersection 0 (kwargs.map Prod.snd)) with  -- 1393
      | .error e => .error e
      | .ok row =>
        match (if m then union 1 (kwargs.map Prod.snd) else intersection 1 (kwargs.map Prod.snd)) with  -- 1394
        | .error e => .error e
        | .ok col =>
          let keys := pySorted (kwargs.map Prod.fst)                     -- 1397
          match mapRes (stackKey kwargs row col) keys with               -- 1395, 1398-1403
          | .error e => .error e
          | .ok pages => Larry.mk' (ofPages row.length col.length pages) .float [keys, row, col]  -- 1404-1405

/-- `idx[::-1]` if reverse -/
def revIf (reverse : Bool) (idx : List Nat) : List Nat := if reverse then idx.reverse else idx

/-- `sortby(lar, element, axis, reverse)` (la/flarry.py:1701-1765).  `argsort` is numpy's. -/
def sortby (argsort : List Val → List Nat) (lar : Larry L) (element : L) (axis : Int) (reverse : Bool) : Res (GetOut L) :=
  let tail : Res (GetOut L) :=
    let axis := if axis < 0 then axis + lar.ndim else axis               -- 1751-1752
    if ¬ (axis = 0 ∨ axis = 1) then .error .valueError                   -- 1753-1754
    else match lar.labelindex element (some axis) with                   -- 1755
      | .error e => .error e
      | .ok k =>
        if axis = 0 then
          let idx := revIf reverse (argsort ((List.range (lar.shape.getD 1 0)).map (fun j => lar.x.get [k, j])))  -- 1757-1759
          lar.getitem (.tuple [.slice {}, .seq (idx.map (fun i : Nat => (i : Int)))])  -- 1760
        else
          let idx := revIf reverse (argsort ((List.range (lar.shape.getD 0 0)).map (fun j => lar.x.get [j, k])))  -- 1762-1764
          lar.getitem (.tuple [.seq (idx.map (fun i : Nat => (i : Int))), .slice {}])  -- 1765
  if lar.ndim ≠ 2 then .error .valueError                                -- 1746-1747
  else if lar.shape.prod = 0 then                                        -- 1748
    match pyGet lar.label axis with                                      -- 1749
    | .error e => .error e
    | .ok l => if element ∈ l then .ok (.larry lar) else tail            -- 1750
  else tail

end
end La
