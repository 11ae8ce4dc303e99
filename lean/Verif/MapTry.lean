import Verif.Heap

/-!
# `maplabel` with a function that may raise

Verif/Heap.lean has `maplabel` for functions that return for every label.  Python's `func` may raise for some; labels
are mapped axis by axis, and with `copy=False` they are the labels of the larry itself.
-/

namespace La
variable {L : Type}

open HM

/-- The assignments of `maplabel` (la/deflarry.py:2696-2700) on the axes given: `list(map(func, y.label[ax]))` is made
before it is assigned. -/
def hMapTryLoop (f : L → Res L) (label : Nat) : List Nat → HM L Unit
  | [] => return ()
  | ax :: axs => do
    let ls ← look (fun h => (h.out label).map h.lst)
    let l ← lift (mapRes f (ls.getD ax []))
    setLab label ax l
    hMapTryLoop f label axs

/-- `larry.maplabel(func, axis, copy)` (la/deflarry.py:2692-2701). -/
def hMapTry (f : L → Res L) (axis : Option Int) (copy : Bool) (p : Nat) : HM L Nat := do
  let q ← hCopyIf copy p                                                 -- 2692-2695
  let o ← getObj q
  let as ← look (fun h => h.out o.label)
  match axis with
  | none => do
    hMapTryLoop f o.label (List.range as.length)                         -- 2696-2698
    return q
  | some axis => do
    let ax ← lift (pyIdxE as.length axis)
    hMapTryLoop f o.label [ax]                                           -- 2700
    return q

end La
