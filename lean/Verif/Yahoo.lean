import Verif.Csv
import Verif.Flarry
import Verif.Index
import Verif.Move

/-!
# Model of la/data/yahoo.py and of the parser in la/external/matplotlib.py

`parse_yahoo_historical`, `quotes_historical_yahoo` (la/external/matplotlib.py:28-54, 80-101) and `quotes`
(la/data/yahoo.py:106-133).  What the web server sends for a ticker is a list of lines, a parameter; the
address asked for (la/external/matplotlib.py:56-78) and an IOError while reading are not modelled.
-/

namespace La
namespace Yahoo
open Csv (Text)
variable {L : Type _}

/-- `line.split(c)` -/
def split (c : Char) : Text → List Text
  | [] => [[]]
  | a :: as =>
    if a = c then [] :: split c as
    else match split c as with
      | [] => [[a]]
      | w :: ws => (a :: w) :: ws

/-- The conversions of a field, each with its exception: `datetime.date(*[int(v) for v in s.split('-')])`
(the date as a label), `float(s)` and `int(s)`. -/
structure Conv (L : Type _) where
  date : Text → Res L
  float : Text → Res Flt
  int : Text → Res Int

/-- One turn of the loop of `parse_yahoo_historical` (la/external/matplotlib.py:43-53): the date and the tuple
`(open, close, high, low, volume, aclose)`, or nothing for a line that has not seven fields. -/
def parseLine (C : Conv L) (line : Text) : Res (Option (L × List Val)) :=
  match split ',' line with                                              -- 44
  | [d, o, h, l, c, v, a] => do
    let date ← C.date d                                                  -- 48
    let opn ← C.float o                                                  -- 50
    let high ← C.float h
    let low ← C.float l
    let close ← C.float c
    let volume ← C.int v                                                 -- 51
    let aclose ← C.float a                                               -- 52
    return some (date, [.flt opn, .flt close, .flt high, .flt low, .int volume, .flt aclose])  -- 53
  | _ => .ok none                                                        -- 45-46

/-- `parse_yahoo_historical(fh)` (la/external/matplotlib.py:39-54); the first line is a heading. -/
def parse (C : Conv L) (lines : List Text) : Res (List (L × List Val)) :=
  match mapRes (parseLine C) (lines.drop 1) with
  | .error e => .error e
  | .ok rows => .ok (rows.filterMap id)

/-- `np.array(data).T` (la/data/yahoo.py:118): ints and floats together give a float array. -/
def dataT (rows : List (L × List Val)) : NDArray Val :=
  ⟨[6, rows.length], fun idx => ((rows.map Prod.snd).getD (idx.getD 1 0) []).getD (idx.getD 0 0) .none |>.toFloat⟩

variable [LinearOrder L]

/-- The body of the loop of `quotes` up to the new larry of a ticker (la/data/yahoo.py:117-120).  Without
data `quotes_historical_yahoo` returns None, which cannot be unpacked. -/
def load (C : Conv L) (items : List L) (fetch : L → List Text) (ticker : L) : Res (Larry L) :=
  match parse C (fetch ticker) with                                      -- matplotlib.py:93-101
  | .error e => .error e
  | .ok rows =>
    if rows.length = 0 then .error .typeError                            -- 117
    else match Larry.mk' (dataT rows) .float [items, rows.map Prod.fst] with  -- 119
      | .error e => .error e
      | .ok q => q.insertaxis (some 0) ticker                            -- 120

/-- The loop over the tickers (la/data/yahoo.py:114-124); `none` is `lar is None`. -/
def loadAll (C : Conv L) (items : List L) (fetch : L → List Text) :
    List L → Option (Larry L) → Res (Option (Larry L))
  | [], lar => .ok lar
  | t :: ts, lar => match load C items fetch t with
    | .error e => .error e
    | .ok q => match lar with
      | none => loadAll C items fetch ts (some q)                        -- 121-122
      | some lar => match merge lar q false with                         -- 124
        | .error e => .error e
        | .ok lar => loadAll C items fetch ts (some lar)

/-- `x[:, k]` -/
def item1 (x : NDArray Val) (k : Nat) : NDArray Val := ⟨x.shape.eraseIdx 1, fun idx => x.get (idx.insertIdx 1 k)⟩

/-- `x[:, k] *= scale` on float arrays. -/
def scaleItem (x scale : NDArray Val) (k : Nat) : NDArray Val :=
  x.putAx k 1 ⟨scale.shape, fun idx => .flt (((item1 x k).get idx).num.mul (scale.get idx).num)⟩

/-- `x[:, -1] / x[:, 1]` on a float array (la/data/yahoo.py:127). -/
def scaleOf (x : NDArray Val) : NDArray Val :=
  ⟨x.shape.eraseIdx 1, fun idx => .flt (((item1 x (x.shape.getD 1 0 - 1)).get idx).num.div ((item1 x 1).get idx).num)⟩

/-- The adjustment of the prices in place (la/data/yahoo.py:127-131). -/
def adjusted (x : NDArray Val) : NDArray Val :=
  let scale := scaleOf x                                                 -- 127
  let x := scaleItem x scale 0                                           -- 128
  let x := x.putAx 1 1 (item1 x (x.shape.getD 1 0 - 1))                  -- 129
  let x := scaleItem x scale 2                                           -- 130
  scaleItem x scale 3                                                    -- 131

/-- `quotes(tickers, date1, date2, adjust)` (la/data/yahoo.py:106-133).  `items` are the labels 'open',
'close', 'high', 'low', 'volume', 'adjclose' (111).  Without tickers `None.sortaxis` raises. -/
def quotes (C : Conv L) (items : List L) (fetch : L → List Text) (tickers : List L) (adjust : Bool) :
    Res (Larry L) :=
  match loadAll C items fetch tickers none with
  | .error e => .error e
  | .ok none => .error .attributeError                                   -- 125
  | .ok (some lar) => match lar.sortaxis (some (-1)) false with          -- 125
    | .error e => .error e
    | .ok lar =>
      if adjust then
        match ({ lar with x := adjusted lar.x } : Larry L).getitem
            (.tuple [.slice {}, .slice ⟨none, some (-1), none⟩]) with    -- 132
        | .error e => .error e
        | .ok (.larry z) => .ok z
        | .ok _ => .error .runtimeError
      else .ok lar

end Yahoo
end La
