import Verif.Lara

/-!
# Model of looping over an archive (la/io.py:123-148, 157-158)

`iter(io)` lists the keys once (la/io.py:158); after that the loop goes through this list whatever happens
to the archive.  `items()` and `values()` make all laras before the first turn, the generators
`iteritems()` and `itervalues()` make each when its turn comes.
-/

namespace La

/-- `for a in l: body(a)` on some state, until a turn raises. -/
def loopOver {σ α : Type _} (body : σ → α → σ × Res Unit) (s : σ) : List α → σ × Res Unit
  | [] => (s, .ok ())
  | a :: l => match body s a with
    | (s1, .error e) => (s1, .error e)
    | (s1, .ok _) => loopOver body s1 l

namespace Archive

/-- `(key, self[key])` (la/io.py:129). -/
def item (f : Archive) (key : String) : Res (String × Lara) :=
  match f.lara key with
  | .error e => .error e
  | .ok a => .ok (key, a)

/-- `IO.items()` (la/io.py:127-129). -/
def items (f : Archive) : Res (List (String × Lara)) :=
  match f.keys with
  | .error e => .error e
  | .ok ks => mapRes f.item ks

/-- `IO.values()` (la/io.py:123-125). -/
def values (f : Archive) : Res (List Lara) :=
  match f.keys with
  | .error e => .error e
  | .ok ks => mapRes f.lara ks

/-- `IO.has_key(key)` (la/io.py:146-148). -/
def hasKey (f : Archive) (key : String) : Res Bool := f.contains key

/-- `for key in io: body` and `for key in io.iterkeys(): body` (la/io.py:131-134, 157-158). -/
def forKeys (body : Archive → String → Archive × Res Unit) (f : Archive) : Archive × Res Unit :=
  match f.keys with
  | .error e => (f, .error e)
  | .ok ks => loopOver body f ks

/-- `for key, value in io.items(): body` (la/io.py:127-129). -/
def forItems (body : Archive → String × Lara → Archive × Res Unit) (f : Archive) : Archive × Res Unit :=
  match f.items with
  | .error e => (f, .error e)
  | .ok l => loopOver body f l

/-- One turn with `iteritems`: the lara is made, then the body runs (la/io.py:143-144). -/
def turn (body : Archive → String × Lara → Archive × Res Unit) (f : Archive) (key : String) : Archive × Res Unit :=
  match f.item key with
  | .error e => (f, .error e)
  | .ok p => body f p

/-- `for key, value in io.iteritems(): body` (la/io.py:141-144). -/
def forIterItems (body : Archive → String × Lara → Archive × Res Unit) (f : Archive) : Archive × Res Unit :=
  f.forKeys (turn body)

end Archive
end La
