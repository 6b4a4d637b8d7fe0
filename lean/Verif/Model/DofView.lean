/-!
Model of `DofView`, `include/zensim/types/View.h`: access to the scalars or vectors of a container, which holds scalars or vectors, with or without channels.

The container is a function of channel, element and component (0 where a container has none).  Indices do not wrap.
-/
namespace Verif.DofView

/-- The parameters of `DofView`, lines 76-97 and 175-197: with channels or not, whether the entries are vectors (`entry_e`), `dim`, `deduced_dim` of the
traits, the number of elements and the first channel. -/
structure View where
  withChannel : Bool
  vectors : Bool
  dim : Nat
  deduced : Nat
  size : Nat
  chn : Nat

/-- Channel, element and component. -/
abbrev Cell := Nat × Nat × Nat

/-- `numEntries`, lines 101-103 and 201. -/
def View.numEntries (v : View) : Nat := if v.withChannel then v.size * v.dim else if v.vectors then v.size * v.dim else v.size

/-- The cell of the iterator at `i`, lines 123-128 and 222-227. -/
def View.iterCell (v : View) (i : Nat) : Cell :=
  if v.withChannel then
    if v.vectors then (v.chn, i / v.dim, i % v.dim) else (v.chn + i % v.dim, i / v.dim, 0)
  else
    if v.vectors then (0, i / v.dim, i % v.dim) else (0, i, 0)

/-- The cell of `get` for scalars, lines 148-151 and 250-253. -/
def View.getCell (v : View) (i : Nat) : Cell :=
  if v.withChannel then
    if v.vectors then (v.chn, i / v.dim, i % v.dim) else (v.chn + i % v.dim, i / v.dim, 0)
  else
    if v.vectors then (0, i / v.dim, i % v.dim) else (0, i, 0)

/-- The cells of `get` for vectors, lines 148-149, 152-157 and 254-260. -/
def View.getCells (v : View) (i : Nat) : List Cell :=
  (List.range v.dim).map fun d =>
    if v.withChannel then
      if v.vectors then (v.chn, i, d) else (v.chn + d, i, 0)
    else
      if v.vectors then (0, i, d) else (0, i * v.dim + d, 0)

/-- The cell of `set` with a scalar, lines 161-166 and 264-268. -/
def View.setCell (v : View) (i : Nat) : Cell :=
  if v.withChannel then
    if v.vectors then (v.chn, i / v.dim, i % v.dim) else (v.chn + i % v.dim, i / v.dim, 0)
  else
    if v.vectors then (0, i / v.dim, i % v.dim) else (0, i, 0)

/-- The cells of `set` with a vector of `extent` components, lines 161-163, 168-171 and 270-281; a vector that is assigned to an entry has its extent. -/
def View.setCells (v : View) (extent i : Nat) : List Cell :=
  if v.withChannel then
    if v.vectors then (List.range extent).map fun d => (v.chn, i, d)
    else if extent = v.dim then
      if v.deduced = v.dim then (List.range v.dim).map fun d => (v.chn + d, i, 0)
      else (List.range v.dim).map fun d => (v.chn, i * v.dim + d, 0)
    else []
  else
    if v.vectors then (List.range extent).map fun d => (0, i, d) else (List.range extent).map fun d => (0, i * extent + d, 0)

/-- A write to a cell. -/
def write {α : Type} (m : Cell → α) (c : Cell) (x : α) : Cell → α := fun c' => if c' = c then x else m c'

/-- `get` for scalars. -/
def View.get {α : Type} (v : View) (m : Cell → α) (i : Nat) : α := m (v.getCell i)

/-- `get` for vectors. -/
def View.getVec {α : Type} (v : View) (m : Cell → α) (i : Nat) : List α := (v.getCells i).map m

/-- `set` with a scalar. -/
def View.set {α : Type} (v : View) (m : Cell → α) (i : Nat) (x : α) : Cell → α := write m (v.setCell i) x

/-- `set` with a vector: the components in turn. -/
def View.setVec {α : Type} (v : View) (m : Cell → α) (i : Nat) (xs : List α) : Cell → α :=
  ((v.setCells xs.length i).zip xs).foldl (fun m p => write m p.1 p.2) m

end Verif.DofView
