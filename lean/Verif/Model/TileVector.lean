/-!
Model of `TileVector` (`include/zensim/container/TileVector.hpp`) on the host.

The member `_buffer` is a `Vector` with value semantics (its storage handling is the subject of
`Verif.Model.Vector`): `buf` are its `capacity()` cells, `bufSize` its `size()`; a cell never written is
`none`.  Accesses outside the cells of the buffer and division by zero are undefined behaviour: the
outcome `none`.  `channel_counter_type` (`int`) and `size_t` arithmetic does not overflow.  Names are
compared as values.  Loops handed to a policy run their iterations in an arbitrary order `order`.
Smaller-than-element views, moves (which exchange all members), serialisation and the virtual-memory allocator are not modelled.
-/
namespace Verif.TileVector

variable {N α : Type}

/-- Data members; lines 551-560.  `L` is the template parameter `Length`. -/
structure TV (N α : Type) where
  buf : List (Option α)
  bufSize : Nat
  tags : List (N × Nat)
  names : List N
  sizes : List Nat
  offs : List Nat
  size : Nat
  nch : Nat

/-- `count_tiles`; lines 40-42. -/
def countTiles (L n : Nat) : Nat := (n + L - 1) / L

/-- Cell of channel `chn` of element `i`; lines 397, 402, 108, 140, 769. -/
def addr (L nch chn i : Nat) : Nat := (i / L * nch + chn) * L + i % L

/-- Cell reached through `view(chn, tileNo, localNo)`; line 837. -/
def addr3 (L nch chn tileNo localNo : Nat) : Nat := (tileNo * nch + chn) * L + localNo

/-- Cell reached through `view.tile(tileNo)(chn, i)`; lines 759, 876. -/
def tileAddr (L nch chn tileNo i : Nat) : Nat := tileNo * L * nch + (chn * L + i)

/-- `numTotalChannels`; lines 145-149. -/
def total (tags : List (N × Nat)) : Nat := tags.foldl (fun cnt t => cnt + t.2) 0

/-- The offsets written by the constructor's loop; lines 79-85. -/
def offsets (cur : Nat) : List (N × Nat) → List Nat
  | [] => []
  | t :: ts => cur :: offsets (cur + t.2) ts

/-- `TileVector(allocator, channelTags, count)`; lines 65-90. -/
def ctor (L : Nat) (tags : List (N × Nat)) (n : Nat) : TV N α :=
  let nch := total tags
  { buf := List.replicate (countTiles L n * L * nch) none
    bufSize := countTiles L n * L * nch
    tags := tags
    names := tags.map (·.1)
    sizes := tags.map (·.2)
    offs := offsets 0 tags
    size := n
    nch := nch }

/-- `(*this)[{chn, i}]`, `getVal`, `view(chn, i)`. -/
def get (L : Nat) (t : TV N α) (chn i : Nat) : Option (Option α) := t.buf[addr L t.nch chn i]?

/-- A write to one cell of a buffer. -/
def put (b : List (Option α)) (a : Nat) (x : Option α) : Option (List (Option α)) :=
  if a < b.length then some (b.set a x) else none

/-- `(*this)[{chn, i}] = x`, `setVal`, `view(chn, i) = x`. -/
def set (L : Nat) (t : TV N α) (chn i : Nat) (x : α) : Option (TV N α) := do
  let b ← put t.buf (addr L t.nch chn i) (some x)
  return { t with buf := b }

/-- `getPropertyOffset`; lines 528-535 (`none` is -1). -/
def getPropertyOffset [DecidableEq N] (nm : N) (cur : Nat) : List (N × Nat) → Option Nat
  | [] => none
  | t :: ts => if nm = t.1 then some cur else getPropertyOffset nm (cur + t.2) ts

/-- `getPropertySize`; lines 515-519. -/
def getPropertySize [DecidableEq N] (nm : N) : List (N × Nat) → Nat
  | [] => 0
  | t :: ts => if nm = t.1 then t.2 else getPropertySize nm ts

/-- `hasProperty`; lines 498-502. -/
def hasProperty [DecidableEq N] (nm : N) : List (N × Nat) → Bool
  | [] => false
  | t :: ts => if nm = t.1 then true else hasProperty nm ts

/-- `propertyIndex` of a view; lines 1210-1215. -/
def propertyIndex [DecidableEq N] (nm : N) : List N → Nat
  | [] => 0
  | n :: ns => if n = nm then 0 else propertyIndex nm ns + 1

/-- `view(propName, chn, i)`; lines 1259-1273. -/
def getNamed [DecidableEq N] (L : Nat) (t : TV N α) (nm : N) (chn i : Nat) : Option (Option α) := do
  let off ← t.offs[propertyIndex nm t.names]?
  get L t (off + chn) i

/-- `view(propName, chn, i) = x`; lines 1233-1254. -/
def setNamed [DecidableEq N] (L : Nat) (t : TV N α) (nm : N) (chn i : Nat) (x : α) :
    Option (TV N α) := do
  let off ← t.offs[propertyIndex nm t.names]?
  set L t (off + chn) i x

/-- Capacity after growth; Vector.hpp 276-280, 406-412. -/
def newCapacity (n cap al : Nat) : Nat :=
  let g := if n > cap + cap / 2 then n else cap + cap / 2
  let r := g % al
  g + (if r = 0 then 0 else al - r)

/-- `resize`; lines 477-482, with `Vector::alignedResize` (Vector.hpp 257-288). -/
def resize (L : Nat) (t : TV N α) (n : Nat) : Option (TV N α) :=
  let m := countTiles L n * L * t.nch
  let al := L * t.nch
  if m < t.bufSize then some { t with size := n, bufSize := m }
  else if m > t.bufSize then
    if m > t.buf.length then
      if al = 0 then none
      else
        let c := newCapacity m t.buf.length al
        some { t with
          size := n
          bufSize := m
          buf := t.buf.take t.bufSize ++ List.replicate (c - t.bufSize) none }
    else some { t with size := n, bufSize := m }
  else some { t with size := n }

/-- `TileVector(const TileVector &)`: the buffer is copied by the copy constructor of `Vector`
(`bufSize` cells) and then `numChannels() * capacity()` cells are copied again; lines 412-425.  Copy
assignment (426-431) assigns such a copy. -/
def copyOf (t : TV N α) : Option (TV N α) :=
  if t.nch = 0 then none
  else
    let capacity := t.buf.length / t.nch
    let b := t.buf.take t.bufSize ++ List.replicate (t.buf.length - t.bufSize) none
    if capacity > 0 then
      if t.nch * capacity ≤ t.buf.length then
        some { t with buf := t.buf.take (t.nch * capacity) ++ b.drop (t.nch * capacity) }
      else none
    else some { t with buf := b }

/-- `clone(allocator)`; lines 432-438. -/
def clone (L : Nat) (t : TV N α) : Option (TV N α) :=
  let r := ctor L t.tags t.size
  let n := t.nch * (countTiles L t.size * L)
  if n ≤ t.buf.length ∧ n ≤ r.buf.length then
    some { r with buf := t.buf.take n ++ r.buf.drop n }
  else none

/-- `clear`; line 476. -/
def clear (L : Nat) (t : TV N α) : TV N α := ctor L t.tags 0

/-- Writing the cells `ad k` with the values read by `rd k`, in the order of `ks`. -/
def writes {K : Type} (ks : List K) (rd : K → Option (Option α)) (ad : K → Nat)
    (b : List (Option α)) : Option (List (Option α)) :=
  ks.foldlM (fun b k => do
    let x ← rd k
    put b (ad k) x) b

/-- The cells `(chn, i)` visited by `for i in order, for chn = 0 .. nch - 1`. -/
def cells (order : List Nat) (nch : Nat) : List (Nat × Nat) :=
  order.flatMap fun i => (List.range nch).map fun c => (c, i)

/-- `reset(policy, val)`; lines 624-640. -/
def reset (L : Nat) (t : TV N α) (order : List Nat) (x : α) : Option (TV N α) := do
  let b ← writes (cells order t.nch) (fun _ => some (some x)) (fun k => addr L t.nch k.1 k.2) t.buf
  return { t with buf := b }

/-- The loop over `appendTags` of `append_channels`; lines 606-618.  State: `tags`, `modified`;
`none`: the exception is thrown. -/
def mergeTags [DecidableEq N] (st : List (N × Nat) × Bool) :
    List (N × Nat) → Option (List (N × Nat) × Bool)
  | [] => some st
  | tag :: rest =>
    match st.1.find? (fun t => t.1 = tag.1) with
    | none => mergeTags (st.1 ++ [tag], true) rest
    | some t => if t.2 ≠ tag.2 then none else mergeTags st rest

/-- `append_channels`, lines 598-623, with `TileVectorCopy` (583-597).  The flag of the result says that
an exception was thrown; `zero` is the value `0`. -/
def appendChannels [DecidableEq N] (L : Nat) (zero : α) (t : TV N α) (order : List Nat)
    (add : List (N × Nat)) : Option (TV N α × Bool) :=
  match mergeTags (t.tags, false) add with
  | none => some (t, true)
  | some (tags, modified) =>
    if modified = false then some (t, false)
    else do
      let tmp : TV N α := ctor L tags t.size
      let b ← writes (cells order tmp.nch)
        (fun k => if k.1 < t.nch then get L t k.1 k.2 else some (some zero))
        (fun k => addr L tmp.nch k.1 k.2) tmp.buf
      return ({ tmp with buf := b }, false)

/-- `reorderTiles`, lines 667-691, with `TileVectorTileReorder` (641-666).  The flag of the result says
that an exception was thrown. -/
def reorderTiles (L : Nat) (scatter : Bool) (t : TV N α) (order : List Nat) (map : List Nat) :
    Option (TV N α × Bool) :=
  let sz := countTiles L t.size
  if map.length ≠ sz then some (t, true)
  else do
    let o : TV N α := ctor L t.tags t.size
    let b ← writes (cells order t.nch)
      (fun k => do
        let j ← map[k.2 / L]?
        t.buf[tileAddr L t.nch k.1 (if scatter then k.2 / L else j) (k.2 % L)]?)
      (fun k => tileAddr L o.nch k.1
        (if scatter then (map[k.2 / L]?).getD 0 else k.2 / L) (k.2 % L)) o.buf
    return ({ o with buf := b }, false)

/-- Calls of a client on a `TileVector`; `copy` and `clone` continue with the new object. -/
inductive Op (N α : Type)
  | set (chn i : Nat) (x : α)
  | setNamed (nm : N) (chn i : Nat) (x : α)
  | resize (n : Nat)
  | reset (order : List Nat) (x : α)
  | clear
  | copy
  | clone
  | append (order : List Nat) (add : List (N × Nat))
  | reorder (scatter : Bool) (order map : List Nat)

def step [DecidableEq N] (L : Nat) (zero : α) (t : TV N α) : Op N α → Option (TV N α)
  | .set c i x => set L t c i x
  | .setNamed nm c i x => setNamed L t nm c i x
  | .resize n => resize L t n
  | .reset order x => reset L t order x
  | .clear => some (clear L t)
  | .copy => copyOf t
  | .clone => clone L t
  | .append order add => (appendChannels L zero t order add).map (·.1)
  | .reorder sc order map => (reorderTiles L sc t order map).map (·.1)

end Verif.TileVector
