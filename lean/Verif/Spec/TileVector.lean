import Verif.Model.TileVector
/-!
Specification of `TileVector`: a table with named groups of columns (channels) and `size` rows;
the value `none` of an entry means unspecified.
-/
namespace Verif.TileVector

variable {N α : Type}

/-- Abstract state. -/
structure Table (N α : Type) where
  tags : List (N × Nat)
  size : Nat
  val : Nat → Nat → Option α

/-- Number of columns. -/
def Table.cols (a : Table N α) : Nat := (a.tags.map (·.2)).sum

/-- First column of the `p`-th property. -/
def firstCol (tags : List (N × Nat)) (p : Nat) : Nat := ((tags.take p).map (·.2)).sum

/-- The property called `nm` is the `p`-th one (the first one with that name); it has `sz` columns. -/
def IsProp (tags : List (N × Nat)) (nm : N) (p sz : Nat) : Prop :=
  tags[p]? = some (nm, sz) ∧ ∀ (q s : Nat), q < p → tags[q]? ≠ some (nm, s)

/-- An entry of `add` contradicts the first mention of its name in `tags ++ add`. -/
def Conflict (tags add : List (N × Nat)) : Prop :=
  ∃ nm p s s', (nm, s) ∈ add ∧ IsProp (tags ++ add) nm p s' ∧ s ≠ s'

/-- `tags` followed by the entries of `add` with new names, each at its first mention. -/
def merged [DecidableEq N] (tags add : List (N × Nat)) : List (N × Nat) :=
  add.foldl (fun ts e => if e.1 ∈ ts.map (·.1) then ts else ts ++ [e]) tags

/-- Number of tiles of `n` rows: the least number of groups of `L` rows that hold them. -/
def IsTiles (L n k : Nat) : Prop := n ≤ k * L ∧ ∀ k', n ≤ k' * L → k ≤ k'

/-- The effect of a call of the documented domain on the abstract state. -/
inductive Effect [DecidableEq N] (L : Nat) (zero : α) (a : Table N α) : Op N α → Table N α → Prop
  | set (c i : Nat) (x : α) : c < a.cols → i < a.size → Effect L zero a (.set c i x)
      { a with val := fun c' i' => if c' = c ∧ i' = i then some x else a.val c' i' }
  | setNamed (nm : N) (p sz c i : Nat) (x : α) : IsProp a.tags nm p sz → c < sz → i < a.size →
      Effect L zero a (.setNamed nm c i x)
      { a with val := fun c' i' =>
          if c' = firstCol a.tags p + c ∧ i' = i then some x else a.val c' i' }
  | resize (n : Nat) : Effect L zero a (.resize n)
      { a with size := n, val := fun c i => if i < a.size then a.val c i else none }
  | reset (order : List Nat) (x : α) : order.Perm (List.range a.size) →
      Effect L zero a (.reset order x) { a with val := fun _ _ => some x }
  | clear : Effect L zero a .clear { a with size := 0 }
  | copy : Effect L zero a .copy a
  | clone : Effect L zero a .clone a
  | append (order : List Nat) (add : List (N × Nat)) : order.Perm (List.range a.size) →
      ¬ Conflict a.tags add → Effect L zero a (.append order add)
      { a with
        tags := merged a.tags add
        val := fun c i => if c < a.cols then a.val c i else some zero }
  | appendRejected (order : List Nat) (add : List (N × Nat)) :
      Conflict a.tags add → Effect L zero a (.append order add) a
  | gather (order map : List Nat) : order.Perm (List.range (map.length * L)) →
      IsTiles L a.size map.length → (∀ j ∈ map, j < map.length) →
      Effect L zero a (.reorder false order map)
      { a with val := fun c i =>
          (map[i / L]?).bind fun j => if j * L + i % L < a.size then a.val c (j * L + i % L) else none }
  | scatter (order map : List Nat) (val : Nat → Nat → Option α) :
      order.Perm (List.range (map.length * L)) →
      IsTiles L a.size map.length → map.Perm (List.range map.length) →
      (∀ (k j c l : Nat), map[k]? = some j → l < L →
        val c (j * L + l) = if k * L + l < a.size then a.val c (k * L + l) else none) →
      Effect L zero a (.reorder true order map) { a with val := val }
  | reorderRejected (sc : Bool) (order map : List Nat) : ¬ IsTiles L a.size map.length →
      Effect L zero a (.reorder sc order map) a

/-- What a client of the container can see of the abstract state. -/
structure Shows [DecidableEq N] (L : Nat) (t : TV N α) (a : Table N α) : Prop where
  size : t.size = a.size
  channels : t.nch = a.cols
  tags : t.tags = a.tags
  has : ∀ nm, hasProperty nm t.tags = true ↔ ∃ p sz, IsProp a.tags nm p sz
  missing : ∀ nm, (¬ ∃ p sz, IsProp a.tags nm p sz) → getPropertyOffset nm 0 t.tags = none
  prop : ∀ nm p sz, IsProp a.tags nm p sz →
    getPropertyOffset nm 0 t.tags = some (firstCol a.tags p) ∧ getPropertySize nm t.tags = sz ∧
    t.names[propertyIndex nm t.names]? = some nm ∧ t.sizes[propertyIndex nm t.names]? = some sz
  cell : ∀ c i, c < a.cols → i < a.size → ∃ y, get L t c i = some y ∧
    ∀ x, a.val c i = some x → y = some x
  named : ∀ nm p sz c i, IsProp a.tags nm p sz → c < sz → i < a.size →
    ∃ y, getNamed L t nm c i = some y ∧ ∀ x, a.val (firstCol a.tags p + c) i = some x → y = some x

/-- Calls the code handles: all but copying a container without channels. -/
def Handled (a : Table N α) : Op N α → Prop
  | .copy => a.cols ≠ 0
  | _ => True

/-- Concrete and abstract state after construction and a history of handled calls. -/
inductive Reach [DecidableEq N] (L : Nat) (zero : α) : TV N α → Table N α → Prop
  | ctor (tags : List (N × Nat)) (n : Nat) :
      Reach L zero (ctor L tags n) ⟨tags, n, fun _ _ => none⟩
  | call (op : Op N α) (t t' : TV N α) (a a' : Table N α) : Reach L zero t a → Handled a op →
      Effect L zero a op a' → step L zero t op = some t' → Reach L zero t' a'

end Verif.TileVector
