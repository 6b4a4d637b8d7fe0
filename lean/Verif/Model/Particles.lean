import Mathlib.Algebra.Field.Defs

/-!
Model of `Particles`, `include/zensim/geometry/Structurefree.hpp`.

An attribute is a list of elements, an element the list of its components.  `none` is an exception or an access outside of an array; what a function changed before an exception is left out.  The order of
`std::map` is left out, as nothing but this depends on it.  `resize`, lines 213-215, passes an entry of the map to `match` where a variant is needed and does not compile when used.
-/
namespace Verif.Particles

variable {K : Type} [Field K]

/-- `attrib_e`, `types/Property.h` line 89. -/
inductive Kind
  | scalar | vector | matrix | affine
  deriving DecidableEq

/-- Lines 24-30: the number of components. -/
def Kind.comps (d : Nat) : Kind → Nat
  | .scalar => 1
  | .vector => d
  | .matrix => d * d
  | .affine => (d + 1) * (d + 1)

structure Attr (K : Type) where
  kind : Kind
  vals : List (List K)

/-- Line 223. -/
abbrev Particles (K : Type) := List (String × Attr K)

/-- Lines 108-115. -/
def tryGet (p : Particles K) (name : String) : Option (Attr K) := p.lookup name

/-- Assignment to an entry of the map. -/
def put (p : Particles K) (name : String) (a : Attr K) : Particles K :=
  if (p.lookup name).isSome then p.map fun e => if e.1 = name then (name, a) else e else p ++ [(name, a)]

/-- Lines 66-69, with what is in the memory. -/
def make (count : Nat) (junk : Nat → List K) : Particles K := [("x", ⟨.vector, (List.range count).map junk⟩)]

/-- Lines 123-126. -/
def attr (p : Particles K) (name : String) : Option (Attr K) := tryGet p name

/-- Lines 127-132 and, for fixed kinds, 133-156: `std::get` throws for another kind. -/
def attrOf (p : Particles K) (kind : Kind) (name : String) : Option (List (List K)) := (attr p name).bind fun a => if a.kind = kind then some a.vals else none

/-- Lines 59-61. -/
def size (p : Particles K) : Option Nat := (attr p "x").map fun a => a.vals.length

/-- Lines 116-121. -/
def hasAttr (p : Particles K) (name : String) (checkEmpty : Bool) : Bool :=
  match tryGet p name with
  | some a => !checkEmpty || decide (a.vals.length > 0)
  | none => false

/-- Lines 171-192. -/
def addAttr (p : Particles K) (name : String) (kind : Kind) (junk : Nat → List K) : Option (Particles K) :=
  match tryGet p name with
  | some a => if a.kind = kind then some p else (size p).map fun n => put p name ⟨kind, (List.range n).map junk⟩
  | none => (size p).map fun n => put p name ⟨kind, (List.range n).map junk⟩

/-- One attribute of lines 196-210. -/
def appendOne (p : Particles K) (e : String × Attr K) : Option (Particles K) :=
  match tryGet p e.1 with
  | some a => if a.kind = e.2.kind then some (put p e.1 ⟨a.kind, a.vals ++ e.2.vals⟩) else none
  | none => some (put p e.1 e.2)

/-- Lines 194-211, of two different objects. -/
def append (p other : Particles K) : Option (Particles K) := other.foldlM appendOne p

/-- Lines 75-83. -/
def retrievePositions (p : Particles K) : Option (List (List K)) := attrOf p .vector "x"

/-- Lines 94-95. -/
def detRow (v : List K) : Option K := do
  some ((← v[0]?) * ((← v[4]?) * (← v[8]?) - (← v[5]?) * (← v[7]?)) - (← v[1]?) * ((← v[3]?) * (← v[8]?) - (← v[5]?) * (← v[6]?)) + (← v[2]?) * ((← v[3]?) * (← v[7]?) - (← v[4]?) * (← v[6]?)))

/-- Lines 84-103; `junk` is what is in the new arrays. -/
def retrieveStressMagnitude (p : Particles K) (junk : Nat → List K) : Option (List K) :=
  (attrOf p .vector "x").bind fun X =>
  if hasAttr p "F" true then
    (attrOf p .matrix "F").bind fun F =>
    if F.length ≤ X.length then ((List.range X.length).map fun i => if i < F.length then F.getD i [] else junk i).mapM detRow else none
  else if hasAttr p "J" true then
    (attrOf p .matrix "F").bind fun J => if J.length = 0 then some (X.map fun _ => 0) else none
  else some (X.map fun _ => 0)

end Verif.Particles
