import Verif.Model.Owner

/-!
What owners should do: each is an optional value.
-/
namespace Verif.Owner

/-- The owners: `none` if it does not exist any more, `some none` if it is empty, `some (some v)` if it holds `v`. -/
abbrev Abs (V : Type) := List (Option (Option V))

variable {V : Type}

/-- The value a parameter refers to. -/
def Abs.arg (a : Abs V) : Src V → Option V
  | .ext v => some v
  | .elem j => (a[j]?.bind id).bind id

/-- Moving from a value leaves `moved v`. -/
def Abs.moveFrom (t : Ty V) (a : Abs V) : Src V → Abs V
  | .ext _ => a
  | .elem j => a.modify j (Option.map (Option.map t.moved))

/-- `src` put into owner `i`; the source is left first, so that an owner assigned from its own value keeps it. -/
def Abs.put (t : Ty V) (a : Abs V) (move : Bool) (i : Nat) (src : Src V) : Abs V :=
  match a.arg src with
  | some v => (if move then a.moveFrom t src else a).set i (some (some v))
  | none => a

/-- An operation that does not throw. -/
def Abs.step (c : Cls) (t : Ty V) (a : Abs V) : Op V → Abs V
  | .mkDefault _ => a ++ [some (if c.default then some t.init else none)]
  | .mkFrom move src _ => Abs.put t (a ++ [some none]) move a.length src
  | .mkMove j _ => Abs.put t (a ++ [some none]) true a.length (.elem j)
  | .mkCopy j => a ++ [a[j]?.bind id]
  | .assign move i src _ => Abs.put t a move i src
  | .moveOwner i j _ => if i = j then a else if a.arg (.elem j) = none then a.set i (some none) else Abs.put t a true i (.elem j)
  | .copyOwner i j => a.set i (a[j]?.bind id)
  | .reset i => a.set i (some none)
  | .drop i => a.set i none

/-- Whether the operation throws (if its argument exists; empty owners construct nothing). -/
def Abs.throws (c : Cls) (a : Abs V) : Op V → Bool
  | .mkDefault th => c.default && th
  | .mkFrom _ _ th => th
  | .mkMove j th => (a.arg (.elem j)).isSome && th
  | .assign _ _ _ th => th
  | .moveOwner i j th => i != j && (a.arg (.elem j)).isSome && th
  | _ => false

/-- A throwing constructor leaves no owner; any other operation leaves everything as it was. -/
def Abs.next (c : Cls) (t : Ty V) (a : Abs V) (op : Op V) : Abs V :=
  if a.throws c op then
    match op with
    | .mkDefault _ | .mkFrom _ _ _ | .mkMove _ _ => a ++ [none]
    | _ => a
  else a.step c t op

/-- Owner `i` exists. -/
def Abs.Exists (a : Abs V) (i : Nat) : Prop := (a[i]?.bind id).isSome

/-- The calls a program may make: owners that exist, arguments that refer to objects. -/
def Abs.Allowed (c : Cls) (a : Abs V) : Op V → Prop
  | .mkDefault _ => True
  | .mkFrom _ src _ => (a.arg src).isSome
  | .mkMove j _ => a.Exists j
  | .mkCopy j => a.Exists j
  | .assign move i src _ => a.Exists i ∧ (a.arg src).isSome ∧ (c.default = true → (if move then c.moveAssign else c.copyAssign) = true)
  | .moveOwner i j _ => a.Exists i ∧ a.Exists j ∧ (c.default = true → c.moveAssign = true)
  | .copyOwner i j => a.Exists i ∧ a.Exists j
  | .reset i => c.default = false ∧ a.Exists i
  | .drop i => a.Exists i

end Verif.Owner
