/-!
Model of `Owner<Type>`, `include/zensim/ZpcImplPattern.hpp` lines 515-721, with the default `InplaceStorage` (lines 484-508).

An operation acts on a list of owners.  The outcome `none` is undefined behaviour: destroying, reading or assigning an object that does not
exist.  Objects that are overwritten or given up without being destroyed are counted (`leaks`).

The constructors from `const Owner&` and `Owner&&` and the assignments from them are templates.  A template is never a copy or move
constructor or assignment, so the compiler also declares the copy constructor and the copy assignment, which copy the members, and prefers them
to the templates with the same parameter (`const Owner&`); move constructor and move assignment are not declared because there is a destructor,
so that a call with an rvalue uses the templates for `Owner&&`.
-/
namespace Verif.Owner

/-- What the class looks at, and whether objects of `Type` may be copied bytewise. -/
structure Cls where
  /-- `is_default_constructible_v`: the specialisation in lines 664-721 is used, otherwise the class in lines 515-662. -/
  default : Bool
  copyAssign : Bool
  moveAssign : Bool
  trivial : Bool

/-- The buffer: no object; an object; the bytes of an object, copied without constructing one. -/
inductive Mem (V : Type)
  | raw
  | live (v : V)
  | copied (v : V)
deriving DecidableEq

/-- `_storage` and `_active`; the specialisation has no `_active`, here it is true. -/
structure Own (V : Type) where
  mem : Mem V
  active : Bool
deriving DecidableEq

/-- All owners, in the order of their construction; `none` after the end of the lifetime. -/
structure World (V : Type) where
  owners : List (Option (Own V))
  leaks : Nat
deriving DecidableEq

/-- The object a parameter `Type&&` or `const Type&` refers to: an object elsewhere, or that of an owner. -/
inductive Src (V : Type)
  | ext (v : V)
  | elem (j : Nat)
deriving DecidableEq

/-- The value an object has after it was moved from, and the value of a new object. -/
structure Ty (V : Type) where
  moved : V → V
  init : V

variable {V : Type} (c : Cls) (t : Ty V)

/-- The outcome of an operation without undefined behaviour: whether it threw, and the state. -/
abbrev Res (V : Type) := Bool × World V

def World.get (w : World V) (i : Nat) : Option (Own V) := (w.owners[i]?).bind id

def World.set (w : World V) (i : Nat) (o : Option (Own V)) : World V := { w with owners := w.owners.set i o }

/-- The value of an object, by which it can be copied. -/
def Mem.read : Mem V → Option V
  | .live v => some v
  | _ => none

/-- 1 for an object that is given up. -/
def Mem.lost : Mem V → Nat
  | .live _ => 1
  | _ => 0

def Src.read (w : World V) : Src V → Option V
  | .ext v => some v
  | .elem j => (w.get j).bind (·.mem.read)

/-- The effect of moving from an object. -/
def Src.leave (w : World V) : Src V → World V
  | .ext _ => w
  | .elem j => match w.get j with
    | some o => w.set j (some { o with mem := match o.mem with | .live v => .live (t.moved v) | m => m })
    | none => w

/-- `_storage.destroy<Type>()`, line 496. -/
def destroy (w : World V) (i : Nat) : Option (World V) :=
  (w.get i).bind fun o => match o.mem with
    | .live _ => some (w.set i (some { o with mem := .raw }))
    | _ => none

/-- `_storage.create<Type>(v)`, lines 489-495, in owner `i`, followed by `_active = true`. -/
def create (w : World V) (i : Nat) (v : V) : Option (World V) :=
  (w.get i).map fun o => { w.set i (some ⟨.live v, true⟩) with leaks := w.leaks + o.mem.lost }

/-- `get() = obj`, where the object gets the value `v`. -/
def store (w : World V) (i : Nat) (v : V) : Option (World V) :=
  (w.get i).bind fun o => match o.mem with
    | .live _ => some (w.set i (some { o with mem := .live v }))
    | _ => none

/-- Copying or moving `src` into owner `i`: by `create` or by `store`.  If it throws nothing happens. -/
def put (move : Bool) (byCreate : Bool) (w : World V) (i : Nat) (src : Src V) (throws : Bool) : Option (Res V) :=
  (src.read w).bind fun v =>
    if throws then
      -- constructing and assigning need the objects all the same
      if byCreate then some (true, w) else (store w i v).map fun _ => (true, w)
    else
      let w' := if move then src.leave t w else w
      (if byCreate then create w' i v else store w' i v).map fun w => (false, w)

/-- `operator=(const Type&)`, lines 573-595 and 689-693, and `operator=(Type&&)`, lines 596-618 and 694-698. -/
def assign (move : Bool) (w : World V) (i : Nat) (src : Src V) (throws : Bool) : Option (Res V) :=
  (w.get i).bind fun o =>
    if c.default then put t move false w i src throws
    else if (if move then c.moveAssign else c.copyAssign) then put t move (!o.active) w i src throws
    else (if o.active then destroy w i else some w).bind fun w => put t move true w i src throws

/-- A constructor that leaves an owner `o`, before the body. -/
def World.add (w : World V) (o : Own V) : World V := { w with owners := w.owners ++ [some o] }

/-- A constructor whose body may throw; then there is no owner. -/
def built (w : World V) (r : Option (Res V)) : Option (Res V) :=
  r.map fun p => if p.1 then (true, { p.2 with owners := w.owners ++ [none] }) else p

/-- `Owner()`, lines 541 and 671. -/
def mkDefault (w : World V) (throws : Bool) : Option (Res V) :=
  if c.default then built w (put t false true (w.add ⟨.raw, true⟩) w.owners.length (.ext t.init) throws)
  else some (false, w.add ⟨.raw, false⟩)

/-- `Owner(const Type&)`, lines 543-547 and 673-676, and `Owner(Type&&)`, lines 548-552 and 677-680. -/
def mkFrom (move : Bool) (w : World V) (src : Src V) (throws : Bool) : Option (Res V) :=
  built w (put t move true (w.add ⟨.raw, c.default⟩) w.owners.length src throws)

/-- `Owner(Owner&&)`, lines 554-558 and 682-683. -/
def mkMove (w : World V) (j : Nat) (throws : Bool) : Option (Res V) :=
  if c.default then mkFrom c t true w (.elem j) throws
  else (w.get j).bind fun o =>
    if o.active then built w (assign c t true (w.add ⟨.raw, false⟩) w.owners.length (.elem j) throws)
    else some (false, w.add ⟨.raw, false⟩)

/-- The bytes of a buffer; they are an object again if the type permits it. -/
def Mem.bytes : Mem V → Mem V
  | .live v => if c.trivial then .live v else .copied v
  | m => m

/-- The implicit copy constructor. -/
def mkCopy (w : World V) (j : Nat) : Option (Res V) := (w.get j).map fun o => (false, w.add ⟨o.mem.bytes c, o.active⟩)

/-- The implicit copy assignment. -/
def copyOwner (w : World V) (i j : Nat) : Option (Res V) :=
  (w.get i).bind fun oi => (w.get j).map fun o =>
    if i = j then (false, w)
    else (false, { w.set i (some ⟨o.mem.bytes c, o.active⟩) with leaks := w.leaks + if c.trivial then 0 else oi.mem.lost })

/-- `operator=(Owner&&)`, lines 635-652 and 706-711. -/
def moveOwner (w : World V) (i j : Nat) (throws : Bool) : Option (Res V) :=
  (w.get i).bind fun oi => (w.get j).bind fun o =>
    if i = j then some (false, w)
    else if c.default || o.active then assign c t true w i (.elem j) throws
    else (if oi.active then destroy w i else some w).bind fun w =>
      (w.get i).map fun oi => (false, w.set i (some { oi with active := false }))

/-- `reset()`, lines 565-570. -/
def reset (w : World V) (i : Nat) : Option (World V) :=
  (w.get i).bind fun o => if o.active then
    (destroy w i).bind fun w => (w.get i).map fun o => w.set i (some { o with active := false })
  else some w

/-- `~Owner()`, lines 571 and 687; then the storage is given up. -/
def drop (w : World V) (i : Nat) : Option (Res V) :=
  (if c.default then destroy w i else reset w i).bind fun w => (w.get i).map fun o =>
    (false, { w.set i none with leaks := w.leaks + o.mem.lost })

/-- `isActive()` and the conversion to `bool`, lines 659-660 and 718. -/
def isActive (w : World V) (i : Nat) : Option Bool := (w.get i).map (·.active)

/-- `get()`, lines 654-655 and 713-714, when the reference is used. -/
def value (w : World V) (i : Nat) : Option V := (w.get i).bind (·.mem.read)

inductive Op (V : Type)
  | mkDefault (throws : Bool)
  | mkFrom (move : Bool) (src : Src V) (throws : Bool)
  | mkMove (j : Nat) (throws : Bool)
  | mkCopy (j : Nat)
  | assign (move : Bool) (i : Nat) (src : Src V) (throws : Bool)
  | moveOwner (i j : Nat) (throws : Bool)
  | copyOwner (i j : Nat)
  | reset (i : Nat)
  | drop (i : Nat)

def step (w : World V) : Op V → Option (Res V)
  | .mkDefault th => mkDefault c t w th
  | .mkFrom m src th => mkFrom c t m w src th
  | .mkMove j th => mkMove c t w j th
  | .mkCopy j => mkCopy c w j
  | .assign m i src th => assign c t m w i src th
  | .moveOwner i j th => moveOwner c t w i j th
  | .copyOwner i j => copyOwner c w i j
  | .reset i => (reset w i).map fun w => (false, w)
  | .drop i => drop c w i

/-- A sequence of operations; exceptions are caught between them. -/
def run : World V → List (Op V) → Option (World V)
  | w, [] => some w
  | w, op :: ops => (step c t w op).bind fun r => run r.2 ops

def start : World V := ⟨[], 0⟩

end Verif.Owner
