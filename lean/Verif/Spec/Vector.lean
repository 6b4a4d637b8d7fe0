import Verif.Model.Vector
/-!
Specification of `Vector`: every living object is a list of cells, `none` standing for an unspecified
value.
-/
namespace Verif.Vector

variable {α : Type}

/-- Abstract state: the contents of every living object. -/
abbrev Abs (α : Type) := Nat → Option (List (Option α))

/-- Abstract `resize`. -/
def specResize (l : List (Option α)) (n : Nat) (x : Option α) : List (Option α) :=
  l.take n ++ List.replicate (n - l.length) x

/-- Abstract effect of a call; `none`: the call is outside its documented domain (dead object, object
already alive, index out of range, mapping out of range). -/
def specStep (a : Abs α) : Op α → Option (Abs α)
  | .ctor i n => if a i = none then some (upd a i (some (List.replicate n none))) else none
  | .dtor i => (a i).map fun _ => upd a i none
  | .copyCtor i j | .clone i j => if a i = none then (a j).map fun l => upd a i (some l) else none
  | .copyAssign i j => (a i).bind fun _ => (a j).map fun l => upd a i (some l)
  | .moveCtor i j =>
    if a i = none then (a j).map fun l => upd (upd a j (some [])) i (some l) else none
  | .moveAssign i j =>
    (a i).bind fun _ => (a j).map fun l => if i = j then a else upd (upd a j (some [])) i (some l)
  | .swap i j => (a i).bind fun l => (a j).map fun l' => upd (upd a i (some l')) j (some l)
  | .resize i n al ch => if al = 0 then none else (a i).map fun l => upd a i (some (specResize l n ch))
  | .push i x => (a i).map fun l => upd a i (some (l ++ [some x]))
  | .pushOwn i k => (a i).bind fun l => l[k]?.map fun x => upd a i (some (l ++ [x]))
  | .append i j => (a i).bind fun l => (a j).map fun l' => upd a i (some (l ++ l'))
  | .set i k x => (a i).bind fun l => if k < l.length then some (upd a i (some (l.set k (some x)))) else none
  | .reorder i m => (a i).bind fun l =>
      if ∀ k, k < l.length → m k < l.length then
        some (upd a i (some ((List.range l.length).map fun k => (l[m k]?).getD none)))
      else none

/-- The cells a client can see agree with the specification: same length, and every specified value is
stored. -/
def Shows (cells : List (Option α)) (l : List (Option α)) : Prop :=
  cells.length = l.length ∧ ∀ (k : Nat) (x : α), l[k]? = some (some x) → cells[k]? = some (some x)

/-- What a client observes of object `i`: `none` if it is not alive, otherwise
`(*this)[0], ..., (*this)[size() - 1]`. -/
def observed (s : St α) (i : Nat) : Option (List (Option α)) :=
  (s.obj i).map fun v => (List.range v.size).map fun k => (load v.base k s).getD none

/-- Every living object shows its abstract contents, no more and no fewer objects are alive, and
`size() <= capacity()`. -/
def Refines (s : St α) (a : Abs α) : Prop :=
  ∀ i, match s.obj i, observed s i, a i with
    | some v, some cells, some l => Shows cells l ∧ v.size ≤ v.cap
    | none, none, none => True
    | _, _, _ => False

/-- Calls that the code handles: everything except passing a reference to an own element when
`size() == capacity()`, and `reorder` when `size() != capacity()`. -/
def Handled (s : St α) : Op α → Prop
  | .pushOwn i _ => ∀ v, s.obj i = some v → v.size < v.cap
  | .reorder i _ => ∀ v, s.obj i = some v → v.size = v.cap
  | _ => True

/-- The concrete and abstract states after a history of calls, each within its documented domain and
handled. -/
inductive Reach : St α → Abs α → Prop
  | init : Reach init (fun _ => none)
  | call (op : Op α) (s s' : St α) (a a' : Abs α) : Reach s a → Handled s op →
      specStep a op = some a' → step s op = some s' → Reach s' a'

end Verif.Vector
