import Verif.Model.RBTree

/-!
What `RBTreeMap` is to do, in terms of an abstract finite map `K → Option V`, and client programs
that use its interface.
-/
namespace Verif.RBTree

section
variable {K V : Type} [LinearOrder K]

/-- The operations that change the map.  `eraseFrom k` is `erase(lower_bound(k))` and
`eraseBetween lo hi` is `erase(lower_bound(lo), lower_bound(hi))`. -/
inductive Op (K V : Type) where
  | insert (k : K) (v : V)
  | assign (k : K) (v : V)
  | touch (k : K)
  | erase (k : K)
  | eraseFrom (k : K)
  | eraseBetween (lo hi : K)
  | clear

/-- The operations on the map under test; `assign` is `m[k] = v`, `touch` is `m[k]`. -/
def exec [Inhabited V] : Op K V → M K V Unit
  | .insert k v => insert k v
  | .assign k v => assign k v
  | .touch k => do let _ ← getOrDefault k
  | .erase k => do let _ ← erase k
  | .eraseFrom k => do
    let p ← lowerBound k
    let _ ← eraseAt p
  | .eraseBetween lo hi => do
    let p ← lowerBound lo
    let q ← lowerBound hi
    let _ ← eraseRange p q
  | .clear => clear

/-- A range of iterators has to be in order. -/
def Op.Legal : Op K V → Prop
  | .eraseBetween lo hi => lo ≤ hi
  | _ => True

/-- The operations on the abstract map. -/
noncomputable def Op.apply [Inhabited V] (d : K → Option V) : Op K V → K → Option V
  | .insert k v => fun x => if x = k then some v else d x
  | .assign k v => fun x => if x = k then some v else d x
  | .touch k => fun x => if x = k then some ((d k).getD default) else d x
  | .erase k => fun x => if x = k then none else d x
  | .eraseFrom k => open Classical in fun x =>
      if k ≤ x ∧ ∀ y, k ≤ y → d y ≠ none → x ≤ y then none else d x
  | .eraseBetween lo hi => fun x => if lo ≤ x ∧ x < hi then none else d x
  | .clear => fun _ => none

/-- A history of operations, none of which is undefined. -/
def execAll [Inhabited V] : List (Op K V) → M K V Unit
  | [] => pure ()
  | op :: ops => do
    exec op
    execAll ops

noncomputable def applyAll [Inhabited V] (d : K → Option V) : List (Op K V) → K → Option V
  | [] => d
  | op :: ops => applyAll (op.apply d) ops

/-- `s` is the state after a history that makes the abstract map `d`. -/
def Reached [Inhabited K] [Inhabited V] (s : St K V) (d : K → Option V) : Prop :=
  ∃ ops, (∀ op ∈ ops, op.Legal) ∧ execAll ops construct = some ((), s) ∧ d = applyAll (fun _ => none) ops

/-- `l` lists the abstract map in ascending order. -/
def Lists (d : K → Option V) (l : List (K × V)) : Prop :=
  l.Pairwise (fun a b => a.1 < b.1) ∧ ∀ k v, (k, v) ∈ l ↔ d k = some v

end

section
variable {K V : Type}

/-- `for (; it != end(); ++it)`, noting where the iterator stands and what it shows. -/
def walk : Nat → Nat → M K V (List (Nat × K × V))
  | 0, _ => fun _ => none
  | fuel + 1, p => do
    let e ← endIt
    if p = e then return []
    else
      let x ← deref p
      let q ← increment p
      let rest ← walk fuel q
      return (p, x) :: rest

/-- The same with the reverse iterator. -/
def rwalk : Nat → Nat → M K V (List (Nat × K × V))
  | 0, _ => fun _ => none
  | fuel + 1, p => do
    let e ← endIt
    if p = e then return []
    else
      let x ← deref p
      let q ← rincrement p
      let rest ← rwalk fuel q
      return (p, x) :: rest

/-- `n` steps of a loop from `begin()`. -/
def iterate (n : Nat) : M K V (List (Nat × K × V)) := do
  let p ← begin
  walk n p

def riterate (n : Nat) : M K V (List (Nat × K × V)) := do
  let p ← rbegin
  rwalk n p

/-- The subtree at `p` satisfies the rules of red-black trees with `b` black nodes on each path. -/
inductive Balanced (heap : Nat → Option (Node K V)) : Nat → Bool → Nat → Prop
  | null : Balanced heap 0 false 0
  | red {p n b} : heap p = some n → n.red = true → Balanced heap n.left false b → Balanced heap n.right false b →
      Balanced heap p true b
  | black {p n b c d} : heap p = some n → n.red = false → Balanced heap n.left c b → Balanced heap n.right d b →
      Balanced heap p false (b + 1)

end

end Verif.RBTree
