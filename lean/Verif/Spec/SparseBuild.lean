import Verif.Model.SparseBuild
/-! What a sparse matrix built from triplets should hold. -/
namespace Verif.Sparse

variable {V : Type}

/-- The sum of two values: the sum of all components. -/
def Adder.add (s : Adder V) (x a : V) : V := (List.range s.parts).foldl (fun x d => s.addPart d x a) x

/-- Additions to the components can be exchanged. -/
def Adder.Commutes (s : Adder V) : Prop := ∀ d e x a b, s.addPart d (s.addPart e x a) b = s.addPart e (s.addPart d x b) a

/-- The values of the triplets for `(i, j)`, in the order of the triplets. -/
def given (is js : List Nat) (vs : List V) (i j : Nat) : List V :=
  (((is.zip js).zip vs).filter (fun t => t.1 = (i, j))).map (·.2)

/-- Their sum, if there is any. -/
def sumOf (s : Adder V) (is js : List Nat) (vs : List V) (i j : Nat) : Option V :=
  if (given is js vs i j).isEmpty then none else some ((given is js vs i j).foldl s.add s.zero)

/-- The given entries, and their mirror images. -/
def Wanted (mirror : Bool) (keys : List (Nat × Nat)) (e : Nat × Nat) : Prop :=
  e ∈ keys ∨ (mirror = true ∧ (e.2, e.1) ∈ keys)

instance (mirror : Bool) (keys : List (Nat × Nat)) : DecidablePred (Wanted mirror keys) :=
  fun _ => inferInstanceAs (Decidable (_ ∨ _))

/-- A matrix without its values. -/
def Mat.topo (m : Mat V) : Mat Unit := { rows := m.rows, cols := m.cols, ptrs := m.ptrs, inds := m.inds, vals := m.inds.map fun _ => () }

/-- The partial matrix that is defined for the entries in `S`. -/
def pattern (S : Nat × Nat → Prop) [DecidablePred S] (i j : Nat) : Option Unit := if S (i, j) then some () else none

end Verif.Sparse
