import Verif.Model.Bvtt

/-! What a front holds. -/
namespace Verif.Bvtt

/-- The pair number `i`. -/
def Front.entry (f : Front) (i : Nat) : Nat × Nat := (f.prims.getD i 0, f.nodes.getD i 0)

/-- The pairs, if the front has room for all. -/
def Front.entries (f : Front) : List (Nat × Nat) := (List.range f.cnt).map f.entry

/-- A front whose vectors have the same capacity, with room for the size. -/
def WF (f : Front) : Prop := f.prims.length = f.nodes.length ∧ f.size ≤ f.prims.length

/-- All pairs are stored, and their nodes exist. -/
def Full (f : Front) : Prop := f.cnt ≤ f.prims.length ∧ ∀ e ∈ f.entries, e.2 < f.numNodes

end Verif.Bvtt
