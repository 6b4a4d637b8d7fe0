import Verif.Model.LevelSetDomain

/-! Level sets as finite maps from keys to blocks. -/
namespace Verif.LevelSetDomain

open Buckets

variable {K : Type} [Field K] [LinearOrder K]

/-- The keys are different, and a query gives their position. -/
def Table.WF (t : Table) : Prop := t.keys.Nodup ∧ ∀ k i, t.find k = some i ↔ t.keys[i]? = some k

/-- The block of a key. -/
def Ls.block (ls : Ls K) (k : Key 3) : Option (Nat → Nat → K) := (ls.table.find k).map ls.data

/-- A cell with a value that matters: a distance below the background, or another value that is not zero, both up to the threshold. -/
def Active (props : List Prop') (background threshold : K) (v : Nat → K) : Prop :=
  ∃ p ∈ props, ∃ chn < p.size, (p.name = "sdf" ∧ v (p.offset + chn) < background + threshold) ∨ (p.name ≠ "sdf" ∧ p.name ≠ "mark" ∧ threshold < |v (p.offset + chn)|)

end Verif.LevelSetDomain
