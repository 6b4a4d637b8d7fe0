/-! Specification of scans: combinations of `x 0, x 1, ...` from left to right. -/
namespace Verif.Scan

/-- `x 0 op x 1 op ... op x i`, from the left. -/
def inclSpec {α : Type} (op : α → α → α) (x : Nat → α) : Nat → α
  | 0 => x 0
  | i + 1 => op (inclSpec op x i) (x (i + 1))

/-- `init op x 0 op ... op x (i-1)`, from the left. -/
def exclSpec {α : Type} (op : α → α → α) (init : α) (x : Nat → α) : Nat → α
  | 0 => init
  | i + 1 => op (exclSpec op init x i) (x i)

end Verif.Scan
