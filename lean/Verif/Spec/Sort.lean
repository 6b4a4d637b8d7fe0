/-! Specification of stable sorting. -/
namespace Verif.Sort

/-- `out[0..n)` is the stable sort of `inp[0..n)` by the order `lt`: there is a permutation `pos` of
the positions, the element at position `i` moves to position `pos i`, and it ends up before the
element from position `j` exactly if it is smaller, or neither is smaller and `i` comes first. -/
def StableSort {α : Type} (n : Nat) (lt : α → α → Prop) (inp out : Nat → α) : Prop :=
  ∃ pos : Nat → Nat,
    (∀ i, i < n → pos i < n) ∧
    (∀ k, k < n → ∃ i, i < n ∧ pos i = k) ∧
    (∀ i, i < n → out (pos i) = inp i) ∧
    (∀ i j, i < n → j < n →
      (pos i < pos j ↔ lt (inp i) (inp j) ∨ (¬ lt (inp j) (inp i) ∧ i < j)))

/-- The strict weak orders, the comparisons for which the C++ standard defines sorting. -/
structure StrictWeak {α : Type} (lt : α → α → Bool) : Prop where
  irrefl : ∀ x, lt x x = false
  trans : ∀ x y z, lt x y = true → lt y z = true → lt x z = true
  incomp : ∀ x y z, lt x z = true → lt x y = true ∨ lt y z = true

/-- `out[0..n)` is a permutation of `inp[0..n)`. -/
def Permuted {α : Type} (n : Nat) (inp out : Nat → α) : Prop :=
  ∃ pos : Nat → Nat,
    (∀ i, i < n → pos i < n) ∧ (∀ k, k < n → ∃ i, i < n ∧ pos i = k) ∧
    (∀ i, i < n → out (pos i) = inp i)

/-- `out[0..n)` is in order. -/
def Ordered {α : Type} (n : Nat) (lt : α → α → Bool) (out : Nat → α) : Prop :=
  ∀ i j, i < j → j < n → lt (out j) (out i) = false

/-- What `std::sort(first + l, first + r, lt)` provides; `srt f l r` is the array afterwards. -/
structure SortsSegments {α : Type} (lt : α → α → Bool) (srt : (Nat → α) → Nat → Nat → Nat → α) : Prop where
  /-- the new content of `[l, r)` depends only on the old one -/
  dep : ∀ f g l r, (∀ i, l ≤ i → i < r → f i = g i) → ∀ i, l ≤ i → i < r → srt f l r i = srt g l r i
  /-- it is a permutation of the old one -/
  perm : ∀ f l r, ∃ pos : Nat → Nat,
    (∀ i, l ≤ i → i < r → l ≤ pos i ∧ pos i < r) ∧
    (∀ k, l ≤ k → k < r → ∃ i, l ≤ i ∧ i < r ∧ pos i = k) ∧
    (∀ i, l ≤ i → i < r → srt f l r (pos i) = f i)
  /-- it is in order -/
  ord : ∀ f l r i j, l ≤ i → i < j → j < r → lt (srt f l r j) (srt f l r i) = false

end Verif.Sort

namespace Verif.Radix

/-- The key as a number of `w` bits in the numeric order of its type: signed keys are shifted by
`2^(w-1)` so that the smallest one becomes zero. -/
def keyNum {w : Nat} (signed : Bool) (k : BitVec w) : Nat :=
  if signed then (k.toInt + 2 ^ (w - 1)).toNat else k.toNat

/-- Bits `sbit .. ebit-1` of the key. -/
def selBits {w : Nat} (signed : Bool) (sbit ebit : Nat) (k : BitVec w) : Nat :=
  keyNum signed k / 2 ^ sbit % 2 ^ (ebit - sbit)

end Verif.Radix
