import Verif.Proof.Bht

/-! A `bht` in which no call is running. -/
namespace Verif.Bht

variable {K : Type}

/-- Each key is in the first bucket that had room when it was inserted; each slot has the number of its key in the list of keys, and
each listed key has a slot. -/
structure Sound (c : Cfg K) (s : St K) : Prop where
  placed : ∀ a, s.keys a ≠ c.hole → c.nb ≠ 0 ∧ ∃ i l, i < 3 ∧ l ≤ c.threshold ∧ a = c.offset i (s.keys a) + l ∧
    Clear c s.keys (s.keys a) i l
  slot : ∀ a, s.keys a ≠ c.hole → s.indices a < s.cnt ∧ s.active (s.indices a) = s.keys a
  listed : ∀ i < s.cnt, s.active i ≠ c.hole ∧ ∃ a, s.keys a = s.active i ∧ s.indices a = i

/-- No call has begun. -/
def Idle (s : St K) : Prop := ∀ t, s.pc t = .start

end Verif.Bht
