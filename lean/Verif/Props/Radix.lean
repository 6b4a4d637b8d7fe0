import Verif.Proof.Radix
/-!
C24, C25: radix sort.  `RadixSort signed inPlace n sbit ebit s s'` holds for every run of the OpenMP
version, with any number of threads in every pass and any interleaving.
-/
namespace Verif.Radix
open Verif.Phase Verif.Sort

variable {w : Nat} {V : Type}

theorem bias_keyNum (signed : Bool) (hw : 0 < w) (k : BitVec w) (v : V) :
    ((Cell.elt k v).bias signed).key.toNat = keyNum signed k := by
  cases signed with
  | false => rfl
  | true =>
    have := bias_toNat k hw
    simp only [Cell.bias, Cell.key, keyNum, if_true]
    omega

/-- Cells to pairs. -/
theorem pairs_of_cells (signed : Bool) (n sbit ebit : Nat) (hw : 0 < w) (inp : Nat → BitVec w × V)
    (ci co : Nat → Cell w V) (hi : ∀ i, i < n → ci i = .elt (inp i).1 (inp i).2)
    (h : StableSort n (fun x y : Cell w V => field sbit (ebit - sbit) (x.bias signed).key.toNat <
        field sbit (ebit - sbit) (y.bias signed).key.toNat) ci co) :
    ∃ out : Nat → BitVec w × V, (∀ k, k < n → co k = .elt (out k).1 (out k).2) ∧
      StableSort n (fun x y => selBits signed sbit ebit x.1 < selBits signed sbit ebit y.1) inp out := by
  obtain ⟨p, p1, p2, p3, p4⟩ := h
  have hex : ∀ k, ∃ x : BitVec w × V, k < n → ∃ i, i < n ∧ p i = k ∧ x = inp i := by
    intro k
    by_cases hk : k < n
    · obtain ⟨i, hi', e⟩ := p2 k hk
      exact ⟨inp i, fun _ => ⟨i, hi', e, rfl⟩⟩
    · exact ⟨inp 0, fun h => absurd h hk⟩
  choose out hout using hex
  have inj : ∀ i j, i < n → j < n → p i = p j → i = j := by
    intro i j hi' hj e
    have h1 := p4 i j hi' hj
    have h2 := p4 j i hj hi'
    rw [e] at h1 h2
    omega
  have ho : ∀ i, i < n → out (p i) = inp i := by
    intro i hi'
    obtain ⟨j, hj, e, hx⟩ := hout (p i) (p1 i hi')
    rw [hx, inj j i hj hi' e]
  refine ⟨out, fun k hk => ?_, p, p1, p2, ho, fun i j hi' hj => ?_⟩
  · obtain ⟨i, hi', rfl⟩ := p2 k hk
    rw [ho i hi', p3 i hi', hi i hi']
  · rw [p4 i j hi' hj]
    have e : ∀ i, i < n → field sbit (ebit - sbit) ((ci i).bias signed).key.toNat =
        selBits signed sbit ebit (inp i).1 := by
      intro i hi'
      rw [hi i hi', bias_keyNum signed hw]; rfl
    dsimp only
    rw [e i hi', e j hj]

/-- C24: every run of the parallel radix sort leaves the stable sort of the input elements (keys
with their values) by the selected bits in the output, in place or not, for every number of threads
and schedule, and touches nothing else. -/
theorem radix_sort_stable (signed inPlace : Bool) (n sbit ebit : Nat) (hw : 0 < w) (he : ebit ≤ w)
    (inp : Nat → BitVec w × V) (s s' : Mem w V)
    (input : ∀ i, i < n → s (rd inPlace i) = .elt (inp i).1 (inp i).2)
    (run : RadixSort signed inPlace n sbit ebit s s') :
    ∃ out : Nat → BitVec w × V, (∀ k, k < n → s' (.out k) = .elt (out k).1 (out k).2) ∧
      StableSort n (fun x y => selBits signed sbit ebit x.1 < selBits signed sbit ebit y.1) inp out ∧
      (∀ i, s' (.inp i) = s (.inp i)) ∧ (∀ i, n ≤ i → s' (.out i) = s (.out i)) := by
  obtain ⟨h1, h2, h3⟩ := radix_stable signed inPlace n sbit ebit he s s' run
  obtain ⟨out, o1, o2⟩ := pairs_of_cells signed n sbit ebit hw inp _ _ input h1
  exact ⟨out, o1, o2, h2, h3⟩

/-- The parallel radix sort always has a run. -/
theorem radix_sort_has_run (signed inPlace : Bool) (n sbit ebit : Nat) (s : Mem w V) :
    ∃ s', RadixSort signed inPlace n sbit ebit s s' := radix_exists _ _ _ _ _ _

/-- C24, sequential policy. -/
theorem radix_sort_sequential_stable (signed inPlace : Bool) (n sbit ebit : Nat) (hw : 0 < w)
    (he : ebit ≤ w) (inp : Nat → BitVec w × V) (s : Mem w V)
    (input : ∀ i, i < n → s (rd inPlace i) = .elt (inp i).1 (inp i).2) :
    let s' := seqRadixSort signed inPlace n sbit ebit s
    ∃ out : Nat → BitVec w × V, (∀ k, k < n → s' (.out k) = .elt (out k).1 (out k).2) ∧
      StableSort n (fun x y => selBits signed sbit ebit x.1 < selBits signed sbit ebit y.1) inp out ∧
      (∀ i, s' (.inp i) = s (.inp i)) ∧ (∀ i, n ≤ i → s' (.out i) = s (.out i)) := by
  obtain ⟨h1, h2, h3⟩ := seqRadix_stable signed inPlace n sbit ebit he s
  obtain ⟨out, o1, o2⟩ := pairs_of_cells signed n sbit ebit hw inp _ _ input h1
  exact ⟨out, o1, o2, h2, h3⟩

/-- C24: any two runs, whatever the numbers of threads, and the sequential version give the same
output. -/
theorem radix_sort_deterministic (signed inPlace : Bool) (n sbit ebit : Nat) (he : ebit ≤ w)
    (s s1 s2 : Mem w V) (run1 : RadixSort signed inPlace n sbit ebit s s1)
    (run2 : RadixSort signed inPlace n sbit ebit s s2) :
    ∀ k, s1 (.out k) = s2 (.out k) ∧ s1 (.out k) = seqRadixSort signed inPlace n sbit ebit s (.out k) := by
  obtain ⟨a1, _, a3⟩ := radix_stable signed inPlace n sbit ebit he s s1 run1
  obtain ⟨b1, _, b3⟩ := radix_stable signed inPlace n sbit ebit he s s2 run2
  obtain ⟨c1, _, c3⟩ := seqRadix_stable signed inPlace n sbit ebit he s
  intro k
  by_cases hk : k < n
  · exact ⟨a1.unique b1 k hk, a1.unique c1 k hk⟩
  · exact ⟨by rw [a3 k (by omega), b3 k (by omega)], by rw [a3 k (by omega), c3 k (by omega)]⟩

theorem keyNum_lt (signed : Bool) (hw : 0 < w) (k : BitVec w) : keyNum signed k < 2 ^ w := by
  cases signed with
  | false => exact k.isLt
  | true =>
    have h := bias_toNat k hw
    have := (k ^^^ (1#w <<< (w - 1))).isLt
    simp only [keyNum, if_true]
    omega

/-- C25: with the full bit range, signed keys come out in ascending numeric order and stably. -/
theorem radix_sort_signed (inPlace : Bool) (n : Nat) (hw : 0 < w)
    (inp : Nat → BitVec w × V) (s s' : Mem w V)
    (input : ∀ i, i < n → s (rd inPlace i) = .elt (inp i).1 (inp i).2)
    (run : RadixSort true inPlace n 0 w s s') :
    ∃ out : Nat → BitVec w × V, (∀ k, k < n → s' (.out k) = .elt (out k).1 (out k).2) ∧
      StableSort n (fun x y => x.1.toInt < y.1.toInt) inp out ∧
      (∀ i j, i < j → j < n → (out i).1.toInt ≤ (out j).1.toInt) := by
  obtain ⟨out, h1, h2, _, _⟩ := radix_sort_stable true inPlace n 0 w hw (Nat.le_refl _) inp s s' input run
  have e : ∀ x y : BitVec w, selBits true 0 w x < selBits true 0 w y ↔ x.toInt < y.toInt := by
    intro x y
    unfold selBits
    rw [Nat.pow_zero, Nat.div_one, Nat.div_one, Nat.sub_zero, Nat.mod_eq_of_lt (keyNum_lt true hw x),
      Nat.mod_eq_of_lt (keyNum_lt true hw y)]
    have hx := bias_toNat x hw
    have hy := bias_toNat y hw
    simp only [keyNum, if_true]
    omega
  have h3 := StableSort.mono h2 (g := fun x y => x.1.toInt < y.1.toInt)
    (fun i j _ _ => e (inp i).1 (inp j).1)
  exact ⟨out, h1, h3, fun i j hij hj => by have := h3.sorted i j hij hj; omega⟩

/-- C25, sequential policy. -/
theorem radix_sort_signed_sequential (inPlace : Bool) (n : Nat) (hw : 0 < w)
    (inp : Nat → BitVec w × V) (s : Mem w V)
    (input : ∀ i, i < n → s (rd inPlace i) = .elt (inp i).1 (inp i).2) :
    ∃ out : Nat → BitVec w × V,
      (∀ k, k < n → seqRadixSort true inPlace n 0 w s (.out k) = .elt (out k).1 (out k).2) ∧
      StableSort n (fun x y => x.1.toInt < y.1.toInt) inp out := by
  obtain ⟨s', run⟩ := radix_sort_has_run true inPlace n 0 w s
  obtain ⟨out, h1, h2, _⟩ := radix_sort_signed inPlace n hw inp s s' input run
  refine ⟨out, fun k hk => ?_, h2⟩
  rw [← (radix_sort_deterministic true inPlace n 0 w (Nat.le_refl _) s s' s' run run k).2]
  exact h1 k hk

/-! A concrete case: keys `5, -1, 5, 2` of 8 bits with values `0, 1, 2, 3`, sorted in place. -/

def exInp : Nat → BitVec 8 × Nat
  | 0 => (5, 0)
  | 1 => (-1, 1)
  | 2 => (5, 2)
  | _ => (2, 3)

def exMem : Mem 8 Nat
  | .out i => .elt (exInp i).1 (exInp i).2
  | _ => .num 0

def exPos : Nat → Nat
  | 0 => 2
  | 1 => 0
  | 2 => 3
  | _ => 1

theorem exPos_order : ∀ i, i < 4 → ∀ j, j < 4 → (exPos i < exPos j ↔
    (exInp i).1.toInt < (exInp j).1.toInt ∨ (¬ (exInp j).1.toInt < (exInp i).1.toInt ∧ i < j)) := by
  decide

example : ∃ s', RadixSort true true 4 0 8 exMem s' ∧
    (s' (.out 0) = .elt (-1) 1 ∧ s' (.out 1) = .elt 2 3 ∧ s' (.out 2) = .elt 5 0 ∧
      s' (.out 3) = .elt 5 2) := by
  obtain ⟨s', h⟩ := radix_sort_has_run true true 4 0 8 exMem
  obtain ⟨out, h1, h2, _⟩ := radix_sort_signed true 4 (by decide) exInp exMem s' (fun i _ => rfl) h
  have h3 : StableSort 4 (fun x y : BitVec 8 × Nat => x.1.toInt < y.1.toInt) exInp
      (fun | 0 => (-1, 1) | 1 => (2, 3) | 2 => (5, 0) | _ => (5, 2)) :=
    ⟨exPos, by decide, by decide, by decide, fun i j hi hj => exPos_order i hi j hj⟩
  have h4 := h2.unique h3
  refine ⟨s', h, ?_, ?_, ?_, ?_⟩
  · rw [h1 0 (by omega), h4 0 (by omega)]; rfl
  · rw [h1 1 (by omega), h4 1 (by omega)]; rfl
  · rw [h1 2 (by omega), h4 2 (by omega)]; rfl
  · rw [h1 3 (by omega), h4 3 (by omega)]; rfl

end Verif.Radix
