import Verif.Model.Pcg
import Mathlib.Algebra.Order.Ring.Nat
import Mathlib.Tactic.Ring
import Mathlib.Algebra.BigOperators.Intervals
import Mathlib.SetTheory.Cardinal.Finite
import Mathlib.Dynamics.PeriodicPts.Defs
import Mathlib.Data.List.Induction

/-! Powers of the multiplier and sums of these. -/
namespace Verif.Pcg

/-- Sum of the first powers. -/
def geo (a : Nat) : Nat → Nat
  | 0 => 0
  | n + 1 => a * geo a n + 1

theorem geo_add (a m n : Nat) : geo a (m + n) = a ^ n * geo a m + geo a n := by
  induction n with
  | zero => simp [geo]
  | succ n ih => rw [← Nat.add_assoc, geo, geo, ih, pow_succ]; ring

theorem pow_two_pow {a : Nat} (ha : a % 4 = 1) (k : Nat) : ∃ u w, a ^ 2 ^ k = 1 + 2 ^ (k + 2) * u ∧ geo a (2 ^ k) = 2 ^ k * (2 * w + 1) := by
  induction k with
  | zero => exact ⟨a / 4, 0, by have := Nat.div_add_mod a 4; norm_num; omega, by simp [geo]⟩
  | succ k ih =>
    obtain ⟨u, w, h1, h2⟩ := ih
    refine ⟨u + 2 ^ (k + 1) * u ^ 2, w + 2 ^ k * u * (2 * w + 1), ?_, ?_⟩
    · rw [pow_succ, pow_mul, h1]; ring
    · rw [pow_succ, Nat.mul_two, geo_add, h1, h2]; ring

theorem iterate_toNat (inc s : BitVec 64) (n : Nat) : ((step inc)^[n] s).toNat = (6364136223846793005 ^ n * s.toNat + (inc ||| 1#64).toNat * geo 6364136223846793005 n) % 2 ^ 64 := by
  induction n with
  | zero => simp [geo, Nat.mod_eq_of_lt s.isLt]
  | succ n ih =>
    rw [Function.iterate_succ_apply', step, BitVec.toNat_add, BitVec.toNat_mul, ih]
    have e : (6364136223846793005#64 : BitVec 64).toNat = 6364136223846793005 := rfl
    rw [e, Nat.mod_mul_mod, Nat.mod_add_mod]
    congr 1
    rw [geo, pow_succ]
    ring

theorem odd_inc (inc : BitVec 64) : ∃ w, (inc ||| 1#64).toNat = 2 * w + 1 := by
  refine ⟨(inc ||| 1#64).toNat / 2, ?_⟩
  have h : (inc ||| 1#64).toNat % 2 = 1 := by
    rw [BitVec.toNat_or]
    have := Nat.or_mod_two_eq_one (a := inc.toNat) (b := (1#64 : BitVec 64).toNat)
    exact this.2 (Or.inr rfl)
  omega

theorem iterate_two_pow (inc s : BitVec 64) (k : Nat) : ∃ w, ((step inc)^[2 ^ k] s).toNat = (s.toNat + 2 ^ k * (2 * w + 1)) % 2 ^ 64 := by
  obtain ⟨u, w, h1, h2⟩ := pow_two_pow (a := 6364136223846793005) (by norm_num) k
  obtain ⟨c, hc⟩ := odd_inc inc
  refine ⟨2 * u * s.toNat + 2 * c * w + c + w, ?_⟩
  rw [iterate_toNat, h1, h2, hc]
  congr 1
  ring

/-- The bits of the number before it is turned. -/
def mixed (s : BitVec 64) : BitVec 32 := (((s >>> 18) ^^^ s) >>> 27).setWidth 32

theorem mixed_bit (s : BitVec 64) (i : Nat) (hi : i < 32) : (mixed s).getLsbD i = (s.getLsbD (45 + i) ^^ s.getLsbD (27 + i)) := by
  simp only [mixed, BitVec.getLsbD_setWidth, BitVec.getLsbD_ushiftRight, BitVec.getLsbD_xor, hi, decide_true, Bool.true_and]
  congr 2
  omega

/-- The state is known from its first bits, its last bits, and the mixed bits. -/
theorem mixed_inj {s t : BitVec 64} (hi : s >>> 59 = t >>> 59) (hm : mixed s = mixed t) (lo : s.setWidth 27 = t.setWidth 27) : s = t := by
  have h59 : ∀ i, 59 ≤ i → s.getLsbD i = t.getLsbD i := by
    intro i h
    have := congrArg (fun x => x.getLsbD (i - 59)) hi
    simp only [BitVec.getLsbD_ushiftRight] at this
    rwa [Nat.add_sub_cancel' h] at this
  have hlo : ∀ i, i < 27 → s.getLsbD i = t.getLsbD i := by
    intro i h
    have := congrArg (fun x => x.getLsbD i) lo
    simpa [BitVec.getLsbD_setWidth, h] using this
  have hx : ∀ i, i < 32 → s.getLsbD (45 + i) = t.getLsbD (45 + i) → s.getLsbD (27 + i) = t.getLsbD (27 + i) := by
    intro i h e
    have h1 := congrArg (fun x => x.getLsbD i) hm
    simp only [mixed_bit _ i h, e] at h1
    exact Bool.xor_right_inj.1 h1
  have h41 : ∀ i, 41 ≤ i → s.getLsbD i = t.getLsbD i := by
    intro i h
    by_cases h' : 59 ≤ i
    · exact h59 i h'
    · have := hx (i - 27) (by omega) (h59 _ (by omega))
      rwa [Nat.add_sub_cancel' (by omega)] at this
  refine BitVec.eq_of_getLsbD_eq fun i _ => ?_
  by_cases h : 41 ≤ i
  · exact h41 i h
  · by_cases h' : i < 27
    · exact hlo i h'
    · have := hx (i - 27) (by omega) (h41 _ (by omega))
      rwa [Nat.add_sub_cancel' (by omega)] at this

theorem rot_lt (s : BitVec 64) : (s >>> 59).toNat < 32 := by
  rw [BitVec.toNat_ushiftRight, Nat.shiftRight_eq_div_pow]
  have := s.isLt
  omega

theorem neg_and (r : Nat) (h : r < 32) : ((-(BitVec.ofNat 32 r)) &&& 31#32).toNat = (32 - r) % 32 := by
  revert r
  decide +kernel

theorem output_eq (s : BitVec 64) : output s = (mixed s).rotateRight (s >>> 59).toNat := by
  have hr := rot_lt s
  have hrot : ((s >>> 59).setWidth 32).toNat = (s >>> 59).toNat := by rw [BitVec.toNat_setWidth]; exact Nat.mod_eq_of_lt (by omega)
  have hof : (s >>> 59).setWidth 32 = BitVec.ofNat 32 (s >>> 59).toNat := by
    apply BitVec.eq_of_toNat_eq
    rw [hrot, BitVec.toNat_ofNat, Nat.mod_eq_of_lt (by omega)]
  show (mixed s >>> ((s >>> 59).setWidth 32).toNat) ||| (mixed s <<< ((-((s >>> 59).setWidth 32)) &&& 31#32).toNat) = _
  rw [hrot, hof, neg_and _ hr]
  generalize (s >>> 59).toNat = r at hr
  generalize mixed s = x
  refine BitVec.eq_of_getLsbD_eq fun i hi => ?_
  rw [BitVec.getLsbD_rotateRight_of_lt hr]
  simp only [BitVec.getLsbD_or, BitVec.getLsbD_ushiftRight, BitVec.getLsbD_shiftLeft, hi, decide_true, Bool.true_and]
  rcases Nat.eq_zero_or_pos r with rfl | hpos
  · simp [hi]
  · rw [Nat.mod_eq_of_lt (by omega : 32 - r < 32)]
    by_cases h : i < 32 - r
    · simp [h]
    · rw [BitVec.getLsbD_of_ge x (r + i) (by omega)]
      simp [h]

theorem loop_eq (inc : BitVec 64) (n : Nat) (s : BitVec 64) : (List.range n).foldl (fun s _ => (next inc s).2) s = (step inc)^[n] s := by
  induction n with
  | zero => rw [List.range_zero, List.foldl_nil, Function.iterate_zero, id]
  | succ n ih => rw [List.range_succ, List.foldl_append, ih, Function.iterate_succ_apply', List.foldl_cons, List.foldl_nil, next]

theorem seed_bit (time : List (BitVec 8)) (i : Nat) : (seed time).getLsbD i = if i < 64 then (time.reverse.getD (i / 8) 0#8).getLsbD (i % 8) else false := by
  induction time using List.reverseRecOn generalizing i with
  | nil => simp [seed]
  | append_singleton l c ih =>
    have e : seed (l ++ [c]) = (seed l <<< 8) ||| c.setWidth 64 := by rw [seed, List.foldl_append]; rfl
    rw [e, List.reverse_append, BitVec.getLsbD_or, BitVec.getLsbD_shiftLeft, BitVec.getLsbD_setWidth, ih]
    by_cases hi : i < 64
    · by_cases h8 : i < 8
      · have h1 : i / 8 = 0 := by omega
        have h2 : i % 8 = i := by omega
        simp [hi, h8, h1, h2]
      · obtain ⟨j, rfl⟩ : ∃ j, i = j + 8 := ⟨i - 8, by omega⟩
        have h1 : (j + 8) / 8 = j / 8 + 1 := by omega
        have h2 : (j + 8) % 8 = j % 8 := by omega
        have h3 : j < 64 := by omega
        rw [BitVec.getLsbD_of_ge c (j + 8) (by omega)]
        simp [hi, h1, h2, h3]
    · simp [hi]

theorem seed_tail {a : BitVec 8} {rest : List (BitVec 8)} (h : rest.length = 8) {j : Nat} (hj : j < 64) : (a :: rest).reverse.getD (j / 8) 0#8 = rest.reverse.getD (j / 8) 0#8 := by
  rw [List.reverse_cons, List.getD_eq_getElem?_getD, List.getD_eq_getElem?_getD, List.getElem?_append_left (by rw [List.length_reverse, h]; omega)]

/-- For a number of steps that must not be unfolded. -/
theorem periodic_iff {α : Type} {f : α → α} {n : Nat} {x : α} : Function.IsPeriodicPt f n x ↔ f^[n] x = x := Iff.rfl

theorem card_bitVec (n : Nat) : Nat.card (BitVec n) = 2 ^ n := by
  have e : BitVec n ≃ Fin (2 ^ n) := ⟨BitVec.toFin, BitVec.ofFin, fun _ => rfl, fun _ => rfl⟩
  rw [Nat.card_congr e, Nat.card_eq_fintype_card, Fintype.card_fin]

instance (n : Nat) : Finite (BitVec n) := Finite.of_injective BitVec.toFin fun _ _ h => congrArg BitVec.ofFin h

theorem card_below (n : Nat) : Nat.card {i // i < n} = n := by
  rw [Nat.card_congr (Fin.equivSubtype (n := n)).symm, Nat.card_eq_fintype_card, Fintype.card_fin]

theorem rotate_bit (x : BitVec 32) {r i : Nat} (hr : r < 32) (hi : i < 32) : (x.rotateRight r).getLsbD i = x.getLsbD ((i + r) % 32) := by
  rw [BitVec.getLsbD_rotateRight_of_lt hr]
  by_cases h : i < 32 - r
  · simp only [h, decide_true, cond_true]
    rw [Nat.mod_eq_of_lt (by omega : i + r < 32), Nat.add_comm]
  · have e : (i + r) % 32 = i - (32 - r) := by omega
    simp only [h, decide_false, cond_false, hi, decide_true, Bool.true_and, e]

theorem rotate_inj {x y : BitVec 32} {r : Nat} (hr : r < 32) (h : x.rotateRight r = y.rotateRight r) : x = y := by
  refine BitVec.eq_of_getLsbD_eq fun i hi => ?_
  have := congrArg (fun z => z.getLsbD ((i + 32 - r) % 32)) h
  simp only [rotate_bit _ hr (Nat.mod_lt _ (by norm_num : 0 < 32))] at this
  have e : ((i + 32 - r) % 32 + r) % 32 = i := by omega
  rwa [e] at this

end Verif.Pcg
