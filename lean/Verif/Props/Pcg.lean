import Verif.Proof.Pcg
import Mathlib.Dynamics.PeriodicPts.Defs
import Mathlib.Data.Set.Card
import Mathlib.Data.Nat.Prime.Basic
import Mathlib.Algebra.IsPrimePow

/-! C101: the generator of random numbers. -/
namespace Verif.Pcg

/-- From every state and for every increment the generator comes back to the state after `2 ^ 64` numbers, and not earlier. -/
theorem period (inc s : BitVec 64) : Function.minimalPeriod (step inc) s = 2 ^ 64 := by
  have h1 : Function.IsPeriodicPt (step inc) (2 ^ 64) s := by
    obtain ⟨w, hw⟩ := iterate_two_pow inc s 64
    rw [periodic_iff]
    apply BitVec.eq_of_toNat_eq
    rw [hw, Nat.add_mul_mod_self_left, Nat.mod_eq_of_lt s.isLt]
  have h2 : ¬Function.IsPeriodicPt (step inc) (2 ^ 63) s := by
    intro h
    obtain ⟨w, hw⟩ := iterate_two_pow inc s 63
    have h' : ((step inc)^[2 ^ 63] s).toNat = s.toNat := congrArg BitVec.toNat (periodic_iff.1 h)
    rw [hw] at h'
    have := s.isLt
    omega
  obtain ⟨k, hk, e⟩ := (Nat.dvd_prime_pow Nat.prime_two).1 h1.minimalPeriod_dvd
  rcases Nat.lt_or_ge k 64 with hlt | hge
  · exfalso
    apply h2
    rw [Function.isPeriodicPt_iff_minimalPeriod_dvd, e]
    exact pow_dvd_pow 2 (by omega)
  · rw [e, Nat.le_antisymm hk hge]

/-- Within a period every state is reached exactly once. -/
theorem states (inc s t : BitVec 64) : ∃! k, k < 2 ^ 64 ∧ (step inc)^[k] s = t := by
  have hinj := Function.iterate_injOn_Iio_minimalPeriod (f := step inc) (x := s)
  rw [period] at hinj
  have himg : (fun k => (step inc)^[k] s) '' Set.Iio (2 ^ 64) = Set.univ := by
    rw [Set.eq_univ_iff_ncard, hinj.ncard_image]
    rw [card_bitVec, ← Nat.card_coe_set_eq]
    exact card_below _
  have ht : t ∈ (fun k => (step inc)^[k] s) '' Set.Iio (2 ^ 64) := by rw [himg]; trivial
  obtain ⟨k, hk, e⟩ := ht
  refine ⟨k, ⟨hk, e⟩, fun j hj => ?_⟩
  exact hinj hj.1 hk (hj.2.trans e.symm)

/-- The number is that of PCG XSH-RR: bits 27 to 58 of the mixed state, turned right by the upper five bits. -/
theorem output_exact (s : BitVec 64) (i : Nat) (hi : i < 32) :
    (output s).getLsbD i = (s.getLsbD (27 + (i + (s >>> 59).toNat) % 32) ^^ s.getLsbD (45 + (i + (s >>> 59).toNat) % 32)) := by
  rw [output_eq, rotate_bit _ (rot_lt s) hi, mixed_bit _ _ (Nat.mod_lt _ (by norm_num)), Bool.xor_comm]

/-- Within a period every number comes exactly `2 ^ 32` times. -/
theorem equidistributed (inc s : BitVec 64) (v : BitVec 32) : {k | k < 2 ^ 64 ∧ output ((step inc)^[k] s) = v}.ncard = 2 ^ 32 := by
  have hinj := Function.iterate_injOn_Iio_minimalPeriod (f := step inc) (x := s)
  rw [period] at hinj
  have h1 : (fun k => (step inc)^[k] s) '' {k | k < 2 ^ 64 ∧ output ((step inc)^[k] s) = v} = {x | output x = v} := by
    ext x
    constructor
    · rintro ⟨k, hk, rfl⟩; exact hk.2
    · intro hx
      obtain ⟨k, ⟨hk, e⟩, -⟩ := states inc s x
      exact ⟨k, ⟨hk, by rw [e]; exact hx⟩, e⟩
  rw [← (hinj.mono fun k hk => hk.1 : Set.InjOn _ {k | k < 2 ^ 64 ∧ output ((step inc)^[k] s) = v}).ncard_image, h1]
  let φ : BitVec 64 → BitVec 5 × BitVec 32 × BitVec 27 := fun x => ((x >>> 59).setWidth 5, output x, x.setWidth 27)
  have hφ : Function.Injective φ := by
    intro x y e
    have e1 : (x >>> 59).setWidth 5 = (y >>> 59).setWidth 5 := congrArg Prod.fst e
    have e2 : output x = output y := congrArg (fun p => p.2.1) e
    have e3 : x.setWidth 27 = y.setWidth 27 := congrArg (fun p => p.2.2) e
    have e4 : x >>> 59 = y >>> 59 := by
      have := congrArg BitVec.toNat e1
      rw [BitVec.toNat_setWidth, BitVec.toNat_setWidth, Nat.mod_eq_of_lt (rot_lt x), Nat.mod_eq_of_lt (rot_lt y)] at this
      exact BitVec.eq_of_toNat_eq this
    refine mixed_inj e4 ?_ e3
    rw [output_eq, output_eq, e4] at e2
    exact rotate_inj (rot_lt y) e2
  have hbij : Function.Bijective φ := by
    rw [Nat.bijective_iff_injective_and_card]
    refine ⟨hφ, ?_⟩
    rw [Nat.card_prod, Nat.card_prod, card_bitVec, card_bitVec, card_bitVec, card_bitVec]
    norm_num
  have h2 : φ '' {x | output x = v} = (fun p : BitVec 5 × BitVec 27 => (p.1, v, p.2)) '' Set.univ := by
    ext ⟨a, b, c⟩
    constructor
    · rintro ⟨x, hx, e⟩
      have hb : output x = b := congrArg (fun p => p.2.1) e
      refine ⟨(a, c), trivial, ?_⟩
      rw [← hb, hx]
    · rintro ⟨p, -, e⟩
      obtain ⟨x, hx⟩ := hbij.2 (a, b, c)
      refine ⟨x, ?_, hx⟩
      have hb : output x = b := congrArg (fun p => p.2.1) hx
      have hv : v = b := congrArg (fun p => p.2.1) e
      show output x = v
      rw [hb, hv]
  rw [← Set.ncard_image_of_injective _ hφ, h2, Set.ncard_image_of_injective _ (by
    rintro ⟨a, c⟩ ⟨a', c'⟩ e
    have ea : a = a' := congrArg Prod.fst e
    have ec : c = c' := congrArg (fun p => p.2.2) e
    rw [ea, ec]), Set.ncard_univ, Nat.card_prod, card_bitVec, card_bitVec]
  norm_num

/-- The seed holds the last eight of the characters. -/
theorem seed_exact (time : List (BitVec 8)) (i : Nat) (hi : i < 64) : (seed time).getLsbD i = (time.reverse.getD (i / 8) 0#8).getLsbD (i % 8) := by
  rw [seed_bit, if_pos hi]

/-- `call_random` gives the number at that place of the sequence that starts at state zero. -/
theorem call_random_exact (time : List (BitVec 8)) (i : Int) : callRandom time i = output ((step (seed time))^[i.toNat] 0#64) := by
  rw [callRandom, loop_eq, next]

/-- The first number does not depend on the time: it is zero. -/
theorem call_random_violated (time : List (BitVec 8)) : callRandom time 0 = 0#32 := by
  rw [call_random_exact]
  show output 0#64 = 0#32
  decide +kernel

/-- The seed does not depend on the first digit of the time: no number of `call_random` tells 03:00:00 from 13:00:00. -/
theorem seed_violated (a b : BitVec 8) (rest : List (BitVec 8)) (h : rest.length = 8) (i : Int) : seed (a :: rest) = seed (b :: rest) ∧ callRandom (a :: rest) i = callRandom (b :: rest) i := by
  have key : seed (a :: rest) = seed (b :: rest) := by
    refine BitVec.eq_of_getLsbD_eq fun j hj => ?_
    rw [seed_bit, seed_bit, if_pos hj, if_pos hj, seed_tail h hj, seed_tail h hj]
  exact ⟨key, by rw [callRandom, callRandom, key]⟩

example : (next 1442695040888963407#64 42#64).2 = 6364136223846793005#64 * 42#64 + 1442695040888963407#64 := by decide +kernel

end Verif.Pcg
