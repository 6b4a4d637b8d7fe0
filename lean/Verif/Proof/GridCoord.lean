import Verif.Model.GridCoord
import Verif.Spec.GridCoord

/-! Lemmas on masks and packed offsets. -/
namespace Verif.Grid

theorem cellMask_toNat {e : Nat} (he : e < 32) : (cellMask e).toNat = 2 ^ e - 1 := by
  have h2 : 2 ^ e < 2 ^ 32 := Nat.pow_lt_pow_right (by omega) he
  have h1 : 0 < 2 ^ e := Nat.two_pow_pos e
  have : (1#32 <<< e).toNat = 2 ^ e := by
    simp [BitVec.toNat_shiftLeft, Nat.shiftLeft_eq, Nat.mod_eq_of_lt h2]
  rw [cellMask, BitVec.toNat_sub, this]
  simp only [BitVec.toNat_ofNat]
  omega

theorem cellMask_bit {e : Nat} (he : e < 32) (i : Nat) : (cellMask e).getLsbD i = decide (i < e) := by
  rw [BitVec.getLsbD, cellMask_toNat he, Nat.testBit_two_pow_sub_one]

theorem part_toNat {e s : Nat} (he : e < 32) (x : BitVec 32) : ((x &&& cellMask e) >>> s).toNat = x.toNat % 2 ^ e / 2 ^ s := by
  rw [BitVec.toNat_ushiftRight, BitVec.toNat_and, cellMask_toNat he, Nat.and_two_pow_sub_one_eq_mod, Nat.shiftRight_eq_div_pow]

theorem part_lt {e s b : Nat} (he : e < 32) (hb : s + b = e) (x : BitVec 32) : ((x &&& cellMask e) >>> s).toNat < 2 ^ b := by
  rw [part_toNat he]
  apply Nat.div_lt_of_lt_mul
  rw [← Nat.pow_add, hb]
  exact Nat.mod_lt _ (Nat.two_pow_pos e)

theorem flatten_append (e b s : Nat) (c : Coord) (x : BitVec 32) :
    flatten e b s (c ++ [x]) = (flatten e b s c <<< b) ||| ((x &&& cellMask e) >>> s) := by
  cases c with
  | nil => simp [flatten]
  | cons y c => simp [flatten]

theorem push_toNat {b k : Nat} {r p : BitVec 32} (hr : r.toNat < 2 ^ (k * b)) (hp : p.toNat < 2 ^ b) (hk : (k + 1) * b < 33) :
    ((r <<< b) ||| p).toNat = r.toNat * 2 ^ b + p.toNat ∧ r.toNat * 2 ^ b + p.toNat < 2 ^ ((k + 1) * b) := by
  have h1 : r.toNat * 2 ^ b + p.toNat < 2 ^ ((k + 1) * b) := by
    rw [Nat.succ_mul, Nat.pow_add]
    calc r.toNat * 2 ^ b + p.toNat < r.toNat * 2 ^ b + 2 ^ b := by omega
      _ = (r.toNat + 1) * 2 ^ b := by rw [Nat.succ_mul]
      _ ≤ 2 ^ (k * b) * 2 ^ b := Nat.mul_le_mul_right _ hr
  have h2 : 2 ^ ((k + 1) * b) ≤ 2 ^ 32 := Nat.pow_le_pow_right (by omega) (by omega)
  refine ⟨?_, h1⟩
  rw [BitVec.toNat_or, BitVec.toNat_shiftLeft, Nat.shiftLeft_eq, Nat.mod_eq_of_lt (by omega), ← Nat.shiftLeft_eq,
    ← Nat.shiftLeft_add_eq_or_of_lt hp]

/-- Reverse induction on lists. -/
theorem snoc_induction {α : Type} {P : List α → Prop} (h0 : P []) (h1 : ∀ l x, P l → P (l ++ [x])) (l : List α) : P l := by
  have : ∀ l : List α, P l.reverse := by
    intro l
    induction l with
    | nil => exact h0
    | cons x l ih => rw [List.reverse_cons]; exact h1 _ _ ih
  have := this l.reverse
  rwa [List.reverse_reverse] at this

theorem flatten_lt {e b s : Nat} (he : e < 32) (hb : s + b = e) (c : Coord) (hc : c.length * b < 33) :
    (flatten e b s c).toNat < 2 ^ (c.length * b) := by
  revert hc
  refine snoc_induction (P := fun c => c.length * b < 33 → (flatten e b s c).toNat < 2 ^ (c.length * b)) ?_ ?_ c
  · intro _; simp [flatten]
  · intro c x ih hc
    rw [List.length_append, List.length_singleton] at hc ⊢
    have := push_toNat (ih (by rw [Nat.succ_mul] at hc; omega)) (part_lt he hb x) hc
    rw [flatten_append, this.1]
    exact this.2

theorem flatten_toNat {e b s : Nat} (he : e < 32) (hb : s + b = e) (c : Coord) (hc : c.length * b < 33) :
    (flatten e b s c).toNat = number b (c.map fun x => x.toNat % 2 ^ e / 2 ^ s) := by
  revert hc
  refine snoc_induction (P := fun c => c.length * b < 33 → (flatten e b s c).toNat = number b (c.map fun x => x.toNat % 2 ^ e / 2 ^ s)) ?_ ?_ c
  · intro _; simp [flatten, number]
  · intro c x ih hc
    rw [List.length_append, List.length_singleton] at hc
    have hc' : c.length * b < 33 := by rw [Nat.succ_mul] at hc; omega
    have := push_toNat (flatten_lt he hb c hc') (part_lt he hb x) hc
    rw [flatten_append, this.1, ih hc', part_toNat he]
    simp [number]

theorem push_low {b k : Nat} {r p : BitVec 32} (hb : b < 32) (hr : r.toNat < 2 ^ (k * b)) (hp : p.toNat < 2 ^ b) (hk : (k + 1) * b < 33) :
    ((r <<< b) ||| p) >>> b = r ∧ ((r <<< b) ||| p) &&& cellMask b = p := by
  have h := (push_toNat hr hp hk).1
  constructor
  · apply BitVec.eq_of_toNat_eq
    rw [BitVec.toNat_ushiftRight, h, Nat.shiftRight_eq_div_pow, Nat.mul_comm, Nat.mul_add_div (Nat.two_pow_pos b), Nat.div_eq_of_lt hp]
    omega
  · apply BitVec.eq_of_toNat_eq
    rw [BitVec.toNat_and, cellMask_toNat hb, Nat.and_two_pow_sub_one_eq_mod, h, Nat.mul_comm, Nat.mul_add_mod, Nat.mod_eq_of_lt hp]

/-- Spreading what was packed gives the masked components. -/
theorem spread_flatten {e b s : Nat} (he : e < 32) (hb : s + b = e) (c : Coord) (hc : c.length * b < 33) :
    spread b s c.length (flatten e b s c) = c.map fun x => ((x &&& cellMask e) >>> s) <<< s := by
  revert hc
  refine snoc_induction (P := fun c => c.length * b < 33 →
    spread b s c.length (flatten e b s c) = c.map fun x => ((x &&& cellMask e) >>> s) <<< s) ?_ ?_ c
  · intro _; simp [spread]
  · intro c x ih hc
    rw [List.length_append, List.length_singleton] at hc ⊢
    have hc' : c.length * b < 33 := by rw [Nat.succ_mul] at hc; omega
    have h := push_low (by omega) (flatten_lt he hb c hc') (part_lt he hb x) hc
    rw [flatten_append, spread, h.1, h.2, ih hc']
    simp

theorem keyOf_idem {e : Nat} (c : Coord) : keyOf e (keyOf e c) = keyOf e c := by
  simp [keyOf, BitVec.and_assoc]

theorem key_bit {e : Nat} (he : e < 32) (x : BitVec 32) (i : Nat) :
    (x &&& ~~~(cellMask e)).getLsbD i = (x.getLsbD i && decide (e ≤ i)) := by
  by_cases hi : i < 32
  · simp only [BitVec.getLsbD_and, BitVec.getLsbD_not, hi, cellMask_bit he, decide_true, Bool.true_and]
    congr 1
    by_cases h : i < e <;> simp [h] <;> omega
  · simp [BitVec.getLsbD_of_ge _ _ (Nat.le_of_not_lt hi)]

/-- Masks compose. -/
theorem keyOf_keyOf {e s : Nat} (he : e < 32) (hs : s ≤ e) (c : Coord) : keyOf e (keyOf s c) = keyOf e c := by
  simp only [keyOf, List.map_map]
  apply List.map_congr_left
  intro x _
  apply BitVec.eq_of_getLsbD_eq
  intro i hi
  show ((x &&& ~~~(cellMask s)) &&& ~~~(cellMask e)).getLsbD i = (x &&& ~~~(cellMask e)).getLsbD i
  rw [key_bit he, key_bit (by omega), key_bit he, Bool.and_assoc]
  congr 1
  by_cases h : e ≤ i
  · have : s ≤ i := by omega
    simp [h, this]
  · simp [h]

theorem low_bit {e s : Nat} (he : e < 32) (x : BitVec 32) (i : Nat) (hi : i < 32) :
    (((x &&& cellMask e) >>> s) <<< s).getLsbD i = (x.getLsbD i && decide (s ≤ i) && decide (i < e)) := by
  rw [BitVec.getLsbD_shiftLeft, BitVec.getLsbD_ushiftRight, BitVec.getLsbD_and, cellMask_bit he]
  by_cases h : s ≤ i
  · have h1 : s + (i - s) = i := by omega
    have h2 : ¬ i < s := by omega
    simp [h, hi, h1, h2]
  · have h2 : i < s := by omega
    simp [h, h2]

/-- Origin plus place. -/
theorem origin_add {e s : Nat} (he : e < 32) (hs : s ≤ e) (x : BitVec 32) :
    (x &&& ~~~(cellMask e)) + (((x &&& cellMask e) >>> s) <<< s) = x &&& ~~~(cellMask s) := by
  rw [BitVec.add_eq_or_of_and_eq_zero]
  · apply BitVec.eq_of_getLsbD_eq
    intro i hi
    rw [BitVec.getLsbD_or, key_bit he, key_bit (by omega), low_bit he x i hi]
    by_cases h1 : e ≤ i
    · have : s ≤ i := by omega
      have h3 : ¬ i < e := by omega
      simp [h1, this, h3]
    · have h3 : i < e := by omega
      simp [h1, h3]
  · apply BitVec.eq_of_getLsbD_eq
    intro i hi
    rw [BitVec.getLsbD_and, key_bit he, low_bit he x i hi]
    by_cases h1 : e ≤ i
    · have h3 : ¬ i < e := by omega
      simp [h3]
    · simp [h1]

theorem addCoord_map (f g : BitVec 32 → BitVec 32) (c : Coord) : addCoord (c.map f) (c.map g) = c.map fun x => f x + g x := by
  induction c with
  | nil => rfl
  | cons x c ih =>
    simp only [addCoord, List.map_cons, List.zipWith_cons_cons] at ih ⊢
    rw [ih]

/-- The cell of a coordinate, from block and offset. -/
theorem add_spread {e b s : Nat} (he : e < 32) (hb : s + b = e) (c : Coord) (hc : c.length * b < 33) :
    addCoord (keyOf e c) (spread b s c.length (flatten e b s c)) = keyOf s c := by
  rw [spread_flatten he hb c hc, keyOf, addCoord_map, keyOf]
  apply List.map_congr_left
  intro x _
  exact origin_add he (by omega) x

theorem spread_length (b s d : Nat) (o : BitVec 32) : (spread b s d o).length = d := by
  induction d generalizing o with
  | zero => rfl
  | succ d ih => simp [spread, ih]

theorem keyOf_length (e : Nat) (c : Coord) : (keyOf e c).length = c.length := by simp [keyOf]

/-- One component of a block plus a place in it. -/
theorem component {e b s : Nat} (he : e < 32) (hb : s + b = e) {k : BitVec 32} (hk : k &&& ~~~(cellMask e) = k) (o : BitVec 32) :
    ((k + ((o &&& cellMask b) <<< s)) &&& ~~~(cellMask e)) = k ∧ (((k + ((o &&& cellMask b) <<< s)) &&& cellMask e) >>> s) = o &&& cellMask b := by
  have kb : ∀ i, k.getLsbD i = (k.getLsbD i && decide (e ≤ i)) := fun i => by
    have := key_bit he k i
    rwa [hk] at this
  have ob : ∀ i, i < 32 → ((o &&& cellMask b) <<< s).getLsbD i = (o.getLsbD (i - s) && decide (s ≤ i) && decide (i < e)) := by
    intro i hi
    rw [BitVec.getLsbD_shiftLeft, BitVec.getLsbD_and, cellMask_bit (by omega)]
    by_cases h : s ≤ i
    · have h2 : ¬ i < s := by omega
      have h3 : (i - s < b) = (i < e) := by apply propext; omega
      simp [h, hi, h2, h3]
    · have h2 : i < s := by omega
      simp [h, h2]
  have hadd : k + ((o &&& cellMask b) <<< s) = k ||| ((o &&& cellMask b) <<< s) := by
    apply BitVec.add_eq_or_of_and_eq_zero
    apply BitVec.eq_of_getLsbD_eq
    intro i hi
    rw [BitVec.getLsbD_and, ob i hi, kb i]
    by_cases h1 : e ≤ i
    · have h3 : ¬ i < e := by omega
      simp [h3]
    · simp [h1]
  rw [hadd]
  constructor
  · apply BitVec.eq_of_getLsbD_eq
    intro i hi
    rw [key_bit he, BitVec.getLsbD_or, ob i hi, kb i]
    by_cases h1 : e ≤ i
    · have h3 : ¬ i < e := by omega
      simp [h1, h3]
    · simp [h1]
  · apply BitVec.eq_of_getLsbD_eq
    intro i hi
    rw [BitVec.getLsbD_ushiftRight, BitVec.getLsbD_and, BitVec.getLsbD_or, BitVec.getLsbD_and, cellMask_bit he, cellMask_bit (by omega)]
    by_cases h1 : i < b
    · have h2 : s + i < e := by omega
      rw [ob (s + i) (by omega), kb (s + i)]
      have h3 : ¬ e ≤ s + i := by omega
      have h4 : s + i - s = i := by omega
      simp [h1, h2, h3, h4]
    · have h2 : ¬ s + i < e := by omega
      simp [h1, h2]

/-- Packing what was spread. -/
theorem flatten_spread {e b s : Nat} (he : e < 32) (hb : s + b = e) (k : Coord) (hk : keyOf e k = k) (hc : k.length * b < 33)
    (o : BitVec 32) (ho : o.toNat < 2 ^ (k.length * b)) :
    keyOf e (addCoord k (spread b s k.length o)) = k ∧ flatten e b s (addCoord k (spread b s k.length o)) = o := by
  revert o
  revert hc hk
  refine snoc_induction (P := fun k => keyOf e k = k → k.length * b < 33 → ∀ o : BitVec 32, o.toNat < 2 ^ (k.length * b) →
    keyOf e (addCoord k (spread b s k.length o)) = k ∧ flatten e b s (addCoord k (spread b s k.length o)) = o) ?_ ?_ k
  · intro _ _ o ho
    have : o.toNat = 0 := by simpa using ho
    refine ⟨rfl, BitVec.eq_of_toNat_eq ?_⟩
    rw [this]; rfl
  · intro k x ih hk hc o ho
    have hk' : keyOf e k = k ∧ x &&& ~~~(cellMask e) = x := by
      have h : keyOf e k ++ [x &&& ~~~(cellMask e)] = k ++ [x] := by simpa [keyOf] using hk
      have := List.append_inj h (by simp [keyOf])
      exact ⟨this.1, by simpa using this.2⟩
    rw [List.length_append, List.length_singleton] at hc ho ⊢
    have hc' : k.length * b < 33 := by rw [Nat.succ_mul] at hc; omega
    have ho' : (o >>> b).toNat < 2 ^ (k.length * b) := by
      rw [BitVec.toNat_ushiftRight, Nat.shiftRight_eq_div_pow]
      apply Nat.div_lt_of_lt_mul
      rw [← Nat.pow_add, Nat.add_comm, ← Nat.succ_mul]
      exact ho
    have h1 := ih hk'.1 hc' (o >>> b) ho'
    have h2 := component he hb hk'.2 o
    have hz : addCoord (k ++ [x]) (spread b s (k.length + 1) o)
        = addCoord k (spread b s k.length (o >>> b)) ++ [x + ((o &&& cellMask b) <<< s)] := by
      rw [spread, addCoord, List.zipWith_append (by rw [spread_length])]
      rfl
    rw [hz]
    constructor
    · have : keyOf e (addCoord k (spread b s k.length (o >>> b)) ++ [x + ((o &&& cellMask b) <<< s)])
          = keyOf e (addCoord k (spread b s k.length (o >>> b))) ++ [(x + ((o &&& cellMask b) <<< s)) &&& ~~~(cellMask e)] := by
        simp [keyOf]
      rw [this, h1.1, h2.1]
    · rw [flatten_append, h1.2, h2.2]
      by_cases hb' : b = 0
      · subst hb'
        have : o &&& cellMask 0 = 0#32 := by simp [cellMask]
        rw [this]; simp
      have hp : (o &&& cellMask b).toNat < 2 ^ b := by
        rw [BitVec.toNat_and, cellMask_toNat (by omega), Nat.and_two_pow_sub_one_eq_mod]
        exact Nat.mod_lt _ (Nat.two_pow_pos b)
      apply BitVec.eq_of_toNat_eq
      rw [(push_toNat ho' hp hc).1, BitVec.toNat_ushiftRight, BitVec.toNat_and, cellMask_toNat (by omega),
        Nat.and_two_pow_sub_one_eq_mod, Nat.shiftRight_eq_div_pow]
      exact Nat.div_add_mod' _ _

/-! ## Integers -/

theorem toInt_emod {e : Nat} (he : e < 32) (x : BitVec 32) : x.toInt % 2 ^ e = ((x.toNat % 2 ^ e : Nat) : Int) := by
  have hd : (2 : Int) ^ 32 = 2 ^ e * 2 ^ (32 - e) := by rw [← Int.pow_add]; congr 1; omega
  rw [BitVec.toInt_eq_toNat_cond]
  split
  · rw [Int.natCast_emod]; norm_cast
  · have : ((x.toNat : Int) - ((2 ^ 32 : Nat) : Int)) = (x.toNat : Int) + 2 ^ e * (-2 ^ (32 - e)) := by
      have : (((2 ^ 32 : Nat)) : Int) = (2 : Int) ^ 32 := by norm_cast
      rw [this, hd, Int.mul_neg]; rfl
    rw [this, Int.add_mul_emod_self_left, Int.natCast_emod]; norm_cast

theorem sub_origin (e : Nat) (x : Int) : x - origin e x = x % 2 ^ e := by
  rw [origin]
  have := Int.mul_ediv_add_emod x (2 ^ e)
  omega

theorem place_eq {e : Nat} (he : e < 32) (s : Nat) (x : BitVec 32) : place e s x.toInt = x.toNat % 2 ^ e / 2 ^ s := by
  rw [place, sub_origin, toInt_emod he]
  have : ((2 : Int) ^ s) = ((2 ^ s : Nat) : Int) := by norm_cast
  rw [this, ← Int.natCast_ediv, Int.toNat_natCast]

theorem key_toNat {e : Nat} (he : e < 32) (x : BitVec 32) : (x &&& ~~~(cellMask e)).toNat = x.toNat - x.toNat % 2 ^ e := by
  have h := congrArg BitVec.toNat (origin_add he (Nat.zero_le e) x)
  have h0 : x &&& ~~~(cellMask 0) = x := by
    apply BitVec.eq_of_getLsbD_eq
    intro i _
    rw [key_bit (by omega)]; simp
  have hm : (((x &&& cellMask e) >>> 0) <<< 0).toNat = x.toNat % 2 ^ e := by
    have := part_toNat (s := 0) he x
    simpa using this
  rw [h0, BitVec.toNat_add, hm] at h
  have h1 : (x &&& ~~~(cellMask e)).toNat ≤ x.toNat := by rw [BitVec.toNat_and]; exact Nat.and_le_left
  have h2 : x.toNat % 2 ^ e ≤ x.toNat := Nat.mod_le _ _
  have h3 := x.isLt
  by_cases hlt : (x &&& ~~~(cellMask e)).toNat + x.toNat % 2 ^ e < 2 ^ 32
  · rw [Nat.mod_eq_of_lt hlt] at h; omega
  · omega

theorem key_toInt {e : Nat} (he : e < 32) (x : BitVec 32) : (x &&& ~~~(cellMask e)).toInt = origin e x.toInt := by
  have h1 : origin e x.toInt = x.toInt - ((x.toNat % 2 ^ e : Nat) : Int) := by
    have := sub_origin e x.toInt
    rw [toInt_emod he] at this
    omega
  have h2 := key_toNat he x
  have h3 : x.toNat % 2 ^ e ≤ x.toNat := Nat.mod_le _ _
  have hmsb : (x &&& ~~~(cellMask e)).msb = x.msb := by
    rw [BitVec.msb_eq_getLsbD_last, BitVec.msb_eq_getLsbD_last, key_bit he]
    have : e ≤ 32 - 1 := by omega
    simp [this]
  rw [h1, BitVec.toInt_eq_msb_cond, BitVec.toInt_eq_msb_cond, hmsb, h2]
  split <;> omega

/-! ## Levels -/

variable {L : Layout} {dim : Nat}

theorem ebit_succ (L : Layout) (i : Nat) : L.ebit (i + 1) = L.ebit i + L.hierBits (i + 1) := by
  rw [Layout.ebit, Layout.ebit, List.range_succ, List.map_append, List.sum_append]
  simp

theorem ebit_zero (L : Layout) : L.ebit 0 = L.tileBits 0 := by
  simp [Layout.ebit, Layout.hierBits, List.range_succ]

/-- `sbit` adds the scaling bits of the finer levels. -/
theorem ebit_eq (h : L.Valid dim) (i : Nat) (hi : i < L.levels) :
    L.ebit i = L.tileBits i + ((List.range i).map L.scalingBits).sum := by
  induction i with
  | zero => rw [ebit_zero]; simp
  | succ i ih =>
    have h1 := ih (by omega)
    have h2 := h.scaling i (by omega)
    have h3 := h.hier (i + 1) hi
    rw [ebit_succ, h1, List.range_succ, List.map_append, List.sum_append]
    simp only [Layout.hierBits] at h3 ⊢
    simp only [List.map_cons, List.map_nil, List.sum_cons, List.sum_nil]
    omega

theorem sbit_add (h : L.Valid dim) {i : Nat} (hi : i < L.levels) : L.sbit i + L.tileBits i = L.ebit i := by
  have := ebit_eq h i hi
  rw [Layout.sbit]; omega

theorem below_add (L : Layout) (i : Nat) : L.below i + L.hierBits i = L.ebit i := by
  cases i with
  | zero => rw [ebit_zero]; simp [Layout.below, Layout.hierBits]
  | succ i => rw [ebit_succ]; rfl

theorem hier_le (L : Layout) (i : Nat) : L.hierBits i ≤ L.tileBits i := by
  cases i with
  | zero => simp [Layout.hierBits]
  | succ i => simp only [Layout.hierBits]; omega

theorem ebit_lt (h : L.Valid dim) {i : Nat} (hi : i < L.levels) : L.ebit i < 32 := by
  have := h.ebit i hi; omega

theorem ebit_pos (h : L.Valid dim) {i : Nat} (hi : i < L.levels) : 0 < L.ebit i := by
  have := below_add L i
  have := h.hier i hi
  omega

/-! ## Sparse grids -/

theorem keyOf_zero (c : Coord) : keyOf 0 c = c := by
  have : ∀ x : BitVec 32, x &&& ~~~(cellMask 0) = x := by
    intro x
    apply BitVec.eq_of_getLsbD_eq
    intro i _
    rw [key_bit (by omega)]; simp
  simp only [keyOf, this]
  simp

theorem blockId_eq {b : Nat} (hb : b < 32) (c : Coord) : blockId b c = keyOf b c := by
  induction c with
  | nil => rfl
  | cons x c ih =>
    simp only [blockId, cellId, List.map_cons, List.zipWith_cons_cons, keyOf] at ih ⊢
    rw [ih]
    congr 1
    have h := origin_add hb (Nat.zero_le b) x
    have h0 : x &&& ~~~(cellMask 0) = x := by
      have := keyOf_zero [x]
      simpa [keyOf] using this
    have h1 : ((x &&& cellMask b) >>> 0) <<< 0 = x &&& cellMask b := by simp
    rw [h0, h1] at h
    show x - (x &&& cellMask b) = _
    rw [BitVec.sub_eq_iff_eq_add]
    exact h.symm

theorem localOffset_append (b : Nat) (c : Coord) (x : BitVec 32) : localOffset b (c ++ [x]) = localOffset b c * (1#32 <<< b) + x := by
  cases c with
  | nil => simp [localOffset]
  | cons y c => simp [localOffset]

theorem localOffset_eq {b : Nat} (hb : b < 32) (c : Coord) (hc : c.length * b < 33) : localOffset b (cellId b c) = flatten b b 0 c := by
  revert hc
  refine snoc_induction (P := fun c => c.length * b < 33 → localOffset b (cellId b c) = flatten b b 0 c) ?_ ?_ c
  · intro _; rfl
  · intro c x ih hc
    rw [List.length_append, List.length_singleton] at hc
    have hc' : c.length * b < 33 := by rw [Nat.succ_mul] at hc; omega
    have h1 := push_toNat (flatten_lt hb (Nat.zero_add b) c hc') (part_lt hb (Nat.zero_add b) x) hc
    have h2 : cellId b (c ++ [x]) = cellId b c ++ [x &&& cellMask b] := by simp [cellId, cellMask]
    rw [h2, localOffset_append, flatten_append, ih hc']
    apply BitVec.eq_of_toNat_eq
    rw [h1.1, BitVec.toNat_add, BitVec.toNat_mul]
    have h3 : (1#32 <<< b).toNat = 2 ^ b := by
      have h2 : 2 ^ b < 2 ^ 32 := Nat.pow_lt_pow_right (by omega) hb
      simp [BitVec.toNat_shiftLeft, Nat.shiftLeft_eq, Nat.mod_eq_of_lt h2]
    have h4 : (x &&& cellMask b).toNat = ((x &&& cellMask b) >>> 0).toNat := by simp
    have h5 : 2 ^ ((c.length + 1) * b) ≤ 2 ^ 32 := Nat.pow_le_pow_right (by omega) (by omega)
    have h6 := h1.2
    rw [h3, h4, Nat.mod_eq_of_lt (by omega : (flatten b b 0 c).toNat * 2 ^ b < 2 ^ 32), Nat.mod_eq_of_lt (by omega)]

theorem localCoord_eq {b : Nat} (hb : b < 31) (d : Nat) (o : BitVec 32) (ho : o.toNat < 2 ^ 31) : localCoord b d o = spread b 0 d o := by
  induction d generalizing o with
  | zero => rfl
  | succ d ih =>
    have h3 : (1#32 <<< b).toNat = 2 ^ b := by
      have h2 : 2 ^ b < 2 ^ 32 := Nat.pow_lt_pow_right (by omega) (by omega)
      simp [BitVec.toNat_shiftLeft, Nat.shiftLeft_eq, Nat.mod_eq_of_lt h2]
    have hlt : 2 ^ b < 2 ^ 31 := Nat.pow_lt_pow_right (by omega) hb
    have m1 : o.msb = false := by rw [BitVec.msb_eq_false_iff_two_mul_lt]; omega
    have m2 : (1#32 <<< b).msb = false := by rw [BitVec.msb_eq_false_iff_two_mul_lt]; omega
    have hq : o.sdiv (1#32 <<< b) = o >>> b := by
      rw [BitVec.sdiv_eq, m1, m2]
      apply BitVec.eq_of_toNat_eq
      show (o.udiv (1#32 <<< b)).toNat = _
      rw [BitVec.udiv_eq, BitVec.toNat_udiv, h3, BitVec.toNat_ushiftRight, Nat.shiftRight_eq_div_pow]
    have hr : o.srem (1#32 <<< b) = (o &&& cellMask b) <<< 0 := by
      rw [BitVec.srem_eq, m1, m2]
      apply BitVec.eq_of_toNat_eq
      show (o.umod (1#32 <<< b)).toNat = _
      rw [BitVec.umod_eq, BitVec.toNat_umod, h3, BitVec.shiftLeft_zero, BitVec.toNat_and, cellMask_toNat (by omega),
        Nat.and_two_pow_sub_one_eq_mod]
    have hs : (o >>> b).toNat < 2 ^ 31 := by
      rw [BitVec.toNat_ushiftRight, Nat.shiftRight_eq_div_pow]
      exact Nat.lt_of_le_of_lt (Nat.div_le_self _ _) ho
    rw [localCoord, spread, hq, hr, ih _ hs]

end Verif.Grid
