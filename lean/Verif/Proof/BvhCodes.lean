import Verif.Model.BvhBuild
import Verif.Proof.BvhTree
/-! Common prefixes of codes, and the ranges and splits that the kernel finds. -/
namespace Verif.Bvh
open Tree

/-! ## Leading zeros -/

theorem countLz_le (x : BitVec 32) : countLz x ≤ 32 := by
  unfold countLz
  split
  · exact Nat.le_refl _
  · omega

theorem le_countLz {x : BitVec 32} {k : Nat} (hk : k ≤ 32) : k ≤ countLz x ↔ x.toNat < 2 ^ (32 - k) := by
  unfold countLz
  split
  · rename_i h
    subst h
    have : 0 < 2 ^ (32 - k) := Nat.two_pow_pos _
    simpa [hk] using this
  · rename_i h
    have h0 : x.toNat ≠ 0 := fun h' => h (BitVec.eq_of_toNat_eq (by simpa using h'))
    have h1 : x.toNat.log2 < 32 := (Nat.log2_lt h0).2 x.isLt
    rw [← Nat.log2_lt h0]
    omega

/-- The first `k` digits. -/
def pre (k : Nat) (x : BitVec 32) : Nat := x.toNat / 2 ^ (32 - k)

theorem xor_zero {a b : Nat} (h : a ^^^ b = 0) : a = b := by
  apply Nat.eq_of_testBit_eq
  intro i
  have := congrArg (Nat.testBit · i) h
  simpa using this

theorem le_lz_iff {x y : BitVec 32} {k : Nat} (hk : k ≤ 32) : k ≤ countLz (x ^^^ y) ↔ pre k x = pre k y := by
  rw [le_countLz hk, pre, pre, BitVec.toNat_xor, ← Nat.div_eq_zero_iff_lt (Nat.two_pow_pos _), Nat.xor_div_two_pow]
  constructor
  · exact xor_zero
  · intro h; rw [h, Nat.xor_self]

theorem lz_comm (x y : BitVec 32) : countLz (x ^^^ y) = countLz (y ^^^ x) := by rw [BitVec.xor_comm]

theorem lz_max {x y : BitVec 32} : countLz (x ^^^ y) = 32 ↔ x = y := by
  have := countLz_le (x ^^^ y)
  constructor
  · intro h
    have := (le_lz_iff (k := 32) (Nat.le_refl _)).1 (Nat.le_of_eq h.symm)
    simp only [pre, Nat.sub_self, Nat.pow_zero, Nat.div_one] at this
    exact BitVec.eq_of_toNat_eq this
  · intro h
    rw [h, BitVec.xor_self]; rfl

theorem lz_ultra {x y z : BitVec 32} {k : Nat} (h1 : k ≤ countLz (x ^^^ y)) (h2 : k ≤ countLz (y ^^^ z)) : k ≤ countLz (x ^^^ z) := by
  have hk := Nat.le_trans h1 (countLz_le _)
  rw [le_lz_iff hk] at *
  rw [h1, h2]

theorem lz_between {x y z : BitVec 32} (h1 : x.toNat ≤ y.toNat) (h2 : y.toNat ≤ z.toNat) :
    countLz (x ^^^ z) ≤ countLz (x ^^^ y) ∧ countLz (x ^^^ z) ≤ countLz (y ^^^ z) := by
  have hk := countLz_le (x ^^^ z)
  have h := (le_lz_iff (x := x) (y := z) hk).1 (Nat.le_refl _)
  have a : pre (countLz (x ^^^ z)) x ≤ pre (countLz (x ^^^ z)) y := Nat.div_le_div_right h1
  have b : pre (countLz (x ^^^ z)) y ≤ pre (countLz (x ^^^ z)) z := Nat.div_le_div_right h2
  exact ⟨(le_lz_iff hk).2 (by omega), (le_lz_iff hk).2 (by omega)⟩

theorem lz_binary {x y z : BitVec 32} (h : countLz (x ^^^ y) = countLz (y ^^^ z)) (hlt : countLz (x ^^^ y) < 32) :
    countLz (x ^^^ y) < countLz (x ^^^ z) := by
  generalize hD : countLz (x ^^^ y) = D at *
  have hp : ∀ w : BitVec 32, pre (D + 1) w / 2 = pre D w := by
    intro w
    rw [pre, pre, Nat.div_div_eq_div_mul, ← Nat.pow_succ, show (32 - (D + 1)).succ = 32 - D by omega]
  have e1 := (le_lz_iff (x := x) (y := y) (k := D) (by omega)).1 (by omega)
  have e2 := (le_lz_iff (x := y) (y := z) (k := D) (by omega)).1 (by omega)
  have n1 : pre (D + 1) x ≠ pre (D + 1) y := fun h' => by have := (le_lz_iff (by omega)).2 h'; omega
  have n2 : pre (D + 1) y ≠ pre (D + 1) z := fun h' => by have := (le_lz_iff (by omega)).2 h'; omega
  apply (le_lz_iff (x := x) (y := z) (k := D + 1) (by omega)).2
  have := hp x
  have := hp y
  have := hp z
  omega

/-! ## Sequences of codes -/

/-- What the construction uses of `d a b`, the number of leading digits that the codes `a` and `b` have in common. -/
structure Delta (n : Nat) (d : Nat → Nat → Nat) : Prop where
  le : ∀ a b, d a b ≤ 32
  comm : ∀ a b, d a b = d b a
  ultra : ∀ a b c k, k ≤ d a b → k ≤ d b c → k ≤ d a c
  between : ∀ a b c, a ≤ b → b ≤ c → c < n → d a c ≤ d a b ∧ d a c ≤ d b c
  binary : ∀ a b c, d a b = d b c → d a b < 32 → d a b < d a c
  self : ∀ a, d a a = 32

def code (mcs : List (BitVec 32)) (a : Nat) : BitVec 32 := mcs.getD a 0

def delta (mcs : List (BitVec 32)) (a b : Nat) : Nat := countLz (code mcs a ^^^ code mcs b)

def Sorted (mcs : List (BitVec 32)) : Prop := ∀ a b, a ≤ b → b < mcs.length → (code mcs a).toNat ≤ (code mcs b).toNat

theorem Sorted.delta {mcs : List (BitVec 32)} (h : Sorted mcs) : Delta mcs.length (delta mcs) where
  le _ _ := countLz_le _
  comm _ _ := lz_comm _ _
  ultra _ _ _ _ := lz_ultra
  between a b c h1 h2 h3 := lz_between (h a b h1 (by omega)) (h b c h2 h3)
  binary _ _ _ := lz_binary
  self _ := lz_max.2 rfl

/-- The split of a range. -/
structure IsSplit (d : Nat → Nat → Nat) (i j g : Nat) : Prop where
  lo : i ≤ g
  hi : g < j
  same : d i j = 32 → g = i
  before : d i j < 32 → d i j < d i g
  after : d i j < 32 → d i (g + 1) = d i j

/-- The tree of a range; leaf `i` has primitive `lab i`. -/
def Kar (d : Nat → Nat → Nat) (lab : Nat → Nat) : Tree → Nat → Prop
  | leaf q, i => q = lab i
  | node l r, i => IsSplit d i (i + (node l r).leaves - 1) (i + l.leaves - 1) ∧ Kar d lab l i ∧ Kar d lab r (i + l.leaves)

section
variable {n : Nat} {d : Nat → Nat → Nat} (H : Delta n d)
include H

theorem Delta.split_exists {i j : Nat} (hij : i < j) (hj : j < n) : ∃ g, IsSplit d i j g := by
  by_cases h : d i j = 32
  · exact ⟨i, Nat.le_refl _, hij, fun _ => rfl, fun h' => by omega, fun h' => by omega⟩
  · have hlt : d i j < 32 := by have := H.le i j; omega
    have key : ∀ k, k ≤ j - i → d i (i + k) ≤ d i j ∨ d i j < d i (i + k) := fun k _ => by omega
    have find : ∀ k, i + k ≤ j → d i (i + k) ≤ d i j → ∃ g, i ≤ g ∧ g < i + k ∧ d i j < d i g ∧ d i (g + 1) ≤ d i j := by
      intro k
      induction k with
      | zero => intro _ h'; rw [Nat.add_zero, H.self] at h'; omega
      | succ k ih =>
        intro h1 h2
        by_cases h3 : d i (i + k) ≤ d i j
        · obtain ⟨g, a, b, c⟩ := ih (by omega) h3
          exact ⟨g, a, by omega, c⟩
        · exact ⟨i + k, by omega, by omega, by omega, h2⟩
    obtain ⟨g, a, b, c, e⟩ := find (j - i) (by omega) (by rw [show i + (j - i) = j by omega]; exact Nat.le_refl _)
    have := (H.between i (g + 1) j (by omega) (by omega) hj).1
    exact ⟨g, a, by omega, fun h' => by omega, fun _ => c, fun _ => by omega⟩

theorem Delta.tree_exists (lab : Nat → Nat) : ∀ (m i : Nat), i + m < n → ∃ u : Tree, u.leaves = m + 1 ∧ Kar d lab u i := by
  intro m
  induction m using Nat.strongRecOn with
  | _ m ih =>
    intro i hi
    rcases Nat.eq_zero_or_pos m with rfl | hm
    · exact ⟨leaf (lab i), rfl, rfl⟩
    · obtain ⟨g, hg⟩ := H.split_exists (i := i) (j := i + m) (by omega) hi
      have h1 := hg.lo
      have h2 := hg.hi
      obtain ⟨l, hl, kl⟩ := ih (g - i) (by omega) i (by omega)
      obtain ⟨r, hr, kr⟩ := ih (i + m - (g + 1)) (by omega) (g + 1) (by omega)
      refine ⟨node l r, by rw [leaves_node]; omega, ?_, kl, ?_⟩
      · rw [leaves_node, show i + (l.leaves + r.leaves) - 1 = i + m by omega, show i + l.leaves - 1 = g by omega]
        exact hg
      · rw [show i + l.leaves = g + 1 by omega]
        exact kr

omit H in
theorem Kar.prims {lab : Nat → Nat} {u : Tree} : ∀ {i : Nat}, Kar d lab u i → u.prims = (List.range' i u.leaves).map lab := by
  induction u with
  | leaf q => intro i h; rw [Kar] at h; subst h; rfl
  | node l r ihl ihr =>
    intro i h
    rw [leaves_node, ← List.range'_append_1, List.map_append, ← ihl h.2.1, ← ihr h.2.2]
    rfl

omit H in
theorem Kar.lab {lab : Nat → Nat} (u : Tree) : ∀ {v x i : Nat} {p : Int} {b : Bool}, Kar d lab u i → ∀ e ∈ ents u v x i p b, ∀ q, e.u = leaf q → q = lab e.i := by
  induction u with
  | leaf q =>
    intro v x i p b h e he q' hq
    rw [ents, List.mem_singleton] at he
    subst he
    cases hq
    exact h
  | node l r ihl ihr =>
    intro v x i p b h e he q hq
    simp only [ents, List.mem_cons, List.mem_append] at he
    rcases he with rfl | he | he
    · cases hq
    · exact ihl h.2.1 e he q hq
    · exact ihr h.2.2 e he q hq

/-- What a range of the tree satisfies: it cannot be extended. -/
structure Maxi (n : Nat) (d : Nat → Nat → Nat) (i j : Nat) : Prop where
  lt : j < n
  right : j + 1 = n ∨ d j (j + 1) < d i j
  left : i = 0 ∨ d (i - 1) i < d i j ∨ d (i - 1) j = 32

theorem Delta.split_lz {i j g : Nat} (hj : j < n) (h : IsSplit d i j g) : d g (g + 1) = d i j := by
  have h1 := h.lo
  have h2 := h.hi
  rcases Nat.lt_or_ge (d i j) 32 with hlt | hge
  · have a := h.before hlt
    have b := h.after hlt
    have c := (H.between i g (g + 1) h1 (by omega) (by omega)).2
    have e := H.comm i g
    have f := H.comm g (g + 1)
    have : ¬ d i j < d g (g + 1) := fun h' => by
      have := H.ultra i g (g + 1) (d i j + 1) (by omega) (by omega)
      omega
    omega
  · have a := (H.between i g j h1 (by omega) hj).2
    have b := (H.between g (g + 1) j (by omega) (by omega) hj).1
    have := H.le g (g + 1)
    have := H.le i j
    omega

theorem Delta.split_right {i j g : Nat} (hj : j < n) (h : IsSplit d i j g) (hlt : d i j < 32) : d i j < d (g + 1) j := by
  have a := h.after hlt
  have h1 := h.lo
  have h2 := h.hi
  have b := (H.between i (g + 1) j (by omega) (by omega) hj).2
  rcases Nat.lt_or_ge (d i j) (d (g + 1) j) with h' | h'
  · exact h'
  · have := H.binary i (g + 1) j (by omega) (by omega)
    omega

/-- The halves of a range are ranges. -/
theorem Delta.maxi_left {i j g : Nat} (hm : Maxi n d i j) (h : IsSplit d i j g) (hlt : i < g) : Maxi n d i g := by
  have h1 := h.lo
  have h2 := h.hi
  have hj := hm.lt
  have hD : d i j < 32 := by
    rcases Nat.lt_or_ge (d i j) 32 with h' | h'
    · exact h'
    · have := h.same (by have := H.le i j; omega); omega
  have a := h.before hD
  refine ⟨by omega, .inr (by have := H.split_lz hj h; omega), ?_⟩
  rcases hm.left with h3 | h3 | h3
  · exact .inl h3
  · exact .inr (.inl (by omega))
  · right
    rcases Nat.eq_zero_or_pos i with h0 | h0
    · subst h0
      have := (H.between 0 0 j (Nat.le_refl _) (by omega) hj).2
      have e : (0 - 1 : Nat) = 0 := rfl
      rw [e] at h3
      omega
    · have := (H.between (i - 1) i j (by omega) (by omega) hj).2
      omega

theorem Delta.maxi_right {i j g : Nat} (hm : Maxi n d i j) (h : IsSplit d i j g) : Maxi n d (g + 1) j := by
  have h1 := h.lo
  have h2 := h.hi
  have hj := hm.lt
  have c := (H.between i (g + 1) j (by omega) (by omega) hj).2
  refine ⟨hj, ?_, ?_⟩
  · rcases hm.right with h3 | h3
    · exact .inl h3
    · exact .inr (by omega)
  · right
    rw [Nat.add_sub_cancel]
    have e := H.split_lz hj h
    rcases Nat.lt_or_ge (d i j) 32 with hlt | hge
    · exact .inl (by have := H.split_right hj h hlt; omega)
    · have := (H.between i g j h1 (by omega) hj).2
      exact .inr (by have := H.le i j; have := H.le g j; omega)

end

/-! ## Search -/

theorem at?_code {mcs : List (BitVec 32)} {i : Nat} (h : i < mcs.length) : at? mcs (i : Int) = some (code mcs i) := by
  rw [at?_nat, code, List.getD_eq_getElem?_getD, List.getElem?_eq_getElem h]; rfl

theorem grow_spec {mcs : List (BitVec 32)} {cur : BitVec 32} {z : Nat} {left dir : Int} {L : Nat}
    (hs : ∀ s : Nat, 1 ≤ s → shares mcs cur z (left + (s : Int) * dir) = some (decide (s ≤ L))) :
    ∀ (fuel k : Nat), L + 1 < fuel + 2 ^ (k + 1) → 1 ≤ fuel → 2 ^ k ≤ L → ∃ k', grow mcs cur z left dir fuel ((2 ^ (k + 1) : Nat) : Int) = some ((2 ^ (k' + 1) : Nat) : Int) ∧
      2 ^ k' ≤ L ∧ L < 2 ^ (k' + 1) := by
  intro fuel
  induction fuel with
  | zero => intro k _ h; omega
  | succ fuel ih =>
    intro k h1 _ h2
    have hpos : 1 ≤ 2 ^ (k + 1) := Nat.two_pow_pos _
    rw [grow, hs _ hpos]
    by_cases hle : 2 ^ (k + 1) ≤ L
    · have e : ((2 ^ (k + 1) : Nat) : Int) * 2 = ((2 ^ (k + 1 + 1) : Nat) : Int) := by rw [Nat.pow_succ 2 (k + 1)]; simp
      have e2 : 2 ^ (k + 1 + 1) = 2 * 2 ^ (k + 1) := by rw [Nat.pow_succ 2 (k + 1), Nat.mul_comm]
      rw [Option.bind_some, if_pos (by simpa using hle), e]
      exact ih (k + 1) (by omega) (by omega) hle
    · rw [Option.bind_some, if_neg (by simpa using hle)]
      exact ⟨k, rfl, h2, by omega⟩

theorem bisect_spec {mcs : List (BitVec 32)} {cur : BitVec 32} {z : Nat} {left dir : Int} {L : Nat}
    (hs : ∀ s : Nat, 1 ≤ s → shares mcs cur z (left + (s : Int) * dir) = some (decide (s ≤ L))) :
    ∀ (k fuel len : Nat), k + 1 < fuel → len ≤ L → L < len + 2 ^ (k + 1) →
      bisect mcs cur z left dir fuel (len : Int) ((2 ^ k : Nat) : Int) = some (L : Int) := by
  intro k
  induction k with
  | zero =>
    intro fuel len hf h1 h2
    obtain ⟨f, rfl⟩ : ∃ f, fuel = f + 2 := ⟨fuel - 2, by omega⟩
    have e : ((len : Int) + ((2 ^ 0 : Nat) : Int)) = ((len + 1 : Nat) : Int) := by simp
    rw [bisect, if_pos (by simp), e, hs _ (by omega), Option.bind_some, bisect, if_neg (by simp)]
    simp only [decide_eq_true_eq]
    split <;> congr 1 <;> omega
  | succ k ih =>
    intro fuel len hf h1 h2
    obtain ⟨f, rfl⟩ : ∃ f, fuel = f + 1 := ⟨fuel - 1, by omega⟩
    have hpos : 1 ≤ 2 ^ (k + 1) := Nat.two_pow_pos _
    have e2 : 2 ^ (k + 1 + 1) = 2 * 2 ^ (k + 1) := by rw [Nat.pow_succ 2 (k + 1), Nat.mul_comm]
    have e : ((len : Int) + ((2 ^ (k + 1) : Nat) : Int)) = ((len + 2 ^ (k + 1) : Nat) : Int) := by rw [Int.natCast_add]
    have e3 : ((2 ^ (k + 1) : Nat) : Int) / 2 = ((2 ^ k : Nat) : Int) := by
      rw [Nat.pow_succ, Nat.mul_comm]
      have := Nat.two_pow_pos k
      omega
    rw [bisect, if_pos (by exact_mod_cast hpos), e, hs _ (by omega), Option.bind_some, e3]
    by_cases hle : len + 2 ^ (k + 1) ≤ L
    · rw [if_pos (by simpa using hle)]
      exact ih f _ (by omega) hle (by omega)
    · rw [if_neg (by simpa using hle)]
      exact ih f len (by omega) h1 (by omega)

theorem two_pow_gt (k : Nat) : k + 1 ≤ 2 ^ k := by
  induction k with
  | zero => exact Nat.le_refl _
  | succ k ih => rw [Nat.pow_succ]; omega

/-- The exponential search finds the length of the range. -/
theorem search_spec {mcs : List (BitVec 32)} {cur : BitVec 32} {z : Nat} {left dir : Int} {L : Nat} (hL : 1 ≤ L) (hn : L ≤ mcs.length)
    (hs : ∀ s : Nat, 1 ≤ s → shares mcs cur z (left + (s : Int) * dir) = some (decide (s ≤ L))) :
    ((grow mcs cur z left dir (mcs.length + 1) 2).bind fun step => bisect mcs cur z left dir (step.toNat + 1) 0 (step / 2)) = some (L : Int) := by
  obtain ⟨k, h1, h2, h3⟩ := grow_spec hs (mcs.length + 1) 0 (by simp; omega) (by omega) hL
  have e : ((2 ^ (0 + 1) : Nat) : Int) = 2 := rfl
  rw [e] at h1
  have e3 : ((2 ^ (k + 1) : Nat) : Int) / 2 = ((2 ^ k : Nat) : Int) := by
    rw [Nat.pow_succ, Nat.mul_comm]
    have := Nat.two_pow_pos k
    omega
  rw [h1, Option.bind_some, e3, Int.toNat_natCast]
  exact bisect_spec hs k _ 0 (by have := two_pow_gt (k + 1); omega) (by omega) (by omega)

/-! ## The range of a node -/

theorem shares_spec {mcs : List (BitVec 32)} {x z : Nat} (r : Nat) (hr : r < mcs.length) :
    shares mcs (code mcs x) z (r : Int) = some (decide (z < delta mcs r x)) := by
  rw [shares, if_pos ⟨by exact_mod_cast hr, Int.natCast_nonneg r⟩, at?_code hr]
  rfl

theorem shares_out {mcs : List (BitVec 32)} {cur : BitVec 32} {z : Nat} {r : Int} (hr : r < 0 ∨ (mcs.length : Int) ≤ r) :
    shares mcs cur z r = some false := by
  rw [shares, if_neg (by omega)]

theorem runRight_spec {mcs : List (BitVec 32)} {j : Nat} (hj : j < mcs.length) (he : j + 1 = mcs.length ∨ code mcs j ≠ code mcs (j + 1)) :
    ∀ (fuel r : Nat), r ≤ j → j - r < fuel → (∀ a, r ≤ a → a < j → code mcs a = code mcs (a + 1)) → runRight mcs fuel (r : Int) = some (j : Int) := by
  intro fuel
  induction fuel with
  | zero => intro r _ h; omega
  | succ fuel ih =>
    intro r h1 h2 h3
    rw [runRight]
    have e : ((r : Int) + 1) = ((r + 1 : Nat) : Int) := by simp
    by_cases hr : r = j
    · subst hr
      rcases he with he | he
      · rw [if_neg (by omega)]
      · by_cases hl : (r : Int) < (mcs.length : Int) - 1
        · rw [if_pos hl, at?_code hj, e, at?_code (by omega), Option.bind_some, Option.bind_some, if_pos he]
        · rw [if_neg hl]
    · rw [if_pos (by omega), at?_code (by omega), e, at?_code (by omega), Option.bind_some, Option.bind_some, if_neg (by simpa using h3 r (Nat.le_refl _) (by omega))]
      exact ih (r + 1) (by omega) (by omega) fun a ha hb => h3 a (by omega) hb

theorem rangeOf_inner {mcs : List (BitVec 32)} {x : Nat} (h0 : 0 < x) (hx : x + 1 < mcs.length) : rangeOf mcs x =
    if code mcs (x - 1) = code mcs x ∧ code mcs x = code mcs (x + 1) then (runRight mcs (mcs.length + 1) ((x : Int) + 1)).map fun j => ((x : Int), j)
    else
      let lLZ := delta mcs (x - 1) x
      let rLZ := delta mcs (x + 1) x
      let dir : Int := if rLZ < lLZ then -1 else 1
      let minLZ := if rLZ < lLZ then rLZ else lLZ
      ((grow mcs (code mcs x) minLZ x dir (mcs.length + 1) 2).bind fun step =>
        bisect mcs (code mcs x) minLZ x dir (step.toNat + 1) 0 (step / 2)).map fun len =>
          if dir = 1 then ((x : Int), x + len) else (x - len, (x : Int)) := by
  have e1 : ((x : Int) - 1) = ((x - 1 : Nat) : Int) := by omega
  have e2 : ((x : Int) + 1) = ((x + 1 : Nat) : Int) := by simp
  rw [rangeOf, if_neg (by omega), e1, at?_code (by omega), at?_code (by omega), e2, at?_code hx, Option.bind_some, Option.bind_some, Option.bind_some]
  by_cases h : code mcs (x - 1) = code mcs x ∧ code mcs x = code mcs (x + 1)
  · rw [if_pos h, if_pos h]
  · rw [if_neg h, if_neg h]
    dsimp only [delta]
    rw [Option.map_bind]
    rfl

section
variable {mcs : List (BitVec 32)} (H : Delta mcs.length (delta mcs))
include H

theorem range_dup {x j : Nat} (h0 : 0 < x) (hx : x < j) (hj : j < mcs.length) (hd : delta mcs (x - 1) j = 32)
    (he : j + 1 = mcs.length ∨ delta mcs j (j + 1) < 32) : rangeOf mcs x = some ((x : Int), (j : Int)) := by
  have hc : ∀ a b, x - 1 ≤ a → a ≤ b → b ≤ j → code mcs a = code mcs b := by
    intro a b h1 h2 h3
    have q1 := (H.between (x - 1) a j h1 (by omega) hj).2
    have q2 := (H.between a b j h2 h3 hj).1
    have := H.le a b
    exact lz_max.1 (show delta mcs a b = 32 by omega)
  have e2 : ((x : Int) + 1) = ((x + 1 : Nat) : Int) := by simp
  rw [rangeOf_inner h0 (by omega), if_pos ⟨hc _ _ (Nat.le_refl _) (by omega) (by omega), hc _ _ (by omega) (by omega) (by omega)⟩, e2,
    runRight_spec hj (he.imp id fun h h' => by have := lz_max.2 h'; rw [delta] at h; omega) _ _ (by omega) (by omega)
      fun a ha hb => hc a (a + 1) (by omega) (by omega) (by omega)]
  rfl

theorem range_right {x j : Nat} (h0 : 0 < x) (hx : x < j) (hj : j < mcs.length) (hd : delta mcs (x - 1) x < delta mcs x j)
    (he : j + 1 = mcs.length ∨ delta mcs x (j + 1) ≤ delta mcs (x - 1) x) : rangeOf mcs x = some ((x : Int), (j : Int)) := by
  have q1 := (H.between x (x + 1) j (by omega) (by omega) hj).1
  have q2 := H.comm x (x + 1)
  have q3 := H.le x j
  rw [rangeOf_inner h0 (by omega), if_neg (fun h => by have := lz_max.2 h.1; rw [delta] at hd; omega)]
  dsimp only
  rw [if_neg (by omega), if_neg (by omega), search_spec (L := j - x) (by omega) (by omega), Option.map_some, if_pos rfl]
  · congr 2
    omega
  · intro s hs
    have e : ((x : Int) + (s : Int) * 1) = ((x + s : Nat) : Int) := by simp
    rw [e]
    by_cases hl : x + s < mcs.length
    · rw [shares_spec _ hl]
      congr 1
      have q4 := H.comm (x + s) x
      by_cases hsj : s ≤ j - x
      · have := (H.between x (x + s) j (by omega) (by omega) hj).1
        simp only [hsj, decide_true, decide_eq_true_eq]
        omega
      · have := (H.between x (j + 1) (x + s) (by omega) (by omega) hl).1
        simp only [hsj, decide_false, decide_eq_false_iff_not]
        omega
    · rw [shares_out (.inr (by omega)), decide_eq_false (by omega)]

theorem range_left {x i : Nat} (hx : i < x) (hj : x + 1 < mcs.length) (hd : delta mcs x (x + 1) < delta mcs i x)
    (he : i = 0 ∨ delta mcs (i - 1) x ≤ delta mcs x (x + 1)) : rangeOf mcs x = some ((i : Int), (x : Int)) := by
  have q1 := (H.between i (x - 1) x (by omega) (by omega) (by omega)).2
  have q2 := H.comm x (x + 1)
  have q3 := H.le i x
  rw [rangeOf_inner (by omega) hj, if_neg (fun h => by have := lz_max.2 h.2; rw [delta] at hd; omega)]
  dsimp only
  rw [if_pos (by omega), if_pos (by omega), search_spec (L := x - i) (by omega) (by omega), Option.map_some, if_neg (by decide)]
  · congr 2
    omega
  · intro s hs
    by_cases hl : s ≤ x
    · have e : ((x : Int) + (s : Int) * -1) = ((x - s : Nat) : Int) := by omega
      rw [e, shares_spec _ (by omega)]
      congr 1
      by_cases hsj : s ≤ x - i
      · have := (H.between i (x - s) x (by omega) (by omega) (by omega)).2
        simp only [hsj, decide_true, decide_eq_true_eq]
        omega
      · have := (H.between (x - s) (i - 1) x (by omega) (by omega) (by omega)).2
        simp only [hsj, decide_false, decide_eq_false_iff_not]
        omega
    · rw [shares_out (.inl (by omega)), decide_eq_false (by omega)]

theorem kid_right {i j g : Nat} (hm : Maxi mcs.length (delta mcs) i j) (h : IsSplit (delta mcs) i j g) (hlt : g + 1 < j) :
    rangeOf mcs (g + 1) = some (((g + 1 : Nat) : Int), (j : Int)) := by
  have h1 := h.lo
  have h2 := h.hi
  have hj := hm.lt
  have e := H.split_lz hj h
  rcases Nat.lt_or_ge (delta mcs i j) 32 with hD | hD
  · refine range_right H (by omega) hlt hj ?_ ?_
    · rw [Nat.add_sub_cancel]
      have := H.split_right hj h hD
      omega
    · rw [Nat.add_sub_cancel]
      rcases hm.right with h3 | h3
      · exact .inl h3
      · by_cases hn : j + 1 = mcs.length
        · exact .inl hn
        · right
          have := (H.between (g + 1) j (j + 1) (by omega) (by omega) (by omega)).2
          omega
  · have hD : delta mcs i j = 32 := by have := H.le i j; omega
    refine range_dup H (by omega) hlt hj ?_ ?_
    · rw [Nat.add_sub_cancel, h.same hD]; exact hD
    · exact hm.right.imp id fun h3 => by omega

theorem kid_left {i j g : Nat} (hm : Maxi mcs.length (delta mcs) i j) (h : IsSplit (delta mcs) i j g) (hlt : i < g) :
    rangeOf mcs g = some ((i : Int), (g : Int)) := by
  have h1 := h.lo
  have h2 := h.hi
  have hj := hm.lt
  have e := H.split_lz hj h
  have hD : delta mcs i j < 32 := by
    rcases Nat.lt_or_ge (delta mcs i j) 32 with h' | h'
    · exact h'
    · have := h.same (by have := H.le i j; omega); omega
  refine range_left H hlt (by omega) (by have := h.before hD; omega) ?_
  rcases hm.left with h3 | h3 | h3
  · exact .inl h3
  · by_cases h0 : i = 0
    · exact .inl h0
    · right
      have := (H.between (i - 1) i g (by omega) (by omega) (by omega)).1
      omega
  · by_cases h0 : i = 0
    · exact .inl h0
    · have := (H.between (i - 1) i j (by omega) (by omega) hj).2
      omega

theorem splitLoop_spec {i j g : Nat} (hj : j < mcs.length) (h : IsSplit (delta mcs) i j g) (hD : delta mcs i j < 32) :
    ∀ (fuel len step : Nat), step < fuel → 1 ≤ step → i + len ≤ g → g < i + len + 2 * step →
      splitLoop mcs ((mcs.length - 1 : Nat) : Int) i (code mcs i) (delta mcs i j) fuel (len : Int) (step : Int) = some ((g - i : Nat) : Int) := by
  have h1 := h.lo
  have h2 := h.hi
  have hb := h.before hD
  have ha := h.after hD
  intro fuel
  induction fuel with
  | zero => intro len step hf; omega
  | succ fuel ih =>
    intro len step hf hs hlo hhi
    have e : ((i : Int) + (len : Int) + (step : Int)) = ((i + len + step : Nat) : Int) := by simp
    have e2 : (((step : Int) + 1) / 2) = (((step + 1) / 2 : Nat) : Int) := by omega
    rw [splitLoop, e, e2]
    by_cases hc : ((mcs.length - 1 : Nat) : Int) < ((i + len + step : Nat) : Int)
    · rw [if_pos hc]
      have : i + len + step > mcs.length - 1 := by exact_mod_cast hc
      exact ih len _ (by omega) (by omega) hlo (by omega)
    · have hc' : i + len + step ≤ mcs.length - 1 := by omega
      rw [if_neg hc, at?_code (by omega), Option.bind_some]
      have q := H.comm (i + len + step) i
      rw [show countLz (code mcs (i + len + step) ^^^ code mcs i) = delta mcs (i + len + step) i from rfl, q]
      by_cases hle : i + len + step ≤ g
      · have := (H.between i (i + len + step) g (by omega) hle (by omega)).1
        have e3 : ((len : Int) + (step : Int)) = ((len + step : Nat) : Int) := by simp
        dsimp only
        rw [if_pos (show delta mcs i j < delta mcs i (i + len + step) by omega), e3]
        by_cases h1' : step ≤ 1
        · rw [if_pos (by exact_mod_cast h1')]
          congr 2
          omega
        · rw [if_neg (by exact_mod_cast h1')]
          exact ih _ _ (by omega) (by omega) (by omega) (by omega)
      · have := (H.between i (g + 1) (i + len + step) (by omega) (by omega) (by omega)).1
        dsimp only
        rw [if_neg (show ¬ delta mcs i j < delta mcs i (i + len + step) by omega)]
        by_cases h1' : step ≤ 1
        · rw [if_pos (by exact_mod_cast h1')]
          congr 2
          omega
        · rw [if_neg (by exact_mod_cast h1')]
          exact ih _ _ (by omega) (by omega) (by omega) (by omega)

theorem splitOf_spec {i j g : Nat} (hj : j < mcs.length) (h : IsSplit (delta mcs) i j g) :
    splitOf mcs ((mcs.length - 1 : Nat) : Int) i j = some (g : Int) := by
  have h1 := h.lo
  have h2 := h.hi
  rw [splitOf, at?_code (by omega), at?_code hj, Option.bind_some, Option.bind_some]
  by_cases he : code mcs i = code mcs j
  · rw [if_pos he, h.same (lz_max.2 he)]
  · have hD : delta mcs i j < 32 := by
      have := H.le i j
      have : delta mcs i j ≠ 32 := fun h' => he (lz_max.1 h')
      omega
    have e : (((j : Int) - (i : Int) + 1) / 2) = (((j - i + 1) / 2 : Nat) : Int) := by omega
    have e' : ((j : Int) - (i : Int)).toNat = j - i := by omega
    have := splitLoop_spec H hj h hD ((j - i) + 2) 0 ((j - i + 1) / 2) (by omega) (by omega) (by omega) (by omega)
    rw [if_neg he, e, e']
    rw [delta] at this
    rw [show (0 : Int) = ((0 : Nat) : Int) from rfl, this, Option.map_some]
    congr 1
    omega

/-- What the kernel finds at every inner node of the tree. -/
theorem ents_range {lab : Nat → Nat} (u : Tree) : ∀ {v x i : Nat} {p : Int} {b : Bool}, Kar (delta mcs) lab u i → (u.isLeaf = false → Maxi mcs.length (delta mcs) i (i + u.leaves - 1) ∧
      rangeOf mcs x = some ((i : Int), ((i + u.leaves - 1 : Nat) : Int))) →
    ∀ e ∈ ents u v x i p b, ∀ l r, e.u = node l r → e.i + e.u.leaves ≤ mcs.length ∧ rangeOf mcs e.x = some ((e.i : Int), ((e.i + e.u.leaves - 1 : Nat) : Int)) ∧
      splitOf mcs ((mcs.length - 1 : Nat) : Int) e.i ((e.i + e.u.leaves - 1 : Nat) : Int) = some ((e.i + l.leaves - 1 : Nat) : Int) := by
  induction u with
  | leaf q =>
    intro v x i p b _ _ e he l r hu
    rw [ents, List.mem_singleton] at he
    subst he
    cases hu
  | node a c iha ihc =>
    intro v x i p b hk hm e he l r hu
    obtain ⟨hs, ka, kc⟩ := hk
    obtain ⟨hm, hr⟩ := hm rfl
    have p1 := a.leaves_pos
    have p2 := c.leaves_pos
    have hlt := hm.lt
    have hl := leaves_node a c
    have eg : i + a.leaves - 1 + 1 = i + a.leaves := by omega
    simp only [ents, List.mem_cons, List.mem_append] at he
    rcases he with rfl | he | he
    · cases hu
      dsimp only
      exact ⟨by omega, hr, splitOf_spec H hlt hs⟩
    · refine iha ka (fun hleaf => ?_) e he l r hu
      have : 1 < a.leaves := by
        cases a with
        | leaf q => cases hleaf
        | node a1 a2 => have := a1.leaves_pos; have := a2.leaves_pos; rw [leaves_node]; omega
      exact ⟨H.maxi_left hm hs (by omega), kid_left H hm hs (by omega)⟩
    · refine ihc kc (fun hleaf => ?_) e he l r hu
      have : 1 < c.leaves := by
        cases c with
        | leaf q => cases hleaf
        | node a1 a2 => have := a1.leaves_pos; have := a2.leaves_pos; rw [leaves_node]; omega
      have ej : i + a.leaves + c.leaves - 1 = i + (node a c).leaves - 1 := by omega
      have k1 := H.maxi_right hm hs
      have k2 := kid_right H hm hs (by omega)
      rw [eg] at k1 k2
      rw [ej]
      exact ⟨k1, k2⟩

end

end Verif.Bvh
