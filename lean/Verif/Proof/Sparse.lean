import Verif.Model.Sparse
/-! Helper lemmas for the access to sparse entries (C49). -/
namespace Verif.Sparse

variable {V : Type}

/-- The line from `lo` to `en` holds the columns `arr` in ascending order without repetition. -/
structure Line (read : Nat → Option Nat) (arr : Nat → Nat) (lo en : Nat) : Prop where
  le : lo ≤ en
  bound : en < 2 ^ 32
  read : ∀ p, lo ≤ p → p < en → read p = some (arr p)
  lt : ∀ p q, lo ≤ p → p < q → q < en → arr p < arr q

theorem mid_toNat (a e : Nat) (h : a < e) (he : e < 2 ^ 32) :
    (BitVec.ofNat 32 a + (BitVec.ofNat 32 e - 1 - BitVec.ofNat 32 a) / 2).toNat = a + (e - 1 - a) / 2 := by
  simp only [BitVec.toNat_add, BitVec.toNat_udiv, BitVec.toNat_sub, BitVec.toNat_ofNat]
  have h1 : (1 : BitVec 32).toNat = 1 := rfl
  have h2 : (2 : BitVec 32).toNat = 2 := rfl
  rw [h1, h2]
  have e1 : a % 2 ^ 32 = a := Nat.mod_eq_of_lt (by omega)
  have e2 : e % 2 ^ 32 = e := Nat.mod_eq_of_lt he
  have e3 : (2 ^ 32 - 1 + e) % 2 ^ 32 = e - 1 := by omega
  rw [e1, e2, e3]
  have e4 : (2 ^ 32 - a + (e - 1)) % 2 ^ 32 = e - 1 - a := by omega
  rw [e4]
  omega

theorem le_iff (a e : Nat) (h : a ≤ e) (h1 : 0 < e) (he : e < 2 ^ 32) :
    BitVec.ofNat 32 a ≤ BitVec.ofNat 32 e - 1 ↔ a < e := by
  rw [BitVec.le_def, BitVec.toNat_sub, BitVec.toNat_ofNat, BitVec.toNat_ofNat]
  have h1 : (1 : BitVec 32).toNat = 1 := rfl
  rw [h1]
  omega

theorem eq_ofNat {x : BitVec 32} {n : Nat} (h : x.toNat = n) : x = BitVec.ofNat 32 n := by
  rw [← h, BitVec.ofNat_toNat, BitVec.setWidth_eq]

theorem ofNat_succ (q : Nat) : BitVec.ofNat 32 q + 1 = BitVec.ofNat 32 (q + 1) := by
  apply BitVec.eq_of_toNat_eq
  rw [BitVec.toNat_add, BitVec.toNat_ofNat, BitVec.toNat_ofNat]
  have h1 : (1 : BitVec 32).toNat = 1 := rfl
  rw [h1]
  omega

/-- One round. -/
theorem search_step {read : Nat → Option Nat} {target a e q c : Nat} (n : Nat) (h : a < e) (he : e < 2 ^ 32)
    (hq : q = a + (e - 1 - a) / 2) (hr : read q = some c) :
    search read target (n + 1) (BitVec.ofNat 32 a) (BitVec.ofNat 32 e - 1) =
      if target = c then .at (BitVec.ofNat 32 q)
      else if target < c then search read target n (BitVec.ofNat 32 a) (BitVec.ofNat 32 q - 1)
      else search read target n (BitVec.ofNat 32 (q + 1)) (BitVec.ofNat 32 e - 1) := by
  rw [search, if_pos ((le_iff a e (by omega) (by omega) he).2 h)]
  have hm := mid_toNat a e h he
  rw [← hq] at hm
  have hmm := eq_ofNat hm
  generalize BitVec.ofNat 32 a + (BitVec.ofNat 32 e - 1 - BitVec.ofNat 32 a) / 2 = mid at *
  dsimp only
  rw [hm, hr, hmm, ofNat_succ]

/-- What a search over the line finds. -/
def Finds (arr : Nat → Nat) (lo en target : Nat) : Found → Prop
  | .at p => lo ≤ p.toNat ∧ p.toNat < en ∧ arr p.toNat = target
  | .absent => ∀ p, lo ≤ p → p < en → arr p ≠ target
  | _ => False

theorem Finds.hit {arr : Nat → Nat} {lo en target q : Nat} (h : q < 2 ^ 32) (h1 : lo ≤ q) (h2 : q < en)
    (h3 : arr q = target) : Finds arr lo en target (.at (BitVec.ofNat 32 q)) := by
  have : (BitVec.ofNat 32 q).toNat = q := by rw [BitVec.toNat_ofNat]; exact Nat.mod_eq_of_lt h
  unfold Finds
  dsimp only
  rw [this]
  exact ⟨h1, h2, h3⟩

theorem search_spec {read : Nat → Option Nat} {arr : Nat → Nat} {lo en : Nat} (h : Line read arr lo en)
    (target : Nat) (hl : 0 < lo ∨ lo < en ∧ arr lo ≤ target) :
    ∀ n a e, e - a < 2 ^ n → lo ≤ a → a ≤ e → e ≤ en → (∀ p, lo ≤ p → p < a → arr p < target) →
      (∀ p, e ≤ p → p < en → target < arr p) →
      Finds arr lo en target (search read target (n + 1) (BitVec.ofNat 32 a) (BitVec.ofNat 32 e - 1)) := by
  intro n
  induction n with
  | zero =>
    intro a e hn ha hae hee hlt hgt
    have hb := h.bound
    have h0 : 0 < e := by
      rcases hl with hl | ⟨h1, h2⟩
      · omega
      · rcases Nat.eq_zero_or_pos e with rfl | h3
        · have := hgt lo (by omega) h1; omega
        · exact h3
    have : ¬ BitVec.ofNat 32 a ≤ BitVec.ofNat 32 e - 1 := by rw [le_iff a e hae h0 (by omega)]; omega
    rw [search, if_neg this]
    intro p h1 h2 h3
    by_cases h4 : p < a
    · have := hlt p h1 h4; omega
    · have := hgt p (by omega) h2; omega
  | succ n ih =>
    intro a e hn ha hae hee hlt hgt
    have hb := h.bound
    have h0 : 0 < e := by
      rcases hl with hl | ⟨h1, h2⟩
      · omega
      · rcases Nat.eq_zero_or_pos e with rfl | h3
        · have := hgt lo (by omega) h1; omega
        · exact h3
    by_cases hc : a < e
    · have hpow : 2 ^ (n + 1) = 2 * 2 ^ n := by rw [Nat.pow_succ]; omega
      obtain ⟨q, hq⟩ : ∃ q, q = a + (e - 1 - a) / 2 := ⟨_, rfl⟩
      rw [search_step (n + 1) hc (by omega) hq (h.read q (by omega) (by omega))]
      by_cases ht : target = arr q
      · rw [if_pos ht]
        exact Finds.hit (by omega) (by omega) (by omega) ht.symm
      · rw [if_neg ht]
        by_cases ht : target < arr q
        · rw [if_pos ht]
          exact ih a q (by omega) ha (by omega) (by omega) hlt (fun p h1 h2 => by
            by_cases h3 : p = q
            · rw [h3]; exact ht
            · have := h.lt q p (by omega) (by omega) h2; omega)
        · rw [if_neg ht]
          exact ih (q + 1) e (by omega) (by omega) (by omega) hee (fun p h1 h2 => by
            by_cases h3 : p = q
            · rw [h3]; omega
            · have := h.lt p q h1 (by omega) (by omega); omega) hgt
    · rw [search, if_neg (fun h => hc ((le_iff a e hae h0 (by omega)).1 h))]
      intro p h1 h2 h3
      by_cases h4 : p < a
      · have := hlt p h1 h4; omega
      · have := hgt p (by omega) h2; omega

/-- `exist` runs the same loop. -/
theorem existLoop_eq (read : Nat → Option Nat) (target : Nat) :
    ∀ n st ed, existLoop read target n st ed = match search read target n st ed with
      | .at _ => some true
      | .absent => some false
      | _ => none := by
  intro n
  induction n with
  | zero => intro _ _; rfl
  | succ n ih =>
    intro st ed
    rw [existLoop, search]
    by_cases h : st ≤ ed
    · rw [if_pos h, if_pos h]
      dsimp only
      cases read (st + (ed - st) / 2).toNat with
      | none => rfl
      | some c =>
        dsimp only [Option.bind]
        by_cases h1 : target = c
        · rw [if_pos h1, if_pos h1, decide_eq_true h]
        · rw [if_neg h1, if_neg h1]
          by_cases h2 : target < c
          · rw [if_pos h2, if_pos h2]; exact ih _ _
          · rw [if_neg h2, if_neg h2]; exact ih _ _
    · rw [if_neg h, if_neg h, decide_eq_false h]

/-- The search of the first line, when the target is below every column of it, goes down to offset 0, from there
to the largest word, and then reads the middle of all words. -/
theorem search_wraps {read : Nat → Option Nat} {arr : Nat → Nat} {en : Nat} (h : Line read arr 0 en) (target : Nat)
    (hl : ∀ p, p < en → target < arr p) (hr : read (2 ^ 31 - 1) = none) :
    ∀ n e, e < 2 ^ n → e ≤ en →
      search read target (n + 2) 0 (BitVec.ofNat 32 e - 1) = .outOfBounds := by
  have last : ∀ n, search read target (n + 1) 0 (BitVec.ofNat 32 0 - 1) = .outOfBounds := by
    intro n
    rw [search, if_pos (by decide)]
    have : ((0 : BitVec 32) + (BitVec.ofNat 32 0 - 1 - 0) / 2).toNat = 2 ^ 31 - 1 := by decide
    dsimp only
    rw [this, hr]
  intro n
  induction n with
  | zero =>
    intro e he _
    have : e = 0 := by omega
    rw [this]; exact last 1
  | succ n ih =>
    intro e he hee
    have hb := h.bound
    rcases Nat.eq_zero_or_pos e with rfl | h0
    · exact last _
    · have hpow : 2 ^ (n + 1) = 2 * 2 ^ n := by rw [Nat.pow_succ]; omega
      have h00 : (0 : BitVec 32) = BitVec.ofNat 32 0 := rfl
      obtain ⟨q, hq⟩ : ∃ q, q = 0 + (e - 1 - 0) / 2 := ⟨_, rfl⟩
      have ht := hl q (by omega)
      rw [h00, search_step (n + 2) h0 (by omega) hq (h.read q (by omega) (by omega)), if_neg (by omega), if_pos ht]
      exact ih q (by omega) (by omega)

theorem scan_spec (m : Mat V) (target : Nat) {arr : Nat → Nat} :
    ∀ n o, (∀ p, o ≤ p → p < o + n → m.inds[p]? = some (arr p) ∧ p < m.vals.length) →
      ∃ r, scan m target n o = some r ∧
        (r = none ∧ (∀ p, o ≤ p → p < o + n → arr p ≠ target) ∨
          ∃ p, o ≤ p ∧ p < o + n ∧ arr p = target ∧ (∀ q, o ≤ q → q < p → arr q ≠ target) ∧ r = m.vals[p]?) := by
  intro n
  induction n with
  | zero => intro o _; exact ⟨none, rfl, .inl ⟨rfl, fun p h1 h2 => by omega⟩⟩
  | succ n ih =>
    intro o h
    obtain ⟨h1, h2⟩ := h o (Nat.le_refl _) (by omega)
    rw [scan, h1]
    dsimp only [Option.bind]
    by_cases ht : arr o = target
    · rw [if_pos ht, List.getElem?_eq_getElem h2]
      exact ⟨_, rfl, .inr ⟨o, Nat.le_refl _, by omega, ht, fun q _ _ => by omega, (List.getElem?_eq_getElem h2).symm⟩⟩
    · rw [if_neg ht]
      obtain ⟨r, hr, hc⟩ := ih (o + 1) (fun p h3 h4 => h p (by omega) (by omega))
      refine ⟨r, hr, ?_⟩
      rcases hc with ⟨rfl, hc⟩ | ⟨p, p1, p2, p3, p4, rfl⟩
      · refine .inl ⟨rfl, fun p h3 h4 => ?_⟩
        by_cases he : p = o
        · rw [he]; exact ht
        · exact hc p (by omega) (by omega)
      · refine .inr ⟨p, by omega, by omega, p3, fun q h3 h4 => ?_, rfl⟩
        by_cases he : q = o
        · rw [he]; exact ht
        · exact p4 q (by omega) h4

theorem locateLoop_spec (inds : List Nat) (target : Nat) {arr : Nat → Nat} :
    ∀ n o, (∀ p, o ≤ p → p < o + n → inds[p]? = some (arr p)) →
      ∃ r, locateLoop inds target n o = some r ∧
        (r = none ∧ (∀ p, o ≤ p → p < o + n → arr p ≠ target) ∨
          ∃ p, o ≤ p ∧ p < o + n ∧ arr p = target ∧ r = some p) := by
  intro n
  induction n with
  | zero => intro o _; exact ⟨none, rfl, .inl ⟨rfl, fun p h1 h2 => by omega⟩⟩
  | succ n ih =>
    intro o h
    rw [locateLoop, h o (Nat.le_refl _) (by omega)]
    dsimp only [Option.bind]
    by_cases ht : target = arr o
    · rw [if_pos ht]
      exact ⟨_, rfl, .inr ⟨o, Nat.le_refl _, by omega, ht.symm, rfl⟩⟩
    · rw [if_neg ht]
      obtain ⟨r, hr, hc⟩ := ih (o + 1) (fun p h3 h4 => h p (by omega) (by omega))
      refine ⟨r, hr, ?_⟩
      rcases hc with ⟨rfl, hc⟩ | ⟨p, p1, p2, p3, rfl⟩
      · refine .inl ⟨rfl, fun p h3 h4 => ?_⟩
        by_cases he : p = o
        · rw [he]; exact fun h => ht h.symm
        · exact hc p (by omega) (by omega)
      · exact .inr ⟨p, by omega, by omega, p3, rfl⟩

end Verif.Sparse
