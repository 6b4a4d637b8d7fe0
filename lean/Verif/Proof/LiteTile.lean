import Verif.Spec.LiteTile

/-!
Lemmas for the views of tiled vectors.
-/
namespace Verif.LiteTile

theorem flatMap_length {β} (f : Nat → List β) (m : Nat) (hf : ∀ k, (f k).length = m) (n : Nat) :
    ((List.range n).flatMap f).length = n * m := by
  induction n with
  | zero => simp
  | succ n ih => rw [List.range_succ, List.flatMap_append, List.length_append, ih, Nat.succ_mul]; simp [hf]

theorem flatMap_get {β} (f : Nat → List β) (m : Nat) (hf : ∀ k, (f k).length = m) (n k j : Nat) (hk : k < n) (hj : j < m) :
    ((List.range n).flatMap f)[k * m + j]? = (f k)[j]? := by
  induction n with
  | zero => omega
  | succ n ih =>
    rw [List.range_succ, List.flatMap_append]
    by_cases h : k < n
    · have hb : k * m + j < n * m := by
        have : (k + 1) * m ≤ n * m := Nat.mul_le_mul_right m h
        rw [Nat.succ_mul] at this
        omega
      rw [List.getElem?_append_left (by rw [flatMap_length f m hf]; exact hb), ih h]
    · have e : k = n := by omega
      subst e
      rw [List.getElem?_append_right (by rw [flatMap_length f m hf]; omega), flatMap_length f m hf]
      simp

theorem layout_get (tiles nch lane t c l : Nat) (ht : t < tiles) (hc : c < nch) (hl : l < lane) :
    (layout tiles nch lane)[(t * nch + c) * lane + l]? = some (c, t * lane + l) := by
  have hin : c * lane + l < nch * lane := by
    have : (c + 1) * lane ≤ nch * lane := Nat.mul_le_mul_right lane hc
    rw [Nat.succ_mul] at this
    omega
  have e : (t * nch + c) * lane + l = t * (nch * lane) + (c * lane + l) := by
    rw [Nat.add_mul, Nat.mul_assoc, Nat.add_assoc]
  rw [e, layout, flatMap_get _ (nch * lane) (fun k => by rw [flatMap_length _ lane (by simp)]) _ _ _ ht hin,
    flatMap_get _ lane (by simp) _ _ _ hc hl]
  simp [hl]

theorem cell_lt (tiles nch lane t c l : Nat) (ht : t < tiles) (hc : c < nch) (hl : l < lane) :
    (t * nch + c) * lane + l < tiles * (nch * lane) := by
  have h1 : t * nch + c + 1 ≤ tiles * nch := by
    have : (t + 1) * nch ≤ tiles * nch := Nat.mul_le_mul_right nch ht
    rw [Nat.succ_mul] at this
    omega
  have h2 : (t * nch + c + 1) * lane ≤ tiles * nch * lane := Nat.mul_le_mul_right lane h1
  rw [Nat.succ_mul, Nat.mul_assoc tiles] at h2
  omega

theorem wrap_eq {x : Nat} (h : x < 2 ^ 64) : wrap x = x := Nat.mod_eq_of_lt h

theorem conv_nat {c : Nat} (h : c < 2 ^ 64) : conv (c : Int) = c := by
  unfold conv
  omega

/-- The arithmetic does not wrap around for cells of a vector that fits into memory. -/
theorem wrap_cell (tiles nch lane t c l : Nat) (ht : t < tiles) (hc : c < nch) (hl : l < lane) (hf : tiles * (nch * lane) < 2 ^ 64) :
    wrap (wrap (wrap (wrap (t * conv nch) + conv c) * lane) + l) = (t * nch + c) * lane + l := by
  have h := cell_lt tiles nch lane t c l ht hc hl
  have hn : nch ≤ tiles * (nch * lane) := by
    have h1 : nch * 1 ≤ nch * lane := Nat.mul_le_mul_left nch (by omega)
    have h2 : 1 * (nch * lane) ≤ tiles * (nch * lane) := Nat.mul_le_mul_right _ (by omega)
    omega
  have hm : (t * nch + c) * 1 ≤ (t * nch + c) * lane := Nat.mul_le_mul_left _ (by omega)
  rw [conv_nat (c := nch) (by omega), conv_nat (c := c) (by omega), wrap_eq (x := t * nch) (by omega),
    wrap_eq (x := t * nch + c) (by omega), wrap_eq (x := (t * nch + c) * lane) (by omega), wrap_eq (by omega)]

theorem elem_tile {i tiles lane : Nat} (hi : i < tiles * lane) : 0 < lane ∧ i / lane < tiles ∧ i % lane < lane := by
  have h0 : 0 < lane := by
    rcases Nat.eq_zero_or_pos lane with h | h
    · subst h; simp at hi
    · exact h
  exact ⟨h0, Nat.div_lt_of_lt_mul (by rwa [Nat.mul_comm]), Nat.mod_lt _ h0⟩

theorem at_eq {α} {v : View α} {tiles nch lane : Nat} {f : Nat → Nat → α} (h : Holds v tiles nch lane f) (c i : Nat) (hc : c < nch)
    (hi : i < tiles * lane) : v.at c i = (i / lane * nch + c) * lane + i % lane := by
  obtain ⟨-, ht, hl⟩ := elem_tile hi
  unfold View.at
  rw [h.within, h.lane_eq, h.nch_eq]
  exact wrap_cell tiles nch lane _ c _ ht hc hl h.fits

theorem layout_at {α} {v : View α} {tiles nch lane : Nat} {f : Nat → Nat → α} (h : Holds v tiles nch lane f) (c i : Nat) (hc : c < nch)
    (hi : i < tiles * lane) : (layout tiles nch lane)[v.at c i]? = some (c, i) := by
  obtain ⟨-, ht, hl⟩ := elem_tile hi
  rw [at_eq h c i hc hi, layout_get tiles nch lane _ c _ ht hc hl, Nat.div_add_mod']

theorem read_layout {α} {v : View α} {tiles nch lane : Nat} {f : Nat → Nat → α} (h : Holds v tiles nch lane f) (a c i : Nat)
    (ha : (layout tiles nch lane)[a]? = some (c, i)) : v.read a = some (f c i) := by
  unfold View.read
  rw [h.off, h.mem, Nat.zero_add, List.getElem?_map, ha]
  rfl

theorem packGo_eq {α} (v : View α) (g : Nat → α) : ∀ n ptr, (∀ k, k < n → v.read (ptr + k * v.lane) = some (g k)) →
    v.packGo n ptr = some ((List.range n).map g) := by
  intro n
  induction n generalizing g with
  | zero => intro ptr _; rfl
  | succ n ih =>
    intro ptr h
    have h0 := h 0 (by omega)
    rw [Nat.zero_mul, Nat.add_zero] at h0
    have hr := ih (fun k => g (k + 1)) (ptr + v.lane) (fun k hk => by
      have := h (k + 1) (by omega)
      rw [Nat.succ_mul] at this
      rw [← this]
      congr 1
      omega)
    unfold View.packGo
    rw [h0, hr, List.range_succ_eq_map]
    simp [Function.comp_def]

theorem indexGo_mem {ν} [DecidableEq ν] (p : ν) : ∀ (ns : List ν) (i : Nat), p ∈ ns →
    ∃ k, indexGo p ns i = i + k ∧ ns[k]? = some p ∧ ∀ j, j < k → ns[j]? ≠ some p := by
  intro ns
  induction ns with
  | nil => intro i h; simp at h
  | cons n ns ih =>
    intro i h
    unfold indexGo
    by_cases e : n = p
    · exact ⟨0, by simp [e], by simp [e], by omega⟩
    · rw [if_neg e]
      obtain ⟨k, h1, h2, h3⟩ := ih (i + 1) (by
        rcases List.mem_cons.1 h with h | h
        · exact absurd h.symm e
        · exact h)
      refine ⟨k + 1, by omega, by simpa using h2, ?_⟩
      intro j hj
      cases j with
      | zero => simpa using e
      | succ j => simpa using h3 j (by omega)

theorem indexGo_not_mem {ν} [DecidableEq ν] (p : ν) : ∀ (ns : List ν) (i : Nat), p ∉ ns → indexGo p ns i = i + ns.length := by
  intro ns
  induction ns with
  | nil => intro i _; rfl
  | cons n ns ih =>
    intro i h
    have h1 : n ≠ p := fun e => h (by simp [e])
    have h2 : p ∉ ns := fun e => h (by simp [e])
    unfold indexGo
    rw [if_neg h1, ih _ h2]
    simp
    omega

/-- Properties that follow one another lie one behind the other. -/
theorem consecutive_get : ∀ (as ss : List Int) (o : Nat), Consecutive o as ss → ∀ (k : Nat) (a s : Int), as[k]? = some a → ss[k]? = some s →
    (o : Int) ≤ a ∧ 0 ≤ s ∧ a + s ≤ o + ss.sum ∧ ∀ (j : Nat) (b : Int), k < j → as[j]? = some b → a + s ≤ b := by
  intro as
  induction as with
  | nil => intro ss o h k a s ha; simp at ha
  | cons a0 as ih =>
    intro ss o h
    cases ss with
    | nil => exact absurd h (by simp [Consecutive])
    | cons s0 ss =>
      obtain ⟨h0, h1, h2⟩ := h
      have hsum : ∀ (as ss : List Int) (o : Nat), Consecutive o as ss → 0 ≤ ss.sum := by
        intro as
        induction as with
        | nil => intro ss o h; cases ss with
          | nil => simp
          | cons _ _ => exact absurd h (by simp [Consecutive])
        | cons _ as ih => intro ss o h; cases ss with
          | nil => simp
          | cons s ss => obtain ⟨_, q1, q2⟩ := h; have := ih ss _ q2; rw [List.sum_cons]; omega
      intro k a s ha hs
      rw [List.sum_cons]
      cases k with
      | zero =>
        simp at ha hs
        subst ha hs
        refine ⟨by omega, h1, ?_, ?_⟩
        · have := hsum as ss _ h2
          omega
        · intro j b hj hb
          cases j with
          | zero => omega
          | succ j =>
            simp at hb
            have hlen : ∀ (as ss : List Int) (o : Nat), Consecutive o as ss → as.length = ss.length := by
              intro as
              induction as with
              | nil => intro ss o h; cases ss with
                | nil => rfl
                | cons _ _ => exact absurd h (by simp [Consecutive])
              | cons _ as ih => intro ss o h; cases ss with
                | nil => exact absurd h (by simp [Consecutive])
                | cons s ss => obtain ⟨_, _, q2⟩ := h; simp [ih ss _ q2]
            have hj : j < ss.length := by
              rw [← hlen as ss _ h2]
              obtain ⟨q, -⟩ := List.getElem?_eq_some_iff.1 hb
              exact q
            have := (ih ss _ h2 j b ss[j] hb (by simp [hj])).1
            omega
      | succ k =>
        simp at ha hs
        obtain ⟨q1, q2, q3, q4⟩ := ih ss _ h2 k a s ha hs
        refine ⟨by omega, q2, by omega, ?_⟩
        intro j b hj hb
        cases j with
        | zero => omega
        | succ j => simp at hb; exact q4 j b (by omega) hb

end Verif.LiteTile
