import Verif.Spec.BitPack

/-!
The loops over the bits of a mask.
-/
namespace Verif.BitPack

theorem clz_spec (x : W) (h : x ≠ 0) : clz x < 64 ∧ x.getMsbD (clz x) = true ∧ ∀ i < clz x, x.getMsbD i = false := by
  unfold clz
  cases q : (List.range 64).find? fun i => x.getMsbD i with
  | none =>
    exfalso
    apply h
    rw [List.find?_eq_none] at q
    apply BitVec.eq_of_getMsbD_eq
    intro i hi
    have := q i (List.mem_range.mpr hi)
    simpa using this
  | some i =>
    rw [List.find?_range_eq_some] at q
    obtain ⟨a, b, c⟩ := q
    simp only [Option.getD_some]
    refine ⟨by simpa using b, a, fun j hj => ?_⟩
    simpa using c j hj

/-- The places from `pos` on. -/
def placesFrom (mask : W) (pos : Nat) : List Nat := (List.range' pos (64 - pos)).filter fun i => mask.getLsbD i

/-- What is left of the reversed mask. -/
theorem msb_shift (mask : W) (pos i : Nat) (h : pos + i < 64) : (mask.reverse <<< pos).getMsbD i = mask.getLsbD (pos + i) := by
  rw [BitVec.getMsbD_shiftLeft, BitVec.getMsbD_reverse]
  congr 1
  omega

theorem range_split (a n m : Nat) (h : m ≤ n) : List.range' a n = List.range' a m ++ List.range' (a + m) (n - m) := by
  rw [List.range'_append_1]
  congr 1
  omega

/-- The next place. -/
theorem places_step (mask : W) (pos : Nat) (hp : pos ≤ 64) (h : mask.reverse <<< pos ≠ 0) :
    pos + clz (mask.reverse <<< pos) < 64 ∧
    placesFrom mask pos = (pos + clz (mask.reverse <<< pos)) :: placesFrom mask (pos + clz (mask.reverse <<< pos) + 1) ∧
    (∀ i, pos ≤ i → i < pos + clz (mask.reverse <<< pos) → mask.getLsbD i = false) ∧
    mask.getLsbD (pos + clz (mask.reverse <<< pos)) = true := by
  obtain ⟨a, b, c⟩ := clz_spec _ h
  generalize clz (mask.reverse <<< pos) = z at *
  have lt : pos + z < 64 := by
    rw [BitVec.getMsbD_shiftLeft, BitVec.getMsbD_reverse] at b
    have := BitVec.lt_of_getLsbD b
    omega
  rw [msb_shift mask pos z lt] at b
  have c' : ∀ i, pos ≤ i → i < pos + z → mask.getLsbD i = false := by
    intro i h1 h2
    have := c (i - pos) (by omega)
    rw [msb_shift mask pos (i - pos) (by omega)] at this
    rw [← this]
    congr 1
    omega
  refine ⟨lt, ?_, c', b⟩
  unfold placesFrom
  rw [range_split pos (64 - pos) z (by omega), List.filter_append]
  have e1 : (List.range' pos z).filter (fun i => mask.getLsbD i) = [] := by
    rw [List.filter_eq_nil_iff]
    intro i hi
    rw [List.mem_range'_1] at hi
    simp [c' i hi.1 hi.2]
  rw [e1, List.nil_append, show 64 - pos - z = (64 - (pos + z + 1)) + 1 by omega, List.range'_succ, List.filter_cons, if_pos b]

theorem places_end (mask : W) (pos : Nat) (h : mask.reverse <<< pos = 0) : placesFrom mask pos = [] := by
  unfold placesFrom
  rw [List.filter_eq_nil_iff]
  intro i hi
  rw [List.mem_range'_1] at hi
  have := msb_shift mask pos (i - pos) (by omega)
  rw [h] at this
  rw [show pos + (i - pos) = i by omega] at this
  simp [← this]

/-- Only the highest place leads to a shift by all bits. -/
theorem last_place (mask : W) (pos : Nat) (h : mask.reverse <<< pos ≠ 0) (hp : pos ≤ 64) (hz : 64 ≤ clz (mask.reverse <<< pos) + 1) :
    pos = 0 ∧ ∀ i < 63, mask.getLsbD i = false := by
  obtain ⟨a, -, c, -⟩ := places_step mask pos hp h
  have : pos = 0 := by omega
  refine ⟨this, fun i hi => c i (by omega) (by omega)⟩

theorem packGo_exact (mask : W) (data : W) (hm : ∃ i < 63, mask.getLsbD i = true) : ∀ (n pos : Nat) (ul : W) (C : List Bool), pos ≤ 64 → 64 < n + pos →
    (∀ j, ul.getLsbD j = (decide (j < 64) && C.reverse.getD j false)) →
    ∃ ul' : W, packGo n (mask.reverse <<< pos) (data >>> pos) ul C.length =
        some (ul', (C ++ (placesFrom mask pos).map data.getLsbD).length) ∧
      ∀ j, ul'.getLsbD j = (decide (j < 64) && (C ++ (placesFrom mask pos).map data.getLsbD).reverse.getD j false) := by
  intro n
  induction n with
  | zero => intro pos ul C h1 h2; omega
  | succ n ih =>
    intro pos ul C h1 h2 hul
    unfold packGo
    by_cases h : mask.reverse <<< pos = 0
    · rw [if_pos h, places_end mask pos h]
      exact ⟨ul, by simp, by simpa using hul⟩
    · rw [if_neg h]
      obtain ⟨a, b, c, d⟩ := places_step mask pos h1 h
      have nz : clz (mask.reverse <<< pos) + 1 < 64 := by
        apply Classical.byContradiction
        intro z
        obtain ⟨i, hi, hb⟩ := hm
        have := (last_place mask pos h h1 (by omega)).2 i hi
        rw [hb] at this
        cases this
      rw [b]
      generalize clz (mask.reverse <<< pos) = z at *
      simp only [shr, shl, if_pos nz, if_pos (show z < 64 by omega), Option.bind_eq_bind, Option.bind_some]
      have e1 : mask.reverse <<< pos <<< (z + 1) = mask.reverse <<< (pos + z + 1) := by
        rw [← BitVec.shiftLeft_add]; congr 1
      have e2 : data >>> pos >>> z >>> 1 = data >>> (pos + z + 1) := by
        rw [← BitVec.shiftRight_add, ← BitVec.shiftRight_add]
        rfl
      have e3 : C.length + 1 = (C ++ [data.getLsbD (pos + z)]).length := by simp
      rw [e1, e2, e3]
      obtain ⟨ul', x, y⟩ := ih (pos + z + 1) (ul <<< 1 ||| (data >>> pos >>> z &&& 1)) (C ++ [data.getLsbD (pos + z)]) (by omega) (by omega) (by
        intro j
        rw [BitVec.getLsbD_or, BitVec.getLsbD_shiftLeft, hul, BitVec.getLsbD_and, ← BitVec.shiftRight_add, BitVec.getLsbD_ushiftRight]
        cases j with
        | zero => simp
        | succ j =>
          by_cases q : j + 1 < 64
          · simp [q, show j < 64 by omega]
          · simp [q])
      refine ⟨ul', ?_, ?_⟩
      · rw [x]; simp
      · intro j; rw [y]; simp

theorem rank_succ (mask : W) (p : Nat) : rank mask (p + 1) = rank mask p + if mask.getLsbD p then 1 else 0 := by
  unfold rank
  rw [List.range_succ, List.filter_append, List.length_append]
  by_cases h : mask.getLsbD p <;> simp [h]

theorem rank_gap (mask : W) (pos z : Nat) (h : ∀ i, pos ≤ i → i < pos + z → mask.getLsbD i = false) : rank mask (pos + z) = rank mask pos := by
  induction z with
  | zero => rfl
  | succ z ih =>
    rw [← Nat.add_assoc, rank_succ, ih (fun i a b => h i a (by omega)), h (pos + z) (by omega) (by omega)]
    simp

theorem bit_shift (x : BitVec 32) (i : Nat) : bit (x.sshiftRight 1) i = bit x (i + 1) := by
  unfold bit
  rw [BitVec.getLsbD_sshiftRight]
  by_cases h : i < 31
  · rw [show min i 31 = i by omega, show min (i + 1) 31 = i + 1 by omega]
    simp [show ¬ 32 ≤ i by omega, Nat.add_comm]
    omega
  · rw [show min i 31 = 31 by omega, show min (i + 1) 31 = 31 by omega]
    simp [BitVec.msb_eq_getLsbD_last]

/-- The bit that a place gets. -/
def target (mask : W) (data : BitVec 32) (p : Nat) : Bool := mask.getLsbD p && bit data (rank mask p)

theorem spreadGo_exact (mask : W) (data : BitVec 32) (hm : ∃ i < 63, mask.getLsbD i = true) : ∀ (n pos : Nat) (r : W) (cur : BitVec 32), pos ≤ 64 → 64 < n + pos →
    (∀ i, bit cur i = bit data (i + rank mask pos)) → (pos = 0 ∨ mask.getLsbD (pos - 1) = true) →
    (∀ j, r.getLsbD j = (decide (j < pos) && target mask data (pos - 1 - j))) →
    ∃ (r' : W) (pos' : Nat), spreadGo n (mask.reverse <<< pos) r cur = some r' ∧ pos' ≤ 64 ∧ (pos' = 0 ∨ mask.getLsbD (pos' - 1) = true) ∧
      (∀ i, pos' ≤ i → mask.getLsbD i = false) ∧ ∀ j, r'.getLsbD j = (decide (j < pos') && target mask data (pos' - 1 - j)) := by
  intro n
  induction n with
  | zero => intro pos r cur h1 h2; omega
  | succ n ih =>
    intro pos r cur h1 h2 hc hl hr
    unfold spreadGo
    by_cases h : mask.reverse <<< pos = 0
    · rw [if_pos h]
      refine ⟨r, pos, rfl, h1, hl, ?_, hr⟩
      intro i hi
      by_cases hi' : i < 64
      · have := msb_shift mask pos (i - pos) (by omega)
        rw [h, show pos + (i - pos) = i by omega] at this
        simp [← this]
      · exact BitVec.getLsbD_of_ge _ _ (by omega)
    · rw [if_neg h]
      obtain ⟨a, -, c, d⟩ := places_step mask pos h1 h
      have nz : clz (mask.reverse <<< pos) + 1 < 64 := by
        apply Classical.byContradiction
        intro z
        obtain ⟨i, hi, hb⟩ := hm
        have := (last_place mask pos h h1 (by omega)).2 i hi
        rw [hb] at this
        cases this
      generalize clz (mask.reverse <<< pos) = z at *
      simp only [shl, if_pos nz, Option.bind_eq_bind, Option.bind_some]
      have e1 : mask.reverse <<< pos <<< (z + 1) = mask.reverse <<< (pos + z + 1) := by
        rw [← BitVec.shiftLeft_add]; congr 1
      rw [e1]
      have rk := rank_gap mask pos z c
      refine ih (pos + z + 1) _ _ (by omega) (by omega) ?_ (Or.inr (by simpa using d)) ?_
      · intro i
        rw [bit_shift, hc, rank_succ, rk, d]
        congr 1
        simp
        omega
      · intro j
        rw [BitVec.getLsbD_or, BitVec.getLsbD_shiftLeft, hr, BitVec.getLsbD_setWidth, BitVec.getLsbD_and]
        by_cases j0 : j = 0
        · subst j0
          have : cur.getLsbD 0 = bit data (rank mask pos) := by
            have := hc 0
            simpa [bit] using this
          simp [target, d, rk]
          simpa using this
        · have one : (1 : BitVec 32).getLsbD j = false := by
            simp [j0]
          rw [one]
          by_cases j1 : j < z + 1
          · have := c (pos + z + 1 - 1 - j) (by omega) (by omega)
            simp [j1, target] at this ⊢
            intro _ q
            rw [this] at q
            cases q
          · by_cases j2 : j < pos + z + 1
            · have e : pos - 1 - (j - (z + 1)) = pos + z + 1 - 1 - j := by omega
              rw [e]
              simp [j1, j2, show j < 64 by omega, show j - (z + 1) < pos by omega]
            · simp [j2, show ¬ j - (z + 1) < pos by omega]

theorem index_of (f : Nat → Bool) (n j p : Nat) (h : ((List.range n).filter f)[j]? = some p) : ((List.range p).filter f).length = j ∧ f p = true ∧ p < n := by
  induction n with
  | zero => simp at h
  | succ n ih =>
    rw [List.range_succ, List.filter_append] at h
    by_cases l : j < ((List.range n).filter f).length
    · rw [List.getElem?_append_left l] at h
      obtain ⟨a, b, c⟩ := ih h
      exact ⟨a, b, by omega⟩
    · rw [List.getElem?_append_right (by omega)] at h
      cases q : f n with
      | false => simp [q] at h
      | true =>
        simp only [List.filter_cons, q, if_true, List.filter_nil] at h
        have z : j - ((List.range n).filter f).length = 0 := by
          apply Classical.byContradiction
          intro w
          rw [List.getElem?_eq_none (by simp; omega)] at h
          cases h
        rw [z] at h
        simp at h
        subst h
        exact ⟨by omega, q, by omega⟩

theorem at_index (f : Nat → Bool) (n p : Nat) (hp : p < n) (h : f p = true) : ((List.range n).filter f)[((List.range p).filter f).length]? = some p := by
  induction n with
  | zero => omega
  | succ n ih =>
    rw [List.range_succ, List.filter_append]
    by_cases e : p = n
    · subst e
      rw [List.getElem?_append_right (by omega)]
      simp [h]
    · have := ih (by omega)
      rw [List.getElem?_append_left]
      · exact this
      · exact (List.getElem?_eq_some_iff.mp this).1

end Verif.BitPack
