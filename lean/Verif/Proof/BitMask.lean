import Verif.Model.BitMask
namespace Verif.BitMask

/-- bit `i` of the word list -/
def bit : List W → Nat → Bool
  | [], _ => false
  | w :: ws, i => if i < 64 then w.getLsbD i else bit ws (i - 64)

theorem shr6 (n : Nat) : n >>> 6 = n / 64 := by rw [Nat.shiftRight_eq_div_pow]
theorem and63 (n : Nat) : n &&& 63 = n % 64 := Nat.and_two_pow_sub_one_eq_mod n 6
theorem shl6 (n : Nat) : n <<< 6 = 64 * n := by rw [Nat.shiftLeft_eq]; omega

theorem bit_get {ws : List W} {i : Nat} {w : W} (h : ws[i / 64]? = some w) :
    bit ws i = w.getLsbD (i % 64) := by
  induction ws generalizing i with
  | nil => simp at h
  | cons v ws ih =>
    rw [bit]
    split
    · rename_i hi
      rw [Nat.div_eq_of_lt hi] at h
      simp at h
      rw [h, Nat.mod_eq_of_lt hi]
    · have e : i / 64 = (i - 64) / 64 + 1 := by omega
      rw [e] at h
      simp only [List.getElem?_cons_succ] at h
      rw [ih h]
      congr 1; omega

theorem bit_ge {ws : List W} {i : Nat} (h : 64 * ws.length ≤ i) : bit ws i = false := by
  induction ws generalizing i with
  | nil => rfl
  | cons v ws ih =>
    simp only [List.length_cons] at h
    rw [bit, if_neg (by omega), ih (by omega)]

theorem getLsbD_ones (i : Nat) : (~~~(0 : W)).getLsbD i = decide (i < 64) := by
  rw [BitVec.getLsbD_not, show (0 : W) = 0#64 from rfl, BitVec.getLsbD_zero]; simp

theorem getLsbD_ones_shl (m i : Nat) :
    ((~~~(0 : W)) <<< m).getLsbD i = (decide (i < 64) && decide (m ≤ i)) := by
  rw [BitVec.getLsbD_shiftLeft, getLsbD_ones]
  by_cases h : i < 64
  · by_cases h2 : m ≤ i
    · have : ¬ i < m := by omega
      simp [h, h2, this]; omega
    · have : i < m := by omega
      simp [h2, this]
  · simp [h]

theorem getLsbD_one_shl (m i : Nat) : ((1 : W) <<< m).getLsbD i = (decide (i < 64) && decide (i = m)) := by
  rw [BitVec.getLsbD_shiftLeft]
  by_cases h : i < 64
  · by_cases h2 : i = m
    · subst h2; simp [h]
    · by_cases h3 : i < m
      · simp [h2, h3]
      · have : i - m ≠ 0 := by omega
        simp only [h, h2, h3]
        have := BitVec.getLsbD_one (w := 64) (i := i - m)
        simp [show (1 : W) = 1#64 from rfl, this]
        omega
  · simp [h]

theorem and_one_shl_ne (w : W) (m : Nat) (hm : m < 64) :
    decide (w &&& (1 : W) <<< m ≠ 0) = w.getLsbD m := by
  have key : w &&& (1 : W) <<< m = 0 ↔ w.getLsbD m = false := by
    constructor
    · intro h
      have := congrArg (fun v : W => v.getLsbD m) h
      simpa [getLsbD_one_shl, hm] using this
    · intro h
      apply BitVec.eq_of_getLsbD_eq
      intro i hi
      rw [BitVec.getLsbD_and, getLsbD_one_shl]
      by_cases e : i = m
      · subst e; simp [h]
      · simp [e]
  cases hb : w.getLsbD m
  · exact decide_eq_false (fun h => h (key.mpr hb))
  · exact decide_eq_true (fun h => by rw [key.mp h] at hb; cases hb)

theorem isOn_eq {ws : List W} {n : Nat} (h : n < 64 * ws.length) : isOn ws n = some (bit ws n) := by
  have hl : n / 64 < ws.length := by omega
  rw [isOn, shr6, and63, List.getElem?_eq_getElem hl, bit_get (List.getElem?_eq_getElem hl)]
  simp only [Option.map_some]
  rw [and_one_shl_ne _ _ (by omega)]

theorem length_and (a b : List W) : (and a b).length = a.length := by
  induction a generalizing b with
  | nil => cases b <;> rfl
  | cons x a ih => cases b <;> simp [and, ih]

theorem length_or (a b : List W) : (or a b).length = a.length := by
  induction a generalizing b with
  | nil => cases b <;> rfl
  | cons x a ih => cases b <;> simp [or, ih]

theorem length_diff (a b : List W) : (diff a b).length = a.length := by
  induction a generalizing b with
  | nil => cases b <;> rfl
  | cons x a ih => cases b <;> simp [diff, ih]

theorem length_xor (a b : List W) : (xor a b).length = a.length := by
  induction a generalizing b with
  | nil => cases b <;> rfl
  | cons x a ih => cases b <;> simp [xor, ih]

theorem bit_and {a b : List W} (h : a.length = b.length) (i : Nat) :
    bit (and a b) i = (bit a i && bit b i) := by
  induction a generalizing b i with
  | nil => cases b <;> simp [and, bit]
  | cons x a ih =>
    cases b with
    | nil => simp at h
    | cons y b =>
      simp only [and, bit]
      split
      · simp
      · exact ih (by simpa using h) _

theorem bit_or {a b : List W} (h : a.length = b.length) (i : Nat) :
    bit (or a b) i = (bit a i || bit b i) := by
  induction a generalizing b i with
  | nil => cases b <;> simp_all [or, bit]
  | cons x a ih =>
    cases b with
    | nil => simp at h
    | cons y b =>
      simp only [or, bit]
      split
      · simp
      · exact ih (by simpa using h) _

theorem bit_diff {a b : List W} (h : a.length = b.length) (i : Nat) :
    bit (diff a b) i = (bit a i && !bit b i) := by
  induction a generalizing b i with
  | nil => cases b <;> simp [diff, bit]
  | cons x a ih =>
    cases b with
    | nil => simp at h
    | cons y b =>
      simp only [diff, bit]
      split
      · rename_i hi; simp [hi]
      · exact ih (by simpa using h) _

theorem bit_xor {a b : List W} (h : a.length = b.length) (i : Nat) :
    bit (xor a b) i = (bit a i ^^ bit b i) := by
  induction a generalizing b i with
  | nil => cases b <;> simp_all [xor, bit]
  | cons x a ih =>
    cases b with
    | nil => simp at h
    | cons y b =>
      simp only [xor, bit]
      split
      · simp
      · exact ih (by simpa using h) _

theorem bit_toggleAll {a : List W} {i : Nat} (h : i < 64 * a.length) :
    bit (toggleAll a) i = !bit a i := by
  induction a generalizing i with
  | nil => simp at h
  | cons x a ih =>
    simp only [List.length_cons] at h
    have e : toggleAll (x :: a) = ~~~x :: toggleAll a := rfl
    simp only [e, bit]
    split
    · rename_i hi; simp [hi]
    · exact ih (by omega)

theorem bit_replicate {k : Nat} {w : W} {i : Nat} (h : i < 64 * k) :
    bit (List.replicate k w) i = w.getLsbD (i % 64) := by
  apply bit_get
  rw [List.getElem?_replicate, if_pos (by omega)]

theorem bit_set {ws : List W} {j : Nat} {w : W} (hj : j < ws.length) (i : Nat) :
    bit (ws.set j w) i = if i / 64 = j then w.getLsbD (i % 64) else bit ws i := by
  by_cases hi : i / 64 < ws.length
  · split
    · rename_i e
      apply bit_get
      rw [e, List.getElem?_set_self hj]
    · rename_i e
      rw [bit_get (List.getElem?_eq_getElem hi)]
      apply bit_get
      rw [List.getElem?_set_ne (by omega), List.getElem?_eq_getElem hi]
  · rw [bit_ge (by rw [List.length_set]; omega), if_neg (by omega), bit_ge (by omega)]

theorem modWord_spec {ws : List W} {n : Nat} (f : W → W) (g : Bool → Bool)
    (h : n < 64 * ws.length)
    (hf : ∀ w : W, ∀ i, i < 64 → (f w).getLsbD i = if i = n % 64 then g (w.getLsbD i) else w.getLsbD i) :
    ∃ ws', modWord ws (n >>> 6) f = some ws' ∧ ws'.length = ws.length ∧
      ∀ i, bit ws' i = if i = n then g (bit ws i) else bit ws i := by
  have hl : n / 64 < ws.length := by omega
  refine ⟨ws.set (n / 64) (f ws[n / 64]), ?_, by simp, ?_⟩
  · rw [modWord, shr6, List.getElem?_eq_getElem hl]; rfl
  · intro i
    rw [bit_set hl]
    by_cases e : i / 64 = n / 64
    · have hb : bit ws i = ws[n / 64].getLsbD (i % 64) :=
        bit_get (by rw [e]; exact List.getElem?_eq_getElem hl)
      rw [if_pos e, hf _ _ (by omega), hb]
      have : i % 64 = n % 64 ↔ i = n := by omega
      simp only [this]
    · rw [if_neg e, if_neg (by rintro rfl; exact e rfl)]

theorem setOn_spec {ws : List W} {n : Nat} (h : n < 64 * ws.length) :
    ∃ ws', setOn ws n = some ws' ∧ ws'.length = ws.length ∧
      ∀ i, bit ws' i = if i = n then true else bit ws i := by
  apply modWord_spec _ (fun _ => true) h
  intro w i hi
  rw [BitVec.getLsbD_or, getLsbD_one_shl, and63, decide_eq_true hi]
  by_cases e : i = n % 64 <;> simp [e]

theorem setOff_spec {ws : List W} {n : Nat} (h : n < 64 * ws.length) :
    ∃ ws', setOff ws n = some ws' ∧ ws'.length = ws.length ∧
      ∀ i, bit ws' i = if i = n then false else bit ws i := by
  apply modWord_spec _ (fun _ => false) h
  intro w i hi
  rw [BitVec.getLsbD_and, BitVec.getLsbD_not, getLsbD_one_shl, and63, decide_eq_true hi]
  by_cases e : i = n % 64 <;> simp [e]

theorem toggle_spec {ws : List W} {n : Nat} (h : n < 64 * ws.length) :
    ∃ ws', toggle ws n = some ws' ∧ ws'.length = ws.length ∧
      ∀ i, bit ws' i = if i = n then !bit ws i else bit ws i := by
  apply modWord_spec _ (fun b => !b) h
  intro w i hi
  rw [BitVec.getLsbD_xor, getLsbD_one_shl, and63, decide_eq_true hi]
  by_cases e : i = n % 64 <;> simp [e]

theorem bit_cons_add (w : W) (ws : List W) (i : Nat) : bit (w :: ws) (64 + i) = bit ws i := by
  rw [bit, if_neg (by omega)]; congr 1; omega

theorem bit_cons_lt (w : W) (ws : List W) {i : Nat} (h : i < 64) : bit (w :: ws) i = w.getLsbD i := by
  rw [bit, if_pos h]

theorem countP_cons_add (w : W) (ws : List W) (k : Nat) :
    (List.range (64 + k)).countP (bit (w :: ws)) = countOnes w + (List.range k).countP (bit ws) := by
  rw [List.range_add, List.countP_append, List.countP_map, countOnes]
  have h1 : (List.range 64).countP (bit (w :: ws)) = (List.range 64).countP w.getLsbD := by
    apply List.countP_congr
    intro i hi
    rw [bit_cons_lt _ _ (List.mem_range.mp hi)]
  have h2 : (List.range k).countP (bit (w :: ws) ∘ fun x => 64 + x) = (List.range k).countP (bit ws) := by
    apply List.countP_congr
    intro i _
    simp only [Function.comp]
    rw [bit_cons_add]
  rw [h1, h2]

theorem countOn_eq (ws : List W) :
    countOn ws = (List.range (64 * ws.length)).countP (bit ws) := by
  induction ws with
  | nil => rfl
  | cons w ws ih =>
    rw [countOn, List.length_cons, show 64 * (ws.length + 1) = 64 + 64 * ws.length by omega,
      countP_cons_add, ih]

theorem getLsbD_mask (m i : Nat) (hm : m < 64) :
    (((1 : W) <<< m) - 1).getLsbD i = decide (i < m) := by
  have h1 : ((1 : W) <<< m).toNat = 2 ^ m := by
    rw [BitVec.toNat_shiftLeft, show (1 : W).toNat = 1 from rfl, Nat.shiftLeft_eq, Nat.one_mul,
      Nat.mod_eq_of_lt (Nat.pow_lt_pow_right (by decide) hm)]
  have h2 : (((1 : W) <<< m) - 1).toNat = 2 ^ m - 1 := by
    rw [BitVec.toNat_sub_of_le, h1]; rfl
    rw [BitVec.le_def, h1]; exact Nat.two_pow_pos m
  rw [BitVec.getLsbD, h2, Nat.testBit_two_pow_sub_one]

theorem countOffsetLoop_eq (m n : Nat) (ws : List W) (hm : m < 64) (hn : n < ws.length) :
    countOffsetLoop m n ws = some ((List.range (64 * n + m)).countP (bit ws)) := by
  induction n generalizing ws with
  | zero =>
    cases ws with
    | nil => simp at hn
    | cons w ws =>
      rw [countOffsetLoop, countOnes]
      congr 1
      rw [Nat.mul_zero, Nat.zero_add]
      have e : List.range 64 = List.range m ++ (List.range (64 - m)).map (m + ·) := by
        rw [← List.range_add]; congr 1; omega
      rw [e, List.countP_append, List.countP_map]
      have z : List.countP ((w &&& ((1 : W) <<< m - 1)).getLsbD ∘ (m + ·)) (List.range (64 - m)) = 0 := by
        rw [List.countP_eq_zero]
        intro a _
        simp only [Function.comp]
        rw [BitVec.getLsbD_and, getLsbD_mask _ _ hm]
        simp
      rw [z, Nat.add_zero]
      apply List.countP_congr
      intro i hi
      have hi := List.mem_range.mp hi
      rw [BitVec.getLsbD_and, getLsbD_mask _ _ hm, bit_cons_lt _ _ (by omega)]
      simp [hi]
  | succ n ih =>
    cases ws with
    | nil => simp at hn
    | cons w ws =>
      rw [countOffsetLoop, ih ws (by simpa using hn), Option.map_some,
        show 64 * (n + 1) + m = 64 + (64 * n + m) by omega, countP_cons_add]

theorem countOffset_eq {ws : List W} {k : Nat} (h : k < 64 * ws.length) :
    countOffset ws k = some ((List.range k).countP (bit ws)) := by
  rw [countOffset, shr6, and63, countOffsetLoop_eq _ _ _ (by omega) (by omega)]
  congr 3; omega

theorem ctz_spec (w : W) (h : w ≠ 0) :
    countTailingZeros w < 64 ∧ w.getLsbD (countTailingZeros w) = true ∧
      ∀ j, j < countTailingZeros w → w.getLsbD j = false := by
  rw [countTailingZeros, if_neg h]
  cases hf : (List.range 64).find? w.getLsbD with
  | none =>
    exfalso; apply h
    apply BitVec.eq_of_getLsbD_eq
    intro i hi
    have := List.find?_eq_none.mp hf i (List.mem_range.mpr hi)
    simpa using this
  | some k =>
    obtain ⟨h1, h2⟩ := List.find?_range_eq_some.mp hf
    simp only [Option.getD_some]
    refine ⟨List.mem_range.mp h2.1, h1, ?_⟩
    intro j hj
    have := h2.2 j hj
    simpa using this

theorem findFirstOn_spec (size : Nat) (ws : List W) (n : Nat) :
    (findFirstOn size ws n = size ∧ ∀ i, bit ws i = false) ∨
    ∃ r, findFirstOn size ws n = 64 * n + r ∧ r < 64 * ws.length ∧ bit ws r = true ∧
      ∀ j, j < r → bit ws j = false := by
  induction ws generalizing n with
  | nil => left; exact ⟨rfl, fun _ => rfl⟩
  | cons w ws ih =>
    rw [findFirstOn]
    by_cases hw : w = 0
    · rw [if_pos hw]
      have low : ∀ i, i < 64 → bit (w :: ws) i = false := by
        intro i hi; rw [bit_cons_lt _ _ hi, hw]; simp
      rcases ih (n + 1) with ⟨h1, h2⟩ | ⟨r, h1, h2, h3, h4⟩
      · left
        refine ⟨h1, ?_⟩
        intro i
        by_cases hi : i < 64
        · exact low i hi
        · rw [bit, if_neg hi]; exact h2 _
      · right
        refine ⟨64 + r, by omega, by simp; omega, by rw [bit_cons_add]; exact h3, ?_⟩
        intro j hj
        by_cases hi : j < 64
        · exact low j hi
        · rw [bit, if_neg hi]; exact h4 _ (by omega)
    · rw [if_neg hw]
      right
      obtain ⟨h1, h2, h3⟩ := ctz_spec w hw
      refine ⟨countTailingZeros w, by rw [shl6], by simp; omega, by rw [bit_cons_lt _ _ h1]; exact h2, ?_⟩
      intro j hj
      rw [bit_cons_lt _ _ (by omega)]; exact h3 j hj

theorem findFirstOff_eq (size : Nat) (ws : List W) (n : Nat) :
    findFirstOff size ws n = findFirstOn size (toggleAll ws) n := by
  induction ws generalizing n with
  | nil => rfl
  | cons w ws ih =>
    have e : toggleAll (w :: ws) = ~~~w :: toggleAll ws := rfl
    rw [e, findFirstOff, findFirstOn, ih]

theorem nextOnLoop_eq (size : Nat) (b : W) (n : Nat) (rest : List W) :
    nextOnLoop size b n rest = findFirstOn size (b :: rest) n := by
  induction rest generalizing b n with
  | nil => simp [nextOnLoop, findFirstOn]
  | cons w rest ih => 
    rw [nextOnLoop, ih]
    conv => rhs; rw [findFirstOn]

theorem nextOffLoop_eq (size : Nat) (b : W) (n : Nat) (rest : List W) :
    nextOffLoop size b n rest = nextOnLoop size b n (toggleAll rest) := by
  induction rest generalizing b n with
  | nil => simp [nextOffLoop, nextOnLoop, toggleAll]
  | cons w rest ih =>
    have e : toggleAll (w :: rest) = ~~~w :: toggleAll rest := rfl
    rw [nextOffLoop, ih, e, nextOnLoop]

theorem findNextOff_eq (size : Nat) (ws : List W) (s : Nat) :
    findNextOff size ws s = findNextOn size (toggleAll ws) s := by
  simp only [findNextOff, findNextOn]
  rw [show (toggleAll ws).drop (s >>> 6) = toggleAll (ws.drop (s >>> 6)) by
    simp [toggleAll]]
  cases ws.drop (s >>> 6) with
  | nil => simp [toggleAll]
  | cons w rest =>
    have e : toggleAll (w :: rest) = ~~~w :: toggleAll rest := rfl
    simp only [e, nextOffLoop_eq]

theorem bit_drop (ws : List W) (n i : Nat) : bit (ws.drop n) i = bit ws (64 * n + i) := by
  induction n generalizing ws with
  | zero => simp
  | succ n ih =>
    cases ws with
    | nil => simp [bit]
    | cons w ws =>
      rw [List.drop_succ_cons, ih, show 64 * (n + 1) + i = 64 + (64 * n + i) by omega, bit_cons_add]

theorem findNextOn_spec (size : Nat) (ws : List W) (s : Nat) (hs : s < 64 * ws.length) :
    (findNextOn size ws s = size ∧ ∀ i, s ≤ i → bit ws i = false) ∨
    (s ≤ findNextOn size ws s ∧ findNextOn size ws s < 64 * ws.length ∧
      bit ws (findNextOn size ws s) = true ∧
      ∀ j, s ≤ j → j < findNextOn size ws s → bit ws j = false) := by
  simp only [findNextOn, shr6, and63]
  have hne : ws.drop (s / 64) ≠ [] := by intro h; simp at h; omega
  obtain ⟨b, rest, e⟩ := List.exists_cons_of_ne_nil hne
  have hb : ∀ i, bit ws (64 * (s / 64) + i) = bit (b :: rest) i := by
    intro i; rw [← e, bit_drop]
  have hlen : ws.length = s / 64 + (rest.length + 1) := by
    have := congrArg List.length e
    simp at this; omega
  have hs0 : bit ws s = b.getLsbD (s % 64) := by
    rw [← bit_cons_lt b rest (by omega), ← hb]; congr 1; omega
  rw [e]
  simp only
  split
  · rename_i h
    right
    have := and_one_shl_ne b (s % 64) (by omega)
    rw [decide_eq_true h] at this
    exact ⟨Nat.le_refl _, hs, by rw [hs0, ← this], by intro j h1 h2; omega⟩
  · rename_i h
    rw [nextOnLoop_eq]
    have hmask : ∀ i, bit ((b &&& (~~~(0 : W)) <<< (s % 64)) :: rest) i
        = (bit (b :: rest) i && decide (s % 64 ≤ i)) := by
      intro i
      by_cases hi : i < 64
      · rw [bit_cons_lt _ _ hi, bit_cons_lt _ _ hi]
        rw [BitVec.getLsbD_and, getLsbD_ones_shl, decide_eq_true hi, Bool.true_and]
      · have h3 : s % 64 ≤ i := by omega
        simp [bit, hi, h3]
    rcases findFirstOn_spec size ((b &&& (~~~(0 : W)) <<< (s % 64)) :: rest) (s / 64) with
      ⟨h1, h2⟩ | ⟨r, h1, h2, h3, h4⟩
    · left
      refine ⟨h1, ?_⟩
      intro i hi
      have := h2 (i - 64 * (s / 64))
      rw [hmask, decide_eq_true (by omega), Bool.and_true, ← hb] at this
      rw [← this]; congr 1; omega
    · right
      rw [hmask] at h3
      simp only [Bool.and_eq_true, decide_eq_true_eq] at h3
      simp only [List.length_cons] at h2
      rw [h1]
      refine ⟨by omega, by rw [hlen]; omega, by rw [hb]; exact h3.1, ?_⟩
      intro j hj1 hj2
      have := h4 (j - 64 * (s / 64)) (by omega)
      rw [hmask, decide_eq_true (by omega), Bool.and_true, ← hb] at this
      rw [← this]; congr 1; omega

theorem eq_iff (a b : List W) (h : a.length = b.length) : eq a b = true ↔ ∀ i, bit a i = bit b i := by
  induction a generalizing b with
  | nil =>
    have : b = [] := List.eq_nil_of_length_eq_zero (by simpa using h.symm)
    subst this; simp [eq]
  | cons x a ih =>
    cases b with
    | nil => simp at h
    | cons y b =>
      rw [eq]
      split
      · rename_i e
        subst e
        rw [ih b (by simpa using h)]
        constructor
        · intro h i
          simp only [bit, h]
        · intro h i
          have := h (64 + i)
          rwa [bit_cons_add, bit_cons_add] at this
      · rename_i e
        simp only [Bool.false_eq_true, false_iff]
        intro hb
        apply e
        apply BitVec.eq_of_getLsbD_eq
        intro i hi
        have := hb i
        rwa [bit_cons_lt _ _ hi, bit_cons_lt _ _ hi] at this

theorem isOffAll_iff (a : List W) : isOffAll a = true ↔ ∀ i, i < 64 * a.length → bit a i = false := by
  induction a with
  | nil => simp [isOffAll]
  | cons x a ih =>
    rw [isOffAll]
    split
    · rename_i e
      rw [ih]
      constructor
      · intro h i hi
        rw [bit]; split
        · simp [e]
        · exact h _ (by simp at hi; omega)
      · intro h i hi
        have := h (64 + i) (by simp; omega)
        rwa [bit_cons_add] at this
    · rename_i e
      simp only [Bool.false_eq_true, false_iff]
      intro hb
      apply e
      apply BitVec.eq_of_getLsbD_eq
      intro i hi
      have := hb i (by simp; omega)
      rw [bit_cons_lt _ _ hi] at this
      simpa using this

theorem isOnAll_iff (a : List W) : isOnAll a = true ↔ ∀ i, i < 64 * a.length → bit a i = true := by
  induction a with
  | nil => simp [isOnAll]
  | cons x a ih =>
    rw [isOnAll]
    split
    · rename_i e
      rw [ih]
      constructor
      · intro h i hi
        rw [bit]; split
        · rename_i h64; rw [e, getLsbD_ones, decide_eq_true h64]
        · exact h _ (by simp at hi; omega)
      · intro h i hi
        have := h (64 + i) (by simp; omega)
        rwa [bit_cons_add] at this
    · rename_i e
      simp only [Bool.false_eq_true, false_iff]
      intro hb
      apply e
      apply BitVec.eq_of_getLsbD_eq
      intro i hi
      have := hb i (by simp; omega)
      rw [bit_cons_lt _ _ hi] at this
      rw [this, getLsbD_ones, decide_eq_true hi]

end Verif.BitMask
