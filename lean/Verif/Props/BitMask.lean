import Verif.Proof.BitMask
import Verif.Spec.BitMask
/-! # C08, C09: `bit_mask` as a finite set; C59, C60: bit intrinsics -/
namespace Verif.BitMask

private theorem wc (size : Nat) : size ≤ 64 * wordCount size := by rw [wordCount]; omega

/-- Helper: the code never fails and bit `i` of the words is the membership of `i`, also for the
padding bits. -/
theorem exec_bits (size : Nat) (h : Hist) (hv : h.Valid size) :
    ∃ ws, h.exec size = some ws ∧ ws.length = wordCount size ∧
      ∀ i, i < 64 * wordCount size → bit ws i = h.mem i := by
  have hw := wc size
  induction h with
  | off =>
    refine ⟨_, rfl, by simp [setOffAll], ?_⟩
    intro i hi
    rw [setOffAll, bit_replicate hi]; simp [Hist.mem]
  | on =>
    refine ⟨_, rfl, by simp [setOnAll], ?_⟩
    intro i hi
    rw [setOnAll, bit_replicate hi, getLsbD_ones]; simp [Hist.mem]; omega
  | setOn h n ih =>
    obtain ⟨ws, e, hl, hb⟩ := ih hv.2
    obtain ⟨ws', e', hl', hb'⟩ := setOn_spec (ws := ws) (n := n) (by have := hv.1; omega)
    refine ⟨ws', by rw [Hist.exec, e]; exact e', by omega, ?_⟩
    intro i hi; rw [hb', hb i hi, Hist.mem]
  | setOff h n ih =>
    obtain ⟨ws, e, hl, hb⟩ := ih hv.2
    obtain ⟨ws', e', hl', hb'⟩ := setOff_spec (ws := ws) (n := n) (by have := hv.1; omega)
    refine ⟨ws', by rw [Hist.exec, e]; exact e', by omega, ?_⟩
    intro i hi; rw [hb', hb i hi, Hist.mem]
  | toggle h n ih =>
    obtain ⟨ws, e, hl, hb⟩ := ih hv.2
    obtain ⟨ws', e', hl', hb'⟩ := toggle_spec (ws := ws) (n := n) (by have := hv.1; omega)
    refine ⟨ws', by rw [Hist.exec, e]; exact e', by omega, ?_⟩
    intro i hi; rw [hb', hb i hi, Hist.mem]
  | toggleAll h ih =>
    obtain ⟨ws, e, hl, hb⟩ := ih hv
    refine ⟨toggleAll ws, by rw [Hist.exec, e]; rfl, by simp [toggleAll, hl], ?_⟩
    intro i hi
    rw [bit_toggleAll (by omega), hb i hi, Hist.mem]
  | and h g ih1 ih2 =>
    obtain ⟨a, e1, hl1, hb1⟩ := ih1 hv.1
    obtain ⟨b, e2, hl2, hb2⟩ := ih2 hv.2
    refine ⟨and a b, by rw [Hist.exec, e1, e2]; rfl, by rw [length_and, hl1], ?_⟩
    intro i hi; rw [bit_and (by omega), hb1 i hi, hb2 i hi, Hist.mem]
  | or h g ih1 ih2 =>
    obtain ⟨a, e1, hl1, hb1⟩ := ih1 hv.1
    obtain ⟨b, e2, hl2, hb2⟩ := ih2 hv.2
    refine ⟨or a b, by rw [Hist.exec, e1, e2]; rfl, by rw [length_or, hl1], ?_⟩
    intro i hi; rw [bit_or (by omega), hb1 i hi, hb2 i hi, Hist.mem]
  | diff h g ih1 ih2 =>
    obtain ⟨a, e1, hl1, hb1⟩ := ih1 hv.1
    obtain ⟨b, e2, hl2, hb2⟩ := ih2 hv.2
    refine ⟨diff a b, by rw [Hist.exec, e1, e2]; rfl, by rw [length_diff, hl1], ?_⟩
    intro i hi; rw [bit_diff (by omega), hb1 i hi, hb2 i hi, Hist.mem]
  | xor h g ih1 ih2 =>
    obtain ⟨a, e1, hl1, hb1⟩ := ih1 hv.1
    obtain ⟨b, e2, hl2, hb2⟩ := ih2 hv.2
    refine ⟨xor a b, by rw [Hist.exec, e1, e2]; rfl, by rw [length_xor, hl1], ?_⟩
    intro i hi; rw [bit_xor (by omega), hb1 i hi, hb2 i hi, Hist.mem]

/-- Helper: beyond the universe membership is constant. -/
theorem mem_tail (size : Nat) (h : Hist) (hv : h.Valid size) :
    ∀ i, size ≤ i → h.mem i = h.mem size := by
  intro i hi
  induction h with
  | off | on => rfl
  | setOn h n ih | setOff h n ih | toggle h n ih =>
    have := hv.1
    rw [Hist.mem, Hist.mem, if_neg (by omega), if_neg (by omega), ih hv.2]
  | toggleAll h ih => rw [Hist.mem, Hist.mem, ih hv]
  | and h g ih1 ih2 | or h g ih1 ih2 | diff h g ih1 ih2 | xor h g ih1 ih2 =>
    rw [Hist.mem, Hist.mem, ih1 hv.1, ih2 hv.2]

/-- C08: after any history, `isOn(i)` reports membership for every position of the universe (no
access leaves the word array). -/
theorem isOn_spec (size : Nat) (h : Hist) (hv : h.Valid size) :
    ∃ ws, h.exec size = some ws ∧ ∀ i, i < size → isOn ws i = some (h.mem i) := by
  obtain ⟨ws, e, hl, hb⟩ := exec_bits size h hv
  refine ⟨ws, e, ?_⟩
  intro i hi
  have := wc size
  rw [isOn_eq (by omega), hb i (by omega)]

/-- C08: after any history, `findNextOn(start)` is the least member not below `start`, or `size`
when there is none; `findFirstOn()` is the case `start = 0`. -/
theorem findOn_spec (size : Nat) (h : Hist) (hv : h.Valid size) (ws : List W)
    (he : h.exec size = some ws) (start : Nat) (hs : start < size) :
    let r := findNextOn size ws start
    start ≤ r ∧ r ≤ size ∧ (r < size → h.mem r = true) ∧
      ∀ j, start ≤ j → j < r → h.mem j = false := by
  intro r
  obtain ⟨ws', e, hl, hb⟩ := exec_bits size h hv
  have hw := wc size
  obtain rfl : ws' = ws := by rw [e] at he; exact Option.some.inj he
  rcases findNextOn_spec size ws' start (by omega) with ⟨h1, h2⟩ | ⟨h1, h2, h3, h4⟩
  · have hr : r = size := h1
    refine ⟨by omega, by omega, by intro; omega, ?_⟩
    intro j hj1 hj2
    rw [← hb j (by omega)]; exact h2 j hj1
  · change start ≤ r at h1
    change r < _ at h2
    change bit ws' r = true at h3
    rw [hl] at h2
    rw [hb _ h2] at h3
    have hle : r ≤ size := by
      rcases Nat.lt_or_ge size r with hlt | hge
      · exfalso
        have h5 := h4 size (by omega) hlt
        rw [hb _ (by omega), ← mem_tail size h hv r (by omega), h3] at h5
        cases h5
      · exact hge
    refine ⟨h1, hle, fun _ => h3, ?_⟩
    intro j hj1 hj2
    rw [← hb j (by omega)]; exact h4 j hj1 hj2

theorem findFirstOn_least (size : Nat) (h : Hist) (hv : h.Valid size) (ws : List W)
    (he : h.exec size = some ws) :
    let r := findFirstOn size ws 0
    r ≤ size ∧ (r < size → h.mem r = true) ∧ ∀ j, j < r → h.mem j = false := by
  intro r
  obtain ⟨ws', e, hl, hb⟩ := exec_bits size h hv
  have hw := wc size
  obtain rfl : ws' = ws := by rw [e] at he; exact Option.some.inj he
  rcases findFirstOn_spec size ws' 0 with ⟨h1, h2⟩ | ⟨r', h1, h2, h3, h4⟩
  · have hr : r = size := h1
    refine ⟨by omega, by intro; omega, ?_⟩
    intro j hj2
    rw [← hb j (by omega)]; exact h2 j
  · have hr : r = r' := by show findFirstOn size ws' 0 = r'; omega
    rw [hl] at h2
    rw [hb _ h2] at h3
    rw [hr]
    have hle : r' ≤ size := by
      rcases Nat.lt_or_ge size r' with hlt | hge
      · exfalso
        have h5 := h4 size hlt
        rw [hb _ (by omega), ← mem_tail size h hv r' (by omega), h3] at h5
        cases h5
      · exact hge
    refine ⟨hle, fun _ => h3, ?_⟩
    intro j hj2
    rw [← hb j (by omega)]; exact h4 j hj2

/-- C08: `findNextOff(start)` is the least non-member not below `start`, or `size`. -/
theorem findOff_spec (size : Nat) (h : Hist) (hv : h.Valid size) (ws : List W)
    (he : h.exec size = some ws) (start : Nat) (hs : start < size) :
    let r := findNextOff size ws start
    start ≤ r ∧ r ≤ size ∧ (r < size → h.mem r = false) ∧
      ∀ j, start ≤ j → j < r → h.mem j = true := by
  have := findOn_spec size (.toggleAll h) hv (toggleAll ws) (by rw [Hist.exec, he]; rfl) start hs
  rw [findNextOff_eq]
  simpa [Hist.mem] using this

theorem findFirstOff_least (size : Nat) (h : Hist) (hv : h.Valid size) (ws : List W)
    (he : h.exec size = some ws) :
    let r := findFirstOff size ws 0
    r ≤ size ∧ (r < size → h.mem r = false) ∧ ∀ j, j < r → h.mem j = true := by
  have := findFirstOn_least size (.toggleAll h) hv (toggleAll ws) (by rw [Hist.exec, he]; rfl)
  rw [findFirstOff_eq]
  simpa [Hist.mem] using this

/-- C08: `countOffset(k)` counts the members below `k`, for every position `k` of the universe. -/
theorem countOffset_spec (size : Nat) (h : Hist) (hv : h.Valid size) (ws : List W)
    (he : h.exec size = some ws) (k : Nat) (hk : k < size) :
    countOffset ws k = some (h.card k) := by
  obtain ⟨ws', e, hl, hb⟩ := exec_bits size h hv
  have hw := wc size
  obtain rfl : ws' = ws := by rw [e] at he; exact Option.some.inj he
  rw [countOffset_eq (by omega), Hist.card]
  congr 1
  apply List.countP_congr
  intro i hi
  have := List.mem_range.mp hi
  rw [hb i (by omega)]

/-- C08, violated at the upper end: `countOffset(Size)` (the total count) reads one word past the
array whenever `Size` is a multiple of the word width. -/
theorem countOffset_size_violated (k : Nat) (h : Hist) (hv : h.Valid (64 * k)) (ws : List W)
    (he : h.exec (64 * k) = some ws) : countOffset ws (64 * k) = none := by
  obtain ⟨ws', e, hl, -⟩ := exec_bits _ h hv
  obtain rfl : ws' = ws := by rw [e] at he; exact Option.some.inj he
  have hk : ws'.length = k := by rw [hl, wordCount]; omega
  rw [countOffset, shr6, show 64 * k / 64 = k by omega]
  clear hl he e hv
  subst hk
  generalize 64 * ws'.length &&& 63 = m
  induction ws' with
  | nil => rfl
  | cons w ws ih => rw [List.length_cons, countOffsetLoop, ih]; rfl

/-- What `countOn()` really returns: members plus the padding bits if those are on. -/
theorem countOn_exact (size : Nat) (h : Hist) (hv : h.Valid size) (ws : List W)
    (he : h.exec size = some ws) :
    countOn ws = h.card size + if h.mem size then 64 * wordCount size - size else 0 := by
  obtain ⟨ws', e, hl, hb⟩ := exec_bits size h hv
  have hw := wc size
  obtain rfl : ws' = ws := by rw [e] at he; exact Option.some.inj he
  rw [countOn_eq, hl]
  have e1 : (List.range (64 * wordCount size)).countP (bit ws')
      = (List.range (64 * wordCount size)).countP h.mem := by
    apply List.countP_congr
    intro i hi
    rw [hb i (List.mem_range.mp hi)]
  rw [e1, show 64 * wordCount size = size + (64 * wordCount size - size) by omega, List.range_add,
    List.countP_append, List.countP_map, Hist.card]
  congr 1
  rw [show size + (64 * wordCount size - size) - size = 64 * wordCount size - size by omega]
  generalize 64 * wordCount size - size = p
  have hc : ∀ i, (h.mem ∘ fun x => size + x) i = h.mem size :=
    fun i => mem_tail size h hv (size + i) (by omega)
  split
  · rename_i ht
    rw [List.countP_eq_length.mpr]
    · simp
    · intro a _; rw [hc, ht]
  · rename_i ht
    rw [List.countP_eq_zero]
    intro a _; rw [hc]; exact ht

private theorem pointWise_tail (size : Nat) (h : Hist) (hv : h.Valid size) (hp : h.PointWise) :
    h.mem size = false := by
  induction h with
  | off => rfl
  | on => cases hp
  | toggleAll h ih => cases hp
  | setOn h n ih | setOff h n ih | toggle h n ih =>
    have := hv.1
    rw [Hist.mem, if_neg (by omega), ih hv.2 hp]
  | and h g ih1 ih2 | or h g ih1 ih2 | diff h g ih1 ih2 | xor h g ih1 ih2 =>
    rw [Hist.mem, ih1 hv.1 hp.1, ih2 hv.2 hp.2]; rfl

/-- C08: for histories of single-bit operations and set algebra `countOn()`/`countOff()` are the
numbers of members and non-members. -/
theorem countOn_spec (size : Nat) (h : Hist) (hv : h.Valid size) (hp : h.PointWise) (ws : List W)
    (he : h.exec size = some ws) :
    countOn ws = h.card size ∧ countOff size ws = size - h.card size := by
  have := countOn_exact size h hv ws he
  rw [pointWise_tail size h hv hp] at this
  simp only [Bool.false_eq_true, if_false, Nat.add_zero] at this
  exact ⟨this, by rw [countOff, this]⟩

/-- C09 (partial): if `Size` is a multiple of 64, the counts are right after every history, including
whole-mask operations.  Missing: other sizes, where the claim is false (see below). -/
theorem countOn_aligned_partial (size : Nat) (hs : 64 ∣ size) (h : Hist) (hv : h.Valid size)
    (ws : List W) (he : h.exec size = some ws) :
    countOn ws = h.card size ∧ countOff size ws = size - h.card size := by
  have := countOn_exact size h hv ws he
  have hz : 64 * wordCount size - size = 0 := by
    obtain ⟨k, rfl⟩ := hs; rw [wordCount]; omega
  rw [hz] at this
  have e : countOn ws = h.card size := by rw [this]; split <;> rfl
  exact ⟨e, by rw [countOff, e]⟩

/-- C09, violated: for every `Size` that is not a multiple of 64, `setOn()` makes `countOn()` exceed
the size and `countOff()` negative. -/
theorem countOn_setOnAll_violated (size : Nat) (hs : ¬ 64 ∣ size) :
    size < countOn (setOnAll size) ∧ countOff size (setOnAll size) < 0 := by
  have := countOn_exact size .on trivial _ rfl
  have hc : Hist.card .on size = size := by
    rw [Hist.card, List.countP_eq_length.mpr]
    · simp
    · intro a _; rfl
  rw [hc] at this
  simp only [Hist.mem, if_true] at this
  have : size < countOn (setOnAll size) := by rw [this, wordCount]; omega
  exact ⟨this, by rw [countOff]; omega⟩

/-- C09: `==` on histories of single-bit operations and set algebra is equality of sets. -/
theorem eq_spec (size : Nat) (h g : Hist) (hv : h.Valid size) (gv : g.Valid size)
    (hp : h.PointWise) (gp : g.PointWise) (a b : List W) (ha : h.exec size = some a)
    (hb : g.exec size = some b) :
    eq a b = true ↔ ∀ i, i < size → h.mem i = g.mem i := by
  obtain ⟨a', e1, hl1, hb1⟩ := exec_bits size h hv
  obtain ⟨b', e2, hl2, hb2⟩ := exec_bits size g gv
  obtain rfl : a' = a := by rw [e1] at ha; exact Option.some.inj ha
  obtain rfl : b' = b := by rw [e2] at hb; exact Option.some.inj hb
  have hw := wc size
  rw [eq_iff a' b' (by omega)]
  constructor
  · intro h i hi
    rw [← hb1 i (by omega), ← hb2 i (by omega), h]
  · intro hm i
    by_cases hi : i < 64 * wordCount size
    · rw [hb1 i hi, hb2 i hi]
      by_cases h2 : i < size
      · exact hm i h2
      · rw [mem_tail size h hv i (by omega), mem_tail size g gv i (by omega),
          pointWise_tail size h hv hp, pointWise_tail size g gv gp]
    · rw [bit_ge (by omega), bit_ge (by omega)]

/-- C09, violated: a mask with all bits set one by one is not `==` to `bit_mask(true)` and is not
reported by `isOn()`, although both hold the same set (here `Size = 1`). -/
theorem eq_setOnAll_violated :
    ∃ a b, (Hist.setOn .off 0).exec 1 = some a ∧ Hist.on.exec 1 = some b ∧
      (∀ i, i < 1 → (Hist.setOn .off 0).mem i = Hist.on.mem i) ∧ eq a b = false ∧
      isOnAll a = false ∧ isOnAll b = true := by
  refine ⟨_, _, rfl, rfl, ?_, ?_, ?_, ?_⟩
  · intro i hi
    have : i = 0 := by omega
    subst this; rfl
  all_goals decide +kernel

/-- C09: `isOff()` after single-bit histories tells whether the set is empty. -/
theorem isOffAll_spec (size : Nat) (h : Hist) (hv : h.Valid size) (hp : h.PointWise) (ws : List W)
    (he : h.exec size = some ws) : isOffAll ws = true ↔ ∀ i, i < size → h.mem i = false := by
  obtain ⟨ws', e, hl, hb⟩ := exec_bits size h hv
  obtain rfl : ws' = ws := by rw [e] at he; exact Option.some.inj he
  have hw := wc size
  rw [isOffAll_iff, hl]
  constructor
  · intro h i hi; rw [← hb i (by omega)]; exact h i (by omega)
  · intro hm i hi
    rw [hb i hi]
    by_cases h2 : i < size
    · exact hm i h2
    · rw [mem_tail size h hv i (by omega), pointWise_tail size h hv hp]

/-- C09 (partial, multiples of 64 only): `isOn()` tells whether every position is a member. -/
theorem isOnAll_aligned_partial (size : Nat) (hs : 64 ∣ size) (h : Hist) (hv : h.Valid size)
    (ws : List W) (he : h.exec size = some ws) :
    isOnAll ws = true ↔ ∀ i, i < size → h.mem i = true := by
  obtain ⟨ws', e, hl, hb⟩ := exec_bits size h hv
  obtain rfl : ws' = ws := by rw [e] at he; exact Option.some.inj he
  have hz : 64 * wordCount size = size := by
    obtain ⟨k, rfl⟩ := hs; rw [wordCount]; omega
  rw [hz] at hb
  rw [isOnAll_iff, hl, hz]
  constructor
  · intro h i hi; rw [← hb i hi]; exact h i hi
  · intro h i hi; rw [hb i hi]; exact h i hi

/-- A non-trivial valid history: `{3, 70}` in a universe of 100 positions. -/
example : (Hist.toggle (.setOn (.setOff (.setOn .off 3) 5) 7) 70).Valid 100 ∧
    (Hist.toggle (.setOn (.setOff (.setOn .off 3) 5) 7) 70).PointWise := by
  refine ⟨⟨by decide, by decide, by decide, by decide, trivial⟩, trivial⟩
example : (Hist.xor .on (.setOn .off 70)).Valid 100 := ⟨trivial, by decide, trivial⟩
example : ((Hist.setOn (.setOn .off 3) 70).exec 100).map (findNextOn 100 · 4) = some 70 := by
  decide +kernel

/-! ### C60: the software fallbacks of `count_tailing_zeros` -/

private theorem and_neg {w : Nat} (x : BitVec w) (k : Nat) (hk : x.getLsbD k = true)
    (hlow : ∀ j, j < k → x.getLsbD j = false) : x &&& -x = BitVec.twoPow w k := by
  apply BitVec.eq_of_getLsbD_eq
  intro i hi
  rw [BitVec.getLsbD_and, BitVec.getLsbD_neg, BitVec.getLsbD_twoPow]
  rcases Nat.lt_trichotomy i k with h | h | h
  · rw [hlow i h]; simp; omega
  · subst h
    have : ¬ ∃ j, j < i ∧ x.getLsbD j = true := by
      rintro ⟨j, h1, h2⟩; rw [hlow j h1] at h2; cases h2
    simp [hi, hk, this]
  · have : ∃ j, j < i ∧ x.getLsbD j = true := ⟨k, h, hk⟩
    have hne : ¬ k = i := by omega
    simp [hi, this, hne]

private theorem exists_low {w : Nat} (x : BitVec w) (h : x ≠ 0) :
    ∃ k, k < w ∧ x.getLsbD k = true ∧ ∀ j, j < k → x.getLsbD j = false := by
  cases hf : (List.range w).find? x.getLsbD with
  | none =>
    exfalso; apply h
    apply BitVec.eq_of_getLsbD_eq
    intro i hi
    have := List.find?_eq_none.mp hf i (List.mem_range.mpr hi)
    simpa using this
  | some k =>
    obtain ⟨h1, h2⟩ := List.find?_range_eq_some.mp hf
    refine ⟨k, List.mem_range.mp h2.1, h1, ?_⟩
    intro j hj
    have := h2.2 j hj
    simpa using this

/-- C60: the De Bruijn fallback returns the position of the lowest one bit (64-bit). -/
theorem ctzSoft64_spec (x : BitVec 64) (h : x ≠ 0) :
    ∃ k, ctzSoft64 x = some k ∧ x.getLsbD k = true ∧ ∀ j, j < k → x.getLsbD j = false := by
  obtain ⟨k, hk, h1, h2⟩ := exists_low x h
  refine ⟨k, ?_, h1, h2⟩
  rw [ctzSoft64, if_neg h, and_neg x k h1 h2]
  have : ∀ k : Fin 64, deBruijn64[((BitVec.twoPow 64 k * 0x022FDD63CC95386D#64) >>> 58).toNat]?
      = some k.val := by decide +kernel
  exact this ⟨k, hk⟩

/-- C60: the 32-bit fallback. -/
theorem ctzSoft32_spec (x : BitVec 32) (h : x ≠ 0) :
    ∃ k, ctzSoft32 x = some k ∧ x.getLsbD k = true ∧ ∀ j, j < k → x.getLsbD j = false := by
  obtain ⟨k, hk, h1, h2⟩ := exists_low x h
  refine ⟨k, ?_, h1, h2⟩
  rw [ctzSoft32, if_neg h, and_neg x k h1 h2]
  have : ∀ k : Fin 32, deBruijn32[((BitVec.twoPow 32 k * 0x077CB531#32) >>> 27).toNat]?
      = some k.val := by decide +kernel
  exact this ⟨k, hk⟩

/-- C60: the 8-bit fallback. -/
theorem ctzSoft8_spec (x : BitVec 8) (h : x ≠ 0) :
    ∃ k, ctzSoft8 x = some k ∧ x.getLsbD k = true ∧ ∀ j, j < k → x.getLsbD j = false := by
  obtain ⟨k, hk, h1, h2⟩ := exists_low x h
  refine ⟨k, ?_, h1, h2⟩
  rw [ctzSoft8, if_neg h, and_neg x k h1 h2]
  have : ∀ k : Fin 8, deBruijn8[((BitVec.twoPow 8 k * 0x1D#8) >>> 5).toNat]?
      = some k.val := by decide +kernel
  exact this ⟨k, hk⟩

/-! ### C59: `reverse_bits` -/

/-- C59, violated: for every non-zero argument of a 1-, 2-, 4- or 8-byte type the host
`reverse_bits` either has no defined result or returns 0, never the reversed bits. -/
theorem reverseBits_violated (nbytes : Nat) (x : BitVec (8 * nbytes)) (hx : x ≠ 0) :
    reverseBits nbytes x ≠ some x.reverse := by
  rw [reverseBits, if_neg hx]
  split
  · simp
  · intro h
    apply hx
    have h0 : x.reverse = 0 := (Option.some.inj h).symm
    apply BitVec.eq_of_getLsbD_eq
    intro i hi
    rw [← BitVec.getMsbD_reverse, h0]
    simp

/-- C59: zero is handled. -/
theorem reverseBits_zero_partial (nbytes : Nat) : reverseBits nbytes 0 = some 0 := by
  rw [reverseBits, if_pos rfl]

end Verif.BitMask
