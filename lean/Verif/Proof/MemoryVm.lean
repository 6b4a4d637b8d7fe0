import Verif.Proof.Bits
import Verif.Proof.Memory

/-!
Virtual memory resources: helper lemmas.
-/
namespace Verif.Memory
open Verif.Bits

/-- The size of a chunk. -/
def C : Nat := 2 ^ 21

theorem chunk_toNat : chunk.toNat = C := by
  unfold chunk C
  rw [BitVec.toNat_twoPow]

theorem roundDown_toNat (n : BitVec 64) : (roundDown n chunk).toNat = C * (n.toNat / C) := by
  have h : (roundDown n chunk).toNat = n.toNat - n.toNat % 2 ^ 21 := toNat_and_not_mask (by decide) n
  rw [h]; unfold C; omega

theorem roundUp_toNat (n : BitVec 64) : (roundUp n chunk).toNat = C * ((n.toNat + C - 1) % 2 ^ 64 / C) := by
  have h : (roundUp n chunk).toNat = (n + chunk - 1#64).toNat - (n + chunk - 1#64).toNat % 2 ^ 21 :=
    toNat_and_not_mask (by decide) _
  have e : (n + chunk - 1#64).toNat = (n.toNat + C - 1) % 2 ^ 64 := by
    rw [BitVec.toNat_sub, BitVec.toNat_add]
    have := n.isLt
    rw [chunk_toNat, show (1#64).toNat = 1 from rfl]
    unfold C; omega
  rw [h, e]; unfold C; omega

theorem roundUp_le (n : BitVec 64) (h : n.toNat + C ≤ 2 ^ 64) : (roundUp n chunk).toNat = C * ((n.toNat + C - 1) / C) := by
  rw [roundUp_toNat, Nat.mod_eq_of_lt (by unfold C at *; omega)]

theorem shift_toNat (x : BitVec 64) : (x >>> 21).toNat = x.toNat / C := by
  rw [BitVec.toNat_ushiftRight, Nat.shiftRight_eq_div_pow]; rfl

theorem endUp_le {reserved off : BitVec 64} (hr : reserved.toNat % C = 0) : (endUp reserved off).toNat ≤ reserved.toNat ∧
    (endUp reserved off).toNat % C = 0 := by
  unfold endUp
  split
  · next h =>
    have h : off.toNat ≤ reserved.toNat := h
    have := reserved.isLt
    rw [roundUp_toNat]
    unfold C at *
    omega
  · exact ⟨Nat.le_refl _, hr⟩

/-- Without wrap-around: the chunks that the range touches, up to the reserved space. -/
theorem endUp_touch {reserved off : BitVec 64} (hr : reserved.toNat % C = 0) (c : Nat) (hc : c < reserved.toNat / C) :
    c < (endUp reserved off).toNat / C ↔ c * C < off.toNat := by
  have hlt := reserved.isLt
  unfold endUp
  split
  · next h =>
    have h : off.toNat ≤ reserved.toNat := h
    rw [roundUp_le off (by unfold C at *; omega)]
    unfold C at *; omega
  · next h =>
    have h : ¬ off.toNat ≤ reserved.toNat := h
    unfold C at *; omega

theorem bit_index (st : BitVec 64) : (st >>> 6).toNat = st.toNat / 64 ∧ (st &&& 63).toNat = st.toNat % 64 := by
  constructor
  · rw [BitVec.toNat_ushiftRight, Nat.shiftRight_eq_div_pow]
  · rw [BitVec.toNat_and]
    exact Nat.and_two_pow_sub_one_eq_mod st.toNat 6

theorem one_shift {i : BitVec 64} {j : Nat} (hj : j < 64) : (1#64 <<< i).getLsbD j = decide (j = i.toNat) := by
  rw [BitVec.shiftLeft_eq', BitVec.getLsbD_shiftLeft]
  have : (1#64).getLsbD (j - i.toNat) = decide (j - i.toNat = 0) := by
    rw [BitVec.getLsbD_one]; simp
  rw [this]
  by_cases h : j < i.toNat
  · simp [h, hj]; omega
  · simp [h, hj]; omega

theorem and_zero {w i : BitVec 64} (hi : i.toNat < 64) : w &&& (1#64 <<< i) = 0 ↔ w.getLsbD i.toNat = false := by
  constructor
  · intro h
    have := congrArg (fun x => x.getLsbD i.toNat) h
    simp only [BitVec.getLsbD_and, one_shift hi] at this
    simpa using this
  · intro h
    apply BitVec.eq_of_getLsbD_eq
    intro j hj
    rw [BitVec.getLsbD_and, one_shift hj]
    by_cases e : j = i.toNat
    · subst e; simp [h]
    · simp [e]

/-- The bit of a chunk. -/
def bit (mask : Nat → BitVec 64) (c : Nat) : Bool := (mask (c / 64)).getLsbD (c % 64)

theorem update_ok {f : BitVec 64 → BitVec 64 → BitVec 64} {v : Bool}
    (hf : ∀ w i : BitVec 64, i.toNat < 64 → ∀ j < 64, (f w (1#64 <<< i)).getLsbD j = if j = i.toNat then v else w.getLsbD j)
    {size : Nat} {ed : BitVec 64} (he : ed.toNat ≤ 64 * size) : ∀ (fuel : Nat) (st : BitVec 64) (mask : Nat → BitVec 64),
      st.toNat ≤ ed.toNat → ed.toNat - st.toNat < fuel →
      ∃ mask', Arena.update f size ed fuel st mask = some mask' ∧
        ∀ c, bit mask' c = if st.toNat ≤ c ∧ c < ed.toNat then v else bit mask c := by
  intro fuel
  induction fuel with
  | zero => intro st mask _ h; omega
  | succ fuel ih =>
    intro st mask hle hfu
    unfold Arena.update
    by_cases e : st = ed
    · rw [if_pos e]
      subst e
      refine ⟨mask, rfl, fun c => ?_⟩
      rw [if_neg (by omega)]
    · rw [if_neg e]
      have hne : st.toNat ≠ ed.toNat := fun h => e (BitVec.eq_of_toNat_eq h)
      have hlt := ed.isLt
      obtain ⟨i1, i2⟩ := bit_index st
      rw [if_neg (by rw [i1]; omega)]
      have h1 : (st + 1).toNat = st.toNat + 1 := by
        rw [add_toNat (by rw [show (1 : BitVec 64).toNat = 1 from rfl]; omega)]; rfl
      obtain ⟨mask', h2, h3⟩ := ih (st + 1)
        (fun j => if j = (st >>> 6).toNat then f (mask j) (1#64 <<< (st &&& 63)) else mask j) (by omega) (by omega)
      refine ⟨mask', h2, fun c => ?_⟩
      rw [h3 c, h1]
      have key : bit (fun j => if j = (st >>> 6).toNat then f (mask j) (1#64 <<< (st &&& 63)) else mask j) c =
          if c = st.toNat then v else bit mask c := by
        unfold bit
        simp only [i1]
        by_cases hq : c / 64 = st.toNat / 64
        · rw [if_pos hq, hf _ _ (by rw [i2]; omega) _ (by omega), i2]
          by_cases hm : c = st.toNat
          · rw [if_pos (by omega), if_pos hm]
          · rw [if_neg (by omega), if_neg hm]
        · rw [if_neg hq, if_neg (by rintro rfl; exact hq rfl)]
      rw [key]
      by_cases a : st.toNat + 1 ≤ c ∧ c < ed.toNat
      · rw [if_pos a, if_pos (by omega)]
      · rw [if_neg a]
        by_cases b : c = st.toNat
        · rw [if_pos b, if_pos (by omega)]
        · rw [if_neg b, if_neg (by omega)]

theorem scan_ok {a : Arena} {ed : BitVec 64} (he : ed.toNat ≤ 64 * a.size) : ∀ (fuel : Nat) (st : BitVec 64),
      st.toNat ≤ ed.toNat → ed.toNat - st.toNat < fuel →
      ∃ b, a.scan ed fuel st = some b ∧ (b = true ↔ ∀ c, st.toNat ≤ c → c < ed.toNat → bit a.mask c = true) := by
  intro fuel
  induction fuel with
  | zero => intro st _ h; omega
  | succ fuel ih =>
    intro st hle hfu
    unfold Arena.scan
    by_cases e : st = ed
    · rw [if_pos e]
      subst e
      exact ⟨true, rfl, by simp only [true_iff]; intro c h1 h2; omega⟩
    · rw [if_neg e]
      have hne : st.toNat ≠ ed.toNat := fun h => e (BitVec.eq_of_toNat_eq h)
      have hlt := ed.isLt
      obtain ⟨i1, i2⟩ := bit_index st
      rw [if_neg (by rw [i1]; omega)]
      have h1 : (st + 1).toNat = st.toNat + 1 := by
        rw [add_toNat (by rw [show (1 : BitVec 64).toNat = 1 from rfl]; omega)]; rfl
      have hz := and_zero (w := a.mask (st >>> 6).toNat) (i := st &&& 63) (by rw [i2]; omega)
      rw [i1, i2] at hz
      rw [i1]
      by_cases h0 : bit a.mask st.toNat = false
      · rw [if_pos (hz.2 h0)]
        refine ⟨false, rfl, ?_⟩
        simp only [Bool.false_eq_true, false_iff]
        intro hall
        have := hall st.toNat (Nat.le_refl _) (by omega)
        rw [h0] at this; cases this
      · rw [if_neg fun h => h0 (hz.1 h)]
        obtain ⟨b, h2, h3⟩ := ih (st + 1) (by omega) (by omega)
        refine ⟨b, h2, h3.trans ?_⟩
        rw [h1]
        constructor
        · intro h c c1 c2
          by_cases hc : c = st.toNat
          · subst hc; simpa using h0
          · exact h c (by omega) c2
        · intro h c c1 c2; exact h c (by omega) c2

/-! ## Arena -/

structure Arena.Inv (a : Arena) : Prop where
  reserved : a.reserved.toNat % C = 0
  size : a.reserved.toNat / C ≤ 64 * a.size
  same : ∀ c, a.prot c = bit a.mask c
  out : ∀ c, a.reserved.toNat / C ≤ c → a.prot c = false

theorem Arena.make_inv (space : BitVec 64) : (Arena.make space).Inv := by
  refine ⟨?_, ?_, ?_, fun _ _ => rfl⟩
  · show (roundUp space chunk).toNat % C = 0
    rw [roundUp_toNat]; exact Nat.mul_mod_right _ _
  · show (roundUp space chunk).toNat / C ≤ 64 * ((roundUp space chunk / chunk + 63) / 64).toNat
    have hlt := (roundUp space chunk).isLt
    generalize roundUp space chunk = r at *
    have e1 : (r / chunk).toNat = r.toNat / C := by rw [BitVec.toNat_udiv, chunk_toNat]
    have e2 : (r / chunk + 63).toNat = r.toNat / C + 63 := by
      rw [add_toNat (by rw [e1, show (63 : BitVec 64).toNat = 63 from rfl]; unfold C; omega), e1]; rfl
    rw [BitVec.toNat_udiv, e2, show (64 : BitVec 64).toNat = 64 from rfl]
    omega
  · intro c
    show false = (0 : BitVec 64).getLsbD (c % 64)
    simp

theorem or_bit : ∀ w i : BitVec 64, i.toNat < 64 → ∀ j < 64,
    ((fun w b => w ||| b) w (1#64 <<< i) : BitVec 64).getLsbD j = if j = i.toNat then true else w.getLsbD j := by
  intro w i hi j hj
  show (w ||| (1#64 <<< i)).getLsbD j = _
  rw [BitVec.getLsbD_or, one_shift hj]
  by_cases e : j = i.toNat <;> simp [e]

theorem and_bit : ∀ w i : BitVec 64, i.toNat < 64 → ∀ j < 64,
    ((fun w b => w &&& ~~~b) w (1#64 <<< i) : BitVec 64).getLsbD j = if j = i.toNat then false else w.getLsbD j := by
  intro w i hi j hj
  show (w &&& ~~~(1#64 <<< i)).getLsbD j = _
  rw [BitVec.getLsbD_and, BitVec.getLsbD_not, one_shift hj]
  by_cases e : j = i.toNat <;> simp [e, hj]

/-- `commit` on an arena: safe for all arguments. -/
theorem Arena.commit_ok {a : Arena} (h : a.Inv) (ok : Bool) (o n : BitVec 64) :
    ∃ r a', a.commit ok o n = some (r, a') ∧ a'.Inv ∧ a'.reserved = a.reserved ∧ a'.size = a.size ∧
      (r = false → a' = a) ∧
      (r = true → C * (o.toNat / C) < a.reserved.toNat ∧
        ∀ c, a'.prot c = if o.toNat / C ≤ c ∧ c < (endUp a.reserved (o + n)).toNat / C then true else a.prot c) := by
  unfold Arena.commit
  simp only
  have hst := roundDown_toNat o
  by_cases h1 : roundDown o chunk ≥ a.reserved
  · rw [if_pos h1]
    exact ⟨false, a, rfl, h, rfl, rfl, fun _ => rfl, by simp⟩
  rw [if_neg h1]
  have h1 : ¬ a.reserved.toNat ≤ (roundDown o chunk).toNat := h1
  by_cases h2 : (ok && decide (roundDown o chunk ≤ endUp a.reserved (o + n))) = true
  · rw [if_pos h2]
    have h2 : (roundDown o chunk).toNat ≤ (endUp a.reserved (o + n)).toNat := by
      have := (Bool.and_eq_true _ _ ▸ h2).2
      exact of_decide_eq_true this
    obtain ⟨e1, e2⟩ := endUp_le (reserved := a.reserved) (off := o + n) h.reserved
    have s1 := shift_toNat (roundDown o chunk)
    have s2 := shift_toNat (endUp a.reserved (o + n))
    have hq : (roundDown o chunk).toNat / C = o.toNat / C := by rw [hst]; unfold C; omega
    have hsz := h.size
    have hed : (endUp a.reserved (o + n)).toNat / C ≤ a.reserved.toNat / C := Nat.div_le_div_right e1
    obtain ⟨mask', m1, m2⟩ := update_ok (f := fun w b => w ||| b) (v := true) or_bit (size := a.size) (ed := endUp a.reserved (o + n) >>> 21)
      (by rw [s2]; omega) a.fuel (roundDown o chunk >>> 21) a.mask
      (by rw [s1, s2]; exact Nat.div_le_div_right h2) (by rw [s1, s2]; unfold Arena.fuel; omega)
    rw [m1]
    refine ⟨true, _, rfl, ⟨h.reserved, h.size, ?_, ?_⟩, rfl, rfl, by simp, fun _ => ⟨by omega, ?_⟩⟩
    · intro c
      show protect a.prot _ _ true c = bit mask' c
      rw [m2 c]
      unfold protect
      split
      · rfl
      · exact h.same c
    · intro c hc
      show protect a.prot _ _ true c = false
      unfold protect
      have hc : a.reserved.toNat / C ≤ c := hc
      rw [if_neg (by rw [s2]; omega)]
      exact h.out c hc
    · intro c
      show protect a.prot _ _ true c = _
      unfold protect
      rw [s1, s2, hq]
  · rw [if_neg h2]
    exact ⟨false, a, rfl, h, rfl, rfl, fun _ => rfl, by simp⟩

/-- `evict` on an arena: safe for all arguments. -/
theorem Arena.evict_ok {a : Arena} (h : a.Inv) (ok : Bool) (o n : BitVec 64) :
    ∃ r a', a.evict ok o n = some (r, a') ∧ a'.Inv ∧ a'.reserved = a.reserved ∧ a'.size = a.size ∧
      (r = false → a' = a) ∧
      (r = true → ∀ c, a'.prot c = if (roundUp o chunk).toNat / C ≤ c ∧
        c < (if o + n ≤ a.reserved then roundDown (o + n) chunk else a.reserved).toNat / C then false else a.prot c) := by
  unfold Arena.evict
  simp only
  have e1 : (if o + n ≤ a.reserved then roundDown (o + n) chunk else a.reserved).toNat ≤ a.reserved.toNat := by
    split
    · next h =>
      have h : (o + n).toNat ≤ a.reserved.toNat := h
      rw [roundDown_toNat]; unfold C; omega
    · exact Nat.le_refl _
  generalize (if o + n ≤ a.reserved then roundDown (o + n) chunk else a.reserved) = ed at *
  by_cases h1 : roundUp o chunk ≥ ed
  · rw [if_pos h1]
    exact ⟨false, a, rfl, h, rfl, rfl, fun _ => rfl, by simp⟩
  rw [if_neg h1]
  have h1 : ¬ ed.toNat ≤ (roundUp o chunk).toNat := h1
  cases ok
  · exact ⟨false, a, rfl, h, rfl, rfl, fun _ => rfl, by simp⟩
  · simp only [if_true]
    have s1 := shift_toNat (roundUp o chunk)
    have s2 := shift_toNat ed
    have hsz := h.size
    have hed : ed.toNat / C ≤ a.reserved.toNat / C := Nat.div_le_div_right e1
    obtain ⟨mask', m1, m2⟩ := update_ok (f := fun w b => w &&& ~~~b) (v := false) and_bit (size := a.size) (ed := ed >>> 21)
      (by rw [s2]; omega) a.fuel (roundUp o chunk >>> 21) a.mask
      (by rw [s1, s2]; exact Nat.div_le_div_right (by omega)) (by rw [s1, s2]; unfold Arena.fuel; omega)
    rw [m1]
    refine ⟨true, _, rfl, ⟨h.reserved, h.size, ?_, ?_⟩, rfl, rfl, by simp, fun _ => ?_⟩
    · intro c
      show protect a.prot _ _ false c = bit mask' c
      rw [m2 c]
      unfold protect
      split
      · rfl
      · exact h.same c
    · intro c hc
      show protect a.prot _ _ false c = false
      unfold protect
      split
      · rfl
      · exact h.out c hc
    · intro c
      show protect a.prot _ _ false c = _
      unfold protect
      rw [s1, s2]

theorem Arena.check_ok {a : Arena} (h : a.Inv) (o n : BitVec 64) (ho : o.toNat < a.reserved.toNat)
    (hw : o.toNat + n.toNat < 2 ^ 64) :
    ∃ b, a.check o n = some b ∧
      (b = true ↔ ∀ c < a.reserved.toNat / C, c * C < o.toNat + n.toNat → o.toNat < (c + 1) * C → a.prot c = true) := by
  unfold Arena.check
  simp only
  have hst := roundDown_toNat o
  have hlo : ¬ a.reserved.toNat ≤ (roundDown o chunk).toNat := by rw [hst]; unfold C at *; omega
  have hlo : ¬ roundDown o chunk ≥ a.reserved := hlo
  rw [if_neg hlo]
  obtain ⟨e1, e2⟩ := endUp_le (reserved := a.reserved) (off := o + n) h.reserved
  have ht := endUp_touch (reserved := a.reserved) (off := o + n) h.reserved
  rw [add_toNat hw] at ht
  have s1 := shift_toNat (roundDown o chunk)
  have s2 := shift_toNat (endUp a.reserved (o + n))
  have hq : (roundDown o chunk).toNat / C = o.toNat / C := by rw [hst]; unfold C; omega
  have hsz := h.size
  have hed : (endUp a.reserved (o + n)).toNat / C ≤ a.reserved.toNat / C := Nat.div_le_div_right e1
  have hr := h.reserved
  have hle : o.toNat / C ≤ (endUp a.reserved (o + n)).toNat / C := by
    by_cases hz : o.toNat / C = 0
    · omega
    · have := (ht (o.toNat / C - 1) (by unfold C at *; omega)).2 (by unfold C at *; omega)
      omega
  obtain ⟨b, b1, b2⟩ := scan_ok (a := a) (ed := endUp a.reserved (o + n) >>> 21) (by rw [s2]; omega) a.fuel (roundDown o chunk >>> 21)
    (by rw [s1, s2, hq]; exact hle) (by rw [s1, s2]; unfold Arena.fuel; omega)
  refine ⟨b, b1, b2.trans ?_⟩
  rw [s1, s2, hq]
  constructor
  · intro hall c hc c1 c2
    rw [h.same]
    exact hall c (by unfold C at *; omega) ((ht c hc).2 c1)
  · intro hall c c1 c2
    have hc : c < a.reserved.toNat / C := by omega
    rw [← h.same]
    exact hall c hc ((ht c hc).1 c2) (by unfold C at *; omega)

/-- Calls that returned true, latest first. -/
inductive Ev where
  | commit (o n : BitVec 64)
  | evict (o n : BitVec 64)

/-- The calls made on an arena; ranges do not wrap around. -/
inductive Arena.Hist (space : BitVec 64) : Arena → List Ev → Prop
  | start : Hist space (Arena.make space) []
  | commit {a a' evs r} (h : Hist space a evs) (ok : Bool) (o n : BitVec 64) (hw : o.toNat + n.toNat + C ≤ 2 ^ 64)
      (e : a.commit ok o n = some (r, a')) : Hist space a' (if r then .commit o n :: evs else evs)
  | evict {a a' evs r} (h : Hist space a evs) (ok : Bool) (o n : BitVec 64) (hw : o.toNat + n.toNat + C ≤ 2 ^ 64)
      (e : a.evict ok o n = some (r, a')) : Hist space a' (if r then .evict o n :: evs else evs)

/-- A chunk is resident when the last successful call that concerns it was a commit. A commit concerns the
chunks it touches, an evict the chunks it contains. -/
def resident : List Ev → Nat → Bool
  | [], _ => false
  | .commit o n :: evs, c => if c * C < o.toNat + n.toNat ∧ o.toNat < (c + 1) * C then true else resident evs c
  | .evict o n :: evs, c => if o.toNat ≤ c * C ∧ (c + 1) * C ≤ o.toNat + n.toNat then false else resident evs c

theorem Arena.Hist.inv {space : BitVec 64} {a : Arena} {evs : List Ev} (h : Arena.Hist space a evs) :
    a.Inv ∧ a.reserved = roundUp space chunk ∧ ∀ c < a.reserved.toNat / C, a.prot c = resident evs c := by
  induction h with
  | start => exact ⟨Arena.make_inv space, rfl, fun _ _ => rfl⟩
  | @commit a a' evs r h ok o n hw e ih =>
    obtain ⟨i1, i2, i3⟩ := ih
    obtain ⟨r', a'', e1, e2, e3, -, e4, e5⟩ := Arena.commit_ok i1 ok o n
    rw [e1] at e
    simp only [Option.some.injEq, Prod.mk.injEq] at e
    obtain ⟨rfl, rfl⟩ := e
    refine ⟨e2, e3.trans i2, ?_⟩
    rw [e3]
    cases r' with
    | false => rw [e4 rfl]; exact i3
    | true =>
      obtain ⟨f1, f2⟩ := e5 rfl
      intro c hc
      have ht := endUp_touch (off := o + n) i1.reserved c hc
      rw [add_toNat (by unfold C at *; omega)] at ht
      rw [f2 c]
      show _ = if _ then _ else _
      rw [← i3 c hc]
      by_cases g : c * C < o.toNat + n.toNat ∧ o.toNat < (c + 1) * C
      · rw [if_pos g, if_pos ⟨by unfold C at *; omega, ht.2 g.1⟩]
      · rw [if_neg g, if_neg]
        rintro ⟨g1, g2⟩
        exact g ⟨ht.1 g2, by unfold C at *; omega⟩
  | @evict a a' evs r h ok o n hw e ih =>
    obtain ⟨i1, i2, i3⟩ := ih
    obtain ⟨r', a'', e1, e2, e3, -, e4, e5⟩ := Arena.evict_ok i1 ok o n
    rw [e1] at e
    simp only [Option.some.injEq, Prod.mk.injEq] at e
    obtain ⟨rfl, rfl⟩ := e
    refine ⟨e2, e3.trans i2, ?_⟩
    rw [e3]
    cases r' with
    | false => rw [e4 rfl]; exact i3
    | true =>
      have f2 := e5 rfl
      intro c hc
      rw [f2 c]
      show _ = if _ then _ else _
      rw [← i3 c hc, roundUp_le o (by omega)]
      have hadd := add_toNat (x := o) (y := n) (by unfold C at *; omega)
      have hr := i1.reserved
      have key : ((C * ((o.toNat + C - 1) / C) / C ≤ c) ∧
          c < (if o + n ≤ a.reserved then roundDown (o + n) chunk else a.reserved).toNat / C) ↔
          (o.toNat ≤ c * C ∧ (c + 1) * C ≤ o.toNat + n.toNat) := by
        split
        · rw [roundDown_toNat, hadd]; unfold C at *; omega
        · next hno =>
          have hno : ¬ (o + n).toNat ≤ a.reserved.toNat := hno
          unfold C at *; omega
      by_cases g : o.toNat ≤ c * C ∧ (c + 1) * C ≤ o.toNat + n.toNat
      · rw [if_pos g, if_pos (key.2 g)]
      · rw [if_neg g, if_neg fun x => g (key.1 x)]

/-! ## Stack -/

structure StackVm.Inv (s : StackVm) : Prop where
  reserved : s.reserved.toNat % C = 0
  allocated : s.allocated.toNat % C = 0
  le : s.allocated.toNat ≤ s.reserved.toNat
  same : ∀ c, s.prot c = decide (c < s.allocated.toNat / C)

/-- All states that calls lead to, whatever their arguments. -/
inductive StackVm.Reach (size : BitVec 64) : StackVm → Prop
  | start : Reach size (StackVm.make size)
  | commit {s} (h : Reach size s) (ok : Bool) (o n : BitVec 64) : Reach size (s.commit ok o n).2
  | evict {s} (h : Reach size s) (ok : Bool) (o n : BitVec 64) : Reach size (s.evict ok o n).2

theorem StackVm.Reach.inv {size : BitVec 64} {s : StackVm} (h : StackVm.Reach size s) : s.Inv ∧ s.reserved = roundUp size chunk := by
  induction h with
  | start =>
    have z : (StackVm.make size).allocated.toNat = 0 := rfl
    refine ⟨⟨?_, by rw [z, Nat.zero_mod], by rw [z]; exact Nat.zero_le _, ?_⟩, rfl⟩
    · show (roundUp size chunk).toNat % C = 0
      rw [roundUp_toNat]; exact Nat.mul_mod_right _ _
    · intro c
      rw [z, Nat.zero_div, decide_eq_false (Nat.not_lt_zero c)]
      rfl
  | @commit s h ok o n ih =>
    obtain ⟨i1, i2⟩ := ih
    unfold StackVm.commit
    simp only
    obtain ⟨e1, e2⟩ := endUp_le (off := o + n) i1.reserved
    split
    · exact ⟨i1, i2⟩
    next hlt =>
    have hlt : ¬ (endUp s.reserved (o + n)).toNat < s.allocated.toNat := hlt
    cases ok
    · simp only [Bool.false_eq_true, if_false]; exact ⟨i1, i2⟩
    · simp only [if_true]
      refine ⟨⟨i1.reserved, e2, e1, ?_⟩, i2⟩
      intro c
      show protect s.prot 0 _ true c = decide (c < (endUp s.reserved (o + n)).toNat / C)
      unfold protect
      rw [shift_toNat, i1.same c]
      have := Nat.div_le_div_right (c := C) (Nat.not_lt.1 hlt)
      split
      · next g => exact (decide_eq_true g.2).symm
      · next g => rw [decide_eq_false (by omega), decide_eq_false (by omega)]
  | @evict s h ok o n ih =>
    obtain ⟨i1, i2⟩ := ih
    unfold StackVm.evict
    simp only
    split
    · exact ⟨i1, i2⟩
    next hlt =>
    have hlt : ¬ s.allocated.toNat ≤ (roundUp o chunk).toNat := hlt
    cases ok
    · simp only [Bool.false_eq_true, if_false]; exact ⟨i1, i2⟩
    · simp only [if_true]
      have hl := i1.le
      refine ⟨⟨i1.reserved, ?_, ?_, ?_⟩, i2⟩
      · show (roundUp o chunk).toNat % C = 0
        rw [roundUp_toNat]; exact Nat.mul_mod_right _ _
      · show (roundUp o chunk).toNat ≤ s.reserved.toNat; omega
      · intro c
        show protect s.prot _ _ false c = decide (c < (roundUp o chunk).toNat / C)
        unfold protect
        rw [shift_toNat, shift_toNat, i1.same c]
        have := Nat.div_le_div_right (c := C) (by omega : (roundUp o chunk).toNat ≤ s.allocated.toNat)
        split
        · next g => rw [decide_eq_false (by omega)]
        · next g =>
          by_cases x : c < (roundUp o chunk).toNat / C
          · rw [decide_eq_true x, decide_eq_true (by omega)]
          · rw [decide_eq_false x, decide_eq_false (by omega)]

end Verif.Memory
