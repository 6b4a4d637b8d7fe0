import Verif.Model.NumCCD
import Mathlib.Tactic.Ring
import Mathlib.Tactic.Linarith
import Mathlib.Tactic.FieldSimp
import Mathlib.Tactic.NormNum
import Mathlib.Tactic.Positivity
import Mathlib.Data.Rat.Lemmas
import Mathlib.Algebra.Order.Field.Basic
import Mathlib.Data.List.Perm.Basic
namespace Verif.NumCCD

/-- The number denoted. -/
def Num.val (x : Num) : ℚ := (x.k : ℚ) / 2 ^ x.n

theorem redLoop_spec (r t : Nat) :
    ∃ j, redLoop r t = (r / 2 ^ j, t + j) ∧ 2 ^ j ∣ r ∧ (r = 0 → j = 0) ∧
      (r ≠ 0 → ¬ 2 ∣ r / 2 ^ j) := by
  induction r, t using redLoop.induct with
  | case1 r t h ih =>
    obtain ⟨j, h1, h2, h3, h4⟩ := ih
    obtain ⟨q, rfl⟩ : 2 ∣ r := by omega
    have e : 2 * q / 2 = q := by omega
    rw [e] at h1 h2 h3 h4
    have e2 : 2 * q / 2 ^ (j + 1) = q / 2 ^ j := by
      rw [pow_succ', Nat.mul_div_mul_left _ _ (by decide)]
    refine ⟨j + 1, ?_, ?_, fun h0 => by omega, fun _ => ?_⟩
    · rw [redLoop, if_pos h, e, h1, e2]; simp; omega
    · rw [pow_succ']; exact Nat.mul_dvd_mul_left 2 h2
    · rw [e2]; exact h4 (by omega)
  | case2 r t h =>
    refine ⟨0, ?_, by simp, fun _ => rfl, fun h0 => ?_⟩
    · rw [redLoop, if_neg h]; simp
    · simp; omega

theorem pow2_some {e s : Nat} (h : pow2 e = some s) : e < 64 ∧ s = 2 ^ e := by
  rw [pow2] at h; split at h
  · exact ⟨by assumption, (Option.some.inj h).symm⟩
  · cases h

theorem val_scale (k n m : Nat) : (⟨k * 2 ^ m, n + m⟩ : Num).val = (⟨k, n⟩ : Num).val := by
  simp only [Num.val]; push_cast; rw [pow_add, mul_div_mul_right]; positivity

theorem val_lt (x y : Num) : x.val < y.val ↔ x.k * 2 ^ y.n < y.k * 2 ^ x.n := by
  rw [Num.val, Num.val, div_lt_div_iff₀ (by positivity) (by positivity)]; norm_cast

theorem val_le_iff (x y : Num) : x.val ≤ y.val ↔ x.k * 2 ^ y.n ≤ y.k * 2 ^ x.n := by
  rw [Num.val, Num.val, div_le_div_iff₀ (by positivity) (by positivity)]; norm_cast

theorem val_le_one (x : Num) : x.val ≤ 1 ↔ x.k ≤ 2 ^ x.n := by
  rw [Num.val, div_le_one (by positivity)]; norm_cast

theorem val_lt_one (x : Num) : x.val < 1 ↔ x.k < 2 ^ x.n := by
  rw [Num.val, div_lt_one (by positivity)]; norm_cast

theorem val_nonneg (x : Num) : 0 ≤ x.val := by rw [Num.val]; positivity

/-! ### `popPriority` -/

theorem scan_spec {α} (cmp : α → α → Option Bool) (xs pre : List α) (i : Nat) (ret : α) (id : Nat)
    (hi : pre.length = i) (hid : pre[id]? = some ret) (r : α) (j : Nat)
    (h : scan cmp xs i ret id = some (r, j)) : (pre ++ xs)[j]? = some r := by
  induction xs generalizing pre i ret id with
  | nil =>
    simp only [scan, Option.some.injEq, Prod.mk.injEq] at h
    rw [← h.1, ← h.2]; simpa using hid
  | cons x xs ih =>
    rw [scan] at h
    cases hc : cmp x ret with
    | none => simp [hc] at h
    | some b =>
      have e : pre ++ x :: xs = (pre ++ [x]) ++ xs := by simp
      rw [e]
      cases b with
      | true =>
        simp [hc] at h
        exact ih (pre ++ [x]) (i + 1) x i (by simp [hi]) (by rw [← hi]; simp) h
      | false =>
        simp [hc] at h
        refine ih (pre ++ [x]) (i + 1) ret id (by simp [hi]) ?_ h
        rw [List.getElem?_append_left]
        · exact hid
        · exact (List.getElem?_eq_some_iff.mp hid).1

theorem perm_swap_last {α} (s : List α) (j : Nat) (r d : α) (h : s[j]? = some r)
    (hs : s ≠ []) :
    (r :: (if j ≠ s.length - 1 then (s.set j (s.getD (s.length - 1) d)).take (s.length - 1)
      else s.take (s.length - 1))).Perm s := by
  obtain ⟨hj, hr⟩ := List.getElem?_eq_some_iff.mp h
  obtain ⟨l, z, rfl⟩ : ∃ l z, s = l ++ [z] := ⟨s.dropLast, s.getLast hs, (List.dropLast_append_getLast hs).symm⟩
  have hj' : j < l.length + 1 := by simpa using hj
  simp only [List.length_append, List.length_singleton, Nat.add_sub_cancel]
  by_cases e : j = l.length
  · rw [if_neg (by simpa using e)]
    simp only [List.take_left]
    subst e
    simp at hr
    subst hr
    exact List.perm_append_comm (l₁ := [z]) (l₂ := l)
  · rw [if_pos e]
    have hjl : j < l.length := by omega
    have h1 : (l ++ [z]).getD l.length d = z := by simp [List.getD]
    rw [h1, List.set_append_left _ _ hjl, List.take_left' (by simp)]
    have h2 : l[j] = r := by rw [← hr, List.getElem_append_left hjl]
    have h3 : l = l.take j ++ r :: l.drop (j + 1) := by
      rw [← h2, ← List.drop_eq_getElem_cons hjl, List.take_append_drop]
    have h4 : l.set j z = l.take j ++ z :: l.drop (j + 1) := by
      rw [List.set_eq_take_append_cons_drop, if_pos hjl]
    rw [h4]
    have h5 : (l.take j ++ z :: l.drop (j + 1)).Perm (z :: (l.take j ++ l.drop (j + 1))) :=
      List.perm_middle
    have h6 : l.Perm (r :: (l.take j ++ l.drop (j + 1))) := by
      conv_lhs => rw [h3]
      exact List.perm_middle
    refine ((h5.cons r).trans (List.Perm.swap z r _)).trans ?_
    exact ((h6.symm.cons z)).trans (List.perm_append_comm (l₁ := [z]) (l₂ := l))

theorem pop_perm {α} (cmp : α → α → Option Bool) (s rest : List α) (r : α)
    (h : pop cmp s = some (r, rest)) : (r :: rest).Perm s := by
  cases s with
  | nil => simp [pop] at h
  | cons a as =>
    rw [pop] at h
    cases hs : scan cmp as 1 a 0 with
    | none => simp [hs] at h
    | some p =>
      obtain ⟨ret, id⟩ := p
      have h1 := scan_spec cmp as [a] 1 a 0 rfl rfl ret id hs
      have h2 := perm_swap_last (a :: as) id ret a h1 (by simp)
      simp only [hs, Option.bind_eq_bind, Option.bind_some] at h
      simp only [List.length_cons, Nat.add_sub_cancel] at h2
      split at h
      · rename_i hid
        rw [if_pos hid] at h2
        cases h; exact h2
      · rename_i hid
        rw [if_neg hid] at h2
        cases h; exact h2

theorem scan_max {α} (cmp : α → α → Option Bool) (key : α → ℚ) (good : α → Prop)
    (hc : ∀ x y, good x → good y → cmp x y = some true → key y ≤ key x)
    (hc2 : ∀ x y, good x → good y → cmp x y = some false → key x ≤ key y)
    (xs : List α) (i : Nat) (ret : α) (id : Nat)
    (hr : good ret) (hx : ∀ x ∈ xs, good x) (r : α) (j : Nat)
    (h : scan cmp xs i ret id = some (r, j)) : key ret ≤ key r ∧ ∀ x ∈ xs, key x ≤ key r := by
  induction xs generalizing i ret id with
  | nil =>
    simp only [scan, Option.some.injEq, Prod.mk.injEq] at h
    simp [h.1]
  | cons x xs ih =>
    have gx := hx x (by simp)
    rw [scan] at h
    cases hcx : cmp x ret with
    | none => simp [hcx] at h
    | some b =>
      cases b with
      | true =>
        simp [hcx] at h
        obtain ⟨h1, h2⟩ := ih (i + 1) x i gx (fun y hy => hx y (by simp [hy])) h
        refine ⟨(hc x ret gx hr hcx).trans h1, ?_⟩
        intro y hy
        rcases List.mem_cons.mp hy with rfl | hy
        · exact h1
        · exact h2 y hy
      | false =>
        simp [hcx] at h
        obtain ⟨h1, h2⟩ := ih (i + 1) ret id hr (fun y hy => hx y (by simp [hy])) h
        refine ⟨h1, ?_⟩
        intro y hy
        rcases List.mem_cons.mp hy with rfl | hy
        · exact (hc2 y ret gx hr hcx).trans h1
        · exact h2 y hy

theorem pop_max {α} (cmp : α → α → Option Bool) (key : α → ℚ) (good : α → Prop)
    (hc : ∀ x y, good x → good y → cmp x y = some true → key y ≤ key x)
    (hc2 : ∀ x y, good x → good y → cmp x y = some false → key x ≤ key y)
    (s rest : List α) (r : α) (hg : ∀ x ∈ s, good x)
    (h : pop cmp s = some (r, rest)) : ∀ x ∈ s, key x ≤ key r := by
  cases s with
  | nil => simp
  | cons a as =>
    rw [pop] at h
    cases hs : scan cmp as 1 a 0 with
    | none => simp [hs] at h
    | some p =>
      obtain ⟨ret, id⟩ := p
      have h1 := scan_max cmp key good hc hc2 as 1 a 0 (hg a (by simp))
        (fun x hx => hg x (by simp [hx])) ret id hs
      simp only [hs, Option.bind_eq_bind, Option.bind_some] at h
      have : r = ret := by split at h <;> (cases h; rfl)
      subst this
      intro x hx
      rcases List.mem_cons.mp hx with rfl | hx
      · exact h1.1
      · exact h1.2 x hx

theorem pushAll_spec {α} (bs : List α) (s : List α) (h : (pushAll s bs).length ≤ 255) :
    pushAll s bs = s ++ bs := by
  induction bs generalizing s with
  | nil => simp [pushAll]
  | cons b bs ih =>
    rw [pushAll] at *
    have mono : ∀ (bs s : List α), s.length ≤ (pushAll s bs).length := by
      intro bs
      induction bs with
      | nil => simp [pushAll]
      | cons b bs ih =>
        intro s
        rw [pushAll]
        refine le_trans ?_ (ih _)
        split <;> simp
    by_cases hl : s.length < 256
    · rw [if_pos hl] at *
      rw [ih _ h]; simp
    · rw [if_neg hl] at h
      have := mono bs s
      omega

end Verif.NumCCD
