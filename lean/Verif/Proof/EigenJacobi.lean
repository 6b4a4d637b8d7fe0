import Verif.Model.Eigen
import Verif.Proof.GivensSvd

/-! Helper lemmas for C77: the iteration for matrices of any size. -/
namespace Verif.Eig

open Matrix
open Verif.Mat (forN forN_succ forN_zero forN_inv)
open Verif.Rot (Mx set identity mx rot rot_mul rot_orth frobSq frobSq_mul_left frobSq_mul_right)

/-- The symmetric matrix with the diagonal `e` and the upper triangle of `S`. -/
def sym (n : Nat) (S : Mx) (e : Nat → ℝ) : Matrix (Fin n) (Fin n) ℝ := fun i j =>
  if i = j then e i else if i < j then S i j else S j i

theorem sym_symm (n : Nat) (S : Mx) (e : Nat → ℝ) (i j : Fin n) : sym n S e i j = sym n S e j i := by
  simp only [sym]
  rcases lt_trichotomy i j with h | h | h
  · simp [h, h.ne, h.ne', h.not_gt]
  · simp [h]
  · simp [h, h.ne, h.ne', h.not_gt]

/-! ## Searches -/

theorem maxind_spec {n k : Nat} (S : Mx) (hk : k + 1 < n) : k < maxind n S k ∧ maxind n S k < n ∧ ∀ j, k < j → j < n → |S k j| ≤ |S k (maxind n S k)| := by
  have h := forN_inv (P := fun i m => k < m ∧ m < k + 2 + i ∧ ∀ j, k < j → j < k + 2 + i → |S k j| ≤ |S k m|) (n := n - (k + 2))
    (f := fun m i => if |S k (k + 2 + i)| > |S k m| then k + 2 + i else m) (s := k + 1) ?_ ?_
  · obtain ⟨h1, h2, h3⟩ := h
    exact ⟨h1, by simp only [maxind]; omega, fun j hj hn => h3 j hj (by omega)⟩
  · refine ⟨by omega, by omega, fun j h1 h2 => ?_⟩
    rw [show j = k + 1 by omega]
  · rintro i hi m ⟨h1, h2, h3⟩
    split
    · rename_i h
      refine ⟨by omega, by omega, fun j g1 g2 => ?_⟩
      rcases Nat.lt_or_ge j (k + 2 + i) with g | g
      · exact (h3 j g1 g).trans h.le
      · rw [show j = k + 2 + i by omega]
    · rename_i h
      refine ⟨by omega, by omega, fun j g1 g2 => ?_⟩
      rcases Nat.lt_or_ge j (k + 2 + i) with g | g
      · exact h3 j g1 g
      · rw [show j = k + 2 + i by omega]; exact not_lt.1 h

theorem pivotRow_spec {n : Nat} (hn : 2 ≤ n) (x : St) : pivotRow n x + 1 < n ∧
    ∀ k, k + 1 < n → |x.S k (x.ind k)| ≤ |x.S (pivotRow n x) (x.ind (pivotRow n x))| := by
  have h := forN_inv (P := fun i m => m < i + 1 ∧ ∀ k, k < i + 1 → |x.S k (x.ind k)| ≤ |x.S m (x.ind m)|) (n := n - 2)
    (f := fun m i => if |x.S (i + 1) (x.ind (i + 1))| > |x.S m (x.ind m)| then i + 1 else m) (s := 0) ?_ ?_
  · obtain ⟨h1, h2⟩ := h
    exact ⟨by simp only [pivotRow]; omega, fun k hk => h2 k (by omega)⟩
  · exact ⟨by omega, fun k hk => by rw [show k = 0 by omega]⟩
  · rintro i hi m ⟨h1, h2⟩
    split
    · rename_i h
      refine ⟨by omega, fun k hk => ?_⟩
      rcases Nat.lt_or_ge k (i + 1) with g | g
      · exact (h2 k g).trans h.le
      · rw [show k = i + 1 by omega]
    · rename_i h
      refine ⟨by omega, fun k hk => ?_⟩
      rcases Nat.lt_or_ge k (i + 1) with g | g
      · exact h2 k g
      · rw [show k = i + 1 by omega]; exact not_lt.1 h

theorem maxS_spec (n : Nat) (A : Mx) : 0 ≤ maxS n A ∧ (∀ i j, i < n → j < n → |A i j| ≤ maxS n A) ∧
    (maxS n A = 0 ∨ ∃ i j, i < n ∧ j < n ∧ maxS n A = |A i j|) := by
  have h := forN_inv (P := fun i (m : ℝ) => 0 ≤ m ∧ (∀ a j, a < i → j < n → |A a j| ≤ m) ∧ (m = 0 ∨ ∃ a j, a < n ∧ j < n ∧ m = |A a j|)) (n := n)
    (f := fun m i => forN n (fun m j => max m |A i j|) m) (s := 0) ⟨le_refl _, fun a j h => absurd h (Nat.not_lt_zero a), Or.inl rfl⟩ ?_
  · exact h
  · rintro i hi m ⟨h1, h2, h3⟩
    have g := forN_inv (P := fun b (m : ℝ) => 0 ≤ m ∧ (∀ a j, a < i → j < n → |A a j| ≤ m) ∧ (∀ j, j < b → |A i j| ≤ m) ∧
        (m = 0 ∨ ∃ a j, a < n ∧ j < n ∧ m = |A a j|)) (n := n) (f := fun m j => max m |A i j|) (s := m)
      ⟨h1, h2, fun j h => absurd h (Nat.not_lt_zero j), h3⟩ ?_
    · obtain ⟨g1, g2, g3, g4⟩ := g
      refine ⟨g1, fun a j ha hj => ?_, g4⟩
      rcases Nat.lt_or_ge a i with h | h
      · exact g2 a j h hj
      · rw [show a = i by omega]; exact g3 j hj
    · rintro b hb m ⟨g1, g2, g3, g4⟩
      refine ⟨le_max_of_le_left g1, fun a j ha hj => le_max_of_le_left (g2 a j ha hj), fun j hj => ?_, ?_⟩
      · rcases Nat.lt_or_ge j b with h | h
        · exact le_max_of_le_left (g3 j h)
        · rw [show j = b by omega]; exact le_max_right _ _
      · rcases max_choice m |A i b| with h | h
        · rw [h]; exact g4
        · rw [h]; exact Or.inr ⟨i, b, hi, hb, rfl⟩

/-! ## The rotation -/

theorem rotate_apply (S : Mx) (k l i j : Nat) (s c : ℝ) (a b : Nat) :
    rotate S k l i j s c a b = if a = i ∧ b = j then s * S k l + c * S i j else if a = k ∧ b = l then c * S k l - s * S i j else S a b := rfl

theorem loop2_apply {k l m : Nat} (hm : k + 1 + m ≤ l) (S : Mx) (s c : ℝ) (a b : Nat) :
    forN m (fun S i => rotate S k (k + 1 + i) (k + 1 + i) l s c) S a b =
      if a = k ∧ k < b ∧ b < k + 1 + m then c * S k b - s * S b l
      else if b = l ∧ k < a ∧ a < k + 1 + m then s * S k a + c * S a l else S a b := by
  induction m generalizing a b with
  | zero => rw [forN_zero, if_neg (by omega), if_neg (by omega)]
  | succ m ih =>
    rw [forN_succ]
    have ih := fun a b => ih (by omega) a b
    rw [rotate_apply]
    have u1 := ih k (k + 1 + m)
    rw [if_neg (by omega), if_neg (by omega)] at u1
    have u2 := ih (k + 1 + m) l
    rw [if_neg (by omega), if_neg (by omega)] at u2
    rw [u1, u2, ih a b]
    by_cases h1 : a = k + 1 + m ∧ b = l
    · rw [if_pos h1, if_neg (by omega), if_pos (by omega), h1.1]
    · rw [if_neg h1]
      by_cases h2 : a = k ∧ b = k + 1 + m
      · rw [if_pos h2, if_pos (by omega), h2.2]
      · rw [if_neg h2]
        by_cases h3 : a = k ∧ k < b ∧ b < k + 1 + m
        · rw [if_pos h3, if_pos (by omega)]
        · rw [if_neg h3, if_neg (by omega : ¬ (a = k ∧ k < b ∧ b < k + 1 + (m + 1)))]
          by_cases h4 : b = l ∧ k < a ∧ a < k + 1 + m
          · rw [if_pos h4, if_pos (by omega)]
          · rw [if_neg h4, if_neg (by omega)]

theorem loop3_apply {k l m : Nat} (hkl : k < l) (S : Mx) (s c : ℝ) (a b : Nat) :
    forN m (fun S i => rotate S k (l + 1 + i) l (l + 1 + i) s c) S a b =
      if a = k ∧ l < b ∧ b < l + 1 + m then c * S k b - s * S l b
      else if a = l ∧ l < b ∧ b < l + 1 + m then s * S k b + c * S l b else S a b := by
  induction m generalizing a b with
  | zero => rw [forN_zero, if_neg (by omega), if_neg (by omega)]
  | succ m ih =>
    rw [forN_succ]
    rw [rotate_apply]
    have u1 := ih k (l + 1 + m)
    rw [if_neg (by omega), if_neg (by omega)] at u1
    have u2 := ih l (l + 1 + m)
    rw [if_neg (by omega), if_neg (by omega)] at u2
    rw [u1, u2, ih a b]
    by_cases h1 : a = l ∧ b = l + 1 + m
    · rw [if_pos h1, if_neg (by omega), if_pos (by omega), h1.2]
    · rw [if_neg h1]
      by_cases h2 : a = k ∧ b = l + 1 + m
      · rw [if_pos h2, if_pos (by omega), h2.2]
      · rw [if_neg h2]
        by_cases h3 : a = k ∧ l < b ∧ b < l + 1 + m
        · rw [if_pos h3, if_pos (by omega)]
        · rw [if_neg h3, if_neg (by omega : ¬ (a = k ∧ l < b ∧ b < l + 1 + (m + 1)))]
          by_cases h4 : a = l ∧ l < b ∧ b < l + 1 + m
          · rw [if_pos h4, if_pos (by omega)]
          · rw [if_neg h4, if_neg (by omega)]

theorem loop1_apply {k l : Nat} (hkl : k < l) (S : Mx) (s c : ℝ) (a b : Nat) :
    forN k (fun S i => rotate S i k i l s c) S a b =
      if a < k then (if b = k then c * S a k - s * S a l else if b = l then s * S a k + c * S a l else S a b) else S a b :=
  Rot.col_apply k ⟨k, l, c, s⟩ S (by simp; omega) a b

theorem rotateAll_apply {n k l : Nat} (hkl : k < l) (hl : l < n) (S : Mx) (s c : ℝ) (a b : Nat) (hab : a < b) (hb : b < n) :
    rotateAll n S k l s c a b =
      if a = k then (if b = l then 0 else if b < l then c * S k b - s * S b l else c * S k b - s * S l b)
      else if b = k then c * S a k - s * S a l
      else if b = l then (if a < k then s * S a k + c * S a l else s * S k a + c * S a l)
      else if a = l then s * S k b + c * S l b
      else S a b := by
  have e1 : ∀ a b, forN k (fun S i => rotate S i k i l s c) (Rot.set S k l 0) a b =
      if a < k then (if b = k then c * S a k - s * S a l else if b = l then s * S a k + c * S a l else S a b)
      else if a = k ∧ b = l then 0 else S a b := by
    intro a b
    rw [loop1_apply hkl]
    simp only [Rot.set]
    by_cases h : a < k
    · simp [h, h.ne]
    · simp [h]
  have e2 : ∀ a b, forN (l - (k + 1)) (fun S i => rotate S k (k + 1 + i) (k + 1 + i) l s c) (forN k (fun S i => rotate S i k i l s c) (Rot.set S k l 0)) a b =
      if a = k ∧ k < b ∧ b < l then c * S k b - s * S b l
      else if b = l ∧ k < a ∧ a < l then s * S k a + c * S a l
      else if a < k then (if b = k then c * S a k - s * S a l else if b = l then s * S a k + c * S a l else S a b)
      else if a = k ∧ b = l then 0 else S a b := by
    intro a b
    rw [loop2_apply (by omega), show k + 1 + (l - (k + 1)) = l by omega]
    by_cases h1 : a = k ∧ k < b ∧ b < l
    · rw [if_pos h1, if_pos h1, e1, if_neg (by omega), if_neg (by omega), e1, if_neg (by omega), if_neg (by omega)]
    · rw [if_neg h1, if_neg h1]
      by_cases h2 : b = l ∧ k < a ∧ a < l
      · rw [if_pos h2, if_pos h2, e1, if_neg (by omega), if_neg (by omega), e1, if_neg (by omega), if_neg (by omega)]
      · rw [if_neg h2, if_neg h2, e1]
  rw [rotateAll]
  rw [loop3_apply hkl, show l + 1 + (n - (l + 1)) = n by omega]
  by_cases ha : a = k
  · rw [if_pos ha]
    by_cases h1 : b = l
    · rw [if_neg (by omega), if_neg (by omega), e2, if_neg (by omega), if_neg (by omega), if_neg (by omega), if_pos ⟨ha, h1⟩, if_pos h1]
    · rw [if_neg h1]
      by_cases h2 : b < l
      · rw [if_neg (by omega), if_neg (by omega), e2, if_pos (by omega), if_pos h2]
      · rw [if_pos (by omega), if_neg h2, e2 k b, if_neg (by omega), if_neg (by omega), if_neg (by omega), if_neg (by omega), e2 l b, if_neg (by omega),
          if_neg (by omega), if_neg (by omega), if_neg (by omega)]
  · rw [if_neg ha, if_neg (by omega)]
    by_cases h1 : b = k
    · rw [if_pos h1, if_neg (by omega), e2, if_neg (by omega), if_neg (by omega), if_pos (by omega), if_pos h1]
    · rw [if_neg h1]
      by_cases h2 : b = l
      · rw [if_pos h2, if_neg (by omega), e2, if_neg (by omega)]
        by_cases h3 : a < k
        · rw [if_neg (by omega), if_pos h3, if_neg h1, if_pos h2, if_pos h3]
        · rw [if_pos (by omega), if_neg h3]
      · rw [if_neg h2]
        by_cases h3 : a = l
        · rw [if_pos (by omega), if_pos h3, e2 k b, if_neg (by omega), if_neg (by omega), if_neg (by omega), if_neg (by omega), e2 l b, if_neg (by omega),
            if_neg (by omega), if_neg (by omega), if_neg (by omega)]
        · rw [if_neg (by omega), if_neg h3, e2, if_neg (by omega), if_neg (by omega)]
          by_cases h4 : a < k
          · rw [if_pos h4, if_neg h1, if_neg h2]
          · rw [if_neg h4, if_neg (by omega)]

theorem conj_apply {n : Nat} {k l : Fin n} (c s : ℝ) {M : Matrix (Fin n) (Fin n) ℝ} (hM : ∀ i j, M i j = M j i) (i j : Fin n) :
    (rot k l c s * M * (rot k l c s)ᵀ) i j =
      if i = k then c * (if j = k then c * M k k - s * M l k else if j = l then s * M k k + c * M l k else M j k)
          - s * (if j = k then c * M k l - s * M l l else if j = l then s * M k l + c * M l l else M j l)
      else if i = l then s * (if j = k then c * M k k - s * M l k else if j = l then s * M k k + c * M l k else M j k)
          + c * (if j = k then c * M k l - s * M l l else if j = l then s * M k l + c * M l l else M j l)
      else if j = k then c * M k i - s * M l i else if j = l then s * M k i + c * M l i else M j i := by
  have ht : ∀ a b, (M * (rot k l c s)ᵀ) a b = (rot k l c s * M) b a := by
    intro a b
    have : M * (rot k l c s)ᵀ = (rot k l c s * M)ᵀ := by
      rw [Matrix.transpose_mul]; congr 1; funext i j; exact hM i j
    rw [this]; rfl
  rw [Matrix.mul_assoc, rot_mul]
  simp only [ht, rot_mul]

/-- The rotation of the code, as a product of matrices. -/
theorem rotateAll_sym {n : Nat} {k l : Fin n} (hkl : k < l) (S : Mx) (e : Nat → ℝ) (s c ek el : ℝ)
    (hk : ek = c * (c * e k - s * S k l) - s * (c * S k l - s * e l)) (hl : el = s * (s * e k + c * S k l) + c * (s * S k l + c * e l))
    (h0 : c * (s * e k + c * S k l) - s * (s * S k l + c * e l) = 0) :
    sym n (rotateAll n S k l s c) (upd (upd e k ek) l el) = rot k l c s * sym n S e * (rot k l c s)ᵀ := by
  have hkl' : (k : Nat) < l := hkl
  have hne : k ≠ l := hkl.ne
  have up : ∀ i j : Fin n, i ≤ j → sym n (rotateAll n S k l s c) (upd (upd e k ek) l el) i j = (rot k l c s * sym n S e * (rot k l c s)ᵀ) i j := by
    intro i j hij
    rw [conj_apply c s (sym_symm n S e)]
    have skk : sym n S e k k = e k := by simp [sym]
    have sll : sym n S e l l = e l := by simp [sym]
    have skl : sym n S e k l = S k l := by simp [sym, hne, hkl]
    have slk : sym n S e l k = S k l := by rw [sym_symm, skl]
    rw [skk, sll, skl, slk]
    rcases eq_or_lt_of_le hij with h | h
    · subst h
      by_cases ik : i = k
      · subst ik
        rw [if_pos rfl, if_pos rfl, if_pos rfl]
        have : sym n (rotateAll n S i l s c) (upd (upd e i ek) l el) i i = ek := by
          simp [sym, upd, hkl'.ne]
        rw [this, hk]
      · by_cases il : i = l
        · subst il
          rw [if_neg ik, if_pos rfl, if_neg ik, if_pos rfl, if_neg ik, if_pos rfl]
          have : sym n (rotateAll n S k i s c) (upd (upd e k ek) i el) i i = el := by
            simp [sym, upd]
          rw [this, hl]
        · have h1 : (i : Nat) ≠ k := fun h => ik (Fin.ext h)
          have h2 : (i : Nat) ≠ l := fun h => il (Fin.ext h)
          simp [sym, upd, ik, il, h1, h2]
    · have h' : (i : Nat) < j := h
      have lhs : sym n (rotateAll n S k l s c) (upd (upd e k ek) l el) i j = rotateAll n S k l s c i j := by
        simp [sym, h, h.ne]
      rw [lhs, rotateAll_apply hkl' l.2 S s c i j h' j.2]
      simp only [Fin.val_inj]
      by_cases ik : i = k
      · subst ik
        rw [if_pos rfl, if_pos rfl]
        by_cases jl : j = l
        · subst jl
          rw [if_pos rfl, if_neg h.ne', if_pos rfl, if_neg h.ne', if_pos rfl, h0]
        · rw [if_neg jl, if_neg h.ne', if_neg jl, if_neg h.ne', if_neg jl]
          have s1 : sym n S e j i = S i j := by simp [sym, h.ne', h.not_gt]
          rw [s1]
          by_cases jl' : (j : Nat) < l
          · have s2 : sym n S e j l = S j l := by simp [sym, jl, show j < l from jl']
            rw [if_pos jl', s2]
          · have : l < j := lt_of_le_of_ne (not_lt.1 jl') (Ne.symm jl)
            have s2 : sym n S e j l = S l j := by simp [sym, jl, this.not_gt]
            rw [if_neg jl', s2]
      · rw [if_neg ik, if_neg ik]
        by_cases jk : j = k
        · subst jk
          have il : i ≠ l := (h.trans hkl).ne
          have s1 : sym n S e j i = S i j := by simp [sym, h.ne', h.not_gt]
          have s2 : sym n S e l i = S i l := by simp [sym, il.symm, (h.trans hkl).not_gt]
          rw [if_pos rfl, if_neg il, if_pos rfl, s1, s2]
        · rw [if_neg jk]
          by_cases jl : j = l
          · subst jl
            have il : i ≠ j := h.ne
            have s2 : sym n S e j i = S i j := by simp [sym, il.symm, h.not_gt]
            rw [if_pos rfl, if_neg il, if_neg jk, if_pos rfl, s2]
            by_cases hik : (i : Nat) < k
            · have s1 : sym n S e k i = S i k := by simp [sym, Ne.symm ik, (show i < k from hik).not_gt]
              rw [if_pos hik, s1]
            · have : k < i := lt_of_le_of_ne (not_lt.1 hik) (Ne.symm ik)
              have s1 : sym n S e k i = S k i := by simp [sym, Ne.symm ik, this]
              rw [if_neg hik, s1]
          · rw [if_neg jl]
            by_cases il : i = l
            · subst il
              have s1 : sym n S e j k = S k j := by simp [sym, jk, (hkl.trans h).not_gt]
              have s2 : sym n S e j i = S i j := by simp [sym, h.ne', h.not_gt]
              rw [if_pos rfl, if_pos rfl, if_neg jk, if_neg jl, if_neg jk, if_neg jl, s1, s2]
            · have s1 : sym n S e j i = S i j := by simp [sym, h.ne', h.not_gt]
              rw [if_neg il, if_neg il, if_neg jk, if_neg jl, s1]
  funext i j
  rcases le_total i j with h | h
  · exact up i j h
  · rw [sym_symm, up j i h]
    have : (rot k l c s * sym n S e * (rot k l c s)ᵀ)ᵀ = rot k l c s * sym n S e * (rot k l c s)ᵀ := by
      rw [Matrix.transpose_mul, Matrix.transpose_mul, Matrix.transpose_transpose, Matrix.mul_assoc]
      congr 2; funext i j; exact sym_symm n S e j i
    exact congrFun (congrFun this i) j

/-- The angle. -/
theorem angle (p y : ℝ) (sg : ℝ) (hsg : sg * sg = 1) (hy : |y| = sg * y) (hd : |y| + √(p * p + y * y) ≠ 0) :
    let d := |y| + √(p * p + y * y)
    let r := √(p * p + d * d)
    let c := d / r
    let s := sg * (p / r)
    let t := sg * (p * p / d)
    c * c + s * s = 1 ∧ (c * c - s * s) * p = 2 * (c * s * y) ∧ t = 2 * (c * s * p) - 2 * (s * s * y) ∧ t * t + 2 * t * y = p * p := by
  intro d r c s t
  have hw : 0 ≤ √(p * p + y * y) := Real.sqrt_nonneg _
  have hw2 : √(p * p + y * y) * √(p * p + y * y) = p * p + y * y := Real.mul_self_sqrt (add_nonneg (mul_self_nonneg _) (mul_self_nonneg _))
  have hd0 : 0 < d := lt_of_le_of_ne (add_nonneg (abs_nonneg _) hw) (Ne.symm hd)
  have hr2 : r * r = p * p + d * d := Real.mul_self_sqrt (add_nonneg (mul_self_nonneg _) (mul_self_nonneg _))
  have hr0 : 0 < r := Real.sqrt_pos.2 (add_pos_of_nonneg_of_pos (mul_self_nonneg _) (mul_pos hd0 hd0))
  -- p² = d² - 2 d |y|
  have hp : p * p = d * d - 2 * d * |y| := by
    have : d = |y| + √(p * p + y * y) := rfl
    have hyy : |y| * |y| = y * y := abs_mul_abs_self y
    rw [this]; linear_combination (-1 : ℝ) * hw2 + hyy
  have hc : c * r = d := div_mul_cancel₀ _ hr0.ne'
  have hs : s * r = sg * p := by
    have : s = sg * (p / r) := rfl
    rw [this, mul_assoc, div_mul_cancel₀ _ hr0.ne']
  have ht : t * d = sg * (p * p) := by
    have : t = sg * (p * p / d) := rfl
    rw [this, mul_assoc, div_mul_cancel₀ _ hd0.ne']
  have hrr : r * r ≠ 0 := (mul_pos hr0 hr0).ne'
  clear_value d r c s t
  have hyy : |y| * |y| = y * y := abs_mul_abs_self y
  have hyd : y = sg * |y| := by rw [hy]; linear_combination (-y) * hsg
  refine ⟨?_, ?_, ?_, ?_⟩
  · apply mul_right_cancel₀ hrr
    linear_combination (c * r + d) * hc + (s * r + sg * p) * hs + p * p * hsg - hr2
  · apply mul_right_cancel₀ hrr
    have e1 : (c * c - s * s) * p * (r * r) = (d * d - p * p) * p := by
      linear_combination p * (c * r + d) * hc - p * (s * r + sg * p) * hs - p * p * p * hsg
    have e2 : 2 * (c * s * y) * (r * r) = 2 * (d * (sg * p) * y) := by
      linear_combination 2 * y * s * r * hc + 2 * y * d * hs
    rw [e1, e2]
    linear_combination (-p) * hp - 2 * d * p * hy * (-1)
  · apply mul_right_cancel₀ (mul_ne_zero hrr hd0.ne')
    have e1 : t * (r * r * d) = sg * (p * p) * (r * r) := by linear_combination r * r * ht
    have e2 : (2 * (c * s * p) - 2 * (s * s * y)) * (r * r * d) = (2 * (d * (sg * p) * p) - 2 * (p * p * y)) * d := by
      linear_combination d * (2 * p * s * r * hc + 2 * p * d * hs) - d * (2 * y) * ((s * r + sg * p) * hs + p * p * hsg)
    rw [e1, e2, hr2]
    have : p * p * y = p * p * (sg * |y|) := by rw [← hyd]
    rw [this]
    linear_combination sg * (p * p) * hp
  · apply mul_right_cancel₀ (mul_ne_zero hd0.ne' hd0.ne')
    have e1 : (t * t + 2 * t * y) * (d * d) = (p * p) * (p * p) + 2 * (p * p) * d * |y| := by
      rw [hy]; linear_combination (t * d + sg * (p * p)) * ht + (p * p) * (p * p) * hsg + 2 * y * d * ht
    rw [e1]
    linear_combination p * p * hp

/-! ## The loop -/

structure Inv (n : Nat) (A : Matrix (Fin n) (Fin n) ℝ) (x : St) : Prop where
  rep : mx n x.E * sym n x.S x.e * (mx n x.E)ᵀ = A
  orth : mx n x.E * (mx n x.E)ᵀ = 1
  ch : ∀ k, k < n → x.changed k = true
  st : x.state = n
  ind : ∀ k, k + 1 < n → k < x.ind k ∧ x.ind k < n

theorem update_eq {k : Nat} {t : ℝ} {x : St} (h : x.changed k = true) (ht : t ≠ 0) : update k t x = ⟨x.S, x.E, upd x.e k (x.e k + t), x.ind, x.changed, x.state⟩ := by
  have hne : x.e k ≠ upd x.e k (x.e k + t) k := by
    simp only [upd, if_true]
    intro h; apply ht; linarith
  rw [update]
  rw [if_neg (fun h => hne h.2), if_neg (fun h' => by rw [h] at h'; exact absurd h'.1 (by decide))]

theorem start_inv (n : Nat) (A : Mx) : Inv n (sym n A fun k => A k k) (start n A) := by
  have hid : mx n identity = 1 := Rot.identity_mat n
  refine ⟨?_, ?_, fun k _ => rfl, rfl, fun k hk => ?_⟩
  · change mx n identity * _ * (mx n identity)ᵀ = _
    rw [hid, Matrix.one_mul, Matrix.transpose_one, Matrix.mul_one]; rfl
  · change mx n identity * (mx n identity)ᵀ = _
    rw [hid, Matrix.transpose_one, Matrix.mul_one]
  · obtain ⟨h1, h2, -⟩ := maxind_spec A hk
    exact ⟨h1, h2⟩

theorem pass_inv {n : Nat} {A : Matrix (Fin n) (Fin n) ℝ} {x : St} (h : Inv n A x) (fresh : Bool) {k l : Nat} (hkl : k < l) (hl : l < n)
    (hp : x.S k l ≠ 0) :
    Inv n A (pass fresh n k l x) ∧ (fresh = true → (pass fresh n k l x).ind = maxind n (pass fresh n k l x).S) ∧
    ∑ i : Fin n, (pass fresh n k l x).e i ^ 2 = ∑ i : Fin n, x.e i ^ 2 + 2 * x.S k l ^ 2 := by
  obtain ⟨p, hpe⟩ : ∃ p, p = x.S k l := ⟨_, rfl⟩
  obtain ⟨y, hye⟩ : ∃ y, y = (x.e l - x.e k) / 2 := ⟨_, rfl⟩
  obtain ⟨sg, hsg⟩ : ∃ sg : ℝ, sg = if y < 0 then -1 else 1 := ⟨_, rfl⟩
  rw [← hpe] at hp
  have hpp : 0 < p * p := lt_of_le_of_ne (mul_self_nonneg p) (mul_self_ne_zero.2 hp).symm
  have hd : |y| + √(p * p + y * y) ≠ 0 := by
    have : 0 < √(p * p + y * y) := Real.sqrt_pos.2 (add_pos_of_pos_of_nonneg hpp (mul_self_nonneg _))
    exact (add_pos_of_nonneg_of_pos (abs_nonneg _) this).ne'
  have hs1 : sg * sg = 1 := by rw [hsg]; split <;> norm_num
  have hs2 : |y| = sg * y := by
    rw [hsg]; split
    · rename_i h; rw [abs_of_neg h]; ring
    · rename_i h; rw [abs_of_nonneg (not_lt.1 h), one_mul]
  obtain ⟨d, hde⟩ : ∃ d, d = |y| + √(p * p + y * y) := ⟨_, rfl⟩
  obtain ⟨r, hre⟩ : ∃ r, r = √(p * p + d * d) := ⟨_, rfl⟩
  obtain ⟨c, hce⟩ : ∃ c, c = d / r := ⟨_, rfl⟩
  obtain ⟨s, hse⟩ : ∃ s, s = sg * (p / r) := ⟨_, rfl⟩
  obtain ⟨t, hte⟩ : ∃ t, t = sg * (p * p / d) := ⟨_, rfl⟩
  have ang := angle p y sg hs1 hs2 hd
  dsimp only at ang
  rw [← hde, ← hre, ← hce, ← hse, ← hte] at ang
  obtain ⟨a1, a2, a3, a4⟩ := ang
  have hss : (if y < 0 then -(p / r) else p / r) = s := by rw [hse, hsg]; split <;> ring
  have htt : (if y < 0 then -(p * p / d) else p * p / d) = t := by rw [hte, hsg]; split <;> ring
  have ht0 : t ≠ 0 := by
    intro h0; rw [h0] at a4; apply hpp.ne'; linear_combination -a4
  obtain ⟨S', hS'⟩ : ∃ S', S' = rotateAll n x.S k l s c := ⟨_, rfl⟩
  obtain ⟨E', hE'⟩ : ∃ E', E' = rotateE n x.E k l s c := ⟨_, rfl⟩
  have hpass : pass fresh n k l x = ⟨S', E', upd (upd x.e k (x.e k - t)) l (x.e l + t),
      if fresh then maxind n S' else upd (upd x.ind k (maxind n S' k)) l (maxind n S' l), x.changed, x.state⟩ := by
    rw [pass]
    rw [← hpe, ← hye, ← hde, ← hre, ← hce, hss, htt, update_eq (h.ch k (by omega)) (neg_ne_zero.2 ht0),
      update_eq (x := ⟨x.S, x.E, upd x.e k (x.e k + -t), x.ind, x.changed, x.state⟩) (h.ch l hl) ht0]
    have : upd x.e k (x.e k + -t) l = x.e l := by simp only [upd]; rw [if_neg (by omega)]
    dsimp only
    rw [this, ← hS', ← hE', sub_eq_add_neg]
  have hyl : x.e l = x.e k + 2 * y := by rw [hye]; ring
  have hsym := rotateAll_sym (n := n) (k := ⟨k, by omega⟩) (l := ⟨l, hl⟩) (by exact hkl) x.S x.e s c (x.e k - t) (x.e l + t)
    (by
      simp only
      rw [← hpe, hyl]
      linear_combination (-x.e k) * a1 - a3)
    (by
      simp only
      rw [← hpe, hyl]
      linear_combination (-(x.e k + 2 * y)) * a1 + a3)
    (by
      simp only
      rw [← hpe, hyl]
      linear_combination a2)
  simp only [← hS'] at hsym
  have hE : mx n E' = mx n x.E * (rot ⟨k, by omega⟩ ⟨l, hl⟩ c s)ᵀ := by
    rw [hE']
    exact Rot.col_mat (n := n) (g := ⟨k, l, c, s⟩) (a := ⟨k, by omega⟩) (b := ⟨l, hl⟩) rfl rfl (by intro h; have := congrArg Fin.val h; simp at this; omega) x.E
  have hro : rot (⟨k, by omega⟩ : Fin n) ⟨l, hl⟩ c s * (rot (⟨k, by omega⟩ : Fin n) ⟨l, hl⟩ c s)ᵀ = 1 :=
    rot_orth (by intro h; have := congrArg Fin.val h; simp at this; omega) a1
  have hro' := mul_eq_one_comm.1 hro
  rw [hpass]
  refine ⟨⟨?_, ?_, h.ch, h.st, ?_⟩, ?_, ?_⟩
  · dsimp only
    rw [hsym, hE, Matrix.transpose_mul, Matrix.transpose_transpose]
    generalize rot (⟨k, by omega⟩ : Fin n) ⟨l, hl⟩ c s = R at hro'
    calc mx n x.E * Rᵀ * (R * sym n x.S x.e * Rᵀ) * (R * (mx n x.E)ᵀ)
        = mx n x.E * (Rᵀ * R) * sym n x.S x.e * (Rᵀ * R) * (mx n x.E)ᵀ := by simp only [Matrix.mul_assoc]
      _ = A := by rw [hro', Matrix.mul_one, Matrix.mul_one, h.rep]
  · dsimp only
    rw [hE, Matrix.transpose_mul, Matrix.transpose_transpose, Matrix.mul_assoc, ← Matrix.mul_assoc _ _ (mx n x.E)ᵀ, hro', Matrix.one_mul, h.orth]
  · intro i hi
    have m := maxind_spec S' hi
    dsimp only
    cases fresh
    · rw [if_neg (by decide)]
      simp only [upd]
      split
      · rename_i he; subst he; exact ⟨m.1, m.2.1⟩
      · split
        · rename_i he; subst he; exact ⟨m.1, m.2.1⟩
        · exact h.ind i hi
    · exact ⟨m.1, m.2.1⟩
  · intro hf; subst hf; rfl
  · dsimp only
    have key : ∀ i : Fin n, (upd (upd x.e k (x.e k - t)) l (x.e l + t) i) ^ 2 = x.e i ^ 2 +
        ((if i = (⟨k, by omega⟩ : Fin n) then (x.e k - t) ^ 2 - x.e k ^ 2 else 0) + (if i = (⟨l, hl⟩ : Fin n) then (x.e l + t) ^ 2 - x.e l ^ 2 else 0)) := by
      intro i
      simp only [upd, Fin.ext_iff]
      by_cases h1 : (i : Nat) = l
      · rw [if_pos h1, if_neg (by omega), if_pos h1, h1]; ring
      · rw [if_neg h1, if_neg h1]
        by_cases h2 : (i : Nat) = k
        · rw [if_pos h2, if_pos h2, h2]; ring
        · rw [if_neg h2, if_neg h2]; ring
    simp only [key]
    rw [Finset.sum_add_distrib, Finset.sum_add_distrib]
    simp only [Finset.sum_ite_eq', Finset.mem_univ, if_true]
    rw [← hpe, hyl]
    linear_combination 2 * a4

theorem diag_sum_le {n : Nat} {A : Matrix (Fin n) (Fin n) ℝ} {x : St} (h : Inv n A x) : ∑ i : Fin n, x.e i ^ 2 ≤ frobSq A := by
  rw [← h.rep, frobSq_mul_right h.orth, frobSq_mul_left h.orth]
  refine Finset.sum_le_sum fun i _ => ?_
  have : x.e i ^ 2 = sym n x.S x.e i i ^ 2 := by simp [sym]
  rw [this]
  exact Finset.single_le_sum (f := fun j => sym n x.S x.e i j ^ 2) (fun j _ => sq_nonneg _) (Finset.mem_univ i)

/-- The loop ends. -/
theorem loop_ends {n : Nat} (hn : 2 ≤ n) {A : Matrix (Fin n) (Fin n) ℝ} (fresh : Bool) {tol : ℝ} (ht : 0 < tol) (fuel : Nat) (x : St) (h : Inv n A x)
    (hf : frobSq A - ∑ i : Fin n, x.e i ^ 2 < fuel * (2 * tol ^ 2)) : ∃ d, loop fresh n tol (fuel + 1) x = .ok d := by
  induction fuel generalizing x with
  | zero => have := diag_sum_le h; simp at hf; linarith
  | succ fuel ih =>
    rw [loop]
    have hst : x.state ≠ 0 := by rw [h.st]; omega
    rw [if_neg hst]
    obtain ⟨p1, p2⟩ := pivotRow_spec hn x
    obtain ⟨i1, i2⟩ := h.ind _ p1
    dsimp only
    rw [if_neg (not_not.2 ⟨by omega, i2⟩)]
    split
    · exact ⟨_, rfl⟩
    · rename_i hge
      have hp : x.S (pivotRow n x) (x.ind (pivotRow n x)) ≠ 0 := by
        intro h0; rw [h0, abs_zero] at hge; exact hge ht
      have hpp := lt_of_le_of_ne (mul_self_nonneg _) (mul_self_ne_zero.2 hp).symm
      rw [if_neg]
      · obtain ⟨g1, -, g3⟩ := pass_inv h fresh i1 i2 hp
        apply ih _ g1
        have : tol ^ 2 ≤ x.S (pivotRow n x) (x.ind (pivotRow n x)) ^ 2 := by
          rw [← sq_abs (x.S _ _)]; exact pow_le_pow_left₀ ht.le (not_lt.1 hge) 2
        rw [g3]
        push_cast at hf
        linarith
      · have : 0 < √(x.S (pivotRow n x) (x.ind (pivotRow n x)) * x.S (pivotRow n x) (x.ind (pivotRow n x)) +
            (x.e (x.ind (pivotRow n x)) - x.e (pivotRow n x)) / 2 * ((x.e (x.ind (pivotRow n x)) - x.e (pivotRow n x)) / 2)) :=
          Real.sqrt_pos.2 (add_pos_of_pos_of_nonneg hpp (mul_self_nonneg _))
        exact (add_pos_of_nonneg_of_pos (abs_nonneg _) this).ne'

/-- What holds at the end. -/
theorem loop_ok {n : Nat} (hn : 2 ≤ n) {A : Matrix (Fin n) (Fin n) ℝ} (fresh : Bool) {tol : ℝ} (ht : 0 < tol) {fuel : Nat} {x : St} (h : Inv n A x)
    (hi : fresh = true → x.ind = maxind n x.S) {d : Dec} (hd : loop fresh n tol fuel x = .ok d) :
    ∃ S : Mx, mx n d.E * sym n S d.e * (mx n d.E)ᵀ = A ∧ mx n d.E * (mx n d.E)ᵀ = 1 ∧
      (fresh = true → ∀ i j, i < j → j < n → |S i j| < tol) := by
  induction fuel generalizing x with
  | zero => simp [loop] at hd
  | succ fuel ih =>
    rw [loop] at hd
    have hst : x.state ≠ 0 := by rw [h.st]; omega
    rw [if_neg hst] at hd
    obtain ⟨p1, p2⟩ := pivotRow_spec hn x
    obtain ⟨i1, i2⟩ := h.ind _ p1
    dsimp only at hd
    rw [if_neg (not_not.2 ⟨by omega, i2⟩)] at hd
    split at hd
    · rename_i hlt
      obtain rfl := Res.ok.inj hd
      refine ⟨x.S, h.rep, h.orth, fun hf i j hij hj => ?_⟩
      have m := (maxind_spec x.S (k := i) (n := n) (by omega)).2.2 j hij hj
      rw [← hi hf] at m
      exact (m.trans (p2 i (by omega))).trans_lt hlt
    · rename_i hge
      have hp : x.S (pivotRow n x) (x.ind (pivotRow n x)) ≠ 0 := by
        intro h0; rw [h0, abs_zero] at hge; exact hge ht
      split at hd
      · exact absurd hd (by simp)
      · obtain ⟨g1, g2, -⟩ := pass_inv h fresh i1 i2 hp
        exact ih g1 g2 hd

theorem maxS_pos {n : Nat} {A : Mx} (h : ∃ i j, i < n ∧ j < n ∧ A i j ≠ 0) : 0 < maxS n A := by
  obtain ⟨i, j, hi, hj, h⟩ := h
  exact lt_of_lt_of_le (abs_pos.2 h) ((maxS_spec n A).2.1 i j hi hj)

end Verif.Eig
