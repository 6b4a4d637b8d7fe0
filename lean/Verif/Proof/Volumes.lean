import Verif.Spec.Volumes
import Verif.Proof.Shapes
import Mathlib.Tactic.LinearCombination

/-! Boxes, products with infinities. -/
namespace Verif.Volumes
open Verif.Shapes

variable {n : ℕ}

theorem overlapsBB_iff (a b : Cuboid n) : overlapsBB a b = true ↔ ∀ d, b.min d ≤ a.max d ∧ a.min d ≤ b.max d := by
  simp [overlapsBB, List.all_eq_true]

theorem overlapsPB_iff (p : V n) (b : Cuboid n) : overlapsPB p b = true ↔ p ∈ b.set := by
  simp [overlapsPB, List.all_eq_true, Cuboid.set, boxSet]

theorem boundingBox_eq (a b : V n) : boundingBox a b = ⟨fun i => min (a i) (b i), fun i => max (a i) (b i)⟩ := by
  simp only [boundingBox, Cuboid.mk.injEq]
  constructor <;> funext i
  · split_ifs with h
    · rw [min_eq_left h.le]
    · rw [min_eq_right (not_lt.1 h)]
  · split_ifs with h
    · rw [max_eq_left h.le]
    · rw [max_eq_right (not_lt.1 h)]

/-- Inflated and not, boxes overlap when they are near. -/
theorem near_iff {a b : Cuboid n} (ha : ∀ i, a.min i ≤ a.max i) (hb : ∀ i, b.min i ≤ b.max i) {dist : ℝ} (hd : 0 ≤ dist) :
    overlapsBB (inflate a dist) b = true ↔ Near a.set b.set dist := by
  rw [overlapsBB_iff]
  simp only [inflate]
  constructor
  · intro h
    refine ⟨fun i => max (a.min i) (min (a.max i) (b.min i)), fun i => ⟨le_max_left _ _, max_le (ha i) (min_le_left _ _)⟩,
      fun i => max (b.min i) (min (b.max i) (max (a.min i) (min (a.max i) (b.min i)))), fun i => ⟨le_max_left _ _, max_le (hb i) (min_le_left _ _)⟩, fun i => ?_⟩
    obtain ⟨h1, h2⟩ := h i
    have h3 := ha i
    have h4 := hb i
    rw [abs_le]
    simp only [max_def, min_def]
    constructor <;> split_ifs <;> linarith
  · rintro ⟨x, hx, y, hy, h⟩ i
    have h1 := hx i
    have h2 := hy i
    have h3 := abs_le.1 (h i)
    simp only at h1 h2
    exact ⟨by linarith [h1.2, h2.1, h3.1, h3.2], by linarith [h1.1, h2.2, h3.1, h3.2]⟩

/-- A coordinate of a moving point stays between its ends. -/
theorem between {p d t toc : ℝ} (h0 : 0 ≤ t) (h1 : t ≤ toc) : min p (p + toc * d) ≤ p + t * d ∧ p + t * d ≤ max p (p + toc * d) := by
  rcases le_total 0 d with hd | hd
  · exact ⟨(min_le_left _ _).trans (by nlinarith), le_trans (by nlinarith) (le_max_right _ _)⟩
  · exact ⟨(min_le_right _ _).trans (by nlinarith), le_trans (by nlinarith) (le_max_left _ _)⟩

theorem mul_of_fin {x d : ℝ} {nz : Bool} (hd : d ≠ 0) : mul x (inv d nz) = some ((x / d : ℝ) : EReal) := by
  rw [mul, inv, if_neg hd, if_neg]
  · rw [← EReal.coe_mul, mul_one_div]
  · rintro ⟨_, h | h⟩
    · exact EReal.coe_ne_top _ h
    · exact EReal.coe_ne_bot _ h

/-- On one axis: no number fails, entering is not after leaving, and the real times between are those in the slab. -/
theorem axis (box : Cuboid 3) (ro rd : V 3) (nz : Fin 3 → Bool) (k : Fin 3) (hb : box.min k ≤ box.max k) (hf : rd k = 0 → ro k ≠ box.min k ∧ ro k ≠ box.max k) :
    ∃ l h : EReal, enter box ro rd nz k = some l ∧ leave box ro rd nz k = some h ∧ l ≤ h ∧
      (∀ t : ℝ, (l ≤ t ∧ (t : EReal) ≤ h) ↔ (box.min k ≤ ro k + t * rd k ∧ ro k + t * rd k ≤ box.max k)) ∧
      (rd k ≠ 0 → l ≠ ⊤ ∧ l ≠ ⊥ ∧ h ≠ ⊤ ∧ h ≠ ⊥) := by
  by_cases hd : rd k = 0
  · obtain ⟨f1, f2⟩ := hf hd
    have hne1 : box.min k - ro k ≠ 0 := sub_ne_zero.2 (Ne.symm f1)
    have hne2 : box.max k - ro k ≠ 0 := sub_ne_zero.2 (Ne.symm f2)
    have topm : ∀ x : ℝ, x ≠ 0 → mul x ⊤ = some (if x > 0 then ⊤ else ⊥) := fun x hx => by
      rw [mul, if_neg (fun h => hx h.1)]
      split_ifs with h
      · rw [EReal.coe_mul_top_of_pos h]
      · rw [EReal.coe_mul_top_of_neg (lt_of_le_of_ne (not_lt.1 h) hx)]
    have botm : ∀ x : ℝ, x ≠ 0 → mul x ⊥ = some (if x > 0 then ⊥ else ⊤) := fun x hx => by
      rw [mul, if_neg (fun h => hx h.1)]
      split_ifs with h
      · rw [EReal.coe_mul_bot_of_pos h]
      · rw [EReal.coe_mul_bot_of_neg (lt_of_le_of_ne (not_lt.1 h) hx)]
    have fin : ∀ (l h : EReal), l = (if box.min k - ro k > 0 then ⊤ else ⊥) ∧ h = (if box.max k - ro k > 0 then ⊤ else ⊥) ∨
        l = (if box.max k - ro k > 0 then ⊥ else ⊤) ∧ h = (if box.min k - ro k > 0 then ⊥ else ⊤) →
        l ≤ h ∧ ∀ t : ℝ, (l ≤ t ∧ (t : EReal) ≤ h) ↔ (box.min k ≤ ro k + t * rd k ∧ ro k + t * rd k ≤ box.max k) := by
      intro l h hlh
      rw [hd]
      simp only [mul_zero, add_zero]
      rcases lt_or_gt_of_ne hne1 with g1 | g1 <;> rcases lt_or_gt_of_ne hne2 with g2 | g2
      · rcases hlh with ⟨rfl, rfl⟩ | ⟨rfl, rfl⟩ <;> simp [not_lt.2 g1.le, not_lt.2 g2.le] <;> intros <;> linarith
      · rcases hlh with ⟨rfl, rfl⟩ | ⟨rfl, rfl⟩ <;> simp [not_lt.2 g1.le, g2, sub_pos.1 g2] <;> constructor <;> linarith
      · linarith
      · rcases hlh with ⟨rfl, rfl⟩ | ⟨rfl, rfl⟩ <;> simp [g1, g2] <;> intros <;> linarith
    rcases hz : nz k with _ | _
    · have hi : inv (rd k) (nz k) = ⊤ := by simp [inv, hd, hz]
      refine ⟨_, _, by rw [enter, hi, if_neg (by simp), topm _ hne1], by rw [leave, hi, if_neg (by simp), topm _ hne2], ?_, ?_, fun h => absurd hd h⟩
      · exact (fin _ _ (Or.inl ⟨rfl, rfl⟩)).1
      · exact (fin _ _ (Or.inl ⟨rfl, rfl⟩)).2
    · have hi : inv (rd k) (nz k) = ⊥ := by simp [inv, hd, hz]
      refine ⟨_, _, by rw [enter, hi, if_pos (by simp), botm _ hne2], by rw [leave, hi, if_pos (by simp), botm _ hne1], ?_, ?_, fun h => absurd hd h⟩
      · exact (fin _ _ (Or.inr ⟨rfl, rfl⟩)).1
      · exact (fin _ _ (Or.inr ⟨rfl, rfl⟩)).2
  · have hs : inv (rd k) (nz k) < 0 ↔ rd k < 0 := by
      rw [inv, if_neg hd, ← EReal.coe_zero, EReal.coe_lt_coe_iff, one_div, inv_lt_zero]
    refine ⟨_, _, mul_of_fin hd, mul_of_fin hd, ?_, fun t => ?_, fun _ => ⟨EReal.coe_ne_top _, EReal.coe_ne_bot _, EReal.coe_ne_top _, EReal.coe_ne_bot _⟩⟩
    · rw [EReal.coe_le_coe_iff]
      by_cases h : rd k < 0
      · rw [if_pos (hs.2 h), if_pos (hs.2 h), div_le_div_right_of_neg h]; linarith
      · have hp : 0 < rd k := lt_of_le_of_ne (not_lt.1 h) (Ne.symm hd)
        rw [if_neg (mt hs.1 h), if_neg (mt hs.1 h), div_le_div_iff_of_pos_right hp]; linarith
    · rw [EReal.coe_le_coe_iff, EReal.coe_le_coe_iff]
      by_cases h : rd k < 0
      · rw [if_pos (hs.2 h), if_pos (hs.2 h), div_le_iff_of_neg h, le_div_iff_of_neg h]
        constructor <;> rintro ⟨h1, h2⟩ <;> constructor <;> linarith
      · have hp : 0 < rd k := lt_of_le_of_ne (not_lt.1 h) (Ne.symm hd)
        rw [if_neg (mt hs.1 h), if_neg (mt hs.1 h), div_le_iff₀ hp, le_div_iff₀ hp]
        constructor <;> rintro ⟨h1, h2⟩ <;> constructor <;> linarith

theorem gt_some (a b : EReal) : Gt (some a) (some b) ↔ b < a := Iff.rfl

theorem gt_none_left (a : Option EReal) : ¬ Gt none a := by cases a <;> exact id

theorem gt_none_right (a : Option EReal) : ¬ Gt a none := by cases a <;> exact id

/-- The triangle of the coordinates `s` and `t`. -/
theorem span_eq {u v w : V 3} (h : dot (cross u v) w = 0) (i : Fin 3) :
    (dot u v * dot u v - dot u u * dot v v) * w i = (dot u v * dot w v - dot v v * dot w u) * u i + (dot u v * dot w u - dot u u * dot w v) * v i := by
  have hh : ∀ i, (dot u v * dot u v - dot u u * dot v v) * w i = (dot u v * dot w v - dot v v * dot w u) * u i + (dot u v * dot w u - dot u u * dot w v) * v i
      - cross u v i * dot (cross u v) w := by
    intro i
    fin_cases i <;> simp [dot, cross] <;> ring
  rw [hh, h]; ring

theorem gram_eq (u v : V 3) : dot u v * dot u v - dot u u * dot v v = -dot (cross u v) (cross u v) := by
  simp [dot, cross]; ring

end Verif.Volumes
