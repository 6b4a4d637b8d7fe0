import Verif.Spec.Eikonal
import Mathlib.Tactic.Linarith
import Mathlib.Tactic.FieldSimp

/-! The list of the smallest distances. -/
namespace Verif.Eikonal

/-- Insertion that loses nothing. -/
noncomputable def insAll (x : ℝ) : List ℝ → List ℝ
  | [] => [x]
  | y :: l => if x < y then x :: y :: l else y :: insAll x l

theorem insAll_perm (x : ℝ) (l : List ℝ) : (insAll x l).Perm (x :: l) := by
  induction l with
  | nil => exact List.Perm.refl _
  | cons y l ih =>
    unfold insAll
    split_ifs
    · exact List.Perm.refl _
    · exact (ih.cons y).trans (List.Perm.swap x y l)

theorem insAll_sorted {x : ℝ} {l : List ℝ} (h : l.Pairwise (· ≤ ·)) : (insAll x l).Pairwise (· ≤ ·) := by
  induction l with
  | nil => simp [insAll]
  | cons y l ih =>
    unfold insAll
    rw [List.pairwise_cons] at h
    split_ifs with hxy
    · refine List.pairwise_cons.2 ⟨fun z hz => ?_, List.pairwise_cons.2 h⟩
      rcases List.mem_cons.1 hz with rfl | hz
      · exact hxy.le
      · exact hxy.le.trans (h.1 z hz)
    · refine List.pairwise_cons.2 ⟨fun z hz => ?_, ih h.2⟩
      rcases List.mem_cons.1 ((insAll_perm x l).mem_iff.1 hz) with rfl | hz
      · exact not_lt.1 hxy
      · exact h.1 z hz

theorem ins_length (p : ℝ × ℝ) (l : List (ℝ × ℝ)) : (ins p l).length = l.length := by
  induction l with
  | nil => rfl
  | cons q l ih =>
    unfold ins
    split_ifs
    · simp
    · simp [ih]

theorem ins_map (p : ℝ × ℝ) (l : List (ℝ × ℝ)) : (ins p l).map Prod.fst = (insAll p.1 (l.map Prod.fst)).take l.length := by
  induction l with
  | nil => rfl
  | cons q l ih =>
    unfold ins
    rw [List.map_cons]
    unfold insAll
    split_ifs
    · rw [List.map_cons, List.length_cons, List.take_succ_cons, List.dropLast_eq_take, List.map_take, List.map_cons, List.length_cons, Nat.add_sub_cancel]
    · rw [List.map_cons, List.length_cons, List.take_succ_cons, ih]

theorem insAll_take (x : ℝ) (l : List ℝ) (n : Nat) : (insAll x (l.take n)).take n = (insAll x l).take n := by
  induction l generalizing n with
  | nil => simp
  | cons y l ih =>
    cases n with
    | zero => simp
    | succ n =>
      rw [List.take_succ_cons]
      unfold insAll
      split_ifs
      · rw [List.take_succ_cons, List.take_succ_cons]
        congr 1
        cases n with
        | zero => rfl
        | succ n => rw [List.take_succ_cons, List.take_succ_cons, List.take_take, Nat.min_eq_left (Nat.le_succ n)]
      · rw [List.take_succ_cons, List.take_succ_cons, ih]

open Classical in
theorem collect_snoc (dim : Nat) (big : ℝ) (vs : List ℝ) (v : ℝ) : collect dim big (vs ++ [v]) = if v ≠ 0 then ins (|v|, v / |v|) (collect dim big vs) else collect dim big vs := by
  unfold collect
  rw [List.foldl_append]
  rfl

theorem collect_length (dim : Nat) (big : ℝ) (vs : List ℝ) : (collect dim big vs).length = dim := by
  induction vs using List.reverseRecOn with
  | nil => simp [collect]
  | append_singleton vs v ih =>
    rw [collect_snoc]
    split_ifs
    · rw [ins_length, ih]
    · exact ih

open Classical in
theorem collect_full (dim : Nat) (big : ℝ) (vs : List ℝ) (hb : ∀ v ∈ vs, |v| < big) : ∃ L : List ℝ, L.Pairwise (· ≤ ·) ∧ L.Perm ((vs.filter fun v => v ≠ 0).map abs ++ List.replicate dim big) ∧
    (collect dim big vs).map Prod.fst = L.take dim := by
  induction vs using List.reverseRecOn with
  | nil =>
    refine ⟨List.replicate dim big, ?_, by simp, by simp [collect]⟩
    exact List.pairwise_replicate.2 (Or.inr le_rfl)
  | append_singleton vs v ih =>
    obtain ⟨L, h1, h2, h3⟩ := ih fun w hw => hb w (by simp [hw])
    rw [collect_snoc]
    by_cases hv : v ≠ 0
    · refine ⟨insAll |v| L, insAll_sorted h1, (insAll_perm _ _).trans ?_, ?_⟩
      · rw [List.filter_append, List.map_append]
        have hs : [v].filter (fun v => decide (v ≠ 0)) = [v] := by simp [hv]
        rw [hs]
        refine (h2.cons _).trans ?_
        rw [List.append_assoc]
        exact (List.perm_middle (a := |v|)).symm
      · rw [if_pos hv, ins_map, h3, collect_length, insAll_take]
    · refine ⟨L, h1, ?_, ?_⟩
      · rw [List.filter_append]
        have hs : [v].filter (fun v => decide (v ≠ 0)) = [] := by simp at hv; simp [hv]
        rw [hs, List.append_nil]
        exact h2
      · rw [if_neg hv]; exact h3

open Classical in
theorem collect_smallest (dim : Nat) (big : ℝ) (vs : List ℝ) (hb : ∀ v ∈ vs, |v| < big) : (collect dim big vs).map Prod.fst = smallest dim big vs := by
  obtain ⟨L, h1, h2, h3⟩ := collect_full dim big vs hb
  rw [h3, smallest]
  congr 1
  refine List.Perm.eq_of_pairwise' h1 ?_ (h2.trans ?_)
  · rw [List.pairwise_append]
    refine ⟨List.pairwise_insertionSort _ _, List.pairwise_replicate.2 (Or.inr le_rfl), fun a ha b hb' => ?_⟩
    obtain ⟨v, hv, rfl⟩ := List.mem_map.1 ((List.perm_insertionSort _ _).mem_iff.1 ha)
    rw [List.eq_of_mem_replicate hb']
    exact (hb v (List.mem_filter.1 hv).1).le
  · exact ((List.perm_insertionSort _ _).symm).append_right _

/-- An entry is a neighbour with its sign, or not yet written. -/
theorem collect_mem {dim : Nat} {big : ℝ} {vs : List ℝ} {p : ℝ × ℝ} (hp : p ∈ collect dim big vs) : p = (big, 0) ∨ ∃ v ∈ vs, v ≠ 0 ∧ p = (|v|, v / |v|) := by
  have hins : ∀ (q : ℝ × ℝ) (l : List (ℝ × ℝ)), p ∈ ins q l → p = q ∨ p ∈ l := by
    intro q l
    induction l with
    | nil => intro h; cases h
    | cons r l ih =>
      unfold ins
      split_ifs
      · intro h
        rcases List.mem_cons.1 h with h | h
        · exact Or.inl h
        · exact Or.inr (List.dropLast_subset _ h)
      · intro h
        rcases List.mem_cons.1 h with h | h
        · exact Or.inr (by simp [h])
        · rcases ih h with h | h
          · exact Or.inl h
          · exact Or.inr (by simp [h])
  induction vs using List.reverseRecOn with
  | nil => exact Or.inl (List.eq_of_mem_replicate hp)
  | append_singleton vs v ih =>
    rw [collect_snoc] at hp
    by_cases hv : v ≠ 0
    · rw [if_pos hv] at hp
      rcases hins _ _ hp with h | h
      · exact Or.inr ⟨v, by simp, hv, h⟩
      · rcases ih h with h | ⟨w, hw, h⟩
        · exact Or.inl h
        · exact Or.inr ⟨w, by simp [hw], h⟩
    · rw [if_neg hv] at hp
      rcases ih hp with h | ⟨w, hw, h⟩
      · exact Or.inl h
      · exact Or.inr ⟨w, by simp [hw], h⟩

/-- The first entry is a closest neighbour. -/
theorem collect_head {dim : Nat} (hd : 0 < dim) {big : ℝ} {vs : List ℝ} (hb : ∀ v ∈ vs, |v| < big) {v0 : ℝ} (h0 : v0 ∈ vs) (hv0 : v0 ≠ 0) :
    ∃ v ∈ vs, v ≠ 0 ∧ (∀ w ∈ vs, w ≠ 0 → |v| ≤ |w|) ∧ (collect dim big vs).getD 0 (0, 0) = (|v|, v / |v|) := by
  classical
  obtain ⟨L, h1, h2, h3⟩ := collect_full dim big vs hb
  have hlen := collect_length dim big vs
  obtain ⟨p, l, hc⟩ : ∃ p l, collect dim big vs = p :: l := by
    cases hc : collect dim big vs with
    | nil => rw [hc] at hlen; simp at hlen; omega
    | cons p l => exact ⟨p, l, rfl⟩
  have hhead : ∃ L', L = p.1 :: L' := by
    rw [hc] at h3
    cases L with
    | nil => simp at h3
    | cons y L' =>
      obtain ⟨n, rfl⟩ : ∃ n, dim = n + 1 := ⟨dim - 1, by omega⟩
      rw [List.take_succ_cons, List.map_cons] at h3
      exact ⟨L', by rw [(List.cons.inj h3).1]⟩
  obtain ⟨L', rfl⟩ := hhead
  have hmin : ∀ w ∈ vs, w ≠ 0 → p.1 ≤ |w| := by
    intro w hw hw0
    have : |w| ∈ p.1 :: L' := h2.mem_iff.2 (List.mem_append_left _ (List.mem_map.2 ⟨w, List.mem_filter.2 ⟨hw, by simpa using hw0⟩, rfl⟩))
    rcases List.mem_cons.1 this with h | h
    · exact h.ge
    · exact (List.pairwise_cons.1 h1).1 _ h
  rcases collect_mem (p := p) (by rw [hc]; simp) with h | ⟨v, hv, hvn, h⟩
  · exfalso
    have h1 := hmin v0 h0 hv0
    rw [h] at h1
    exact absurd (hb v0 h0) (not_lt.2 h1)
  · refine ⟨v, hv, hvn, fun w hw hwn => ?_, ?_⟩
    · have := hmin w hw hwn
      rw [h] at this
      exact this
    · rw [hc, ← h]; rfl

/-- Two distances. -/
theorem upwind_two {a b h : ℝ} (ha : 0 ≤ a) (hab : a ≤ b) (hh : 0 < h) : Upwind h [a, b] (if a + h > b then 0.5 * (a + b + Real.sqrt (2 * h * h - (b - a) * (b - a))) else a + h) := by
  unfold Upwind
  simp only [List.map_cons, List.map_nil, List.sum_cons, List.sum_nil, add_zero]
  split_ifs with hlt
  · set s := Real.sqrt (2 * h * h - (b - a) * (b - a)) with hs
    have hnn : 0 ≤ 2 * h * h - (b - a) * (b - a) := by nlinarith
    have hsq : s * s = 2 * h * h - (b - a) * (b - a) := Real.mul_self_sqrt hnn
    have hs0 : 0 ≤ s := Real.sqrt_nonneg _
    have hsb : b - a ≤ s := by
      refine Real.le_sqrt_of_sq_le ?_
      nlinarith
    have e1 : max (0.5 * (a + b + s) - a) 0 = 0.5 * (a + b + s) - a := max_eq_left (by norm_num; linarith)
    have e2 : max (0.5 * (a + b + s) - b) 0 = 0.5 * (a + b + s) - b := max_eq_left (by norm_num; linarith)
    rw [e1, e2]
    refine ⟨by norm_num; linarith, ?_⟩
    norm_num
    nlinarith
  · have e1 : max (a + h - a) 0 = h := by rw [add_sub_cancel_left]; exact max_eq_left hh.le
    have e2 : max (a + h - b) 0 = 0 := max_eq_right (by linarith)
    rw [e1, e2]
    exact ⟨by linarith, by ring⟩

theorem update_two {big dx : ℝ} {nb : Int → Nat → Option ℝ} {p q : ℝ × ℝ} (hc : collect 2 big (known 2 nb) = [p, q]) :
    update 2 big dx nb = p.2 * (if p.1 + dx > q.1 then 0.5 * (p.1 + q.1 + Real.sqrt (2 * dx * dx - (q.1 - p.1) * (q.1 - p.1))) else p.1 + dx) := by
  simp only [update, distance, hc, if_true, List.getD_cons_zero, List.getD_cons_succ]

/-- Neighbours at distance one along the three axes. -/
def corner : Int → Nat → Option ℝ := fun i j => if i = -1 ∧ j < 3 then some 1 else none

theorem known_corner : known 3 corner = [1, 1, 1] := by
  have h1 : (List.range 3).filterMap (corner (-1)) = [1, 1, 1] := by simp [List.range, List.range.loop, corner]
  have h2 : (List.range 3).filterMap (corner 1) = [] := by simp [List.range, List.range.loop, corner]
  simp [known, h1, h2]

/-- Neighbours at distance one on both sides along the first axis, and none along the second. -/
def opposite : Int → Nat → Option ℝ := fun _ j => if j = 0 then some 1 else none

theorem known_opposite : known 2 opposite = [1, 1] := by
  have h1 : ∀ i, (List.range 2).filterMap (opposite i) = [1] := by intro i; simp [List.range, List.range.loop, opposite]
  simp [known, h1]

end Verif.Eikonal
