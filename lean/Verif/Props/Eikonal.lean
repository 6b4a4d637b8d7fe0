import Verif.Proof.Eikonal
import Mathlib.Data.List.Nodup

/-! C100: steps of the flood fill of a level set. -/
namespace Verif.Eikonal

/-- The scheme has at most one solution. -/
theorem upwind_unique {h : ℝ} (hh : 0 < h) {as : List ℝ} {x y : ℝ} (hx : Upwind h as x) (hy : Upwind h as y) : x = y := by
  have mono : ∀ (as : List ℝ) {x y : ℝ}, x ≤ y → (as.map fun a => max (x - a) 0 ^ 2).sum ≤ (as.map fun a => max (y - a) 0 ^ 2).sum := by
    intro as x y hxy
    refine List.sum_le_sum fun a _ => ?_
    exact pow_le_pow_left₀ (le_max_right _ _) (max_le_max_right _ (by linarith)) 2
  have strict : ∀ (as : List ℝ) {x y : ℝ}, x < y → 0 < (as.map fun a => max (x - a) 0 ^ 2).sum → (as.map fun a => max (x - a) 0 ^ 2).sum < (as.map fun a => max (y - a) 0 ^ 2).sum := by
    intro as
    induction as with
    | nil => intro x y _ h; simp at h
    | cons a as ih =>
      intro x y hxy hpos
      simp only [List.map_cons, List.sum_cons] at hpos ⊢
      by_cases ha : a < x
      · have e1 : max (x - a) 0 = x - a := max_eq_left (by linarith)
        have e2 : max (y - a) 0 = y - a := max_eq_left (by linarith)
        rw [e1, e2]
        have := mono as hxy.le
        nlinarith
      · have e1 : max (x - a) 0 = 0 := max_eq_right (by linarith)
        rw [e1] at hpos ⊢
        have h1 := ih hxy (by simpa using hpos)
        have h2 : (0 : ℝ) ≤ max (y - a) 0 ^ 2 := sq_nonneg _
        have h3 : ((0 : ℝ)) ^ 2 = 0 := by norm_num
        linarith
  have hpos : 0 < h ^ 2 := by positivity
  rcases lt_trichotomy x y with h1 | h1 | h1
  · have := strict as h1 (by rw [hx.2]; exact hpos)
    rw [hx.2, hy.2] at this
    exact absurd this (lt_irrefl _)
  · exact h1
  · have := strict as h1 (by rw [hy.2]; exact hpos)
    rw [hx.2, hy.2] at this
    exact absurd this (lt_irrefl _)

/-- The distances kept by the loop are the smallest distances of the neighbours with a tag, in increasing order, for every dimension and every order of the neighbours. -/
theorem collect_exact (dim : Nat) (big : ℝ) (nb : Int → Nat → Option ℝ) (hb : ∀ v ∈ known dim nb, |v| < big) : (collect dim big (known dim nb)).map Prod.fst = smallest dim big (known dim nb) :=
  collect_smallest dim big _ hb

/-- The neighbours that are read are those on both sides along each axis. -/
theorem known_exact (dim : Nat) (nb : Int → Nat → Option ℝ) (v : ℝ) : v ∈ known dim nb ↔ ∃ i, (i = -1 ∨ i = 1) ∧ ∃ j < dim, nb i j = some v := by
  simp [known, List.mem_filterMap]

/-- In the plane the new distance solves the upwind scheme with the two smallest distances, and has the sign of a closest neighbour. -/
theorem update_plane_partial {big dx : ℝ} (hdx : 0 < dx) {nb : Int → Nat → Option ℝ} (hb : ∀ v ∈ known 2 nb, |v| < big) {v0 : ℝ} (h0 : v0 ∈ known 2 nb) (hv0 : v0 ≠ 0) :
    ∃ v ∈ known 2 nb, v ≠ 0 ∧ (∀ w ∈ known 2 nb, w ≠ 0 → |v| ≤ |w|) ∧ Upwind dx (smallest 2 big (known 2 nb)) |update 2 big dx nb| ∧ update 2 big dx nb = v / |v| * |update 2 big dx nb| := by
  obtain ⟨v, hv, hvn, hmin, hhead⟩ := collect_head (dim := 2) (by norm_num) hb h0 hv0
  have hs := collect_smallest 2 big _ hb
  have hlen := collect_length 2 big (known 2 nb)
  obtain ⟨p, q, hc⟩ := List.length_eq_two.1 hlen
  have hp : p = (|v|, v / |v|) := by rw [hc] at hhead; exact hhead
  obtain ⟨L, l1, -, l3⟩ := collect_full 2 big _ hb
  have hpq : p.1 ≤ q.1 := by
    rw [hc] at l3
    have h2 : ([p, q].map Prod.fst).Pairwise (· ≤ ·) := l3 ▸ l1.sublist (List.take_sublist 2 L)
    simpa using h2
  have hup := upwind_two (a := p.1) (b := q.1) (h := dx) (by rw [hp]; exact abs_nonneg v) hpq hdx
  have hu : update 2 big dx nb = v / |v| * (if p.1 + dx > q.1 then 0.5 * (p.1 + q.1 + Real.sqrt (2 * dx * dx - (q.1 - p.1) * (q.1 - p.1))) else p.1 + dx) := by
    rw [update_two hc, hp]
  have habs : abs (v / |v|) = 1 := by rw [abs_div, abs_abs]; exact div_self (abs_ne_zero.2 hvn)
  have hu' : |update 2 big dx nb| = (if p.1 + dx > q.1 then 0.5 * (p.1 + q.1 + Real.sqrt (2 * dx * dx - (q.1 - p.1) * (q.1 - p.1))) else p.1 + dx) := by
    rw [hu, abs_mul, habs, one_mul, abs_of_nonneg hup.1]
  refine ⟨v, hv, hvn, hmin, ?_, by rw [hu']; exact hu⟩
  rw [hu', ← hs, hc]
  exact hup

/-- In other dimensions the new distance is one cell more than that of a closest neighbour, with its sign. -/
theorem update_other {dim : Nat} (hd : 0 < dim) (h2 : dim ≠ 2) {big dx : ℝ} {nb : Int → Nat → Option ℝ} (hb : ∀ v ∈ known dim nb, |v| < big) {v0 : ℝ} (h0 : v0 ∈ known dim nb) (hv0 : v0 ≠ 0) :
    ∃ v ∈ known dim nb, v ≠ 0 ∧ (∀ w ∈ known dim nb, w ≠ 0 → |v| ≤ |w|) ∧ update dim big dx nb = v / |v| * (|v| + dx) := by
  obtain ⟨v, hv, hvn, hmin, hhead⟩ := collect_head hd hb h0 hv0
  refine ⟨v, hv, hvn, hmin, ?_⟩
  unfold update distance
  simp only [hhead, if_neg h2]

/-- Beside neighbours that are all inside, the new distance is inside. -/
theorem update_inside {dim : Nat} (hd : 0 < dim) {big dx : ℝ} (hdx : 0 < dx) {nb : Int → Nat → Option ℝ} (hb : ∀ v ∈ known dim nb, |v| < big) {v0 : ℝ} (h0 : v0 ∈ known dim nb) (hv0 : v0 ≠ 0)
    (hin : ∀ v ∈ known dim nb, v ≤ 0) : update dim big dx nb < 0 := by
  have hsign : ∀ v : ℝ, v ≠ 0 → v ≤ 0 → v / |v| = -1 := by
    intro v hv hv'
    rw [abs_of_nonpos hv', div_neg, div_self hv]
  by_cases h2 : dim = 2
  · subst h2
    obtain ⟨v, hv, hvn, -, hup, hu⟩ := update_plane_partial hdx hb h0 hv0
    rw [hsign v hvn (hin v hv)] at hu
    have hne : |update 2 big dx nb| ≠ 0 := by
      intro h
      have := hup.2
      rw [h] at this
      have hz : ((smallest 2 big (known 2 nb)).map fun a => max (0 - a) 0 ^ 2).sum = 0 := by
        refine List.sum_eq_zero fun x hx => ?_
        obtain ⟨a, ha, rfl⟩ := List.mem_map.1 hx
        have ha0 : 0 ≤ a := by
          rcases List.mem_append.1 (List.mem_of_mem_take ha) with h | h
          · obtain ⟨w, -, rfl⟩ := List.mem_map.1 ((List.perm_insertionSort _ _).mem_iff.1 h)
            exact abs_nonneg w
          · rw [List.eq_of_mem_replicate h]
            exact (abs_nonneg v0).trans (hb v0 h0).le
        rw [max_eq_right (by linarith)]
        norm_num
      rw [hz] at this
      have : 0 < dx ^ 2 := by positivity
      linarith
    have := lt_of_le_of_ne (abs_nonneg _) hne.symm
    linarith
  · obtain ⟨v, hv, hvn, -, hu⟩ := update_other (dx := dx) hd h2 hb h0 hv0
    rw [hu, hsign v hvn (hin v hv)]
    have := abs_nonneg v
    linarith

/-- In space the new distance solves the upwind scheme when the other distances are at least one cell more than the smallest. -/
theorem update_space_partial {big dx : ℝ} (hdx : 0 < dx) {nb : Int → Nat → Option ℝ} (hb : ∀ v ∈ known 3 nb, |v| < big) {a b c : ℝ} (hs : smallest 3 big (known 3 nb) = [a, b, c]) {v0 : ℝ}
    (h0 : v0 ∈ known 3 nb) (hv0 : v0 ≠ 0) (hab : a + dx ≤ b) : Upwind dx [a, b, c] |update 3 big dx nb| := by
  obtain ⟨v, hv, hvn, hmin, hhead⟩ := collect_head (dim := 3) (by norm_num) hb h0 hv0
  have hc := collect_smallest 3 big _ hb
  rw [hs] at hc
  obtain ⟨L, l1, -, l3⟩ := collect_full 3 big _ hb
  have hbc : b ≤ c := by
    have h2 : [a, b, c].Pairwise (· ≤ ·) := by rw [← hc, l3]; exact l1.sublist (List.take_sublist 3 L)
    simp only [List.pairwise_cons] at h2
    exact h2.2.1 c (by simp)
  have ha : a = |v| := by
    cases hcc : collect 3 big (known 3 nb) with
    | nil => rw [hcc] at hc; simp at hc
    | cons p l =>
      rw [hcc] at hc hhead
      have h1 : p = (|v|, v / |v|) := hhead
      rw [List.map_cons, h1] at hc
      exact ((List.cons.inj hc).1).symm
  have hu : update 3 big dx nb = v / |v| * (|v| + dx) := by
    unfold update distance
    simp only [hhead]
    norm_num
  have habs : abs (v / |v|) = 1 := by rw [abs_div, abs_abs]; exact div_self (abs_ne_zero.2 hvn)
  have hv' := abs_nonneg v
  rw [hu, abs_mul, habs, one_mul, abs_of_nonneg (by linarith), ← ha]
  refine ⟨by rw [ha]; linarith, ?_⟩
  simp only [List.map_cons, List.map_nil, List.sum_cons, List.sum_nil, add_zero]
  rw [max_eq_left (by linarith : (0 : ℝ) ≤ a + dx - a), max_eq_right (by linarith : a + dx - b ≤ 0), max_eq_right (by linarith : a + dx - c ≤ 0)]
  ring

/-- In space it does not otherwise: beside three neighbours at distance one the result is 2, and the scheme asks for less. -/
theorem update_space_violated : update 3 10 1 corner = 2 ∧ ¬Upwind 1 [1, 1, 1] |update 3 10 1 corner| := by
  have hu : update 3 10 1 corner = 2 := by
    obtain ⟨v, hv, -, -, hu⟩ := update_other (dim := 3) (big := 10) (dx := 1) (nb := corner) (by norm_num) (by norm_num) (by rw [known_corner]; intro v hv; simp at hv; rw [hv]; norm_num) (v0 := 1)
      (by rw [known_corner]; simp) (by norm_num)
    rw [known_corner] at hv
    have : v = 1 := by simpa using hv
    rw [hu, this]
    norm_num
  refine ⟨hu, fun h => ?_⟩
  rw [hu] at h
  have := h.2
  norm_num at this

/-- In the plane the two smallest distances can belong to one axis, and then the scheme along the axes, with distance one along the first axis and none along the second, is not solved. -/
theorem update_axis_violated : ¬Upwind 1 [1, 10] |update 2 10 1 opposite| := by
  obtain ⟨v, hv, -, -, hup, -⟩ := update_plane_partial (big := 10) (dx := 1) (nb := opposite) (by norm_num) (by rw [known_opposite]; intro v hv; simp at hv; rw [hv]; norm_num) (v0 := 1)
    (by rw [known_opposite]; simp) (by norm_num)
  have hs : smallest 2 10 (known 2 opposite) = [1, 1] := by
    rw [known_opposite]
    simp [smallest, List.insertionSort, List.orderedInsert]
  rw [hs] at hup
  intro h
  have h2 : Upwind 1 [1, 10] (2 : ℝ) := ⟨by norm_num, by norm_num⟩
  rw [upwind_unique one_pos h h2] at hup
  have := hup.2
  norm_num at this

/-- Seeds: with room for them, exactly the cells without a distance next to an inner cell; there is room when a cell in `2 d` is inside. -/
theorem seeds_partial {d : Nat} (cells : List (Fin d → Int)) (interior masked : (Fin d → Int) → Bool) (hroom : (cells.filter interior).length * (2 * d) ≤ cells.length) :
    ∃ seeds, markInterior cells interior masked = some seeds ∧ ∀ c', c' ∈ seeds ↔ masked c' = false ∧ ∃ c ∈ cells, interior c = true ∧ Adjacent c c' := by
  have hlen : ∀ l : List (Fin d → Int), (l.flatMap fun c => if interior c then (around c).filter fun c' => !masked c' else []).length ≤ (l.filter interior).length * (2 * d) := by
    intro l
    induction l with
    | nil => simp
    | cons c l ih =>
      rw [List.flatMap_cons, List.length_append, List.filter_cons]
      by_cases hc : interior c = true
      · have h1 : ((around c).filter fun c' => !masked c').length ≤ 2 * d := by
          refine (List.length_filter_le _ _).trans ?_
          simp [around]
          omega
        rw [if_pos hc, if_pos hc, List.length_cons, Nat.succ_mul]
        omega
      · rw [if_neg hc, if_neg hc]
        simpa using ih
  refine ⟨_, if_pos ((hlen cells).trans hroom), fun c' => ?_⟩
  have hadj : ∀ c, c' ∈ around c ↔ Adjacent c c' := by
    intro c
    simp only [around, List.mem_flatMap, List.mem_map, List.mem_finRange, true_and, Adjacent, List.mem_cons, List.not_mem_nil, or_false]
    constructor
    · rintro ⟨i, hi, j, rfl⟩
      refine ⟨j, ?_, fun a ha => if_neg ha⟩
      rcases hi with rfl | rfl
      · right; simp; omega
      · left; simp
    · rintro ⟨j, hj, ho⟩
      rcases hj with hj | hj
      · refine ⟨1, Or.inr rfl, j, funext fun a => ?_⟩
        by_cases ha : a = j
        · subst ha; rw [if_pos rfl, hj]
        · rw [if_neg ha, ho a ha]
      · refine ⟨-1, Or.inl rfl, j, funext fun a => ?_⟩
        by_cases ha : a = j
        · subst ha; rw [if_pos rfl, hj]; omega
        · rw [if_neg ha, ho a ha]
  rw [List.mem_flatMap]
  constructor
  · rintro ⟨c, hc, h⟩
    by_cases hi : interior c = true
    · rw [if_pos hi, List.mem_filter] at h
      exact ⟨by simpa using h.2, c, hc, hi, (hadj c).1 h.1⟩
    · rw [if_neg hi] at h; cases h
  · rintro ⟨hm, c, hc, hi, ha⟩
    exact ⟨c, hc, by rw [if_pos hi, List.mem_filter]; exact ⟨(hadj c).2 ha, by simp [hm]⟩⟩

/-- The cells of a block of the plane. -/
def block : List (Fin 2 → Int) := ((List.range 8).map Int.ofNat).flatMap fun x => ((List.range 8).map Int.ofNat).map fun y => ![x, y]

/-- Inner cells at every second place. -/
def board (c : Fin 2 → Int) : Bool := (c 0 + c 1) % 2 == 0

/-- Without room the seeds are written outside: a block of which every second cell has a distance, all inside. -/
theorem seeds_violated : markInterior block board (fun c => board c || c 0 < 0 || 7 < c 0 || c 1 < 0 || 7 < c 1) = none := by decide +kernel

example : (∀ v ∈ known 2 opposite, |v| < 10) ∧ (1 : ℝ) ∈ known 2 opposite := by
  rw [known_opposite]
  refine ⟨fun v hv => ?_, by simp⟩
  simp at hv
  rw [hv]
  norm_num

example : (block.filter fun c => c == ![3, 3]).length * (2 * 2) ≤ block.length := by decide +kernel

end Verif.Eikonal
