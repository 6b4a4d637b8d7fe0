import Verif.Spec.Sample
import Verif.Props.Kernel
import Verif.Props.SparseGrid
import Mathlib.Algebra.BigOperators.Group.List.Lemmas
import Mathlib.Algebra.Order.BigOperators.Group.List

/-! Sampling as a tensor product of rows of weights. -/
namespace Verif.Sample

open Verif.Grid Verif.Kernel

set_option linter.unusedSectionVars false

variable {K : Type} [Field K] [LinearOrder K] [IsStrictOrderedRing K] [FloorRing K]

/-- `Σ_o row₀[o₀] row₁[o₁] … v(o)`. -/
def tensor : List (List K) → (List Nat → K) → K
  | [], v => v []
  | row :: rows, v => ((List.range row.length).map fun k => row.getD k 0 * tensor rows fun o => v (k :: o)).sum

/-! ## The code computes tensor products -/

theorem weight_foldl (l : List (List K × Nat)) (r : K) :
    l.foldl (fun r p => r * p.1.getD p.2 0) r = r * l.foldl (fun r p => r * p.1.getD p.2 0) 1 := by
  induction l generalizing r with
  | nil => simp
  | cons p l ih => rw [List.foldl_cons, List.foldl_cons, ih, ih (1 * _)]; ring

theorem weight_cons (row : List K) (rows : List (List K)) (k : Nat) (o : List Nat) :
    weight (row :: rows) (k :: o) = row.getD k 0 * weight rows o := by
  rw [weight, List.zip_cons_cons, List.foldl_cons, weight_foldl, one_mul]; rfl

theorem foldl_add_sum {α : Type} (l : List α) (f : α → K) (r : K) : l.foldl (fun r o => r + f o) r = r + (l.map f).sum := by
  induction l generalizing r with
  | nil => simp
  | cons a l ih => rw [List.foldl_cons, ih, List.map_cons, List.sum_cons]; ring

theorem sum_flatMap {α β : Type} (l : List α) (g : α → List β) (f : β → K) :
    ((l.flatMap g).map f).sum = (l.map fun a => ((g a).map f).sum).sum := by
  induction l with
  | nil => rfl
  | cons a l ih => rw [List.flatMap_cons, List.map_append, List.sum_append, ih, List.map_cons, List.sum_cons]

theorem sum_mul_left {α : Type} (l : List α) (a : K) (f : α → K) : (l.map fun x => a * f x).sum = a * (l.map f).sum := by
  induction l with
  | nil => simp
  | cons x l ih => simp only [List.map_cons, List.sum_cons, ih]; ring

theorem tensor_offsets (width : Nat) (rows : List (List K)) (hw : ∀ row ∈ rows, row.length = width) (v : List Nat → K) :
    ((offsets width rows.length).map fun o => weight rows o * v o).sum = tensor rows v := by
  induction rows generalizing v with
  | nil => simp [offsets, weight, tensor]
  | cons row rows ih =>
    have hr := hw row List.mem_cons_self
    rw [List.length_cons, offsets, sum_flatMap, tensor, hr]
    congr 1
    apply List.map_congr_left
    intro k _
    rw [List.map_map, ← ih (fun r hr => hw r (List.mem_cons_of_mem _ hr)), ← sum_mul_left]
    congr 1
    apply List.map_congr_left
    intro o _
    simp only [Function.comp]
    rw [weight_cons]; ring

theorem foldl_zip_map {α : Type} (l : List α) (v f : α → K) (r : K) :
    (l.zip (l.map v)).foldl (fun r p => r + f p.1 * p.2) r = r + (l.map fun o => f o * v o).sum := by
  rw [← foldl_add_sum l (fun o => f o * v o) r]
  induction l generalizing r with
  | nil => rfl
  | cons a l ih => rw [List.map_cons, List.zip_cons_cons, List.foldl_cons, List.foldl_cons, ih]

theorem offsets_two (d : Nat) : offsets 2 (d + 1) = (offsets 2 d).map (0 :: ·) ++ (offsets 2 d).map (1 :: ·) := by
  rw [offsets]
  simp [List.range, List.range.loop]

theorem offsets_two_length (d : Nat) : (offsets 2 d).length = 2 ^ d := by
  induction d with
  | zero => rfl
  | succ d ih => rw [offsets_two, List.length_append, List.length_map, List.length_map, ih, Nat.pow_succ]; omega

theorem xlerp_tensor (xs : List K) (v : List Nat → K) : xlerp xs ((offsets 2 xs.length).map v) = tensor (xs.map fun x => [1 - x, x]) v := by
  induction xs generalizing v with
  | nil => simp [offsets, xlerp, tensor]
  | cons x xs ih =>
    have hl : ((offsets 2 xs.length).map fun o => v (0 :: o)).length = 2 ^ xs.length := by rw [List.length_map, offsets_two_length]
    rw [List.length_cons, offsets_two, List.map_append, List.map_map, List.map_map, xlerp]
    have e0 : (v ∘ fun x => 0 :: x) = fun o => v (0 :: o) := rfl
    have e1 : (v ∘ fun x => 1 :: x) = fun o => v (1 :: o) := rfl
    rw [e0, e1, List.take_left' hl, List.drop_left' hl, ih, ih, List.map_cons, tensor, linearInterop]
    simp only [List.length_cons, List.length_nil, List.range, List.range.loop, List.map_cons, List.map_nil, List.sum_cons, List.sum_nil,
      List.getD_cons_zero, List.getD_cons_succ]
    ring

/-! ## Rows -/

/-- A row of weights for the position `x` that starts at node `b`. -/
structure Row (kt : Kind) (x : K) (b : Int) (row : List K) : Prop where
  base : b = ⌊x - 1 / 2 * (kt.degree : K)⌋
  length : row.length = kt.width
  nonneg : ∀ a ∈ row, 0 ≤ a
  sum : moment 0 b row = 1
  mean : moment 1 b row = x
  spline : ∀ d, kt.spline = some d → ∀ n : Int, entry b row n = bspline d (x - n)

theorem moment_zero (b b' : Int) (row : List K) : moment 0 b row = moment 0 b' row := by
  induction row generalizing b b' with
  | nil => rfl
  | cons a row ih => rw [moment, moment, ih (b + 1) (b' + 1)]; simp

theorem moment_one (c b : Int) (row : List K) : moment 1 (c + b) row = moment 1 c row + b * moment 0 c row := by
  induction row generalizing c with
  | nil => simp [moment]
  | cons a row ih =>
    rw [moment, moment, moment, show c + b + 1 = c + 1 + b by ring, ih]
    push_cast; ring

theorem entry_shift (b : Int) (row : List K) (n : Int) : entry b row n = entry 0 row (n - b) := by
  rw [entry, entry, show n - b - 0 = n - b by ring]
  by_cases h : b ≤ n
  · rw [if_pos h, if_pos (by omega)]
  · rw [if_neg h, if_neg (by omega)]

theorem base_local (w : Nat) (d : Nat) (x : K) : baseNode w d (x - (⌊x - 1 / 2 * (d : K)⌋ : Int)) = some 0 := by
  have : ⌊x - (⌊x - 1 / 2 * (d : K)⌋ : Int) - 1 / 2 * (d : K)⌋ = 0 := by
    rw [show x - (⌊x - 1 / 2 * (d : K)⌋ : Int) - 1 / 2 * (d : K) = (x - 1 / 2 * (d : K)) - (⌊x - 1 / 2 * (d : K)⌋ : Int) by ring, Int.floor_sub_intCast]
    omega
  rw [baseNode, lowerTrunc, this, if_pos]
  have : (0 : Int) < 2 ^ (w - 1) := by positivity
  constructor <;> omega

theorem Row.of_local {kt : Kind} {x : K} {row : List K} (hl : row.length = kt.width) (hn : ∀ a ∈ row, 0 ≤ a) (hs : moment 0 0 row = 1)
    (hm : moment 1 0 row = x - (⌊x - 1 / 2 * (kt.degree : K)⌋ : Int))
    (hp : ∀ d, kt.spline = some d → ∀ n : Int, entry 0 row n = bspline d (x - (⌊x - 1 / 2 * (kt.degree : K)⌋ : Int) - n)) :
    Row kt x ⌊x - 1 / 2 * (kt.degree : K)⌋ row := by
  refine ⟨rfl, hl, hn, by rw [moment_zero _ 0, hs], ?_, ?_⟩
  · have := moment_one 0 ⌊x - 1 / 2 * (kt.degree : K)⌋ row
    rw [zero_add] at this
    rw [this, hs, hm]; ring
  · intro d hd n
    rw [entry_shift, hp d hd]
    congr 1; push_cast; ring

/-- Rows of derivatives: they differentiate constants and linear functions. -/
structure Slopes (kt : Kind) (x : K) (b : Int) (row : List K) : Prop where
  length : row.length = kt.width
  const : moment 0 b row = 0
  linear : moment 1 b row = 1
  spline : ∀ d, kt.spline = some d → ∀ n : Int, entry b row n = slope d (x - n)

theorem Slopes.of_local {x : K} {row : List K} (b : Int) {kt : Kind} (hl : row.length = kt.width) (h0 : moment 0 0 row = 0) (h1 : moment 1 0 row = 1)
    (hp : ∀ d, kt.spline = some d → ∀ n : Int, entry 0 row n = slope d (x - b - n)) : Slopes kt x b row := by
  refine ⟨hl, by rw [moment_zero _ 0, h0], ?_, ?_⟩
  · have := moment_one 0 b row
    rw [zero_add] at this
    rw [this, h0, h1]; ring
  · intro d hd n
    rw [entry_shift, hp d hd]
    congr 1; push_cast; ring

/-- The pads of a local position are defined and have the right weights. -/
theorem pads_row {sqrt : K → K} (w : Nat) (kt : Kind) (hs : kt.spline = none → IsSqrt sqrt) (x : K) :
    ∃ p, pads sqrt w (x - (⌊x - 1 / 2 * (kt.degree : K)⌋ : Int)) kt = some p ∧ Row kt x ⌊x - 1 / 2 * (kt.degree : K)⌋ p.w
      ∧ (kt.smooth = true → Slopes kt x ⌊x - 1 / 2 * (kt.degree : K)⌋ p.dw) := by
  have hb := base_local w kt.degree x
  cases kt with
  | linear =>
    generalize hy : x - (⌊x - 1 / 2 * (Kind.linear.degree : K)⌋ : Int) = y at hb ⊢
    have hb : baseNode w 0 y = some 0 := hb
    obtain ⟨p, hp⟩ : ∃ p, linear w y = some p := ⟨_, by rw [linear, hb]; rfl⟩
    obtain ⟨b, hb', hi⟩ := linear_interpolates hp
    obtain ⟨b2, hb2, hsp⟩ := linear_spline hp
    rw [hb] at hb' hb2; cases hb'; cases hb2
    refine ⟨p, hp, .of_local ?_ hi.nonneg hi.sum (by rw [hi.mean, hy]) ?_, fun _ => .of_local _ ?_ hi.slopeConst hi.slopeLinear ?_⟩
    · rw [linear, hb] at hp; cases hp; rfl
    · rintro d ⟨⟩ n; rw [hy]; exact (hsp n).1
    · rw [linear, hb] at hp; cases hp; rfl
    · rintro d ⟨⟩ n; rw [hy]; exact (hsp n).2.1
  | quadratic =>
    generalize hy : x - (⌊x - 1 / 2 * (Kind.quadratic.degree : K)⌋ : Int) = y at hb ⊢
    have hb : baseNode w 1 y = some 0 := hb
    obtain ⟨p, hp⟩ : ∃ p, quadratic w y = some p := ⟨_, by rw [quadratic, hb]; rfl⟩
    obtain ⟨b, hb', hi⟩ := quadratic_interpolates hp
    obtain ⟨b2, hb2, hsp⟩ := quadratic_spline hp
    rw [hb] at hb' hb2; cases hb'; cases hb2
    refine ⟨p, hp, .of_local ?_ hi.nonneg hi.sum (by rw [hi.mean, hy]) ?_, fun _ => .of_local _ ?_ hi.slopeConst hi.slopeLinear ?_⟩
    · rw [quadratic, hb] at hp; cases hp; rfl
    · rintro d ⟨⟩ n; rw [hy]; exact (hsp n).1
    · rw [quadratic, hb] at hp; cases hp; rfl
    · rintro d ⟨⟩ n; rw [hy]; exact (hsp n).2.1
  | cubic =>
    generalize hy : x - (⌊x - 1 / 2 * (Kind.cubic.degree : K)⌋ : Int) = y at hb ⊢
    have hb : baseNode w 2 y = some 0 := hb
    obtain ⟨p, hp⟩ : ∃ p, cubic w y = some p := ⟨_, by rw [cubic, hb]; rfl⟩
    obtain ⟨b, hb', hi⟩ := cubic_interpolates hp
    obtain ⟨b2, hb2, hsp⟩ := cubic_spline hp
    rw [hb] at hb' hb2; cases hb'; cases hb2
    refine ⟨p, hp, .of_local ?_ hi.nonneg hi.sum (by rw [hi.mean, hy]) ?_, fun _ => .of_local _ ?_ hi.slopeConst hi.slopeLinear ?_⟩
    · rw [cubic, hb] at hp; cases hp; rfl
    · rintro d ⟨⟩ n; rw [hy]; exact (hsp n).1
    · rw [cubic, hb] at hp; cases hp; rfl
    · rintro d ⟨⟩ n; rw [hy]; exact (hsp n).2.1
  | delta2 =>
    generalize hy : x - (⌊x - 1 / 2 * (Kind.delta2.degree : K)⌋ : Int) = y at hb ⊢
    have hb : baseNode w 0 y = some 0 := hb
    obtain ⟨p, hp⟩ : ∃ p, linear w y = some p := ⟨_, by rw [linear, hb]; rfl⟩
    obtain ⟨b, hb', hi⟩ := linear_interpolates hp
    obtain ⟨b2, hb2, hsp⟩ := linear_spline hp
    rw [hb] at hb' hb2; cases hb'; cases hb2
    refine ⟨⟨p.w, [], []⟩, by rw [pads, delta2_linear, hp]; rfl, .of_local ?_ hi.nonneg hi.sum (by rw [hi.mean, hy]) ?_, fun h => Bool.noConfusion h⟩
    · rw [linear, hb] at hp; cases hp; rfl
    · rintro d ⟨⟩ n; rw [hy]; exact (hsp n).1
  | delta3 =>
    generalize hy : x - (⌊x - 1 / 2 * (Kind.delta3.degree : K)⌋ : Int) = y at hb ⊢
    have hb : baseNode w 1 y = some 0 := hb
    obtain ⟨r, hr⟩ : ∃ r, delta3 sqrt w y = some r := ⟨_, by rw [delta3, hb]; rfl⟩
    obtain ⟨b, hb', h1, h2, _, h3⟩ := delta3_conditions (hs rfl) hr
    rw [hb] at hb'; cases hb'
    refine ⟨⟨r, [], []⟩, by rw [pads, hr]; rfl, .of_local ?_ h3 h1 (by rw [h2, hy]) ?_, fun h => Bool.noConfusion h⟩
    · rw [delta3, hb] at hr; cases hr; rfl
    · rintro d ⟨⟩
  | delta4 =>
    generalize hy : x - (⌊x - 1 / 2 * (Kind.delta4.degree : K)⌋ : Int) = y at hb ⊢
    have hb : baseNode w 2 y = some 0 := hb
    obtain ⟨r, hr⟩ : ∃ r, delta4 sqrt w y = some r := ⟨_, by rw [delta4, hb]; rfl⟩
    obtain ⟨b, hb', h1, h2, _, _, _, h3⟩ := delta4_conditions (hs rfl) hr
    rw [hb] at hb'; cases hb'
    refine ⟨⟨r, [], []⟩, by rw [pads, hr]; rfl, .of_local ?_ h3 h1 (by rw [h2, hy]) ?_, fun h => Bool.noConfusion h⟩
    · rw [delta4, hb] at hr; cases hr; rfl
    · rintro d ⟨⟩

/-! ## Rows for all axes -/

/-- Rows of weights for the position `X`, starting at `corner`. -/
inductive Rows (kt : Kind) : List K → List Int → List (List K) → Prop
  | nil : Rows kt [] [] []
  | cons {x : K} {X : List K} {b : Int} {corner : List Int} {row : List K} {rows : List (List K)} :
    Row kt x b row → Rows kt X corner rows → Rows kt (x :: X) (b :: corner) (row :: rows)

variable {kt : Kind} {X : List K} {corner : List Int} {rows : List (List K)}

theorem Rows.lengths (h : Rows kt X corner rows) : corner.length = X.length ∧ rows.length = X.length := by
  induction h with
  | nil => exact ⟨rfl, rfl⟩
  | cons _ _ ih => simp [ih.1, ih.2]

theorem Rows.width (h : Rows kt X corner rows) : ∀ row ∈ rows, row.length = kt.width := by
  induction h with
  | nil => simp
  | cons h1 _ ih =>
    intro r hr
    rcases List.mem_cons.1 hr with rfl | hr
    · exact h1.length
    · exact ih r hr

theorem finsum_entry (b : Int) (row : List K) (f : Int → K) :
    (∑ᶠ n : Int, entry b row n * f n) = ((List.range row.length).map fun k => row.getD k 0 * f (b + k)).sum := by
  have hsub : Function.support (fun n : Int => entry b row n * f n) ⊆ ((Finset.range row.length).image fun k : Nat => b + (k : Int) : Finset Int) := by
    intro n hn
    rw [Function.mem_support] at hn
    have he : entry b row n ≠ 0 := fun e => hn (by rw [e, zero_mul])
    rw [entry] at he
    split at he
    · rename_i hb
      have : (n - b).toNat < row.length := by
        rcases Nat.lt_or_ge (n - b).toNat row.length with h | h
        · exact h
        · exact absurd (by simp [h]) he
      simp only [Finset.coe_image, Set.mem_image, Finset.coe_range, Set.mem_Iio]
      exact ⟨(n - b).toNat, this, by omega⟩
    · exact absurd rfl he
  rw [finsum_eq_sum_of_support_subset _ hsub, Finset.sum_image (by intro a _ c _ h; simpa using h)]
  have : ∀ k : Nat, entry b row (b + k) = row.getD k 0 := by
    intro k
    rw [entry, if_pos (by omega)]
    congr 1; omega
  simp only [this]
  rfl

theorem Rows.interp (h : Rows kt X corner rows) {d : Nat} (hd : kt.spline = some d) (F : List Int → K) :
    Sample.interp (bspline d) X F = tensor rows fun o => F (at' corner o) := by
  induction h generalizing F with
  | nil => rfl
  | cons h1 _ ih =>
    rw [Sample.interp, tensor]
    simp only [← h1.spline d hd, ih]
    rw [finsum_entry]
    rfl

theorem sum_moment (b : Int) (row : List K) (A a : K) :
    ((List.range row.length).map fun k : Nat => row.getD k 0 * (A + a * ((b + k : Int) : K))).sum = A * moment 0 b row + a * moment 1 b row := by
  induction row generalizing b with
  | nil => simp [moment]
  | cons y row ih =>
    rw [List.length_cons, List.range_succ_eq_map, List.map_cons, List.sum_cons, List.map_map]
    have := ih (b + 1)
    have e : (fun k : Nat => row.getD k 0 * (A + a * (((b + 1) + k : Int) : K)))
        = (fun k : Nat => (y :: row).getD k 0 * (A + a * ((b + k : Int) : K))) ∘ Nat.succ := by
      funext k
      simp only [Function.comp, List.getD_cons_succ]
      push_cast; ring
    rw [← e, this, moment, moment, moment_zero (b + 1) b]
    simp only [List.getD_cons_zero]
    push_cast; ring

theorem tensor_congr {v v' : List Nat → K} (rows : List (List K)) (h : ∀ o, List.Forall₂ (fun (k : Nat) (row : List K) => k < row.length) o rows → v o = v' o) :
    tensor rows v = tensor rows v' := by
  induction rows generalizing v v' with
  | nil => exact h [] .nil
  | cons row rows ih =>
    rw [tensor, tensor]
    congr 1
    apply List.map_congr_left
    intro k hk
    rw [ih fun o ho => h (k :: o) (.cons (List.mem_range.1 hk) ho)]

theorem Rows.near (h : Rows kt X corner rows) {o : List Nat} (ho : List.Forall₂ (fun (k : Nat) (row : List K) => k < row.length) o rows) :
    Near kt X (at' corner o) := by
  induction h generalizing o with
  | nil => cases ho; exact .nil
  | cons h1 _ ih =>
    cases ho with
    | cons hk ho =>
      refine .cons ?_ (ih ho)
      rw [h1.length] at hk
      rw [Near1, ← h1.base]
      show _ ≤ _ + ((_ : Nat) : Int) ∧ _ + ((_ : Nat) : Int) < _
      constructor <;> omega

theorem affine_cons (a₀ a y : K) (as ys : List K) : affine a₀ (a :: as) (y :: ys) = affine a₀ as ys + a * y := by
  simp only [affine, List.zipWith_cons_cons, List.sum_cons]; ring

theorem Rows.affine (h : Rows kt X corner rows) (a₀ : K) {as : List K} (ha : as.length = X.length) :
    tensor rows (fun o => Sample.affine a₀ as ((at' corner o).map fun n : Int => (n : K))) = Sample.affine a₀ as X := by
  induction h generalizing a₀ as with
  | nil => cases as with
    | nil => rfl
    | cons => simp at ha
  | @cons x X b corner row rows h1 _ ih =>
    cases as with
    | nil => simp at ha
    | cons a as =>
      rw [tensor]
      have e : ∀ k : Nat, (tensor rows fun o => Sample.affine a₀ (a :: as) ((at' (b :: corner) (k :: o)).map fun n : Int => (n : K)))
          = Sample.affine a₀ as X + a * ((b + k : Int) : K) := by
        intro k
        have := ih (a₀ + a * ((b + k : Int) : K)) (as := as) (by simpa using ha)
        rw [show Sample.affine a₀ as X + a * ((b + k : Int) : K) = Sample.affine (a₀ + a * ((b + k : Int) : K)) as X by
          simp only [Sample.affine]; ring, ← this]
        refine congrArg (tensor rows) (funext fun o => ?_)
        rw [at', List.zipWith_cons_cons, List.map_cons, affine_cons, ← at']
        simp only [Sample.affine]; ring
      simp only [e]
      rw [sum_moment, h1.sum, h1.mean, affine_cons]; ring

theorem row_le {row : List K} (hn : ∀ a ∈ row, 0 ≤ a) {f f' : Nat → K} (h : ∀ k < row.length, f k ≤ f' k) :
    ((List.range row.length).map fun k => row.getD k 0 * f k).sum ≤ ((List.range row.length).map fun k => row.getD k 0 * f' k).sum := by
  apply List.sum_le_sum
  intro k hk
  have hk := List.mem_range.1 hk
  have : 0 ≤ row.getD k 0 := by
    rw [List.getD_eq_getElem?_getD, List.getElem?_eq_getElem hk]
    exact hn _ (List.getElem_mem hk)
  exact mul_le_mul_of_nonneg_left (h k hk) this

theorem Rows.mono (h : Rows kt X corner rows) {v v' : List Nat → K}
    (hv : ∀ o, List.Forall₂ (fun (k : Nat) (row : List K) => k < row.length) o rows → v o ≤ v' o) : tensor rows v ≤ tensor rows v' := by
  induction h generalizing v v' with
  | nil => exact hv [] .nil
  | cons h1 _ ih =>
    rw [tensor, tensor]
    exact row_le h1.nonneg fun k hk => ih fun o ho => hv (k :: o) (.cons hk ho)

theorem Rows.const (h : Rows kt X corner rows) (a : K) : tensor rows (fun _ => a) = a := by
  induction h with
  | nil => rfl
  | @cons x X b corner row rows h1 _ ih =>
    rw [tensor]
    simp only [ih]
    have e := sum_moment (K := K) 0 row a 0
    simp only [zero_mul, add_zero] at e
    rw [e, moment_zero 0, h1.sum, mul_one]

/-! ## Arenas -/

/-- The first node for `x`. -/
def base (kt : Kind) (x : K) : Int := ⌊x - 1 / 2 * (kt.degree : K)⌋

theorem mapM_some {α β : Type} {f : α → Option β} {g : α → β} {l : List α} (h : ∀ x ∈ l, f x = some (g x)) : l.mapM f = some (l.map g) := by
  induction l with
  | nil => rfl
  | cons x l ih =>
    rw [List.mapM_cons, h x List.mem_cons_self, ih fun y hy => h y (List.mem_cons_of_mem _ hy)]; rfl

theorem zipWith_map_self {α β γ : Type} (f : α → β → γ) (g : α → β) (l : List α) : List.zipWith f l (l.map g) = l.map fun x => f x (g x) := by
  induction l with
  | nil => rfl
  | cons x l ih => simp [ih]

theorem width_pos (kt : Kind) : 0 < kt.width := by cases kt <;> decide

theorem InRange.base {x : K} {kt : Kind} {X : List K} (h : InRange kt X) (hx : x ∈ X) :
    -2 ^ 31 ≤ base kt x ∧ base kt x + kt.width ≤ 2 ^ 31 := by
  have hp := width_pos kt
  have h1 := h x hx (Sample.base kt x) ⟨Int.le_refl _, by show _ < Sample.base kt x + _; omega⟩
  have h2 := h x hx (Sample.base kt x + (kt.width - 1 : Nat)) ⟨by show Sample.base kt x ≤ _; omega, by show _ < Sample.base kt x + _; omega⟩
  constructor <;> omega

theorem baseNode_some {w : Nat} (hw : 32 ≤ w) {kt : Kind} {x : K} (h : -2 ^ 31 ≤ base kt x ∧ base kt x + kt.width ≤ 2 ^ 31) :
    baseNode w kt.degree x = some (base kt x) := by
  have hp := width_pos kt
  have h2 : (2 : Int) ^ 31 ≤ 2 ^ (w - 1) := by
    have : (2 : Nat) ^ 31 ≤ 2 ^ (w - 1) := Nat.pow_le_pow_right (by omega) (by omega)
    exact_mod_cast this
  rw [baseNode, lowerTrunc]
  show (if _ ≤ base kt x ∧ base kt x < _ then some (base kt x) else _) = _
  rw [if_pos ⟨by omega, by omega⟩]

/-- Pads with derivatives for the position `X`. -/
inductive Grads (kt : Kind) : List K → List Int → List (Pads K) → Prop
  | nil : Grads kt [] [] []
  | cons {x : K} {X : List K} {b : Int} {corner : List Int} {p : Pads K} {ps : List (Pads K)} :
    Row kt x b p.w → Slopes kt x b p.dw → Grads kt X corner ps → Grads kt (x :: X) (b :: corner) (p :: ps)

/-- An arena for the position `X`. -/
structure IsArena (kt : Kind) (X : List K) (a : Arena K) : Prop where
  corner : a.corner = X.map (base kt)
  rows : Rows kt X a.corner (a.weights.map (·.w))
  linear : kt = .linear → a.weights.map (·.w) = a.local'.map fun x => [1 - x, x]
  length : a.local'.length = X.length
  slopes : kt.smooth = true → Grads kt X a.corner a.weights

theorem weights_arena {sqrt : K → K} (w : Nat) (kt : Kind) (hs : kt.spline = none → IsSqrt sqrt) (X : List K) :
    ∃ ps, ((X.map fun x => x - (base kt x : K)).mapM fun x => pads sqrt w x kt) = some ps ∧
      IsArena kt X ⟨X.map (base kt), X.map fun x => x - (base kt x : K), ps⟩ := by
  induction X with
  | nil => exact ⟨[], rfl, rfl, .nil, fun _ => rfl, rfl, fun _ => .nil⟩
  | cons x X ih =>
    obtain ⟨ps, h1, h2⟩ := ih
    obtain ⟨p, h3, h4, h5⟩ := pads_row w kt hs x
    refine ⟨p :: ps, ?_, rfl, .cons h4 h2.rows, ?_, by simp, fun h => .cons h4 (h5 h) (h2.slopes h)⟩
    · rw [List.map_cons, List.mapM_cons, h1]
      show (pads sqrt w (x - (⌊x - 1 / 2 * (kt.degree : K)⌋ : Int)) kt).bind _ = _
      rw [h3]; rfl
    · rintro rfl
      have := h2.linear rfl
      simp only [List.map_cons]
      rw [this, List.map_map]
      congr 1
      have hb : baseNode w 0 (x - (base .linear x : K)) = some 0 := base_local w 0 x
      have h3 : linear w (x - (base .linear x : K)) = some p := h3
      rw [linear, hb] at h3
      cases h3
      simp

theorem arena_some {sqrt : K → K} (w : Nat) {kt : Kind} (hs : kt.spline = none → IsSqrt sqrt) {X : List K} (hr : InRange kt X) :
    ∃ a, arena sqrt w kt X = some a ∧ IsArena kt X a := by
  obtain ⟨ps, h1, h2⟩ := weights_arena w kt hs X
  refine ⟨_, ?_, h2⟩
  rw [arena, mapM_some (g := base kt) fun x hx => baseNode_some (Nat.le_refl 32) (hr.base hx), Option.bind_some]
  simp only [zipWith_map_self]
  rw [h1]; rfl

theorem narrow_id {b : Int} (h1 : -2 ^ 31 ≤ b) (h2 : b < 2 ^ 31) : narrow b = b := by
  rw [narrow]
  exact Int.bmod_eq_of_le (by norm_num; omega) (by norm_num; omega)

/-- The position relative to the points that carry the values of axis `f`. -/
def unshift (f : Nat) (X : List K) : List K := X.zipIdx.map fun p => p.1 - shift f p.2

theorem arenaFace_eq {sqrt : K → K} {w : Nat} (hw : 32 ≤ w) {kt : Kind} {X : List K} (f : Nat) (hr : InRange kt (unshift (f % X.length) X)) :
    arenaFace sqrt w kt X f = arena sqrt w kt (unshift (f % X.length) X) := by
  have hb : ∀ p ∈ X.zipIdx, -2 ^ 31 ≤ base kt (p.1 - shift (f % X.length) p.2) ∧ base kt (p.1 - shift (f % X.length) p.2) + kt.width ≤ 2 ^ 31 :=
    fun p hp => hr.base (List.mem_map.2 ⟨p, hp, rfl⟩)
  have hp := width_pos kt
  rw [arenaFace, arena, mapM_some (g := fun p : K × Nat => base kt (p.1 - shift (f % X.length) p.2)), mapM_some (g := base kt)]
  · simp only [Option.bind_some, unshift, List.map_map, zipWith_map_self]
    have e1 : (List.zipWith (fun (p : K × Nat) (b : Int) => p.1 - ((b : K) + shift (f % X.length) p.2)) X.zipIdx
        (X.zipIdx.map fun p => base kt (p.1 - shift (f % X.length) p.2)))
        = List.zipWith (fun (x : K) (b : Int) => x - (b : K)) (X.zipIdx.map fun p => p.1 - shift (f % X.length) p.2)
          (X.zipIdx.map (base kt ∘ fun p => p.1 - shift (f % X.length) p.2)) := by
      rw [zipWith_map_self, ← List.map_map, zipWith_map_self, List.map_map]
      apply List.map_congr_left
      intro p _
      simp only [Function.comp]; ring
    rw [zipWith_map_self] at e1
    rw [e1]; rfl
  · intro x hx; exact baseNode_some (Nat.le_refl 32) (hr.base hx)
  · intro p hpm
    obtain ⟨h1, h2⟩ := hb p hpm
    rw [baseNode_some hw ⟨h1, h2⟩, Option.map_some, narrow_id h1 (by omega)]

/-! ## Nodes -/

theorem mem_offsets {width d : Nat} {o : List Nat} : o ∈ offsets width d ↔ o.length = d ∧ ∀ k ∈ o, k < width := by
  induction d generalizing o with
  | zero =>
    rw [offsets, List.mem_singleton]
    constructor
    · rintro rfl; simp
    · rintro ⟨h, _⟩; exact List.length_eq_zero_iff.1 h
  | succ d ih =>
    rw [offsets, List.mem_flatMap]
    constructor
    · rintro ⟨k, hk, h⟩
      obtain ⟨o', ho', rfl⟩ := List.mem_map.1 h
      obtain ⟨h1, h2⟩ := ih.1 ho'
      refine ⟨by simp [h1], ?_⟩
      intro j hj
      rcases List.mem_cons.1 hj with rfl | hj
      · exact List.mem_range.1 hk
      · exact h2 j hj
    · rintro ⟨h1, h2⟩
      cases o with
      | nil => simp at h1
      | cons k o =>
        exact ⟨k, List.mem_range.2 (h2 k List.mem_cons_self), List.mem_map.2 ⟨o, ih.2 ⟨by simpa using h1, fun j hj => h2 j (List.mem_cons_of_mem _ hj)⟩, rfl⟩⟩

theorem node_some {kt : Kind} {X : List K} (hr : InRange kt X) {o : List Nat} (hl : o.length = X.length) (ho : ∀ k ∈ o, k < kt.width) :
    node (X.map (base kt)) o = some ((at' (X.map (base kt)) o).map (BitVec.ofInt 32))
      ∧ ((at' (X.map (base kt)) o).map (BitVec.ofInt 32)).map BitVec.toInt = at' (X.map (base kt)) o
      ∧ Near kt X (at' (X.map (base kt)) o) := by
  induction X generalizing o with
  | nil =>
    cases o with
    | nil => exact ⟨rfl, rfl, .nil⟩
    | cons => simp at hl
  | cons x X ih =>
    cases o with
    | nil => simp at hl
    | cons k o =>
      obtain ⟨h1, h2, h3⟩ := ih (fun y hy => hr y (List.mem_cons_of_mem _ hy)) (o := o) (by simpa using hl) fun j hj => ho j (List.mem_cons_of_mem _ hj)
      obtain ⟨b1, b2⟩ := hr.base (List.mem_cons_self (a := x))
      have hk := ho k List.mem_cons_self
      have hadd : addOffset (base kt x) k = some (BitVec.ofInt 32 (base kt x + k)) := by rw [addOffset, if_pos (by omega)]
      refine ⟨?_, ?_, .cons ?_ h3⟩
      · have h1' : ((X.map (base kt)).zip o).mapM (fun p => addOffset p.1 p.2) = some ((at' (X.map (base kt)) o).map (BitVec.ofInt 32)) := h1
        rw [node, List.map_cons, List.zip_cons_cons, List.mapM_cons, h1', hadd]; rfl
      · have : (BitVec.ofInt 32 (base kt x + k)).toInt = base kt x + k := by
          rw [BitVec.toInt_ofInt]
          exact Int.bmod_eq_of_le (by norm_num; omega) (by norm_num; omega)
        show (BitVec.ofInt 32 (base kt x + k)).toInt :: ((at' (X.map (base kt)) o).map (BitVec.ofInt 32)).map BitVec.toInt = (base kt x + k) :: at' (X.map (base kt)) o
        rw [this, h2]
      · show base kt x ≤ base kt x + (k : Int) ∧ base kt x + (k : Int) < base kt x + kt.width
        omega

theorem pad_some {kt : Kind} {X : List K} (hr : InRange kt X) {β : Type} {look : Coord → Option β} {F : List Int → β}
    (hF : ∀ c : Coord, Near kt X (c.map BitVec.toInt) → look c = some (F (c.map BitVec.toInt))) :
    ((nodes kt.width (X.map (base kt))).bind fun cs => cs.mapM look) = some ((offsets kt.width X.length).map fun o => F (at' (X.map (base kt)) o)) := by
  rw [nodes, List.length_map, mapM_some (g := fun o => (at' (X.map (base kt)) o).map (BitVec.ofInt 32)), Option.bind_some, mapM_some (g := fun c : Coord => F (c.map BitVec.toInt)),
    List.map_map]
  · congr 1
    apply List.map_congr_left
    intro o ho
    obtain ⟨h1, h2⟩ := mem_offsets.1 ho
    simp only [Function.comp]
    rw [(node_some hr h1 h2).2.1]
  · intro c hc
    obtain ⟨o, ho, rfl⟩ := List.mem_map.1 hc
    obtain ⟨h1, h2⟩ := mem_offsets.1 ho
    have := node_some hr h1 h2
    apply hF
    rw [this.2.1]; exact this.2.2
  · intro o ho
    obtain ⟨h1, h2⟩ := mem_offsets.1 ho
    exact (node_some hr h1 h2).1

/-- Sampling is the tensor product of the rows with the values. -/
theorem isample_tensor {kt : Kind} {X : List K} {a : Arena K} (h : IsArena kt X a) (v : List Nat → K) :
    isample kt a ((offsets kt.width X.length).map v) = tensor (a.weights.map (·.w)) v := by
  obtain ⟨hl1, hl2⟩ := h.rows.lengths
  by_cases hk : kt = .linear
  · subst hk
    rw [isample, h.linear rfl, ← xlerp_tensor, h.length]; rfl
  · have e : isample kt a ((offsets kt.width X.length).map v)
        = ((offsets kt.width a.corner.length).zip ((offsets kt.width X.length).map v)).foldl
          (fun r p => r + weight (a.weights.map (·.w)) p.1 * p.2) 0 := by
      cases kt <;> first | rfl | exact absurd rfl hk
    rw [e, hl1, foldl_zip_map, zero_add, ← hl2, tensor_offsets _ _ h.rows.width]

/-- All in one. -/
theorem sample_tensor {sqrt : K → K} (w : Nat) {kt : Kind} (hs : kt.spline = none → IsSqrt sqrt) {X : List K} (hr : InRange kt X) {look : Coord → Option K} {F : List Int → K}
    (hF : ∀ c : Coord, Near kt X (c.map BitVec.toInt) → look c = some (F (c.map BitVec.toInt))) :
    ∃ corner rows, Rows kt X corner rows ∧
      ((arena sqrt w kt X).bind fun a => (nodes kt.width a.corner).bind fun cs => (cs.mapM look).map (isample kt a))
        = some (tensor rows fun o => F (at' corner o)) := by
  obtain ⟨a, h1, h2⟩ := arena_some w hs hr
  refine ⟨a.corner, _, h2.rows, ?_⟩
  have hp := pad_some hr hF
  rw [h1, Option.bind_some, ← isample_tensor h2, h2.corner]
  have e : ∀ o : Option (List Coord), (o.bind fun cs => (cs.mapM look).map (isample kt a)) = (o.bind fun cs => cs.mapM look).map (isample kt a) := by
    intro o; cases o <;> rfl
  rw [e, hp]; rfl

/-! ## Gradients -/

/-- The rows of which `weightGradient` takes the product, if the first axis has the number `n`. -/
def gradRows (i n : Nat) (ps : List (Pads K)) : List (List K) := (ps.zipIdx n).map fun p => if p.2 = i then p.1.dw else p.1.w

theorem gradRows_cons (i n : Nat) (p : Pads K) (ps : List (Pads K)) :
    gradRows i n (p :: ps) = (if n = i then p.dw else p.w) :: gradRows i (n + 1) ps := by
  rw [gradRows, List.zipIdx_cons, List.map_cons]; rfl

theorem gradRows_after {i n : Nat} (h : i < n) (ps : List (Pads K)) : gradRows i n ps = ps.map (·.w) := by
  induction ps generalizing n with
  | nil => rfl
  | cons p ps ih => rw [gradRows_cons, if_neg (by omega), ih (by omega)]; rfl

theorem Grads.toRows {ps : List (Pads K)} (h : Grads kt X corner ps) : Rows kt X corner (ps.map (·.w)) := by
  induction h with
  | nil => exact .nil
  | cons h1 _ _ ih => exact .cons h1 ih

theorem Grads.width {ps : List (Pads K)} (h : Grads kt X corner ps) (i n : Nat) : ∀ row ∈ gradRows i n ps, row.length = kt.width := by
  induction h generalizing n with
  | nil => intro row hr; cases hr
  | cons h1 h2 _ ih =>
    rw [gradRows_cons]
    intro row hr
    rcases List.mem_cons.1 hr with rfl | hr
    · split
      · exact h2.length
      · exact h1.length
    · exact ih _ row hr

theorem Grads.interp {ps : List (Pads K)} (h : Grads kt X corner ps) {d : Nat} (hd : kt.spline = some d) (i n : Nat) (hi : i < X.length)
    (F : List Int → K) : interpSlope (bspline d) (slope d) i X F = tensor (gradRows (n + i) n ps) fun o => F (at' corner o) := by
  induction h generalizing F i n with
  | nil => simp at hi
  | cons h1 h2 h3 ih =>
    rw [gradRows_cons]
    cases i with
    | zero =>
      rw [interpSlope, if_pos (Nat.add_zero n).symm, tensor, gradRows_after (by omega)]
      simp only [← h2.spline d hd, h3.toRows.interp hd]
      rw [finsum_entry]; rfl
    | succ i =>
      rw [interpSlope, if_neg (by omega), tensor]
      simp only [← h1.spline d hd, ih i (n + 1) (by simpa using hi), show n + 1 + i = n + (i + 1) by omega]
      rw [finsum_entry]; rfl

theorem Grads.affine {ps : List (Pads K)} (h : Grads kt X corner ps) (i n : Nat) (hi : i < X.length) (a₀ : K) {as : List K} (ha : as.length = X.length) :
    tensor (gradRows (n + i) n ps) (fun o => Sample.affine a₀ as ((at' corner o).map fun n : Int => (n : K))) = as.getD i 0 := by
  induction h generalizing i n a₀ as with
  | nil => simp at hi
  | @cons x X b corner p ps h1 h2 h3 ih =>
    cases as with
    | nil => simp at ha
    | cons a as =>
      have ha' : as.length = X.length := by simpa using ha
      have e : ∀ (k : Nat) (o : List Nat), Sample.affine a₀ (a :: as) ((at' (b :: corner) (k :: o)).map fun n : Int => (n : K))
          = Sample.affine (a₀ + a * ((b + k : Int) : K)) as ((at' corner o).map fun n : Int => (n : K)) := by
        intro k o
        rw [at', List.zipWith_cons_cons, List.map_cons, affine_cons, ← at']
        simp only [Sample.affine]; ring
      rw [gradRows_cons]
      cases i with
      | zero =>
        rw [if_pos (Nat.add_zero n).symm, tensor, gradRows_after (by omega)]
        simp only [e, h3.toRows.affine _ ha']
        have : ∀ k : Nat, Sample.affine (a₀ + a * ((b + k : Int) : K)) as X = Sample.affine a₀ as X + a * ((b + k : Int) : K) := by
          intro k; simp only [Sample.affine]; ring
        simp only [this]
        rw [sum_moment, h2.const, h2.linear]; simp
      | succ i =>
        rw [if_neg (by omega), tensor]
        simp only [e, show n + (i + 1) = n + 1 + i by omega, ih i (n + 1) (by simpa using hi) _ ha', List.getD_cons_succ]
        have := sum_moment b p.w (as.getD i 0) 0
        simp only [zero_mul, add_zero] at this
        rw [this, h1.sum, mul_one]

end Verif.Sample
