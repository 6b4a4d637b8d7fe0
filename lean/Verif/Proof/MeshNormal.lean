import Verif.Model.MeshNormal
import Verif.Spec.MeshNormal
import Mathlib.Algebra.BigOperators.Group.List.Basic
import Mathlib.Algebra.Order.BigOperators.Group.List
import Mathlib.Tactic.LinearCombination
import Mathlib.Tactic.FieldSimp
import Mathlib.Tactic.Positivity

/-!
Helpers for the normals of meshes.
-/
namespace Verif.MeshNormal

open Verif.Rotation (V cross nsq3 unit3)

/-- The sum of the normals of the triangles at a vertex. -/
def total (pos : Nat → V 3) (tris : List Tri) (v : Nat) : V 3 := (tris.map fun t => (corners t v : ℝ) • triNormal pos t).sum

noncomputable def contrib (v : Nat) (d : Fin 3) (o : Op) : ℝ := if v = o.vert ∧ d = o.comp then o.val else 0

theorem add_foldl (ops : List Op) (m : Nat → V 3) (v : Nat) (d : Fin 3) : ops.foldl add m v d = m v d + (ops.map (contrib v d)).sum := by
  induction ops generalizing m with
  | nil => simp
  | cons o ops ih =>
    rw [List.foldl_cons, ih, List.map_cons, List.sum_cons, add, contrib]
    split <;> ring

theorem contrib_tri (n : V 3) (t : Tri) (v : Nat) (d : Fin 3) : ((opsOf (fun _ => n) t).map (contrib v d)).sum = (corners t v : ℝ) * n d := by
  have h3 : List.finRange 3 = [0, 1, 2] := by decide
  simp only [opsOf, corners, h3, List.flatMap_cons, List.flatMap_nil, List.map_cons, List.map_nil, List.append_nil, List.cons_append, List.nil_append,
    List.sum_cons, List.sum_nil, contrib, List.countP_cons, List.countP_nil, decide_eq_true_eq]
  by_cases h0 : t 0 = v <;> by_cases h1 : t 1 = v <;> by_cases h2 : t 2 = v <;>
    simp only [h0, h1, h2, Ne.symm, eq_comm (a := v), if_true, if_false, true_and, false_and] <;> fin_cases d <;> simp <;> ring

theorem contrib_all (pos : Nat → V 3) (tris : List Tri) (v : Nat) (d : Fin 3) : ((addOps pos tris).map (contrib v d)).sum = total pos tris v d := by
  induction tris with
  | nil => simp [addOps, total]
  | cons t tris ih =>
    have e : addOps pos (t :: tris) = opsOf (fun _ => triNormal pos t) t ++ addOps pos tris := by simp [addOps]
    rw [e, List.map_append, List.sum_append, ih, contrib_tri]
    simp [total]

/-- The sums after the additions in any order. -/
theorem add_total {pos : Nat → V 3} {tris : List Tri} {ops : List Op} (hp : ops.Perm (addOps pos tris)) (v : Nat) :
    ops.foldl add (fun _ _ => 0) v = total pos tris v := by
  funext d
  rw [add_foldl, (hp.map _).sum_eq, contrib_all, zero_add]

theorem store_other (ops : List Op) (m : Nat → V 3) (v : Nat) (d : Fin 3) (h : ∀ o ∈ ops, ¬(v = o.vert ∧ d = o.comp)) :
    ops.foldl store m v d = m v d := by
  induction ops generalizing m with
  | nil => rfl
  | cons o ops ih =>
    rw [List.foldl_cons, ih _ fun o' ho' => h o' (List.mem_cons_of_mem _ ho'), store, if_neg (h o List.mem_cons_self)]

/-- All stores to a place have the same value. -/
theorem store_same (ops : List Op) (m : Nat → V 3) (v : Nat) (d : Fin 3) (x : ℝ) (hx : ∀ o ∈ ops, v = o.vert ∧ d = o.comp → o.val = x)
    (h : m v d = x ∨ ∃ o ∈ ops, v = o.vert ∧ d = o.comp) : ops.foldl store m v d = x := by
  induction ops generalizing m with
  | nil =>
    rcases h with h | ⟨o, ho, _⟩
    · exact h
    · cases ho
  | cons o ops ih =>
    rw [List.foldl_cons]
    refine ih _ (fun o' ho' => hx o' (List.mem_cons_of_mem _ ho')) ?_
    by_cases hc : v = o.vert ∧ d = o.comp
    · left
      rw [store, if_pos hc]
      exact hx o List.mem_cons_self hc
    · rcases h with h | ⟨o', ho', hc'⟩
      · left
        rw [store, if_neg hc, h]
      · right
        rcases List.mem_cons.1 ho' with rfl | ho'
        · exact absurd hc' hc
        · exact ⟨o', ho', hc'⟩

theorem mem_opsOf {f : Nat → V 3} {t : Tri} {o : Op} (h : o ∈ opsOf f t) : (∃ j, t j = o.vert) ∧ o.val = f o.vert o.comp := by
  simp only [opsOf, List.mem_flatMap, List.mem_map, List.mem_finRange, true_and] at h
  obtain ⟨j, d, rfl⟩ := h
  exact ⟨⟨j, rfl⟩, rfl⟩

theorem opsOf_mem (f : Nat → V 3) (t : Tri) (j : Fin 3) (d : Fin 3) : (⟨t j, d, f (t j) d⟩ : Op) ∈ opsOf f t := by
  simp only [opsOf, List.mem_flatMap, List.mem_map, List.mem_finRange, true_and]
  exact ⟨j, d, rfl⟩

theorem nsq_pos {n : V 3} (h : n ≠ 0) : 0 < nsq3 n := by
  refine lt_of_not_ge fun hc => h ?_
  unfold nsq3 at hc
  have h0 := mul_self_nonneg (n 0)
  have h1 := mul_self_nonneg (n 1)
  have h2 := mul_self_nonneg (n 2)
  have e0 : n 0 = 0 := mul_self_eq_zero.1 (by linarith)
  have e1 : n 1 = 0 := mul_self_eq_zero.1 (by linarith)
  have e2 : n 2 = 0 := mul_self_eq_zero.1 (by linarith)
  funext d
  fin_cases d
  · exact e0
  · exact e1
  · exact e2

theorem nsq_zero : nsq3 0 = 0 := by simp [nsq3]

theorem finish_some (scale : ℝ) {n : V 3} (h : n ≠ 0) : finish scale n = some fun d => unit3 n d * scale :=
  if_neg (Real.sqrt_pos.2 (nsq_pos h)).ne'

theorem finish_zero (scale : ℝ) : finish scale 0 = none := by
  rw [finish, nsq_zero, Real.sqrt_zero, if_pos rfl]

theorem unit_of_pos {n : V 3} (hn : nsq3 n = 1) {c : ℝ} (hc : 0 < c) : unit3 (c • n) = n := by
  have e : nsq3 (c • n) = c ^ 2 := by
    unfold nsq3 at *
    simp only [Pi.smul_apply, smul_eq_mul]
    linear_combination c ^ 2 * hn
  funext d
  rw [unit3, e, Real.sqrt_sq hc.le]
  simp only [Pi.smul_apply, smul_eq_mul]
  field_simp

theorem nsq_unit {n : V 3} (h : n ≠ 0) (scale : ℝ) : nsq3 (fun d => unit3 n d * scale) = scale ^ 2 := by
  have hp := nsq_pos h
  have hs := Real.sq_sqrt hp.le
  have hne := (Real.sqrt_pos.2 hp).ne'
  have e : nsq3 (fun d => unit3 n d * scale) = nsq3 n / Real.sqrt (nsq3 n) ^ 2 * scale ^ 2 := by
    simp only [nsq3, unit3]
    field_simp
  rw [e, hs, div_self hp.ne', one_mul]

theorem corners_pos {t : Tri} {v : Nat} (h : ∃ j, t j = v) : 0 < corners t v := by
  obtain ⟨j, hj⟩ := h
  exact List.countP_pos_iff.2 ⟨j, List.mem_finRange j, by simpa using hj⟩

theorem corners_zero {t : Tri} {v : Nat} (h : ∀ j, t j ≠ v) : corners t v = 0 :=
  List.countP_eq_zero.2 fun j _ => by simpa using h j

/-- Triangles of one direction. -/
theorem total_flat {pos : Nat → V 3} {tris : List Tri} {v : Nat} {n : V 3} {c : Tri → ℝ}
    (h : ∀ t ∈ tris, (∃ j, t j = v) → triNormal pos t = c t • n) :
    total pos tris v = (tris.map fun t => (corners t v : ℝ) * c t).sum • n := by
  induction tris with
  | nil => simp [total]
  | cons t tris ih =>
    have ih := ih fun t' ht' => h t' (List.mem_cons_of_mem _ ht')
    have e : total pos (t :: tris) v = (corners t v : ℝ) • triNormal pos t + total pos tris v := by simp [total]
    rw [e, ih, List.map_cons, List.sum_cons, add_smul]
    congr 1
    by_cases hj : ∃ j, t j = v
    · rw [h t List.mem_cons_self hj, smul_smul]
    · rw [corners_zero (fun j e => hj ⟨j, e⟩)]
      simp

theorem sum_pos_of {l : List Tri} {f : Tri → ℝ} (h0 : ∀ t ∈ l, 0 ≤ f t) (h1 : ∃ t ∈ l, 0 < f t) : 0 < (l.map f).sum := by
  induction l with
  | nil => obtain ⟨t, ht, _⟩ := h1; cases ht
  | cons a l ih =>
    rw [List.map_cons, List.sum_cons]
    have ha := h0 a List.mem_cons_self
    have hl : ∀ t ∈ l, 0 ≤ f t := fun t ht => h0 t (List.mem_cons_of_mem _ ht)
    have hs : 0 ≤ (l.map f).sum := List.sum_nonneg fun x hx => by
      obtain ⟨t, ht, rfl⟩ := List.mem_map.1 hx
      exact hl t ht
    obtain ⟨t, ht, hp⟩ := h1
    rcases List.mem_cons.1 ht with rfl | ht
    · linarith
    · have := ih hl ⟨t, ht, hp⟩
      linarith

end Verif.MeshNormal
