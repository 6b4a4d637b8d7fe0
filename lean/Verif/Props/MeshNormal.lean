import Verif.Proof.MeshNormal

/-!
Normals at the vertices of meshes (C106).
-/
namespace Verif.MeshNormal

open Verif.Rotation (V cross nsq3 unit3)

/-- Without vertex normals, in any order of the additions: at each vertex where the normals of its triangles, weighted by their areas, do not cancel, the
result has the length of `scale` and the direction of their sum. -/
theorem normals_exact (scale : ℝ) {size : Nat} {pos : Nat → V 3} {tris : List Tri} {ops : List Op} (hp : ops.Perm (addOps pos tris))
    (hr : ∀ t ∈ tris, ∀ j, t j < size) :
    ∃ r, meshNormals scale size ops = some r ∧ ∀ v, (tris.map fun t => (corners t v : ℝ) • triNormal pos t).sum ≠ 0 →
      ∃ n, r v = some n ∧ nsq3 n = scale ^ 2 ∧
        ∃ c, 0 < c ∧ n = (scale * c) • (tris.map fun t => (corners t v : ℝ) • triNormal pos t).sum := by
  have hin : ∀ o ∈ ops, o.vert < size := fun o ho => by
    obtain ⟨t, ht, h⟩ := List.mem_flatMap.1 (hp.mem_iff.1 ho)
    obtain ⟨⟨j, hj⟩, _⟩ := mem_opsOf h
    exact hj ▸ hr t ht j
  refine ⟨_, by rw [meshNormals, normals, run, if_pos hin, Option.map_some], fun v hv => ?_⟩
  have ht : ops.foldl add (fun _ _ => 0) v = total pos tris v := add_total hp v
  have hv' : total pos tris v ≠ 0 := hv
  refine ⟨_, by rw [ht, finish_some scale hv'], nsq_unit hv' scale, 1 / Real.sqrt (nsq3 (total pos tris v)),
    one_div_pos.2 (Real.sqrt_pos.2 (nsq_pos hv')), ?_⟩
  funext d
  simp only [unit3, Pi.smul_apply, smul_eq_mul]
  show _ = scale * (1 / Real.sqrt (nsq3 (total pos tris v))) * total pos tris v d
  ring

/-- At a vertex whose triangles all lie in a plane, with the same orientation and not all degenerate, the result is the normal of the plane. -/
theorem flat_exact (scale : ℝ) {size : Nat} {pos : Nat → V 3} {tris : List Tri} {ops : List Op} (hp : ops.Perm (addOps pos tris))
    (hr : ∀ t ∈ tris, ∀ j, t j < size) {v : Nat} {n : V 3} (hn : nsq3 n = 1) {c : Tri → ℝ} (hc : ∀ t, 0 ≤ c t)
    (h : ∀ t ∈ tris, (∃ j, t j = v) → triNormal pos t = c t • n) (hv : ∃ t ∈ tris, (∃ j, t j = v) ∧ 0 < c t) :
    ∃ r, meshNormals scale size ops = some r ∧ r v = some (scale • n) := by
  have hin : ∀ o ∈ ops, o.vert < size := fun o ho => by
    obtain ⟨t, ht, h⟩ := List.mem_flatMap.1 (hp.mem_iff.1 ho)
    obtain ⟨⟨j, hj⟩, _⟩ := mem_opsOf h
    exact hj ▸ hr t ht j
  refine ⟨_, by rw [meshNormals, normals, run, if_pos hin, Option.map_some], ?_⟩
  have hs : 0 < (tris.map fun t => (corners t v : ℝ) * c t).sum := by
    refine sum_pos_of (fun t _ => mul_nonneg (Nat.cast_nonneg _) (hc t)) ?_
    obtain ⟨t, ht, hj, hpos⟩ := hv
    exact ⟨t, ht, mul_pos (Nat.cast_pos.2 (corners_pos hj)) hpos⟩
  have hn0 : n ≠ 0 := fun e => by rw [e, nsq_zero] at hn; exact zero_ne_one hn
  rw [add_total hp v, total_flat h, finish_some scale (smul_ne_zero hs.ne' hn0), unit_of_pos hn hs]
  congr 1
  funext d
  simp [mul_comm]

/-- Two triangles of a square in the plane z = 0. -/
example : let pos : Nat → V 3 := fun i => ([![0, 0, 0], ![1, 0, 0], ![1, 1, 0], ![0, 1, 0]] : List (V 3)).getD i 0
    ∃ r, meshNormals 2 4 (addOps pos [![0, 1, 2], ![0, 2, 3]]).reverse = some r ∧ r 2 = some ((2 : ℝ) • ![0, 0, 1]) := by
  intro pos
  refine flat_exact 2 (List.reverse_perm _) (by decide) (by simp [nsq3]) (c := fun _ => 1) (fun _ => zero_le_one) ?_
    ⟨![0, 1, 2], by simp, ⟨2, rfl⟩, zero_lt_one⟩
  intro t ht _
  simp only [List.mem_cons, List.not_mem_nil, or_false] at ht
  rcases ht with rfl | rfl
  · funext d
    fin_cases d <;> simp [triNormal, cross, pos]
  · funext d
    fin_cases d <;> simp [triNormal, cross, pos]

/-- Moving the mesh changes nothing, and turning a triangle around reverses its normal; the normal of a triangle is at right angles to its edges. -/
theorem triangle_exact (pos : Nat → V 3) (t : Tri) :
    (∀ a : V 3, triNormal (fun v => pos v + a) t = triNormal pos t) ∧ triNormal pos ![t 0, t 2, t 1] = -triNormal pos t ∧
      triNormal pos ![t 1, t 2, t 0] = triNormal pos t ∧ Rotation.dot3 (triNormal pos t) (pos (t 1) - pos (t 0)) = 0 ∧
      Rotation.dot3 (triNormal pos t) (pos (t 2) - pos (t 0)) = 0 ∧
      nsq3 (triNormal pos t) = nsq3 (pos (t 1) - pos (t 0)) * nsq3 (pos (t 2) - pos (t 0)) -
        Rotation.dot3 (pos (t 1) - pos (t 0)) (pos (t 2) - pos (t 0)) ^ 2 := by
  refine ⟨fun a => ?_, ?_, ?_, ?_, ?_, ?_⟩
  · simp [triNormal]
  · funext d
    fin_cases d <;> simp [triNormal, cross] <;> ring
  · funext d
    fin_cases d <;> simp [triNormal, cross] <;> ring
  all_goals simp [triNormal, cross, Rotation.dot3, nsq3]; ring

/-- Vertices without triangles have no normal: zero is divided by zero. -/
theorem isolated_violated (scale : ℝ) {size : Nat} {pos : Nat → V 3} {tris : List Tri} {ops : List Op} (hp : ops.Perm (addOps pos tris))
    {r : Nat → Option (V 3)} (hr : meshNormals scale size ops = some r) {v : Nat} (hv : ∀ t ∈ tris, ∀ j, t j ≠ v) : r v = none := by
  rw [meshNormals, normals, run] at hr
  split at hr
  · cases hr
    have h := add_total hp v
    have h0 := total_flat (pos := pos) (tris := tris) (v := v) (n := 0) (c := fun _ => 0) fun t ht ⟨j, hj⟩ => absurd hj (hv t ht j)
    rw [smul_zero] at h0
    show finish scale _ = none
    rw [h, h0, finish_zero]
  · cases hr

/-- With vertex normals, in any order of the stores: each vertex of a triangle gets its own normal, of the length of `scale`. -/
theorem given_exact_partial (scale : ℝ) {size : Nat} {norms : Nat → V 3} {tris : List Tri} {ops : List Op} (hp : ops.Perm (storeOps norms tris))
    (hr : ∀ t ∈ tris, ∀ j, t j < size) :
    ∃ r, givenNormals scale size ops = some r ∧ ∀ v, (∃ t ∈ tris, ∃ j, t j = v) → norms v ≠ 0 →
      ∃ n, r v = some n ∧ nsq3 n = scale ^ 2 ∧ ∃ c, 0 < c ∧ n = (scale * c) • norms v := by
  have hmem : ∀ o ∈ ops, (∃ t ∈ tris, ∃ j, t j = o.vert) ∧ o.val = norms o.vert o.comp := fun o ho => by
    obtain ⟨t, ht, h⟩ := List.mem_flatMap.1 (hp.mem_iff.1 ho)
    exact ⟨⟨t, ht, (mem_opsOf h).1⟩, (mem_opsOf h).2⟩
  have hin : ∀ o ∈ ops, o.vert < size := fun o ho => by
    obtain ⟨⟨t, ht, j, hj⟩, _⟩ := hmem o ho
    exact hj ▸ hr t ht j
  refine ⟨_, by rw [givenNormals, normals, run, if_pos hin, Option.map_some], fun v ⟨t, ht, j, hj⟩ hv => ?_⟩
  have hs : ops.foldl store (fun _ _ => 0) v = norms v := by
    funext d
    refine store_same ops _ v d _ (fun o ho ⟨h1, h2⟩ => by rw [(hmem o ho).2, ← h1, ← h2]) (Or.inr ?_)
    have ho := List.mem_flatMap.2 ⟨t, ht, opsOf_mem norms t j d⟩
    exact ⟨_, hp.mem_iff.2 ho, hj.symm, rfl⟩
  refine ⟨_, by rw [hs, finish_some scale hv], nsq_unit hv scale, 1 / Real.sqrt (nsq3 (norms v)), one_div_pos.2 (Real.sqrt_pos.2 (nsq_pos hv)), ?_⟩
  funext d
  simp only [unit3, Pi.smul_apply, smul_eq_mul]
  ring

/-- With vertex normals, a vertex without triangles has no normal, although one is given for it. -/
theorem given_violated (scale : ℝ) {size : Nat} {norms : Nat → V 3} {tris : List Tri} {ops : List Op} (hp : ops.Perm (storeOps norms tris))
    {r : Nat → Option (V 3)} (hr : givenNormals scale size ops = some r) {v : Nat} (hv : ∀ t ∈ tris, ∀ j, t j ≠ v) : r v = none := by
  rw [givenNormals, normals, run] at hr
  split at hr
  · cases hr
    have h : ops.foldl store (fun _ _ => 0) v = 0 := by
      funext d
      refine store_other ops _ v d fun o ho ⟨h1, _⟩ => ?_
      obtain ⟨t, ht, h⟩ := List.mem_flatMap.1 (hp.mem_iff.1 ho)
      obtain ⟨⟨j, hj⟩, _⟩ := mem_opsOf h
      exact hv t ht j (hj.trans h1.symm)
    show finish scale _ = none
    rw [h, finish_zero]
  · cases hr

/-- For a part of the mesh, the normals are those of its triangles if these use only the first `nodeNum` vertices. -/
theorem part_exact_partial {nodeNum triOffset triNum : Nat} {pos : Nat → V 3} {tris : List Tri} {ops : List Op}
    (hp : ops.Perm (addOps pos (part tris triOffset triNum))) (hr : ∀ t ∈ part tris triOffset triNum, ∀ j, t j < nodeNum) :
    ∃ r, partNormals nodeNum ops = some r ∧ ∀ v, ((part tris triOffset triNum).map fun t => (corners t v : ℝ) • triNormal pos t).sum ≠ 0 →
      ∃ n, r v = some n ∧ nsq3 n = 1 ∧ ∃ c : ℝ, 0 < c ∧ n = c • ((part tris triOffset triNum).map fun t => (corners t v : ℝ) • triNormal pos t).sum := by
  obtain ⟨r, h1, h2⟩ := normals_exact 1 hp hr
  refine ⟨r, h1, fun v hv => ?_⟩
  obtain ⟨n, h3, h4, c, h5, h6⟩ := h2 v hv
  exact ⟨n, h3, by rw [h4, one_pow], c, h5, by rw [h6, one_mul]⟩

/-- Normals are written out of bounds exactly if a triangle has a vertex beyond their number. -/
theorem bounds_exact (scale : ℝ) (size : Nat) {pos : Nat → V 3} {tris : List Tri} {ops : List Op} (hp : ops.Perm (addOps pos tris)) :
    (meshNormals scale size ops = none ↔ ∃ t ∈ tris, ∃ j, size ≤ t j) ∧ (partNormals size ops = none ↔ ∃ t ∈ tris, ∃ j, size ≤ t j) := by
  have key : (run add size ops).isNone = true ↔ ∃ t ∈ tris, ∃ j, size ≤ t j := by
    unfold run
    split
    · rename_i h
      refine ⟨fun hf => absurd hf (by simp), fun ⟨t, ht, j, hj⟩ => ?_⟩
      have := h _ (hp.mem_iff.2 (List.mem_flatMap.2 ⟨t, ht, opsOf_mem (fun _ => triNormal pos t) t j 0⟩))
      exact absurd hj (Nat.not_le.2 this)
    · rename_i h
      push Not at h
      obtain ⟨o, ho, hge⟩ := h
      obtain ⟨t, ht, h⟩ := List.mem_flatMap.1 (hp.mem_iff.1 ho)
      obtain ⟨⟨j, hj⟩, _⟩ := mem_opsOf h
      exact ⟨fun _ => ⟨t, ht, j, hj ▸ hge⟩, fun _ => rfl⟩
  rw [← key, meshNormals, partNormals, normals, normals]
  cases run add size ops <;> simp

/-- A triangle of the part is at the given offset. -/
theorem part_get (tris : List Tri) {triOffset triNum k : Nat} (hk : k < triNum) : (part tris triOffset triNum)[k]? = tris[triOffset + k]? := by
  rw [part, List.getElem?_take_of_lt hk, List.getElem?_drop]

/-- The normals of the second triangle of two, with its own three vertices, are written outside the three normals, in every order. -/
theorem part_violated (pos : Nat → V 3) (ops : List Op) (hp : ops.Perm (addOps pos (part [![0, 1, 2], ![3, 4, 5]] 1 1))) : partNormals 3 ops = none := by
  have ho : (⟨3, 0, triNormal pos ![3, 4, 5] 0⟩ : Op) ∈ ops :=
    hp.mem_iff.2 (List.mem_flatMap.2 ⟨![3, 4, 5], by simp [part], opsOf_mem (fun _ => triNormal pos ![3, 4, 5]) ![3, 4, 5] 0 0⟩)
  have : ¬ ∀ o ∈ ops, o.vert < 3 := fun h => absurd (h _ ho) (Nat.lt_irrefl 3)
  rw [partNormals, normals, run, if_neg this, Option.map_none]

end Verif.MeshNormal
