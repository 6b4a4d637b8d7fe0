import Verif.Spec.Bvh
/-! Lemmas about bounding volume hierarchies. -/
namespace Verif.Bvh

variable {B S : Type}

namespace Tree

theorem size_pos (t : Tree) : 0 < t.size := by cases t <;> simp [size]

theorem sub_zero (t : Tree) : t.sub 0 = some t := by cases t <;> rfl

theorem sub_le {t : Tree} : ∀ {v : Nat} {u : Tree}, t.sub v = some u → v + u.size ≤ t.size := by
  induction t with
  | leaf p =>
    intro v u h
    cases v with
    | zero => cases h; exact Nat.le_of_eq (Nat.zero_add _)
    | succ v => cases h
  | node l r ihl ihr =>
    intro v u h
    cases v with
    | zero => cases h; exact Nat.le_of_eq (Nat.zero_add _)
    | succ v =>
      simp only [sub] at h
      simp only [size]
      split at h
      · have := ihl h; omega
      · have := ihr h; omega

theorem sub_lt {t : Tree} {v : Nat} {u : Tree} (h : t.sub v = some u) : v < t.size := by
  have := sub_le h
  have := u.size_pos
  omega

theorem sub_exists (t : Tree) : ∀ {v : Nat}, v < t.size → ∃ u, t.sub v = some u := by
  induction t with
  | leaf p =>
    intro v h
    obtain rfl : v = 0 := by simp only [size] at h; omega
    exact ⟨_, rfl⟩
  | node l r ihl ihr =>
    intro v h
    cases v with
    | zero => exact ⟨_, rfl⟩
    | succ v =>
      simp only [sub]
      simp only [size] at h
      split
      · exact ihl (by assumption)
      · exact ihr (by omega)

theorem sub_node {t : Tree} : ∀ {v : Nat} {l r : Tree}, t.sub v = some (node l r) →
    t.sub (v + 1) = some l ∧ t.sub (v + 1 + l.size) = some r := by
  induction t with
  | leaf p =>
    intro v l r h
    cases v <;> cases h
  | node a b iha ihb =>
    intro v l r h
    cases v with
    | zero =>
      cases h
      refine ⟨?_, ?_⟩
      · simp only [sub]
        exact if_pos a.size_pos
      · rw [show 0 + 1 + a.size = a.size + 1 by omega]
        simp only [sub]
        rw [if_neg (Nat.lt_irrefl _), Nat.sub_self, sub_zero]
    | succ v =>
      simp only [sub] at h
      rw [show v + 1 + 1 + l.size = (v + 1 + l.size) + 1 by omega]
      simp only [sub]
      split at h
      · obtain ⟨h1, h2⟩ := iha h
        have e := sub_le h
        simp only [size] at e
        have := r.size_pos
        rw [if_pos (by omega), if_pos (by omega)]
        exact ⟨h1, h2⟩
      · obtain ⟨h1, h2⟩ := ihb h
        rw [if_neg (by omega), if_neg (by omega), show v + 1 - a.size = v - a.size + 1 by omega,
          show v + 1 + l.size - a.size = v - a.size + 1 + l.size by omega]
        exact ⟨h1, h2⟩

/-- Positions and primitives of the leaves of a tree at position `v`. -/
def leavesAt : Tree → Nat → List (Nat × Nat)
  | leaf p, v => [(v, p)]
  | node l r, v => l.leavesAt (v + 1) ++ r.leavesAt (v + 1 + l.size)

theorem leavesAt_fst (t : Tree) : ∀ v, (t.leavesAt v).map (·.1) = t.leafPos v := by
  induction t with
  | leaf p => intro v; rfl
  | node l r ihl ihr => intro v; simp only [leavesAt, leafPos, List.map_append, ihl, ihr]

theorem leavesAt_snd (t : Tree) : ∀ v, (t.leavesAt v).map (·.2) = t.prims := by
  induction t with
  | leaf p => intro v; rfl
  | node l r ihl ihr => intro v; simp only [leavesAt, prims, List.map_append, ihl, ihr]

theorem leavesAt_sub {t : Tree} {v : Nat} {u : Tree} (h : t.sub v = some u) : ∀ x ∈ u.leavesAt v, t.sub x.1 = some (leaf x.2) := by
  induction u generalizing v with
  | leaf p =>
    intro x hx
    simp only [leavesAt, List.mem_singleton] at hx
    subst hx
    exact h
  | node l r ihl ihr =>
    intro x hx
    obtain ⟨h1, h2⟩ := sub_node h
    simp only [leavesAt, List.mem_append] at hx
    rcases hx with hx | hx
    · exact ihl h1 x hx
    · exact ihr h2 x hx

theorem size_eq (t : Tree) : t.size + 1 = 2 * t.prims.length := by
  induction t with
  | leaf p => rfl
  | node l r ihl ihr => simp only [size, prims, List.length_append]; omega

theorem leafPos_length (t : Tree) (v : Nat) : (t.leafPos v).length = t.prims.length := by
  rw [← leavesAt_fst, ← leavesAt_snd t v, List.length_map, List.length_map]

end Tree

/-! ## Traversal -/

theorem at?_nat {A : Type} (l : List A) (n : Nat) : at? l (n : Int) = l[n]? := by
  unfold at?
  rw [if_pos (Int.natCast_nonneg n), Int.toNat_natCast]

/-- What happens at a leaf. -/
def leafStep (q : Query B S) (bx : Nat → B) (s : S) (x : Nat × Nat) : S × Bool :=
  match q.leaf s (bx x.1) with
  | none => (s, false)
  | some g => g x.2

/-- What happens at leaves from left to right, and whether the last call returned `true`. -/
def visits (q : Query B S) (bx : Nat → B) : S → List (Nat × Nat) → S × Bool
  | s, [] => (s, false)
  | s, x :: l => if (leafStep q bx s x).2 then ((leafStep q bx s x).1, true) else visits q bx (leafStep q bx s x).1 l

theorem visits_append (q : Query B S) (bx : Nat → B) (l l' : List (Nat × Nat)) : ∀ s,
    visits q bx s (l ++ l') = if (visits q bx s l).2 then visits q bx s l else visits q bx (visits q bx s l).1 l' := by
  induction l with
  | nil => intro s; rfl
  | cons x l ih =>
    intro s
    simp only [List.cons_append, visits]
    split
    · simp
    · exact ih _

theorem visits_none {q : Query B S} {bx : Nat → B} {s : S} : ∀ {l : List (Nat × Nat)}, (∀ x ∈ l, q.leaf s (bx x.1) = none) →
    visits q bx s l = (s, false) := by
  intro l
  induction l with
  | nil => intro _; rfl
  | cons x l ih =>
    intro h
    have e : leafStep q bx s x = (s, false) := by
      unfold leafStep
      rw [h x (List.mem_cons_self ..)]
    simp only [visits, e]
    exact ih fun y hy => h y (List.mem_cons_of_mem _ hy)

/-- The body of the loop of `walk` after the level is read. -/
def body (t : Bvh B) (q : Query B S) (ed : Int) (fuel : Nat) (level : Nat) (node : Int) (s : S) : Outcome S :=
  match descend t q s level node with
  | none => .bad
  | some (0, node) => match at? t.bvs node with
    | none => .bad
    | some b => match q.leaf s b with
      | none => walk t q ed fuel (node + 1) s
      | some g => match at? t.aux node with
        | none => .bad
        | some p => if (g p).2 then .ok (g p).1 else walk t q ed fuel (node + 1) (g p).1
  | some (_ + 1, node) => match at? t.aux node with
    | none => .bad
    | some e => walk t q ed fuel e s

theorem walk_succ (t : Bvh B) (q : Query B S) (ed : Int) (fuel : Nat) (node : Int) (s : S) : walk t q ed (fuel + 1) node s =
    if node = ed ∨ node = t.numNodes then .ok s else
      match at? t.levels node with
      | none => .bad
      | some level => body t q ed fuel level node s := rfl

theorem walk_end {t : Bvh B} {q : Query B S} {ed : Int} {e : Nat} (h : e = t.numNodes) (hd : ed = -1) (n : Nat) (s : S) :
    walk t q ed n (-1) s = walk t q ed n e s := by
  cases n with
  | zero => rfl
  | succ n => rw [walk_succ, walk_succ, if_pos (.inl hd.symm), if_pos (.inr (by rw [h]))]

/-- What is left to do after some leaves. -/
def rest (t : Bvh B) (q : Query B S) (ed : Int) (n : Nat) (node : Nat) (r : S × Bool) : Outcome S :=
  if r.2 then .ok r.1 else walk t q ed n node r.1

theorem rest_true (t : Bvh B) (q : Query B S) (ed : Int) (n : Nat) (node : Nat) (r : S × Bool) (h : r.2 = true) :
    rest t q ed n node r = .ok r.1 := if_pos h

theorem rest_false (t : Bvh B) (q : Query B S) (ed : Int) (n : Nat) (node : Nat) (r : S × Bool) (h : r.2 = false) :
    rest t q ed n node r = walk t q ed n node r.1 := if_neg (by simp [h])

section
variable {t : Bvh B} {tr : Tree} (hl : Layout t tr) {bx : Nat → B} (hb : ∀ v, v < tr.size → t.bvs[v]? = some (bx v))
  {q : Query B S} (hq : ∀ v l r, tr.sub v = some (.node l r) → ∀ s, q.inner s (bx v) = false →
    ∀ x ∈ (Tree.node l r).leavesAt v, q.leaf s (bx x.1) = none) {ed : Int}
include hl hb hq

theorem body_spec (u : Tree) : ∀ {v : Nat}, tr.sub v = some u → (∀ w, v ≤ w → w < v + u.size → (w : Int) ≠ ed) →
    (v + u.size = tr.size → ed = -1) → ∀ s, ∃ used, used ≤ u.size ∧ ∀ n, body t q ed (n + used) u.spine v s =
      rest t q ed n (v + u.size) (visits q bx s (u.leavesAt v)) := by
  induction u with
  | leaf p =>
    intro v hv _ _ s
    refine ⟨0, Nat.zero_le _, fun n => ?_⟩
    have lhs : body t q ed n 0 v s = rest t q ed n (v + 1) (leafStep q bx s (v, p)) := by
      rw [body, rest]
      simp only [descend]
      rw [at?_nat, hb v (Tree.sub_lt hv)]
      dsimp only
      unfold leafStep
      cases q.leaf s (bx v) with
      | none => rfl
      | some g =>
        dsimp only
        rw [at?_nat, hl.prim v p hv]
        rfl
    refine lhs.trans ?_
    simp only [Tree.leavesAt, visits, Tree.size]
    cases h : (leafStep q bx s (v, p)).2 with
    | true => rw [rest_true _ _ _ _ _ _ h, if_pos rfl]; rfl
    | false => rw [rest_false _ _ _ _ _ _ h, if_neg (by simp)]; rfl
  | node l r ihl ihr =>
    intro v hv he hd s
    obtain ⟨h1, h2⟩ := Tree.sub_node hv
    have hle := Tree.sub_le hv
    have hlp := l.size_pos
    have hrp := r.size_pos
    simp only [Tree.size] at hle he hd
    have unf : ∀ n, body t q ed n (Tree.node l r).spine v s =
        if q.inner s (bx v) then body t q ed n l.spine ((v + 1 : Nat) : Int) s
        else walk t q ed n ((v + (l.size + r.size + 1) : Nat) : Int) s := by
      intro n
      cases hi : q.inner s (bx v) with
      | true =>
        rw [body, body]
        simp only [Tree.spine, descend]
        rw [at?_nat, hb v (by omega)]
        simp only [Option.bind_some, hi, if_true]
        rfl
      | false =>
        rw [body]
        simp only [Tree.spine, descend]
        rw [at?_nat, hb v (by omega)]
        simp only [Option.bind_some, hi]
        have hx := hl.escape v l r hv
        simp only [Bool.false_eq_true, if_false]
        rw [at?_nat, hx]
        show walk t q ed n _ s = _
        by_cases h3 : v + (Tree.node l r).size = tr.size
        · rw [if_pos h3]
          exact walk_end (by rw [hl.size]; exact h3) (hd h3) _ _
        · rw [if_neg h3]; rfl
    cases hi : q.inner s (bx v) with
    | true =>
      obtain ⟨a, ha, ea⟩ := ihl h1 (fun w w1 w2 => he w (by omega) (by omega)) (fun h => by omega) s
      have va := visits_append q bx (l.leavesAt (v + 1)) (r.leavesAt (v + 1 + l.size)) s
      cases hv2 : (visits q bx s (l.leavesAt (v + 1))).2 with
      | true =>
        refine ⟨a, by simp only [Tree.size]; omega, fun n => ?_⟩
        rw [unf, hi, if_pos rfl, ea, rest_true _ _ _ _ _ _ hv2]
        simp only [Tree.leavesAt]
        rw [va, if_pos hv2, rest_true _ _ _ _ _ _ hv2]
      | false =>
        obtain ⟨b, hb', eb⟩ := ihr h2 (fun w w1 w2 => he w (by omega) (by omega)) (fun h => hd (by omega))
          (visits q bx s (l.leavesAt (v + 1))).1
        refine ⟨b + 1 + a, by simp only [Tree.size]; omega, fun n => ?_⟩
        rw [unf, hi, if_pos rfl, ← Nat.add_assoc n, ea, rest_false _ _ _ _ _ _ hv2]
        simp only [Tree.leavesAt]
        rw [va, if_neg (by simp [hv2]), ← Nat.add_assoc n, walk_succ, if_neg, at?_nat, hl.levels _ _ h2]
        · dsimp only
          rw [eb]
          simp only [Tree.size]
          rw [show v + 1 + l.size + r.size = v + (l.size + r.size + 1) by omega]
        · rintro (h | h)
          · exact he _ (by omega) (by omega) h
          · rw [hl.size] at h
            omega
    | false =>
      refine ⟨0, Nat.zero_le _, fun n => ?_⟩
      rw [unf, hi, if_neg (by simp), visits_none (hq v l r hv s hi), rest_false _ _ _ _ _ _ rfl]
      rfl

/-- The loop over a whole subtree. -/
theorem walk_spec {u : Tree} {v : Nat} (hv : tr.sub v = some u) (he : ∀ w, v ≤ w → w < v + u.size → (w : Int) ≠ ed)
    (hd : v + u.size = tr.size → ed = -1) (s : S) : ∃ used, used ≤ u.size + 1 ∧ ∀ n, walk t q ed (n + used) v s =
      rest t q ed n (v + u.size) (visits q bx s (u.leavesAt v)) := by
  obtain ⟨a, ha, ea⟩ := body_spec hl hb hq u hv he hd s
  have := Tree.sub_lt hv
  have := u.size_pos
  refine ⟨a + 1, by omega, fun n => ?_⟩
  rw [← Nat.add_assoc, walk_succ, if_neg, at?_nat, hl.levels _ _ hv]
  · exact ea n
  · rintro (h | h)
    · exact he v (Nat.le_refl _) (by omega) h
    · rw [hl.size] at h; omega

/-- A query from the root does what it does at the leaves from left to right. -/
theorem query_spec (s : S) {fuel : Nat} (hf : tr.size + 2 ≤ fuel) : query t q fuel s = .ok (visits q bx s (tr.leavesAt 0)).1 := by
  unfold query
  rw [if_neg (by rw [hl.size]; have := hl.big; omega)]
  obtain ⟨a, ha, ea⟩ := walk_spec hl hb hq (ed := -1) (Tree.sub_zero tr) (fun w _ _ h => by omega) (fun _ => rfl) s
  have := ea (fuel - a - 1 + 1)
  rw [show fuel - a - 1 + 1 + a = fuel by omega] at this
  refine this.trans ?_
  cases h : (visits q bx s (tr.leavesAt 0)).2 with
  | true => exact rest_true _ _ _ _ _ _ h
  | false => rw [rest_false _ _ _ _ _ _ h, walk_succ, if_pos (.inr (by rw [hl.size, Nat.zero_add]))]

/-- The loop from a leaf to the end of a subtree. -/
theorem walk_from (u : Tree) : ∀ {v : Nat}, tr.sub v = some u → (∀ w, v ≤ w → w < v + u.size → (w : Int) ≠ ed) →
    (v + u.size = tr.size → ed = -1) → ∀ (j : Nat) (x : Nat × Nat), (u.leavesAt v)[j]? = some x → ∀ s, ∃ used, used ≤ u.size + 1 ∧ ∀ n,
      walk t q ed (n + used) x.1 s = rest t q ed n (v + u.size) (visits q bx s ((u.leavesAt v).drop j)) := by
  induction u with
  | leaf p =>
    intro v hv he hd j x hx s
    cases j with
    | zero =>
      simp only [Tree.leavesAt, List.getElem?_cons_zero, Option.some.injEq] at hx
      subst hx
      exact walk_spec hl hb hq hv he hd s
    | succ j => simp [Tree.leavesAt] at hx
  | node l r ihl ihr =>
    intro v hv he hd j x hx s
    obtain ⟨h1, h2⟩ := Tree.sub_node hv
    have hlp := l.size_pos
    have hrp := r.size_pos
    have hle := Tree.sub_le hv
    simp only [Tree.size] at hle he hd
    simp only [Tree.leavesAt] at hx ⊢
    have fin : v + 1 + l.size + r.size = v + (Tree.node l r).size := by simp only [Tree.size]; omega
    have hsz : (Tree.node l r).size = l.size + r.size + 1 := rfl
    by_cases hj : j < (l.leavesAt (v + 1)).length
    · rw [List.getElem?_append_left hj] at hx
      obtain ⟨a, ha, ea⟩ := ihl h1 (fun w w1 w2 => he w (by omega) (by omega)) (fun h => by omega) j x hx s
      have va := visits_append q bx ((l.leavesAt (v + 1)).drop j) (r.leavesAt (v + 1 + l.size)) s
      rw [List.drop_append_of_le_length (Nat.le_of_lt hj), va]
      cases hv2 : (visits q bx s ((l.leavesAt (v + 1)).drop j)).2 with
      | true =>
        refine ⟨a, by omega, fun n => ?_⟩
        rw [ea, rest_true _ _ _ _ _ _ hv2, if_pos rfl, rest_true _ _ _ _ _ _ hv2]
      | false =>
        obtain ⟨b, hb', eb⟩ := walk_spec hl hb hq h2 (fun w w1 w2 => he w (by omega) (by omega)) (fun h => hd (by omega))
          (visits q bx s ((l.leavesAt (v + 1)).drop j)).1
        refine ⟨b + a, by omega, fun n => ?_⟩
        rw [← Nat.add_assoc n, ea, rest_false _ _ _ _ _ _ hv2, eb, if_neg (by simp), fin]
    · rw [List.getElem?_append_right (by omega)] at hx
      obtain ⟨a, ha, ea⟩ := ihr h2 (fun w w1 w2 => he w (by omega) (by omega)) (fun h => hd (by omega)) _ x hx s
      refine ⟨a, by omega, fun n => ?_⟩
      have hdr : (l.leavesAt (v + 1)).drop j = [] := List.drop_eq_nil_of_le (by omega)
      rw [ea, fin, List.drop_append, hdr, List.nil_append]

end

/-! ## Few primitives -/

theorem scan_spec {t : Bvh B} {q : Query B S} {bx : Nat → B} (hb : ∀ v, v < t.numNodes → t.bvs[v]? = some (bx v)) :
    ∀ (m i fuel : Nat), i + m = t.numNodes → m ≤ fuel → ∀ s, scan t q fuel i s = .ok (visits q bx s ((List.range' i m).map fun v => (v, v))).1 := by
  intro m
  induction m with
  | zero =>
    intro i fuel hi _ s
    cases fuel with
    | zero => exact if_pos (by omega)
    | succ fuel => exact if_pos (by omega)
  | succ m ih =>
    intro i fuel hi hf s
    obtain ⟨fuel, rfl⟩ : ∃ f, fuel = f + 1 := ⟨fuel - 1, by omega⟩
    rw [scan, if_neg (by omega), hb i (by omega)]
    dsimp only
    rw [List.range'_succ, List.map_cons, visits, leafStep]
    dsimp only
    have ih' := ih (i + 1) fuel (by omega) (by omega)
    cases q.leaf s (bx i) with
    | none => exact ih' s
    | some g =>
      dsimp only
      cases h : (g (i : Int)).2 with
      | true => simp
      | false => simpa using ih' (g i).1

end Verif.Bvh
