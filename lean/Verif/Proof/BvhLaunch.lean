import Verif.Proof.BvhCodes
import Verif.Proof.Spmv
import Verif.Proof.SparseBuild
/-! Launches whose writes to a cell all write the same value. -/
namespace Verif.Bvh
open Tree Verif.Phase

def Op.arr : Op → Arr
  | .set a _ _ => a
  | .add a _ => a

def Op.ix : Op → Int
  | .set _ i _ => i
  | .add _ i => i

def Op.on (op : Op) (a : Arr) (i : Nat) : Prop := op.arr = a ∧ op.ix = (i : Int)

/-- The write is inside the array. -/
def Op.ok (sz : Arr → Nat) (op : Op) : Prop := 0 ≤ op.ix ∧ op.ix < sz op.arr

def Lens (sz : Arr → Nat) (m : Mem) : Prop := ∀ a, (m a).length = sz a

theorem Op.run_spec {sz : Arr → Nat} {m : Mem} (hl : Lens sz m) {op : Op} (ho : op.ok sz) : ∃ m', op.run m = some m' ∧ Lens sz m' ∧
    (∀ a (i : Nat), ¬ op.on a i → (m' a)[i]? = (m a)[i]?) ∧
    (∀ a (i : Nat) v, op = .set a (i : Int) v → (m' a)[i]? = some v) ∧
    (∀ a (i : Nat), op = .add a (i : Int) → (m' a)[i]? = (m a)[i]?.map (· + 1)) := by
  obtain ⟨h1, h2⟩ := ho
  obtain ⟨k, hk⟩ := Int.eq_ofNat_of_zero_le h1
  have hlt : k < (m op.arr).length := by rw [hl]; omega
  have hlen : ∀ w, Lens sz (Phase.upd m op.arr ((m op.arr).set k w)) := by
    intro w a
    by_cases ha : a = op.arr
    · subst ha; rw [Phase.upd, if_pos rfl, List.length_set]; exact hl _
    · rw [Phase.upd, if_neg ha]; exact hl a
  have hframe : ∀ w a (i : Nat), ¬ op.on a i → (Phase.upd m op.arr ((m op.arr).set k w) a)[i]? = (m a)[i]? := by
    intro w a i hn
    by_cases ha : a = op.arr
    · subst ha
      have : k ≠ i := fun h => hn ⟨rfl, by omega⟩
      rw [Phase.upd, if_pos rfl, List.getElem?_set_ne this]
    · rw [Phase.upd, if_neg ha]
  cases op with
  | set a i v =>
    dsimp only [Op.arr, Op.ix] at *
    subst hk
    refine ⟨_, by rw [Op.run, at?_nat, List.getElem?_eq_getElem hlt, Option.map_some, Int.toNat_natCast], hlen v, hframe v, ?_, ?_⟩
    · intro a' i' v' he
      injection he with e1 e2 e3
      subst e1; subst e3
      have : k = i' := by omega
      subst this
      rw [Phase.upd, if_pos rfl, List.getElem?_set_self hlt]
    · intro a' i' he; cases he
  | add a i =>
    dsimp only [Op.arr, Op.ix] at *
    subst hk
    refine ⟨_, by rw [Op.run, at?_nat, List.getElem?_eq_getElem hlt, Option.map_some, Int.toNat_natCast], hlen _, hframe _, ?_, ?_⟩
    · intro a' i' v' he; cases he
    · intro a' i' he
      injection he with e1 e2
      subst e1
      have : k = i' := by omega
      subst this
      rw [Phase.upd, if_pos rfl, List.getElem?_set_self hlt, List.getElem?_eq_getElem hlt, Option.map_some]

theorem fold_spec {sz : Arr → Nat} : ∀ (ops : List Op) {m : Mem}, Lens sz m → (∀ op ∈ ops, op.ok sz) → ∃ m', ops.foldlM Op.run m = some m' ∧ Lens sz m' ∧
    (∀ a (i : Nat), (∀ op ∈ ops, ¬ op.on a i) → (m' a)[i]? = (m a)[i]?) ∧
    (∀ a (i : Nat) v, (∀ op ∈ ops, op.on a i → op = .set a (i : Int) v) → ((m a)[i]? = some v ∨ .set a (i : Int) v ∈ ops) → (m' a)[i]? = some v) ∧
    (∀ a (i : Nat), (∀ op ∈ ops, op.on a i → op = .add a (i : Int)) → (m' a)[i]? = (m a)[i]?.map (· + (ops.count (.add a (i : Int)) : Int))) := by
  intro ops
  induction ops with
  | nil =>
    intro m hl _
    refine ⟨m, rfl, hl, fun _ _ _ => rfl, fun a i v _ h => h.resolve_right (List.not_mem_nil), fun a i _ => ?_⟩
    simp
  | cons op ops ih =>
    intro m hl ho
    obtain ⟨m1, h1, h2, h3, h4, h5⟩ := Op.run_spec hl (ho op (List.mem_cons_self ..))
    obtain ⟨m', g1, g2, g3, g4, g5⟩ := ih h2 (fun op hop => ho op (List.mem_cons_of_mem _ hop))
    refine ⟨m', by rw [List.foldlM_cons, h1]; exact g1, g2, ?_, ?_, ?_⟩
    · intro a i h
      rw [g3 a i (fun op hop => h op (List.mem_cons_of_mem _ hop)), h3 a i (h op (List.mem_cons_self ..))]
    · intro a i v h hv
      refine g4 a i v (fun op hop => h op (List.mem_cons_of_mem _ hop)) ?_
      by_cases hon : op.on a i
      · exact .inl (h4 a i v (h op (List.mem_cons_self ..) hon))
      · rcases hv with hv | hv
        · exact .inl (by rw [h3 a i hon]; exact hv)
        · rcases List.mem_cons.1 hv with hv | hv
          · exact absurd ⟨by rw [← hv]; rfl, by rw [← hv]; rfl⟩ hon
          · exact .inr hv
    · intro a i h
      rw [g5 a i (fun op hop => h op (List.mem_cons_of_mem _ hop))]
      by_cases hon : op.on a i
      · have he := h op (List.mem_cons_self ..) hon
        rw [h5 a i he, Option.map_map, he, List.count_cons_self]
        congr 1
        funext z
        dsimp only [Function.comp]
        omega
      · have hne : op ≠ .add a (i : Int) := fun he => hon ⟨by rw [he]; rfl, by rw [he]; rfl⟩
        rw [h3 a i hon, List.count_cons_of_ne hne]

theorem launch_spec {sz : Arr → Nat} {n : Nat} {task : Nat → Option (List Op)} {m : Mem} {r : Option Mem} (T : Nat → List Op) (hl : Lens sz m)
    (ht : ∀ k, k < n → task k = some (T k)) (ho : ∀ k, k < n → ∀ op ∈ T k, op.ok sz) (h : Launch n task m r) : ∃ m', r = some m' ∧ Lens sz m' ∧
    (∀ a (i : Nat), (∀ k, k < n → ∀ op ∈ T k, ¬ op.on a i) → (m' a)[i]? = (m a)[i]?) ∧
    (∀ a (i : Nat) v, (∀ k, k < n → ∀ op ∈ T k, op.on a i → op = .set a (i : Int) v) → (∃ k, k < n ∧ .set a (i : Int) v ∈ T k) → (m' a)[i]? = some v) ∧
    (∀ a (i : Nat), (∀ k, k < n → ∀ op ∈ T k, op.on a i → op = .add a (i : Int)) →
      (m' a)[i]? = (m a)[i]?.map (· + (((List.range n).flatMap T).count (.add a (i : Int)) : Int))) := by
  have hmap : (List.range n).mapM task = some ((List.range n).map T) := by
    have key : ∀ l : List Nat, (∀ k ∈ l, k < n) → l.mapM task = some (l.map T) := by
      intro l
      induction l with
      | nil => intro _; rfl
      | cons a l ih =>
        intro hk
        rw [List.mapM_cons, ht a (hk a (List.mem_cons_self ..)), ih (fun k h' => hk k (List.mem_cons_of_mem _ h'))]
        rfl
    exact key _ fun k hk => List.mem_range.1 hk
  cases h with
  | task h' => rw [hmap] at h'; cases h'
  | run ts sched h1 h2 =>
    rw [hmap] at h1
    have h1 := Option.some.inj h1
    subst h1
    have hp := interleave_perm h2
    have e : ((List.range n).flatMap fun k => ((List.range n).map T).getD k []) = (List.range n).flatMap T := by
      have key : ∀ (f g : Nat → List Op) (l : List Nat), (∀ k ∈ l, f k = g k) → l.flatMap f = l.flatMap g := by
        intro f g l
        induction l with
        | nil => intro _; rfl
        | cons a l ih =>
          intro h'
          rw [List.flatMap_cons, List.flatMap_cons, h' a (List.mem_cons_self ..), ih fun k hk => h' k (List.mem_cons_of_mem _ hk)]
      apply key
      intro k hk
      rw [List.getD_eq_getElem?_getD, List.getElem?_map, List.getElem?_range (List.mem_range.1 hk)]
      rfl
    rw [e] at hp
    have hmem : ∀ op, op ∈ sched ↔ ∃ k, k < n ∧ op ∈ T k := by
      intro op
      rw [hp.mem_iff, List.mem_flatMap]
      exact ⟨fun ⟨k, a, b⟩ => ⟨k, List.mem_range.1 a, b⟩, fun ⟨k, a, b⟩ => ⟨k, List.mem_range.2 a, b⟩⟩
    obtain ⟨m', g1, g2, g3, g4, g5⟩ := fold_spec sched hl (fun op hop => by obtain ⟨k, a, b⟩ := (hmem op).1 hop; exact ho k a op b)
    refine ⟨m', g1, g2, ?_, ?_, ?_⟩
    · intro a i h'
      exact g3 a i fun op hop => by obtain ⟨k, p, q⟩ := (hmem op).1 hop; exact h' k p op q
    · intro a i v h' hv
      exact g4 a i v (fun op hop => by obtain ⟨k, p, q⟩ := (hmem op).1 hop; exact h' k p op q) (.inr ((hmem _).2 hv))
    · intro a i h'
      rw [g5 a i (fun op hop => by obtain ⟨k, p, q⟩ := (hmem op).1 hop; exact h' k p op q), hp.count_eq]

theorem launch_exists (n : Nat) (task : Nat → Option (List Op)) (m : Mem) : ∃ r, Launch n task m r := by
  cases h : (List.range n).mapM task with
  | none => exact ⟨none, .task h⟩
  | some ts =>
    obtain ⟨sched, hs⟩ := interleave_exists n (fun k => ts.getD k [])
    exact ⟨_, .run ts sched h hs⟩

/-- Counting adds. -/
theorem count_flatMap (T : Nat → List Op) (op : Op) (f : Nat → Nat) (i : Nat) : ∀ l : List Nat, (∀ k ∈ l, (T k).count op = if f k = i then 1 else 0) →
    (l.flatMap T).count op = (l.map f).count i := by
  intro l
  induction l with
  | nil => intro _; rfl
  | cons a l ih =>
    intro h
    rw [List.flatMap_cons, List.count_append, ih fun k hk => h k (List.mem_cons_of_mem _ hk), h a (List.mem_cons_self ..), List.map_cons, List.count_cons]
    by_cases he : f a = i
    · rw [if_pos he, if_pos (by simpa using he)]; omega
    · rw [if_neg he, if_neg (by simpa using he)]; omega

end Verif.Bvh
