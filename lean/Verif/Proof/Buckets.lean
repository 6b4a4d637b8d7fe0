import Verif.Spec.Buckets
import Verif.Proof.Bvtt
import Mathlib.Data.List.Nodup
import Mathlib.Tactic.Linarith
import Mathlib.Tactic.FinCases
import Mathlib.Tactic.Tauto

/-! Tables as lists, and the distribution as a reordering. -/
namespace Verif.Buckets

variable {K : Type} [Field K] [LinearOrder K] [IsStrictOrderedRing K] [FloorRing K] {d : Nat}

theorem mem_insert {L : List (Key d)} {k k' : Key d} : k' ∈ insert L k ↔ k' ∈ L ∨ k' = k := by
  unfold insert
  split_ifs with h
  · constructor
    · exact Or.inl
    · rintro (h' | rfl)
      · exact h'
      · exact h
  · simp

theorem nodup_insert {L : List (Key d)} {k : Key d} (h : L.Nodup) : (insert L k).Nodup := by
  unfold insert
  split_ifs with hk
  · exact h
  · exact List.nodup_append.2 ⟨h, by simp, fun a ha b hb => by rw [List.mem_singleton.1 hb]; rintro rfl; exact hk ha⟩

theorem prefix_insert (L : List (Key d)) (k : Key d) : L <+: insert L k := by
  unfold insert
  split_ifs
  · exact List.prefix_refl _
  · exact List.prefix_append _ _

/-- What a loop of insertions does to the table. -/
structure Adds (L L' : List (Key d)) (P : Key d → Prop) : Prop where
  nodup : L.Nodup → L'.Nodup
  pre : L <+: L'
  mem : ∀ k, k ∈ L' ↔ k ∈ L ∨ P k

theorem adds_insert (L : List (Key d)) (k : Key d) : Adds L (insert L k) (· = k) := ⟨nodup_insert, prefix_insert L k, fun _ => mem_insert⟩

theorem adds_foldl {α : Type} (f : List (Key d) → α → List (Key d)) (P : α → Key d → Prop) (h : ∀ L a, Adds L (f L a) (P a)) : ∀ (l : List α) (L : List (Key d)),
    Adds L (l.foldl f L) fun k => ∃ a ∈ l, P a k := by
  intro l
  induction l with
  | nil => intro L; exact ⟨id, List.prefix_refl _, fun k => by simp⟩
  | cons a l ih =>
    intro L
    have h1 := h L a
    have h2 := ih (f L a)
    refine ⟨fun hn => h2.nodup (h1.nodup hn), h1.pre.trans h2.pre, fun k => ?_⟩
    rw [List.foldl_cons, h2.mem, h1.mem]
    simp only [List.mem_cons, exists_eq_or_imp]
    tauto

theorem mem_ints {lo hi v : Int} : v ∈ ints lo hi ↔ lo ≤ v ∧ v < hi := by
  simp only [ints, List.mem_map, List.mem_range]
  constructor
  · rintro ⟨n, hn, rfl⟩; omega
  · intro h; exact ⟨(v - lo).toNat, by omega, by omega⟩

theorem query_some {L : List (Key d)} {k : Key d} {q : Nat} (h : query L k = some q) : q < L.length ∧ L[q]? = some k := by
  unfold query at h
  split_ifs at h with hk
  obtain rfl := Option.some.inj h
  exact ⟨List.idxOf_lt_length_iff.2 hk, List.getElem?_idxOf hk⟩

theorem query_mem {L : List (Key d)} {k : Key d} (h : k ∈ L) : query L k = some (L.idxOf k) := if_pos h

theorem count_eq {L : List (Key d)} {cell : Nat → Key d} {f : Bvtt.Front} (hn : f.numNodes = L.length) : ∀ (l : List Nat) (c : Nat → Nat),
    (∀ i ∈ l, query L (cell i) = f.node i) → count L cell l c = Bvtt.countNodes f l c := by
  intro l
  induction l with
  | nil => intro c _; rfl
  | cons i l ih =>
    intro c h
    rw [count, Bvtt.countNodes, ← h i (by simp)]
    cases hq : query L (cell i) with
    | none => rfl
    | some q =>
      have := (query_some hq).1
      simp only [Option.bind_some]
      rw [if_pos (by omega), if_pos (by omega)]
      exact ih _ fun j hj => h j (by simp [hj])

theorem distribute_eq {L : List (Key d)} {cell : Nat → Key d} {f : Bvtt.Front} (hn : f.numNodes = L.length) (off : Nat → Nat) : ∀ (l : List Nat) (c : Nat → Nat) (ix ns : List Nat), ix.length = ns.length →
    (∀ i ∈ l, query L (cell i) = f.node i ∧ f.prim i = some i) → distribute L cell off l c ix = (Bvtt.scatter f off l c ix ns).map Prod.fst := by
  intro l
  induction l with
  | nil => intro c ix ns _ _; rfl
  | cons i l ih =>
    intro c ix ns hl h
    obtain ⟨h1, h2⟩ := h i (by simp)
    rw [distribute, Bvtt.scatter, ← h1, h2]
    cases hq : query L (cell i) with
    | none => rfl
    | some q =>
      have := (query_some hq).1
      simp only [Option.bind_some]
      rw [if_pos (show q < L.length + 1 by omega), if_pos (show q < f.numNodes by omega)]
      by_cases hd : off q + c q < ix.length
      · rw [if_pos hd, if_pos ⟨hd, by omega⟩]
        exact ih _ _ _ (by simpa using hl) fun j hj => h j (by simp [hj])
      · rw [if_neg hd, if_neg fun h => hd h.1]
        rfl

/-- The cells as a front. -/
def toFront (n : Nat) (L : List (Key d)) (cell : Nat → Key d) : Bvtt.Front := ⟨List.range n, (List.range n).map fun i => L.idxOf (cell i), n, L.length + 1, n⟩

theorem toFront_entry {n : Nat} {L : List (Key d)} {cell : Nat → Key d} {i : Nat} (hi : i < n) : (toFront n L cell).entry i = (i, L.idxOf (cell i)) := by
  simp only [Bvtt.Front.entry, toFront]
  rw [List.getD_eq_getElem _ _ (by simpa using hi), List.getD_eq_getElem _ _ (by simpa using hi)]
  simp

theorem blockId_spec {blockLen : Int} (hb : 0 < blockLen) (c : Key d) : InBlock blockLen c (blockId blockLen c) := by
  intro a
  have key : Int.tdiv (c a + (if c a < 0 then -blockLen + 1 else 0)) blockLen = c a / blockLen := by
    split_ifs with h
    · have h1 : c a + (-blockLen + 1) = -(-(c a) + blockLen - 1) := by ring
      rw [h1, Int.neg_tdiv, Int.tdiv_eq_ediv_of_nonneg (by omega)]
      have h2 := Int.mul_ediv_add_emod (c a) blockLen
      have h3 := Int.emod_nonneg (c a) hb.ne'
      have h4 := Int.emod_lt_of_pos (c a) hb
      have h5 : (-(c a) + blockLen - 1) / blockLen = -(c a / blockLen) := by
        refine (Int.ediv_eq_iff_of_pos hb).2 ⟨?_, ?_⟩ <;> nlinarith
      rw [h5, neg_neg]
    · rw [add_zero, Int.tdiv_eq_ediv_of_nonneg (by omega)]
  have h2 := Int.mul_ediv_add_emod (c a) blockLen
  have h3 := Int.emod_nonneg (c a) hb.ne'
  have h4 := Int.emod_lt_of_pos (c a) hb
  simp only [blockId, key]
  constructor <;> nlinarith

theorem inBlock_unique {blockLen : Int} (hb : 0 < blockLen) {c k k' : Key d} (h : InBlock blockLen c k) (h' : InBlock blockLen c k') : k = k' := by
  funext a
  obtain ⟨a1, a2⟩ := h a
  obtain ⟨b1, b2⟩ := h' a
  rcases lt_trichotomy (k a) (k' a) with l | l | l
  · have : (k a + 1) * blockLen ≤ k' a * blockLen := by nlinarith
    omega
  · exact l
  · have : (k' a + 1) * blockLen ≤ k a * blockLen := by nlinarith
    omega

theorem blockId_one (c : Key d) : blockId 1 c = c := inBlock_unique one_pos (blockId_spec one_pos c) fun a => by omega

theorem inCell_iff {dx disp : K} {x : Fin d → K} {k : Key d} : InCell dx disp x k ↔ coord dx disp 0 x = k := by
  constructor
  · intro h
    funext a
    simp only [coord, add_zero]
    refine Int.floor_eq_iff.2 ?_
    have := h a
    rw [div_eq_mul_one_div] at this
    exact this
  · rintro rfl a
    have h1 := Int.floor_le (x a * (1 / dx) + disp)
    have h2 := Int.lt_floor_add_one (x a * (1 / dx) + disp)
    simp only [coord, add_zero]
    rw [div_eq_mul_one_div (x a) dx]
    exact ⟨h1, h2⟩

theorem mem_around {o : Key 3} : o ∈ around ↔ ∀ a, 0 ≤ o a ∧ o a ≤ 2 := by
  simp only [around, List.mem_flatMap, List.mem_map, mem_ints]
  constructor
  · rintro ⟨a, ha, b, hb, c, hc, rfl⟩ i
    fin_cases i <;> simp <;> omega
  · intro h
    have h0 := h 0
    have h1 := h 1
    have h2 := h 2
    refine ⟨o 0, by omega, o 1, by omega, o 2, by omega, ?_⟩
    funext i
    fin_cases i <;> rfl

theorem nodup_around : around.Nodup := by decide

end Verif.Buckets
