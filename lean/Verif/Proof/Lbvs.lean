import Verif.Spec.Lbvs
import Verif.Props.MergeSort
import Verif.Props.Volumes
import Mathlib.Data.List.GetD

/-! Maps that can fail, sorted pairs, the binary search and the scan. -/
namespace Verif.Lbvs
open Verif.Shapes Verif.Volumes

/-! ### The sort -/

theorem mem_range_map_perm {α : Type} {m : ℕ} {f g : ℕ → α} {pos : ℕ → ℕ} (h1 : ∀ i, i < m → pos i < m) (h2 : ∀ k, k < m → ∃ i, i < m ∧ pos i = k)
    (hinj : ∀ i j, i < m → j < m → pos i = pos j → i = j) (h3 : ∀ i, i < m → g (pos i) = f i) : ((List.range m).map g).Perm ((List.range m).map f) := by
  have hp : ((List.range m).map pos).Perm (List.range m) := by
    refine (List.perm_ext_iff_of_nodup ?_ List.nodup_range).2 ?_
    · exact List.Nodup.map_on (fun i hi j hj h => hinj i j (List.mem_range.1 hi) (List.mem_range.1 hj) h) List.nodup_range
    · intro k
      simp only [List.mem_map, List.mem_range]
      constructor
      · rintro ⟨i, hi, rfl⟩; exact h1 i hi
      · intro hk; obtain ⟨i, hi, h⟩ := h2 k hk; exact ⟨i, hi, h⟩
  have hf : (List.range m).map f = ((List.range m).map pos).map g := by
    rw [List.map_map]
    exact List.map_congr_left fun i hi => (h3 i (List.mem_range.1 hi)).symm
  rw [hf]
  exact (hp.map g).symm

theorem seqSort_sorts' : Sorts seqSort := by
  intro l
  have hw : Sort.StrictWeak keyLess := by
    refine ⟨fun x => ?_, fun x y z => ?_, fun x y z => ?_⟩ <;> simp only [keyLess, decide_eq_true_eq, decide_eq_false_iff_not, lt_irrefl, not_false_iff]
    · exact lt_trans
    · intro h
      by_cases h' : x.1 < y.1
      · exact Or.inl h'
      · exact Or.inr (lt_of_le_of_lt (not_lt.1 h') h)
  obtain ⟨⟨pos, h1, h2, h3, h4⟩, -⟩ := MergeSort.merge_sort_pair_sequential hw l.length (pairMem l)
  have hm : ∀ i, MergeSort.at_ (pairMem l) false i = l.getD i default := fun i => rfl
  simp only [hm, keyLess, decide_eq_true_eq] at h3 h4
  have hl : l = (List.range l.length).map fun i => l.getD i default := by
    refine List.ext_getElem (by simp) fun i hi _ => ?_
    simp only [List.getElem_map, List.getElem_range]
    exact (List.getD_eq_getElem _ _ hi).symm
  constructor
  · rw [seqSort]
    conv_rhs => rw [hl]
    refine mem_range_map_perm h1 h2 (fun i j hi hj h => ?_) h3
    by_contra hne
    have a := (h4 i j hi hj).not.1 (by omega)
    have b := (h4 j i hj hi).not.1 (by omega)
    push Not at a b
    have ha := a.1
    have hb := b.1
    have := a.2 hb
    have := b.2 ha
    omega
  · rw [seqSort, List.pairwise_map]
    refine List.Pairwise.imp_of_mem ?_ List.pairwise_lt_range
    intro k k' hk hk' hlt
    obtain ⟨i, hi, rfl⟩ := h2 k (List.mem_range.1 hk)
    obtain ⟨j, hj, rfl⟩ := h2 k' (List.mem_range.1 hk')
    have e1 := h3 i hi
    have e2 := h3 j hj
    rw [e1, e2]
    rcases (h4 i j hi hj).1 hlt with h | h
    · exact h.le
    · exact not_lt.1 h.1

/-! ### Maps that can fail -/

theorem mapM_iff {α β : Type} (f : α → Option β) : ∀ (l : List α) (r : List β), l.mapM f = some r ↔ r.map some = l.map f := by
  intro l
  induction l with
  | nil => intro r; cases r <;> simp [pure]
  | cons a l ih =>
    intro r
    rw [List.mapM_cons]
    cases hfa : f a with
    | none =>
      simp only [Option.bind_eq_bind, Option.bind_none, reduceCtorEq, List.map_cons, hfa, false_iff]
      cases r <;> simp
    | some b =>
      simp only [Option.bind_eq_bind, Option.bind_some, List.map_cons, hfa]
      constructor
      · intro h
        cases hm : l.mapM f with
        | none => simp [hm] at h
        | some r' =>
          simp only [hm, Option.bind_some, Option.pure_def, Option.some.injEq] at h
          subst h
          simp [(ih r').1 hm]
      · intro h
        cases r with
        | nil => simp at h
        | cons c r' =>
          simp only [List.map_cons, List.cons.injEq, Option.some.injEq] at h
          rw [(ih r').2 h.2, h.1]
          rfl

theorem mapM_exists {α β : Type} {f : α → Option β} {l : List α} (h : ∀ x ∈ l, ∃ y, f x = some y) : ∃ r, l.mapM f = some r := by
  induction l with
  | nil => exact ⟨[], rfl⟩
  | cons a l ih =>
    obtain ⟨b, hb⟩ := h a (by simp)
    obtain ⟨r, hr⟩ := ih fun x hx => h x (by simp [hx])
    exact ⟨b :: r, by rw [List.mapM_cons, hb, hr]; rfl⟩

variable {n : ℕ}

theorem holds_of_sorted {sorter : List (ℝ × ℕ) → List (ℝ × ℕ)} (hs : Sorts sorter) {prims : List (Cuboid (n + 1))} {ax : Fin (n + 1)} {pairs : List (ℝ × ℕ)}
    (hk : ∀ p ∈ pairs, ∃ b, prims[p.2]? = some b ∧ b.min ax = p.1) (hp : (pairs.map Prod.snd).Perm (List.range prims.length)) :
    ∃ bvs, gather prims ((sorter pairs).map Prod.snd) = some bvs ∧ Holds ⟨bvs, ax, (sorter pairs).map Prod.fst, (sorter pairs).map Prod.snd⟩ prims := by
  obtain ⟨h1, h2⟩ := hs pairs
  have hk' : ∀ p ∈ sorter pairs, ∃ b, prims[p.2]? = some b ∧ b.min ax = p.1 := fun p hp => hk p (h1.mem_iff.1 hp)
  obtain ⟨bvs, hb⟩ := mapM_exists (f := fun src => prims[src]?) (l := (sorter pairs).map Prod.snd) (by
    intro x hx
    obtain ⟨p, hp, rfl⟩ := List.mem_map.1 hx
    obtain ⟨b, h, -⟩ := hk' p hp
    exact ⟨b, h⟩)
  have hb' := (mapM_iff _ _ _).1 hb
  have hkeys : (sorter pairs).map Prod.fst = bvs.map fun b => b.min ax := by
    have : ((sorter pairs).map Prod.fst).map some = (bvs.map fun b => b.min ax).map some := by
      have e : (bvs.map fun b => b.min ax).map some = (bvs.map some).map (Option.map fun b => b.min ax) := by simp
      rw [e, hb']
      simp only [List.map_map]
      refine List.map_congr_left fun p hp => ?_
      obtain ⟨b, h, h'⟩ := hk' p hp
      simp [h, h']
    exact List.map_injective_iff.2 (Option.some_injective _) this
  refine ⟨bvs, hb, ⟨(h1.map _).trans hp, hb', hkeys, ?_⟩⟩
  have h3 : ((sorter pairs).map Prod.fst).Pairwise (· ≤ ·) := List.pairwise_map.2 h2
  rw [hkeys] at h3
  exact List.pairwise_map.1 h3

theorem Holds.length {l : LBvs n} {prims : List (Cuboid (n + 1))} (h : Holds l prims) : l.auxIndices.length = prims.length ∧ l.bvs.length = prims.length := by
  have h1 := h.perm.length_eq
  have h2 := congrArg List.length h.boxes
  simp only [List.length_map, List.length_range] at h1 h2
  exact ⟨h1, h2.trans h1⟩

theorem Holds.getBox {l : LBvs n} {prims : List (Cuboid (n + 1))} (h : Holds l prims) {k p : ℕ} (hk : l.auxIndices[k]? = some p) : l.bvs[k]? = prims[p]? := by
  have := congrArg (fun x : List (Option (Cuboid (n + 1))) => x[k]?) h.boxes
  simp only [List.getElem?_map, hk, Option.map_some] at this
  cases hb : l.bvs[k]? with
  | none => simp [hb] at this
  | some b => simpa [hb] using this

theorem Holds.nodup {l : LBvs n} {prims : List (Cuboid (n + 1))} (h : Holds l prims) : l.auxIndices.Nodup := h.perm.nodup_iff.2 List.nodup_range

/-! ### The longest axis -/

theorem foldl_min (l : List ℝ) (b : ℝ) : l.foldl min b ≤ b ∧ (∀ x ∈ l, l.foldl min b ≤ x) ∧ (l.foldl min b = b ∨ l.foldl min b ∈ l) := by
  induction l generalizing b with
  | nil => simp
  | cons a l ih =>
    obtain ⟨h1, h2, h3⟩ := ih (min b a)
    simp only [List.foldl_cons, List.mem_cons]
    refine ⟨h1.trans (min_le_left _ _), ?_, ?_⟩
    · rintro x (rfl | hx)
      · exact h1.trans (min_le_right _ _)
      · exact h2 x hx
    · rcases h3 with h3 | h3
      · rcases min_choice b a with h | h
        · left; rw [h3, h]
        · right; left; rw [h3, h]
      · right; right; exact h3

theorem foldl_max (l : List ℝ) (b : ℝ) : b ≤ l.foldl max b ∧ (∀ x ∈ l, x ≤ l.foldl max b) ∧ (l.foldl max b = b ∨ l.foldl max b ∈ l) := by
  induction l generalizing b with
  | nil => simp
  | cons a l ih =>
    obtain ⟨h1, h2, h3⟩ := ih (max b a)
    simp only [List.foldl_cons, List.mem_cons]
    refine ⟨(le_max_left _ _).trans h1, ?_, ?_⟩
    · rintro x (rfl | hx)
      · exact (le_max_right _ _).trans h1
      · exact h2 x hx
    · rcases h3 with h3 | h3
      · rcases max_choice b a with h | h
        · left; rw [h3, h]
        · right; left; rw [h3, h]
      · right; right; exact h3

theorem Extent.unique {prims : List (Cuboid (n + 1))} {d : Fin (n + 1)} {e e' : ℝ} (h : Extent prims d e) (h' : Extent prims d e') : e = e' := by
  obtain ⟨a, ha, b, hb, r⟩ := h.2
  obtain ⟨a', ha', b', hb', r'⟩ := h'.2
  refine le_antisymm ?_ ?_
  · rw [← r]; exact h'.1 a ha b hb
  · rw [← r']; exact h.1 a' ha' b' hb'

theorem extent_getBox {big : ℝ} {prims : List (Cuboid (n + 1))} (hne : prims ≠ []) (hbig : ∀ b ∈ prims, ∀ d, b.min d ≤ big ∧ -big ≤ b.max d) (d : Fin (n + 1)) :
    Extent prims d ((Lbvs.getBox big prims).max d - (Lbvs.getBox big prims).min d) := by
  simp only [Lbvs.getBox]
  obtain ⟨-, a2, a3⟩ := foldl_min (prims.map fun b => b.min d) big
  obtain ⟨-, c2, c3⟩ := foldl_max (prims.map fun b => b.max d) (-big)
  obtain ⟨b0, hb0⟩ := List.exists_mem_of_ne_nil _ hne
  constructor
  · intro a ha b hb
    have h1 := a2 _ (List.mem_map_of_mem (f := fun b : Cuboid (n + 1) => b.min d) ha)
    have h2 := c2 _ (List.mem_map_of_mem (f := fun b : Cuboid (n + 1) => b.max d) hb)
    linarith
  · have e1 : ∃ a ∈ prims, a.min d = (prims.map fun b => b.min d).foldl min big := by
      rcases a3 with h | h
      · refine ⟨b0, hb0, le_antisymm ?_ ?_⟩
        · rw [h]; exact (hbig b0 hb0 d).1
        · exact a2 _ (List.mem_map_of_mem (f := fun b : Cuboid (n + 1) => b.min d) hb0)
      · obtain ⟨a, ha, h⟩ := List.mem_map.1 h; exact ⟨a, ha, h⟩
    have e2 : ∃ a ∈ prims, a.max d = (prims.map fun b => b.max d).foldl max (-big) := by
      rcases c3 with h | h
      · refine ⟨b0, hb0, le_antisymm ?_ ?_⟩
        · exact c2 _ (List.mem_map_of_mem (f := fun b : Cuboid (n + 1) => b.max d) hb0)
        · rw [h]; exact (hbig b0 hb0 d).2
      · obtain ⟨a, ha, h⟩ := List.mem_map.1 h; exact ⟨a, ha, h⟩
    obtain ⟨a, ha, h1⟩ := e1
    obtain ⟨b, hb, h2⟩ := e2
    exact ⟨a, ha, b, hb, by rw [h1, h2]⟩

/-- A fold that keeps the first largest. -/
theorem fold_first {m : ℕ} (x : Fin (m + 1) → ℝ) : ∀ k ≤ m, ∀ l : List (Fin m), l.map Fin.val = List.range' 0 k →
    ∃ a : Fin (m + 1), l.foldl (fun (p : ℝ × Fin (m + 1)) d => if x d.succ > p.1 then (x d.succ, d.succ) else p) (x 0, 0) = (x a, a) ∧ a.val ≤ k ∧
      (∀ d : Fin (m + 1), d.val ≤ k → x d ≤ x a) ∧ ∀ d < a, x d < x a := by
  intro k
  induction k with
  | zero =>
    intro _ l hl
    have : l = [] := by simpa using hl
    subst this
    refine ⟨0, rfl, le_refl _, ?_, fun d hd => absurd hd (by simp)⟩
    intro d hd
    have : d = 0 := Fin.ext (by simpa using hd)
    rw [this]
  | succ k ih =>
    intro hk l hl
    have hsnoc : l ≠ [] := by rintro rfl; simp at hl
    obtain ⟨l', z, rfl⟩ := List.eq_nil_or_concat l |>.resolve_left hsnoc
    rw [List.range'_1_concat] at hl
    simp only [List.concat_eq_append, List.map_append, List.map_cons, List.map_nil, Nat.zero_add] at hl
    obtain ⟨h1, h2⟩ := List.append_inj' hl (by simp)
    simp only [List.cons.injEq, and_true] at h2
    obtain ⟨a, e, ha, hmax, hfirst⟩ := ih (by omega) l' h1
    simp only [List.concat_eq_append, List.foldl_append, List.foldl_cons, List.foldl_nil]
    rw [e]
    have hz : z.succ.val = k + 1 := by simp [h2]
    by_cases hgt : x z.succ > x a
    · rw [if_pos hgt]
      refine ⟨z.succ, rfl, by omega, ?_, ?_⟩
      · intro d hd
        by_cases hdk : d.val ≤ k
        · exact (hmax d hdk).trans hgt.le
        · have : d = z.succ := Fin.ext (by omega)
          rw [this]
      · intro d hd
        have : d.val ≤ k := by have := Fin.lt_def.1 hd; omega
        exact lt_of_le_of_lt (hmax d this) hgt
    · rw [if_neg hgt]
      refine ⟨a, rfl, by omega, ?_, hfirst⟩
      intro d hd
      by_cases hdk : d.val ≤ k
      · exact hmax d hdk
      · have : d = z.succ := Fin.ext (by omega)
        rw [this]; exact not_lt.1 hgt

theorem longest_spec (g : Cuboid (n + 1)) : (∀ d, g.max d - g.min d ≤ g.max (longest g) - g.min (longest g)) ∧
    ∀ d < longest g, g.max d - g.min d < g.max (longest g) - g.min (longest g) := by
  obtain ⟨a, e, -, hmax, hfirst⟩ := fold_first (fun d => g.max d - g.min d) n (le_refl _) (List.finRange n) (by
    rw [← List.range_eq_range', List.map_coe_finRange_eq_range])
  have : longest g = a := by rw [longest]; exact congrArg Prod.snd e
  rw [this]
  exact ⟨fun d => hmax d (by omega), hfirst⟩

/-! ### The search -/

theorem key_of {l : LBvs n} {i : ℤ} (h0 : 0 ≤ i) (h1 : i < l.bvs.length) : ∃ b, l.bvs[i.toNat]? = some b ∧ l.key i = some (b.min l.axis) := by
  have hi : i.toNat < l.bvs.length := by omega
  refine ⟨l.bvs[i.toNat], List.getElem?_eq_getElem hi, ?_⟩
  rw [LBvs.key, if_pos h0, List.getElem?_eq_getElem hi]
  rfl

theorem sorted_le {l : LBvs n} (hs : l.bvs.Pairwise fun a b => a.min l.axis ≤ b.min l.axis) {i j : ℕ} {a b : Cuboid (n + 1)} (hij : i ≤ j) (ha : l.bvs[i]? = some a) (hb : l.bvs[j]? = some b) :
    a.min l.axis ≤ b.min l.axis := by
  obtain ⟨hi, rfl⟩ := List.getElem?_eq_some_iff.1 ha
  obtain ⟨hj, rfl⟩ := List.getElem?_eq_some_iff.1 hb
  rcases Nat.lt_or_eq_of_le hij with h | h
  · exact List.pairwise_iff_getElem.1 hs i j hi hj h
  · subst h; exact le_refl _

theorem locateLoop_spec {l : LBvs n} (hs : l.bvs.Pairwise fun a b => a.min l.axis ≤ b.min l.axis) (v : ℝ) : ∀ (m : ℕ) (left right : ℤ), (right + 1 - left).toNat = m →
    0 ≤ left → right < l.bvs.length → left ≤ right + 1 → (∀ (i : ℕ) b, l.bvs[i]? = some b → (i : ℤ) < left → b.min l.axis ≤ v) →
      (∀ (i : ℕ) b, l.bvs[i]? = some b → right < (i : ℤ) → v < b.min l.axis) →
        ∃ r, locateLoop l v left right = some r ∧ -1 ≤ r ∧ r < l.bvs.length ∧ ∀ (i : ℕ) b, l.bvs[i]? = some b → (b.min l.axis ≤ v ↔ (i : ℤ) ≤ r) := by
  intro m
  induction m using Nat.strong_induction_on with
  | _ m ih =>
    intro left right hm h0 h1 hlr hlo hhi
    rw [locateLoop]
    by_cases h : left ≤ right
    · rw [dif_pos h]
      simp only
      generalize hmid : left + (right - left) / 2 = mid
      have a1 : left ≤ mid := by omega
      have a2 : mid ≤ right := by omega
      obtain ⟨b, hb, hk⟩ := key_of (l := l) (i := mid) (by omega) (by omega)
      rw [hk]
      simp only
      by_cases hgt : b.min l.axis > v
      · rw [if_pos hgt]
        refine ih _ ?_ left (mid - 1) rfl h0 (by omega) (by omega) hlo ?_
        · omega
        · intro i c hc hi
          exact lt_of_lt_of_le hgt (sorted_le hs (by omega) hb hc)
      · rw [if_neg hgt]
        refine ih _ ?_ (mid + 1) right rfl (by omega) h1 (by omega) ?_ hhi
        · omega
        · intro i c hc hi
          exact (sorted_le hs (by omega) hc hb).trans (not_lt.1 hgt)
    · rw [dif_neg h]
      refine ⟨right, rfl, by omega, h1, fun i b hb => ?_⟩
      constructor
      · intro hle
        by_contra hc
        exact absurd hle (not_le.2 (hhi i b hb (by omega)))
      · intro hi
        exact hlo i b hb (by omega)

theorem locate_spec {l : LBvs n} (hs : l.bvs.Pairwise fun a b => a.min l.axis ≤ b.min l.axis) (v : ℝ) :
    ∃ r, locate l v = some r ∧ -1 ≤ r ∧ r < l.bvs.length ∧ ∀ (i : ℕ) b, l.bvs[i]? = some b → (b.min l.axis ≤ v ↔ (i : ℤ) ≤ r) := by
  refine locateLoop_spec hs v _ 0 _ rfl (le_refl _) (by omega) (by omega) (fun i b _ h => by omega) (fun i b hb h => ?_)
  obtain ⟨hi, -⟩ := List.getElem?_eq_some_iff.1 hb
  omega

/-! ### The scan -/

theorem visit_spec {l : LBvs n} (hlen : l.auxIndices.length = l.bvs.length) (bv : Cuboid (n + 1)) {ed : ℤ} (hed : ed < l.bvs.length) : ∀ (m : ℕ) (i : ℕ), (ed + 1 - i).toNat = m →
    ∃ calls, visit l bv i ed = some calls ∧ calls.Sublist (l.auxIndices.drop i) ∧
      ∀ p, p ∈ calls ↔ ∃ k : ℕ, i ≤ k ∧ (k : ℤ) ≤ ed ∧ l.auxIndices[k]? = some p ∧ ∃ node, l.bvs[k]? = some node ∧ overlapsBB node bv = true := by
  intro m
  induction m with
  | zero =>
    intro i hi
    rw [visit, dif_neg (by omega)]
    refine ⟨[], rfl, List.nil_sublist _, fun p => ?_⟩
    simp only [List.not_mem_nil, false_iff]
    rintro ⟨k, h1, h2, -⟩
    omega
  | succ m ih =>
    intro i hi
    have hle : (i : ℤ) ≤ ed := by omega
    have hib : i < l.bvs.length := by omega
    have hia : i < l.auxIndices.length := by omega
    obtain ⟨rest, hr, hsub, hmem⟩ := ih (i + 1) (by omega)
    push_cast at hr
    rw [visit, dif_pos hle, if_neg (by omega), Int.toNat_natCast, List.getElem?_eq_getElem hia, List.getElem?_eq_getElem hib]
    simp only [Option.bind_some, hr, Option.map_some, Option.some.injEq, exists_eq_left']
    have hdrop : l.auxIndices.drop i = l.auxIndices[i] :: l.auxIndices.drop (i + 1) := List.drop_eq_getElem_cons hia
    by_cases ho : overlapsBB l.bvs[i] bv = true
    · rw [if_pos ho, hdrop]
      refine ⟨hsub.cons_cons _, fun p => ?_⟩
      rw [List.mem_cons, hmem]
      constructor
      · rintro (rfl | ⟨k, h1, h2, h3⟩)
        · exact ⟨i, le_refl _, hle, List.getElem?_eq_getElem hia, _, List.getElem?_eq_getElem hib, ho⟩
        · exact ⟨k, by omega, h2, h3⟩
      · rintro ⟨k, h1, h2, h3, h4⟩
        rcases Nat.lt_or_eq_of_le h1 with h | h
        · exact Or.inr ⟨k, h, h2, h3, h4⟩
        · subst h
          rw [List.getElem?_eq_getElem hia] at h3
          exact Or.inl (Option.some.inj h3).symm
    · rw [if_neg ho, hdrop]
      refine ⟨hsub.trans (List.sublist_cons_self _ _), fun p => ?_⟩
      rw [hmem]
      constructor
      · rintro ⟨k, h1, h2, h3⟩
        exact ⟨k, by omega, h2, h3⟩
      · rintro ⟨k, h1, h2, h3, node, h4, h5⟩
        rcases Nat.lt_or_eq_of_le h1 with h | h
        · exact ⟨k, h, h2, h3, node, h4, h5⟩
        · subst h
          rw [List.getElem?_eq_getElem hib] at h4
          rw [← Option.some.inj h4] at h5
          exact absurd h5 ho

theorem touch_iff {a b : Cuboid n} (ha : Valid a) (hb : Valid b) : overlapsBB a b = true ↔ Touch a b := by
  rw [overlaps_boxes a b ha hb]; rfl

theorem touch_comm {a b : Cuboid n} : Touch a b ↔ Touch b a := ⟨fun ⟨x, h1, h2⟩ => ⟨x, h2, h1⟩, fun ⟨x, h1, h2⟩ => ⟨x, h2, h1⟩⟩

/-- The scan from a position finds the boxes from there on that overlap. -/
theorem scan_spec {l : LBvs n} {prims : List (Cuboid (n + 1))} (h : Holds l prims) (bv : Cuboid (n + 1)) (i : ℕ) :
    ∃ ed calls, locate l (bv.max l.axis) = some ed ∧ visit l bv i ed = some calls ∧ calls.Sublist (l.auxIndices.drop i) ∧
      ∀ p, p ∈ calls ↔ ∃ k, i ≤ k ∧ l.auxIndices[k]? = some p ∧ ∃ node, prims[p]? = some node ∧ overlapsBB node bv = true := by
  obtain ⟨r, h1, -, h3, h4⟩ := locate_spec h.sorted (bv.max l.axis)
  have hlen : l.auxIndices.length = l.bvs.length := h.length.1.trans h.length.2.symm
  obtain ⟨calls, c1, c2, c3⟩ := visit_spec hlen bv h3 _ i rfl
  refine ⟨r, calls, h1, c1, c2, fun p => ?_⟩
  rw [c3]
  constructor
  · rintro ⟨k, a, -, c, node, d, e⟩
    exact ⟨k, a, c, node, by rw [← h.getBox c, d], e⟩
  · rintro ⟨k, a, c, node, d, e⟩
    have d' : l.bvs[k]? = some node := by rw [h.getBox c, d]
    refine ⟨k, a, (h4 k node d').1 (((overlapsBB_iff node bv).1 e l.axis).2), c, node, d', e⟩

end Verif.Lbvs
