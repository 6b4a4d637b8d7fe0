import Verif.Spec.LevelSetDomain
import Verif.Proof.Buckets

/-! Marks, the list of the kept blocks, insertion. -/
namespace Verif.LevelSetDomain

open Buckets

variable {K : Type} [Field K] [LinearOrder K]

theorem markCell_iff {props : List Prop'} {background threshold : K} {v : Nat → K} : markCell props background threshold v = true ↔ Active props background threshold v := by
  simp only [markCell, List.any_eq_true, Active]
  refine exists_congr fun p => and_congr_right fun _ => ?_
  by_cases h1 : p.name = "mark"
  · have : p.name ≠ "sdf" := by rw [h1]; decide
    simp [h1]
  · by_cases h2 : p.name = "sdf"
    · simp [h2]
    · simp [h1, h2]

theorem marks_le (blockSize mark : Nat) (data : Nat → Nat → Nat → K) (b : Nat) : marks blockSize mark data b = 0 ∨ marks blockSize mark data b = 1 := by
  unfold marks; split_ifs <;> simp

theorem preserved_spec {m : Nat → Nat} (hm : ∀ b, m b = 0 ∨ m b = 1) {nbs : Nat} : ∀ (o done l : List Nat), (∀ b ∈ done ++ o, b < nbs) → l.length = Bvtt.offsets m nbs →
    (∀ b ∈ done, m b ≠ 0 → l[Bvtt.offsets m b]? = some b) →
    ∃ l', o.foldlM (fun l b => if m b ≠ 0 then (if Bvtt.offsets m b < l.length then some (l.set (Bvtt.offsets m b) b) else none) else some l) l = some l' ∧ l'.length = l.length ∧
      ∀ b ∈ done ++ o, m b ≠ 0 → l'[Bvtt.offsets m b]? = some b := by
  intro o
  induction o with
  | nil => intro done l _ _ h; exact ⟨l, rfl, rfl, by simpa using h⟩
  | cons b o ih =>
    intro done l hb hl h
    have hbn : b < nbs := hb b (by simp)
    by_cases hmb : m b ≠ 0
    · have h1 : m b = 1 := (hm b).resolve_left hmb
      have hlt : Bvtt.offsets m b < l.length := by have := Bvtt.offsets_le m hbn; omega
      obtain ⟨l', e, hl', h'⟩ := ih (done ++ [b]) (l.set (Bvtt.offsets m b) b) (by simpa using hb) (by simpa using hl) (by
        intro c hc hmc
        by_cases hcb : c = b
        · subst hcb; exact List.getElem?_set_self hlt
        · have hc' : c ∈ done := by simpa [hcb] using hc
          have hc1 : m c = 1 := (hm c).resolve_left hmc
          have hne : Bvtt.offsets m b ≠ Bvtt.offsets m c := by
            rcases Nat.lt_or_gt_of_ne hcb with hlt' | hgt
            · have := Bvtt.offsets_le m hlt'; omega
            · have := Bvtt.offsets_le m hgt; omega
          rw [List.getElem?_set_ne hne]
          exact h c hc' hmc)
      refine ⟨l', ?_, by simpa using hl', by simpa using h'⟩
      rw [List.foldlM_cons, if_pos hmb, if_pos hlt]
      exact e
    · obtain ⟨l', e, hl', h'⟩ := ih (done ++ [b]) l (by simpa using hb) hl (by
        intro c hc hmc
        rcases List.mem_append.1 hc with hc | hc
        · exact h c hc hmc
        · rw [List.mem_singleton.1 hc] at hmc; exact absurd hmc hmb)
      refine ⟨l', ?_, hl', by simpa using h'⟩
      rw [List.foldlM_cons, if_neg hmb]
      exact e

theorem preserved_eq {m : Nat → Nat} (hm : ∀ b, m b = 0 ∨ m b = 1) {nbs : Nat} (junk : Nat → Nat) {o : List Nat} (ho : o.Perm (List.range nbs)) :
    preserved m (Bvtt.offsets m nbs) junk o = some ((List.range nbs).filter fun b => m b ≠ 0) := by
  obtain ⟨l', e, hl, h⟩ := preserved_spec hm o [] ((List.range (Bvtt.offsets m nbs)).map junk) (by intro b hb; exact List.mem_range.1 (ho.mem_iff.1 (by simpa using hb))) (by simp) (by simp)
  rw [preserved, e]
  congr 1
  have hlen : (fun b => (if m b ≠ 0 then [b] else [] : List Nat).length) = m := by
    funext b
    rcases hm b with h | h <;> simp [h]
  have ht := Bvtt.take_flat (fun b => if m b ≠ 0 then [b] else []) l' nbs (by
    intro b hb j x hx
    rw [hlen]
    by_cases hmb : m b ≠ 0
    · rw [if_pos hmb] at hx
      obtain ⟨hj, hx⟩ := List.getElem?_eq_some_iff.1 hx
      have hj : j = 0 := by simpa using hj
      subst hj
      have hx : b = x := by simpa using hx
      subst hx
      exact h b (by simpa using ho.mem_iff.2 (List.mem_range.2 hb)) hmb
    · rw [if_neg hmb] at hx
      simp at hx)
  rw [hlen, List.take_of_length_le (by rw [hl]; simp)] at ht
  rw [ht]
  generalize List.range nbs = r
  clear ht h hl e ho
  induction r with
  | nil => rfl
  | cons b r ih =>
    rw [List.flatMap_cons, ih, List.filter_cons]
    by_cases hmb : m b ≠ 0
    · rw [if_pos hmb, if_pos (by simpa using hmb)]; rfl
    · rw [if_neg hmb, if_neg (by simpa using hmb)]; rfl

theorem refit_of {props : List Prop'} {blockSize mark : Nat} {background threshold : K} {ls : Ls K} {junk : Nat → Nat} {o1 o2 l : List Nat}
    (h : preserved (marks blockSize mark (markLevelSet props mark background threshold ls.data)) (Bvtt.offsets (marks blockSize mark (markLevelSet props mark background threshold ls.data)) ls.table.keys.length) junk o1 = some l) :
    refit props blockSize mark background threshold ls junk o1 o2 = some ⟨shrinkTable ls.table l o2, fun b =>
      if b < Bvtt.offsets (marks blockSize mark (markLevelSet props mark background threshold ls.data)) ls.table.keys.length then markLevelSet props mark background threshold ls.data (l.getD b 0)
      else markLevelSet props mark background threshold ls.data b⟩ := by
  unfold refit
  simp only [h, Option.map_some]

/-! ### The table of the kept blocks -/

theorem shrink_loop {t : Table} {blocknos : List Nat} {n : Nat} (hn : n ≤ t.keys.length)
    (hinj : ∀ i j, i < n → j < n → t.keys.getD (blocknos.getD i 0) 0 = t.keys.getD (blocknos.getD j 0) 0 → i = j) : ∀ (o done : List Nat) (r : Table × Nat), (done ++ o).Nodup → (∀ i ∈ done ++ o, i < n) →
    r.1.keys.length = t.keys.length → (∀ i ∈ done, r.1.keys[i]? = some (t.keys.getD (blocknos.getD i 0) 0)) →
    (∀ k i, r.1.find k = some i ↔ i ∈ done ∧ t.keys.getD (blocknos.getD i 0) 0 = k) → (0 ∈ done → r.2 = blocknos.length) →
    let r' := o.foldl (fun (r : Table × Nat) i =>
      let blockid := t.keys.getD (blocknos.getD i 0) 0
      (⟨r.1.keys.set i blockid, insertAt r.1.find blockid i⟩, if i = 0 then blocknos.length else r.2)) r
    r'.1.keys.length = t.keys.length ∧ (∀ i ∈ done ++ o, r'.1.keys[i]? = some (t.keys.getD (blocknos.getD i 0) 0)) ∧
      (∀ k i, r'.1.find k = some i ↔ i ∈ done ++ o ∧ t.keys.getD (blocknos.getD i 0) 0 = k) ∧ (0 ∈ done ++ o → r'.2 = blocknos.length) := by
  intro o
  induction o with
  | nil => intro done r _ _ h1 h2 h3 h4; simpa using ⟨h1, h2, h3, h4⟩
  | cons i o ih =>
    intro done r hnd hlt h1 h2 h3 h4
    have hi : i < n := hlt i (by simp)
    have hid : i ∉ done := by
      intro h
      exact (List.nodup_append.1 hnd).2.2 i h i (by simp) rfl
    have hnone : r.1.find (t.keys.getD (blocknos.getD i 0) 0) = none := by
      cases hf : r.1.find (t.keys.getD (blocknos.getD i 0) 0) with
      | none => rfl
      | some j =>
        obtain ⟨hj, e⟩ := (h3 _ _).1 hf
        exact absurd (hinj j i (hlt j (by simp [hj])) hi e ▸ hj) hid
    have := ih (done ++ [i]) (⟨r.1.keys.set i (t.keys.getD (blocknos.getD i 0) 0), insertAt r.1.find (t.keys.getD (blocknos.getD i 0) 0) i⟩, if i = 0 then blocknos.length else r.2)
      (by simpa using hnd) (by simpa using hlt) (by simpa using h1) (by
        intro j hj
        by_cases hji : j = i
        · subst hji; exact List.getElem?_set_self (by omega)
        · have hj' : j ∈ done := by simpa [hji] using hj
          show (r.1.keys.set i _)[j]? = _
          rw [List.getElem?_set_ne (Ne.symm hji)]
          exact h2 j hj') (by
        intro k j
        show insertAt r.1.find _ i k = some j ↔ _
        unfold insertAt
        by_cases hk : k = t.keys.getD (blocknos.getD i 0) 0
        · subst hk
          rw [if_pos ⟨rfl, by rw [hnone]; rfl⟩]
          constructor
          · intro e; obtain rfl := Option.some.inj e; exact ⟨by simp, rfl⟩
          · rintro ⟨hj, e⟩
            have hjn : j < n := hlt j (by simp only [List.mem_append, List.mem_singleton, List.mem_cons] at hj ⊢; tauto)
            rw [hinj j i hjn hi e]
        · rw [if_neg fun h => hk h.1, h3]
          constructor
          · rintro ⟨hj, e⟩; exact ⟨by simp [hj], e⟩
          · rintro ⟨hj, e⟩
            rcases List.mem_append.1 hj with hj | hj
            · exact ⟨hj, e⟩
            · rw [List.mem_singleton.1 hj] at e; exact absurd e.symm hk) (by
        intro h0
        show (if i = 0 then blocknos.length else r.2) = _
        split_ifs with hi0
        · rfl
        · exact h4 (by
            rcases List.mem_append.1 h0 with h | h
            · exact h
            · exact absurd (List.mem_singleton.1 h).symm hi0))
    simpa using this

theorem shrinkTable_spec {t : Table} (h : t.WF) {blocknos : List Nat} (hnd : blocknos.Nodup) (hb : ∀ b ∈ blocknos, b < t.keys.length) (hne : blocknos ≠ []) {o : List Nat}
    (ho : o.Perm (List.range blocknos.length)) : (shrinkTable t blocknos o).WF ∧ (shrinkTable t blocknos o).keys = blocknos.map fun b => t.keys.getD b 0 := by
  have hlen : blocknos.length ≤ t.keys.length := by
    have := (hnd.subperm (l₂ := List.range t.keys.length) fun b hb' => List.mem_range.2 (hb b hb')).length_le
    simpa using this
  have hget : ∀ i, i < blocknos.length → t.keys[blocknos.getD i 0]? = some (t.keys.getD (blocknos.getD i 0) 0) ∧ blocknos[i]? = some (blocknos.getD i 0) := by
    intro i hi
    have e : blocknos[i]? = some (blocknos.getD i 0) := by rw [List.getD_eq_getElem?_getD, List.getElem?_eq_getElem hi]; rfl
    have hlt := hb _ (List.mem_of_getElem? e)
    refine ⟨?_, e⟩
    rw [List.getD_eq_getElem?_getD (l := t.keys), List.getElem?_eq_getElem hlt]; rfl
  have hinj : ∀ i j, i < blocknos.length → j < blocknos.length → t.keys.getD (blocknos.getD i 0) 0 = t.keys.getD (blocknos.getD j 0) 0 → i = j := by
    intro i j hi hj e
    have e1 := (h.2 _ _).2 (hget i hi).1
    have e2 := (h.2 _ _).2 (hget j hj).1
    rw [e, e2] at e1
    have e3 := Option.some.inj e1
    have e4 := (hget i hi).2
    rw [← e3, ← (hget j hj).2] at e4
    exact (List.getElem?_inj hi hnd).1 e4
  have key := shrink_loop hlen hinj o [] (⟨t.keys, fun _ => none⟩, t.keys.length) (by simpa using ho.nodup_iff.2 List.nodup_range) (by intro i hi; exact List.mem_range.1 (ho.mem_iff.1 (by simpa using hi))) rfl (by simp)
    (by simp) (by simp)
  obtain ⟨k1, k2, k3, k4⟩ := key
  have hpos : 0 < blocknos.length := List.length_pos_iff.2 hne
  have hmem : ∀ i, i ∈ [] ++ o ↔ i < blocknos.length := by intro i; simpa using ho.mem_iff.trans List.mem_range
  have hk : (shrinkTable t blocknos o).keys = blocknos.map fun b => t.keys.getD b 0 := by
    refine List.ext_getElem? fun i => ?_
    unfold shrinkTable
    simp only
    rw [k4 ((hmem 0).2 hpos)]
    by_cases hi : i < blocknos.length
    · rw [List.getElem?_take_of_lt hi, k2 i ((hmem i).2 hi), List.getElem?_map, (hget i hi).2]; rfl
    · rw [List.getElem?_eq_none (by rw [List.length_take]; omega), List.getElem?_eq_none (by rw [List.length_map]; omega)]
  refine ⟨⟨?_, fun k i => ?_⟩, hk⟩
  · rw [hk]
    refine hnd.map_on fun a ha b hb' e => ?_
    obtain ⟨i, hi, rfl⟩ := List.getElem_of_mem ha
    obtain ⟨j, hj, rfl⟩ := List.getElem_of_mem hb'
    have hi' : blocknos.getD i 0 = blocknos[i] := by rw [List.getD_eq_getElem?_getD, List.getElem?_eq_getElem hi]; rfl
    have hj' : blocknos.getD j 0 = blocknos[j] := by rw [List.getD_eq_getElem?_getD, List.getElem?_eq_getElem hj]; rfl
    have := hinj i j hi hj (by rw [hi', hj']; exact e)
    subst this
    rfl
  · rw [hk]
    refine (k3 k i).trans ?_
    rw [hmem, List.getElem?_map]
    constructor
    · rintro ⟨hi, e⟩
      rw [(hget i hi).2]
      exact congrArg some e
    · intro e
      obtain ⟨b, hb1, hb2⟩ := Option.map_eq_some_iff.1 e
      have hi := (List.getElem?_eq_some_iff.1 hb1).1
      refine ⟨hi, ?_⟩
      rw [(hget i hi).2] at hb1
      rw [Option.some.inj hb1]
      exact hb2

/-! ### Insertion -/

theorem insertKey_spec {t : Table} (h : t.WF) (k : Key 3) : (insertKey t k).WF ∧ (insertKey t k).keys = Buckets.insert t.keys k := by
  have hmem : (t.find k).isSome ↔ k ∈ t.keys := by
    constructor
    · intro hs
      obtain ⟨i, hi⟩ := Option.isSome_iff_exists.1 hs
      exact List.mem_of_getElem? ((h.2 k i).1 hi)
    · intro hk
      rw [(h.2 k _).2 (List.getElem?_idxOf hk)]
      rfl
  unfold insertKey Buckets.insert
  by_cases hk : k ∈ t.keys
  · rw [if_pos (hmem.2 hk), if_pos hk]
    exact ⟨h, rfl⟩
  · rw [if_neg fun hs => hk (hmem.1 hs), if_neg hk]
    refine ⟨⟨?_, fun k' i => ?_⟩, rfl⟩
    · have := nodup_insert (k := k) h.1
      rwa [Buckets.insert, if_neg hk] at this
    · show (if k' = k then some t.keys.length else t.find k') = some i ↔ (t.keys ++ [k])[i]? = some k'
      rcases Nat.lt_trichotomy i t.keys.length with hi | hi | hi
      · rw [List.getElem?_append_left hi]
        by_cases hkk : k' = k
        · subst hkk
          rw [if_pos rfl]
          constructor
          · intro e; have := Option.some.inj e; omega
          · intro e; exact absurd (List.mem_of_getElem? e) hk
        · rw [if_neg hkk]; exact h.2 k' i
      · subst hi
        rw [List.getElem?_append_right (le_refl _), Nat.sub_self]
        by_cases hkk : k' = k
        · subst hkk; simp
        · rw [if_neg hkk]
          constructor
          · intro e
            have := (List.getElem?_eq_some_iff.1 ((h.2 k' _).1 e)).1
            omega
          · intro e
            have : k = k' := by simpa using e
            exact absurd this.symm hkk
      · rw [List.getElem?_eq_none (by simp; omega)]
        constructor
        · intro e
          split_ifs at e
          · have := Option.some.inj e; omega
          · have := (List.getElem?_eq_some_iff.1 ((h.2 k' _).1 e)).1
            omega
        · intro e; cases e

/-- What a loop of insertions does to the table. -/
theorem insertAll_spec {α : Type} (f : α → Key 3) : ∀ (l : List α) (t : Table), t.WF → (l.foldl (fun t a => insertKey t (f a)) t).WF ∧
    (l.foldl (fun t a => insertKey t (f a)) t).keys = l.foldl (fun L a => Buckets.insert L (f a)) t.keys := by
  intro l
  induction l with
  | nil => intro t h; exact ⟨h, rfl⟩
  | cons a l ih =>
    intro t h
    obtain ⟨h1, h2⟩ := insertKey_spec h (f a)
    obtain ⟨h3, h4⟩ := ih _ h1
    refine ⟨h3, ?_⟩
    rw [List.foldl_cons, List.foldl_cons, h4, h2]

/-- Neighbours of a key, with itself. -/
def Near (side : Int) (k k' : Key 3) : Prop := ∃ e : Key 3, (∀ a, -1 ≤ e a ∧ e a ≤ 1) ∧ k' = k + fun a => e a * side

theorem spawn_spec (side : Int) (base : Nat) {t : Table} (h : t.WF) (o : List Nat) : (spawn side base t o).WF ∧ Adds t.keys (spawn side base t o).keys fun k => ∃ b ∈ o, Near side (t.keys.getD (b + base) 0) k := by
  have key : ∀ (o : List Nat) (t' : Table), t'.WF → (o.foldl (fun t' b => around.foldl (fun t' loc => insertKey t' (t.keys.getD (b + base) 0 + fun a => (loc a - 1) * side)) t') t').WF ∧
      Adds t'.keys (o.foldl (fun t' b => around.foldl (fun t' loc => insertKey t' (t.keys.getD (b + base) 0 + fun a => (loc a - 1) * side)) t') t').keys
        fun k => ∃ b ∈ o, Near side (t.keys.getD (b + base) 0) k := by
    intro o
    induction o with
    | nil => intro t' h; exact ⟨h, id, List.prefix_refl _, fun k => by simp⟩
    | cons b o ih =>
      intro t' h'
      obtain ⟨h1, h2⟩ := insertAll_spec (fun loc : Key 3 => t.keys.getD (b + base) 0 + fun a => (loc a - 1) * side) around t' h'
      have h3 := adds_foldl (fun L (loc : Key 3) => Buckets.insert L (t.keys.getD (b + base) 0 + fun a => (loc a - 1) * side)) (fun loc k => k = t.keys.getD (b + base) 0 + fun a => (loc a - 1) * side)
        (fun L loc => adds_insert L _) around t'.keys
      rw [← h2] at h3
      obtain ⟨h4, h5⟩ := ih _ h1
      refine ⟨h4, fun hn => h5.nodup (h3.nodup hn), h3.pre.trans h5.pre, fun k => ?_⟩
      rw [List.foldl_cons, h5.mem, h3.mem]
      have hnear : (∃ a ∈ around, k = t.keys.getD (b + base) 0 + fun i => (a i - 1) * side) ↔ Near side (t.keys.getD (b + base) 0) k := by
        constructor
        · rintro ⟨a, ha, rfl⟩
          rw [mem_around] at ha
          exact ⟨fun i => a i - 1, fun i => by have := ha i; show -1 ≤ a i - 1 ∧ a i - 1 ≤ 1; omega, rfl⟩
        · rintro ⟨e, he, rfl⟩
          refine ⟨fun i => e i + 1, mem_around.2 fun i => by have := he i; constructor <;> omega, ?_⟩
          congr 1
          funext i
          ring
      rw [hnear]
      simp only [List.mem_cons, exists_eq_or_imp]
      tauto
  exact key o t h

/-- Keys at most that many blocks away. -/
def Ball (side : Int) (n : Nat) (k k' : Key 3) : Prop := ∃ e : Key 3, (∀ a, -(n : Int) ≤ e a ∧ e a ≤ n) ∧ k' = k + fun a => e a * side

theorem ball_succ {side : Int} {n : Nat} {k k' : Key 3} : Ball side (n + 1) k k' ↔ ∃ k1, Near side k k1 ∧ Ball side n k1 k' := by
  constructor
  · rintro ⟨e, he, rfl⟩
    have h1 : ∀ a, ∃ u : Int, (-1 ≤ u ∧ u ≤ 1) ∧ -(n : Int) ≤ e a - u ∧ e a - u ≤ n := by
      intro a
      have := he a
      push_cast at this
      rcases lt_trichotomy (e a) 0 with h | h | h
      · exact ⟨-1, by omega, by omega, by omega⟩
      · exact ⟨0, by omega, by omega, by omega⟩
      · exact ⟨1, by omega, by omega, by omega⟩
    choose u hu using h1
    refine ⟨k + fun a => u a * side, ⟨u, fun a => (hu a).1, rfl⟩, ⟨fun a => e a - u a, fun a => (hu a).2, ?_⟩⟩
    funext a
    simp only [Pi.add_apply]
    ring
  · rintro ⟨k1, ⟨u, hu, rfl⟩, ⟨e, he, rfl⟩⟩
    refine ⟨fun a => u a + e a, fun a => ?_, ?_⟩
    · have := hu a
      have := he a
      push_cast
      omega
    · funext a
      simp only [Pi.add_apply]
      ring

end Verif.LevelSetDomain
