import Verif.Proof.Bvtt
import Mathlib.Data.List.Nodup

/-! C96: fronts of a traversal. -/
namespace Verif.Bvtt

/-- After `reorder` the pairs are in the order of their nodes, and those of one node in the order in which the iterations ran. -/
theorem reorder_exact {f : Front} (h : WF f) (hf : Full f) (junk : Nat → Nat) {o1 o2 : List Nat} (h1 : o1.Perm (List.range f.cnt)) (h2 : o2.Perm (List.range f.cnt)) :
    ∃ f', reorder f junk o1 o2 = some f' ∧ WF f' ∧ f'.cnt = f.cnt ∧ f'.prims.length = f.prims.length ∧ f'.numNodes = f.numNodes ∧
      f'.entries = (List.range f.numNodes).flatMap fun k => (o2.filter fun i => (f.entry i).2 == k).map f.entry := by
  have hall : ∀ {o : List Nat}, o.Perm (List.range f.cnt) → ∀ i ∈ o, i < f.prims.length ∧ (f.entry i).2 < f.numNodes := by
    intro o ho i hi
    have hi := ho.mem_iff.1 hi
    exact ⟨lt_of_lt_of_le (List.mem_range.1 hi) hf.1, hf.2 _ (List.mem_map_of_mem hi)⟩
  have hlen : o2.length = f.cnt := by rw [h2.length_eq, List.length_range]
  have hc : countNodes f o1 (fun _ => 0) = some (num f o2) := by
    rw [countNodes_eq h o1 _ (hall h1)]
    congr 1
    funext k
    rw [Nat.zero_add, num, num]
    exact ((h1.trans h2.symm).filter _).length_eq
  obtain ⟨ps, ns, e, l1, l2, hp⟩ := scatter_spec h (hall h2) (by rw [hlen]; exact hf.1) o2 [] (copyCells f.prims f.size junk) (copyCells f.nodes f.size junk) rfl
    (copyCells_length _ _ _) (by rw [copyCells_length, h.1]) ⟨fun k j i hi => by simp at hi⟩
  refine ⟨{ f with prims := ps, nodes := ns }, ?_, ⟨by simp [l1, l2], by simpa [l1] using h.2⟩, rfl, l1, rfl, ?_⟩
  · rw [reorder, hc]
    simp only [Option.bind_some]
    have : num f [] = fun _ => 0 := by funext k; simp [num]
    rw [this] at e
    rw [e]
    rfl
  · have ht := take_flat (fun k => (o2.filter fun i => (f.entry i).2 == k).map f.entry) ((List.range f.prims.length).map fun i => (ps.getD i 0, ns.getD i 0)) f.numNodes (by
      intro k _ j x hx
      rw [List.getElem?_map, Option.map_eq_some_iff] at hx
      obtain ⟨i, hi, rfl⟩ := hx
      obtain ⟨a1, a2⟩ := hp.at_ k j i hi
      have hk : (f.entry i).2 = k := by
        have := List.mem_of_getElem? hi
        simpa using (List.mem_filter.1 this).2
      have ho : offsets (fun k => ((o2.filter fun i => (f.entry i).2 == k).map f.entry).length) = offsets (num f o2) := by
        congr 1; funext k; rw [List.length_map, num]
      rw [ho]
      have hb : offsets (num f o2) k + j < f.prims.length := by
        rw [← l1]; exact (List.getElem?_eq_some_iff.1 a1).1
      rw [List.getElem?_map, List.getElem?_eq_getElem (by simpa using hb), List.getElem_range]
      simp only [Option.map_some, List.getD_eq_getElem?_getD, a1, a2, Option.getD_some]
      rw [← hk])
    have ho : offsets (fun k => ((o2.filter fun i => (f.entry i).2 == k).map f.entry).length) f.numNodes = f.cnt := by
      have : (fun k => ((o2.filter fun i => (f.entry i).2 == k).map f.entry).length) = num f o2 := by funext k; rw [List.length_map, num]
      rw [this, offsets_total f o2 _ fun i hi => (hall h2 i hi).2, hlen]
    rw [ho] at ht
    rw [← ht, ← List.map_take, List.take_range, Nat.min_eq_left hf.1]
    rfl

/-- So they are the same pairs, sorted by their nodes. -/
theorem reorder_sorted {f f' : Front} (h : WF f) (hf : Full f) {junk : Nat → Nat} {o1 o2 : List Nat} (h1 : o1.Perm (List.range f.cnt)) (h2 : o2.Perm (List.range f.cnt))
    (e : reorder f junk o1 o2 = some f') : f'.entries.Perm f.entries ∧ f'.entries.Pairwise (fun a b => a.2 ≤ b.2) ∧ Full f' := by
  obtain ⟨g, e', -, hc, hl, hn, he⟩ := reorder_exact h hf junk h1 h2
  rw [e] at e'
  obtain rfl := Option.some.inj e'
  have hperm : f'.entries.Perm f.entries := by
    rw [he, ← List.map_flatMap]
    refine List.Perm.trans ?_ (h2.map f.entry)
    refine List.Perm.map _ ?_
    have hlt : ∀ i ∈ o2, (f.entry i).2 < f.numNodes := fun i hi => hf.2 _ (List.mem_map_of_mem (h2.mem_iff.1 hi))
    refine (List.perm_ext_iff_of_nodup ?_ (h2.nodup_iff.2 List.nodup_range)).2 fun i => ?_
    · refine List.nodup_flatMap.2 ⟨fun k _ => (h2.nodup_iff.2 List.nodup_range).filter _, ?_⟩
      refine List.Pairwise.imp_of_mem ?_ List.nodup_range
      intro k k' _ _ hne
      simp only [Function.onFun, List.disjoint_left, List.mem_filter]
      rintro i ⟨_, a⟩ ⟨_, b⟩
      exact hne ((by simpa using a : (f.entry i).2 = k) ▸ (by simpa using b))
    · simp only [List.mem_flatMap, List.mem_range, List.mem_filter]
      constructor
      · rintro ⟨k, _, hi, _⟩; exact hi
      · intro hi; exact ⟨_, hlt i hi, hi, by simp⟩
  refine ⟨hperm, ?_, ⟨by rw [hc, hl]; exact hf.1, fun x hx => by rw [hn]; exact hf.2 x (hperm.mem_iff.1 hx)⟩⟩
  rw [he]
  refine List.pairwise_flatMap.2 ⟨fun k _ => ?_, ?_⟩
  · rw [List.pairwise_map]
    refine List.Pairwise.imp_of_mem (R := fun _ _ => True) ?_ (List.pairwise_of_forall fun _ _ => trivial)
    intro i j hi hj _
    have a := (List.mem_filter.1 hi).2
    have b := (List.mem_filter.1 hj).2
    simp only [beq_iff_eq] at a b
    rw [a, b]
  · refine List.Pairwise.imp ?_ (List.pairwise_lt_range (n := f.numNodes))
    intro k k' hk x hx y hy
    obtain ⟨i, hi, rfl⟩ := List.mem_map.1 hx
    obtain ⟨j, hj, rfl⟩ := List.mem_map.1 hy
    have a := (List.mem_filter.1 hi).2
    have b := (List.mem_filter.1 hj).2
    simp only [beq_iff_eq] at a b
    rw [a, b]
    exact hk.le

/-- With more pairs than room, `reorder` counts at the index that stands for nothing, outside of the array. -/
theorem reorder_overflow_violated {f : Front} (h : f.cap < f.cnt) (junk : Nat → Nat) {o1 : List Nat} (h1 : o1.Perm (List.range f.cnt)) (o2 : List Nat) : reorder f junk o1 o2 = none := by
  have key : ∀ (l : List Nat) (c : Nat → Nat), (∃ i ∈ l, f.cap ≤ i) → countNodes f l c = none := by
    intro l
    induction l with
    | nil => rintro c ⟨i, hi, _⟩; simp at hi
    | cons a l ih =>
      rintro c ⟨i, hi, hc⟩
      rw [countNodes]
      rcases List.mem_cons.1 hi with rfl | hi
      · rw [Front.node, if_neg (by omega)]; rfl
      · cases hn : f.node a with
        | none => rfl
        | some k =>
          simp only [Option.bind_some]
          split_ifs
          · exact ih _ ⟨i, hi, hc⟩
          · rfl
  rw [reorder, key o1 _ ⟨f.cap, h1.mem_iff.2 (List.mem_range.2 h), le_refl _⟩]
  rfl

/-- Pushing counts all calls and stores those for which there is room, after what was there. -/
theorem push_exact {f : Front} (h : WF f) (l : List (Nat × Nat)) : (pushAll f l).cnt = f.cnt + l.length ∧ WF (pushAll f l) ∧ (pushAll f l).prims.length = f.prims.length ∧
    (f.cnt ≤ f.prims.length → ((List.range (min f.prims.length (f.cnt + l.length))).map (pushAll f l).entry) = (f.entries ++ l).take f.prims.length) := by
  obtain ⟨a1, a2, a3, -, -, a6⟩ := pushAll_spec l f h
  refine ⟨a1, a3, a2, fun hc => ?_⟩
  refine List.ext_getElem? fun i => ?_
  have hlen : f.entries.length = f.cnt := by simp [Front.entries]
  by_cases hi : i < min f.prims.length (f.cnt + l.length)
  · rw [List.getElem?_take_of_lt (by omega), List.getElem?_map, List.getElem?_eq_getElem (by simpa using hi), List.getElem_range, Option.map_some, a6 i (by omega)]
    by_cases hic : i < f.cnt
    · rw [if_neg (by omega), List.getElem?_append_left (by omega), Front.entries, List.getElem?_map, List.getElem?_eq_getElem (by simpa using hic), List.getElem_range, Option.map_some]
    · rw [if_pos (by omega), List.getElem?_append_right (by omega), hlen, List.getElem?_eq_getElem (by omega), List.getD_eq_getElem _ _ (by omega)]
  · rw [List.getElem?_eq_none (by rw [List.length_map, List.length_range]; omega), List.getElem?_eq_none]
    simp only [List.length_take, List.length_append, hlen]
    omega

/-- The counter tells how much room a second attempt needs: after `reserve` and `setCounter(0)` all calls are stored. -/
theorem push_again {f : Front} (h : WF f) (l : List (Nat × Nat)) (junk : Nat → Nat) (l' : List (Nat × Nat)) (hl : l'.length ≤ f.cnt + l.length) :
    (pushAll (setCounter (reserve (pushAll f l) (pushAll f l).cnt junk) 0) l').entries = l' := by
  obtain ⟨a1, a2, a3, -, a5, -⟩ := pushAll_spec l f h
  generalize pushAll f l = g at *
  have hw : WF (setCounter (reserve g g.cnt junk) 0) ∧ f.cnt + l.length ≤ (setCounter (reserve g g.cnt junk) 0).prims.length := by
    simp only [setCounter, reserve]
    split_ifs with hs
    · have s1 := grow_spec g.prims (newSize := g.cnt) junk a3.2
      exact ⟨⟨grow_length _ _ _ _ _ a3.1, s1.1⟩, by simpa [a1] using s1.1⟩
    · exact ⟨a3, by have := a3.2; omega⟩
  obtain ⟨hw, hr⟩ := hw
  obtain ⟨b1, -, b3, b4⟩ := push_exact hw l'
  have hz : (setCounter (reserve g g.cnt junk) 0).cnt = 0 := rfl
  have := b4 (by omega)
  rw [hz, Nat.zero_add, Nat.min_eq_right (by omega)] at this
  rw [Front.entries, b1, hz, Nat.zero_add, this]
  simp only [Front.entries, hz, List.range_zero, List.map_nil, List.nil_append]
  exact List.take_of_length_le (by omega)

/-- `reserve` makes room and keeps the pairs up to the size of the vectors. -/
theorem reserve_partial {f : Front} (h : WF f) (newSize : Nat) (junk : Nat → Nat) : WF (reserve f newSize junk) ∧ newSize ≤ (reserve f newSize junk).prims.length ∧ (reserve f newSize junk).cnt = f.cnt ∧
    ∀ i < f.size, (reserve f newSize junk).entry i = f.entry i := by
  simp only [reserve]
  split_ifs with hs
  · have s1 := grow_spec f.prims (newSize := newSize) junk h.2
    have s2 := grow_spec f.nodes (newSize := newSize) junk (h.1 ▸ h.2)
    exact ⟨⟨grow_length _ _ _ _ _ h.1, s1.1⟩, s1.1, rfl, fun i hi => by simp only [Front.entry]; rw [s1.2.2 i hi, s2.2.2 i hi]⟩
  · exact ⟨h, by have := h.2; omega, rfl, fun _ _ => rfl⟩

/-- The view stores up to the capacity, of which `reserve` does not copy all: a stored pair is lost. -/
theorem reserve_violated : ∃ (f : Front) (junk : Nat → Nat), WF f ∧ Full f ∧ (reserve f 10 junk).entries ≠ f.entries := by
  refine ⟨pushAll (reserve (mk' 3 4 fun _ => 0) 5 fun _ => 0) [(1, 0), (2, 1), (3, 2), (4, 0), (5, 1), (6, 2)], fun _ => 0, ?_, ?_, ?_⟩
  · unfold WF; decide
  · unfold Full; decide
  · decide

/-- `assign` changes one pair, or nothing beyond the capacity. -/
theorem assign_exact {f : Front} (h : WF f) (no p n i : Nat) (hi : i < f.prims.length) : (assign f no p n).entry i = (if i = no then (p, n) else f.entry i) ∧
    (assignNode f no n).entry i = (if i = no then ((f.entry i).1, n) else f.entry i) := by
  have h1 := h.1
  by_cases hc : no < min f.prims.length f.nodes.length
  · rw [show assign f no p n = { f with prims := f.prims.set no p, nodes := f.nodes.set no n } from if_pos hc, show assignNode f no n = { f with nodes := f.nodes.set no n } from if_pos hc]
    simp only [Front.entry, List.getD_eq_getElem?_getD]
    by_cases hin : i = no
    · subst hin
      rw [List.getElem?_set_self (by omega), List.getElem?_set_self (by omega)]
      simp
    · rw [List.getElem?_set_ne (Ne.symm hin), List.getElem?_set_ne (Ne.symm hin), if_neg hin, if_neg hin]
      exact ⟨rfl, rfl⟩
  · rw [show assign f no p n = f from if_neg hc, show assignNode f no n = f from if_neg hc, if_neg (by omega), if_neg (by omega)]
    exact ⟨rfl, rfl⟩

/-- A new front has the given number of nodes, room for the estimated number of pairs, and no pairs. -/
theorem create_exact (numNodes estimated : Nat) (junk : Nat → Nat) :
    WF (mk' numNodes estimated junk) ∧ (mk' numNodes estimated junk).numNodes = numNodes ∧ (mk' numNodes estimated junk).cap = estimated ∧
      (mk' numNodes estimated junk).entries = [] := by
  simp [WF, mk', Front.numNodes, Front.cap, Front.entries]

/-- Reading a pair gives its primitive and node, and the largest number beyond the capacity. -/
theorem read_exact {f : Front} (h : WF f) (i : Nat) : f.prim i = (if i < f.prims.length then some (f.entry i).1 else none) ∧
    f.node i = (if i < f.prims.length then some (f.entry i).2 else none) := by
  by_cases hi : i < f.prims.length
  · rw [if_pos hi, if_pos hi]
    exact ⟨(node_eq h hi).2, (node_eq h hi).1⟩
  · have hc : ¬ i < f.cap := by have := h.1; simp only [Front.cap]; omega
    rw [if_neg hi, if_neg hi]
    exact ⟨if_neg hc, if_neg hc⟩

/-- Within the capacity, `reserve` keeps all pairs that are stored, and beyond it the capacity grows at least by half. -/
theorem reserve_capacity {f : Front} (h : WF f) (newSize : Nat) (junk : Nat → Nat) :
    (newSize ≤ f.prims.length → (reserve f newSize junk).prims = f.prims ∧ (reserve f newSize junk).nodes = f.nodes) ∧
      (f.prims.length < newSize → (reserve f newSize junk).cap = max newSize (f.prims.length + f.prims.length / 2)) := by
  have h1 := h.1
  have h2 := h.2
  refine ⟨fun hl => ?_, fun hl => ?_⟩
  · unfold reserve
    split
    · exact ⟨if_neg (Nat.not_lt.2 hl), if_neg (Nat.not_lt.2 (h1 ▸ hl))⟩
    · exact ⟨rfl, rfl⟩
  · have hs : newSize > f.size := by omega
    rw [reserve, if_pos hs]
    have key : ∀ cells : List Nat, cells.length = f.prims.length →
        (grow cells f.size newSize junk).length = max newSize (f.prims.length + f.prims.length / 2) := fun cells hc => by
      rw [grow, if_pos (by omega), List.length_map, List.length_range, hc]
      split <;> omega
    show min (grow f.prims f.size newSize junk).length (grow f.nodes f.size newSize junk).length = _
    rw [key _ rfl, key _ h1.symm, Nat.min_self]

/-- A front with pairs of all nodes, and another order of the iterations. -/
example : ∃ f : Front, WF f ∧ Full f ∧ f.entries = [(1, 2), (2, 0), (3, 2)] ∧ (reorder f (fun _ => 0) [0, 1, 2] [2, 0, 1]).map Front.entries = some [(2, 0), (3, 2), (1, 2)] := by
  refine ⟨pushAll (mk' 3 4 fun _ => 0) [(1, 2), (2, 0), (3, 2)], ?_, ?_, ?_, ?_⟩
  · unfold WF; decide
  · unfold Full; decide
  · decide
  · decide

end Verif.Bvtt
