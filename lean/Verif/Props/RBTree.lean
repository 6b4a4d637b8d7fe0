import Mathlib.Order.Nat
import Verif.Proof.RBTreeMap

/-!
Properties C40, C41 and C42: `RBTreeMap` is a finite map, stays balanced, and iterates in order.

`Reached s d` is the state after an arbitrary history of operations, `d` the abstract map that history
makes; an operation on a state gives `some (result, new state)`, or `none` if it is undefined behaviour
(or fails an `assert`, or does not end).
-/
namespace Verif.RBTree

section
variable {K V : Type} [LinearOrder K] [Inhabited K] [Inhabited V] {s : St K V} {d : K → Option V}

/-! ## C40: a finite map -/

/-- No history is undefined. -/
theorem rbtree_history (ops : List (Op K V)) (hl : ∀ op ∈ ops, op.Legal) :
    ∃ s, execAll ops construct = some ((), s) ∧ Reached s (applyAll (fun _ => none) ops) := by
  obtain ⟨u, s', e, m, h1, h2⟩ := execAll_ok ops construct_rep (d := fun _ => none) (by simp [Means]) hl
  exact ⟨s', e, ops, hl, e, rfl⟩

/-- A further operation is defined and has its effect on the abstract map. -/
theorem rbtree_step (h : Reached s d) (op : Op K V) (hl : op.Legal) :
    ∃ s', exec op s = some ((), s') ∧ Reached s' (op.apply d) := by
  obtain ⟨m, h1, h2⟩ := h.rep
  obtain ⟨ops, ho, he, rfl⟩ := h
  obtain ⟨u, s', e, _⟩ := exec_ok h1 h2 op hl
  refine ⟨s', e, ops ++ [op], ?_, ?_, ?_⟩
  · intro o ho'
    rcases List.mem_append.1 ho' with h | h
    · exact ho o h
    · rw [List.mem_singleton.1 h]; exact hl
  · exact execAll_append op e ops _ he
  · have key : ∀ (ops : List (Op K V)) (d : K → Option V), op.apply (applyAll d ops) = applyAll d (ops ++ [op]) := by
      intro ops
      induction ops with
      | nil => intro d; rfl
      | cons o ops ih => intro d; exact ih _
    exact key ops _

/-- `get` (and `at`) return what the abstract map holds. -/
theorem rbtree_get (h : Reached s d) (k : K) : get k s = some (d k, s) := by
  obtain ⟨m, h1, h2⟩ := h.rep
  apply Ok.eq
  rw [get_ok h1]
  refine ⟨?_, rfl⟩
  cases hf : m.find? fun e => decide (e.2.1 = k) with
  | none =>
    rw [List.find?_eq_none] at hf
    symm
    rw [Option.map_none, h2.absent]
    simpa using hf
  | some e =>
    obtain ⟨p, k', v⟩ := e
    have hk := List.find?_some hf
    have hm := List.mem_of_find?_eq_some hf
    simp only [decide_eq_true_eq] at hk
    subst hk
    exact ((h2 k' v).1 ⟨p, hm⟩).symm

/-- `forEach` visits the pairs of the abstract map in ascending order, each once; `size` and `empty`
tell their number. -/
theorem rbtree_contents (h : Reached s d) : ∃ l, forEach s = some (l, s) ∧ Lists d l ∧
    size s = some (l.length, s) ∧ empty s = some (l.isEmpty, s) := by
  obtain ⟨m, h1, h2⟩ := h.rep
  refine ⟨m.map (·.2), Ok.eq ((forEach_ok h1 _).2 ⟨rfl, rfl⟩), ⟨?_, ?_⟩, ?_, ?_⟩
  · rw [List.pairwise_map]
    exact h1.sorted
  · intro k v
    rw [← h2]
    simp
  · simp [size, h1.size]
  · simp only [empty, h1.size]
    cases m <;> simp

/-- `count` agrees with the abstract map, unless the map is empty (then it is undefined:
`rbtree_count_violated`). -/
theorem rbtree_count_partial (h : Reached s d) (hne : ∃ k, d k ≠ none) (k : K) :
    count k s = some (if d k = none then 0 else 1, s) := by
  obtain ⟨m, h1, h2⟩ := h.rep
  have hm : m ≠ [] := by
    rintro rfl
    obtain ⟨k, hk⟩ := hne
    exact hk (h2.absent.2 (by simp))
  apply Ok.eq
  rw [count_ok h1 hm]
  refine ⟨?_, rfl⟩
  by_cases e : d k = none
  · rw [if_pos e, if_neg]
    rintro ⟨x, hx, hk⟩
    exact h2.absent.1 e x hx hk
  · rw [if_neg e, if_pos]
    by_contra hc
    exact e (h2.absent.2 fun x hx hk => hc ⟨x, hx, hk⟩)

/-- `count` on an empty map dereferences the null root (line 392: no check, unlike `get`). -/
theorem rbtree_count_violated (h : Reached s d) (he : ∀ k, d k = none) (k : K) : count k s = none := by
  obtain ⟨m, h1, h2⟩ := h.rep
  have hm : m = [] := by
    cases m with
    | nil => rfl
    | cons e m =>
      obtain ⟨p, k, v⟩ := e
      have := (h2 k v).1 ⟨p, by simp⟩
      rw [he] at this
      cases this
  subst hm
  have hr : s.root = 0 := h1.root_iff.2 rfl
  have h0 : s.heap 0 = none := by
    obtain ⟨t, ht⟩ := h1
    have hlv := ht.conf.lv 0
    have hnd := ht.conf.nd
    by_contra hc
    have := hlv.1 hc
    simp only [List.nodup_cons] at hnd
    exact hnd.1 (by simpa using this)
  have hn := h1.fuel
  obtain ⟨n, hn⟩ : ∃ n, s.next = n + 1 := ⟨s.next - 1, by omega⟩
  simp [count, run_bind, theRoot, fuelled, hr, hn, getNode, rd, h0]

/-- `erase(key)` tells whether the key was there. -/
theorem rbtree_erase (h : Reached s d) (k : K) :
    ∃ s', erase k s = some (if d k = none then 0 else 1, s') ∧
      Reached s' (fun x => if x = k then none else d x) := by
  obtain ⟨m, h1, h2⟩ := h.rep
  obtain ⟨n, s', e, rfl, _⟩ := erase_ok h1 k
  obtain ⟨s'', e', h3⟩ := rbtree_step h (.erase k) trivial
  have : s'' = s' := by
    simp only [exec, run_bind, e, run_pure, Option.some.injEq, Prod.mk.injEq, true_and] at e'
    exact e'.symm
  subst this
  refine ⟨s'', ?_, h3⟩
  rw [e]
  by_cases c : d k = none
  · rw [if_pos c, if_neg]
    rintro ⟨x, hx, hk⟩
    exact h2.absent.1 c x hx hk
  · rw [if_neg c, if_pos]
    by_contra hc
    exact c (h2.absent.2 fun x hx hk => hc ⟨x, hx, hk⟩)

/-- `operator[]` refers to the value of the key, inserted if it was absent. -/
theorem rbtree_subscript (h : Reached s d) (k : K) :
    ∃ p s', getOrDefault k s = some (p, s') ∧ deref p s' = some ((k, (d k).getD default), s') := by
  obtain ⟨m, h1, h2⟩ := h.rep
  obtain ⟨p, s', e, m', h3, h4, _⟩ := getOrDefault_ok h1 k
  refine ⟨p, s', e, Ok.eq ?_⟩
  generalize s'.next = n' at h4
  cases h4 with
  | @old a _ v0 b =>
    rw [h3.deref (k := k) (v := v0) (by simp)]
    have := (h2 k v0).1 ⟨p, by simp⟩
    simp [this]
  | @new a b ha hb =>
    rw [h3.deref (k := k) (v := default) (by simp)]
    have : d k = none := h2.absent.2 (by
      intro e he
      rcases List.mem_append.1 he with he | he
      · exact ne_of_lt (ha e he)
      · exact ne_of_gt (hb e he))
    simp [this]

/-- The destructor frees every node, each once. -/
theorem rbtree_destruct (h : Reached s d) : ∃ s', destruct s = some ((), s') ∧ ∀ x, s'.heap x = none := by
  obtain ⟨m, h1, h2⟩ := h.rep
  obtain ⟨_, s', e, h3⟩ := destruct_ok h1
  exact ⟨s', e, h3⟩

/-! ## C41: balance -/

/-- The root is black, no red node has a red child, and all paths have equally many black nodes. -/
theorem rbtree_balanced (h : Reached s d) : ∃ b, Balanced s.heap s.root false b := by
  obtain ⟨m, ⟨t, h1⟩, h2⟩ := h.rep
  obtain ⟨n, _, hrb⟩ := h1.rb
  have hb : t.isRed = false := by
    by_contra hc
    exact h1.top (by simpa using hc)
  refine ⟨n, ?_⟩
  have h3 := balanced_of hrb h1.conf.tr
  have h4 : s.root = t.ptr := h1.conf.rt
  rwa [hb, ← h4] at h3

/-- Looking a key up reads at most `2 * log2 (n + 1)` nodes: `getNode` uses one unit of fuel for each
node it reads. -/
theorem rbtree_lookup_steps (h : Reached s d) (hne : s.cnt ≠ 0) (k : K) (fuel : Nat)
    (hf : 2 * Nat.log2 (s.cnt + 1) ≤ fuel) :
    ∃ p, getNode fuel s.root k s = some (p, s) ∧ (p = 0 ↔ d k = none) ∧
      ∀ v, d k = some v → deref p s = some ((k, v), s) := by
  obtain ⟨m, h1, h2⟩ := h.rep
  have hs := h1.size
  obtain ⟨id, c, l, k', v', r, h3, h4, h5, h6⟩ := h1.root_at (by rintro rfl; exact hne hs)
  refine ⟨_, Ok.eq ((getNode_ok k fuel h3 (.nil k) (by rw [← hs] at h5; omega) _ ).2 ⟨rfl, ?_⟩) |> (h4 ▸ ·), ?_, ?_⟩
  · rfl
  · cases hfl : m.filter fun e => decide (e.2.1 = k) with
    | nil =>
      rw [firstPtr_nil]
      refine ⟨fun _ => h2.absent.2 ?_, fun _ => rfl⟩
      intro e he
      simpa using List.filter_eq_nil_iff.1 hfl e he
    | cons e es =>
      have : e ∈ m.filter fun e => decide (e.2.1 = k) := by rw [hfl]; simp
      obtain ⟨hm, hk⟩ := List.mem_filter.1 this
      obtain ⟨p, k1, v1⟩ := e
      simp only [decide_eq_true_eq] at hk
      subst hk
      have hp := h1.ptrs
      have h7 : p ∈ m.map (·.1) := List.mem_map.2 ⟨_, hm, rfl⟩
      simp only [List.nodup_cons, List.mem_cons] at hp
      rw [firstPtr_cons]
      refine ⟨fun e => ?_, fun e => ?_⟩
      · change p = 0 at e
        exact absurd (Or.inr (e ▸ h7)) hp.1
      · rw [(h2 k1 v1).1 ⟨p, hm⟩] at e
        cases e
  · intro v hv
    obtain ⟨p, hp⟩ := (h2 k v).2 hv
    have h7 : (p, k, v) ∈ m.filter fun e => decide (e.2.1 = k) := List.mem_filter.2 ⟨hp, by simp⟩
    cases hfl : m.filter fun e => decide (e.2.1 = k) with
    | nil => rw [hfl] at h7; simp at h7
    | cons e es =>
      have : e ∈ m.filter fun e => decide (e.2.1 = k) := by rw [hfl]; simp
      obtain ⟨hm, hk⟩ := List.mem_filter.1 this
      obtain ⟨p1, k1, v1⟩ := e
      simp only [decide_eq_true_eq] at hk
      subst hk
      have hv1 := (h2 k1 v1).1 ⟨p1, hm⟩
      rw [hv] at hv1
      cases hv1
      exact Ok.eq ((h1.deref hm _).2 ⟨rfl, rfl⟩)

/-! ## C42: iteration and bounds -/

/-- Iterating from `begin()` to `end()` shows the pairs of the abstract map in ascending order, each once
and each at an address of its own; reverse iteration shows them in the opposite order. -/
theorem rbtree_iterate (h : Reached s d) : ∃ l, (∀ n, s.cnt < n → iterate n s = some (l, s)) ∧
    (∀ n, s.cnt < n → riterate n s = some (l.reverse, s)) ∧ Lists d (l.map (·.2)) ∧
    (s.header :: l.map (·.1)).Nodup := by
  obtain ⟨m, h1, h2⟩ := h.rep
  refine ⟨m, ?_, ?_, ⟨?_, ?_⟩, ?_⟩
  · intro n hn
    exact h1.iter (by rwa [h1.size] at hn)
  · intro n hn
    rw [h1.size] at hn
    apply Ok.eq
    unfold riterate
    rw [ok_bind, h1.rbegin]
    have := rwalk_ok (s := s) n (a := m.reverse) (b := []) (by simpa using h1) (by simpa using hn)
    rw [List.reverse_reverse] at this
    rw [this]
    exact ⟨rfl, rfl⟩
  · rw [List.pairwise_map]
    exact h1.sorted
  · intro k v
    rw [← h2]
    simp
  · have := h1.ptrs
    rw [List.nodup_cons] at this
    exact this.2

omit [Inhabited K] [Inhabited V] in
/-- What an iteration shows determines the entries (for the proofs below). -/
theorem shown {m l : List (Nat × K × V)} {n : Nat} (h : Rep s m) (hn : s.cnt < n) (hi : iterate n s = some (l, s)) :
    l = m := by
  have : iterate n s = some (m, s) := h.iter (by rwa [h.size] at hn)
  rw [this] at hi
  cases hi
  rfl

/-- `lower_bound(k)` is the iterator at the first entry whose key is not less than `k`, else `end()`. -/
theorem rbtree_lower_bound (h : Reached s d) {n l} (hn : s.cnt < n) (hi : iterate n s = some (l, s)) (k : K) :
    lowerBound k s = some (((l.find? fun e => decide (k ≤ e.2.1)).map (·.1)).getD s.header, s) := by
  obtain ⟨m, h1, h2⟩ := h.rep
  obtain rfl := shown h1 hn hi
  apply Ok.eq
  rw [lowerBound_ok h1, ← List.head?_filter]
  refine ⟨?_, rfl⟩
  cases l.filter fun e => decide (k ≤ e.2.1) <;> rfl

/-- `upper_bound(k)` is the iterator at the first entry whose key is greater than `k`, else `end()`. -/
theorem rbtree_upper_bound (h : Reached s d) {n l} (hn : s.cnt < n) (hi : iterate n s = some (l, s)) (k : K) :
    upperBound k s = some (((l.find? fun e => decide (k < e.2.1)).map (·.1)).getD s.header, s) := by
  obtain ⟨m, h1, h2⟩ := h.rep
  obtain rfl := shown h1 hn hi
  apply Ok.eq
  rw [upperBound_ok h1, ← List.head?_filter]
  refine ⟨?_, rfl⟩
  cases l.filter fun e => decide (k < e.2.1) <;> rfl

/-- `--it` undoes `++it`, from `end()` too; likewise for the reverse iterator. -/
theorem rbtree_decrement (h : Reached s d) {n a b} {x y : Nat × K × V} (hn : s.cnt < n)
    (hi : iterate n s = some (a ++ x :: y :: b, s)) :
    increment x.1 s = some (y.1, s) ∧ decrement y.1 s = some (x.1, s) ∧
    rincrement y.1 s = some (x.1, s) ∧ rdecrement x.1 s = some (y.1, s) := by
  obtain ⟨m, h1, h2⟩ := h.rep
  obtain rfl := shown h1 hn hi
  obtain ⟨p, k, v⟩ := x
  obtain ⟨q, k', v'⟩ := y
  have h3 : Rep s ((a ++ [(p, k, v)]) ++ (q, k', v') :: b) := by simpa using h1
  have hl : lastPtr s.header (a ++ [(p, k, v)]) = p := by simp [lastPtr]
  exact ⟨Ok.eq ((h1.incr _).2 ⟨rfl, rfl⟩), Ok.eq ((h3.decr _).2 ⟨hl, rfl⟩), Ok.eq ((h3.rincr _).2 ⟨hl, rfl⟩),
    Ok.eq ((h1.rdecr _).2 ⟨rfl, rfl⟩)⟩

/-- `--end()` is the last entry, `--rend()` the first. -/
theorem rbtree_decrement_end (h : Reached s d) {n l x} (hn : s.cnt < n) (hi : iterate n s = some (l, s)) :
    (l.getLast? = some x → decrement s.header s = some (x.1, s)) ∧
    (l.head? = some x → rdecrement s.header s = some (x.1, s)) := by
  obtain ⟨m, h1, h2⟩ := h.rep
  obtain rfl := shown h1 hn hi
  constructor
  · intro e
    have hne : l ≠ [] := by rintro rfl; cases e
    refine Ok.eq ((h1.decr_header hne _).2 ⟨?_, rfl⟩)
    obtain ⟨l', rfl⟩ : ∃ l', l = l' ++ [x] := ⟨_, (List.dropLast_append_getLast? x e).symm⟩
    simp [lastPtr]
  · intro e
    have hne : l ≠ [] := by rintro rfl; cases e
    refine Ok.eq ((h1.rdecr_header hne _).2 ⟨?_, rfl⟩)
    cases l with
    | nil => cases e
    | cons y l => cases e; rfl

/-- `const_reverse_iterator::operator--` at `crend()` goes to the greatest entry instead of the least
(line 248 reads `right`), whenever there are two entries. -/
theorem rbtree_const_reverse_decrement_violated (h : Reached s d) {n a} {x y : Nat × K × V} (hn : s.cnt < n)
    (hi : iterate n s = some (x :: (a ++ [y]), s)) :
    crdecrement s.header s = some (y.1, s) ∧ rdecrement s.header s = some (x.1, s) ∧ x.1 ≠ y.1 := by
  obtain ⟨m, h1, h2⟩ := h.rep
  obtain rfl := shown h1 hn hi
  refine ⟨Ok.eq ((h1.crdecr_header (by simp) _).2 ⟨?_, rfl⟩), Ok.eq ((h1.rdecr_header (by simp) _).2 ⟨rfl, rfl⟩), ?_⟩
  · simp [lastPtr]
  · have := h1.ptrs
    simp only [List.map_cons, List.map_append, List.map_nil, List.nodup_cons, List.mem_append, List.mem_cons] at this
    grind

/-- `erase(it)` removes the entry at `it` and returns the iterator to its successor; all other
iterators stay valid, at the entries where they were. -/
theorem rbtree_erase_at (h : Reached s d) {n a b} {x : Nat × K × V} (hn : s.cnt < n)
    (hi : iterate n s = some (a ++ x :: b, s)) :
    ∃ s', eraseAt x.1 s = some ((b.head?.map (·.1)).getD s.header, s') ∧ s'.header = s.header ∧
      iterate n s' = some (a ++ b, s') := by
  obtain ⟨m, h1, h2⟩ := h.rep
  obtain rfl := shown h1 hn hi
  obtain ⟨p, k, v⟩ := x
  obtain ⟨q, s', e, rfl, h3, h4, h5⟩ := eraseAt_ok h1
  refine ⟨s', ?_, h4, ?_⟩
  · rw [e]
    cases b <;> rfl
  · have := h1.size
    exact h3.iter (by simp at this ⊢; omega)

/-- `erase(first, last)` removes the entries from `first` up to `last`, excluding `last`; it returns
`last`, and all other iterators stay valid. -/
theorem rbtree_erase_range (h : Reached s d) {n} {a b c : List (Nat × K × V)} (hn : s.cnt < n)
    (hi : iterate n s = some (a ++ b ++ c, s)) :
    ∃ s', eraseRange (((b ++ c).head?.map (·.1)).getD s.header) ((c.head?.map (·.1)).getD s.header) s =
        some ((c.head?.map (·.1)).getD s.header, s') ∧ s'.header = s.header ∧
      iterate n s' = some (a ++ c, s') := by
  obtain ⟨m, h1, h2⟩ := h.rep
  obtain rfl := shown h1 hn hi
  obtain ⟨q, s', e, rfl, h3, h4, h5⟩ := eraseRange_ok h1
  have hf : ∀ l : List (Nat × K × V), (l.head?.map (·.1)).getD s.header = firstPtr s.header l := by
    intro l
    cases l <;> rfl
  rw [hf, hf]
  refine ⟨s', e, h4, ?_⟩
  have := h1.size
  exact h3.iter (by simp at this ⊢; omega)

/-- `erase(key)` leaves the other entries where they were. -/
theorem rbtree_erase_stable (h : Reached s d) {n l} (hn : s.cnt < n) (hi : iterate n s = some (l, s)) (k : K) :
    ∃ r s', erase k s = some (r, s') ∧ s'.header = s.header ∧
      iterate n s' = some (l.filter (fun e => decide (e.2.1 ≠ k)), s') := by
  obtain ⟨m, h1, h2⟩ := h.rep
  obtain rfl := shown h1 hn hi
  obtain ⟨q, s', e, _, h3, h4, h5⟩ := erase_ok h1 k
  refine ⟨q, s', e, h4, ?_⟩
  have h6 := h1.size
  have h7 := List.length_filter_le (fun e : Nat × K × V => decide (e.2.1 ≠ k)) l
  exact h3.iter (by omega)

/-- `insert` leaves all entries where they were; only the value of an equal key changes. -/
theorem rbtree_insert_stable (h : Reached s d) {n l} (hn : s.cnt < n) (hi : iterate n s = some (l, s)) (k : K)
    (v : V) : ∃ s', insert k v s = some ((), s') ∧ s'.header = s.header ∧
      ∃ l', iterate (n + 1) s' = some (l', s') ∧
        l'.filter (fun e => decide (e.2.1 ≠ k)) = l.filter (fun e => decide (e.2.1 ≠ k)) ∧
        (∃ p, (p, k, v) ∈ l' ∧ ∀ q w, (q, k, w) ∈ l → q = p) := by
  obtain ⟨m, h1, h2⟩ := h.rep
  obtain rfl := shown h1 hn hi
  obtain ⟨_, s', e, q, m', h3, h4, h5⟩ := insert_ok h1 k v
  generalize s'.next = n' at h4
  refine ⟨s', e, h5, m', ?_, ?_, q, ?_, ?_⟩
  · have h6 := h1.size
    have h7 : m'.length ≤ l.length + 1 := by
      cases h4 with
      | old => simp
      | new => simp; omega
    exact h3.iter (by omega)
  · have hs := h1.sorted
    cases h4 with
    | old => rw [List.filter_append, List.filter_append, List.filter_cons, List.filter_cons]; simp
    | new ha hb => rw [List.filter_append, List.filter_append, List.filter_cons]; simp
  · cases h4 <;> simp
  · intro q' w hq
    have hs := h1.sorted
    cases h4 with
    | old =>
      rw [List.pairwise_append, List.pairwise_cons] at hs
      rcases List.mem_append.1 hq with hq | hq
      · exact absurd (hs.2.2 _ hq _ List.mem_cons_self) (lt_irrefl _)
      · rcases List.mem_cons.1 hq with hq | hq
        · cases hq; rfl
        · exact absurd (hs.2.1.1 _ hq) (lt_irrefl _)
    | new ha hb =>
      rcases List.mem_append.1 hq with hq | hq
      · exact absurd (ha _ hq) (lt_irrefl _)
      · exact absurd (hb _ hq) (lt_irrefl _)

end

/-! ## The hypotheses are met -/

/-- A history with insertions that rotate, replacement and removals of inner nodes. -/
def demo : List (Op Nat Nat) :=
  [.insert 5 50, .insert 3 30, .insert 8 80, .assign 1 10, .insert 4 40, .insert 9 90, .touch 7, .insert 8 81,
   .erase 5, .eraseFrom 2]

example : ∀ op ∈ demo, op.Legal := by
  intro op h
  simp only [demo, List.mem_cons, List.not_mem_nil, or_false] at h
  rcases h with rfl | rfl | rfl | rfl | rfl | rfl | rfl | rfl | rfl | rfl <;> trivial

/-- What an iteration shows after the history. -/
def demoShown : Option (List (Nat × Nat × Nat)) := do
  let r ← execAll demo (construct : St Nat Nat)
  let l ← iterate 10 r.2
  return l.1

example : demoShown = some [(5, 1, 10), (6, 4, 40), (8, 7, 0), (4, 8, 81), (7, 9, 90)] := by decide +kernel

/-- The abstract map after a history with a range removal. -/
example : ∃ s : St Nat Nat, Reached s (applyAll (fun _ => none)
    [.insert 5 50, .insert 3 30, .insert 8 80, .eraseBetween 4 8]) ∧
    get 8 s = some (some 80, s) ∧ get 5 s = some (none, s) ∧ count 3 s = some (1, s) := by
  obtain ⟨s, _, h⟩ := rbtree_history (K := Nat) (V := Nat)
    [.insert 5 50, .insert 3 30, .insert 8 80, .eraseBetween 4 8] (by
      intro op h
      simp only [List.mem_cons, List.not_mem_nil, or_false] at h
      rcases h with rfl | rfl | rfl | rfl
      · trivial
      · trivial
      · trivial
      · simp [Op.Legal])
  refine ⟨s, h, ?_, ?_, ?_⟩
  · rw [rbtree_get h]; simp [applyAll, Op.apply]
  · rw [rbtree_get h]; simp [applyAll, Op.apply]
  · rw [rbtree_count_partial h ⟨3, by simp [applyAll, Op.apply]⟩]; simp [applyAll, Op.apply]

example : count 3 (construct : St Nat Nat) = none :=
  rbtree_count_violated ⟨[], by simp, rfl, rfl⟩ (fun _ => rfl) 3

end Verif.RBTree
