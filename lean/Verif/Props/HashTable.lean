import Verif.Proof.HashTableRun

/-!
C38: the open addressing `HashTable`; C62: its `resize` and `preserve`.

The specification: a table holds a list of different keys; the index of a key is its position in the list.
-/
namespace Verif.HashTable

variable {dim : Nat} {arg : Nat → Key dim × Option Nat} {hash : Key dim → Int} {n : Nat}
variable {s0 s s' : St dim} {t : Nat}

/-- The key is stored with this index. -/
def Maps (n : Nat) (s : St dim) (k : Key dim) (i : Nat) : Prop := ∃ h < n, s.keys h = k ∧ s.idx h = some i

/-- The table represents the list `L`, and no insertion is under way. -/
structure Table (hash : Key dim → Int) (n : Nat) (s : St dim) (L : List (Key dim)) : Prop where
  chains : Chains hash n s
  dense : Dense n s
  list : L = (List.range s.cnt).map s.active

theorem Table.length {L : List (Key dim)} (h : Table hash n s L) : L.length = s.cnt := by rw [h.list]; simp

theorem Table.maps {L : List (Key dim)} (h : Table hash n s L) {k : Key dim} {i : Nat} : L[i]? = some k ↔ Maps n s k i := by
  rw [h.list]
  constructor
  · intro e
    obtain ⟨hi, e⟩ := List.getElem?_eq_some_iff.1 e
    have hi : i < s.cnt := by simpa using hi
    obtain ⟨x, hx, ex⟩ := h.dense.ex i hi
    refine ⟨x, hx, ?_, ex⟩
    rw [← (h.dense.lt x hx i ex).2]
    simpa using e
  · rintro ⟨x, hx, rfl, ex⟩
    obtain ⟨a, b⟩ := h.dense.lt x hx i ex
    simp [a, b]

theorem Chains.key_unique (h : Chains hash n s) {x y : Nat} (hx : x < n) (hy : y < n) (hk : s.keys x ≠ sent) (e : s.keys x = s.keys y) : x = y := by
  obtain ⟨j, p1, p2⟩ := h.path x hx hk
  obtain ⟨j', q1, q2⟩ := h.path y hy (by rw [← e]; exact hk)
  rw [← e] at q1 q2
  rcases Nat.lt_trichotomy j j' with l | l | l
  · have := (q2 j l).2; rw [p1] at this; exact absurd rfl this
  · rw [← p1, ← q1, l]
  · have := (p2 j' l).2; rw [q1] at this; exact absurd e.symm this

theorem Table.notsent {L : List (Key dim)} (h : Table hash n s L) {k : Key dim} (hk : k ∈ L) : k ≠ sent := by
  obtain ⟨i, hi, rfl⟩ := List.getElem_of_mem hk
  obtain ⟨x, hx, e1, e2⟩ := h.maps.1 (List.getElem?_eq_some_iff.2 ⟨hi, rfl⟩)
  rw [← e1]
  intro e
  rw [(h.chains.slot x hx).1 e] at e2
  cases e2

theorem Table.nodup {L : List (Key dim)} (h : Table hash n s L) : L.Nodup := by
  rw [List.nodup_iff_getElem?_ne_getElem?]
  intro i j hij hj e
  have hi : i < L.length := by omega
  obtain ⟨x, hx, e1, e2⟩ := h.maps.1 (List.getElem?_eq_some_iff.2 ⟨hi, rfl⟩)
  rw [List.getElem?_eq_getElem hi] at e
  obtain ⟨y, hy, e3, e4⟩ := h.maps.1 e.symm
  have hns : s.keys x ≠ sent := by rw [e1]; exact h.notsent (List.getElem_mem hi)
  have := h.chains.key_unique hx hy hns (e1.trans e3.symm)
  subst this
  rw [e2] at e4
  have := Option.some.inj e4
  omega

theorem Table.mem {L : List (Key dim)} (h : Table hash n s L) {k : Key dim} : k ∈ L ↔ k ≠ sent ∧ ∃ x < n, s.keys x = k := by
  constructor
  · intro hk
    refine ⟨h.notsent hk, ?_⟩
    obtain ⟨i, hi, rfl⟩ := List.getElem_of_mem hk
    obtain ⟨x, hx, e1, e2⟩ := h.maps.1 (List.getElem?_eq_some_iff.2 ⟨hi, rfl⟩)
    exact ⟨x, hx, e1⟩
  · rintro ⟨hk, x, hx, rfl⟩
    cases e : s.idx x with
    | none => exact absurd ((h.chains.slot x hx).2 e) hk
    | some i => exact List.mem_of_getElem? (h.maps.2 ⟨x, hx, rfl, e⟩)

/-- `reset(true)` makes any table of positive size represent the empty list. -/
theorem hash_reset (hn : 0 < n) (s : St dim) : Table hash n (s.reset n true) [] := by
  have e : (s.reset n true).cnt = 0 := by simp [St.reset, hn]
  refine ⟨⟨?_, ?_, ?_⟩, ⟨?_, ?_, ?_⟩, by rw [e]; rfl⟩
  · intro h hh; simp [St.reset, hh]
  · intro h hh; simp [St.reset, hh]
  · intro h hh hk; simp [St.reset, hh] at hk
  · intro i hi; rw [e] at hi; omega
  · intro h hh i hi; simp [St.reset, hh] at hi
  · intro h hh h' hh' i hi; simp [St.reset, hh] at hi

/-- Sizes chosen by `evaluateTableSize` are powers of two, so that the stride 127 visits every slot; they
leave more slots than the expected entries. -/
theorem hash_table_size {next2pow : Nat → Nat} {c j : Nat} (hc : c ≠ 0) (h1 : c ≤ next2pow c) (h2 : next2pow c = 2 ^ j) :
    c < tableSize next2pow c ∧ Nat.Coprime 127 (tableSize next2pow c) ∧
      ∀ (hash : Key dim → Int) (k : Key dim) (h : Nat), h < tableSize next2pow c → ∃ i < tableSize next2pow c, path hash (tableSize next2pow c) k i = h := by
  have hco : Nat.Coprime 127 (tableSize next2pow c) := by
    rw [tableSize, if_neg hc, h2, show (2 : Nat) ^ j * 16 = 2 ^ (j + 4) by rw [Nat.pow_add]]
    exact pow_coprime _
  refine ⟨by rw [tableSize, if_neg hc]; omega, hco, fun hash k h hh => path_surj hco k hh⟩

/-- The first slot is inside the table, and the intermediate sum of line 383 is below `2^31` for tables of
up to `2^30` slots. -/
theorem start_no_overflow (hn : 0 < n) (h : Int) : start n h < n ∧ 0 < h.tmod n + n ∧ (n ≤ 2 ^ 30 → h.tmod n + n < 2 ^ 31) := by
  have h1 := Int.lt_tmod_of_pos h (show (0 : Int) < n by omega)
  have h2 := Int.tmod_lt_of_pos h (show (0 : Int) < n by omega)
  exact ⟨start_lt hn h, by omega, by omega⟩

section Phase
variable (hn : 0 < n) {L0 : List (Key dim)} (h0 : Table hash n s0 L0)
include hn h0

theorem fresh_start : Core arg hash n s0.begin (own0 n s0.begin) s0.begin ∧ Locks n s0.begin ∧
    ∃ num, Fresh arg s0.begin (own0 n s0.begin) num s0.begin := by
  have hb : Chains hash n s0.begin := ⟨h0.chains.lock, h0.chains.slot, h0.chains.path⟩
  have hd : Dense n s0.begin := ⟨h0.dense.ex, h0.dense.lt, h0.dense.inj⟩
  exact ⟨hb.core hn rfl, hb.locks rfl, hd.fresh hb rfl⟩

/-- A phase of insertions into a table with the keys `L0`, in any interleaving, of keys other than the
sentinel: no access outside the table. When no insertion is under way the table represents `L0 ++ L1`, where
`L1` lists the new keys; an insertion returns the index of its key if it has inserted it, and otherwise the
key was there or another call has inserted it; exactly one call returns the index of a new key. -/
theorem hash_insert_phase (l : List Nat) (hk : ∀ t ∈ l, (arg t).1 ≠ sent) (ha : ∀ t ∈ l, (arg t).2 = none) :
    ∃ s, run arg hash n l s0.begin = some s ∧ s.cnt ≤ n ∧ (Quiet s → ∃ L1, Table hash n s (L0 ++ L1) ∧
      (∀ k, k ∈ L1 ↔ k ∉ L0 ∧ ∃ t r, s.pc t = .done r ∧ (arg t).1 = k) ∧
      (∀ t i, s.pc t = .done (some i) → (L0 ++ L1)[i]? = some (arg t).1 ∧ L0.length ≤ i) ∧
      (∀ t, s.pc t = .done none → (arg t).1 ∈ L0 ∨ ∃ t' i, t' ≠ t ∧ (arg t').1 = (arg t).1 ∧ s.pc t' = .done (some i)) ∧
      ∀ t t' i i', s.pc t = .done (some i) → s.pc t' = .done (some i') → (arg t).1 = (arg t').1 → t = t') := by
  obtain ⟨c0, l0, f0⟩ := fresh_start (arg := arg) hn h0
  obtain ⟨s, own, h1, hc, hl, ⟨num, hf⟩, hcnt⟩ := run_fresh hn l s0.begin _ hk ha c0 l0 f0 (Nat.le_refl _)
  refine ⟨s, h1, hf.cnt_le hc, fun hq => ?_⟩
  have hb : Chains hash n s0.begin := ⟨h0.chains.lock, h0.chains.slot, h0.chains.path⟩
  have hd : Dense n s0.begin := ⟨h0.dense.ex, h0.dense.lt, h0.dense.inj⟩
  have hch := hq.chains hb hc hl
  have hde := hq.dense hd hc hf hcnt
  have hcnt' : s0.cnt ≤ s.cnt := hcnt
  have hact : ∀ i < s0.cnt, s.active i = s0.active i := by
    intro i hi
    obtain ⟨k, o, a1, a2, a3⟩ := hf.nums i (by omega)
    cases o with
    | none =>
      obtain ⟨b1, b2⟩ := a2 rfl
      rw [b2]
      have := (h0.dense.lt _ (hc.bound _ _ a1) i b1).2
      rw [this]
      exact (hc.old _ _ a1).2.1.symm
    | some q =>
      have := (hf.given q i (a3 q rfl).1).2.1
      have : s0.cnt ≤ i := this
      omega
  let L1 := (List.range (s.cnt - s0.cnt)).map fun i => s.active (s0.cnt + i)
  have hL : L0 ++ L1 = (List.range s.cnt).map s.active := by
    rw [h0.list, show s.cnt = s0.cnt + (s.cnt - s0.cnt) by omega, List.range_add, List.map_append, List.map_map]
    congr 1
    exact List.map_congr_left fun i hi => (hact i (by simpa using hi)).symm
  have hT : Table hash n s (L0 ++ L1) := ⟨hch, hde, hL⟩
  have hown : ∀ x k o, own x = some (k, o) → x < n ∧ s.keys x = k := fun x k o ho => ⟨hc.bound _ _ ho, hq.key hc ho⟩
  have hold : ∀ x k, own x = some (k, none) → k ∈ L0 := by
    intro x k ho
    refine h0.mem.2 ⟨hc.nosent _ _ _ ho, x, hc.bound _ _ ho, (hc.old _ _ ho).2.1⟩
  have hnew : ∀ x k q, own x = some (k, some q) → k ∉ L0 := by
    intro x k q ho hm
    obtain ⟨_, y, hy, e⟩ := h0.mem.1 hm
    have e2 := hc.orig y hy (by show s0.keys y ≠ sent; rw [e]; exact hc.nosent _ _ _ ho)
    have e2 : own y = some (s0.keys y, none) := e2
    rw [e] at e2
    have := hc.key_unique ho e2
    subst this
    rw [ho] at e2; cases e2
  have hdone : ∀ t i, s.pc t = .done (some i) → ∃ x, own x = some ((arg t).1, some t) ∧ s.idx x = some i := by
    intro t i e
    have ht := hc.task t
    rw [e] at ht
    obtain ⟨⟨x, hx⟩, -⟩ := ht
    have := (hc.mine _ _ _ hx).2.2.2.1
    rw [e] at this
    exact ⟨x, hx, this⟩
  refine ⟨L1, hT, ?_, ?_, ?_, ?_⟩
  · intro k
    constructor
    · intro hk1
      have hkn : k ∉ L0 := by
        have := hT.nodup
        rw [List.nodup_append] at this
        intro hk0
        exact this.2.2 k hk0 k hk1 rfl
      refine ⟨hkn, ?_⟩
      obtain ⟨e1, x, hx, e2⟩ := hT.mem.1 (List.mem_append_right _ hk1)
      obtain ⟨k', o, ho⟩ := Quiet.owned hc hx (by rw [e2]; exact e1)
      have e3 := (hown _ _ _ ho).2
      rw [e2] at e3
      subst e3
      cases o with
      | none => exact absurd (hold _ _ ho) hkn
      | some q =>
        obtain ⟨i, e4, e5, _⟩ := hq.owner hc ho
        exact ⟨q, some i, e4, e5.symm⟩
    · rintro ⟨hkn, q, r, e1, rfl⟩
      have hm : (arg q).1 ∈ L0 ++ L1 := by
        have ht := hc.task q
        rw [e1] at ht
        have : ∃ x o, own x = some ((arg q).1, o) := by
          cases r with
          | none => obtain ⟨x, o, h, _⟩ := ht; exact ⟨x, o, h⟩
          | some i => obtain ⟨⟨x, h⟩, _⟩ := ht; exact ⟨x, some q, h⟩
        obtain ⟨x, o, ho⟩ := this
        exact hT.mem.2 ⟨hc.nosent _ _ _ ho, x, hown _ _ _ ho⟩
      rcases List.mem_append.1 hm with h | h
      · exact absurd h hkn
      · exact h
  · intro t i e
    obtain ⟨x, hx, hi⟩ := hdone t i e
    refine ⟨hT.maps.2 ⟨x, (hown _ _ _ hx).1, (hown _ _ _ hx).2, hi⟩, ?_⟩
    rw [h0.length]
    exact (hf.given t i (by rw [e]; rfl)).2.1
  · intro t e
    have ht := hc.task t
    rw [e] at ht
    obtain ⟨x, o, ho, hne⟩ := ht
    cases o with
    | none => exact .inl (hold _ _ ho)
    | some q =>
      obtain ⟨i, e1, e2, _⟩ := hq.owner hc ho
      exact .inr ⟨q, i, fun h => hne (by rw [h]), e2.symm, e1⟩
  · intro t t' i i' e e' ek
    obtain ⟨x, hx, _⟩ := hdone t i e
    obtain ⟨x', hx', _⟩ := hdone t' i' e'
    rw [ek] at hx
    have := hc.key_unique hx hx'
    subst this
    rw [hx] at hx'
    exact Option.some.inj (Prod.mk.inj (Option.some.inj hx')).2

/-- Insertions neither deadlock nor livelock: if the keys in the table and those to be inserted are at most
`n`, every partial run of the insertions in `T` can be continued until all of them have returned. -/
theorem hash_insert_finishes (hp : Nat.Coprime 127 n) (T : Finset Nat) (hk : ∀ t ∈ T, (arg t).1 ≠ sent) (ha : ∀ t ∈ T, (arg t).2 = none)
    (F : Finset (Key dim)) (hT : ∀ t ∈ T, (arg t).1 ∈ F) (hL : ∀ k ∈ L0, k ∈ F) (hcard : F.card ≤ n) (l : List Nat) (hl : ∀ t ∈ l, t ∈ T) :
    ∃ l' s, (∀ t ∈ l', t ∈ T) ∧ run arg hash n (l ++ l') s0.begin = some s ∧ Quiet s ∧ ∀ t ∈ T, ∃ r, s.pc t = .done r := by
  classical
  have app : ∀ (l l' : List Nat) (s : St dim), run arg hash n (l ++ l') s = (run arg hash n l s).bind (run arg hash n l') := by
    intro l
    induction l with
    | nil => intro l' s; rfl
    | cons t l ih =>
      intro l' s
      simp only [List.cons_append, run]
      cases step arg hash n s t with
      | none => rfl
      | some s' => exact ih l' s'
  let I : St dim → Prop := fun s => (∃ own num, Core arg hash n s0.begin own s ∧ Fresh arg s0.begin own num s) ∧ Locks n s ∧
    s0.cnt ≤ s.cnt ∧ ∀ t, t ∉ T → s.pc t = .start
  have hstep : ∀ s, I s → ∀ t ∈ T, ∃ s', step arg hash n s t = some s' ∧ I s' := by
    rintro s ⟨⟨own, num, h1, h3⟩, h2, h4, h5⟩ t ht
    obtain ⟨s1, a1, a2, own1, a3, a4⟩ := h1.step (t := t) hn (hk t ht) h2 (by
      intro i hi
      have := (h3.given t i (by rw [hi]; rfl)).1
      have := h3.cnt_le h1
      omega)
    obtain ⟨⟨num', b1⟩, b2⟩ := h3.step h1 a3 (ha t ht) h4 a1
    refine ⟨s1, a1, ⟨own1, num', a4, b1⟩, a2, b2, fun q hq => ?_⟩
    have hne : q ≠ t := by rintro rfl; exact hq ht
    have : s1.pc q = s.pc q := by
      revert a1
      unfold step
      simp only
      cases s.pc t <;> simp only <;> intro a1
      all_goals
        repeat' split at a1
        all_goals first
          | (cases a1; done)
          | (cases a1; rfl)
          | (cases a1; exact upd_ne _ _ hne)
    rw [this]; exact h5 q hq
  have hcore : ∀ s, I s → (∃ own, Core arg hash n s0.begin own s ∧ ∀ h k o, own h = some (k, o) → k ∈ F) ∧ Locks n s ∧ ∀ t, t ∉ T → s.pc t = .start := by
    rintro s ⟨⟨own, num, h1, -⟩, h2, -, h5⟩
    refine ⟨⟨own, h1, ?_⟩, h2, h5⟩
    intro h k o ho
    cases o with
    | none =>
      exact hL k (h0.mem.2 ⟨h1.nosent _ _ _ ho, h, h1.bound _ _ ho, (h1.old _ _ ho).2.1⟩)
    | some q =>
      obtain ⟨rfl, m, _⟩ := h1.mine _ _ _ ho
      refine hT q ?_
      by_contra hq
      rw [h5 q hq] at m; exact m
  obtain ⟨c0, l0, num, f0⟩ := fresh_start (arg := arg) hn h0
  have hI0 : I s0.begin := ⟨⟨_, num, c0, f0⟩, l0, Nat.le_refl _, fun _ _ => rfl⟩
  have hrun : ∀ (l : List Nat) (s : St dim), (∀ t ∈ l, t ∈ T) → I s → ∃ s', run arg hash n l s = some s' ∧ I s' := by
    intro l
    induction l with
    | nil => intro s _ h; exact ⟨s, rfl, h⟩
    | cons t l ih =>
      intro s hl h
      obtain ⟨s1, h1, h2⟩ := hstep s h t (hl t List.mem_cons_self)
      obtain ⟨s2, h3, h4⟩ := ih s1 (fun q hq => hl q (List.mem_cons_of_mem _ hq)) h2
      exact ⟨s2, by rw [run, h1]; exact h3, h4⟩
  obtain ⟨s1, e1, hI1⟩ := hrun l s0.begin hl hI0
  obtain ⟨l', s2, a1, a2, a3, a4⟩ := finish hn hp hcard hT hstep hcore _ s1 hI1 (Nat.le_refl _)
  refine ⟨l', s2, a1, by rw [app, e1]; exact a2, fun t => ?_, a4⟩
  by_cases ht : t ∈ T
  · exact .inr (a4 t ht)
  · exact .inl (a3.2.2.2 t ht)

/-- A table without a free slot: the insertion of a further key never returns. -/
theorem hash_full_violated (hfull : ∀ h < n, s0.keys h ≠ sent) (l : List Nat) (hk : ∀ t ∈ l, (arg t).1 ≠ sent) (ha : ∀ t ∈ l, (arg t).2 = none)
    (hnew : (arg t).1 ∉ L0) : ∃ s, run arg hash n l s0.begin = some s ∧ ∀ r, s.pc t ≠ .done r := by
  obtain ⟨c0, l0, f0⟩ := fresh_start (arg := arg) hn h0
  obtain ⟨s, own, h1, hc, hl, ⟨num, hf⟩, hcnt⟩ := run_fresh hn l s0.begin _ hk ha c0 l0 f0 (Nat.le_refl _)
  refine ⟨s, h1, fun r e => ?_⟩
  have ht := hc.task t
  rw [e] at ht
  have : ∃ x o, own x = some ((arg t).1, o) := by
    cases r with
    | none => obtain ⟨x, o, h, _⟩ := ht; exact ⟨x, o, h⟩
    | some i => obtain ⟨⟨x, h⟩, _⟩ := ht; exact ⟨x, some t, h⟩
  obtain ⟨x, o, ho⟩ := this
  have hx := hc.bound _ _ ho
  have e2 : own x = some (s0.keys x, none) := hc.orig x hx (hfull x hx)
  rw [ho] at e2
  have e3 := (Prod.mk.inj (Option.some.inj e2)).1
  exact hnew (h0.mem.2 ⟨by rw [e3]; exact hfull x hx, x, hx, e3.symm⟩)

end Phase

/-! ## Search -/

section Query
variable (hn : 0 < n) {L : List (Key dim)} (hT : Table hash n s L) {k : Key dim}
include hn hT

omit hT in
/-- The place where the loop stops, and what `query` returns. -/
theorem query_stop {j fuel : Nat} (hj : j < fuel)
    (hb : ∀ i < j, k ≠ s.keys (path hash n k i) ∧ s.idx (path hash n k i) ≠ none ∧ path hash n k i + 127 ≠ n)
    (he : k = s.keys (path hash n k j) ∨ s.idx (path hash n k j) = none) : query hash n s k fuel = some (s.idx (path hash n k j)) := by
  have h1 : entry hash n s k fuel = look n s k (j + (fuel - j)) (path hash n k 0) := by
    rw [entry, path_zero hn, show j + (fuel - j) = fuel by omega]
  rw [query, h1, look_walk hn j _ hb]
  obtain ⟨f, hf⟩ : ∃ f, fuel - j = f + 1 := ⟨fuel - j - 1, by omega⟩
  rw [hf, look, if_neg (by have := path_lt (hash := hash) hn k j; omega)]
  by_cases e : k = s.keys (path hash n k j)
  · rw [if_pos e]
  · rw [if_neg e]
    have := he.resolve_left e
    rw [if_pos this, this]

theorem query_cases (hp : Nat.Coprime 127 n) (h : k ∈ L ∨ ∃ h < n, s.idx h = none) : ∃ j < n,
    (∀ i < j, k ≠ s.keys (path hash n k i) ∧ s.idx (path hash n k i) ≠ none) ∧
      (k = s.keys (path hash n k j) ∨ s.idx (path hash n k j) = none) ∧ (k ∈ L → k = s.keys (path hash n k j)) := by
  classical
  have hex : ∃ j, k = s.keys (path hash n k j) ∨ s.idx (path hash n k j) = none := by
    rcases h with h | ⟨h, hh, e⟩
    · obtain ⟨_, x, hx, e⟩ := hT.mem.1 h
      obtain ⟨j, _, ej⟩ := path_surj (hash := hash) hp k hx
      exact ⟨j, .inl (by rw [ej, e])⟩
    · obtain ⟨j, _, ej⟩ := path_surj (hash := hash) hp k hh
      exact ⟨j, .inr (by rw [ej, e])⟩
  refine ⟨Nat.find hex, ?_, ?_, Nat.find_spec hex, ?_⟩
  · have : ∃ j < n, k = s.keys (path hash n k j) ∨ s.idx (path hash n k j) = none := by
      obtain ⟨j, hj⟩ := hex
      obtain ⟨i, hi, ei⟩ := path_surj (hash := hash) hp k (path_lt (hash := hash) hn k j)
      exact ⟨i, hi, by rw [ei]; exact hj⟩
    obtain ⟨i, hi, e⟩ := this
    exact Nat.lt_of_le_of_lt (Nat.find_min' hex e) hi
  · intro i hi
    have := Nat.find_min hex hi
    exact ⟨fun e => this (.inl e), fun e => this (.inr e)⟩
  · intro hm
    obtain ⟨hk, x, hx, e⟩ := hT.mem.1 hm
    obtain ⟨j, p1, p2⟩ := hT.chains.path x hx (by rw [e]; exact hk)
    rw [e] at p1 p2
    have hle : Nat.find hex ≤ j := Nat.find_min' hex (.inl (by rw [p1, e]))
    rcases Nat.lt_or_ge (Nat.find hex) j with hlt | hge
    · have h1 := (p2 _ hlt).1
      refine (Nat.find_spec hex).resolve_right fun h2 => h1 ?_
      exact (hT.chains.slot _ (path_lt hn _ _)).2 h2
    · rw [show Nat.find hex = j by omega, p1, e]

/-- `query` returns the index of a key that is in the table, and -1 for a key that is not when there is a free
slot, provided the slot `n - 127` is free or holds the key (or `n < 128`). Missing: searches that pass slot
`n - 127` (`hash_query_oob`, `hash_query_violated`). -/
theorem hash_query_partial (hp : Nat.Coprime 127 n) (h127 : n < 128 ∨ s.idx (n - 127) = none ∨ s.keys (n - 127) = k) {fuel : Nat} (hf : n ≤ fuel) :
    (∀ i, L[i]? = some k → query hash n s k fuel = some (some i)) ∧
      (k ∉ L → (∃ h < n, s.idx h = none) → query hash n s k fuel = some none) := by
  have hb : ∀ i, k ≠ s.keys (path hash n k i) ∧ s.idx (path hash n k i) ≠ none →
      k ≠ s.keys (path hash n k i) ∧ s.idx (path hash n k i) ≠ none ∧ path hash n k i + 127 ≠ n := by
    rintro i ⟨a, b⟩
    refine ⟨a, b, fun e => ?_⟩
    have e' : path hash n k i = n - 127 := by omega
    rcases h127 with c | c | c
    · have : n = 127 := by omega
      subst this
      revert hp; decide
    · rw [e'] at b; exact b c
    · rw [e'] at a; exact a c.symm
  constructor
  · intro i hi
    obtain ⟨j, hj, h1, h2, h3⟩ := query_cases hn hT hp (.inl (List.mem_of_getElem? hi))
    rw [query_stop hn (by omega) (fun i hi => hb i (h1 i hi)) h2]
    obtain ⟨x, hx, e1, e2⟩ := hT.maps.1 hi
    have e3 := h3 (List.mem_of_getElem? hi)
    have : path hash n k j = x := by
      refine hT.chains.key_unique (path_lt hn _ _) hx ?_ (e3.symm.trans e1.symm)
      rw [← e3]; exact hT.notsent (List.mem_of_getElem? hi)
    rw [this, e2]
  · intro hk hfree
    obtain ⟨j, hj, h1, h2, -⟩ := query_cases (k := k) hn hT hp (.inr hfree)
    rw [query_stop hn (by omega) (fun i hi => hb i (h1 i hi)) h2]
    rcases h2 with h2 | h2
    · have hx := path_lt (hash := hash) hn k j
      have : k = sent := by
        by_contra ne
        exact hk (hT.mem.2 ⟨ne, _, hx, h2.symm⟩)
      rw [this] at h2
      rw [this] at hx ⊢
      rw [(hT.chains.slot _ hx).1 h2.symm]
    · rw [h2]

omit hT in
/-- When the search reaches slot `n - 127` and continues, it reads behind the end of the table. -/
theorem hash_query_oob {j : Nat} (hj : path hash n k j + 127 = n)
    (hb : ∀ i ≤ j, k ≠ s.keys (path hash n k i) ∧ s.idx (path hash n k i) ≠ none) {fuel : Nat} (hf : j + 1 < fuel) :
    entry hash n s k fuel = .oob := by
  classical
  let P : Nat → Prop := fun i => path hash n k i + 127 = n
  have hex : ∃ i, P i := ⟨j, hj⟩
  have hle : Nat.find hex ≤ j := Nat.find_min' hex hj
  obtain ⟨f, rfl⟩ : ∃ f, fuel = Nat.find hex + (f + 2) := ⟨fuel - Nat.find hex - 2, by omega⟩
  have h1 := look_walk (s := s) hn (hash := hash) (k := k) (Nat.find hex) (f + 2) (fun i hi => by
    have := Nat.find_min hex hi
    exact ⟨(hb i (by omega)).1, (hb i (by omega)).2, this⟩)
  rw [entry, ← path_zero hn, h1, look, if_neg (by have := path_lt (hash := hash) hn k (Nat.find hex); omega), if_neg (hb _ hle).1,
    if_neg (hb _ hle).2, look, if_pos]
  have := Nat.find_spec hex
  have this : path hash n k (Nat.find hex) + 127 = n := this
  rw [next, if_neg (by omega)]
  omega

/-- In a table without a free slot the search for an absent key does not return. -/
theorem hash_query_full_violated (hfull : ∀ h < n, s.idx h ≠ none) (hk : k ∉ L) (hs : k ≠ sent) (fuel : Nat) :
    query hash n s k fuel = none := by
  have key : ∀ fuel h, look n s k fuel h = .oob ∨ look n s k fuel h = .more := by
    intro fuel
    induction fuel with
    | zero => intro h; exact .inr rfl
    | succ fuel ih =>
      intro h
      rw [look]
      by_cases e : n ≤ h
      · rw [if_pos e]; exact .inl rfl
      · rw [if_neg e, if_neg (fun e' => hk (hT.mem.2 ⟨hs, h, by omega, e'.symm⟩)), if_neg (hfull h (by omega))]
        exact ih _
  rw [query, entry]
  rcases key fuel (start n (hash k)) with e | e <;> rw [e]

end Query

/-! ## `resize` -/

/-- `resize` to a larger table, with the keys inserted again in any interleaving: no access outside the table,
and when all insertions have returned the table represents the same list. -/
theorem hash_resize {L : List (Key dim)} (hT : Table hash n s0 L) {m : Nat} (hm : 0 < m) (l : List Nat) (hl : ∀ t ∈ l, t < s0.cnt) :
    ∃ s, run (again s0) hash m l (s0.grow m) = some s ∧ s.cnt = s0.cnt ∧
      ((∀ t < s0.cnt, ∃ r, s.pc t = .done r) → Quiet s → Table hash m s L) := by
  have hempty : Chains hash m (s0.grow m) := by
    refine ⟨?_, ?_, ?_⟩ <;> intro h hh <;> simp [St.grow, St.reset, St.begin, hh]
  have hactive : ∀ t < s0.cnt, s0.active t ∈ L := by
    intro t ht; rw [hT.list]; exact List.mem_map.2 ⟨t, by simpa using ht, rfl⟩
  have hinj : ∀ t t', t < s0.cnt → t' < s0.cnt → s0.active t = s0.active t' → t = t' := by
    intro t t' ht ht' e
    have := hT.nodup
    rw [hT.list] at this
    exact List.inj_on_of_nodup_map this (by simpa using ht) (by simpa using ht') e
  obtain ⟨s, own, h1, hc, hlk, e1, e2⟩ := run_ided (arg := again s0) (hash := hash) hm l (s0.grow m) _
    (fun t ht => hT.notsent (hactive t (hl t ht))) (fun t _ => by simp [again]) (hempty.core hm rfl) (hempty.locks rfl)
  have e1 : s.cnt = s0.cnt := e1
  have e2 : s.active = s0.active := e2
  refine ⟨s, h1, e1, fun hall hq => ?_⟩
  have hnoold : ∀ x k, own x ≠ some (k, none) := by
    intro x k ho
    have a := (hc.old _ _ ho).2.1
    have b := hc.bound _ _ ho
    exact hc.nosent _ _ _ ho (by rw [← a]; simp [St.grow, St.reset, St.begin, b])
  -- tasks outside never start
  have hstart : ∀ t, s0.cnt ≤ t → s.pc t = .start := by
    have : ∀ (l : List Nat) (s1 s2 : St dim), (∀ t ∈ l, t < s0.cnt) → run (again s0) hash m l s1 = some s2 →
        ∀ t, s0.cnt ≤ t → s2.pc t = s1.pc t := by
      intro l
      induction l with
      | nil => intro s1 s2 _ h t _; cases h; rfl
      | cons q l ih =>
        intro s1 s2 hl h t ht
        rw [run] at h
        cases e : step (again s0) hash m s1 q with
        | none => rw [e] at h; cases h
        | some s3 =>
          rw [e] at h
          rw [ih s3 s2 (fun x hx => hl x (List.mem_cons_of_mem _ hx)) h t ht]
          have hne : t ≠ q := by have := hl q List.mem_cons_self; omega
          revert e
          unfold step
          simp only
          cases s1.pc q <;> simp only <;> intro a1
          all_goals
            repeat' split at a1
            all_goals first
              | (cases a1; done)
              | (cases a1; rfl)
              | (cases a1; exact upd_ne _ _ hne)
    intro t ht
    exact this l _ s hl h1 t ht
  have hmine : ∀ t < s0.cnt, ∃ x < m, s.keys x = s0.active t ∧ s.idx x = some t ∧ own x = some (s0.active t, some t) := by
    intro t ht
    obtain ⟨r, e⟩ := hall t ht
    have htask := hc.task t
    rw [e] at htask
    cases r with
    | none =>
      obtain ⟨x, o, ho, hne⟩ := htask
      cases o with
      | none => exact absurd ho (hnoold _ _)
      | some q =>
        obtain ⟨i, e3, e4, _⟩ := hq.owner hc ho
        have hqc : q < s0.cnt := by
          by_contra hq'
          rw [hstart q (by omega)] at e3; cases e3
        exact absurd (by rw [hinj t q ht hqc e4]) hne
    | some i =>
      obtain ⟨⟨x, hx⟩, hi⟩ := htask
      have := hi t rfl
      subst this
      have := (hc.mine _ _ _ hx).2.2.2.1
      rw [e] at this
      exact ⟨x, hc.bound _ _ hx, hq.key hc hx, this, hx⟩
  have hback : ∀ x < m, ∀ i, s.idx x = some i → i < s0.cnt ∧ s.keys x = s0.active i ∧ own x = some (s0.active i, some i) := by
    intro x hx i hi
    cases ho : own x with
    | none => rw [(hc.free x hx ho).2] at hi; cases hi
    | some y =>
      obtain ⟨k, o⟩ := y
      cases o with
      | none => exact absurd ho (hnoold _ _)
      | some q =>
        obtain ⟨i', e3, e4, e5, e6⟩ := hq.owner hc ho
        have hqc : q < s0.cnt := by
          by_contra hq'
          rw [hstart q (by omega)] at e3; cases e3
        have htask := hc.task q
        rw [e3] at htask
        have := htask.2 q rfl
        subst this
        rw [e6] at hi
        obtain rfl := Option.some.inj hi
        exact ⟨hqc, e5.trans e4, by rw [e4]; rfl⟩
  refine ⟨hq.chains hempty hc hlk, ⟨?_, ?_, ?_⟩, ?_⟩
  · intro i hi
    rw [e1] at hi
    obtain ⟨x, hx, _, e, _⟩ := hmine i hi
    exact ⟨x, hx, e⟩
  · intro x hx i hi
    obtain ⟨a, b, _⟩ := hback x hx i hi
    rw [e1, e2]
    exact ⟨a, b.symm⟩
  · intro x hx y hy i hi hi'
    obtain ⟨_, _, a⟩ := hback x hx i hi
    obtain ⟨_, _, b⟩ := hback y hy i hi'
    exact hc.uniq _ _ _ _ i a b
  · rw [e1, e2]; exact hT.list

/-- The insertions of `resize` can always be completed, so that the table represents the same list. -/
theorem hash_resize_finishes {L : List (Key dim)} (hT : Table hash n s0 L) {m : Nat} (hm : 0 < m) (hnm : n ≤ m) (hp : Nat.Coprime 127 m)
    (l : List Nat) (hl : ∀ t ∈ l, t < s0.cnt) :
    ∃ l' s, (∀ t ∈ l', t < s0.cnt) ∧ run (again s0) hash m (l ++ l') (s0.grow m) = some s ∧ Table hash m s L := by
  classical
  have hempty : Chains hash m (s0.grow m) := by
    refine ⟨?_, ?_, ?_⟩ <;> intro h hh <;> simp [St.grow, St.reset, St.begin, hh]
  have hactive : ∀ t < s0.cnt, s0.active t ∈ L := by
    intro t ht; rw [hT.list]; exact List.mem_map.2 ⟨t, by simpa using ht, rfl⟩
  let T := Finset.range s0.cnt
  let I : St dim → Prop := fun s => (∃ own, Core (again s0) hash m (s0.grow m) own s) ∧ Locks m s ∧ ∀ t, t ∉ T → s.pc t = .start
  have hstep : ∀ s, I s → ∀ t ∈ T, ∃ s', step (again s0) hash m s t = some s' ∧ I s' := by
    rintro s ⟨⟨own, h1⟩, h2, h5⟩ t ht
    obtain ⟨s1, a1, a2, own1, a3, a4⟩ := h1.step (t := t) hm (hT.notsent (hactive t (by simpa [T] using ht))) h2 (by
      intro i hi
      have := h1.task t
      rw [hi] at this
      exact absurd this.2 (by simp [again]))
    refine ⟨s1, a1, ⟨own1, a4⟩, a2, fun q hq => ?_⟩
    have hne : q ≠ t := by rintro rfl; exact hq ht
    rw [← h5 q hq]
    revert a1
    unfold step
    simp only
    cases s.pc t <;> simp only <;> intro a1
    all_goals
      repeat' split at a1
      all_goals first
        | (cases a1; done)
        | (cases a1; rfl)
        | (cases a1; exact upd_ne _ _ hne)
  have hrun : ∀ (l : List Nat) (s : St dim), (∀ t ∈ l, t < s0.cnt) → I s → ∃ s', run (again s0) hash m l s = some s' ∧ I s' := by
    intro l
    induction l with
    | nil => intro s _ h; exact ⟨s, rfl, h⟩
    | cons t l ih =>
      intro s hl h
      obtain ⟨s1, h1, h2⟩ := hstep s h t (by simpa [T] using hl t List.mem_cons_self)
      obtain ⟨s2, h3, h4⟩ := ih s1 (fun q hq => hl q (List.mem_cons_of_mem _ hq)) h2
      exact ⟨s2, by rw [run, h1]; exact h3, h4⟩
  have hcore : ∀ s, I s → (∃ own, Core (again s0) hash m (s0.grow m) own s ∧ ∀ h k o, own h = some (k, o) → k ∈ L.toFinset) ∧ Locks m s ∧
      ∀ t, t ∉ T → s.pc t = .start := by
    rintro s ⟨⟨own, h1⟩, h2, h5⟩
    refine ⟨⟨own, h1, ?_⟩, h2, h5⟩
    intro h k o ho
    cases o with
    | none =>
      have a := (h1.old _ _ ho).2.1
      have b := h1.bound _ _ ho
      exact absurd (by rw [← a]; simp [St.grow, St.reset, St.begin, b]) (h1.nosent _ _ _ ho)
    | some q =>
      obtain ⟨rfl, mm, _⟩ := h1.mine _ _ _ ho
      have hq : q ∈ T := by
        by_contra hq
        rw [h5 q hq] at mm; exact mm
      exact List.mem_toFinset.2 (hactive q (by simpa [T] using hq))
  have hcnt : s0.cnt ≤ n := by
    obtain ⟨num, hf⟩ := Dense.fresh (arg := fun _ => ((sent : Key dim), none)) (s0 := s0.begin) (n := n) (hash := hash)
      ⟨hT.dense.ex, hT.dense.lt, hT.dense.inj⟩ ⟨hT.chains.lock, hT.chains.slot, hT.chains.path⟩ rfl
    rcases Nat.eq_zero_or_pos n with h0 | h0
    · refine Nat.le_of_not_lt fun h => ?_
      obtain ⟨x, hx, _⟩ := hT.dense.ex 0 (by omega)
      omega
    · exact hf.cnt_le (Chains.core h0 ⟨hT.chains.lock, hT.chains.slot, hT.chains.path⟩ rfl)
  have hI0 : I (s0.grow m) := ⟨⟨_, hempty.core hm rfl⟩, hempty.locks rfl, fun _ _ => rfl⟩
  obtain ⟨s1, e1, hI1⟩ := hrun l _ hl hI0
  obtain ⟨l', s2, a1, a2, a3, a4⟩ := finish (T := T) (F := L.toFinset) hm hp
    (by have := List.toFinset_card_le L; rw [hT.length] at this; omega)
    (fun t ht => List.mem_toFinset.2 (hactive t (by simpa [T] using ht))) hstep hcore _ s1 hI1 (Nat.le_refl _)
  have a1 : ∀ t ∈ l', t < s0.cnt := fun t ht => by simpa [T] using a1 t ht
  have app : ∀ (l l' : List Nat) (s : St dim), run (again s0) hash m (l ++ l') s = (run (again s0) hash m l s).bind (run (again s0) hash m l') := by
    intro l
    induction l with
    | nil => intro l' s; rfl
    | cons t l ih =>
      intro l' s
      simp only [List.cons_append, run]
      cases step (again s0) hash m s t with
      | none => rfl
      | some s' => exact ih l' s'
  have e2 : run (again s0) hash m (l ++ l') (s0.grow m) = some s2 := by rw [app, e1]; exact a2
  obtain ⟨s3, b1, b2, b3⟩ := hash_resize hT hm (l ++ l') (by
    intro t ht
    rcases List.mem_append.1 ht with h | h
    · exact hl t h
    · exact a1 t h)
  rw [e2] at b1
  cases b1
  refine ⟨l', s2, a1, e2, b3 (fun t ht => a4 t (by simpa [T] using ht)) fun t => ?_⟩
  by_cases ht : t ∈ T
  · exact .inr (a4 t ht)
  · exact .inl (a3.2.2 t ht)

/-! ## Examples and counterexamples -/

/-- Keys with one component. -/
def key1 (x : Int) : Key 1 := fun _ => x

def zero1 : St 1 := { lock := fun _ => true, keys := fun _ => key1 0, idx := fun _ => some 0, cnt := 7, active := fun _ => key1 0, pc := fun _ => .start }

/-- Insert `keys` one after the other into an empty table. -/
def fill (hash : Key 1 → Int) (n : Nat) (keys : Nat → Int) (count : Nat) : Option (St 1) :=
  run (fun t => (key1 (keys t), none)) hash n ((List.range count).flatMap fun t => List.replicate (3 * n + 12) t) (zero1.reset n true).begin

/-- Two keys with the hash value 1 in a table for 8 entries: the second one is stored in slot 0, and the search
for it reads slot 128 of 128. -/
theorem hash_query_violated :
    (fill (fun _ => 1) 128 (fun t => t) 2).map (fun s => (s.keys 1 0, s.keys 0 0, s.idx 0, entry (fun _ => 1) 128 s (key1 1) 1000)) =
      some (0, 1, some 1, .oob) := by decide +kernel

/-- The key whose components are the largest value is inserted again and again, with a new index each time. -/
theorem hash_sentinel_violated :
    (fill (fun _ => 1) 16 (fun _ => 2147483647) 2).map (fun s => (s.pc 0, s.pc 1, s.cnt, query (fun _ => 1) 16 s (key1 2147483647) 1000)) =
      some (.done (some 0), .done (some 1), 2, some (some 1)) := by decide +kernel

/-- A new table whose `status` entries happen to be 0 (the constructor does not write them): an insertion waits
forever for a lock that nobody holds. -/
theorem hash_unreset_violated (hn : 0 < n) (h : s.lock (start n (hash (arg t).1)) = true) (hp : s.pc t = .start) :
    ∀ m, ∃ s', run arg hash n (List.replicate m t) s = some s' ∧ ∀ r, s'.pc t ≠ .done r := by
  have key : ∀ m (s : St dim), s.lock (start n (hash (arg t).1)) = true → s.pc t = .lock (start n (hash (arg t).1)) →
      run arg hash n (List.replicate m t) s = some s := by
    intro m
    induction m with
    | zero => intro s _ _; rfl
    | succ m ih =>
      intro s h1 h2
      have : step arg hash n s t = some s := by
        have := start_lt hn (hash (arg t).1)
        unfold step
        simp only [h2, h1, if_neg (show ¬ n ≤ start n (hash (arg t).1) by omega), if_true]
      rw [List.replicate_succ, run, this]
      exact ih s h1 h2
  intro m
  cases m with
  | zero => exact ⟨s, rfl, by rw [hp]; simp⟩
  | succ m =>
    have : step arg hash n s t = some (s.goto t (.lock (start n (hash (arg t).1)))) := by
      unfold step
      simp only [hp, if_neg (show ¬ n = 0 by omega)]
    refine ⟨_, by rw [List.replicate_succ, run, this]; exact key m _ h (upd_same _ _ _), ?_⟩
    simp [St.goto]

/-- `preserve` with fewer entries removes the keys first: the search for the second of two keys with the same
hash value stops at the slot of the first, which has been cleared, and -1 is used as a position. -/
theorem hash_preserve_shrink_violated :
    (fill (fun _ => 2) 16 (fun t => t) 2).bind (fun s => shrink (fun _ => 2) 16 s 1000 2) |>.isNone := by decide +kernel

/-- Without the collision the removal works. -/
example : ((fill (fun k => k 0) 16 (fun t => t) 2).bind (fun s => shrink (fun k => k 0) 16 s 1000 2)).map
    (fun s => (s.keys 0, s.keys 1, s.idx 0, s.idx 1)) = some (sent, sent, none, none) := by decide +kernel

/-- `preserve` with more entries than there are sets the count (line 270) before the keys are inserted again:
the table then reports entries that no key has. -/
theorem hash_preserve_grow_violated :
    (run (again zero1) (fun _ => 0) 32 [] ({ zero1.reset 16 true with cnt := 2 }.grow 32)).map (fun s => (s.cnt, (List.range 32).all fun h => s.idx h = none)) =
      some (2, true) := by decide +kernel

/-- Hypotheses of `hash_insert_phase` and `hash_query_partial`: three keys, two of them equal and two with the
same hash value, inserted in an interleaving. -/
example : ∃ s, run (fun t => (key1 (t % 2 * 5), none)) (fun _ => 3) 16 ((List.replicate 80 [0, 1, 2]).flatten) (zero1.reset 16 true).begin = some s ∧
    s.pc 0 = .done (some 0) ∧ s.pc 1 = .done (some 1) ∧ s.pc 2 = .done none ∧
    query (fun _ => 3) 16 s (key1 5) 16 = some (some 1) ∧ query (fun _ => 3) 16 s (key1 6) 16 = some none :=
  ⟨_, rfl, by decide +kernel, by decide +kernel, by decide +kernel, by decide +kernel, by decide +kernel⟩

example : ∀ t ∈ (List.replicate 80 [0, 1, 2]).flatten, (key1 ((t : Int) % 2 * 5) : Key 1) ≠ sent := by decide +kernel

end Verif.HashTable
