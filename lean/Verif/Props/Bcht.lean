import Verif.Proof.Bcht

/-!
C39: the cuckoo hash table.

The specification: a table holds a list of different keys; the index of a key is its position in the list.
-/
namespace Verif.Bcht

set_option linter.unusedSectionVars false
variable {K S : Type} [DecidableEq S] {c : Cfg K S} {s s' : St K S} {L : List K}

/-- The table represents the list `L`. -/
structure Table (c : Cfg K S) (s : St K S) (L : List K) : Prop where
  inv : ∃ occ, Inv c s occ
  cnt : s.cnt = L.length
  has : ∀ x i, Has c s x i ↔ ∃ k, L[i]? = some k ∧ c.trans k = x
  active : ∀ i k, L[i]? = some k → s.active i = some k

/-- Keys for which the functions used for eviction and for search agree, and different from the sentinel. -/
def Good (c : Cfg K S) (k : K) : Prop := (∀ i, c.hs i (c.trans k) = c.h i k) ∧ c.trans k ≠ c.sent

theorem plain_good {B : Nat} {chains : Nat → Nat} {h : Fin 3 → K → Nat} {sent k : K} : Good (Cfg.plain B chains h sent) k ↔ k ≠ sent :=
  ⟨fun h => h.2, fun h => ⟨fun _ => rfl, h⟩⟩

theorem plain_pick {B : Nat} (hB : 0 < B) {chains : Nat → Nat} {h : Fin 3 → K → Nat} {sent : K} (e : Nat) :
    (Cfg.plain B chains h sent).pick e < (Cfg.plain B chains h sent).B := Nat.mod_lt _ hB

/-- The keys of a table are different. -/
theorem Table.nodup (h : Table c s L) {i j : Nat} {k k' : K} (hi : L[i]? = some k) (hj : L[j]? = some k') (e : c.trans k = c.trans k') :
    i = j := by
  obtain ⟨occ, hinv⟩ := h.inv
  exact hinv.has_unique ((h.has _ _).2 ⟨k, hi, rfl⟩) ((h.has _ _).2 ⟨k', hj, e.symm⟩)

/-- A table of the constructor is empty and has room for twice the capacity asked for. -/
theorem bcht_make (hB : 0 < c.B) (n : Nat) : Table c (make c n) [] ∧ 2 * n ≤ (make c n).cap c := by
  refine ⟨⟨⟨fun _ => 0, ⟨fun _ => Nat.zero_le _, fun b _ j _ => ⟨fun h => absurd rfl h, fun h => absurd h (Nat.not_lt_zero _)⟩, ?_, ?_, ?_⟩⟩, rfl, ?_, ?_⟩, ?_⟩
  · intro b _ j hj; exact absurd hj (Nat.not_lt_zero _)
  · intro b _ j hj; exact absurd hj (Nat.not_lt_zero _)
  · intro b _ j hj; exact absurd hj (Nat.not_lt_zero _)
  · intro x i
    constructor
    · rintro ⟨b, _, j, _, e, _, h⟩; exact absurd e.symm h
    · rintro ⟨k, hk, _⟩; simp at hk
  · intro i k hk; simp at hk
  · unfold make St.cap
    simp only
    generalize hp : (if n % c.B ≠ 0 then n + (c.B - n % c.B) else n) = p
    have hd : c.B ∣ p ∧ n ≤ p := by
      have := Nat.mod_lt n hB
      have hdm := Nat.div_add_mod n c.B
      subst hp
      split
      · refine ⟨⟨n / c.B + 1, ?_⟩, by omega⟩
        rw [Nat.mul_add, Nat.mul_one]; omega
      · next h => exact ⟨Nat.dvd_of_mod_eq_zero (by omega), Nat.le_refl _⟩
    have : p * 2 / c.B * c.B = p * 2 := Nat.div_mul_cancel (Nat.dvd_mul_right_of_dvd hd.1 2)
    omega

/-- The number of keys does not exceed the number of slots. -/
theorem Table.le_cap (h : Table c s L) : L.length ≤ s.cap c := by
  classical
  have hs : ∀ i, i < L.length → ∃ q < s.cap c, s.idx q = some i := by
    intro i hi
    obtain ⟨b, hb, j, hj, -, e, -⟩ := (h.has (c.trans L[i]) i).2 ⟨L[i], by simp, rfl⟩
    refine ⟨b * c.B + j, ?_, e⟩
    unfold St.cap
    calc b * c.B + j < b * c.B + c.B := by omega
      _ = (b + 1) * c.B := by rw [Nat.add_mul, Nat.one_mul]
      _ ≤ s.nb * c.B := Nat.mul_le_mul_right _ hb
  let f : Nat → Nat := fun i => if hi : i < L.length then (hs i hi).choose else 0
  have hf : ∀ i, i < L.length → f i < s.cap c ∧ s.idx (f i) = some i := by
    intro i hi
    have := (hs i hi).choose_spec
    simp only [f, dif_pos hi]
    exact this
  have := Finset.card_le_card_of_injOn (s := Finset.range L.length) (t := Finset.range (s.cap c)) f
    (by intro i hi; simpa using (hf i (by simpa using hi)).1)
    (by
      intro i hi j hj e
      have h1 := (hf i (by simpa using hi)).2
      have h2 := (hf j (by simpa using hj)).2
      rw [e] at h1
      exact Option.some.inj (h1.symm.trans h2))
  simpa using this

/-- Insertion of a new key: it is appended to the list, or the insertion fails and exactly one key, the new
one or an older one, is missing from the table. It never accesses memory outside the table. -/
theorem bcht_insert_new (hp : ∀ e, c.pick e < c.B) (h : Table c s L) (hnb : 0 < s.nb) {k : K} (hk : Good c k)
    (hn : ∀ k' ∈ L, c.trans k' ≠ c.trans k) :
    (∃ s', insert c s k none true = some (s', .index L.length) ∧ s'.nb = s.nb ∧ Table c s' (L ++ [k])) ∨
      ∃ s', insert c s k none true = some (s', .failure) ∧ s'.nb = s.nb ∧ s'.cnt = L.length + 1 ∧
        ∃ z ∈ L ++ [k], ∀ k', Good c k' → ∀ i,
          query c s' k' = some i ↔ (∃ k'', (L ++ [k])[i]? = some k'' ∧ c.trans k'' = c.trans k') ∧ c.trans k' ≠ c.trans z := by
  obtain ⟨occ, hinv⟩ := h.inv
  have hnot : ∀ i, ¬ Has c s (c.trans k) i := by
    intro i hi
    obtain ⟨k', h1, h2⟩ := (h.has _ _).1 hi
    exact hn k' (List.mem_of_getElem? h1) h2
  have hspec := loop_spec hp k true (c.chains (s.cap c) - 1) 0 s occ (c.h 0 k % s.nb) (c.trans k) none none hinv (Nat.mod_lt _ hnb) hk.2
    (.inl (by rw [hk.1])) ((hinv.not_has hk.2).2 hnot)
  have hcomb : ∀ y i, (Has c s y i ∨ y = c.trans k ∧ i = s.cnt) ↔ ∃ k'', (L ++ [k])[i]? = some k'' ∧ c.trans k'' = y := by
    intro y i
    rw [h.has, h.cnt]
    constructor
    · rintro (⟨k'', h1, h2⟩ | ⟨rfl, rfl⟩)
      · exact ⟨k'', by rw [List.getElem?_append_left (List.getElem?_eq_some_iff.1 h1).1]; exact h1, h2⟩
      · exact ⟨k, by simp, rfl⟩
    · rintro ⟨k'', h1, h2⟩
      rcases Nat.lt_trichotomy i L.length with hl | hl | hl
      · rw [List.getElem?_append_left hl] at h1
        exact .inl ⟨k'', h1, h2⟩
      · subst hl
        simp at h1
        subst h1
        exact .inr ⟨h2.symm, rfl⟩
      · rw [List.getElem?_eq_none (by simp; omega)] at h1
        cases h1
  unfold insert
  rw [if_neg (by omega)]
  obtain ⟨s1, occ1, i1, i2, i3, i4, i5⟩ := hspec
  have hcnt : s1.cnt = L.length + 1 := by rw [i3, ← h.cnt]; rfl
  rcases i5 with ⟨i5, i6⟩ | ⟨i5, z, i6, i7⟩
  · left
    have hT : Table c { s1 with active := upd s1.active L.length (some k) } (L ++ [k]) := by
      refine ⟨⟨occ1, i1.le, i1.dense, i1.place, i1.inj, i1.ided⟩, by simp [hcnt], ?_, ?_⟩
      · intro x i
        rw [← hcomb]
        exact i6 x i
      · intro i k' hi
        simp only
        rcases Nat.lt_trichotomy i L.length with hl | hl | hl
        · rw [List.getElem?_append_left hl] at hi
          rw [upd_ne (by omega), i4]
          exact h.active i k' hi
        · subst hl
          rw [upd_same]
          simpa using hi
        · rw [List.getElem?_eq_none (by simp; omega)] at hi
          cases hi
    have hle := hT.le_cap
    have hle : L.length < s1.cap c := by simpa [St.cap, Nat.lt_iff_add_one_le] using hle
    refine ⟨_, ?_, ?_, hT⟩
    · rw [i5]
      simp only [St.no, Option.bind_some, enqueue, h.cnt, if_pos hle, if_true]
    · exact i2
  · right
    refine ⟨s1, i5, i2, hcnt, ?_⟩
    have hz : ∃ i, Has c s z i ∨ z = c.trans k ∧ i = s.cnt := by
      rcases i6 with ⟨i, hi⟩ | hz
      · exact ⟨i, .inl hi⟩
      · exact ⟨_, .inr ⟨hz, rfl⟩⟩
    obtain ⟨i, hi⟩ := hz
    obtain ⟨k'', h1, h2⟩ := (hcomb _ _).1 hi
    refine ⟨k'', List.mem_of_getElem? h1, fun k' hk' i => ?_⟩
    rw [i1.query hk'.1 hk'.2, i7, h2]
    have := hcomb (c.trans k') i
    simp only [Option.getD_none] at *
    rw [this]

/-- `query` returns the position of the key, and -1 for keys that are not in the table. -/
theorem bcht_query (h : Table c s L) {k : K} (hk : Good c k) (i : Nat) :
    query c s k = some i ↔ ∃ k', L[i]? = some k' ∧ c.trans k' = c.trans k := by
  obtain ⟨occ, hinv⟩ := h.inv
  rw [hinv.query hk.1 hk.2, h.has]

/-- `entry` returns a slot that holds the key, or one of the two markers if the key is not in the table. -/
theorem bcht_entry (h : Table c s L) {k : K} (hk : Good c k) :
    (∃ q < s.cap c, entry c s k = .slot q ∧ s.keys q = c.trans k ∧ ∃ k' ∈ L, c.trans k' = c.trans k) ∨
      (entry c s k = .minusOne ∨ entry c s k = .max) ∧ ∀ k' ∈ L, c.trans k' ≠ c.trans k := by
  obtain ⟨occ, hinv⟩ := h.inv
  have hno : (∀ i, ¬ Has c s (c.trans k) i) → ∀ k' ∈ L, c.trans k' ≠ c.trans k := by
    intro hn k' hk' e
    obtain ⟨i, hi, rfl⟩ := List.getElem_of_mem hk'
    exact hn i ((h.has _ _).2 ⟨_, by simp, e⟩)
  unfold entry
  by_cases e : s.nb = 0
  · rw [if_pos e]
    exact .inr ⟨.inr rfl, hno fun i ⟨b, hb, _⟩ => by omega⟩
  · rw [if_neg e]
    have hnb : 0 < s.nb := Nat.pos_of_ne_zero e
    cases hf : find c s k [0, 1, 2] with
    | inr q =>
      obtain ⟨b, hb, j, hj, rfl, e1⟩ := find_inr hnb hf
      left
      refine ⟨_, ?_, rfl, e1, ?_⟩
      · unfold St.cap
        calc b * c.B + j < b * c.B + c.B := by omega
          _ = (b + 1) * c.B := by rw [Nat.add_mul, Nat.one_mul]
          _ ≤ s.nb * c.B := Nat.mul_le_mul_right _ hb
      · obtain ⟨i, hi⟩ := hinv.ided b hb j ((hinv.dense b hb j hj).1 (e1 ▸ hk.2))
        obtain ⟨k', h1, h2⟩ := (h.has (c.trans k) i).1 ⟨b, hb, j, hj, e1, hi, hk.2⟩
        exact ⟨k', List.mem_of_getElem? h1, h2⟩
    | inl r =>
      right
      refine ⟨?_, hno (find_inl hinv hk.1 hnb hf)⟩
      cases r
      · exact .inr rfl
      · exact .inl rfl

/-- A sequence of insertions and the values they returned. -/
inductive Inserts (c : Cfg K S) : St K S → List (K × Ret) → St K S → Prop
  | nil {s : St K S} : Inserts c s [] s
  | cons {s s1 s2 : St K S} {k : K} {r : Ret} {l : List (K × Ret)} : insert c s k none true = some (s1, r) → Inserts c s1 l s2 → Inserts c s ((k, r) :: l) s2

theorem inserts_table (hp : ∀ e, c.pick e < c.B) {l : List (K × Ret)} (h : Inserts c s l s') (hnb : 0 < s.nb) (hT : Table c s L)
    (hg : ∀ p ∈ l, Good c p.1) (hd : ((L ++ l.map Prod.fst).map c.trans).Nodup) (hs : ∀ p ∈ l, p.2 ≠ .failure) :
    Table c s' (L ++ l.map Prod.fst) ∧ ∀ i (hi : i < l.length), l[i].2 = .index (L.length + i) := by
  induction h generalizing L with
  | nil => simpa using hT
  | @cons s s1 s2 k r l h1 h2 ih =>
    have hn : ∀ k' ∈ L, c.trans k' ≠ c.trans k := by
      rw [List.map_append, List.nodup_append] at hd
      intro k' hk' e
      exact hd.2.2 _ (List.mem_map_of_mem hk') _ (by simp) e
    rcases bcht_insert_new hp hT hnb (hg _ List.mem_cons_self) hn with ⟨s1', e1, e2, e3⟩ | ⟨s1', e1, -⟩
    · rw [h1] at e1
      cases e1
      obtain ⟨a, b⟩ := ih (by rw [e2]; exact hnb) e3 (fun p hp => hg p (List.mem_cons_of_mem _ hp)) (by simpa using hd)
        (fun p hp => hs p (List.mem_cons_of_mem _ hp))
      refine ⟨by simpa using a, fun i hi => ?_⟩
      cases i with
      | zero => rfl
      | succ i =>
        have := b i (by simpa using hi)
        simp only [List.getElem_cons_succ, this, List.length_append, List.length_singleton]
        congr 1
        omega
    · rw [h1] at e1
      cases e1
      exact absurd rfl (hs _ List.mem_cons_self)

/-- C39 for different keys other than the sentinel, `KeyCompare = true` and the sequential view: when no
insertion fails, every key is found with the index its insertion returned, the indices are 0, 1, …, and
no other key is found. Missing: keys inserted repeatedly (`bcht_duplicate_violated`),
`KeyCompare = false` (`bcht_hashed_violated`), the sentinel (`bcht_sentinel_violated`), parallel insertion. -/
theorem bcht_insert_partial [DecidableEq K] {B : Nat} (hB : 0 < B) {chains : Nat → Nat} {h : Fin 3 → K → Nat} {sent : K} {n : Nat} (hn : 0 < n)
    {l : List (K × Ret)} {s' : St K K} (hr : Inserts (Cfg.plain B chains h sent) (make (Cfg.plain B chains h sent) n) l s')
    (hg : ∀ p ∈ l, p.1 ≠ sent) (hd : (l.map Prod.fst).Nodup) (hs : ∀ p ∈ l, p.2 ≠ .failure) :
    (∀ i (hi : i < l.length), l[i].2 = .index i ∧ query (Cfg.plain B chains h sent) s' l[i].1 = some i) ∧
      ∀ k, k ≠ sent → k ∉ l.map Prod.fst → query (Cfg.plain B chains h sent) s' k = none := by
  have hnb : 0 < (make (Cfg.plain B chains h sent) n).nb := by
    have := (bcht_make (c := Cfg.plain B chains h sent) hB n).2
    unfold St.cap at this
    exact Nat.pos_of_ne_zero fun e => by rw [e] at this; omega
  obtain ⟨a, b⟩ := inserts_table (plain_pick hB) hr hnb (bcht_make (c := Cfg.plain B chains h sent) hB n).1
    (fun p hp => plain_good.2 (hg p hp)) (by simpa [Cfg.plain] using hd) hs
  refine ⟨fun i hi => ⟨by simpa using b i hi, ?_⟩, fun k hk hnot => ?_⟩
  · exact (bcht_query a (plain_good.2 (hg _ (List.getElem_mem hi))) i).2 ⟨_, by simp [hi], rfl⟩
  · cases e : query (Cfg.plain B chains h sent) s' k with
    | none => rfl
    | some i =>
      obtain ⟨k', h1, h2⟩ := (bcht_query a (plain_good.2 hk) i).1 e
      have : k' = k := h2
      subst this
      exact absurd (List.mem_of_getElem? h1) (by simpa using hnot)

/-- Only keys with positions below `m` are in the table, and all of them if `P`. -/
structure Again (c : Cfg K S) (s : St K S) (L : List K) (m : Nat) (P : Prop) : Prop where
  inv : ∃ occ, Inv c s occ
  cnt : s.cnt = L.length
  has : ∀ x i, Has c s x i → i < m ∧ ∃ k, L[i]? = some k ∧ c.trans k = x
  all : P → ∀ x i, i < m → (∃ k, L[i]? = some k ∧ c.trans k = x) → Has c s x i
  active : ∀ i k, L[i]? = some k → s.active i = some k

theorem again_table (hp : ∀ e, c.pick e < c.B) (hg : ∀ k ∈ L, Good c k)
    (hd : ∀ (i j : Nat) (k k' : K), L[i]? = some k → L[j]? = some k' → c.trans k = c.trans k' → i = j) :
    ∀ (n m : Nat) (s : St K S) (P : Prop), m + n = L.length → 0 < s.nb → Again c s L m P →
      ∃ s' rs, again c (List.range' m n) s = some (s', rs) ∧ Again c s' L (m + n) (P ∧ ∀ r ∈ rs, r ≠ .failure) ∧ s'.nb = s.nb := by
  intro n
  induction n with
  | zero =>
    intro m s P _ _ h
    exact ⟨s, [], rfl, ⟨h.inv, h.cnt, h.has, fun hP => h.all hP.1, h.active⟩, rfl⟩
  | succ n ih =>
    intro m s P hm hnb h
    have hml : m < L.length := by omega
    have hk : L[m]? = some L[m] := by simp
    obtain ⟨occ, hinv⟩ := h.inv
    have hgood := hg L[m] (List.getElem_mem hml)
    have hnot : ∀ i, ¬ Has c s (c.trans L[m]) i := by
      intro i hi
      obtain ⟨h1, k', h2, h3⟩ := h.has _ _ hi
      have := hd i m k' L[m] h2 hk h3
      omega
    obtain ⟨s1, occ1, i1, i2, i3, i4, i5⟩ := loop_spec hp L[m] false (c.chains (s.cap c) - 1) 0 s occ (c.h 0 L[m] % s.nb) (c.trans L[m])
      (some m) (some m) hinv (Nat.mod_lt _ hnb) hgood.2 (.inl (by rw [hgood.1])) ((hinv.not_has hgood.2).2 hnot)
    have hact : ∀ i k, L[i]? = some k → s1.active i = some k := fun i k e => by rw [i4]; exact h.active i k e
    have hcnt : s1.cnt = L.length := by rw [i3]; exact h.cnt
    have hstep : ∃ r, insert c s L[m] (some m) false = some (s1, r) ∧ Again c s1 L (m + 1) (P ∧ r ≠ .failure) := by
      unfold insert
      rw [if_neg (by omega)]
      rcases i5 with ⟨i5, i6⟩ | ⟨i5, z, -, i7⟩
      · refine ⟨.index m, i5, ⟨occ1, i1⟩, hcnt, fun x i hx => ?_, fun hP x i hi hx => ?_, hact⟩
        · rcases (i6 x i).1 hx with hx | ⟨rfl, rfl⟩
          · obtain ⟨a, b⟩ := h.has x i hx
            exact ⟨by omega, b⟩
          · exact ⟨Nat.lt_succ_self _, _, hk, rfl⟩
        · refine (i6 x i).2 ?_
          by_cases e : i = m
          · subst e
            obtain ⟨k, h1, h2⟩ := hx
            rw [hk] at h1
            cases h1
            exact .inr ⟨h2.symm, rfl⟩
          · exact .inl (h.all hP.1 x i (by omega) hx)
      · refine ⟨.failure, i5, ⟨occ1, i1⟩, hcnt, fun x i hx => ?_, fun hP => absurd rfl hP.2, hact⟩
        rcases ((i7 x i).1 hx).1 with hx | ⟨rfl, rfl⟩
        · obtain ⟨a, b⟩ := h.has x i hx
          exact ⟨by omega, b⟩
        · exact ⟨Nat.lt_succ_self _, _, hk, rfl⟩
    obtain ⟨r, e1, e2⟩ := hstep
    obtain ⟨s2, rs, a1, a2, a3⟩ := ih (m + 1) s1 _ (by omega) (by rw [i2]; exact hnb) e2
    refine ⟨s2, r :: rs, ?_, ?_, a3.trans i2⟩
    · rw [List.range'_succ]
      unfold again
      simp only [h.active m _ hk, e1, Option.bind_some, a1, Option.map_some]
    · rw [show m + (n + 1) = m + 1 + n by omega]
      exact ⟨a2.inv, a2.cnt, a2.has, fun hP => a2.all ⟨⟨hP.1, hP.2 r List.mem_cons_self⟩, fun q hq => hP.2 q (List.mem_cons_of_mem _ hq)⟩, a2.active⟩

/-- `resize` keeps the keys and their indices provided that none of the insertions fails, and finds no other
keys in any case. Missing: failures, which are not reported (`bcht_resize_violated`). -/
theorem bcht_resize_partial (hB : 0 < c.B) (hp : ∀ e, c.pick e < c.B) (hg : ∀ k ∈ L, Good c k) (h : Table c s L) (n : Nat) :
    ∃ s' rs, resize c s n = some (s', rs) ∧ 2 * n ≤ s'.cap c ∧ s.cap c ≤ s'.cap c ∧
      (∀ k, Good c k → ∀ i, query c s' k = some i → query c s k = some i) ∧
      ((∀ r ∈ rs, r ≠ .failure) → Table c s' L) := by
  unfold resize
  simp only
  generalize hpad : (if n % c.B ≠ 0 then n + (c.B - n % c.B) else n) = p
  have hd : c.B ∣ p ∧ n ≤ p := by
    have := Nat.mod_lt n hB
    have hdm := Nat.div_add_mod n c.B
    subst hpad
    split
    · refine ⟨⟨n / c.B + 1, ?_⟩, by omega⟩
      rw [Nat.mul_add, Nat.mul_one]; omega
    · next h => exact ⟨Nat.dvd_of_mod_eq_zero (by omega), Nat.le_refl _⟩
  split
  · next hle => exact ⟨s, [], rfl, by omega, Nat.le_refl _, fun _ _ _ e => e, fun _ => h⟩
  · next hle =>
    have hcap : p * 2 / c.B * c.B = p * 2 := Nat.div_mul_cancel (Nat.dvd_mul_right_of_dvd hd.1 2)
    have hnb : 0 < p * 2 / c.B := Nat.pos_of_ne_zero fun e => by rw [e] at hcap; omega
    have h0 : Again c (reset c { s with nb := p * 2 / c.B } false) L 0 True := by
      refine ⟨⟨fun _ => 0, ⟨fun _ => Nat.zero_le _, fun b _ j _ => ⟨fun h => absurd rfl h, fun h => absurd h (Nat.not_lt_zero _)⟩, ?_, ?_, ?_⟩⟩, h.cnt,
        ?_, fun _ _ _ hi => absurd hi (Nat.not_lt_zero _), h.active⟩
      · intro b _ j hj; exact absurd hj (Nat.not_lt_zero _)
      · intro b _ j hj; exact absurd hj (Nat.not_lt_zero _)
      · intro b _ j hj; exact absurd hj (Nat.not_lt_zero _)
      · rintro x i ⟨b, _, j, _, e, _, h⟩; exact absurd e.symm h
    obtain ⟨s', rs, a1, a2, a3⟩ := again_table hp hg (fun i j k k' => h.nodup) L.length 0 _ True (Nat.zero_add _) hnb h0
    have hcap' : s'.cap c = p * 2 := by
      unfold St.cap
      rw [a3]
      exact hcap
    refine ⟨s', rs, ?_, by omega, by omega, fun k hk i e => ?_, fun hr => ?_⟩
    · rw [← h.cnt] at a1
      rw [List.range_eq_range']
      exact a1
    · obtain ⟨occ, hinv⟩ := a2.inv
      rw [hinv.query hk.1 hk.2] at e
      obtain ⟨-, e⟩ := a2.has _ _ e
      exact (bcht_query h hk i).2 e
    · refine ⟨a2.inv, a2.cnt, fun x i => ⟨fun hx => (a2.has x i hx).2, fun hx => a2.all ⟨trivial, hr⟩ x i ?_ hx⟩, a2.active⟩
      obtain ⟨k, hk, -⟩ := hx
      have := (List.getElem?_eq_some_iff.1 hk).1
      omega

/-! ## Counterexamples -/

/-- A table of 32-bit integers with the default hash functions and bucket size, and the given number of
chains: 35 for 32 slots and 42 for 64. -/
def tab (ch : Nat) : Cfg (BitVec 32) (BitVec 32) := Cfg.plain 16 (fun _ => ch) (fun i k => (hf i k).toNat) 0x3f3f3f3f

/-- The same with `KeyCompare = false`. -/
def htab (ch : Nat) : Cfg (BitVec 32) (BitVec 32) := Cfg.hashed 16 (fun _ => ch) hf BitVec.toNat id 0x3f3f3f3f

/-- Insertion of a list of keys; the results in reverse order. -/
def fill (c : Cfg K S) : List K → St K S → List Ret → Option (St K S × List Ret)
  | [], s, l => some (s, l)
  | k :: r, s, l => (insert c s k none true).bind fun p => fill c r p.1 (p.2 :: l)

theorem fill_inserts {ks : List K} {rs acc : List Ret} (h : fill c ks s acc = some (s', rs)) :
    ∃ l, Inserts c s l s' ∧ l.map Prod.fst = ks ∧ rs = (l.map Prod.snd).reverse ++ acc := by
  induction ks generalizing s acc with
  | nil =>
    cases h
    exact ⟨[], .nil, rfl, rfl⟩
  | cons k ks ih =>
    unfold fill at h
    obtain ⟨p, h1, h2⟩ := Option.bind_eq_some_iff.1 h
    obtain ⟨l, a1, a2, a3⟩ := ih h2
    exact ⟨(k, p.2) :: l, .cons h1 a1, by simp [a2], by simp [a3]⟩

/-- The keys 0, `d`, `2 * d`, … -/
def mult (d n : Nat) : List (BitVec 32) := (List.range n).map fun i => BitVec.ofNat 32 (d * i)

/-- The hypotheses of `bcht_insert_partial` are met by 17 keys that meet in one bucket. -/
example : ∃ l s', Inserts (tab 42) (make (tab 42) 32) l s' ∧ (∀ p ∈ l, p.1 ≠ 0x3f3f3f3f) ∧ (l.map Prod.fst).Nodup ∧
    (∀ p ∈ l, p.2 ≠ .failure) ∧ l.length = 17 := by
  have h : ((fill (tab 42) (mult 4 17) (make (tab 42) 32) []).map Prod.snd) = some ((List.range 17).reverse.map .index) := by decide +kernel
  obtain ⟨⟨s', rs⟩, h1, h2⟩ := Option.map_eq_some_iff.1 h
  obtain ⟨l, a1, a2, a3⟩ := fill_inserts h1
  refine ⟨l, s', a1, ?_, by rw [a2]; decide +kernel, ?_, ?_⟩
  · intro p hp e
    have : p.1 ∈ mult 4 17 := by rw [← a2]; exact List.mem_map_of_mem hp
    rw [e] at this
    revert this
    decide +kernel
  · intro p hp e
    have : p.2 ∈ rs := by rw [a3]; simpa using ⟨p.1, hp⟩
    simp only at h2
    rw [h2, e] at this
    revert this
    decide
  · have := congrArg List.length a2
    simpa [mult] using this

/-- A key that has been moved to its second bucket is inserted again: the 17 keys 0, 4, …, 64 fit into a
table for 32 keys, key 4 has index 1; the insertion of 4 succeeds again and returns the index 17. -/
theorem bcht_duplicate_violated :
    ((fill (tab 42) (mult 4 17) (make (tab 42) 32) []).bind fun p =>
      (insert (tab 42) p.1 4 none true).map fun q => (query (tab 42) p.1 4, q.2, query (tab 42) q.1 4, q.1.cnt)) =
    some (some 1, .index 17, some 17, 18) := by decide +kernel

/-- With `KeyCompare = false` the stored hash is hashed again when a key is moved: all 17 insertions succeed and
key 4 is lost. -/
theorem bcht_hashed_violated :
    ((fill (htab 42) (mult 4 17) (make (htab 42) 32) []).map fun p =>
      (p.2, query (htab 42) p.1 4)) = some ((List.range 17).reverse.map .index, none) := by decide +kernel

/-- A failed insertion removes another key: the 17 even keys 0, 2, …, 32 in a table for 16 keys (32 slots); the
last insertion fails, its key is in the table and key 22, whose insertion succeeded, is lost. -/
theorem bcht_failure_violated :
    ((fill (tab 35) (mult 2 17) (make (tab 35) 16) []).map fun p =>
      (p.2, query (tab 35) p.1 32, query (tab 35) p.1 22)) =
    some (.failure :: (List.range 16).reverse.map .index, some 16, none) := by decide +kernel

/-- Failed insertions use up indices: after the insertion of the even keys 0, …, 62, of which 16 succeed, that
of key 1 writes beyond the end of the active keys. -/
theorem bcht_overflow_violated :
    ((fill (tab 35) (mult 2 32) (make (tab 35) 16) []).map fun p =>
      (p.1.cnt, p.1.cap (tab 35), (insert (tab 35) p.1 1 none true).isNone)) = some (32, 32, true) := by decide +kernel

/-- The sentinel is reported as present in an empty table. -/
theorem bcht_sentinel_violated :
    ((insert (tab 35) (make (tab 35) 16) 0x3f3f3f3f none true).map Prod.snd) = some .present := by decide +kernel

/-- `resize` loses a key without a sign: a table with buckets of one slot and the hash `6 * k` in which 0 and 1
are found grows from 4 to 6 buckets. -/
theorem bcht_resize_violated :
    let c : Cfg Nat Nat := Cfg.plain 1 (fun _ => 14) (fun _ k => 6 * k) 1000
    ((fill c [0, 1] (make c 2) []).bind fun p =>
      (resize c p.1 3).map fun q => (query c p.1 0, query c p.1 1, q.2, query c q.1 0, query c q.1 1)) =
    some (some 0, some 1, [.index 0, .failure], some 0, none) := by decide +kernel

end Verif.Bcht
