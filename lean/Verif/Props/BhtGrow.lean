import Verif.Proof.BhtGrow

/-!
The life of a `bht` (C37): batches of concurrent insertions and calls of `resize` in any order, none of which fails.
-/
namespace Verif.Bht

variable {K : Type} [DecidableEq K] {c c' : Cfg K} {s s' : St K} {S : K → Prop}

/-- A table and the keys that have been inserted so far, in batches whose calls run in any interleaving; between them calls of `resize`. -/
inductive Life : Cfg K → St K → (K → Prop) → Prop
  | new {c : Cfg K} (act : Nat → K) (indices : Nat → Nat) : 2 ≤ c.B → Life c (c.empty 0 act indices) fun _ => False
  | insert {c : Cfg K} {s s' : St K} {S : K → Prop} (task : Nat → Task K) (N : Nat) : Life c s S → Inserts task → (∀ t < N, (task t).key ≠ c.hole) →
      Ran c task { s with pc := fun _ => .start } N s' → Finished s' N → (∀ t < N, result s' t ≠ some .failure) →
      Life c s' fun k => S k ∨ ∃ t < N, (task t).key = k
  | resize {c : Cfg K} {s s' : St K} {S : K → Prop} (nb : Nat) (indices : Nat → Nat) : Life c s S →
      Ran { c with nb := nb } (resizeTask s.active) (Cfg.empty { c with nb := nb } s.cnt s.active indices) s.cnt s' → Finished s' s.cnt →
      (∀ t < s.cnt, result s' t ≠ some .failure) → Life { c with nb := nb } s' S

theorem Life.sound (h : Life c s S) : 2 ≤ c.B ∧ Sound c s ∧ (∀ k, S k ↔ ∃ i < s.cnt, s.active i = k) := by
  induction h with
  | new act indices hB =>
    exact ⟨hB, ⟨fun a h => absurd rfl h, fun a h => absurd rfl h, fun i h => absurd h (Nat.not_lt_zero i)⟩,
      fun k => ⟨False.elim, fun ⟨i, h, _⟩ => absurd h (Nat.not_lt_zero i)⟩⟩
  | @insert c s s' S task N _ ht hk hr hf hok ih =>
    obtain ⟨hB, hs, hS⟩ := ih
    obtain ⟨h1, h2, h3, h4, h5⟩ := Sound.insert (s := { s with pc := fun _ => .start }) hB ⟨hs.placed, hs.slot, hs.listed⟩ (fun _ => rfl) ht hk hr hf hok
    refine ⟨hB, h1, fun k => ⟨?_, ?_⟩⟩
    · rintro (h | ⟨t, ht, rfl⟩)
      · obtain ⟨i, hi, e⟩ := (hS k).1 h
        exact ⟨i, Nat.lt_of_lt_of_le hi h2, (h3 i hi).trans e⟩
      · exact h5 t ht
    · rintro ⟨i, hi, rfl⟩
      rcases Nat.lt_or_ge i s.cnt with h | h
      · exact .inl ((hS _).2 ⟨i, h, (h3 i h).symm⟩)
      · obtain ⟨t, ht, e⟩ := h4 i h hi
        exact .inr ⟨t, ht, e.symm⟩
  | @resize c s s' S nb indices _ hr hf hok ih =>
    obtain ⟨hB, hs, hS⟩ := ih
    obtain ⟨h1, h2, h3⟩ := Sound.resize (c := c) (c' := { c with nb := nb }) hB hB rfl hs hr hf hok
    exact ⟨hB, h1, fun k => by rw [hS, h2, h3]⟩

/-- The table is a dictionary: `query` finds a key other than the sentinel exactly if it was inserted; the numbers found are those of the list of
keys, which has each key once. -/
theorem bht_dictionary (h : Life c s S) :
    (∀ k, k ≠ c.hole → ((∃ i, query c s k = some i) ↔ S k))
    ∧ (∀ k i, k ≠ c.hole → (query c s k = some i ↔ i < s.cnt ∧ s.active i = k))
    ∧ (∀ i < s.cnt, S (s.active i) ∧ s.active i ≠ c.hole) ∧ ∀ i j, i < s.cnt → j < s.cnt → s.active i = s.active j → i = j := by
  obtain ⟨hB, hs, hS⟩ := h.sound
  refine ⟨fun k hk => ?_, fun k i hk => hs.query hB hk i, fun i hi => ⟨(hS _).2 ⟨i, hi, rfl⟩, (hs.listed i hi).1⟩, fun i j hi hj e => ?_⟩
  · rw [hS]
    constructor
    · rintro ⟨i, hi⟩
      exact ⟨i, (hs.query hB hk i).1 hi⟩
    · rintro ⟨i, hi⟩
      exact ⟨i, (hs.query hB hk i).2 hi⟩
  · have h1 := (hs.query hB (hs.listed i hi).1 i).2 ⟨hi, rfl⟩
    have h2 := (hs.query hB (hs.listed i hi).1 j).2 ⟨hj, e.symm⟩
    rw [h1] at h2
    cases h2
    rfl

/-- What an insertion or `resize` finds keeps its number. -/
theorem bht_numbers_kept_insert {task : Nat → Task K} {N : Nat} (h : Life c s S) (ht : Inserts task) (hk : ∀ t < N, (task t).key ≠ c.hole)
    (hr : Ran c task { s with pc := fun _ => .start } N s') (hf : Finished s' N) (hok : ∀ t < N, result s' t ≠ some .failure) {k : K} {i : Nat}
    (hne : k ≠ c.hole) (hq : query c s k = some i) : query c s' k = some i := by
  obtain ⟨hB, hs, _⟩ := h.sound
  obtain ⟨h1, h2, h3, _⟩ := Sound.insert (s := { s with pc := fun _ => .start }) hB ⟨hs.placed, hs.slot, hs.listed⟩ (fun _ => rfl) ht hk hr hf hok
  obtain ⟨hi, e⟩ := (hs.query hB hne i).1 hq
  exact (h1.query hB hne i).2 ⟨Nat.lt_of_lt_of_le hi h2, (h3 i hi).trans e⟩

theorem bht_numbers_kept_resize {nb : Nat} {indices : Nat → Nat} (h : Life c s S)
    (hr : Ran { c with nb := nb } (resizeTask s.active) (Cfg.empty { c with nb := nb } s.cnt s.active indices) s.cnt s') (hf : Finished s' s.cnt)
    (hok : ∀ t < s.cnt, result s' t ≠ some .failure) {k : K} (hne : k ≠ c.hole) : query { c with nb := nb } s' k = query c s k := by
  obtain ⟨hB, hs, _⟩ := h.sound
  obtain ⟨h1, h2, h3⟩ := Sound.resize (c := c) (c' := { c with nb := nb }) hB hB rfl hs hr hf hok
  apply Option.ext
  intro i
  rw [Sound.query (c := { c with nb := nb }) hB h1 hne i, hs.query hB hne i, h2, h3]

/-- A table of one bucket; `3` is inserted, then `7`. -/
example : ∃ c : Cfg Nat, ∃ s S, Life c s S ∧ (∀ k, S k ↔ k = 3 ∨ k = 7) ∧ (∃ i, query c s 3 = some i) ∧ (∃ i, query c s 7 = some i)
    ∧ ¬ ∃ i, query c s 5 = some i := by
  let c : Cfg Nat := { B := 4, nb := 1, hf := fun _ k => k, hole := 100, width := 64 }
  have one : ∀ (key : Nat) (s : St Nat) S, Life c s S → key ≠ 100 → s.cnt + 1 < 4 → ∃ s', Life c s' fun k => S k ∨ ∃ t < 1, key = k := by
    intro key s S h hk hn
    obtain ⟨hB, hs, _⟩ := h.sound
    have hs0 : Sound c { s with pc := fun _ => .start } := ⟨hs.placed, hs.slot, hs.listed⟩
    obtain ⟨_, hseen⟩ := hs0.seen hB fun _ => rfl
    have ht : Inserts fun _ : Nat => (⟨key, none, true⟩ : Task Nat) := fun _ => ⟨rfl, rfl⟩
    obtain ⟨s', hr, hf⟩ := hseen.finishes hB ht (N := 1) fun s' hr => hs0.cnt_le_size hB (fun _ => rfl) ht hr
    have hlim : c.limit = 2 ^ 64 - 16 := by decide
    exact ⟨s', .insert _ 1 h ht (fun _ _ => hk) hr hf fun t _ => hseen.room hB ht hr (by decide) hn (by rw [hlim]; show s.cnt + 1 ≤ _; omega) t⟩
  obtain ⟨s1, h1⟩ := one 3 _ _ (.new (fun _ => 0) (fun _ => 0) (by decide)) (by decide) (by decide)
  have hc : s1.cnt ≤ 1 := by
    obtain ⟨_, _, d3, d4⟩ := bht_dictionary h1
    apply Classical.byContradiction
    intro hx
    have e : ∀ i < s1.cnt, s1.active i = 3 := by
      intro i hi
      rcases (d3 i hi).1 with h | ⟨_, _, h⟩
      · exact h.elim
      · exact h.symm
    have := d4 0 1 (by omega) (by omega) ((e 0 (by omega)).trans (e 1 (by omega)).symm)
    omega
  obtain ⟨s2, h2⟩ := one 7 s1 _ h1 (by decide) (by omega)
  have hS : ∀ k, (((False ∨ ∃ t < 1, (3 : Nat) = k) ∨ ∃ t < 1, 7 = k) ↔ k = 3 ∨ k = 7) := by
    intro k
    constructor
    · rintro ((h | ⟨_, _, h⟩) | ⟨_, _, h⟩)
      · exact h.elim
      · exact .inl h.symm
      · exact .inr h.symm
    · rintro (rfl | rfl)
      · exact .inl (.inr ⟨0, by decide, rfl⟩)
      · exact .inr ⟨0, by decide, rfl⟩
  obtain ⟨d1, _⟩ := bht_dictionary h2
  exact ⟨c, s2, _, h2, hS, (d1 3 (by decide)).2 ((hS 3).2 (by decide)), (d1 7 (by decide)).2 ((hS 7).2 (by decide)),
    fun h => absurd ((hS 5).1 ((d1 5 (by decide)).1 h)) (by decide)⟩

end Verif.Bht
