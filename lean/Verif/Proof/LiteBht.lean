import Verif.Model.LiteBht

/-!
Invariants of the hash table view for compiled kernels.
-/
namespace Verif.LiteBht

variable {K : Type} [DecidableEq K]

/-- The key is in one of the buckets. -/
def Found (p : Par K) (t : Table K) (k : K) : List Nat → Prop
  | [] => False
  | i :: is => t.has (p.place i k) k = true ∨ Found p t k is

/-- The key is in a bucket, and the buckets before are full. -/
def Reach (p : Par K) (t : Table K) (k : K) : List Nat → Prop
  | [] => False
  | i :: is => t.has (p.place i k) k = true ∨ (p.size - 2 < (t.bucket (p.place i k)).length ∧ Reach p t k is)

theorem has_put (t : Table K) (b x : Nat) (k j : K) : (t.put b k).has x j = (t.has x j || (decide (x = b) && decide (k = j))) := by
  unfold Table.put Table.has
  by_cases h : x = b
  · subst h; simp
  · simp [h]

theorem length_put (t : Table K) (b x : Nat) (k : K) : ((t.put b k).bucket x).length = (t.bucket x).length + if x = b then 1 else 0 := by
  unfold Table.put
  by_cases h : x = b
  · subst h; simp
  · simp [h]

theorem found_put (p : Par K) (t : Table K) (b : Nat) (k j : K) (h : k ≠ j) (L : List Nat) : Found p (t.put b k) j L → Found p t j L := by
  induction L with
  | nil => exact id
  | cons i is ih =>
    intro f
    rcases f with f | f
    · rw [has_put] at f
      left
      simpa [h] using f
    · exact Or.inr (ih f)

theorem reach_put (p : Par K) (t : Table K) (b : Nat) (k j : K) (L : List Nat) : Reach p t j L → Reach p (t.put b k) j L := by
  induction L with
  | nil => exact id
  | cons i is ih =>
    intro f
    rcases f with f | ⟨f, g⟩
    · left; rw [has_put, f]; rfl
    · right; exact ⟨by rw [length_put]; omega, ih g⟩

theorem find_none (l : List (K × Nat)) (k : K) (h : (l.any fun e => decide (e.1 = k)) = false) : (l.find? fun e => decide (e.1 = k)) = none := by
  rw [List.find?_eq_none]
  intro e he
  have := List.any_eq_false.mp h e he
  exact this

theorem query_none (p : Par K) (t : Table K) (k : K) (L : List Nat) : queryGo p t k L = none ↔ ¬ Found p t k L := by
  induction L with
  | nil => simp [queryGo, Found]
  | cons i is ih =>
    cases h : t.has (p.place i k) k with
    | false =>
      have := find_none _ _ h
      simp only [queryGo, this, Found, h, Bool.false_eq_true, false_or]
      exact ih
    | true =>
      have : ((t.bucket (p.place i k)).find? fun e => decide (e.1 = k)) ≠ none := by
        intro q
        unfold Table.has at h
        rw [List.any_eq_true] at h
        obtain ⟨e, he, hk⟩ := h
        exact (List.find?_eq_none.mp q e he) hk
      simp only [queryGo, Found, h, true_or, not_true_eq_false, iff_false]
      cases q : (t.bucket (p.place i k)).find? fun e => decide (e.1 = k) with
      | none => exact absurd q this
      | some e => simp

theorem query_put_ne (p : Par K) (t : Table K) (b : Nat) (k j : K) (h : k ≠ j) (L : List Nat) : queryGo p (t.put b k) j L = queryGo p t j L := by
  induction L with
  | nil => rfl
  | cons i is ih =>
    have : ((t.put b k).bucket (p.place i j)).find? (fun e => decide (e.1 = j)) = (t.bucket (p.place i j)).find? fun e => decide (e.1 = j) := by
      unfold Table.put
      by_cases q : p.place i j = b
      · simp [q, List.find?_append, h]
      · simp [q]
    simp only [queryGo, this, ih]

theorem query_put (p : Par K) (t : Table K) (b : Nat) (k : K) (L : List Nat) (hf : ¬ Found p t k L) (hb : ∃ i ∈ L, p.place i k = b) :
    queryGo p (t.put b k) k L = some t.cnt := by
  induction L with
  | nil => obtain ⟨i, hi, -⟩ := hb; cases hi
  | cons i is ih =>
    have h1 : t.has (p.place i k) k = false := by
      cases h : t.has (p.place i k) k with
      | false => rfl
      | true => exact absurd (Or.inl h) hf
    have h2 : ¬ Found p t k is := fun f => hf (Or.inr f)
    have n := find_none _ _ h1
    by_cases q : p.place i k = b
    · have : ((t.put b k).bucket (p.place i k)).find? (fun e => decide (e.1 = k)) = some (k, t.cnt) := by
        unfold Table.put
        simp only [q, if_true, List.find?_append]
        rw [q] at n
        simp [n]
      simp only [queryGo, this]
    · have : ((t.put b k).bucket (p.place i k)).find? (fun e => decide (e.1 = k)) = none := by
        unfold Table.put
        simpa [q] using n
      simp only [queryGo, this]
      apply ih h2
      obtain ⟨x, hx, e⟩ := hb
      rcases List.mem_cons.mp hx with rfl | hx
      · exact absurd e q
      · exact ⟨x, hx, e⟩

/-- The three ways an insertion ends. -/
theorem insertGo_cases (p : Par K) (t : Table K) (k : K) (L : List Nat) :
    (insertGo p t k L = (.present, t) ∧ Reach p t k L) ∨
    (∃ i ∈ L, (t.bucket (p.place i k)).length ≤ p.size - 2 ∧ insertGo p t k L = (.index t.cnt, t.put (p.place i k) k) ∧ ¬ Reach p t k L ∧
      Reach p (t.put (p.place i k) k) k L) ∨
    (insertGo p t k L = (.failure, { t with success := false }) ∧ ¬ Reach p t k L ∧ ∀ i ∈ L, p.size - 2 < (t.bucket (p.place i k)).length) := by
  induction L with
  | nil => right; right; exact ⟨rfl, id, by simp⟩
  | cons i is ih =>
    unfold insertGo
    by_cases h : t.has (p.place i k) k = true
    · left
      exact ⟨by rw [if_pos h], Or.inl h⟩
    · rw [if_neg h]
      by_cases l : (t.bucket (p.place i k)).length ≤ p.size - 2
      · right; left
        refine ⟨i, by simp, l, by rw [if_pos l], ?_, ?_⟩
        · rintro (f | ⟨f, -⟩)
          · exact h f
          · omega
        · left; rw [has_put]; simp
      · rw [if_neg l]
        rcases ih with ⟨a, b⟩ | ⟨x, hx, a, b, c, d⟩ | ⟨a, b, c⟩
        · left; exact ⟨a, Or.inr ⟨by omega, b⟩⟩
        · right; left
          refine ⟨x, by simp [hx], a, b, ?_, ?_⟩
          · rintro (f | ⟨-, f⟩)
            · exact h f
            · exact c f
          · right; exact ⟨by rw [length_put]; omega, d⟩
        · right; right
          refine ⟨a, ?_, ?_⟩
          · rintro (f | ⟨-, f⟩)
            · exact h f
            · exact b f
          · intro y hy
            rcases List.mem_cons.mp hy with rfl | hy
            · omega
            · exact c y hy

/-- How many slots are filled in the first buckets. -/
def total (t : Table K) : Nat → Nat
  | 0 => 0
  | n + 1 => total t n + (t.bucket n).length

theorem total_put (t : Table K) (b : Nat) (k : K) (n : Nat) : total (t.put b k) n = total t n + if b < n then 1 else 0 := by
  induction n with
  | zero => simp [total]
  | succ n ih =>
    rw [total, total, ih, length_put]
    split <;> split <;> split <;> omega

theorem total_le (t : Table K) (c : Nat) (h : ∀ b, (t.bucket b).length ≤ c) (n : Nat) : total t n ≤ n * c := by
  induction n with
  | zero => simp [total]
  | succ n ih =>
    rw [total, Nat.succ_mul]
    have := h n
    omega

/-- What holds between insertions. -/
structure Inv (p : Par K) (t : Table K) : Prop where
  room : ∀ b, (t.bucket b).length ≤ p.size - 1
  sum : total t p.num = t.cnt
  reach : ∀ k, Found p t k [0, 1, 2] → Reach p t k [0, 1, 2]
  keys : ∀ k n, queryGo p t k [0, 1, 2] = some n ↔ n < t.cnt ∧ t.active n = some k

theorem inv_empty (p : Par K) : Inv p (Table.empty K) := by
  refine ⟨fun b => by simp [Table.empty], ?_, ?_, ?_⟩
  · have : ∀ n, total (Table.empty K) n = 0 := by
      intro n
      induction n with
      | zero => rfl
      | succ n ih => rw [total, ih]; simp [Table.empty]
    rw [this]; rfl
  · intro k f
    simp [Found, Table.has, Table.empty] at f
  · intro k n
    simp [queryGo, Table.empty]

theorem inv_insert (p : Par K) (hs : 2 ≤ p.size) (t : Table K) (k : K) (h : Inv p t) : Inv p (insert p t k).2 := by
  unfold insert
  by_cases hn : p.num = 0
  · rw [if_pos hn]; exact h
  rw [if_neg hn]
  rcases insertGo_cases p t k [0, 1, 2] with ⟨a, -⟩ | ⟨i, hi, l, a, c, d⟩ | ⟨a, -, -⟩
  · rw [a]; exact h
  · rw [a]
    have nf : ¬ Found p t k [0, 1, 2] := fun f => c (h.reach k f)
    have q0 : queryGo p t k [0, 1, 2] = none := (query_none p t k _).mpr nf
    have q1 := query_put p t (p.place i k) k [0, 1, 2] nf ⟨i, hi, rfl⟩
    refine ⟨?_, ?_, ?_, ?_⟩
    · intro b
      rw [length_put]
      have := h.room b
      split
      · rename_i e; subst e; omega
      · omega
    · rw [total_put, h.sum, if_pos (show p.place i k < p.num from Nat.mod_lt _ (by omega))]
      rfl
    · intro j f
      by_cases e : k = j
      · subst e; exact d
      · exact reach_put p t _ k j _ (h.reach j (found_put p t _ k j e _ f))
    · intro j n
      have hc : (t.put (p.place i k) k).cnt = t.cnt + 1 := rfl
      have ha : (t.put (p.place i k) k).active n = if n = t.cnt then some k else t.active n := rfl
      rw [hc, ha]
      by_cases e : k = j
      · subst e
        rw [q1]
        constructor
        · intro w
          cases w
          exact ⟨by omega, by simp⟩
        · rintro ⟨w1, w2⟩
          by_cases z : n = t.cnt
          · rw [z]
          · rw [if_neg z] at w2
            have := (h.keys k n).mpr ⟨by omega, w2⟩
            rw [q0] at this
            cases this
      · rw [query_put_ne p t _ k j e, h.keys j n]
        by_cases z : n = t.cnt
        · subst z
          simp [e]
        · rw [if_neg z]
          constructor
          · rintro ⟨w1, w2⟩; exact ⟨by omega, w2⟩
          · rintro ⟨w1, w2⟩; exact ⟨by omega, w2⟩
  · rw [a]
    have ht : ∀ n, total { t with success := false } n = total t n := by
      intro n
      induction n with
      | zero => rfl
      | succ n ih => rw [total, total, ih]
    exact ⟨h.room, by rw [ht]; exact h.sum, h.reach, h.keys⟩

theorem inv_run (p : Par K) (hs : 2 ≤ p.size) (ks : List K) : Inv p (run p ks) := by
  unfold run
  suffices ∀ t, Inv p t → Inv p (ks.foldl (fun t k => (insert p t k).2) t) from this _ (inv_empty p)
  induction ks with
  | nil => intro t h; exact h
  | cons k ks ih => intro t h; exact ih _ (inv_insert p hs t k h)

end Verif.LiteBht
