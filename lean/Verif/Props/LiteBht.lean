import Verif.Proof.LiteBht

/-!
Properties of the hash table view for compiled kernels, after any sequence of insertions by one thread.
-/
namespace Verif.LiteBht

variable {K : Type} [DecidableEq K]

/-- A key that is not found gets the next index or is refused; one that is found is reported as present. -/
theorem insert_exact (p : Par K) (hs : 2 ≤ p.size) (hn : p.num ≠ 0) (ks : List K) (k : K) :
    (query p (run p ks) k ≠ none → (insert p (run p ks) k).1 = .present) ∧
    (query p (run p ks) k = none →
      ((∃ i < 3, ((run p ks).bucket (p.place i k)).length < p.size - 1) → (insert p (run p ks) k).1 = .index (run p ks).cnt) ∧
      ((∀ i < 3, ((run p ks).bucket (p.place i k)).length = p.size - 1) → (insert p (run p ks) k).1 = .failure)) := by
  have h := inv_run p hs ks
  generalize run p ks = t at h
  simp only [query, insert, if_neg hn]
  rcases insertGo_cases p t k [0, 1, 2] with ⟨a, b⟩ | ⟨i, hi, l, a, c, d⟩ | ⟨a, b, c⟩
  · refine ⟨fun _ => by rw [a], fun q => ?_⟩
    refine absurd ?_ ((query_none p t k _).mp q)
    have : ∀ L, Reach p t k L → Found p t k L := by
      intro L
      induction L with
      | nil => exact id
      | cons i is ih =>
        rintro (f | ⟨-, f⟩)
        · exact Or.inl f
        · exact Or.inr (ih f)
    exact this _ b
  · refine ⟨fun q => ?_, fun _ => ⟨fun _ => by rw [a], fun z => ?_⟩⟩
    · exact absurd ((query_none p t k _).mpr fun f => c (h.reach k f)) q
    · have i3 : i < 3 := by
        simp at hi
        omega
      have := z i i3
      omega
  · refine ⟨fun q => ?_, fun _ => ⟨?_, fun _ => by rw [a]⟩⟩
    · exact absurd ((query_none p t k _).mpr fun f => b (h.reach k f)) q
    · rintro ⟨i, hi, w⟩
      have := c i (by
        simp
        omega)
      omega

/-- The key is found with the index it got. -/
theorem insert_query (p : Par K) (hs : 2 ≤ p.size) (ks : List K) (k : K) (n : Nat) (h : (insert p (run p ks) k).1 = .index n) :
    query p (run p (ks ++ [k])) k = some n ∧ n = (run p ks).cnt ∧ (run p (ks ++ [k])).cnt = n + 1 := by
  have inv := inv_run p hs ks
  have e : run p (ks ++ [k]) = (insert p (run p ks) k).2 := by simp [run]
  rw [e]
  generalize run p ks = t at *
  unfold insert at h ⊢
  by_cases hn : p.num = 0
  · rw [if_pos hn] at h; cases h
  rw [if_neg hn] at h ⊢
  unfold query
  rw [if_neg hn]
  rcases insertGo_cases p t k [0, 1, 2] with ⟨a, -⟩ | ⟨i, hi, l, a, c, d⟩ | ⟨a, -, -⟩
  · rw [a] at h; cases h
  · rw [a] at h ⊢
    cases h
    exact ⟨query_put p t _ k _ (fun f => c (inv.reach k f)) ⟨i, hi, rfl⟩, rfl, rfl⟩
  · rw [a] at h; cases h

/-- Other keys are found as before, whatever the insertion returns. -/
theorem insert_others (p : Par K) (ks : List K) (k j : K) (h : k ≠ j) : query p (run p (ks ++ [k])) j = query p (run p ks) j := by
  have e : run p (ks ++ [k]) = (insert p (run p ks) k).2 := by simp [run]
  rw [e]
  generalize run p ks = t at *
  unfold insert query
  by_cases hn : p.num = 0
  · rw [if_pos hn, if_pos hn]
  rw [if_neg hn, if_neg hn, if_neg hn]
  rcases insertGo_cases p t k [0, 1, 2] with ⟨a, -⟩ | ⟨i, hi, l, a, c, d⟩ | ⟨a, -, -⟩
  · rw [a]
  · rw [a]
    exact query_put_ne p t _ k j h _
  · rw [a]
    have : ∀ L, queryGo p { t with success := false } j L = queryGo p t j L := by
      intro L
      induction L with
      | nil => rfl
      | cons i is ih => simp only [queryGo, ih]
    exact this _

/-- The recorded keys and the indices are the two directions of one map. -/
theorem active_exact (p : Par K) (hs : 2 ≤ p.size) (hn : p.num ≠ 0) (ks : List K) (k : K) (n : Nat) :
    query p (run p ks) k = some n ↔ n < (run p ks).cnt ∧ (run p ks).active n = some k := by
  unfold query
  rw [if_neg hn]
  exact (inv_run p hs ks).keys k n

/-- One slot of every bucket stays empty, so that all indices are within the recorded keys. -/
theorem count_bound (p : Par K) (hs : 2 ≤ p.size) (ks : List K) : (run p ks).cnt + p.num ≤ p.tableSize := by
  have h := inv_run p hs ks
  have := total_le (run p ks) (p.size - 1) h.room p.num
  rw [h.sum] at this
  unfold Par.tableSize
  obtain ⟨s, hs'⟩ : ∃ s, p.size = s + 1 := ⟨p.size - 1, by omega⟩
  rw [hs'] at this ⊢
  rw [Nat.mul_succ]
  simp at this
  omega

/-- The flag is cleared exactly if an insertion was refused. -/
theorem flag_exact (p : Par K) (hn : p.num ≠ 0) (ks : List K) :
    (run p ks).success = false ↔ ∃ a k b, ks = a ++ k :: b ∧ (insert p (run p a) k).1 = .failure := by
  have step : ∀ (t : Table K) (k : K), (insert p t k).2.success = false ↔ t.success = false ∨ (insert p t k).1 = .failure := by
    intro t k
    unfold insert
    rw [if_neg hn]
    rcases insertGo_cases p t k [0, 1, 2] with ⟨a, -⟩ | ⟨i, hi, l, a, c, d⟩ | ⟨a, -, -⟩
    · rw [a]; simp
    · rw [a]; simp [Table.put]
    · rw [a]; simp
  suffices ∀ n (ks : List K), ks.length = n →
      ((run p ks).success = false ↔ ∃ a k b, ks = a ++ k :: b ∧ (insert p (run p a) k).1 = .failure) from this _ ks rfl
  intro n
  induction n with
  | zero =>
    intro ks h
    have : ks = [] := List.eq_nil_of_length_eq_zero h
    subst this
    simp [run, Table.empty]
  | succ n ih =>
    intro ks h
    have hne : ks ≠ [] := by
      intro e
      rw [e] at h
      cases h
    obtain ⟨l, x, e⟩ : ∃ l x, ks = l ++ [x] := ⟨ks.dropLast, ks.getLast hne, (List.dropLast_concat_getLast hne).symm⟩
    subst e
    have e : run p (l ++ [x]) = (insert p (run p l) x).2 := by simp [run]
    rw [e, step, ih l (by simpa using h)]
    constructor
    · rintro (⟨a, k, b, q, r⟩ | r)
      · exact ⟨a, k, b ++ [x], by rw [q]; simp, r⟩
      · exact ⟨l, x, [], rfl, r⟩
    · rintro ⟨a, k, b, q, r⟩
      by_cases hb : b = []
      · subst hb
        have := List.append_inj' q rfl
        obtain ⟨q1, q2⟩ := this
        cases q2
        subst q1
        exact Or.inr r
      · left
        refine ⟨a, k, b.dropLast, ?_, r⟩
        have q' : l ++ [x] = (a ++ k :: b.dropLast) ++ [b.getLast hb] := by
          rw [q, List.append_assoc, List.cons_append, List.dropLast_concat_getLast hb]
        exact (List.append_inj' q' rfl).1

/-- Two buckets of four slots. -/
def small : Par Nat := ⟨4, 2, fun i k => k + i⟩

/-- A key that goes to its second bucket is found there. -/
example : query small (run small [0, 2, 4, 6, 8]) 6 = some 3 ∧ (insert small (run small [0, 2, 4, 6, 8]) 6).1 = .present := by decide

/-- A full table: the refusal is reported. -/
example : (insert small (run small [0, 1, 2, 3, 4, 5]) 6).1 = .failure ∧ (insert small (run small [0, 1, 2, 3, 4, 5]) 6).2.success = false := by decide

/-- The container refuses indices from 20 below the size of the table on; the view gives them out and leaves the flag as it is. -/
theorem limit_violated : (insert (⟨16, 2, fun i k => k + i⟩ : Par Nat) (run ⟨16, 2, fun i k => k + i⟩ (List.range 13)) 13).1 = .index 13 ∧
    (insert (⟨16, 2, fun i k => k + i⟩ : Par Nat) (run ⟨16, 2, fun i k => k + i⟩ (List.range 13)) 13).2.success = true ∧
    (⟨16, 2, fun i k => k + i⟩ : Par Nat).tableSize - 20 ≤ 13 := by decide +kernel

/-- Without buckets, a refusal does not clear the flag. -/
theorem flag_violated (p : Par K) (hn : p.num = 0) (t : Table K) (k : K) : insert p t k = (.failure, t) := by
  unfold insert
  rw [if_pos hn]

end Verif.LiteBht
