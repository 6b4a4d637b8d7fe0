import Verif.Spec.RingBuffer
/-! Helper lemmas for C01. -/
namespace Verif.RingBuffer

/-- The index of logical position `i` when `head` is in range. -/
def slot (n head i : Int) : Int := if head + i < n then head + i else head + i - n

theorem tmod_slot (n head i : Int) (h0 : 0 ≤ head) (hi0 : 0 ≤ i)
    (hi : i < n) (hne : head < n ∨ n = 1) : (i + head).tmod n = slot n head i ∨ n = 1 := by
  rcases hne with h | h
  · left
    rw [slot]
    rw [Int.tmod_eq_emod_of_nonneg (by omega)]
    split
    · rw [Int.emod_eq_of_lt (by omega) (by omega)]; omega
    · rw [show i + head = (head + i - n) + n by omega, Int.add_emod_right,
        Int.emod_eq_of_lt (by omega) (by omega)]
  · exact Or.inr h

/-- Invariant linking the ring buffer to the deque, for capacities of at least two. -/
structure Rel {α} (n : Nat) (r : RB α) (l : List α) : Prop where
  len : r.size = l.length
  le : l.length ≤ n
  h0 : 0 ≤ r.head
  h1 : r.head < n
  tl : r.tail = slot n r.head (if r.size = 0 then n - 1 else r.size - 1)
  get : ∀ i (h : i < l.length), r.buf (slot n r.head i) = some l[i]

theorem rel_init {α} (n : Nat) (hn : 2 ≤ n) : Rel n (init : RB α) [] := by
  constructor
  · rfl
  · simp
  · simp [init]
  · simp [init]; omega
  · simp only [init, slot, if_true]; split <;> omega
  · intro i h; simp at h

theorem rel_step {α} (n : Nat) (hn : 2 ≤ n) (r : RB α) (l : List α) (op : Op α) (R : Rel n r l) :
    Rel n (step n r op) (specStep n l op) := by
  obtain ⟨len, le, h0, h1, tl, get⟩ := R
  cases op with
  | push x =>
    simp only [step, specStep, push]
    have htail : (incTail (↑n) r).tail = slot n r.head r.size ∧ 0 ≤ (incTail (↑n) r).tail ∧
        (incTail (↑n) r).tail < n := by
      simp only [incTail, tl, slot]
      split <;> split <;> split <;> omega
    have hsize : (incTail (↑n) r).size = l.length + 1 := by simp [incTail, len]
    have hhead : (incTail (↑n) r).head = r.head := rfl
    have hbuf : (incTail (↑n) r).buf = r.buf := rfl
    by_cases hfull : l.length = n
    · rw [if_pos (by omega), if_pos hfull]
      have hh : (incHead (↑n) (incTail (↑n) r)).head = slot n r.head 1 := by
        rw [incHead, if_neg (by omega)]
        simp only [hhead, slot]
        split <;> split <;> omega
      have hs : (incHead (↑n) (incTail (↑n) r)).size = l.length := by
        rw [incHead, if_neg (by omega)]; simp only [hsize]; omega
      have ht : (incHead (↑n) (incTail (↑n) r)).tail = slot n r.head r.size := by
        rw [incHead, if_neg (by omega)]; exact htail.1
      have hb : (incHead (↑n) (incTail (↑n) r)).buf = r.buf := by
        rw [incHead, if_neg (by omega)]
        exact hbuf
      obtain ⟨a, l', rfl⟩ : ∃ a l', l = a :: l' := by
        cases l with
        | nil => simp at hfull; omega
        | cons a l' => exact ⟨a, l', rfl⟩
      simp only [List.length_cons] at *
      constructor
      · simp [hs]
      · simp; omega
      · rw [hh, slot]; split <;> omega
      · rw [hh, slot]; split <;> omega
      · simp only [hh, hs, ht, len, slot]
        split <;> split <;> split <;> split <;> omega
      · intro i hi
        simp only [List.cons_append, List.tail_cons, List.length_append, List.length_singleton] at hi ⊢
        rw [hh, ht, hb, len]
        by_cases hil : i = l'.length
        · subst hil
          rw [if_pos]
          · simp
          · simp only [slot]; split <;> split <;> split <;> omega
        · have hlt : i < l'.length := by omega
          rw [if_neg]
          · have := get (i + 1) (by omega)
            simp only [List.getElem_cons_succ] at this
            rw [List.getElem_append_left hlt, ← this]
            congr 1
            simp only [slot]; split <;> split <;> split <;> omega
          · simp only [slot]; split <;> split <;> split <;> omega
    · rw [if_neg (by omega), if_neg hfull]
      constructor
      · simp only [hsize]; simp
      · simp; omega
      · exact h0
      · exact h1
      · simp only [hsize, htail.1, hhead, len]
        rw [if_neg (by omega)]
        congr 1; omega
      · intro i hi
        simp only [List.length_append, List.length_singleton] at hi
        simp only [htail.1, hhead, hbuf]
        by_cases hil : i = l.length
        · subst hil
          rw [if_pos (by rw [len])]
          simp
        · have hlt : i < l.length := by omega
          rw [if_neg, List.getElem_append_left hlt, get i hlt]
          simp only [slot]; split <;> split <;> omega
  | pop =>
    simp only [step, specStep, pop, decTail]
    by_cases hz : r.size = 0
    · rw [if_pos hz]
      have : l = [] := by
        cases l with
        | nil => rfl
        | cons a l' => simp at len; omega
      subst this
      exact ⟨len, by simp, h0, h1, tl, get⟩
    · rw [if_neg hz]
      rw [if_neg hz] at tl
      constructor
      · simp [len]; omega
      · simp; omega
      · exact h0
      · exact h1
      · simp only [tl, slot]
        split <;> split <;> split <;> (try split) <;> omega
      · intro i hi
        simp only [List.length_dropLast] at hi
        rw [List.getElem_dropLast]
        exact get i (by omega)

theorem rel_run {α} (n : Nat) (hn : 2 ≤ n) (ops : List (Op α)) :
    Rel n (run n ops) (specRun n ops) := by
  have : ∀ (ops : List (Op α)) (r : RB α) l, Rel n r l →
      Rel n (ops.foldl (step n) r) (ops.foldl (specStep n) l) := by
    intro ops
    induction ops with
    | nil => intro r l h; exact h
    | cons op ops ih => intro r l h; exact ih _ _ (rel_step n hn r l op h)
  exact this ops init [] (rel_init n hn)

/-- Same invariant for capacity one, where the head index is not wrapped by the code. -/
structure Rel1 {α} (r : RB α) (l : List α) : Prop where
  len : r.size = l.length
  le : l.length ≤ 1
  tl : r.tail = 0
  get : ∀ (h : 0 < l.length), r.buf 0 = some l[0]

theorem rel1_step {α} (r : RB α) (l : List α) (op : Op α) (R : Rel1 r l) :
    Rel1 (step 1 r op) (specStep 1 l op) := by
  obtain ⟨len, le, tl, get⟩ := R
  match l, le with
  | [], _ =>
    cases op with
    | push x =>
      have hs : r.size = 0 := by simpa using len
      constructor <;> simp [step, specStep, push, incTail, hs, tl]
    | pop =>
      have hs : r.size = 0 := by simpa using len
      constructor <;> simp [step, specStep, pop, decTail, hs, tl]
  | [a], _ =>
    have hs : r.size = 1 := by simpa using len
    cases op with
    | push x =>
      constructor <;> simp [step, specStep, push, incTail, incHead, hs, tl]
    | pop =>
      constructor <;> simp [step, specStep, pop, decTail, hs, tl]

theorem rel1_run {α} (ops : List (Op α)) : Rel1 (run 1 ops) (specRun 1 ops) := by
  have : ∀ (ops : List (Op α)) (r : RB α) l, Rel1 r l →
      Rel1 (ops.foldl (step 1) r) (ops.foldl (specStep 1) l) := by
    intro ops
    induction ops with
    | nil => intro r l h; exact h
    | cons op ops ih => intro r l h; exact ih _ _ (rel1_step r l op h)
  exact this ops init [] ⟨rfl, by simp, rfl, by simp⟩

end Verif.RingBuffer
