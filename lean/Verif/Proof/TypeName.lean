import Verif.Spec.TypeName

/-!
The two loops of the search for brackets.
-/
namespace Verif.TypeName

theorem read_append (a b : List Char) (c : Char) : read (a ++ c :: b) a.length = some (some c) := by
  unfold read
  rw [if_pos (by simp)]
  simp

theorem read_end (a : List Char) : read a a.length = some none := by
  unfold read
  rw [if_neg (by omega), if_pos rfl]

theorem goL_skip (lc : Char) : ∀ (pre b post : List Char) (n : Nat), lc ∉ pre →
    goL (b ++ pre ++ post) lc (pre.length + n) b.length = goL (b ++ pre ++ post) lc n (b ++ pre).length := by
  intro pre
  induction pre with
  | nil => intro b post n _; simp
  | cons c pre ih =>
    intro b post n h
    have h1 : c ≠ lc := fun e => h (by simp [e])
    have h2 : lc ∉ pre := fun e => h (by simp [e])
    have e : b ++ c :: pre ++ post = b ++ c :: (pre ++ post) := by simp
    have e' : b ++ c :: pre ++ post = (b ++ [c]) ++ pre ++ post := by simp
    have f : (c :: pre).length + n = (pre.length + n) + 1 := by simp; omega
    rw [f, goL]
    rw [show read (b ++ c :: pre ++ post) b.length = some (some c) by rw [e]; exact read_append b _ c]
    simp only [h1, if_false]
    have := ih (b ++ [c]) post n h2
    rw [← e'] at this
    simpa using this

theorem depth_cons (lc rc c : Char) (hn : lc ≠ rc) (s : List Char) :
    depth lc rc (c :: s) = (if c = lc then 1 else if c = rc then -1 else 0) + depth lc rc s := by
  unfold depth
  rw [List.count_cons, List.count_cons]
  by_cases h1 : c = lc
  · subst h1
    have : (c == rc) = false := by simpa using hn
    simp [this]
    omega
  · by_cases h2 : c = rc
    · subst h2
      have : (c == lc) = false := by simpa using h1
      simp [this, h1]
      omega
    · have a : (c == lc) = false := by simpa using h1
      have b : (c == rc) = false := by simpa using h2
      simp [a, b, h1, h2]

/-- The second loop over text in which the count stays positive. -/
theorem goR_skip (lc rc : Char) (hn : lc ≠ rc) : ∀ (inner b post : List Char) (n cnt : Nat), (∀ x y, inner = x ++ y → 1 ≤ (cnt : Int) + depth lc rc x) →
    ∃ k : Nat, (k : Int) = cnt + depth lc rc inner ∧
      goR (b ++ inner ++ post) lc rc (inner.length + n) b.length cnt = goR (b ++ inner ++ post) lc rc n (b ++ inner).length k := by
  intro inner
  induction inner with
  | nil => intro b post n cnt _; exact ⟨cnt, by simp [depth], by simp⟩
  | cons c inner ih =>
    intro b post n cnt h
    have e : b ++ c :: inner ++ post = b ++ c :: (inner ++ post) := by simp
    have e' : b ++ c :: inner ++ post = (b ++ [c]) ++ inner ++ post := by simp
    have f : (c :: inner).length + n = (inner.length + n) + 1 := by simp; omega
    have h0 := h [] (c :: inner) rfl
    have h1 := h [c] inner rfl
    rw [depth_cons lc rc c hn] at h1
    have z : depth lc rc [] = 0 := by simp [depth]
    rw [z] at h0 h1
    obtain ⟨cnt', hc⟩ : ∃ x : Nat, x = if c = lc then cnt + 1 else if c = rc then cnt - 1 else cnt := ⟨_, rfl⟩
    have hi : (cnt' : Int) = cnt + if c = lc then 1 else if c = rc then -1 else 0 := by
      rw [hc]
      split
      · omega
      · split <;> omega
    obtain ⟨k, k1, k2⟩ := ih (b ++ [c]) post n cnt' (fun x y q => by
      have := h (c :: x) y (by rw [q]; rfl)
      rw [depth_cons lc rc c hn] at this
      omega)
    refine ⟨k, by rw [k1, depth_cons lc rc c hn]; omega, ?_⟩
    rw [f, goR]
    rw [show read (b ++ c :: inner ++ post) b.length = some (some c) by rw [e]; exact read_append b _ c]
    simp only [← hc]
    rw [if_neg (by omega)]
    rw [← e'] at k2
    simpa using k2

end Verif.TypeName
