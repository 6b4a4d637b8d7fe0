import Verif.Proof.TypeName

/-!
Properties of the search for brackets in strings.
-/
namespace Verif.TypeName

/-- The left bracket, and the right bracket that closes it. -/
theorem locate_exact (lc rc : Char) (hn : lc ≠ rc) (pre inner post : List Char) (hp : lc ∉ pre) (hi : Proper lc rc inner) (hz : depth lc rc inner = 0) :
    locate (pre ++ lc :: (inner ++ rc :: post)) lc rc = some (pre.length, pre.length + 1 + inner.length) := by
  unfold locate
  rw [if_neg (by simp)]
  obtain ⟨s, hs⟩ : ∃ s, s = pre ++ lc :: (inner ++ rc :: post) := ⟨_, rfl⟩
  rw [← hs]
  have len : s.length = pre.length + inner.length + post.length + 2 := by rw [hs]; simp; omega
  have g1 : goL s lc (s.length + 1) 0 = some pre.length := by
    have := goL_skip lc pre [] (lc :: (inner ++ rc :: post)) (inner.length + post.length + 2 + 1) hp
    simp only [List.nil_append, ← hs, List.length_nil] at this
    rw [show s.length + 1 = pre.length + (inner.length + post.length + 2 + 1) by omega, this, goL]
    rw [show read s pre.length = some (some lc) by rw [hs]; exact read_append pre _ lc]
    simp
  have g2 : goR s lc rc (s.length + 1) (pre.length + 1) 1 = some (pre.length + 1 + inner.length) := by
    obtain ⟨k, k1, k2⟩ := goR_skip lc rc hn inner (pre ++ [lc]) (rc :: post) (pre.length + post.length + 2 + 1) 1 (fun x y q => by
      have := hi x y q
      omega)
    have e : pre ++ [lc] ++ inner ++ rc :: post = s := by rw [hs]; simp
    rw [e] at k2
    simp only [List.length_append, List.length_singleton] at k2
    rw [show s.length + 1 = inner.length + (pre.length + post.length + 2 + 1) by omega, k2, goR]
    rw [show read s (pre.length + 1 + inner.length) = some (some rc) by
      have := read_append (pre ++ [lc] ++ inner) post rc
      rw [e] at this
      rw [show (pre ++ [lc] ++ inner).length = pre.length + 1 + inner.length by simp; omega] at this
      exact this]
    have k0 : k = 1 := by rw [hz] at k1; omega
    simp [k0, Ne.symm hn]
  simp [g1, g2]

/-- Without a bracket that closes it: the end of the string. -/
theorem locate_open (lc rc : Char) (hn : lc ≠ rc) (pre inner : List Char) (hp : lc ∉ pre) (hi : Proper lc rc inner) :
    locate (pre ++ lc :: inner) lc rc = some (pre.length, (pre ++ lc :: inner).length) := by
  unfold locate
  rw [if_neg (by simp)]
  obtain ⟨s, hs⟩ : ∃ s, s = pre ++ lc :: inner := ⟨_, rfl⟩
  rw [← hs]
  have len : s.length = pre.length + inner.length + 1 := by rw [hs]; simp; omega
  have g1 : goL s lc (s.length + 1) 0 = some pre.length := by
    have := goL_skip lc pre [] (lc :: inner) (inner.length + 1 + 1) hp
    simp only [List.nil_append, ← hs, List.length_nil] at this
    rw [show s.length + 1 = pre.length + (inner.length + 1 + 1) by omega, this, goL]
    rw [show read s pre.length = some (some lc) by rw [hs]; exact read_append pre _ lc]
    simp
  have g2 : goR s lc rc (s.length + 1) (pre.length + 1) 1 = some s.length := by
    obtain ⟨k, -, k2⟩ := goR_skip lc rc hn inner (pre ++ [lc]) [] (pre.length + 1 + 1) 1 (fun x y q => by
      have := hi x y q
      omega)
    have e : pre ++ [lc] ++ inner ++ [] = s := by rw [hs]; simp
    rw [e] at k2
    simp only [List.length_append, List.length_singleton] at k2
    rw [show s.length + 1 = inner.length + (pre.length + 1 + 1) by omega, k2, goR,
      show pre.length + 1 + inner.length = s.length by omega, read_end]
  simp [g1, g2]

/-- Two levels of brackets. -/
example : locate "f<a<b>,c>(d)".toList '<' '>' = some (1, 8) := by decide +kernel

/-- The hypotheses of `locate_exact` for the text between these brackets. -/
example : Proper '<' '>' ['a', '<', 'b', '>'] ∧ depth '<' '>' ['a', '<', 'b', '>'] = 0 := by
  refine ⟨?_, by decide⟩
  intro a b h
  have e : a = ['a', '<', 'b', '>'].take a.length := by rw [h]; simp
  have l : a.length ≤ 4 := by
    have := congrArg List.length h
    simp at this
    omega
  rw [e]
  have : ∀ n, n ≤ 4 → 0 ≤ depth '<' '>' (['a', '<', 'b', '>'].take n) := by decide
  exact this _ l

/-- `get_type` with the search for brackets: exactly the text between the brackets. -/
theorem brackets_exact (pre inner post : List Char) (hp : '<' ∉ pre) (hi : Proper '<' '>' inner) (hz : depth '<' '>' inner = 0) :
    nameBrackets (pre ++ '<' :: (inner ++ '>' :: post)) = some inner := by
  unfold nameBrackets
  rw [locate_exact '<' '>' (by decide) pre inner post hp hi hz]
  simp only [Option.bind_eq_bind, Option.bind_some, slice]
  rw [if_pos ⟨by omega, by simp; omega⟩]
  have e : pre ++ '<' :: (inner ++ '>' :: post) = (pre ++ ['<']) ++ (inner ++ '>' :: post) := by simp
  have l : pre.length + 1 = (pre ++ ['<']).length := by simp
  rw [e, l, List.drop_left, show (pre ++ ['<']).length + inner.length - (pre ++ ['<']).length = inner.length by omega, List.take_left]

/-- `get_type` with a fixed start: what is between the first `head` characters and the last one. -/
theorem fixed_exact (pre inner : List Char) (c : Char) : nameFixed pre.length (pre ++ inner ++ [c]) = some inner := by
  unfold nameFixed slice
  rw [if_pos (by simp; omega), if_pos ⟨by simp, by simp⟩]
  simp

/-- For clang, from the form of its names of functions: any type. -/
theorem clang_exact (t : List Char) : nameFixed headClang ("auto zs::detail::get_type_str_helper() [T = ".toList ++ t ++ [']']) = some t := by
  rw [show headClang = "auto zs::detail::get_type_str_helper() [T = ".toList.length by decide +kernel]
  exact fixed_exact _ t _

/-- For gcc, from the form of its names of functions: any type. -/
theorem gcc_exact (t : List Char) :
    nameFixed headGcc ("constexpr auto zs::detail::get_type_str_helper() [with T = ".toList ++ t ++ [']']) = some t := by
  rw [show headGcc = "constexpr auto zs::detail::get_type_str_helper() [with T = ".toList.length by decide +kernel]
  exact fixed_exact _ t _

/-- A string without the left bracket is read behind its terminating zero. -/
theorem missing_violated (lc rc : Char) (s : List Char) (h0 : s ≠ []) (h : lc ∉ s) : locate s lc rc = none := by
  unfold locate
  rw [if_neg h0]
  have g1 : goL s lc (s.length + 1) 0 = some s.length := by
    have := goL_skip lc s [] [] 1 h
    simp only [List.nil_append, List.append_nil, List.length_nil] at this
    rw [this, goL, read_end]
  have g2 : goR s lc rc (s.length + 1) (s.length + 1) 1 = none := by
    rw [goR]
    have : read s (s.length + 1) = none := by
      unfold read
      rw [if_neg (by omega), if_neg (by omega)]
    rw [this]
  simp [g1, g2]

/-- A comparison in a template argument is taken for the end of the arguments. -/
theorem comparison_violated : locate "f<(a>b)>".toList '<' '>' = some (1, 4) := by decide +kernel

end Verif.TypeName
