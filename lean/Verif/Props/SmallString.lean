import Verif.Proof.SmallString
/-! # C02: small strings are truncated C strings -/
namespace Verif.SmallString

/-- Specification: the text a NUL terminated block denotes. -/
def text (buf : List Nat) : List Nat := buf.takeWhile (· != 0)

/-- Specification: a block of `n` bytes that contains a terminator. -/
def WF (n : Nat) (buf : List Nat) : Prop := buf.length = n ∧ 0 ∈ buf

instance (n : Nat) (buf : List Nat) : Decidable (WF n buf) := inferInstanceAs (Decidable (_ ∧ _))

private theorem split_text (buf : List Nat) (h : 0 ∈ buf) :
    ∃ j, buf = text buf ++ 0 :: j ∧ ∀ c ∈ text buf, c ≠ 0 := by
  induction buf with
  | nil => simp at h
  | cons c l ih =>
    by_cases hc : c = 0
    · exact ⟨l, by simp [text, hc]⟩
    · obtain ⟨j, e, hj⟩ := ih (by simpa [Ne.symm hc] using h)
      refine ⟨j, ?_, ?_⟩
      · have : text (c :: l) = c :: text l := by simp [text, hc]
        rw [this, List.cons_append, ← e]
      · have : text (c :: l) = c :: text l := by simp [text, hc]
        rw [this]
        simpa [hc] using hj

private theorem text_append (s j : List Nat) (hs : ∀ c ∈ s, c ≠ 0) : text (s ++ 0 :: j) = s := by
  induction s with
  | nil => simp [text]
  | cons c s ih =>
    have hc : c ≠ 0 := hs c (by simp)
    have := ih (fun d hd => hs d (by simp [hd]))
    have e : text (c :: s ++ 0 :: j) = c :: text (s ++ 0 :: j) := by simp [text, hc]
    rw [e, this]

/-- C02: construction from the C string `s` never leaves the blocks, yields a terminated buffer
holding exactly the first `n - 1` characters, and zeroes the remaining bytes. -/
theorem ofChars_spec (n : Nat) (hn : 1 ≤ n) (src : List Nat) (hs : 0 ∈ src) :
    ∃ buf, ofChars n src = some buf ∧ WF n buf ∧ text buf = (text src).take (n - 1) ∧
      ∀ i, (text buf).length ≤ i → i < n → buf[i]? = some 0 := by
  obtain ⟨j, e, hj⟩ := split_text src hs
  have hl := copyLoop_eq n (n + 1) [] (text src) j [] (List.replicate n 0) hj (by simp)
    (by simp; omega) (by simp)
  simp only [List.nil_append, List.length_nil, List.length_replicate, Nat.zero_add] at hl
  rw [← e] at hl
  obtain ⟨m, rfl⟩ : ∃ m, n = m + 1 := ⟨n - 1, by omega⟩
  simp only [Nat.add_sub_cancel] at hl ⊢
  have hlt : min (text src).length m ≤ m := by omega
  have hd : List.drop (min (text src).length m) (List.replicate (m + 1) 0)
      = 0 :: List.replicate (m - min (text src).length m) 0 := by
    rw [List.drop_replicate, show m + 1 - min (text src).length m
      = (m - min (text src).length m) + 1 by omega, List.replicate_succ]
  rw [hd] at hl
  have hw : wr (List.take m (text src) ++ 0 :: List.replicate (m - min (text src).length m) 0)
      (min (text src).length m) 0
      = some (List.take m (text src) ++ 0 :: List.replicate (m - min (text src).length m) 0) := by
    have hlen : (List.take m (text src)).length = min (text src).length m := by
      simp; omega
    rw [← hlen]
    simp [wr]
  have ht : text (List.take m (text src) ++ 0 :: List.replicate (m - min (text src).length m) 0)
      = List.take m (text src) := text_append _ _ (fun c hc => hj c (List.mem_of_mem_take hc))
  refine ⟨_, ?_, ⟨?_, ?_⟩, ht, ?_⟩
  · rw [ofChars, hl]; exact hw
  · simp; omega
  · simp
  · intro i h1 h2
    rw [ht] at h1
    rw [List.getElem?_append_right h1, ← List.replicate_succ, List.getElem?_replicate, if_pos]
    simp at h1 ⊢; omega

/-- C02: construction from a sized string (`std::string` and the like): the first `n - 1`
characters are kept, whatever the uninitialised buffer held. -/
theorem ofSized_spec (n : Nat) (hn : 1 ≤ n) (junk str : List Nat) (hj : junk.length = n)
    (hs : ∀ c ∈ str, c ≠ 0) :
    ∃ buf, ofSized n junk str = some buf ∧ WF n buf ∧ text buf = str.take (n - 1) := by
  rw [ofSized]
  generalize hk : (if str.length < n then str.length else n - 1) = k
  have hk1 : k < n := by split at hk <;> omega
  have hk2 : k ≤ str.length := by split at hk <;> omega
  have hk3 : str.take k = str.take (n - 1) := by
    split at hk
    · rw [List.take_of_length_le (by omega), List.take_of_length_le (by omega)]
    · rw [hk]
  obtain ⟨x, r, e⟩ : ∃ x r, junk.drop k = x :: r :=
    List.exists_cons_of_ne_nil (by intro h; simp at h; omega)
  have hw : wr junk k 0 = some (junk.take k ++ 0 :: r) := by
    have hjk : junk = junk.take k ++ x :: r := by rw [← e, List.take_append_drop]
    rw [wr, if_pos (by omega)]
    congr 1
    have hlen : (junk.take k).length = k := by simp; omega
    conv => lhs; rw [hjk]
    conv => lhs; rw [← hlen]
    simp
  have := sizedLoop_eq k (k + 1) [] str [] (junk.take k) (0 :: r) rfl (by simp; omega) (by simp)
    (by simpa using hk2) (by simp)
  simp only [List.nil_append, List.length_nil, Nat.sub_zero] at this
  refine ⟨str.take k ++ 0 :: r, ?_, ⟨?_, by simp⟩, ?_⟩
  · simp only [hw, Option.bind_eq_bind, Option.bind_some]
    exact this
  · have := congrArg List.length e
    simp at this ⊢; omega
  · rw [text_append _ _ (fun c hc => hs c (List.mem_of_mem_take hc)), hk3]

/-- C02: `size()` of a terminated buffer is the length of its text. -/
theorem size_spec (n : Nat) (buf : List Nat) (h : WF n buf) : size buf = some (text buf).length := by
  obtain ⟨j, e, hj⟩ := split_text buf h.2
  have hl : buf.length = (text buf).length + (j.length + 1) := by
    conv => lhs; rw [e]
    simp
  have := sizeLoop_eq (buf.length + 1) [] (text buf) j hj (by omega)
  simp only [List.nil_append, List.length_nil, Nat.zero_add] at this
  rw [size]
  rwa [← e] at this

/-- C02: `==` against any C string decides equality of the texts. -/
theorem eqChars_spec (n : Nat) (buf str : List Nat) (h : WF n buf) (hs : 0 ∈ str) :
    eqChars buf str = some (decide (text buf = text str)) := by
  obtain ⟨j, e, hj⟩ := split_text buf h.2
  obtain ⟨k, e', hk⟩ := split_text str hs
  have := eqLoop_eq ((text buf).length + 1) [] (text buf) (text str) j k hj hk (by omega)
  simp only [List.nil_append, List.length_nil, Nat.zero_add] at this
  rw [eqChars, size_spec n buf h]
  simp only [Option.bind_eq_bind, Option.bind_some]
  rwa [← e, ← e'] at this

/-- C02: `a + b` keeps the first `n - 1` characters of the concatenation. -/
theorem plus_spec (n : Nat) (a b : List Nat) (ha : WF n a) (hb : WF n b) :
    ∃ r, plus n a b = some r ∧ WF n r ∧ text r = (text a ++ text b).take (n - 1) := by
  obtain ⟨j, e, hj⟩ := split_text a ha.2
  obtain ⟨k, e', hk⟩ := split_text b hb.2
  have hla : (text a).length < n := by
    rw [← ha.1]; conv => rhs; rw [e]
    simp
  have h1 := copyLoop_eq n (n + 1) [] (text a) j [] (List.replicate n 0) hj (by simp)
    (by simp; omega) (by simp)
  simp only [List.nil_append, List.length_nil, List.length_replicate, Nat.zero_add] at h1
  rw [← e, show min (text a).length (n - 1) = (text a).length by omega,
    List.take_of_length_le (by omega), List.drop_replicate] at h1
  have h2 := copyLoop_eq n (n + 1) [] (text b) k (text a)
    (List.replicate (n - (text a).length) 0) hk (by simp; omega) (by simp; omega) (by simp; omega)
  simp only [List.nil_append, List.length_nil, List.length_replicate] at h2
  rw [← e'] at h2
  generalize hm : min (text b).length (n - (text a).length - 1) = m at h2
  have ht : (text b).take (n - (text a).length - 1) = (text b).take m := by
    rw [← hm, List.take_eq_take_iff]; omega
  rw [ht, List.drop_replicate, show n - (text a).length - m = (n - (text a).length - m - 1) + 1 by
    omega, List.replicate_succ] at h2
  generalize hz : List.replicate (n - (text a).length - m - 1) 0 = z at h2
  have hzl : z.length = n - (text a).length - m - 1 := by simp [← hz]
  have hnz : ∀ c ∈ text a ++ (text b).take m, c ≠ 0 := by
    intro c hc
    rcases List.mem_append.mp hc with h | h
    · exact hj c h
    · exact hk c (List.mem_of_mem_take h)
  have hlen : (text a ++ (text b).take m).length = (text a).length + m := by
    simp; omega
  have hcat : (text a ++ text b).take (n - 1) = text a ++ (text b).take m := by
    rw [List.take_append, List.take_of_length_le (by omega), ← ht]
    congr 2; omega
  have hw : wr (text a ++ (text b).take m ++ 0 :: z) ((text a).length + m) 0
      = some (text a ++ (text b).take m ++ 0 :: z) := by
    rw [← hlen]; simp [wr]
  refine ⟨text a ++ (text b).take m ++ 0 :: z, ?_, ⟨?_, by simp⟩, ?_⟩
  · rw [plus, h1]
    simp only [Option.bind_eq_bind, Option.bind_some, h2, hw]
  · rw [List.length_append, hlen]; simp; omega
  · rw [text_append _ _ hnz, hcat]

/-- "abc" fits into 4 bytes, "abcde" is cut, and the two results compare equal to "abc". -/
example : ofChars 4 [97, 98, 99, 100, 101, 0] = some [97, 98, 99, 0] := by decide
example : eqChars [97, 98, 99, 0] [97, 98, 99, 0, 7] = some true := by decide
example : plus 5 [97, 98, 0, 0, 0] [99, 100, 101, 0, 0] = some [97, 98, 99, 100, 0] := by decide
example : WF 5 [97, 98, 0, 0, 0] := by decide

end Verif.SmallString
