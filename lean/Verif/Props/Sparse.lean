import Verif.Proof.Sparse
/-!
C49: looking up an entry of a sparse matrix.  The line (row, or column of a column-major matrix) searched holds
the subscripts `arr p` at the offsets `st ≤ p < en`, ascending and without repetition (`Line`).  Nothing is assumed
about the offsets outside the line: reading one of them may be out of bounds.
-/
namespace Verif.Sparse

variable {V : Type} (m : Mat V) (rm : Bool) (i j : Nat) {st en : Nat} {arr : Nat → Nat}

/-- Number of the line that holds `(i, j)`. -/
abbrev line : Nat := if rm then i else j

/-- Subscript of `(i, j)` in its line. -/
abbrev target : Nat := if rm then j else i

/-- The search as a function of the line alone: any `read` that agrees with the line. -/
theorem search_exact {read : Nat → Option Nat} (h : Line read arr st en) (t : Nat)
    (first : 0 < st ∨ st < en ∧ arr st ≤ t) :
    Finds arr st en t (search read t 64 (BitVec.ofNat 32 st) (BitVec.ofNat 32 en - 1)) :=
  search_spec h t first 63 st en (by have := h.bound; omega) (Nat.le_refl _) h.le (Nat.le_refl _)
    (fun p h1 h2 => by omega) (fun p h1 h2 => by omega)

/-- C49 (partial): if the line does not start at offset 0, or starts there with a subscript that is not above
the one searched, the binary search gives the offset of the entry if there is one and "absent" otherwise, and
reads no offset outside the line.  Missing: the other searches in a line that starts at offset 0, which leave the
array (`locate_first_line_violated`). -/
theorem locate_binary_partial (hs : m.ptrs[line rm i j]? = some st) (he : m.ptrs[line rm i j + 1]? = some en)
    (h : Line (m.inds[·]?) arr st en) (first : 0 < st ∨ st < en ∧ arr st ≤ target rm i j) :
    ∃ r, m.locateBinary rm i j = some r ∧ Finds arr st en (target rm i j) r := by
  refine ⟨_, ?_, search_exact h _ first⟩
  simp only [Mat.locateBinary, hs, he]
  rfl

/-- C49 (partial): the same for `exist`. -/
theorem exist_partial (hs : m.ptrs[line rm i j]? = some st) (he : m.ptrs[line rm i j + 1]? = some en)
    (h : Line (m.inds[·]?) arr st en) (first : 0 < st ∨ st < en ∧ arr st ≤ target rm i j) :
    ∃ b, m.exist rm i j = some b ∧ (b = true ↔ ∃ p, st ≤ p ∧ p < en ∧ arr p = target rm i j) := by
  have hf := search_exact h _ first
  have e : m.exist rm i j = existLoop (m.inds[·]?) (target rm i j) 64 (BitVec.ofNat 32 st) (BitVec.ofNat 32 en - 1) := by
    simp only [Mat.exist, hs, he]
    rfl
  rw [e, existLoop_eq]
  generalize search (m.inds[·]?) (target rm i j) 64 (BitVec.ofNat 32 st) (BitVec.ofNat 32 en - 1) = r at hf
  cases r with
  | «at» p => exact ⟨true, rfl, fun _ => ⟨_, hf⟩, fun _ => rfl⟩
  | absent =>
    exact ⟨false, rfl, (fun h => Bool.noConfusion h), fun ⟨p, h1, h2, h3⟩ => absurd h3 (hf p h1 h2)⟩
  | outOfBounds => exact hf.elim
  | running => exact hf.elim

/-- C49 fails for every search in a line that starts at offset 0 and is empty or has only larger subscripts: the
upper end wraps around to `2 ^ 32 - 1` and `_inds[2 ^ 31 - 1]` is read, which is out of bounds unless there are
more than two thousand million entries. -/
theorem locate_first_line_violated (hs : m.ptrs[line rm i j]? = some 0) (he : m.ptrs[line rm i j + 1]? = some en)
    (h : Line (m.inds[·]?) arr 0 en) (low : ∀ p, p < en → target rm i j < arr p)
    (size : m.inds.length < 2 ^ 31) :
    m.locateBinary rm i j = some .outOfBounds ∧ m.exist rm i j = none := by
  have hw := search_wraps h (target rm i j) low (List.getElem?_eq_none (by omega)) 62 en
    (by have := h.bound; omega) (Nat.le_refl _)
  constructor
  · simp only [Mat.locateBinary, hs, he]
    exact congrArg some hw
  · have e : m.exist rm i j = existLoop (m.inds[·]?) (target rm i j) 64 (BitVec.ofNat 32 0) (BitVec.ofNat 32 en - 1) := by
      simp only [Mat.exist, hs, he]
      rfl
    rw [e, existLoop_eq]
    exact hw ▸ rfl

/-- C49: which searches stay within the array, for matrices with fewer than `2 ^ 31` entries. -/
theorem locate_binary_safe_iff (hs : m.ptrs[line rm i j]? = some st) (he : m.ptrs[line rm i j + 1]? = some en)
    (h : Line (m.inds[·]?) arr st en) (size : m.inds.length < 2 ^ 31) :
    m.locateBinary rm i j ≠ some .outOfBounds ↔ 0 < st ∨ st < en ∧ arr st ≤ target rm i j := by
  constructor
  · intro hne
    rcases Nat.eq_zero_or_pos st with rfl | h0
    · by_cases hc : 0 < en ∧ arr 0 ≤ target rm i j
      · exact .inr hc
      · refine absurd (locate_first_line_violated m rm i j hs he h (fun p hp => ?_) size).1 hne
        rcases Nat.eq_zero_or_pos p with rfl | hp0
        · omega
        · have := h.lt 0 p (Nat.le_refl _) hp0 hp
          omega
    · exact .inl h0
  · intro hc hne
    obtain ⟨r, h1, h2⟩ := locate_binary_partial m rm i j hs he h hc
    rw [hne] at h1
    cases h1
    exact h2

/-- C49 for the linear search: exact for every line, sorted or not, and within the line. -/
theorem locate_linear (hs : m.ptrs[line rm i j]? = some st) (he : m.ptrs[line rm i j + 1]? = some en) (hle : st ≤ en)
    (h : ∀ p, st ≤ p → p < en → m.inds[p]? = some (arr p)) :
    ∃ r, m.locate rm i j = some r ∧
      (r = none ∧ (∀ p, st ≤ p → p < en → arr p ≠ target rm i j) ∨
        ∃ p, st ≤ p ∧ p < en ∧ arr p = target rm i j ∧ r = some p) := by
  obtain ⟨r, h1, h2⟩ := locateLoop_spec m.inds (target rm i j) (en - st) st (arr := arr)
    (fun p h1 h2 => h p h1 (by omega))
  refine ⟨r, ?_, ?_⟩
  · simp only [Mat.locate, hs, he, Option.bind, if_pos hle]
    exact h1
  · have e : st + (en - st) = en := by omega
    rw [e] at h2
    exact h2

/-- C49 for `operator()`: the value stored for the subscript, or the default if there is none. -/
theorem get_spec (dflt : V) (hs : m.ptrs[line rm i j]? = some st) (he : m.ptrs[line rm i j + 1]? = some en)
    (hle : st ≤ en) (h : ∀ p, st ≤ p → p < en → m.inds[p]? = some (arr p) ∧ p < m.vals.length) :
    ((∀ p, st ≤ p → p < en → arr p ≠ target rm i j) → m.get rm dflt i j = some dflt) ∧
    (∀ p, st ≤ p → p < en → arr p = target rm i j → (∀ q, st ≤ q → q < p → arr q ≠ target rm i j) →
      m.get rm dflt i j = m.vals[p]?) := by
  obtain ⟨r, h1, h2⟩ := scan_spec m (target rm i j) (arr := arr) (en - st) st (fun p h1 h2 => h p h1 (by omega))
  have e : st + (en - st) = en := by omega
  rw [e] at h2
  have hg : m.get rm dflt i j = some (r.getD dflt) := by
    simp only [Mat.get, hs, he, Option.bind, if_pos hle]
    show Option.map _ (scan m (target rm i j) (en - st) st) = _
    rw [h1]
    rfl
  rw [hg]
  constructor
  · intro hn
    rcases h2 with ⟨rfl, _⟩ | ⟨p, p1, p2, p3, _⟩
    · rfl
    · exact absurd p3 (hn p p1 p2)
  · intro p p1 p2 p3 p4
    rcases h2 with ⟨_, hn⟩ | ⟨q, q1, q2, q3, q4, rfl⟩
    · exact absurd p3 (hn p p1 p2)
    · have : q = p := by
        rcases Nat.lt_trichotomy q p with hlt | heq | hgt
        · exact absurd q3 (p4 q q1 hlt)
        · exact heq
        · exact absurd p3 (q4 p p1 hgt)
      subst this
      rw [List.getElem?_eq_getElem (h q q1 q2).2]
      rfl

/-- A 3 × 4 matrix: row 0 has columns 1 and 3, row 1 is empty, row 2 has columns 0, 2, 3. -/
def exMat : Mat Int := ⟨3, 4, [0, 2, 2, 5], [1, 3, 0, 2, 3], [10, 20, 30, 40, 50]⟩

example : exMat.locateBinary true 2 2 = some (.at 3) ∧ exMat.locateBinary true 2 1 = some .absent ∧
    exMat.locateBinary true 0 3 = some (.at 1) ∧ exMat.locateBinary true 0 2 = some .absent ∧
    exMat.locateBinary true 1 0 = some .absent ∧ exMat.exist true 2 0 = some true ∧
    exMat.exist true 2 1 = some false := by decide

/-- The hypotheses of the theorems for row 2 of this matrix. -/
example : Line (exMat.inds[·]?) (fun p => exMat.inds.getD p 0) 2 5 where
  le := by decide
  bound := by decide
  read p h1 h2 := by
    have : p = 2 ∨ p = 3 ∨ p = 4 := by omega
    rcases this with rfl | rfl | rfl <;> rfl
  lt p q h1 h2 h3 := by
    have : p = 2 ∧ q = 3 ∨ p = 2 ∧ q = 4 ∨ p = 3 ∧ q = 4 := by omega
    rcases this with ⟨rfl, rfl⟩ | ⟨rfl, rfl⟩ | ⟨rfl, rfl⟩ <;> decide

/-- C49 fails on an ordinary matrix: looking up the absent `(0, 0)` reads out of bounds, while the linear search
answers. -/
theorem locate_witness_violated : exMat.locateBinary true 0 0 = some .outOfBounds ∧
    exMat.exist true 0 0 = none ∧ exMat.locate true 0 0 = some none ∧ exMat.get true 0 0 0 = some 0 := by decide

end Verif.Sparse
