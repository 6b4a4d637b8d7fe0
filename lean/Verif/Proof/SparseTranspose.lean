import Verif.Model.SparseTranspose
import Verif.Spec.SparseTranspose
import Verif.Proof.SparseBuild
import Verif.Props.Radix
import Verif.Props.Bits
/-! Helper lemmas for `SparseTranspose`. -/
namespace Verif.Sparse
open Verif.Phase

variable {V P : Type}

/-! ## Sorting one line -/

theorem selBits_ofNat {bits k : Nat} (hb : bits ≤ 31) (hk : k < 2 ^ bits) :
    Radix.selBits true 0 bits (BitVec.ofNat 32 k) = k := by
  have h31 : 2 ^ bits ≤ 2 ^ 31 := Nat.pow_le_pow_right (by omega) hb
  have hi : (BitVec.ofNat 32 k).toInt = (k : Int) := by
    rw [BitVec.toInt_eq_toNat_cond, BitVec.toNat_ofNat, Nat.mod_eq_of_lt (by omega), if_pos (by omega)]
  unfold Radix.selBits Radix.keyNum
  rw [hi]
  simp only [if_true, Nat.pow_zero, Nat.div_one, Nat.sub_zero]
  have e : ((k : Int) + 2 ^ (32 - 1)).toNat = k + 2 ^ 31 := by omega
  rw [e]
  obtain ⟨c, hc⟩ : ∃ c, 31 = bits + c := ⟨31 - bits, by omega⟩
  rw [hc, Nat.pow_add, Nat.add_mul_mod_self_left, Nat.mod_eq_of_lt hk]

theorem mapM_range_getElem {α : Type} {n : Nat} {f : Nat → Option α} {l : List α} (h : (List.range n).mapM f = some l) :
    l.length = n ∧ ∀ i, i < n → l[i]? = f i := by
  have : ∀ (r : List Nat) (l : List α), r.mapM f = some l → l.length = r.length ∧ ∀ i, i < r.length → l[i]? = f (r.getD i 0) := by
    intro r
    induction r with
    | nil => intro l h; cases h; exact ⟨rfl, fun i hi => by simp at hi⟩
    | cons x r ih =>
      intro l h
      rw [List.mapM_cons] at h
      cases hx : f x with
      | none => rw [hx] at h; cases h
      | some y =>
        cases hr : r.mapM f with
        | none => rw [hx, hr] at h; cases h
        | some ys =>
          rw [hx, hr] at h
          cases h
          obtain ⟨h1, h2⟩ := ih ys hr
          refine ⟨by simp [h1], fun i hi => ?_⟩
          match i with
          | 0 => simpa using hx.symm
          | i + 1 =>
            rw [List.getElem?_cons_succ]
            have := h2 i (by simpa using hi)
            simpa using this
  obtain ⟨h1, h2⟩ := this _ _ h
  rw [List.length_range] at h1 h2
  refine ⟨h1, fun i hi => ?_⟩
  rw [h2 i hi, List.getD_eq_getElem?_getD, List.getElem?_range hi]
  rfl

theorem mapM_of_some {α β : Type} {f : α → Option β} {g : α → β} : ∀ (r : List α), (∀ a ∈ r, f a = some (g a)) → r.mapM f = some (r.map g) := by
  intro r
  induction r with
  | nil => intro _; rfl
  | cons x r ih =>
    intro h
    rw [List.mapM_cons, h x List.mem_cons_self, ih (fun a ha => h a (List.mem_cons_of_mem _ ha))]
    rfl

theorem sortLine_spec {bits : Nat} {l : List (Nat × P)} (hb : bits ≤ 31) (hk : ∀ x ∈ l, x.1 < 2 ^ bits) :
    ∃ (l' : List (Nat × P)) (pos : Nat → Nat), sortLine bits l = some l' ∧ l'.length = l.length ∧
      (∀ i, i < l.length → pos i < l.length) ∧ (∀ k, k < l.length → ∃ i, i < l.length ∧ pos i = k) ∧
      (∀ i, i < l.length → l'[pos i]? = l[i]?) ∧
      ∀ i j, i < l.length → j < l.length → (pos i < pos j ↔
        (l.map (·.1)).getD i 0 < (l.map (·.1)).getD j 0 ∨ (¬ (l.map (·.1)).getD j 0 < (l.map (·.1)).getD i 0 ∧ i < j)) := by
  cases l with
  | nil => exact ⟨[], id, rfl, rfl, by simp, by simp, by simp, by simp⟩
  | cons x0 l0 =>
    generalize hl : x0 :: l0 = l at hk ⊢
    have hget : ∀ i, i < l.length → l[i]? = some (l.getD i x0) := fun i hi => getD_some _ hi
    have hkey : ∀ i, i < l.length → (l.map (·.1)).getD i 0 = (l.getD i x0).1 := by
      intro i hi
      rw [List.getD_eq_getElem?_getD, List.getElem?_map, hget i hi]
      rfl
    have hlt : ∀ i, i < l.length → (l.getD i x0).1 < 2 ^ bits := fun i hi => hk _ (getD_mem _ hi)
    have h31 : 2 ^ bits ≤ 2 ^ 31 := Nat.pow_le_pow_right (by omega) hb
    obtain ⟨out, ho, ⟨pos, p1, p2, p3, p4⟩, _⟩ := Radix.radix_sort_sequential_stable (w := 32) true false l.length 0 bits (by omega)
      (by omega) (fun i => (BitVec.ofNat 32 (l.getD i x0).1, (l.getD i x0).2)) (lineMem l) (fun i hi => by
        show lineMem l (.inp i) = _
        rw [lineMem, hget i hi])
    have hm : sortLine bits l = some ((List.range l.length).map fun i => ((out i).1.toNat, (out i).2)) := by
      apply mapM_of_some
      intro i hi
      rw [ho i (List.mem_range.1 hi)]
      rfl
    refine ⟨_, pos, hm, by simp, p1, p2, ?_, ?_⟩
    · intro i hi
      rw [List.getElem?_map, List.getElem?_range (p1 i hi), hget i hi, Option.map_some, p3 i hi]
      have := hlt i hi
      simp only [BitVec.toNat_ofNat]
      rw [Nat.mod_eq_of_lt (by omega)]
    · intro i j hi hj
      rw [p4 i j hi hj]
      dsimp only
      rw [selBits_ofNat hb (hlt i hi), selBits_ofNat hb (hlt j hj), hkey i hi, hkey j hj]

/-! ## Sorting all lines -/

/-- Lines follow each other and lie within arrays of length `n`. -/
structure Rows (ptrs : List Nat) (nsegs n : Nat) : Prop where
  len : ptrs.length = nsegs + 1
  mono : ∀ o p, o ≤ p → p ≤ nsegs → ptrs.getD o 0 ≤ ptrs.getD p 0
  last : ∀ o, o ≤ nsegs → ptrs.getD o 0 ≤ n

theorem Rows.disjoint {ptrs : List Nat} {nsegs n o o' p : Nat} (h : Rows ptrs nsegs n) (ho : o < nsegs) (ho' : o' < nsegs)
    (h1 : ptrs.getD o 0 ≤ p) (h2 : p < ptrs.getD (o + 1) 0) (h3 : ptrs.getD o' 0 ≤ p) (h4 : p < ptrs.getD (o' + 1) 0) : o = o' := by
  rcases Nat.lt_trichotomy o o' with e | e | e
  · have := h.mono (o + 1) o' (by omega) (by omega); omega
  · exact e
  · have := h.mono (o' + 1) o (by omega) (by omega); omega

theorem rows_of_csr {m : Mat V} {rm : Bool} {A : Nat → Nat → Option V} (h : Csr m rm A) : Rows m.ptrs (m.outer rm) m.inds.length := by
  refine ⟨h.len, fun o p hop hp => ?_, h.last⟩
  induction hop with
  | refl => exact Nat.le_refl _
  | step _ ih => exact Nat.le_trans (ih (by omega)) (h.mono _ (by omega))

/-- The output of the sort of a line, at position `p` of the arrays. -/
def LineDone (ptrs : List Nat) (src a : List (Nat × P)) (o : Nat) : Prop :=
  ∃ pos : Nat → Nat,
    (∀ p, ptrs.getD o 0 ≤ p → p < ptrs.getD (o + 1) 0 → ptrs.getD o 0 ≤ pos p ∧ pos p < ptrs.getD (o + 1) 0 ∧ a[pos p]? = src[p]?) ∧
    (∀ q, ptrs.getD o 0 ≤ q → q < ptrs.getD (o + 1) 0 → ∃ p, ptrs.getD o 0 ≤ p ∧ p < ptrs.getD (o + 1) 0 ∧ pos p = q) ∧
    ∀ p q, ptrs.getD o 0 ≤ p → p < ptrs.getD (o + 1) 0 → ptrs.getD o 0 ≤ q → q < ptrs.getD (o + 1) 0 → pos p < pos q →
      (src.map (·.1)).getD p 0 ≤ (src.map (·.1)).getD q 0

theorem orderLine_spec {ptrs : List Nat} {nsegs bits o : Nat} {src a : List (Nat × P)} (hr : Rows ptrs nsegs src.length) (hb : bits ≤ 31)
    (ho : o < nsegs) (ha : a.length = src.length) (hk : ∀ x ∈ src, x.1 < 2 ^ bits) :
    ∃ a', orderLine ptrs bits src a o = some a' ∧ a'.length = a.length ∧ LineDone ptrs src a' o ∧
      ∀ p, (p < ptrs.getD o 0 ∨ ptrs.getD (o + 1) 0 ≤ p) → a'[p]? = a[p]? := by
  have e1 : ptrs[o]? = some (ptrs.getD o 0) := getD_some _ (by have := hr.len; omega)
  have e2 : ptrs[o + 1]? = some (ptrs.getD (o + 1) 0) := getD_some _ (by have := hr.len; omega)
  have m1 := hr.mono o (o + 1) (by omega) (by omega)
  have m2 := hr.last (o + 1) (by omega)
  have hun : ∀ x, orderLine ptrs bits src a o = x ↔ (sortLine bits ((src.drop (ptrs.getD o 0)).take (ptrs.getD (o + 1) 0 - ptrs.getD o 0))).map
      (fun l => a.take (ptrs.getD o 0) ++ l ++ a.drop (ptrs.getD (o + 1) 0)) = x := by
    intro x
    rw [orderLine, e1, e2]
    simp only [Option.bind_some]
    rw [if_pos ⟨m1, m2⟩]
  unfold LineDone
  generalize ptrs.getD o 0 = st at *
  generalize ptrs.getD (o + 1) 0 = ed at *
  have hlen : ((src.drop st).take (ed - st)).length = ed - st := by
    rw [List.length_take, List.length_drop]; omega
  have hseg : ∀ i, i < ed - st → ((src.drop st).take (ed - st))[i]? = src[st + i]? := by
    intro i hi
    rw [List.getElem?_take_of_lt hi, List.getElem?_drop]
  have hkey : ∀ i, i < ed - st → (((src.drop st).take (ed - st)).map (·.1)).getD i 0 = (src.map (·.1)).getD (st + i) 0 := by
    intro i hi
    rw [List.getD_eq_getElem?_getD, List.getD_eq_getElem?_getD, List.getElem?_map, List.getElem?_map, hseg i hi]
  obtain ⟨l, pos, h0, h1, h2, h3, h4, h5⟩ := sortLine_spec (l := (src.drop st).take (ed - st)) hb
    (fun x hx => hk x (List.mem_of_mem_drop (List.mem_of_mem_take hx)))
  rw [hlen] at h1 h2 h3 h4 h5
  have ht : (a.take st).length = st := by rw [List.length_take]; omega
  have htl : (a.take st ++ l).length = ed := by rw [List.length_append, ht, h1]; omega
  have mid : ∀ p, st ≤ p → p < ed → (a.take st ++ l ++ a.drop ed)[p]? = l[p - st]? := by
    intro p hp hp2
    rw [List.getElem?_append_left (by rw [htl]; exact hp2), List.getElem?_append_right (by rw [ht]; exact hp), ht]
  refine ⟨_, (hun _).2 (by rw [h0]; rfl), ?_, ⟨fun p => st + pos (p - st), ?_, ?_, ?_⟩, ?_⟩
  · rw [List.length_append, htl, List.length_drop]; omega
  · intro p hp hp2
    have := h2 (p - st) (by omega)
    dsimp only
    refine ⟨by omega, by omega, ?_⟩
    rw [mid _ (by omega) (by omega), show st + pos (p - st) - st = pos (p - st) by omega, h4 _ (by omega), hseg _ (by omega)]
    congr 1
    omega
  · intro q hq hq2
    obtain ⟨i, hi, e⟩ := h3 (q - st) (by omega)
    refine ⟨st + i, by omega, by omega, ?_⟩
    dsimp only
    rw [show st + i - st = i by omega, e]
    omega
  · intro p q hp hp2 hq hq2 hlt
    dsimp only at hlt
    have := (h5 (p - st) (q - st) (by omega) (by omega)).1 (by omega)
    rw [hkey _ (by omega), hkey _ (by omega), show st + (p - st) = p by omega, show st + (q - st) = q by omega] at this
    omega
  · intro p hp
    rcases hp with hp | hp
    · rw [List.getElem?_append_left (by rw [htl]; omega), List.getElem?_append_left (by rw [ht]; exact hp), List.getElem?_take_of_lt hp]
    · rw [List.getElem?_append_right (by rw [htl]; exact hp), htl, List.getElem?_drop]
      congr 1
      omega

theorem LineDone.congr {ptrs : List Nat} {src a a' : List (Nat × P)} {o : Nat} (h : LineDone ptrs src a o)
    (e : ∀ p, ptrs.getD o 0 ≤ p → p < ptrs.getD (o + 1) 0 → a'[p]? = a[p]?) : LineDone ptrs src a' o := by
  obtain ⟨pos, h1, h2, h3⟩ := h
  refine ⟨pos, fun p hp hp2 => ?_, h2, h3⟩
  obtain ⟨i1, i2, i3⟩ := h1 p hp hp2
  exact ⟨i1, i2, by rw [e _ i1 i2, i3]⟩

theorem orderLines_spec {ptrs : List Nat} {nsegs bits : Nat} {src : List (Nat × P)} (hr : Rows ptrs nsegs src.length) (hb : bits ≤ 31)
    (hk : ∀ x ∈ src, x.1 < 2 ^ bits) : ∀ (order : List Nat) (a : List (Nat × P)), order.Nodup → (∀ o ∈ order, o < nsegs) → a.length = src.length →
    ∃ a', order.foldlM (orderLine ptrs bits src) a = some a' ∧ a'.length = src.length ∧ (∀ o ∈ order, LineDone ptrs src a' o) ∧
      ∀ p, (∀ o ∈ order, p < ptrs.getD o 0 ∨ ptrs.getD (o + 1) 0 ≤ p) → a'[p]? = a[p]? := by
  intro order
  induction order with
  | nil => intro a _ _ ha; exact ⟨a, rfl, ha, fun o ho => (nomatch ho), fun p _ => rfl⟩
  | cons o order ih =>
    intro a hn hlt ha
    obtain ⟨hno, hn⟩ := List.nodup_cons.1 hn
    have ho := hlt o List.mem_cons_self
    obtain ⟨a1, e1, l1, d1, u1⟩ := orderLine_spec hr hb ho ha hk
    obtain ⟨a2, e2, l2, d2, u2⟩ := ih a1 hn (fun x hx => hlt x (List.mem_cons_of_mem _ hx)) (by omega)
    refine ⟨a2, by rw [List.foldlM_cons, e1]; exact e2, l2, ?_, ?_⟩
    · intro x hx
      rcases List.mem_cons.1 hx with rfl | hx
      · refine d1.congr fun p hp hp2 => u2 p fun y hy => ?_
        apply Classical.byContradiction
        intro hc
        have : x = y := hr.disjoint ho (hlt y (List.mem_cons_of_mem _ hy)) hp hp2 (by omega) (by omega)
        exact hno (this ▸ hy)
      · exact d2 x hx
    · intro p hp
      rw [u2 p (fun x hx => hp x (List.mem_cons_of_mem _ hx)), u1 p (hp o List.mem_cons_self)]

/-! ## The ordered matrix -/

/-- Moving the entries within their lines keeps a matrix; ascending order makes the subscripts distinct. -/
theorem csr_reorder {m m' : Mat V} {rm : Bool} {A : Nat → Nat → Option V} (h : Csr m rm A) (hrows : m'.rows = m.rows) (hcols : m'.cols = m.cols)
    (hptrs : m'.ptrs = m.ptrs) (hi : m'.inds.length = m.inds.length) (hv : m'.vals.length = m.inds.length) (asc : Ascending m' rm)
    (fwd : ∀ o, o < m.outer rm → ∀ p, m.ptrs.getD o 0 ≤ p → p < m.ptrs.getD (o + 1) 0 →
      ∃ q, m.ptrs.getD o 0 ≤ q ∧ q < m.ptrs.getD (o + 1) 0 ∧ m'.inds[q]? = m.inds[p]? ∧ m'.vals[q]? = m.vals[p]?)
    (back : ∀ o, o < m.outer rm → ∀ q, m.ptrs.getD o 0 ≤ q → q < m.ptrs.getD (o + 1) 0 →
      ∃ p, m.ptrs.getD o 0 ≤ p ∧ p < m.ptrs.getD (o + 1) 0 ∧ m'.inds[q]? = m.inds[p]? ∧ m'.vals[q]? = m.vals[p]?) : Csr m' rm A := by
  have ho : m'.outer rm = m.outer rm := by unfold Mat.outer; rw [hrows, hcols]
  have hn : m'.inner rm = m.inner rm := by unfold Mat.inner; rw [hrows, hcols]
  constructor
  · rw [hptrs, ho]; exact h.len
  · rw [hptrs, ho]; exact h.mono
  · rw [hptrs, ho, hi]; exact h.last
  · rw [hv, hi]
  · rw [hptrs, ho, hn]
    intro o hoo q h1 h2
    obtain ⟨p, p1, p2, e, _⟩ := back o hoo q h1 h2
    rw [List.getD_eq_getElem?_getD, e, ← List.getD_eq_getElem?_getD]
    exact h.bound o hoo p p1 p2
  · intro o hoo p q p1 p2 q1 q2 e
    rcases Nat.lt_trichotomy p q with x | x | x
    · have := asc o hoo p q p1 x q2; omega
    · exact x
    · have := asc o hoo q p q1 x p2; omega
  · rw [hptrs, ho, hn]
    intro o hoo t ht a
    rw [h.entry o hoo t ht a]
    constructor
    · rintro ⟨p, p1, p2, e1, e2⟩
      obtain ⟨q, q1, q2, x1, x2⟩ := fwd o hoo p p1 p2
      exact ⟨q, q1, q2, by rw [List.getD_eq_getElem?_getD, x1, ← List.getD_eq_getElem?_getD, e1], by rw [x2, e2]⟩
    · rintro ⟨q, q1, q2, e1, e2⟩
      obtain ⟨p, p1, p2, x1, x2⟩ := back o hoo q q1 q2
      refine ⟨p, p1, p2, ?_, by rw [← x2, e2]⟩
      rw [List.getD_eq_getElem?_getD, ← x1, ← List.getD_eq_getElem?_getD, e1]

/-- Ascending order after the sort. -/
theorem line_ascending {ptrs : List Nat} {src a : List (Nat × P)} {o : Nat} (h : LineDone ptrs src a o)
    (hd : ∀ p q, ptrs.getD o 0 ≤ p → p < ptrs.getD (o + 1) 0 → ptrs.getD o 0 ≤ q → q < ptrs.getD (o + 1) 0 →
      (src.map (·.1)).getD p 0 = (src.map (·.1)).getD q 0 → p = q) {p q : Nat} (hp : ptrs.getD o 0 ≤ p) (hpq : p < q) (hq : q < ptrs.getD (o + 1) 0) :
    (a.map (·.1)).getD p 0 < (a.map (·.1)).getD q 0 := by
  obtain ⟨pos, h1, h2, h3⟩ := h
  obtain ⟨i, i1, i2, rfl⟩ := h2 p hp (by omega)
  obtain ⟨j, j1, j2, rfl⟩ := h2 q (by omega) hq
  have e : ∀ i, ptrs.getD o 0 ≤ i → i < ptrs.getD (o + 1) 0 → (a.map (·.1)).getD (pos i) 0 = (src.map (·.1)).getD i 0 := by
    intro i i1 i2
    rw [List.getD_eq_getElem?_getD, List.getD_eq_getElem?_getD, List.getElem?_map, List.getElem?_map, (h1 i i1 i2).2.2]
  rw [e i i1 i2, e j j1 j2]
  have := h3 i j i1 i2 j1 j2 hpq
  have hne : (src.map (·.1)).getD i 0 ≠ (src.map (·.1)).getD j 0 := fun ee => by
    have := hd i j i1 i2 j1 j2 ee
    subst this
    omega
  omega

theorem orderBits_spec {inner k : Nat} (hi : inner ≤ 2 ^ 31) (hk : k < inner) : orderBits inner ≤ 31 ∧ k < 2 ^ orderBits inner := by
  have h1 : Bits.bitCount inner ≤ 31 := (Bits.bitCount_spec inner 31).2 fun m hm => by omega
  have h2 := (Bits.bitCount_spec inner (orderBits inner)).1 (Nat.le_max_left _ _) k hk
  exact ⟨Nat.max_le.2 ⟨h1, by omega⟩, h2⟩

/-- Every position belongs to a line. -/
theorem full_line {m : Mat V} {rm : Bool} (hf : Full m rm) : ∀ {p : Nat}, p < m.inds.length →
    ∃ o, o < m.outer rm ∧ m.ptrs.getD o 0 ≤ p ∧ p < m.ptrs.getD (o + 1) 0 := by
  intro p hp
  have : ∀ n, n ≤ m.outer rm → p < m.ptrs.getD n 0 → ∃ o, o < m.outer rm ∧ m.ptrs.getD o 0 ≤ p ∧ p < m.ptrs.getD (o + 1) 0 := by
    intro n
    induction n with
    | zero => intro _ h; rw [hf.1] at h; omega
    | succ n ih =>
      intro hn h
      by_cases h2 : p < m.ptrs.getD n 0
      · exact ih (by omega) h2
      · exact ⟨n, by omega, by omega, h⟩
  exact this _ (Nat.le_refl _) (by rw [hf.2]; exact hp)

theorem full_mem {m : Mat V} {rm : Bool} {A : Nat → Nat → Option V} (h : Csr m rm A) (hf : Full m rm) (hi : m.inner rm ≤ 2 ^ 31) :
    ∀ i ∈ m.inds, i < 2 ^ orderBits (m.inner rm) := by
  intro i him
  obtain ⟨p, hp, rfl⟩ := List.getElem_of_mem him
  obtain ⟨o, ho, h1, h2⟩ := full_line hf hp
  have := h.bound o ho p h1 h2
  rw [List.getD_eq_getElem?_getD, List.getElem?_eq_getElem hp] at this
  exact (orderBits_spec hi this).2

theorem orderBits_le {inner : Nat} (hi : inner ≤ 2 ^ 31) : orderBits inner ≤ 31 :=
  Nat.max_le.2 ⟨(Bits.bitCount_spec inner 31).2 fun m hm => by omega, by omega⟩

/-! ## The kernels of `transposeFrom` -/

theorem slots_eq {ptrs : List Nat} {nsegs n : Nat} (h : Rows ptrs nsegs n) : ∀ k, k ≤ nsegs →
    ((List.range k).flatMap fun o => List.range' (ptrs.getD o 0) (ptrs.getD (o + 1) 0 - ptrs.getD o 0)) =
      List.range' (ptrs.getD 0 0) (ptrs.getD k 0 - ptrs.getD 0 0) := by
  intro k
  induction k with
  | zero => intro _; simp
  | succ k ih =>
    intro hk
    have h1 := h.mono 0 k (by omega) (by omega)
    have h2 := h.mono k (k + 1) (by omega) hk
    rw [List.range_succ, List.flatMap_append, ih (by omega), List.flatMap_cons, List.flatMap_nil, List.append_nil]
    have e : ptrs.getD (k + 1) 0 - ptrs.getD 0 0 = (ptrs.getD k 0 - ptrs.getD 0 0) + (ptrs.getD (k + 1) 0 - ptrs.getD k 0) := by omega
    have e2 : ptrs.getD k 0 = ptrs.getD 0 0 + 1 * (ptrs.getD k 0 - ptrs.getD 0 0) := by omega
    rw [e, ← List.range'_append, ← e2]

/-- The line of a position. -/
def rowOf (ptrs : List Nat) (nsegs k : Nat) : Nat :=
  ((List.range nsegs).find? fun o => ptrs.getD o 0 ≤ k && k < ptrs.getD (o + 1) 0).getD 0

theorem rowOf_eq {ptrs : List Nat} {nsegs n o k : Nat} (h : Rows ptrs nsegs n) (ho : o < nsegs) (h1 : ptrs.getD o 0 ≤ k)
    (h2 : k < ptrs.getD (o + 1) 0) : rowOf ptrs nsegs k = o := by
  unfold rowOf
  cases e : (List.range nsegs).find? fun o => decide (ptrs.getD o 0 ≤ k) && decide (k < ptrs.getD (o + 1) 0) with
  | none =>
    have := List.find?_eq_none.1 e o (List.mem_range.2 ho)
    rw [Bool.and_eq_true, decide_eq_true_eq, decide_eq_true_eq] at this
    exact absurd ⟨h1, h2⟩ this
  | some x =>
    have h3 := List.find?_some e
    rw [Bool.and_eq_true, decide_eq_true_eq, decide_eq_true_eq] at h3
    exact h.disjoint (List.mem_range.1 (List.mem_of_find?_eq_some e)) ho h3.1 h3.2 h1 h2

theorem slotsOf_eq {ptrs : List Nat} {nsegs n o : Nat} (h : Rows ptrs nsegs n) (ho : o < nsegs) :
    slotsOf ptrs o = some (List.range' (ptrs.getD o 0) (ptrs.getD (o + 1) 0 - ptrs.getD o 0)) := by
  have := h.len
  rw [slotsOf, getD_some 0 (show o < ptrs.length by omega), getD_some 0 (show o + 1 < ptrs.length by omega)]
  simp only [Option.bind_some]
  rw [if_pos (h.mono _ _ (by omega) ho)]

theorem mem_slots {ptrs : List Nat} {nsegs n o k : Nat} (h : Rows ptrs nsegs n) (ho : o < nsegs) :
    k ∈ List.range' (ptrs.getD o 0) (ptrs.getD (o + 1) 0 - ptrs.getD o 0) ↔ ptrs.getD o 0 ≤ k ∧ k < ptrs.getD (o + 1) 0 := by
  have := h.mono o (o + 1) (by omega) ho
  rw [List.mem_range'_1]
  omega

theorem counted_spec {n : Nat} {task : Nat → Option (List Tally)} {f : Nat → List Tally} {s : List Nat × List Nat}
    {r : Option (List Nat × List Nat)} (h : Counted n task s r) (ht : ∀ t < n, task t = some (f t)) :
    ∃ sched : List Tally, sched.Perm ((List.range n).flatMap f) ∧ r = sched.foldlM tally s := by
  have hm := Spmv.mapM_eq (List.range n) (fun t h => ht t (List.mem_range.1 h))
  cases h with
  | task h => rw [hm] at h; cases h
  | run ts sched h1 h2 =>
    rw [hm] at h1; cases h1
    refine ⟨sched, ?_, rfl⟩
    have e : (List.range n).flatMap (fun t => ((List.range n).map f).getD t []) = (List.range n).flatMap f := by
      rw [List.flatMap_def, List.flatMap_def]
      congr 1
      apply List.map_congr_left
      intro t ht
      have := List.mem_range.1 ht
      simp [List.getD_eq_getElem?_getD, this]
    rw [← e]
    exact interleave_perm h2

/-- The first kernel places the entries by their subscript. -/
theorem count_spec {ptrs inds : List Nat} {nsegs inner : Nat} (hr : Rows ptrs nsegs inds.length) (h0 : ptrs.getD 0 0 = 0)
    (hn : ptrs.getD nsegs 0 = inds.length) (hb : ∀ i ∈ inds, i < inner) {loc : List Nat} (hl : loc.length = inds.length)
    {r : Option (List Nat × List Nat)} (h : Counted nsegs (countTask ptrs inds) (List.replicate (inner + 1) 0, loc) r) :
    ∃ st, r = some st ∧ st.2.length = inds.length ∧ ∀ ptrs', ExScan st.1 ptrs' →
      Placed inner (fun k => inds.getD k 0) (List.range inds.length) ptrs' fun k => ptrs'.getD (inds.getD k 0) 0 + st.2.getD k 0 := by
  have task : ∀ o < nsegs, countTask ptrs inds o =
      some ((List.range' (ptrs.getD o 0) (ptrs.getD (o + 1) 0 - ptrs.getD o 0)).map fun k => ⟨some k, inds.getD k 0⟩) := by
    intro o ho
    rw [countTask, slotsOf_eq hr ho]
    apply mapM_of_some
    intro k hk
    have := (mem_slots hr ho).1 hk
    have := hr.last (o + 1) ho
    rw [getD_some 0 (show k < inds.length by omega)]
    rfl
  obtain ⟨sched, hp, rfl⟩ := counted_spec h task
  rw [← List.map_flatMap, slots_eq hr _ (Nat.le_refl _), h0, hn, Nat.sub_zero, ← List.range_eq_range'] at hp
  obtain ⟨L, hL, rfl⟩ := tallies_of_perm (line := fun k => inds.getD k 0) hp
  obtain ⟨cnts, loc', p1, p2, p3⟩ := placed (nsegs := inner) (line := fun k => inds.getD k 0) (L := L) (loc0 := loc)
    (hL.nodup_iff.2 List.nodup_range) (fun k hk => by
      have hk := List.mem_range.1 (hL.mem_iff.1 hk)
      exact ⟨hb _ (getD_mem _ hk), by omega⟩)
  exact ⟨(cnts, loc'), p1, by rw [← hl]; exact p2, fun ptrs' hs => (p3 ptrs' hs).perm hL⟩

theorem foldl_const {c z : V} : ∀ l : List (V → V), l ≠ [] → (∀ f ∈ l, f = fun _ => c) → l.foldl (fun v f => f v) z = c := by
  intro l
  induction l generalizing z with
  | nil => intro h; exact absurd rfl h
  | cons f l ih =>
    intro _ h
    have hf := h f List.mem_cons_self
    subst hf
    rw [List.foldl_cons]
    cases l with
    | nil => rfl
    | cons g l => exact ih (by simp) (fun x hx => h x (List.mem_cons_of_mem _ hx))

/-- What the second kernel writes for slot `k` of line `o`. -/
def moved (tr : V → V) (act : Bool) (vals : List V) (dst : Nat → Nat) (o k : Nat) : List (Put V) :=
  Put.ind (dst k) o :: if act then vals[k]?.toList.map fun v => Put.val (dst k) fun _ => tr v else []

/-- The second kernel writes every entry to its place. -/
theorem reorder_spec {tr : V → V} {act : Bool} {o : Mat V} {nsegs inner : Nat} {loc ptrs inds : List Nat} {vals : List V}
    {r : Option (List Nat × List V)} (hr : Rows o.ptrs nsegs o.inds.length) (h0 : o.ptrs.getD 0 0 = 0)
    (hn : o.ptrs.getD nsegs 0 = o.inds.length) (hb : ∀ i ∈ o.inds, i < inner)
    (hact : act = true → o.vals.length = o.inds.length ∧ vals.length = o.inds.length)
    (hl : loc.length = o.inds.length)
    (pl : Placed inner (fun k => o.inds.getD k 0) (List.range o.inds.length) ptrs fun k => ptrs.getD (o.inds.getD k 0) 0 + loc.getD k 0)
    (hi : inds.length = o.inds.length) (h : Puts nsegs (reorderTask tr act loc o ptrs) (inds, vals) r) :
    ∃ st, r = some st ∧ st.1.length = o.inds.length ∧ st.2.length = vals.length ∧ (act = false → st.2 = vals) ∧ ∀ k, k < o.inds.length →
      st.1[ptrs.getD (o.inds.getD k 0) 0 + loc.getD k 0]? = some (rowOf o.ptrs nsegs k) ∧
      (act = true → ∀ v, o.vals[k]? = some v → st.2[ptrs.getD (o.inds.getD k 0) 0 + loc.getD k 0]? = some (tr v)) := by
  generalize hdst : (fun k => ptrs.getD (o.inds.getD k 0) 0 + loc.getD k 0) = dst at pl
  have hd : ∀ k, ptrs.getD (o.inds.getD k 0) 0 + loc.getD k 0 = dst k := fun n => congrFun hdst n
  simp only [hd]
  have hdl : ∀ k, k < o.inds.length → dst k < o.inds.length := by
    intro k hk
    have h1 := pl.high k (List.mem_range.2 hk)
    have h3 := pl.mono (o.inds.getD k 0 + 1) _ (hb _ (getD_mem _ hk)) (Nat.le_refl _)
    rw [pl.total, List.length_range] at h3
    omega
  have task : ∀ x < nsegs, reorderTask tr act loc o ptrs x =
      some ((List.range' (o.ptrs.getD x 0) (o.ptrs.getD (x + 1) 0 - o.ptrs.getD x 0)).flatMap (moved tr act o.vals dst x)) := by
    intro x hx
    rw [reorderTask, slotsOf_eq hr hx]
    simp only [Option.bind_some]
    rw [mapM_of_some (g := moved tr act o.vals dst x)]
    · rw [Option.map_some, List.flatMap_def]
    · intro k hk
      have := (mem_slots hr hx).1 hk
      have := hr.last (x + 1) hx
      have hk : k < o.inds.length := by omega
      have := pl.len
      have := hb _ (getD_mem 0 hk)
      rw [getD_some 0 hk]
      simp only [Option.bind_some]
      rw [getD_some 0 (show o.inds.getD k 0 < ptrs.length by omega), getD_some 0 (show k < loc.length by omega)]
      simp only [Option.bind_some, hd, moved]
      cases act with
      | false => rfl
      | true =>
        have := (hact rfl).1
        rw [List.getElem?_eq_getElem (show k < o.vals.length by omega)]
        rfl
  have inRow : ∀ {x y : Nat} {e : Put V}, x < nsegs →
      e ∈ (List.range' (o.ptrs.getD x 0) (o.ptrs.getD (x + 1) 0 - o.ptrs.getD x 0)).flatMap (moved tr act o.vals dst x) →
      ∃ k, k < o.inds.length ∧ rowOf o.ptrs nsegs k = x ∧
        (e = Put.ind (dst k) x ∨ (act = true ∧ ∃ v, o.vals[k]? = some v ∧ e = Put.val (dst k) fun _ => tr v)) := by
    intro x y e hx he
    obtain ⟨k, hk, he⟩ := List.mem_flatMap.1 he
    obtain ⟨k1, k2⟩ := (mem_slots hr hx).1 hk
    have := hr.last (x + 1) hx
    refine ⟨k, by omega, rowOf_eq hr hx k1 k2, ?_⟩
    rcases List.mem_cons.1 he with he | he
    · exact .inl he
    · right
      cases act with
      | false => cases he
      | true =>
        refine ⟨rfl, ?_⟩
        rw [if_pos rfl] at he
        obtain ⟨v, hv, rfl⟩ := List.mem_map.1 he
        exact ⟨v, by simpa using hv, rfl⟩
  obtain ⟨st, sched, r1, r2, r3, r4, r5, r6⟩ := puts_spec h task
    (fun x hx p u hu => by
      obtain ⟨k, hk, _, e | ⟨_, v, _, e⟩⟩ := inRow (y := 0) hx hu
      · injection e with e1 e2
        have := hdl k hk
        dsimp only
        omega
      · cases e)
    (fun x hx p g hg => by
      obtain ⟨k, hk, _, e | ⟨ha, v, _, e⟩⟩ := inRow (y := 0) hx hg
      · cases e
      · injection e with e1 e2
        have := hdl k hk
        have := (hact ha).2
        dsimp only
        omega)
  dsimp only at r3 r4
  have mem : ∀ {e : Put V}, e ∈ sched → ∃ k, k < o.inds.length ∧
      (e = Put.ind (dst k) (rowOf o.ptrs nsegs k) ∨ (act = true ∧ ∃ v, o.vals[k]? = some v ∧ e = Put.val (dst k) fun _ => tr v)) := by
    intro e he
    obtain ⟨x, hx, he⟩ := List.mem_flatMap.1 (r2.mem_iff.1 he)
    obtain ⟨k, hk, e1, e2⟩ := inRow (y := 0) (List.mem_range.1 hx) he
    exact ⟨k, hk, by rw [e1]; exact e2⟩
  have inj : ∀ k l, k < o.inds.length → l < o.inds.length → dst k = dst l → k = l :=
    fun k l hk hl e => pl.inj k (List.mem_range.2 hk) l (List.mem_range.2 hl) e
  have row : ∀ k, k < o.inds.length → ∃ x, x < nsegs ∧ k ∈ List.range' (o.ptrs.getD x 0) (o.ptrs.getD (x + 1) 0 - o.ptrs.getD x 0) := by
    intro k hk
    have : k ∈ List.range' (o.ptrs.getD 0 0) (o.ptrs.getD nsegs 0 - o.ptrs.getD 0 0) := by
      rw [List.mem_range'_1]; omega
    rw [← slots_eq hr _ (Nat.le_refl _)] at this
    obtain ⟨x, hx, hk⟩ := List.mem_flatMap.1 this
    exact ⟨x, List.mem_range.1 hx, hk⟩
  refine ⟨st, r1, by omega, r4, ?_, fun k hk => ⟨?_, fun ha v hv => ?_⟩⟩
  · intro ha
    apply List.ext_getElem?
    intro p
    rw [r6 p]
    have : updates p sched = [] := by
      rw [updates, List.filterMap_eq_nil_iff]
      intro e he
      obtain ⟨k, _, e1 | ⟨ha', _⟩⟩ := mem he
      · rw [e1]
      · rw [ha] at ha'; cases ha'
    rw [this]
    simp
  · obtain ⟨x, hx, hkx⟩ := row k hk
    have h1 : Put.ind (dst k) x ∈ sched := r2.mem_iff.2 (List.mem_flatMap.2 ⟨x, List.mem_range.2 hx,
      List.mem_flatMap.2 ⟨k, hkx, List.mem_cons_self⟩⟩)
    obtain ⟨u, h2, h3⟩ := r5 _ _ h1
    rw [h3]
    obtain ⟨l, hl, e | ⟨_, v, _, e⟩⟩ := mem h2
    · injection e with e1 e2
      rw [e2, inj k l hk hl e1]
    · cases e
  · have := (hact ha).2
    have := hdl k hk
    rw [r6 (dst k)]
    rw [List.getElem?_eq_getElem (show dst k < vals.length by omega), Option.map_some]
    congr 1
    apply foldl_const
    · obtain ⟨x, hx, hkx⟩ := row k hk
      have h1 : Put.val (dst k) (fun _ => tr v) ∈ sched := r2.mem_iff.2 (List.mem_flatMap.2 ⟨x, List.mem_range.2 hx,
        List.mem_flatMap.2 ⟨k, hkx, by
          rw [moved, ha, if_pos rfl, hv]
          exact List.mem_cons_of_mem _ (List.mem_cons_self)⟩⟩)
      have h2 : (fun _ => tr v) ∈ updates (dst k) sched := by
        rw [updates]
        refine List.mem_filterMap.2 ⟨_, h1, ?_⟩
        dsimp only
        rw [if_pos rfl]
      intro e
      rw [e] at h2
      cases h2
    · intro f hf
      rw [updates] at hf
      obtain ⟨e, he, ef⟩ := List.mem_filterMap.1 hf
      obtain ⟨l, hl, e1 | ⟨_, w, hw, e1⟩⟩ := mem he
      · rw [e1] at ef; cases ef
      · rw [e1] at ef
        dsimp only at ef
        split at ef
        · rename_i e2
          injection ef with ef
          have := inj l k hl hk e2
          subst this
          rw [hv] at hw
          injection hw with hw
          rw [← ef, hw]
        · cases ef

end Verif.Sparse
