import Verif.Proof.Spmv
import Verif.Props.Sparse
/-!
C48: sparse matrix-vector products.  `m` stores the partial matrix `A` (`Csr`); row `i` of the product is the sum of the
`terms` `A i j * x j` over the columns `j` where `A` is defined, in ascending order.  The relations `Classic`, `Spmv`,
`SpmvMask` hold for every result that some schedule of the kernels can produce.
-/
namespace Verif.Spmv
open Verif.Sparse Verif.Phase

variable {V X W T : Type} {s : Ops V X W T} {m : Mat V} {A : Nat → Nat → Option V} {x : List X} {out : List T}
  {r : Res T}

/-- Component `d` of row `i` of the product. -/
def product (s : Ops V X W T) (A : Nat → Nat → Option V) (x : List X) (cols i d : Nat) : T :=
  (terms s A x cols i d).foldl s.atomic (s.cast s.ident d)

theorem flatten_replicate_get {B : Type} (L : List B) : ∀ n i d, i < n → d < L.length →
    ((List.replicate n L).flatten)[i * L.length + d]? = L[d]? := by
  intro n
  induction n with
  | zero => intro i d h; omega
  | succ n ih =>
    intro i d hi hd
    rw [List.replicate_succ, List.flatten_cons]
    cases i with
    | zero => rw [Nat.zero_mul, Nat.zero_add, List.getElem?_append_left hd]
    | succ i =>
      rw [Nat.add_mul, Nat.one_mul, List.getElem?_append_right (by omega)]
      have : i * L.length + L.length + d - L.length = i * L.length + d := by omega
      rw [this]
      exact ih i d (by omega) hd

theorem clear_length (s : Ops V X W T) (m : Mat V) : (clear s m).length = m.rows * s.comps := by
  simp [clear]

theorem clear_get (s : Ops V X W T) (m : Mat V) {i d : Nat} (hi : i < m.rows) (hd : d < s.comps) :
    (clear s m)[i * s.comps + d]? = some (s.cast s.ident d) := by
  have h := flatten_replicate_get ((List.range s.comps).map (s.cast s.ident)) m.rows i d hi (by simpa using hd)
  rw [List.length_map, List.length_range] at h
  unfold clear
  rw [h]
  simp [hd]

/-- C48 for `spmv_classic`, both storage orders: every schedule adds the product to the output. -/
theorem spmv_classic_exact (laws : Laws s) (rm : Bool) (h : Csr m rm A) (hs : sizes s m x out)
    (run : Classic s m rm x out r) :
    ∃ out', r = .ok out' ∧ out'.length = out.length ∧ ∀ i < m.rows, ∀ d < s.comps,
      out'[i * s.comps + d]? = out[i * s.comps + d]?.map fun t => s.atomic t (product s A x m.cols i d) := by
  obtain ⟨_, run⟩ | ⟨hn, _⟩ := run
  · have key : ∃ out', r = .ok out' ∧ out'.length = out.length ∧ ∀ i < m.rows, ∀ d < s.comps,
        out'[i * s.comps + d]? = out[i * s.comps + d]?.map fun t =>
          if (fun _ => false) i = true then t else (terms s A x m.cols i d).foldl s.atomic t := by
      cases rm with
      | true => exact row_launch laws h hs.1 (fun _ _ => rfl) hs.2 run
      | false => exact col_launch laws h hs.1 (fun _ _ => rfl) hs.2 (Nat.le_refl _) run
    obtain ⟨out', h1, h2, h3⟩ := key
    refine ⟨out', h1, h2, fun i hi d hd => ?_⟩
    rw [h3 i hi d hd]
    congr 1
    funext t
    rw [product, foldl_ident laws, laws.ident]
    rfl
  · exact absurd hs hn

/-- C48 for `spmv`, row-major: every schedule writes the product. -/
theorem spmv_row_major_exact (laws : Laws s) (h : Csr m true A) (hs : sizes s m x out) (run : Spmv s m true x out r) :
    ∃ out', r = .ok out' ∧ out'.length = out.length ∧ ∀ i < m.rows, ∀ d < s.comps,
      out'[i * s.comps + d]? = some (product s A x m.cols i d) := by
  obtain ⟨_, run⟩ | ⟨hn, _⟩ := run
  · obtain ⟨out', h1, h2, h3⟩ := row_launch laws h hs.1 (fun _ _ => rfl) (clear_length s m) run
    refine ⟨out', h1, by rw [h2, clear_length, hs.2], fun i hi d hd => ?_⟩
    rw [h3 i hi d hd, clear_get s m hi hd]
    rfl
  · exact absurd hs hn

/-- C48 (partial) for `spmv`, column-major, with at least as many columns as rows: every schedule writes the product
with the first `rows` columns only, which is the product if the matrix is square.  Missing: the remaining columns
(`spmv_col_major_wide_violated`), and matrices with more rows than columns (`spmv_col_major_tall_violated`). -/
theorem spmv_col_major_partial (laws : Laws s) (h : Csr m false A) (hs : sizes s m x out) (hc : m.rows ≤ m.cols)
    (run : Spmv s m false x out r) :
    ∃ out', r = .ok out' ∧ out'.length = out.length ∧ ∀ i < m.rows, ∀ d < s.comps,
      out'[i * s.comps + d]? = some (product s A x m.rows i d) := by
  obtain ⟨_, run⟩ | ⟨hn, _⟩ := run
  · obtain ⟨out', h1, h2, h3⟩ := col_launch laws h hs.1 (fun _ _ => rfl) (clear_length s m) hc run
    refine ⟨out', h1, by rw [h2, clear_length, hs.2], fun i hi d hd => ?_⟩
    rw [h3 i hi d hd, clear_get s m hi hd]
    rfl
  · exact absurd hs hn

/-- C48 fails for every column-major matrix with more rows than columns: every call of `spmv` reads out of
bounds. -/
theorem spmv_col_major_tall_violated (h : Csr m false A) (hs : sizes s m x out) (hc : m.cols < m.rows)
    (run : Spmv s m false x out r) : r = .bad := by
  obtain ⟨_, run⟩ | ⟨hn, _⟩ := run
  · have hl : m.ptrs.length = m.cols + 1 := h.len
    have hnone : (List.range m.rows).mapM (colTask s m x none) = none := by
      have key : ∀ l : List Nat, m.cols ∈ l → l.mapM (colTask s m x none) = none := by
        intro l
        induction l with
        | nil => intro h; cases h
        | cons a l ih =>
          intro hm
          rw [List.mapM_cons]
          rcases List.mem_cons.1 hm with rfl | hm
          · have : colTask s m x none m.cols = none := by
              simp only [colTask]
              rw [List.getElem?_eq_none (i := m.cols + 1) (by omega)]
              cases m.ptrs[m.cols]? <;> rfl
            rw [this]; rfl
          · rw [ih hm]
            cases colTask s m x none a <;> rfl
      exact key _ (List.mem_range.2 hc)
    cases run with
    | task _ => rfl
    | write ts sched h1 => rfl
    | ok ts sched out' h1 => exact absurd (hnone.symm.trans h1) (by simp)
  · exact absurd hs hn

/-- C48 for `spmv_mask`, both storage orders: the rows with a set mask keep the identity, the others get the
product. -/
theorem spmv_mask_exact (laws : Laws s) (rm : Bool) (h : Csr m rm A) (hs : sizes s m x out) {mask : List Bool}
    (hmask : m.rows ≤ mask.length) (run : SpmvMask s m rm x mask out r) :
    ∃ out', r = .ok out' ∧ out'.length = out.length ∧ ∀ i < m.rows, ∀ d < s.comps,
      out'[i * s.comps + d]? = some (if mask.getD i false then s.cast s.ident d else product s A x m.cols i d) := by
  have hm : ∀ i < m.rows, masked (some mask) i = some (mask.getD i false) := by
    intro i hi
    simp only [masked]
    rw [List.getD_eq_getElem?_getD, List.getElem?_eq_getElem (by omega)]
    rfl
  obtain ⟨_, run⟩ | ⟨hn, _⟩ := run
  · have key : ∃ out', r = .ok out' ∧ out'.length = (clear s m).length ∧ ∀ i < m.rows, ∀ d < s.comps,
        out'[i * s.comps + d]? = (clear s m)[i * s.comps + d]?.map fun t =>
          if mask.getD i false = true then t else (terms s A x m.cols i d).foldl s.atomic t := by
      cases rm with
      | true => exact row_launch laws h hs.1 hm (clear_length s m) run
      | false => exact col_launch laws h hs.1 hm (clear_length s m) (Nat.le_refl _) run
    obtain ⟨out', h1, h2, h3⟩ := key
    refine ⟨out', h1, by rw [h2, clear_length, hs.2], fun i hi d hd => ?_⟩
    rw [h3 i hi d hd, clear_get s m hi hd]
    rfl
  · exact absurd hs hn

/-- Every call has a result, and sizes that do not match throw. -/
theorem spmv_total (s : Ops V X W T) (m : Mat V) (rm : Bool) (x : List X) (mask : List Bool) (out : List T) :
    (∃ r, Classic s m rm x out r) ∧ (∃ r, Spmv s m rm x out r) ∧ (∃ r, SpmvMask s m rm x mask out r) ∧
    (¬ sizes s m x out → ∀ r, Classic s m rm x out r ∨ Spmv s m rm x out r ∨ SpmvMask s m rm x mask out r →
      r = .throws) := by
  by_cases hs : sizes s m x out
  · refine ⟨?_, ?_, ?_, fun h => absurd hs h⟩
    · obtain ⟨r, h⟩ := Launch.exists s (if rm then m.rows else m.cols) ((if rm then rowTask else colTask) s m x none) out
      exact ⟨r, .inl ⟨hs, h⟩⟩
    · obtain ⟨r, h⟩ := Launch.exists s m.rows ((if rm then rowTask else colTask) s m x none) (clear s m)
      exact ⟨r, .inl ⟨hs, h⟩⟩
    · obtain ⟨r, h⟩ := Launch.exists s (if rm then m.rows else m.cols)
        ((if rm then rowTask else colTask) s m x (some mask)) (clear s m)
      exact ⟨r, .inl ⟨hs, h⟩⟩
  · refine ⟨⟨_, .inr ⟨hs, rfl⟩⟩, ⟨_, .inr ⟨hs, rfl⟩⟩, ⟨_, .inr ⟨hs, rfl⟩⟩, fun _ r h => ?_⟩
    rcases h with h | h | h <;> rcases h with ⟨h, _⟩ | ⟨_, h⟩
    all_goals first | exact absurd h hs | exact h

/-! ### The operations satisfy the laws -/

theorem laws_int : Laws (Ops.classic (T := Int)) :=
  ⟨Int.add_assoc, Int.add_comm, fun _ a => Int.add_zero a, fun _ _ _ => rfl⟩

theorem laws_rat : Laws (Ops.classic (T := Rat)) :=
  ⟨Rat.add_assoc, Rat.add_comm, fun _ a => Rat.add_zero a, fun _ _ _ => rfl⟩

theorem laws_plusTimesInt : Laws Ops.plusTimesInt :=
  ⟨Int.add_assoc, Int.add_comm, fun _ a => Int.add_zero a, fun _ _ _ => rfl⟩

theorem laws_plusTimes : Laws Ops.plusTimes :=
  ⟨Rat.add_assoc, Rat.add_comm, fun _ a => Rat.add_zero a, fun a b _ => Rat.intCast_add a b⟩

theorem laws_boolean : Laws Ops.boolean :=
  ⟨Bool.or_assoc, Bool.or_comm, fun _ a => Bool.or_false a, fun _ _ _ => rfl⟩

theorem laws_block : Laws Ops.block where
  assoc := Int.add_assoc
  comm := Int.add_comm
  ident d a := by
    show a + (if h : d < 3 then (0 : Int) else 0) = a
    split <;> omega
  add a b d := by
    show (if h : d < 3 then a ⟨d, h⟩ + b ⟨d, h⟩ else (0 : Int)) =
      (if h : d < 3 then a ⟨d, h⟩ else 0) + (if h : d < 3 then b ⟨d, h⟩ else 0)
    split <;> omega

theorem laws_minPlus : Laws Ops.minPlus where
  assoc a b c := by
    simp only [Ops.minPlus, BitVec.lt_def]
    split <;> split <;> (try split) <;> first | rfl | (apply BitVec.eq_of_toNat_eq; omega)
  comm a b := by
    simp only [Ops.minPlus, BitVec.lt_def]
    split <;> split <;> first | rfl | (apply BitVec.eq_of_toNat_eq; omega)
  ident d a := by
    have := a.isLt
    simp only [Ops.minPlus, BitVec.lt_def, BitVec.toNat_allOnes]
    split
    · rfl
    · apply BitVec.eq_of_toNat_eq
      rw [BitVec.toNat_allOnes]
      omega
  add _ _ _ := rfl

/-! ### Examples and counterexamples -/

/-- A check of `Csr` by evaluation. -/
def check [DecidableEq V] (m : Mat V) (rm : Bool) (A : Nat → Nat → Option V) : Bool :=
  let line := fun o => List.range' (m.ptrs.getD o 0) (m.ptrs.getD (o + 1) 0 - m.ptrs.getD o 0)
  decide (m.ptrs.length = m.outer rm + 1 ∧ m.vals.length = m.inds.length ∧
    (∀ o ≤ m.outer rm, m.ptrs.getD o 0 ≤ m.inds.length) ∧
    ∀ o < m.outer rm, m.ptrs.getD o 0 ≤ m.ptrs.getD (o + 1) 0 ∧ (∀ p ∈ line o, m.inds.getD p 0 < m.inner rm) ∧
      (∀ p ∈ line o, ∀ q ∈ line o, m.inds.getD p 0 = m.inds.getD q 0 → p = q) ∧
      ∀ t < m.inner rm, (if rm then A o t else A t o) =
        ((line o).find? fun p => m.inds.getD p 0 = t).bind (m.vals[·]?))

theorem csr_of_check [DecidableEq V] {rm : Bool} (h : check m rm A = true) : Csr m rm A := by
  obtain ⟨h1, h2, h3, h4⟩ := of_decide_eq_true h
  have mem : ∀ o < m.outer rm, ∀ p,
      p ∈ List.range' (m.ptrs.getD o 0) (m.ptrs.getD (o + 1) 0 - m.ptrs.getD o 0) ↔
        m.ptrs.getD o 0 ≤ p ∧ p < m.ptrs.getD (o + 1) 0 := by
    intro o ho p
    have := (h4 o ho).1
    rw [List.mem_range'_1]
    omega
  refine ⟨h1, fun o ho => (h4 o ho).1, fun o ho => h3 o ho, h2,
    fun o ho p p1 p2 => (h4 o ho).2.1 p ((mem o ho p).2 ⟨p1, p2⟩),
    fun o ho p q p1 p2 q1 q2 => (h4 o ho).2.2.1 p ((mem o ho p).2 ⟨p1, p2⟩) q ((mem o ho q).2 ⟨q1, q2⟩), ?_⟩
  intro o ho t ht a
  obtain ⟨_, _, hu, he⟩ := h4 o ho
  rw [he t ht, Option.bind_eq_some_iff]
  constructor
  · rintro ⟨p, hp, ha⟩
    have hm := (mem o ho p).1 (List.mem_of_find?_eq_some hp)
    have := List.find?_some hp
    exact ⟨p, hm.1, hm.2, of_decide_eq_true this, ha⟩
  · rintro ⟨p, p1, p2, p3, ha⟩
    have hm := (mem o ho p).2 ⟨p1, p2⟩
    cases hf : (List.range' (m.ptrs.getD o 0) (m.ptrs.getD (o + 1) 0 - m.ptrs.getD o 0)).find?
        fun p => m.inds.getD p 0 = t with
    | none => exact absurd (List.find?_eq_none.1 hf p hm) (by simpa using p3)
    | some q =>
      have hq := List.mem_of_find?_eq_some hf
      have := List.find?_some hf
      have e := hu q hq p hm ((of_decide_eq_true this).trans p3.symm)
      exact ⟨q, rfl, e ▸ ha⟩

/-- The matrix of `exMat` (3 × 4, stored by rows). -/
def exA : Nat → Nat → Option Int
  | 0, 1 => some 10
  | 0, 3 => some 20
  | 2, 0 => some 30
  | 2, 2 => some 40
  | 2, 3 => some 50
  | _, _ => none

theorem exMat_csr : Csr exMat true exA := csr_of_check (by decide)

/-- The same matrix stored by columns. -/
def exCol : Mat Int := ⟨3, 4, [0, 1, 2, 3, 5], [2, 0, 2, 0, 2], [30, 10, 40, 20, 50]⟩

theorem exCol_csr : Csr exCol false exA := csr_of_check (by decide)

/-- Every schedule of `spmv` on the matrix stored by rows and of `spmv_classic` on the one stored by columns gives
`[100, 0, 350]`. -/
example : (∀ r, Spmv Ops.plusTimesInt exMat true [1, 2, 3, 4] [7, 7, 7] r → r = .ok [100, 0, 350]) ∧
    ∀ r, Classic (Ops.classic (T := Int)) exCol false [1, 2, 3, 4] [0, 0, 0] r → r = .ok [100, 0, 350] := by
  have three : ∀ (l l' : List Int), l.length = 3 → l'.length = 3 → l[0 * 1 + 0]? = l'[0]? → l[1 * 1 + 0]? = l'[1]? →
      l[2 * 1 + 0]? = l'[2]? → l = l' := by
    intro l l' h h' h0 h1 h2
    apply List.ext_getElem?
    intro k
    match k with
    | 0 => exact h0
    | 1 => exact h1
    | 2 => exact h2
    | k + 3 => rw [List.getElem?_eq_none (by omega), List.getElem?_eq_none (by omega)]
  constructor
  · intro r hr
    obtain ⟨out', rfl, h1, h2⟩ := spmv_row_major_exact laws_plusTimesInt exMat_csr ⟨rfl, rfl⟩ hr
    refine congrArg Res.ok (three _ _ h1 rfl ?_ ?_ ?_)
    · exact (h2 0 (by decide) 0 (by decide)).trans (by decide)
    · exact (h2 1 (by decide) 0 (by decide)).trans (by decide)
    · exact (h2 2 (by decide) 0 (by decide)).trans (by decide)
  · intro r hr
    obtain ⟨out', rfl, h1, h2⟩ := spmv_classic_exact laws_int false exCol_csr ⟨rfl, rfl⟩ hr
    refine congrArg Res.ok (three _ _ h1 rfl ?_ ?_ ?_)
    · exact (h2 0 (by decide) 0 (by decide)).trans (by decide)
    · exact (h2 1 (by decide) 0 (by decide)).trans (by decide)
    · exact (h2 2 (by decide) 0 (by decide)).trans (by decide)

/-- C48 fails for wide column-major matrices: every schedule of `spmv` on the 3 × 4 matrix above leaves out the
last column and gives 20 instead of 100 in row 0. -/
theorem spmv_col_major_wide_violated : product Ops.plusTimesInt exA [1, 2, 3, 4] 4 0 0 = 100 ∧
    ∀ r, Spmv Ops.plusTimesInt exCol false [1, 2, 3, 4] [0, 0, 0] r →
      ∃ out', r = .ok out' ∧ out'[0]? = some 20 := by
  refine ⟨by decide, fun r hr => ?_⟩
  obtain ⟨out', h1, _, h3⟩ := spmv_col_major_partial laws_plusTimesInt exCol_csr ⟨rfl, rfl⟩ (by decide) hr
  exact ⟨out', h1, (h3 0 (by decide) 0 (by decide)).trans (by decide)⟩

/-- The hypotheses of `spmv_col_major_tall_violated` are met by the transposed matrix. -/
example : Csr (⟨4, 3, [0, 2, 2, 5], [1, 3, 0, 2, 3], [10, 20, 30, 40, 50]⟩ : Mat Int) false (fun i j => exA j i) ∧
    sizes Ops.plusTimesInt (⟨4, 3, [0, 2, 2, 5], [1, 3, 0, 2, 3], [10, 20, 30, 40, 50]⟩ : Mat Int) [1, 1, 1]
      [0, 0, 0, 0] :=
  ⟨csr_of_check (by decide), rfl, rfl⟩

/-- The 1 × 1 matrix with entry one half. -/
def half : Mat Rat := ⟨1, 1, [0, 1], [0], [1 / 2]⟩

/-- C48 fails for the default semiring with floating-point values: products and sums pass through `int`.  The product
of the 1 × 1 matrix `(0.5)` with the vector `(1)` is 0 under every schedule of `spmv`, and 0.5 under every schedule of
`spmv_classic`. -/
theorem spmv_plus_times_violated :
    (∀ r, Spmv Ops.plusTimes half true [1] [7] r → ∃ out', r = .ok out' ∧ out'[0]? = some 0) ∧
    (∀ r, Classic (Ops.classic (T := Rat)) half true [1] [0] r → ∃ out', r = .ok out' ∧ out'[0]? = some (1 / 2)) := by
  have hc : Csr half true (fun i j => if i = 0 ∧ j = 0 then some (1 / 2) else none) := csr_of_check (by decide +kernel)
  constructor
  · intro r hr
    obtain ⟨out', h1, _, h3⟩ := spmv_row_major_exact laws_plusTimes hc ⟨rfl, rfl⟩ hr
    exact ⟨out', h1, (h3 0 (by decide) 0 (by decide)).trans (by decide +kernel)⟩
  · intro r hr
    obtain ⟨out', h1, _, h3⟩ := spmv_classic_exact laws_rat true hc ⟨rfl, rfl⟩ hr
    exact ⟨out', h1, (h3 0 (by decide) 0 (by decide)).trans (by decide +kernel)⟩

/-- C48 (partial) for `spmv` with the default semiring and floating-point values, row-major: correct if every product
of an entry with an input is an integer.  Missing: all other products, which are truncated
(`spmv_plus_times_violated`). -/
theorem spmv_plus_times_partial {m : Mat Rat} {A : Nat → Nat → Option Rat} {x out : List Rat} {r : Res Rat}
    (h : Csr m true A) (hs : sizes Ops.plusTimes m x out) (run : Spmv Ops.plusTimes m true x out r)
    (hi : ∀ i j a v, A i j = some a → x[j]? = some v → (trunc (a * v) : Rat) = a * v) :
    ∃ out', r = .ok out' ∧ ∀ i < m.rows, out'[i]? = some (product (Ops.classic (T := Rat)) A x m.cols i 0) := by
  obtain ⟨out', h1, _, h3⟩ := spmv_row_major_exact laws_plusTimes h hs run
  refine ⟨out', h1, fun i hi' => ?_⟩
  have e := h3 i hi' 0 (by decide)
  have ei : i * Ops.plusTimes.comps + 0 = i := by show i * 1 + 0 = i; omega
  rw [ei] at e
  rw [e]
  congr 1
  have et : terms Ops.plusTimes A x m.cols i 0 = terms (Ops.classic (T := Rat)) A x m.cols i 0 := by
    unfold terms
    apply List.filterMap_congr
    intro j _
    cases hA : A i j with
    | none => rfl
    | some a =>
      cases hx : x[j]? with
      | none => rfl
      | some v =>
        show some (trunc (a * v) : Rat) = some (a * v)
        rw [hi i j a v hA hx]
  unfold product
  rw [et]
  rfl

end Verif.Spmv
