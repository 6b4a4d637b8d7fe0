import Verif.Proof.SparseTranspose
import Verif.Props.SparseBuild
import Verif.Props.Spmv
/-! Properties of the transposition and ordering of sparse matrices: C47. -/
namespace Verif.Sparse
open Verif.Phase

variable {V : Type}

/-! ## Ordering -/

/-- `localOrdering` stores the same entries, with ascending subscripts in each line, whatever the order in which the lines are
sorted. -/
theorem order_exact {rm : Bool} {m : Mat V} {A : Nat → Nat → Option V} (h : Csr m rm A) (hf : Full m rm) (hi : m.inner rm ≤ 2 ^ 31)
    {r : Outcome V} (hr : LocalOrdering rm m r) :
    ∃ m', r = .ok m' ∧ m'.rows = m.rows ∧ m'.cols = m.cols ∧ Csr m' rm A ∧ Full m' rm ∧ Ascending m' rm := by
  have rows := rows_of_csr h
  have hb := orderBits_le hi
  have hm := full_mem h hf hi
  have nodup : ∀ {order : List Nat}, order.Perm (List.range (m.outer rm)) → order.Nodup ∧ ∀ o ∈ order, o < m.outer rm :=
    fun hp => ⟨hp.nodup_iff.2 List.nodup_range, fun o ho => List.mem_range.1 (hp.mem_iff.1 ho)⟩
  have empty : m.vals.length = 0 → ∀ a : List (Nat × Unit), a.length = m.inds.length → ({ m with inds := a.map (·.1) } : Mat V) = m := by
    intro hv a ha
    have : m.inds = [] := List.eq_nil_of_length_eq_zero (by have := h.vals; omega)
    rw [this] at ha
    have : a = [] := List.eq_nil_of_length_eq_zero ha
    subst this
    cases m
    simp_all
  have ksrc : (m.inds.map fun i => (i, ())).length = m.inds.length := by simp
  have kk : ∀ x ∈ m.inds.map fun i => (i, ()), x.1 < 2 ^ orderBits (m.inner rm) := by
    intro x hx
    obtain ⟨i, hi, rfl⟩ := List.mem_map.1 hx
    exact hm i hi
  have psrc : m.inds.zipIdx.length = m.inds.length := by simp
  have pk : ∀ x ∈ m.inds.zipIdx, x.1 < 2 ^ orderBits (m.inner rm) := by
    intro x hx
    exact hm _ (List.fst_mem_of_mem_zipIdx hx)
  have pget : ∀ p, p < m.inds.length → m.inds.zipIdx[p]? = some (m.inds.getD p 0, p) := by
    intro p hp
    rw [List.getElem?_zipIdx, List.getElem?_eq_getElem hp, List.getD_eq_getElem?_getD, List.getElem?_eq_getElem hp]
    simp
  cases hr with
  | keysBad order init hv hp hl e =>
    obtain ⟨a, e2, _⟩ := orderLines_spec (ksrc ▸ rows) hb kk order init (nodup hp).1 (nodup hp).2 (by rw [hl, ksrc])
    rw [e2] at e
    cases e
  | keys order init a hv hp hl e =>
    obtain ⟨a', e2, l2, _⟩ := orderLines_spec (ksrc ▸ rows) hb kk order init (nodup hp).1 (nodup hp).2 (by rw [hl, ksrc])
    rw [e2] at e
    cases e
    rw [empty hv a (by rw [l2, ksrc])]
    refine ⟨m, rfl, rfl, rfl, h, hf, fun o ho p q h1 h2 h3 => ?_⟩
    have := h.last (o + 1) ho
    have := h.vals
    omega
  | pairsBad order init hv hp hl e =>
    obtain ⟨a, e2, _⟩ := orderLines_spec (psrc ▸ rows) hb pk order init (nodup hp).1 (nodup hp).2 (by rw [hl, psrc])
    rw [e2] at e
    cases e
  | pairs order init a hv hp hl e =>
    obtain ⟨a', e2, l2, d2, _⟩ := orderLines_spec (psrc ▸ rows) hb pk order init (nodup hp).1 (nodup hp).2 (by rw [hl, psrc])
    rw [e2] at e
    cases e
    rw [psrc] at l2
    have done : ∀ o, o < m.outer rm → LineDone m.ptrs m.inds.zipIdx a o := fun o ho => d2 o (hp.mem_iff.2 (List.mem_range.2 ho))
    have hsrc : m.inds.zipIdx.map (·.1) = m.inds := List.zipIdx_map_fst 0 m.inds
    -- every output is an input of its line
    have back : ∀ o, o < m.outer rm → ∀ q, m.ptrs.getD o 0 ≤ q → q < m.ptrs.getD (o + 1) 0 →
        ∃ p, m.ptrs.getD o 0 ≤ p ∧ p < m.ptrs.getD (o + 1) 0 ∧ a[q]? = some (m.inds.getD p 0, p) := by
      intro o ho q q1 q2
      obtain ⟨pos, d1, d2, _⟩ := done o ho
      obtain ⟨p, p1, p2, rfl⟩ := d2 q q1 q2
      have := h.last (o + 1) ho
      exact ⟨p, p1, p2, by rw [(d1 p p1 p2).2.2, pget p (by omega)]⟩
    have vget : ∀ x ∈ a, ∃ v, m.vals[x.2]? = some v := by
      intro x hx
      obtain ⟨q, hq, rfl⟩ := List.getElem_of_mem hx
      obtain ⟨o, ho, q1, q2⟩ := full_line hf (p := q) (by omega)
      obtain ⟨p, p1, p2, e⟩ := back o ho q q1 q2
      rw [List.getElem?_eq_getElem hq] at e
      injection e with e
      rw [e]
      have := h.last (o + 1) ho
      have := h.vals
      exact ⟨_, List.getElem?_eq_getElem (by dsimp only; omega)⟩
    obtain ⟨v0, hv0⟩ : ∃ v0, v0 ∈ m.vals := by
      cases hvs : m.vals with
      | nil => rw [hvs] at hv; exact absurd rfl hv
      | cons v _ => exact ⟨v, List.mem_cons_self⟩
    have hmap : a.mapM (fun x => m.vals[x.2]?) = some (a.map fun x => m.vals.getD x.2 v0) := by
      apply mapM_of_some
      intro x hx
      obtain ⟨v, hv⟩ := vget x hx
      rw [hv, List.getD_eq_getElem?_getD, hv]
      rfl
    rw [hmap]
    dsimp only
    have asc : Ascending ({ m with inds := a.map (·.1), vals := a.map fun x => m.vals.getD x.2 v0 } : Mat V) rm := by
      intro o ho p q h1 h2 h3
      refine line_ascending (done o ho) (fun p q p1 p2 q1 q2 ee => ?_) h1 h2 h3
      rw [hsrc] at ee
      exact h.distinct o ho p q p1 p2 q1 q2 ee
    have vals : ∀ (q p : Nat), a[q]? = some (m.inds.getD p 0, p) → p < m.inds.length →
        (a.map (·.1))[q]? = m.inds[p]? ∧ (a.map fun x => m.vals.getD x.2 v0)[q]? = m.vals[p]? := by
      intro q p e hp
      rw [List.getElem?_map, List.getElem?_map, e]
      have := h.vals
      exact ⟨(getD_some _ hp).symm, (getD_some _ (by omega)).symm⟩
    refine ⟨_, rfl, rfl, rfl, csr_reorder h rfl rfl rfl (by simp [l2]) (by simp [l2]) asc ?_ ?_, ⟨hf.1, ?_⟩, asc⟩
    · intro o ho p p1 p2
      obtain ⟨pos, d1, _, _⟩ := done o ho
      have := h.last (o + 1) ho
      obtain ⟨i1, i2, i3⟩ := d1 p p1 p2
      rw [pget p (by omega)] at i3
      exact ⟨pos p, i1, i2, vals _ _ i3 (by omega)⟩
    · intro o ho q q1 q2
      obtain ⟨p, p1, p2, e⟩ := back o ho q q1 q2
      have := h.last (o + 1) ho
      exact ⟨p, p1, p2, vals _ _ e (by omega)⟩
    · show m.ptrs.getD (m.outer rm) 0 = (a.map (·.1)).length
      rw [List.length_map, l2]
      exact hf.2

/-- The same for a matrix without values. -/
theorem order_topo {rm : Bool} {m : Mat V} {A : Nat → Nat → Option Unit} (h : Csr m.topo rm A) (hf : Full m rm) (hi : m.inner rm ≤ 2 ^ 31)
    (hv : m.vals = []) {r : Outcome V} (hr : LocalOrdering rm m r) :
    ∃ m', r = .ok m' ∧ m'.rows = m.rows ∧ m'.cols = m.cols ∧ m'.vals = [] ∧ Csr m'.topo rm A ∧ Full m' rm ∧ Ascending m' rm := by
  have rows : Rows m.ptrs (m.outer rm) m.inds.length := rows_of_csr (m := m.topo) h
  have hb := orderBits_le hi
  have hm : ∀ i ∈ m.inds, i < 2 ^ orderBits (m.inner rm) := full_mem (m := m.topo) h hf hi
  have ksrc : (m.inds.map fun i => (i, ())).length = m.inds.length := by simp
  have kk : ∀ x ∈ m.inds.map fun i => (i, ()), x.1 < 2 ^ orderBits (m.inner rm) := by
    intro x hx
    obtain ⟨i, hi, rfl⟩ := List.mem_map.1 hx
    exact hm i hi
  have kfst : (m.inds.map fun i => (i, ())).map (·.1) = m.inds := by rw [List.map_map]; exact List.map_id _
  cases hr with
  | keysBad order init _ hp hl e =>
    obtain ⟨a, e2, _⟩ := orderLines_spec (ksrc ▸ rows) hb kk order init (hp.nodup_iff.2 List.nodup_range)
      (fun o ho => List.mem_range.1 (hp.mem_iff.1 ho)) (by rw [hl, ksrc])
    rw [e2] at e
    cases e
  | keys order init a _ hp hl e =>
    obtain ⟨a', e2, l2, d2, _⟩ := orderLines_spec (ksrc ▸ rows) hb kk order init (hp.nodup_iff.2 List.nodup_range)
      (fun o ho => List.mem_range.1 (hp.mem_iff.1 ho)) (by rw [hl, ksrc])
    rw [e2] at e
    cases e
    rw [ksrc] at l2
    have done : ∀ o, o < m.outer rm → LineDone m.ptrs (m.inds.map fun i => (i, ())) a o := fun o ho => d2 o (hp.mem_iff.2 (List.mem_range.2 ho))
    have asc : Ascending ({ m with inds := a.map (·.1) } : Mat V) rm := by
      intro o ho p q h1 h2 h3
      refine line_ascending (done o ho) (fun p q p1 p2 q1 q2 ee => ?_) h1 h2 h3
      rw [kfst] at ee
      exact h.distinct o ho p q p1 p2 q1 q2 ee
    have key : ∀ q p : Nat, a[q]? = (m.inds.map fun i => (i, ()))[p]? →
        (a.map (·.1))[q]? = m.inds[p]? ∧ ((a.map (·.1)).map fun _ => ())[q]? = (m.inds.map fun _ => ())[p]? := by
      intro q p e
      have : (a.map (·.1))[q]? = m.inds[p]? := by
        rw [List.getElem?_map, e, ← List.getElem?_map, kfst]
      exact ⟨this, by rw [List.getElem?_map, this, List.getElem?_map]⟩
    refine ⟨_, rfl, rfl, rfl, hv, csr_reorder (m' := Mat.topo { m with inds := a.map (·.1) }) h rfl rfl rfl (by simp [Mat.topo, l2])
      (by simp [Mat.topo, l2]) asc ?_ ?_, ⟨hf.1, ?_⟩, asc⟩
    · intro o ho p p1 p2
      obtain ⟨pos, d1, _, _⟩ := done o ho
      obtain ⟨i1, i2, i3⟩ := d1 p p1 p2
      exact ⟨pos p, i1, i2, key _ _ i3⟩
    · intro o ho q q1 q2
      obtain ⟨pos, d1, d2, _⟩ := done o ho
      obtain ⟨p, p1, p2, rfl⟩ := d2 q q1 q2
      exact ⟨p, p1, p2, key _ _ (d1 p p1 p2).2.2⟩
    · show m.ptrs.getD (m.outer rm) 0 = (a.map (·.1)).length
      rw [List.length_map, l2]
      exact hf.2
  | pairsBad _ _ h => rw [hv] at h; exact absurd rfl h
  | pairs _ _ _ h => rw [hv] at h; exact absurd rfl h

theorem order_total (rm : Bool) (m : Mat V) : ∃ r, LocalOrdering rm m r := by
  by_cases hv : m.vals.length = 0
  · cases e : (List.range (m.outer rm)).foldlM (orderLine m.ptrs (orderBits (m.inner rm)) (m.inds.map fun i => (i, ())))
      (List.replicate m.inds.length (0, ())) with
    | none => exact ⟨_, .keysBad _ _ hv (List.Perm.refl _) (List.length_replicate ..) e⟩
    | some a => exact ⟨_, .keys _ _ a hv (List.Perm.refl _) (List.length_replicate ..) e⟩
  · cases e : (List.range (m.outer rm)).foldlM (orderLine m.ptrs (orderBits (m.inner rm)) m.inds.zipIdx)
      (List.replicate m.inds.length (0, 0)) with
    | none => exact ⟨_, .pairsBad _ _ hv (List.Perm.refl _) (List.length_replicate ..) e⟩
    | some a => exact ⟨_, .pairs _ _ a hv (List.Perm.refl _) (List.length_replicate ..) e⟩

/-! ## Transposition -/

section
variable {rm post : Bool} {tr : V → V} {tgt o : Mat V}

private theorem inds_lt {A : Nat → Nat → Option V} (h : Csr o rm A) (hf : Full o rm) : ∀ i ∈ o.inds, i < o.inner rm := by
  intro i hi
  obtain ⟨p, hp, rfl⟩ := List.getElem_of_mem hi
  obtain ⟨x, hx, h1, h2⟩ := full_line hf hp
  have := h.bound x hx p h1 h2
  rwa [List.getD_eq_getElem?_getD, List.getElem?_eq_getElem hp] at this

private theorem outer_swap (h1 : tgt.rows = o.cols) (h2 : tgt.cols = o.rows) : tgt.outer rm = o.inner rm ∧ tgt.inner rm = o.outer rm := by
  unfold Mat.outer Mat.inner
  cases rm <;> simp [h1, h2]

/-- A matrix with the entries where the kernels put them. -/
private theorem csr_transposed {A : Nat → Nat → Option V} (h : Csr o rm A) (hf : Full o rm) (h1 : tgt.rows = o.cols) (h2 : tgt.cols = o.rows)
    {ptrs inds loc : List Nat} {vals : List V}
    (pl : Placed (o.inner rm) (fun k => o.inds.getD k 0) (List.range o.inds.length) ptrs (fun k => ptrs.getD (o.inds.getD k 0) 0 + loc.getD k 0))
    (h3 : inds.length = o.inds.length) (h4 : vals.length = o.inds.length)
    (h5 : ∀ k, k < o.inds.length → inds[ptrs.getD (o.inds.getD k 0) 0 + loc.getD k 0]? = some (rowOf o.ptrs (o.outer rm) k))
    (h6 : ∀ k, k < o.inds.length → ∀ v, o.vals[k]? = some v → vals[ptrs.getD (o.inds.getD k 0) 0 + loc.getD k 0]? = some (tr v)) :
    Csr (⟨tgt.rows, tgt.cols, ptrs, inds, vals⟩ : Mat V) rm (transposed tr A) := by
  have rows := rows_of_csr h
  obtain ⟨ho, hin⟩ := outer_swap (rm := rm) h1 h2
  have vget : ∀ k, k < o.inds.length → ∃ v, o.vals[k]? = some v := fun k hk => ⟨_, List.getElem?_eq_getElem (by have := h.vals; omega)⟩
  by_cases hz : o.inds.length = 0
  · -- no entries
    have emp : ∀ x, x < o.inner rm → ∀ p, ptrs.getD x 0 ≤ p → ¬ p < ptrs.getD (x + 1) 0 := by
      intro x hx p p1 p2
      have h3 := pl.mono (x + 1) _ hx (Nat.le_refl _)
      rw [pl.total, List.length_range] at h3
      omega
    refine ⟨by rw [pl.len]; exact congrArg (· + 1) ho.symm, fun x hx => pl.mono x (x + 1) (by omega) (by rw [← ho]; exact hx), ?_, by dsimp only; omega, ?_, ?_, ?_⟩
    · intro x hx
      have h3 := pl.mono x _ (by rw [← ho]; exact hx) (Nat.le_refl _)
      rw [pl.total, List.length_range] at h3
      dsimp only
      omega
    · intro x hx p p1 p2
      exact absurd p2 (emp x (by rw [← ho]; exact hx) p p1)
    · intro x hx p _ p1 p2
      exact absurd p2 (emp x (by rw [← ho]; exact hx) p p1)
    · intro x hx t ht a
      constructor
      · intro ha
        exfalso
        have ht' : t < o.outer rm := by rw [← hin]; exact ht
        have hx' : x < o.inner rm := by rw [← ho]; exact hx
        have : ∃ b, (if rm then A t x else A x t) = some b := by
          unfold transposed at ha
          cases rm
          · obtain ⟨b, hb, _⟩ := Option.map_eq_some_iff.1 ha; exact ⟨b, hb⟩
          · obtain ⟨b, hb, _⟩ := Option.map_eq_some_iff.1 ha; exact ⟨b, hb⟩
        obtain ⟨b, hb⟩ := this
        obtain ⟨p, p1, p2, _⟩ := (h.entry t ht' x hx' b).1 hb
        have := h.last (t + 1) ht'
        omega
      · rintro ⟨p, p1, p2, _⟩
        exact absurd p2 (emp x (by rw [← ho]; exact hx) p p1)
  · obtain ⟨v0, _⟩ := vget 0 (by omega)
    refine csr_of_placed (line := fun k => o.inds.getD k 0) (inner := fun k => rowOf o.ptrs (o.outer rm) k)
      (dst := fun k => ptrs.getD (o.inds.getD k 0) 0 + loc.getD k 0) (val := fun k => tr (o.vals.getD k v0)) (L := List.range o.inds.length)
      (show Placed (tgt.outer rm) _ _ _ _ from ho ▸ pl) (by rw [List.length_range]; exact h3) (by rw [List.length_range]; dsimp only; omega)
      (fun k hk => h5 k (List.mem_range.1 hk)) (fun k hk => ?_) (fun k hk => ?_) ?_ ?_
    · have hk := List.mem_range.1 hk
      exact h6 k hk _ (getD_some _ (by have := h.vals; omega))
    · obtain ⟨x, hx, k1, k2⟩ := full_line hf (List.mem_range.1 hk)
      rw [rowOf_eq rows hx k1 k2]
      exact lt_of_lt_of_eq hx hin.symm
    · intro k hk l hl e1 e2
      obtain ⟨x, hx, k1, k2⟩ := full_line hf (List.mem_range.1 hk)
      obtain ⟨y, hy, l1, l2⟩ := full_line hf (List.mem_range.1 hl)
      rw [rowOf_eq rows hx k1 k2, rowOf_eq rows hy l1 l2] at e2
      subst e2
      exact h.distinct x hx k l k1 k2 l1 l2 e1
    · intro x hx t ht a
      have ht' : t < o.outer rm := by rw [← hin]; exact ht
      have hx' : x < o.inner rm := by rw [← ho]; exact hx
      have ht2 : (if rm then transposed tr A x t else transposed tr A t x) = (if rm then A t x else A x t).map tr := by
        cases rm <;> rfl
      rw [ht2, Option.map_eq_some_iff]
      constructor
      · rintro ⟨b, hb, rfl⟩
        obtain ⟨p, p1, p2, e1, e2⟩ := (h.entry t ht' x hx' b).1 hb
        have := h.last (t + 1) ht'
        exact ⟨p, List.mem_range.2 (by omega), e1, rowOf_eq rows ht' p1 p2, by rw [List.getD_eq_getElem?_getD, e2]; rfl⟩
      · rintro ⟨k, hk, e1, e2, rfl⟩
        have hk := List.mem_range.1 hk
        obtain ⟨y, hy, k1, k2⟩ := full_line hf hk
        rw [rowOf_eq rows hy k1 k2] at e2
        subst e2
        exact ⟨_, (h.entry y hy x hx' _).2 ⟨k, k1, k2, e1, getD_some _ (by have := h.vals; omega)⟩, rfl⟩

/-- C47: `transposeFrom` leaves the transposed matrix, with ascending subscripts if it orders them, in every interleaving.

Partial: the target is another matrix and has the number of rows and columns of the transposed matrix before the call, which
never sets them (`transpose_dims_violated`); the storage orders are the same (other calls do not compile); if there are no entries
the target has no values, because it keeps them. -/
theorem transpose_partial {A : Nat → Nat → Option V} (h : Csr o rm A) (hf : Full o rm) (hi : o.outer rm ≤ 2 ^ 31)
    (h1 : tgt.rows = o.cols) (h2 : tgt.cols = o.rows) (he : o.inds = [] → tgt.vals = []) {r : Outcome V}
    (hr : TransposeFrom rm post tr tgt o r) :
    ∃ m, r = .ok m ∧ m.rows = o.cols ∧ m.cols = o.rows ∧ Csr m rm (transposed tr A) ∧ Full m rm ∧ (post = true → Ascending m rm) := by
  have rows := rows_of_csr h
  have hb := inds_lt h hf
  have hact : o.hasValues = true → o.vals.length = o.inds.length := fun _ => h.vals
  obtain ⟨ho, hin⟩ := outer_swap (rm := rm) h1 h2
  have vlen : ∀ {vals : List V}, (if o.hasValues then vals.length = o.inds.length else vals = tgt.vals) → vals.length = o.inds.length := by
    intro vals hv
    cases hh : o.hasValues with
    | true => rwa [hh, if_pos rfl] at hv
    | false =>
      rw [hh, if_neg (by simp)] at hv
      have : o.inds.length = 0 := by
        have := h.vals
        unfold Mat.hasValues at hh
        rw [this] at hh
        simpa using hh
      rw [hv, he (List.eq_nil_of_length_eq_zero this), this]
      rfl
  cases hr with
  | count hl hc =>
    obtain ⟨st, e, _⟩ := count_spec rows hf.1 hf.2 hb hl hc
    cases e
  | fill hl hc hs hin hv hp =>
    obtain ⟨st, e, l2, pl⟩ := count_spec rows hf.1 hf.2 hb hl hc
    cases e
    obtain ⟨st', e, _⟩ := reorder_spec rows hf.1 hf.2 hb (fun ha => ⟨h.vals, vlen hv⟩) l2 (pl _ hs) hin hp
    cases e
  | @done loc ptrs inds vals st s r hl hc hs hil hv hp hpost =>
    obtain ⟨st, e, l2, pl⟩ := count_spec rows hf.1 hf.2 hb hl hc
    cases e
    have pl := pl _ hs
    obtain ⟨s', e, s1, s2, s3, s4⟩ := reorder_spec rows hf.1 hf.2 hb (fun ha => ⟨h.vals, vlen hv⟩) l2 pl hil hp
    cases e
    have hv := vlen hv
    have acted : ∀ k, k < o.inds.length → o.hasValues = true := by
      intro k hk
      have := h.vals
      unfold Mat.hasValues
      rw [Bool.and_eq_true, beq_iff_eq, bne_iff_ne]
      omega
    have vget : ∀ k, k < o.inds.length → ∃ v, o.vals[k]? = some v := fun k hk => ⟨_, List.getElem?_eq_getElem (by have := h.vals; omega)⟩
    have csr := csr_transposed h hf h1 h2 pl s1 (by omega) (fun k hk => (s4 k hk).1) (fun k hk => (s4 k hk).2 (acted k hk))
    have full : Full (⟨tgt.rows, tgt.cols, ptrs, s.1, s.2⟩ : Mat V) rm := by
      refine ⟨?_, ?_⟩
      · have := (exScan_spec hs).2 0 (by have := (exScan_spec hs).1; have := pl.len; omega)
        rw [this]; rfl
      · show ptrs.getD (tgt.outer rm) 0 = s.1.length
        rw [ho, pl.total, List.length_range, s1]
    cases hpost with
    | plain => exact ⟨_, rfl, h1, h2, csr, full, fun h => (nomatch h)⟩
    | ordered hord =>
      obtain ⟨m', e, q1, q2, q3, q4, q5⟩ := order_exact csr full (by show tgt.inner rm ≤ _; rw [hin]; exact hi) hord
      exact ⟨m', e, q1.trans h1, q2.trans h2, q3, q4, fun _ => q5⟩

/-- C47: the same for matrices that store only where their entries are. -/
theorem transpose_topo_partial {A : Nat → Nat → Option Unit} (h : Csr o.topo rm A) (hf : Full o rm) (hi : o.outer rm ≤ 2 ^ 31)
    (h1 : tgt.rows = o.cols) (h2 : tgt.cols = o.rows) (hv : o.vals = []) (hv' : tgt.vals = []) {r : Outcome V}
    (hr : TransposeFrom rm post tr tgt o r) :
    ∃ m, r = .ok m ∧ m.rows = o.cols ∧ m.cols = o.rows ∧ m.vals = [] ∧ Csr m.topo rm (transposed id A) ∧ Full m rm ∧ (post = true → Ascending m rm) := by
  have rows : Rows o.ptrs (o.outer rm) o.inds.length := rows_of_csr (m := o.topo) h
  have hb : ∀ i ∈ o.inds, i < o.inner rm := inds_lt (o := o.topo) h hf
  have hna : o.hasValues = false := by unfold Mat.hasValues; rw [hv]; simp
  obtain ⟨ho, hin⟩ := outer_swap (rm := rm) h1 h2
  cases hr with
  | count hl hc =>
    obtain ⟨st, e, _⟩ := count_spec rows hf.1 hf.2 hb hl hc
    cases e
  | fill hl hc hs hin hv hp =>
    obtain ⟨st, e, l2, pl⟩ := count_spec rows hf.1 hf.2 hb hl hc
    cases e
    obtain ⟨st', e, _⟩ := reorder_spec rows hf.1 hf.2 hb (fun ha => by rw [hna] at ha; cases ha) l2 (pl _ hs) hin hp
    cases e
  | @done loc ptrs inds vals st s r hl hc hs hil hvs hp hpost =>
    obtain ⟨st, e, l2, pl⟩ := count_spec rows hf.1 hf.2 hb hl hc
    cases e
    have pl := pl _ hs
    obtain ⟨s', e, s1, s2, s3, s4⟩ := reorder_spec rows hf.1 hf.2 hb (fun ha => by rw [hna] at ha; cases ha) l2 pl hil hp
    cases e
    rw [hna, if_neg (by simp)] at hvs
    have hs2 : s.2 = [] := by rw [s3 hna, hvs, hv']
    have csr : Csr (Mat.topo ⟨tgt.rows, tgt.cols, ptrs, s.1, s.2⟩) rm (transposed id A) :=
      csr_transposed (tgt := tgt.topo) (o := o.topo) h hf h1 h2 pl s1 (by rw [List.length_map]; exact s1) (fun k hk => (s4 k hk).1) (fun k hk v _ => by
        rw [List.getElem?_map]; exact (congrArg (Option.map fun _ => ()) (s4 k hk).1).trans rfl)
    have full : Full (⟨tgt.rows, tgt.cols, ptrs, s.1, s.2⟩ : Mat V) rm := by
      refine ⟨?_, ?_⟩
      · have := (exScan_spec hs).2 0 (by have := (exScan_spec hs).1; have := pl.len; omega)
        rw [this]; rfl
      · show ptrs.getD (tgt.outer rm) 0 = s.1.length
        rw [ho, pl.total, List.length_range, s1]
    cases hpost with
    | plain => exact ⟨_, rfl, h1, h2, hs2, csr, full, fun h => (nomatch h)⟩
    | ordered hord =>
      obtain ⟨m', e, q1, q2, q0, q3, q4, q5⟩ := order_topo csr full (by show tgt.inner rm ≤ _; rw [hin]; exact hi) hs2 hord
      exact ⟨m', e, q1.trans h1, q2.trans h2, q0, q3, q4, fun _ => q5⟩

/-- What is read from the transposed matrix is what is read from the original at the exchanged subscripts. -/
theorem transpose_get_partial {A : Nat → Nat → Option V} (h : Csr o rm A) (hf : Full o rm) (hi : o.outer rm ≤ 2 ^ 31)
    (h1 : tgt.rows = o.cols) (h2 : tgt.cols = o.rows) (he : o.inds = [] → tgt.vals = []) {m : Mat V}
    (hr : TransposeFrom rm post tr tgt o (.ok m)) (d : V) {i j : Nat} (hi' : i < o.rows) (hj : j < o.cols) :
    m.get rm (tr d) j i = (o.get rm d i j).map tr := by
  obtain ⟨m', e, e1, e2, hc, _⟩ := transpose_partial h hf hi h1 h2 he hr
  cases e
  rw [get_exact h d hi' hj, get_exact hc (tr d) (by omega) (by omega), transposed]
  cases A i j <;> rfl

private theorem post_dims {rm b : Bool} {m' m : Mat V} (hp : Post rm m' b (.ok m)) : m.rows = m'.rows ∧ m.cols = m'.cols := by
  cases hp with
  | plain => exact ⟨rfl, rfl⟩
  | ordered hl =>
    generalize ho : Outcome.ok m = out at hl
    cases hl with
    | keysBad => cases ho
    | keys => cases ho; exact ⟨rfl, rfl⟩
    | pairsBad => cases ho
    | pairs order init a =>
      split at ho
      · cases ho
      · cases ho; exact ⟨rfl, rfl⟩

/-- The number of rows and columns is not exchanged: it stays what it was in the target, whatever is transposed. -/
theorem transpose_dims_violated {m : Mat V} (hr : TransposeFrom rm post tr tgt o (.ok m)) : m.rows = tgt.rows ∧ m.cols = tgt.cols := by
  cases hr with
  | done _ _ _ _ _ _ hp => obtain ⟨e1, e2⟩ := post_dims hp; exact ⟨e1, e2⟩

end

theorem counted_exists (n : Nat) (task : Nat → Option (List Tally)) (s : List Nat × List Nat) : ∃ r, Counted n task s r := by
  cases h : (List.range n).mapM task with
  | none => exact ⟨_, .task h⟩
  | some ts =>
    obtain ⟨sched, hs⟩ := interleave_exists n (fun t => ts.getD t [])
    exact ⟨_, .run ts sched h hs⟩

/-- Every call has an outcome. -/
theorem transpose_total [Inhabited V] (rm post : Bool) (tr : V → V) (tgt o : Mat V) : ∃ r, TransposeFrom rm post tr tgt o r := by
  have hl : (List.replicate o.inds.length 0).length = o.inds.length := List.length_replicate ..
  obtain ⟨r, hc⟩ := counted_exists (o.outer rm) (countTask o.ptrs o.inds) (List.replicate (o.inner rm + 1) 0, List.replicate o.inds.length 0)
  cases r with
  | none => exact ⟨_, .count hl hc⟩
  | some st =>
    obtain ⟨ptrs, hs⟩ := exScan_exists st.1
    obtain ⟨vals, hv⟩ : ∃ vals : List V, if o.hasValues then vals.length = o.inds.length else vals = tgt.vals := by
      cases o.hasValues
      · exact ⟨_, rfl⟩
      · exact ⟨List.replicate o.inds.length default, List.length_replicate ..⟩
    obtain ⟨r, hp⟩ := puts_exists (o.outer rm) (reorderTask tr o.hasValues st.2 o ptrs) (List.replicate o.inds.length 0, vals)
    cases r with
    | none => exact ⟨_, .fill hl hc hs hl hv hp⟩
    | some s =>
      cases post with
      | false => exact ⟨_, .done hl hc hs hl hv hp .plain⟩
      | true =>
        obtain ⟨r, ho⟩ := order_total rm ⟨tgt.rows, tgt.cols, ptrs, s.1, s.2⟩
        exact ⟨_, .done hl hc hs hl hv hp (.ordered ho)⟩

/-- The branch for different storage orders would be right. -/
theorem transpose_other_order {rm : Bool} {o : Mat V} {A : Nat → Nat → Option V} (h : Csr o rm A) :
    Csr (swapped o) (!rm) (transposed id A) ∧ (swapped o).rows = o.cols ∧ (swapped o).cols = o.rows := by
  have ho : (swapped o).outer (!rm) = o.outer rm := by cases rm <;> rfl
  have hn : (swapped o).inner (!rm) = o.inner rm := by cases rm <;> rfl
  refine ⟨⟨?_, ?_, ?_, h.vals, ?_, ?_, ?_⟩, rfl, rfl⟩
  · rw [ho]; exact h.len
  · rw [ho]; exact h.mono
  · rw [ho]; exact h.last
  · rw [ho, hn]; exact h.bound
  · rw [ho]; exact h.distinct
  · rw [ho, hn]
    intro x hx t ht a
    have : (if (!rm) then transposed id A x t else transposed id A t x) = (if rm then A x t else A t x) := by
      cases rm <;> simp [transposed]
    rw [this]
    exact h.entry x hx t ht a

/-! ## Concrete matrices -/

/-- The hypotheses of `transpose_partial` are met: two rows, three columns, subscripts not in order. -/
example (r : Outcome Int) (hr : TransposeFrom true true id ⟨3, 2, [], [], []⟩ ⟨2, 3, [0, 2, 3], [2, 0, 2], [5, -7, 9]⟩ r) :
    ∃ m, r = .ok m ∧ m.rows = 3 ∧ m.cols = 2 ∧
      Csr m true (transposed id fun i j => [[some (-7), none, some 5], [none, none, some (9 : Int)]].getD i [] |>.getD j none) ∧ Ascending m true := by
  obtain ⟨m, e, e1, e2, e3, _, e4⟩ := transpose_partial (A := fun i j => [[some (-7), none, some 5], [none, none, some (9 : Int)]].getD i [] |>.getD j none)
    (Spmv.csr_of_check (by decide)) ⟨rfl, rfl⟩ (by decide) rfl rfl (fun h => by cases h) hr
  exact ⟨m, e, e1, e2, e3, e4 rfl⟩

/-- A default-constructed target of the same transposition has no rows and no columns afterwards. -/
theorem transpose_default_violated : ∃ m, TransposeFrom true false id ⟨0, 0, [0, 0], [], []⟩ ⟨2, 3, [0, 2, 3], [2, 0, 2], [5, -7, (9 : Int)]⟩ (.ok m) ∧
    m.rows = 0 ∧ m.cols = 0 := by
  have key := transpose_total true false (id : Int → Int) ⟨3, 2, [], [], []⟩ ⟨2, 3, [0, 2, 3], [2, 0, 2], [5, -7, 9]⟩
  obtain ⟨r, hr⟩ := key
  obtain ⟨m, rfl, _⟩ := transpose_partial (A := fun i j => [[some (-7), none, some 5], [none, none, some (9 : Int)]].getD i [] |>.getD j none)
    (Spmv.csr_of_check (by decide)) ⟨rfl, rfl⟩ (by decide) rfl rfl (fun h => by cases h) hr
  cases hr with
  | done hl hc hs hi hv hp hpost => exact ⟨_, .done hl hc hs hi (by simpa [Mat.hasValues] using hv) hp .plain, rfl, rfl⟩

/-- The first kernel and the scan for a matrix of one entry. -/
private theorem one_counted : Counted 1 (countTask [0, 1] [0]) ([0, 0], [0]) (some ([1, 0], [0])) ∧ ExScan [1, 0] [0, 1] := by
  refine ⟨.run [[⟨some 0, 0⟩]] [⟨some 0, 0⟩] rfl (.step 0 (⟨some 0, 0⟩ : Tally) [] Nat.zero_lt_one rfl (.done fun t ht => ?_)), ?_⟩
  · obtain rfl : t = 0 := by omega
    rfl
  · exact .seq (fun | .src i => [1, 0].getD i 0 | _ => 0) (fun _ _ => rfl)

/-- A matrix of one entry transposed in place, by `transpose(policy)` or by `transpose__...` of `py_interop`, may hold any number
afterwards: the entries are read from the arrays that have just been allocated for them. -/
theorem transpose_self_violated (v : Int) : ∃ m, TransposeSelf true true id ⟨1, 1, [0, 1], [0], [5]⟩ (.ok m) ∧ m.get true 0 0 0 = some v := by
  obtain ⟨r, hr⟩ := order_total true (⟨1, 1, [0, 1], [0], [v]⟩ : Mat Int)
  have hc : Csr (⟨1, 1, [0, 1], [0], [v]⟩ : Mat Int) true (fun _ _ => some v) := by
    refine ⟨rfl, ?_, ?_, rfl, ?_, ?_, ?_⟩
    · intro o ho; obtain rfl : o = 0 := by change o < 1 at ho; omega
      exact Nat.zero_le _
    · intro o ho; change o ≤ 1 at ho
      rcases (by omega : o = 0 ∨ o = 1) with rfl | rfl
      · exact Nat.zero_le _
      · exact Nat.le_refl _
    · intro o ho p p1 p2
      obtain rfl : o = 0 := by change o < 1 at ho; omega
      obtain rfl : p = 0 := by change p < 1 at p2; omega
      exact Nat.zero_lt_one
    · intro o ho p q p1 p2 q1 q2 _
      obtain rfl : o = 0 := by change o < 1 at ho; omega
      change p < 1 at p2
      change q < 1 at q2
      omega
    · intro o ho t ht a
      obtain rfl : o = 0 := by change o < 1 at ho; omega
      obtain rfl : t = 0 := by change t < 1 at ht; omega
      constructor
      · rintro h
        exact ⟨0, Nat.zero_le _, Nat.zero_lt_one, rfl, h⟩
      · rintro ⟨p, _, p2, _, h⟩
        obtain rfl : p = 0 := by change p < 1 at p2; omega
        exact h
  obtain ⟨m, rfl, e1, e2, e3, _⟩ := order_exact hc ⟨rfl, rfl⟩ (show 1 ≤ 2 ^ 31 by decide) hr
  refine ⟨m, .done (loc := [0]) (ptrs := [0, 1]) (inds := [0]) (vals := [v]) (st := ([1, 0], [0])) (s := ([0], [v])) rfl one_counted.1 one_counted.2 rfl
    rfl rfl (.ordered hr), ?_⟩
  rw [get_exact e3 0 (e1 ▸ Nat.zero_lt_one) (e2 ▸ Nat.zero_lt_one)]
  rfl

/-- It may also read out of bounds. -/
theorem transpose_self_bounds_violated : TransposeSelf true true id ⟨1, 1, [0, 1], [0], [(5 : Int)]⟩ .bad :=
  .fill (loc := [0]) (ptrs := [0, 1]) (inds := [7]) (vals := [0]) (st := ([1, 0], [0])) rfl one_counted.1 one_counted.2 rfl rfl rfl

/-- Two rows and three columns stay two rows and three columns in place. -/
theorem transpose_self_dims_violated {rm post : Bool} {tr : V → V} {o m : Mat V} (hr : TransposeSelf rm post tr o (.ok m)) :
    m.rows = o.rows ∧ m.cols = o.cols := by
  cases hr with
  | done _ _ _ _ _ _ hp => obtain ⟨e1, e2⟩ := post_dims hp; exact ⟨e1, e2⟩

end Verif.Sparse
