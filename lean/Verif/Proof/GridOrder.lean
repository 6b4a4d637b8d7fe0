import Verif.Proof.GridReorder

/-! Lemmas for `reorder`: the numbers of the children. -/
namespace Verif.Grid

open Verif.BitMask (W bit)

/-! ## Counting -/

theorem countP_range_succ (q : Nat → Bool) (n : Nat) : (List.range (n + 1)).countP q = (List.range n).countP q + if q n then 1 else 0 := by
  rw [List.range_succ, List.countP_append, List.countP_singleton]

theorem rank_mono (q : Nat → Bool) {a b : Nat} (h : a ≤ b) : (List.range a).countP q ≤ (List.range b).countP q := by
  induction b with
  | zero => have : a = 0 := by omega
            rw [this]; omega
  | succ b ih =>
    by_cases e : a = b + 1
    · rw [e]; omega
    · have := ih (by omega)
      rw [countP_range_succ]; omega

theorem rank_lt (q : Nat → Bool) {a b : Nat} (h : a < b) (ha : q a = true) : (List.range a).countP q < (List.range b).countP q := by
  have h1 := countP_range_succ q a
  have h2 := rank_mono q (show a + 1 ≤ b from h)
  rw [ha] at h1
  simp only [if_true] at h1
  omega

theorem rank_surj (q : Nat → Bool) : ∀ (n i : Nat), i < (List.range n).countP q → ∃ o < n, q o = true ∧ (List.range o).countP q = i := by
  intro n
  induction n with
  | zero => intro i h; simp at h
  | succ n ih =>
    intro i h
    by_cases hi : i < (List.range n).countP q
    · obtain ⟨o, ho, hq, e⟩ := ih i hi
      exact ⟨o, by omega, hq, e⟩
    · rw [countP_range_succ] at h
      by_cases hq : q n = true
      · rw [if_pos hq] at h
        exact ⟨n, by omega, hq, by omega⟩
      · rw [if_neg hq] at h; omega

/-- The sum of the first numbers. -/
def before (f : Nat → Nat) (p : Nat) : Nat := ((List.range p).map f).sum

theorem before_succ (f : Nat → Nat) (p : Nat) : before f (p + 1) = before f p + f p := by
  simp [before, List.range_succ]

theorem before_mono (f : Nat → Nat) {a b : Nat} (h : a ≤ b) : before f a ≤ before f b := by
  induction b with
  | zero => have : a = 0 := by omega
            rw [this]; omega
  | succ b ih =>
    by_cases e : a = b + 1
    · rw [e]; omega
    · have := ih (by omega)
      rw [before_succ]; omega

theorem before_surj (f : Nat → Nat) : ∀ (m j : Nat), j < before f m → ∃ p < m, ∃ i < f p, j = before f p + i := by
  intro m
  induction m with
  | zero => intro j h; simp [before] at h
  | succ m ih =>
    intro j h
    by_cases hj : j < before f m
    · obtain ⟨p, hp, i, hi, e⟩ := ih j hj
      exact ⟨p, by omega, i, hi, e⟩
    · rw [before_succ] at h
      exact ⟨m, by omega, j - before f m, by omega, by omega⟩

/-- A one-to-one map onto the numbers below some bound is a permutation. -/
theorem bij_of_surj {n T : Nat} {σ : Nat → Nat} (hlt : ∀ i < n, σ i < T) (hinj : ∀ i < n, ∀ j < n, σ i = σ j → i = j)
    (hsurj : ∀ j < T, ∃ i < n, σ i = j) : ∃ π, Bij n π σ := by
  have hT : T = n := by
    have hnd : ((List.range n).map σ).Nodup := by
      rw [List.Nodup, List.pairwise_map]
      refine List.Pairwise.imp_of_mem ?_ (List.nodup_range (n := n))
      intro a b ha hb hab e
      exact hab (hinj a (List.mem_range.1 ha) b (List.mem_range.1 hb) e)
    have hp : ((List.range n).map σ).Perm (List.range T) := by
      rw [List.perm_ext_iff_of_nodup hnd List.nodup_range]
      intro j
      rw [List.mem_map, List.mem_range]
      constructor
      · rintro ⟨i, hi, rfl⟩; exact hlt i (List.mem_range.1 hi)
      · intro hj
        obtain ⟨i, hi, e⟩ := hsurj j hj
        exact ⟨i, List.mem_range.2 hi, e⟩
    have := hp.length_eq
    simp at this
    omega
  subst hT
  have hex : ∀ j, ∃ i, j < T → i < T ∧ σ i = j := by
    intro j
    by_cases hj : j < T
    · obtain ⟨i, hi, e⟩ := hsurj j hj
      exact ⟨i, fun _ => ⟨hi, e⟩⟩
    · exact ⟨0, fun h => absurd h hj⟩
  refine ⟨fun j => (hex j).choose, fun j hj => ((hex j).choose_spec hj).1, hlt, fun j hj => ((hex j).choose_spec hj).2, ?_⟩
  intro i hi
  have := (hex (σ i)).choose_spec (hlt i hi)
  exact hinj _ this.1 _ hi this.2

/-! ## The histogram -/

variable {V : Type} {lay : Layout} {dim i : Nat} {l lc : Level V}

/-- The mask of a block. -/
def Level.mask (l : Level V) (b : Nat) : List W := l.childMask.data.getD b []

theorem LevelOk.mask_get (h : LevelOk lay dim i l) {b : Nat} (hb : b < l.tab.cnt) : l.childMask.data[b]? = some (l.mask b) := by
  have := h.childs
  rw [Level.mask, List.getD_eq_getElem?_getD, List.getElem?_eq_getElem (by omega)]
  rfl

theorem exclSpec_before (f : Nat → Nat) (n : Nat) : Scan.exclSpec (· + ·) 0 f n = before f n := by
  induction n with
  | zero => rfl
  | succ n ih =>
    rw [before_succ, ← ih]
    simp [Scan.exclSpec]

theorem before_congr {f g : Nat → Nat} {n : Nat} (h : ∀ j < n, f j = g j) : before f n = before g n := by
  rw [before, before, List.map_congr_left fun x hx => h x (List.mem_range.1 hx)]

theorem exScan_exists (cnts : List Nat) : ∃ ptrs, Sparse.ExScan cnts ptrs :=
  ⟨_, .seq (fun | .src i => cnts.getD i 0 | _ => 0) fun _ _ => rfl⟩

theorem histogram_spec (h : LevelOk lay dim i l) (ho : l.tab.cnt < l.childOffset.length) :
    Good (histogram l) fun l' => (∃ offs, l' = { l with childOffset := offs }) ∧ l'.childOffset.length = l.childOffset.length
      ∧ ∀ p < l.tab.cnt, l'.childOffset[p]? = some (before (fun q => BitMask.countOn (l.mask q)) p) := by
  refine Good.bind (Good.pick ⟨(List.range (l.tab.cnt + 1)).map fun q => BitMask.countOn (l.mask q), ?_⟩) fun counts hc => ?_
  · refine ⟨by simp, fun b m hb e => ?_⟩
    have : b < l.tab.cnt + 1 := by omega
    simp [this, Level.mask, List.getD_eq_getElem?_getD, e]
  refine Good.bind (Good.pick (exScan_exists counts)) fun offs hs => ?_
  obtain ⟨hlen, hval⟩ := Sparse.exScan_spec hs
  have hl := hc.1
  rw [if_neg (by omega)]
  refine Good.pure ⟨⟨_, rfl⟩, ?_, fun p hp => ?_⟩
  · show (offs ++ l.childOffset.drop offs.length).length = _
    rw [List.length_append, List.length_drop]; omega
  · show (offs ++ l.childOffset.drop offs.length)[p]? = _
    rw [List.getElem?_append_left (by omega)]
    have := hval p (by omega)
    rw [exclSpec_before, List.getD_eq_getElem?_getD, List.getElem?_eq_getElem (by omega)] at this
    rw [List.getElem?_eq_getElem (by omega)]
    rw [show offs[p] = before (counts.getD · 0) p from this]
    congr 1
    refine before_congr fun q hq => ?_
    rw [List.getD_eq_getElem?_getD, hc.2 q _ (by omega) (h.mask_get (by omega))]
    rfl

/-! ## The numbers of the children -/

theorem words_bound (S : Nat) : S ≤ 64 * BitMask.wordCount S := by
  rw [BitMask.wordCount]; omega

/-- Every child gets a number of its own, below the number of children. -/
theorem locate_spec (hv : lay.Valid dim) (hd : 0 < dim) (hi : i + 1 < lay.levels) (h : LevelOk lay dim (i + 1) l) (hc : LevelOk lay dim i lc)
    (hl : LinkOk lay dim i l lc)
    (ho : ∀ p < l.tab.cnt, l.childOffset[p]? = some (before (fun q => BitMask.countOn (l.mask q)) p)) :
    ∃ π σ, Bij lc.tab.cnt π σ ∧ ∀ b < lc.tab.cnt, locate lay (i + 1) l (lc.tab.active b) = some (σ b) := by
  let cnt := fun q => BitMask.countOn (l.mask q)
  -- the parent and the offset of a child
  have hpar : ∀ b, ∃ p, b < lc.tab.cnt → p < l.tab.cnt ∧ l.tab.active p = coordToKey lay (i + 1) (lc.tab.active b)
      ∧ l.find (coordToKey lay (i + 1) (lc.tab.active b)) = some p := by
    intro b
    by_cases hb : b < lc.tab.cnt
    · obtain ⟨p, hp, e⟩ := hl.parent b hb
      exact ⟨p, fun _ => ⟨hp, e, (h.find _ p (h.notHole hv hd hi _ (hc.length b hb))).2 ⟨hp, e⟩⟩⟩
    · exact ⟨0, fun h => absurd h hb⟩
  let par := fun b => (hpar b).choose
  have hpar' : ∀ b < lc.tab.cnt, par b < l.tab.cnt ∧ l.tab.active (par b) = coordToKey lay (i + 1) (lc.tab.active b)
      ∧ l.find (coordToKey lay (i + 1) (lc.tab.active b)) = some (par b) := fun b hb => (hpar b).choose_spec hb
  let off := fun b => (hierOffset lay (i + 1) (lc.tab.active b)).toNat
  have hwords : ∀ p < l.tab.cnt, (l.mask p).length = BitMask.wordCount ((2 ^ lay.hierBits (i + 1)) ^ dim) :=
    fun p hp => hl.words p _ hp (h.mask_get hp)
  have hbound := words_bound ((2 ^ lay.hierBits (i + 1)) ^ dim)
  have hoff : ∀ b < lc.tab.cnt, off b < (2 ^ lay.hierBits (i + 1)) ^ dim :=
    fun b hb => (hierOffset_spec hv hi _ (hc.length b hb)).2
  have hon : ∀ b < lc.tab.cnt, bit (l.mask (par b)) (off b) = true := by
    intro b hb
    obtain ⟨h1, h2, _⟩ := hpar' b hb
    exact (hl.child _ (hc.length b hb) _ _ h1 h2 (h.mask_get h1)).2 ⟨b, hb, (hc.aligned b hb).symm⟩
  let rank := fun p o => (List.range o).countP (bit (l.mask p))
  have hcnt : ∀ p, cnt p = rank p (64 * (l.mask p).length) := fun p => BitMask.countOn_eq (l.mask p)
  let σ := fun b => before cnt (par b) + rank (par b) (off b)
  have hrank : ∀ b < lc.tab.cnt, rank (par b) (off b) < cnt (par b) := by
    intro b hb
    rw [hcnt]
    refine rank_lt _ ?_ (hon b hb)
    rw [hwords _ (hpar' b hb).1]
    have := hoff b hb
    omega
  have hnext : ∀ b < lc.tab.cnt, σ b < before cnt (par b + 1) := by
    intro b hb
    rw [before_succ]
    have := hrank b hb
    show before cnt (par b) + rank (par b) (off b) < _
    omega
  refine Exists.elim (bij_of_surj (n := lc.tab.cnt) (T := before cnt l.tab.cnt) (σ := σ) ?_ ?_ ?_) fun π hbij => ⟨π, σ, hbij, fun b hb => ?_⟩
  · intro b hb
    have h1 := hnext b hb
    have h2 := before_mono cnt (show par b + 1 ≤ l.tab.cnt from (hpar' b hb).1)
    omega
  · intro a ha b hb e
    have hpe : par a = par b := by
      rcases Nat.lt_trichotomy (par a) (par b) with h1 | h1 | h1
      · have h2 := hnext a ha
        have h3 := before_mono cnt (show par a + 1 ≤ par b from h1)
        have h4 : before cnt (par b) ≤ σ b := Nat.le_add_right _ _
        omega
      · exact h1
      · have h2 := hnext b hb
        have h3 := before_mono cnt (show par b + 1 ≤ par a from h1)
        have h4 : before cnt (par a) ≤ σ a := Nat.le_add_right _ _
        omega
    have hoe : off a = off b := by
      have e : before cnt (par a) + rank (par a) (off a) = before cnt (par b) + rank (par b) (off b) := e
      rw [hpe] at e
      have e := Nat.add_left_cancel e
      rcases Nat.lt_trichotomy (off a) (off b) with h1 | h1 | h1
      · have := rank_lt (bit (l.mask (par b))) h1 (by rw [← hpe]; exact hon a ha)
        exact absurd e (by show ¬ (rank (par b) (off a) = rank (par b) (off b)); exact Nat.ne_of_lt this)
      · exact h1
      · have := rank_lt (bit (l.mask (par b))) h1 (hon b hb)
        exact absurd e (by show ¬ (rank (par b) (off a) = rank (par b) (off b)); exact Nat.ne_of_gt this)
    have hk : lc.tab.active a = lc.tab.active b := by
      have h1 := child_key hv hi _ (hc.length a ha)
      have h2 := child_key hv hi _ (hc.length b hb)
      rw [← (hpar' a ha).2.1, hpe, (hpar' b hb).2.1, BitVec.eq_of_toNat_eq hoe, h2, hc.aligned a ha, hc.aligned b hb] at h1
      exact h1.symm
    exact (hc.tab hv hd (by omega)).inj ha hb hk
  · intro j hj
    obtain ⟨p, hp, r, hr, rfl⟩ := before_surj cnt _ _ hj
    rw [hcnt] at hr
    obtain ⟨o, ho', hb, hro⟩ := rank_surj _ _ _ hr
    have hoS : o < (2 ^ lay.hierBits (i + 1)) ^ dim := by
      rcases Nat.lt_or_ge o ((2 ^ lay.hierBits (i + 1)) ^ dim) with h1 | h1
      · exact h1
      · rw [hl.clean p _ hp (h.mask_get hp) o h1] at hb; cases hb
    have ho32 : o < 2 ^ 32 := by
      have h1 := hv.tile (i + 1) hi
      have h2 := Nat.mul_le_mul_left dim (hier_le lay (i + 1))
      rw [← Nat.pow_mul] at hoS
      have h3 : 2 ^ (lay.hierBits (i + 1) * dim) ≤ 2 ^ 32 := by
        apply Nat.pow_le_pow_right (by omega)
        rw [Nat.mul_comm]; omega
      omega
    have hto : (BitVec.ofNat 32 o).toNat = o := by rw [BitVec.toNat_ofNat]; exact Nat.mod_eq_of_lt ho32
    obtain ⟨hkey, hofs⟩ := child_offset hv hi _ (h.aligned p hp) (h.length p hp) (BitVec.ofNat 32 o) (by rw [hto]; exact hoS)
    have hclen : (addCoord (l.tab.active p) (hierCoord lay (i + 1) dim (BitVec.ofNat 32 o))).length = dim := by
      rw [addCoord, List.length_zipWith, hierCoord, spread_length, h.length p hp, Nat.min_self]
    have hex := (hl.child _ hclen p _ hp hkey.symm (h.mask_get hp)).1 (by rw [hofs, hto]; exact hb)
    obtain ⟨b, hb', e⟩ := hex
    refine ⟨b, hb', ?_⟩
    have hpk : coordToKey lay (i + 1) (lc.tab.active b) = l.tab.active p := by
      rw [e, parent_key hv (Nat.le_succ i) hi, hkey]
    have hpp : par b = p := by
      have := (hpar' b hb').2.1
      rw [hpk] at this
      exact (h.tab hv hd hi).inj (hpar' b hb').1 hp this
    have hob : off b = o := by
      show (hierOffset lay (i + 1) (lc.tab.active b)).toNat = o
      have : hierOffset lay (i + 1) (lc.tab.active b)
          = hierOffset lay (i + 1) (addCoord (l.tab.active p) (hierCoord lay (i + 1) dim (BitVec.ofNat 32 o))) :=
        hierOffset_key (g := ({ lay := lay, dim := dim, levels := [], background := () } : Grid Unit)) hv hi
          (by show coordToKey lay i _ = coordToKey lay i _; rw [hc.aligned b hb', e])
      rw [this, hofs, hto]
    show before cnt (par b) + rank (par b) (off b) = _
    rw [hpp, hob]
    exact congrArg _ hro
  · obtain ⟨h1, h2, h3⟩ := hpar' b hb
    rw [locate, h3, Option.bind_some, Level.childNo, ho _ h1, Option.bind_some, h.mask_get h1, Option.bind_some,
      BitMask.countOffset_eq (by rw [hwords _ h1]; have := hoff b hb; show off b < _; omega)]
    rfl

end Verif.Grid
