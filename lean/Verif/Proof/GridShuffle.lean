import Verif.Proof.GridOrder

/-! Lemmas for `reorder`: shuffled levels hold the same values and still fit together. -/
namespace Verif.Grid

open Verif.BitMask (W bit)

variable {V : Type} {lay : Layout} {dim i : Nat} {l l' lc lc' : Level V}

/-- `l'` has the blocks of `l`, in another order. -/
def Shuffled (l l' : Level V) : Prop :=
  l'.cfg = l.cfg ∧ l'.tab.cnt = l.tab.cnt ∧ l'.tab.success = l.tab.success ∧ l'.childOffset.length = l.childOffset.length
    ∧ l'.valueMask.cap = l.valueMask.cap ∧ l'.childMask.cap = l.childMask.cap
    ∧ ∃ π σ, Bij l.tab.cnt π σ ∧ ∀ j < l.tab.cnt, l'.tab.active j = l.tab.active (π j) ∧ l'.tiles[j]? = l.tiles[π j]?
      ∧ l'.valueMask.data[j]? = l.valueMask.data[π j]? ∧ l'.childMask.data[j]? = l.childMask.data[π j]?

theorem Permuted.shuffled {π σ : Nat → Nat} (h : Permuted l l' π σ) : Shuffled l l' :=
  ⟨h.cfg, h.cnt, h.success, by rw [h.childOffset], h.caps.1, h.caps.2.1, π, σ, h.bij,
    fun j hj => ⟨h.active j hj, h.tiles j hj, h.valueMask j hj, h.childMask j hj⟩⟩

theorem bij_id (n : Nat) : Bij n id id := ⟨fun _ h => h, fun _ h => h, fun _ _ => rfl, fun _ _ => rfl⟩

theorem shuffled_offsets {offs : List Nat} (h : offs.length = l.childOffset.length) : Shuffled l { l with childOffset := offs } :=
  ⟨rfl, rfl, rfl, h, rfl, rfl, id, id, bij_id _, fun _ _ => ⟨rfl, rfl, rfl, rfl⟩⟩

theorem Shuffled.refl (l : Level V) : Shuffled l l := shuffled_offsets rfl

theorem Shuffled.trans {l'' : Level V} (h : Shuffled l l') (h' : Shuffled l' l'') : Shuffled l l'' := by
  obtain ⟨a1, a2, a3, a4, a5, a6, π, σ, hb, ha⟩ := h
  obtain ⟨b1, b2, b3, b4, b5, b6, π', σ', hb', ha'⟩ := h'
  rw [a2] at hb' ha'
  refine ⟨by rw [b1, a1], by rw [b2, a2], by rw [b3, a3], by rw [b4, a4], by rw [b5, a5], by rw [b6, a6], fun j => π (π' j), fun j => σ' (σ j),
    ⟨fun j hj => hb.lt _ (hb'.lt _ hj), fun j hj => hb'.lt' _ (hb.lt' _ hj), ?_, ?_⟩, ?_⟩
  · intro j hj
    show σ' (σ (π (π' j))) = j
    rw [hb.inv _ (hb'.lt _ hj), hb'.inv _ hj]
  · intro j hj
    show π (π' (σ' (σ j))) = j
    rw [hb'.inv' _ (hb.lt' _ hj), hb.inv' _ hj]
  · intro j hj
    obtain ⟨c1, c2, c3, c4⟩ := ha' j hj
    obtain ⟨d1, d2, d3, d4⟩ := ha _ (hb'.lt _ hj)
    exact ⟨by rw [c1, d1], by rw [c2, d2], by rw [c3, d3], by rw [c4, d4]⟩

theorem LinkOk.shuffled_child (h : LinkOk lay dim i l lc) (hs : Shuffled lc lc') : LinkOk lay dim i l lc' := by
  obtain ⟨_, h2, _, _, _, _, π, σ, hb, ha⟩ := hs
  refine ⟨h.offsets, h.words, h.clean, ?_, ?_⟩
  · intro c hc b m hb' e hm
    rw [h.child c hc b m hb' e hm]
    constructor
    · rintro ⟨x, hx, ex⟩
      refine ⟨σ x, by rw [h2]; exact hb.lt' x hx, ?_⟩
      rw [(ha _ (hb.lt' x hx)).1, hb.inv' x hx, ex]
    · rintro ⟨x, hx, ex⟩
      rw [h2] at hx
      exact ⟨π x, hb.lt x hx, by rw [← (ha x hx).1, ex]⟩
  · intro b hb'
    rw [h2] at hb'
    rw [(ha b hb').1]
    exact h.parent _ (hb.lt b hb')

theorem LinkOk.shuffled_parent (h : LinkOk lay dim i l lc) (hs : Shuffled l l') : LinkOk lay dim i l' lc := by
  obtain ⟨_, h2, _, h4, _, _, π, σ, hb, ha⟩ := hs
  refine ⟨by rw [h2, h4]; exact h.offsets, ?_, ?_, ?_, ?_⟩
  · intro b m hb' e
    rw [h2] at hb'
    rw [(ha b hb').2.2.2] at e
    exact h.words _ m (hb.lt b hb') e
  · intro b m hb' e
    rw [h2] at hb'
    rw [(ha b hb').2.2.2] at e
    exact h.clean _ m (hb.lt b hb') e
  · intro c hc b m hb' e hm
    rw [h2] at hb'
    rw [(ha b hb').2.2.2] at hm
    rw [(ha b hb').1] at e
    exact h.child c hc _ m (hb.lt b hb') e hm
  · intro b hb'
    obtain ⟨p, hp, e⟩ := h.parent b hb'
    exact ⟨σ p, by rw [h2]; exact hb.lt' p hp, by rw [(ha _ (hb.lt' p hp)).1, hb.inv' p hp, e]⟩

theorem LevelOk.offsets (h : LevelOk lay dim i l) (offs : List Nat) : LevelOk lay dim i { l with childOffset := offs } :=
  ⟨h.hole, h.room, h.find, h.length, h.aligned, h.tiles, h.values, h.valuesCap, h.childs, h.childsCap⟩

/-! ## Grids -/

variable {g g' : Grid V}

/-- All levels shuffled. -/
structure Rearranged (g g' : Grid V) : Prop where
  lay : g'.lay = g.lay
  dim : g'.dim = g.dim
  background : g'.background = g.background
  count : g'.levels.length = g.levels.length
  level : ∀ (i : Nat) l l', g.levels[i]? = some l → g'.levels[i]? = some l' → Shuffled l l'

theorem Rearranged.refl (g : Grid V) : Rearranged g g :=
  ⟨rfl, rfl, rfl, rfl, fun i l l' h h' => by rw [h] at h'; cases h'; exact Shuffled.refl l⟩

theorem Rearranged.trans {g'' : Grid V} (h : Rearranged g g') (h' : Rearranged g' g'') : Rearranged g g'' := by
  refine ⟨by rw [h'.lay, h.lay], by rw [h'.dim, h.dim], by rw [h'.background, h.background], by rw [h'.count, h.count], ?_⟩
  intro i l l'' e e'
  have hi : i < g'.levels.length := by
    rw [h.count]; exact (List.getElem?_eq_some_iff.1 e).1
  exact (h.level i l _ e (List.getElem?_eq_getElem hi)).trans (h'.level i _ l'' (List.getElem?_eq_getElem hi) e')

theorem rearranged_set {i : Nat} (h : g.levels[i]? = some l) (hs : Shuffled l l') : Rearranged g (g.setLevel i l') := by
  refine ⟨rfl, rfl, rfl, by simp [Grid.setLevel], ?_⟩
  intro j a b ha hb
  simp only [Grid.setLevel, List.getElem?_set] at hb
  by_cases e : i = j
  · subst e
    rw [h] at ha; cases ha
    have hi : i < g.levels.length := (List.getElem?_eq_some_iff.1 h).1
    rw [if_pos rfl, if_pos hi] at hb
    cases hb; exact hs
  · rw [if_neg e, ha] at hb
    cases hb; exact Shuffled.refl a

theorem getElem?_setLevel_same {i : Nat} (h : g.levels[i]? = some l) : (g.setLevel i l').levels[i]? = some l' := by
  have hi : i < g.levels.length := (List.getElem?_eq_some_iff.1 h).1
  simp [Grid.setLevel, hi]

theorem getElem?_setLevel_ne {i j : Nat} (h : i ≠ j) : (g.setLevel i l').levels[j]? = g.levels[j]? := by
  simp [Grid.setLevel, h]

theorem Consistent.set (hc : Consistent g) {i : Nat} (h : g.levels[i]? = some l) (hs : Shuffled l l') (hl : LevelOk g.lay g.dim i l') :
    Consistent (g.setLevel i l') := by
  refine ⟨hc.valid, hc.dim, by simp [Grid.setLevel, hc.count], ?_, ?_⟩
  · intro j a ha
    by_cases e : i = j
    · subst e
      rw [getElem?_setLevel_same h] at ha
      cases ha; exact hl
    · rw [getElem?_setLevel_ne e] at ha
      exact hc.level j a ha
  · intro j a b ha hb
    by_cases e : i = j
    · subst e
      rw [getElem?_setLevel_same h] at hb
      rw [getElem?_setLevel_ne (by omega)] at ha
      cases hb
      exact (hc.link i a l ha h).shuffled_child hs
    · rw [getElem?_setLevel_ne e] at hb
      by_cases e' : i = j + 1
      · subst e'
        rw [getElem?_setLevel_same h] at ha
        cases ha
        exact (hc.link j l b h hb).shuffled_parent hs
      · rw [getElem?_setLevel_ne e'] at ha
        exact hc.link j a b ha hb

theorem Consistent.get (hc : Consistent g) {i : Nat} (h : i < g.lay.levels) : ∃ l, g.levels[i]? = some l := by
  rw [← hc.count] at h
  exact ⟨_, List.getElem?_eq_getElem h⟩

/-- The pair of levels `i + 1` and `i` is ordered. -/
def OrderedAt (g : Grid V) (i : Nat) : Prop :=
  ∀ l lc, g.levels[i + 1]? = some l → g.levels[i]? = some lc → ∀ c : Coord, c.length = g.dim → ∀ p b,
    l.find (coordToKey g.lay (i + 1) c) = some p → lc.find (coordToKey g.lay i c) = some b →
    l.childNo p (hierOffset g.lay (i + 1) c).toNat = some b

theorem mapM_some {α β : Type} (f : α → Option β) (h : α → β) : ∀ xs : List α, (∀ x ∈ xs, f x = some (h x)) → xs.mapM f = some (xs.map h) := by
  intro xs
  induction xs with
  | nil => intro _; rfl
  | cons x xs ih =>
    intro hx
    rw [List.mapM_cons, hx x (by simp), ih fun y hy => hx y (by simp [hy])]
    rfl

/-- One level of `reorder`. -/
theorem below_spec : ∀ (i : Nat) (g : Grid V), i < g.lay.levels → Consistent g → (∀ j < i, ∀ l, g.levels[j]? = some l → l.Exact) →
    Good (reorderBelow g i) fun g' => Consistent g' ∧ Rearranged g g' ∧ (∀ j < i, OrderedAt g' j)
      ∧ (∀ j, i < j → g'.levels[j]? = g.levels[j]?)
      ∧ (∀ l l', g.levels[i]? = some l → g'.levels[i]? = some l' → ∃ offs, l' = { l with childOffset := offs })
      ∧ ∀ j < i, ∀ l, g'.levels[j]? = some l → l.valueMask.data.length = l.valueMask.cap ∧ l.childMask.data.length = l.childMask.cap := by
  intro i
  induction i with
  | zero =>
    intro g _ hc _
    refine Good.pure ⟨hc, Rearranged.refl g, by simp, fun _ _ => rfl, ?_, by simp⟩
    intro l l' h h'
    rw [h] at h'; cases h'
    exact ⟨l.childOffset, rfl⟩
  | succ i ih =>
    intro g hi hc hx
    obtain ⟨l, hl⟩ := hc.get hi
    obtain ⟨lc, hlc⟩ := hc.get (show i < g.lay.levels by omega)
    have hL := hc.level _ _ hl
    have hLc := hc.level _ _ hlc
    have hlink := hc.link _ _ _ hl hlc
    rw [reorderBelow]
    refine Good.bind (P := fun x => x = l) (Good.ofOption ⟨l, hl, rfl⟩) fun x e => ?_
    subst x
    refine Good.bind (histogram_spec hL hlink.offsets) fun l1 h1 => ?_
    obtain ⟨⟨offs, rfl⟩, hlen, hoffs⟩ := h1
    have hs1 : Shuffled l { l with childOffset := offs } := shuffled_offsets hlen
    have hL1 := hL.offsets offs
    refine Good.bind (P := fun x => x = lc) (Good.ofOption ⟨lc, hlc, rfl⟩) fun x e => ?_
    subst x
    obtain ⟨π, σ, hb, hloc⟩ := locate_spec hc.valid hc.dim hi hL1 hLc (hlink.shuffled_parent hs1) hoffs
    refine Good.bind (P := fun x => x = mapOf true lc.tab.cnt π σ) (Good.ofOption ⟨_, ?_, rfl⟩) fun x e => ?_
    · rw [mapM_some _ σ _ fun b hb' => hloc b (List.mem_range.1 hb')]
      rfl
    subst x
    refine Good.bind (level_reorder hLc hc.valid hc.dim (by omega) (hx i (by omega) lc hlc) hb true) fun lc1 hp => ?_
    obtain ⟨hperm, hLc1⟩ := hp
    have hc1 := hc.set hl hs1 hL1
    have hlc' : (g.setLevel (i + 1) { l with childOffset := offs }).levels[i]? = some lc := by
      rw [getElem?_setLevel_ne (by omega)]; exact hlc
    have hc2 := hc1.set hlc' hperm.shuffled hLc1
    have hr2 := (rearranged_set hl hs1).trans (rearranged_set hlc' hperm.shuffled)
    have e1 : ((g.setLevel (i + 1) { l with childOffset := offs }).setLevel i lc1).levels[i + 1]? = some { l with childOffset := offs } := by
      rw [getElem?_setLevel_ne (by omega)]; exact getElem?_setLevel_same hl
    have e0 : ((g.setLevel (i + 1) { l with childOffset := offs }).setLevel i lc1).levels[i]? = some lc1 := getElem?_setLevel_same hlc'
    have eo : ∀ j, j ≠ i → j ≠ i + 1 →
        ((g.setLevel (i + 1) { l with childOffset := offs }).setLevel i lc1).levels[j]? = g.levels[j]? := by
      intro j h1 h2
      rw [getElem?_setLevel_ne (by omega), getElem?_setLevel_ne (by omega)]
    refine (ih _ (by show i < g.lay.levels; omega) hc2 ?_).mono ?_
    · intro j hj a ha
      rw [eo j (by omega) (by omega)] at ha
      exact hx j (by omega) a ha
    · intro g' ⟨k1, k2, k3, k4, k5, k6⟩
      have hlay : g'.lay = g.lay := k2.lay
      have hdim : g'.dim = g.dim := k2.dim
      have hlev : ∃ lc2, g'.levels[i]? = some lc2 := k1.get (by rw [hlay]; omega)
      obtain ⟨lc2, hlc2⟩ := hlev
      obtain ⟨offs2, rfl⟩ := k5 _ _ e0 hlc2
      refine ⟨k1, hr2.trans k2, ?_, ?_, ?_, ?_⟩
      · intro j hj
        rcases Nat.lt_or_ge j i with h | h
        · exact k3 j h
        · have : j = i := by omega
          subst this
          intro a b ha hb' c hcl p x hfp hfx
          rw [k4 _ (by omega), e1] at ha
          rw [hlc2] at hb'
          cases ha; cases hb'
          rw [hdim] at hcl
          rw [hlay] at hfp hfx ⊢
          have hfx : lc1.find (coordToKey g.lay j c) = some x := hfx
          have hfp : l.find (coordToKey g.lay (j + 1) c) = some p := hfp
          obtain ⟨hxlt, hxa⟩ := (hLc1.find _ _ (hLc1.notHole hc.valid hc.dim (by omega) c hcl)).1 hfx
          rw [hperm.cnt] at hxlt
          rw [hperm.active x hxlt] at hxa
          have := hloc _ (hb.lt x hxlt)
          rw [hb.inv x hxlt, hxa, locate, parent_key hc.valid (Nat.le_succ j) hi] at this
          rw [show Level.find { l with childOffset := offs } (coordToKey g.lay (j + 1) c) = some p from hfp, Option.bind_some] at this
          rw [← this]
          congr 2
          refine hierOffset_key (g := g) hc.valid hi ?_
          rw [parent_key hc.valid (Nat.le_refl j) (by omega)]
      · intro j hj
        rw [k4 j (by omega), eo j (by omega) (by omega)]
      · intro a b ha hb'
        rw [k4 (i + 1) (by omega), e1] at hb'
        rw [hl] at ha
        cases ha; cases hb'
        exact ⟨offs, rfl⟩
      · intro j hj a ha
        rcases Nat.lt_or_ge j i with h | h
        · exact k6 j h a ha
        · have : j = i := by omega
          subst this
          rw [hlc2] at ha
          cases ha
          exact ⟨by rw [show lc1.valueMask.data.length = _ from hperm.caps.2.2.1, hperm.caps.1],
            by rw [show lc1.childMask.data.length = _ from hperm.caps.2.2.2, hperm.caps.2.1]⟩

/-- The permutation of a list. -/
theorem bij_of_perm {n : Nat} {p : List Nat} (h : p.Perm (List.range n)) : ∃ π σ, Bij n π σ ∧ p = mapOf false n π σ := by
  have hlen : p.length = n := by rw [h.length_eq]; simp
  have hmem : ∀ j < n, p.getD j 0 < n := by
    intro j hj
    rw [List.getD_eq_getElem?_getD, List.getElem?_eq_getElem (by omega)]
    exact List.mem_range.1 (h.mem_iff.1 (List.getElem_mem _))
  have hnd : p.Nodup := h.nodup_iff.2 List.nodup_range
  obtain ⟨σ, hb⟩ := bij_of_surj (n := n) (T := n) (σ := fun j => p.getD j 0) hmem
    (by
      intro a ha b hb' e
      have e : p.getD a 0 = p.getD b 0 := e
      rw [List.getD_eq_getElem?_getD, List.getD_eq_getElem?_getD, List.getElem?_eq_getElem (by omega), List.getElem?_eq_getElem (by omega)] at e
      exact (List.Nodup.getElem_inj_iff hnd).1 e)
    (by
      intro j hj
      have := h.mem_iff.2 (List.mem_range.2 hj)
      obtain ⟨i, hi, e⟩ := List.getElem_of_mem this
      refine ⟨i, by omega, ?_⟩
      show p.getD i 0 = j
      rw [List.getD_eq_getElem?_getD, List.getElem?_eq_getElem hi]; exact e)
  refine ⟨fun j => p.getD j 0, σ, ⟨hb.lt', hb.lt, hb.inv', hb.inv⟩, ?_⟩
  apply List.ext_getElem
  · simp [mapOf, hlen]
  · intro j h1 h2
    simp [mapOf, h1]

theorem sorted_exists (code : Coord → Nat) (l : Level V) :
    ∃ p : List Nat, p.Perm (List.range l.tab.cnt) ∧ p.Pairwise fun a b => code (l.tab.active a) ≤ code (l.tab.active b) := by
  refine ⟨(List.range l.tab.cnt).mergeSort fun a b => decide (code (l.tab.active a) ≤ code (l.tab.active b)), List.mergeSort_perm _ _, ?_⟩
  have := List.pairwise_mergeSort (le := fun a b => decide (code (l.tab.active a) ≤ code (l.tab.active b)))
    (by intro a b c; simp only [decide_eq_true_eq]; omega) (by intro a b; simp only [Bool.or_eq_true, decide_eq_true_eq]; omega)
    (List.range l.tab.cnt)
  exact this.imp fun h => of_decide_eq_true h

/-! ## Values -/

/-- A shuffled level finds the same block elsewhere. -/
theorem Shuffled.find (hs : Shuffled l l') (h : LevelOk lay dim i l) (h' : LevelOk lay dim i l') {k : Coord} (hk : k ≠ l.cfg.hole) :
    (l.find k = none ∧ l'.find k = none) ∨ ∃ b b', l.find k = some b ∧ l'.find k = some b'
      ∧ l'.tiles[b']? = l.tiles[b]? ∧ l'.valueMask.data[b']? = l.valueMask.data[b]? ∧ l'.childMask.data[b']? = l.childMask.data[b]? := by
  obtain ⟨h1, h2, _, _, _, _, π, σ, hb, ha⟩ := hs
  have hk' : k ≠ l'.cfg.hole := by rw [h1]; exact hk
  cases e : l'.find k with
  | none =>
    left
    refine ⟨?_, rfl⟩
    cases e' : l.find k with
    | none => rfl
    | some b =>
      obtain ⟨hlt, hact⟩ := (h.find k b hk).1 e'
      have := (h'.find k (σ b) hk').2 ⟨by rw [h2]; exact hb.lt' b hlt, by rw [(ha _ (hb.lt' b hlt)).1, hb.inv' b hlt, hact]⟩
      rw [e] at this; cases this
  | some b' =>
    right
    obtain ⟨hlt, hact⟩ := (h'.find k b' hk').1 e
    rw [h2] at hlt
    obtain ⟨a1, a2, a3, a4⟩ := ha b' hlt
    exact ⟨π b', b', (h.find k _ hk).2 ⟨hb.lt b' hlt, by rw [← a1, hact]⟩, rfl, a2, a3, a4⟩

theorem probe_rearranged (hr : Rearranged g g') (hc : Consistent g) (hc' : Consistent g') (chn : Nat) (c : Coord) (hcl : c.length = g.dim) :
    ∀ i < g.lay.levels, probe g' false chn c i none = probe g false chn c i none := by
  intro i
  induction i with
  | zero =>
    intro hi
    obtain ⟨l, hl⟩ := hc.get hi
    obtain ⟨l', hl'⟩ := hc'.get (by rw [hr.lay]; exact hi)
    have hL' := hc'.level _ _ hl'
    rw [hr.lay, hr.dim] at hL'
    have := (hr.level _ _ _ hl hl').find (hc.level _ _ hl) hL' ((hc.level _ _ hl).notHole hc.valid hc.dim hi c hcl)
    simp only [probe, hl, hl', Option.bind_some, Level.block, hr.lay, hr.background]
    rcases this with ⟨e1, e2⟩ | ⟨b, b', e1, e2, e3, e4, _⟩
    · rw [e1, e2]
    · rw [e1, e2]; simp only [Level.value, e3, e4]
  | succ i ih =>
    intro hi
    obtain ⟨l, hl⟩ := hc.get hi
    obtain ⟨l', hl'⟩ := hc'.get (by rw [hr.lay]; exact hi)
    have hL' := hc'.level _ _ hl'
    rw [hr.lay, hr.dim] at hL'
    have := (hr.level _ _ _ hl hl').find (hc.level _ _ hl) hL' ((hc.level _ _ hl).notHole hc.valid hc.dim hi c hcl)
    simp only [probe, hl, hl', Option.bind_some, Level.block, hr.lay, hr.background, ih (by omega)]
    rcases this with ⟨e1, e2⟩ | ⟨b, b', e1, e2, e3, e4, e5⟩
    · rw [e1, e2]
    · rw [e1, e2]; simp only [Level.value, Level.hasChild, e3, e4, e5]; simp

/-- In an ordered grid the offsets lead to the blocks that the tables find. -/
theorem probe_ordered (hc : Consistent g) (ho : ∀ i, i + 1 < g.lay.levels → OrderedAt g i) (chn : Nat) (c : Coord) (hcl : c.length = g.dim) :
    ∀ i < g.lay.levels, probe g true chn c i none = probe g false chn c i none := by
  intro i
  induction i with
  | zero => intro hi; simp only [probe]
  | succ i ih =>
    intro hi
    obtain ⟨l, hl⟩ := hc.get hi
    obtain ⟨lc, hlc⟩ := hc.get (show i < g.lay.levels by omega)
    have hL := hc.level _ _ hl
    have hLc := hc.level _ _ hlc
    have hlink := hc.link _ _ _ hl hlc
    simp only [probe, hl, Option.bind_some, Level.block]
    cases e : l.find (coordToKey g.lay (i + 1) c) with
    | none => rfl
    | some p =>
      obtain ⟨hp, hact⟩ := (hL.find _ p (hL.notHole hc.valid hc.dim hi c hcl)).1 e
      have hm := hL.mask_get hp
      have hwords := hlink.words p _ hp hm
      have hoff := (hierOffset_spec hc.valid hi c hcl).2
      have hbound := words_bound ((2 ^ g.lay.hierBits (i + 1)) ^ g.dim)
      simp only [Level.hasChild, hm, Option.bind_some,
        BitMask.isOn_eq (show (hierOffset g.lay (i + 1) c).toNat < 64 * (l.mask p).length by rw [hwords]; omega)]
      cases hon : bit (l.mask p) (hierOffset g.lay (i + 1) c).toNat with
      | false => simp
      | true =>
        obtain ⟨b, hb, hb'⟩ := (hlink.child c hcl p _ hp hact hm).1 hon
        have hfb := (hLc.find _ b (hLc.notHole hc.valid hc.dim (by omega) c hcl)).2 ⟨hb, hb'⟩
        have := ho i hi l lc hl hlc c hcl p b e hfb
        simp only [this, Option.bind_some, if_true, Bool.false_eq_true, if_false]
        rw [← ih (by omega)]
        cases i with
        | zero => simp only [probe, hlc, Option.bind_some, Level.block, hfb]
        | succ i => simp only [probe, hlc, Option.bind_some, Level.block, hfb]

end Verif.Grid
