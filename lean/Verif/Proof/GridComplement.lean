import Verif.Spec.GridCover
import Verif.Proof.GridGrow
import Verif.Props.GridReorder

/-! Helper lemmas for `complementTopo`: one level, then all. -/
namespace Verif.Grid

open Verif.BitMask (W)

variable {V : Type} {lay : Layout} {dim i : Nat} {l lc lp lp' : Level V} {g g' : Grid V} {p : Topo V}

/-- The keys are keys of the level. -/
def KeysOk (lay : Layout) (dim i : Nat) (l : Level V) : Prop :=
  ∀ b < l.tab.cnt, (l.tab.active b).length = dim ∧ coordToKey lay i (l.tab.active b) = l.tab.active b

theorem Level.Ready.keys (h : l.Ready lay dim i) : KeysOk lay dim i l := fun b hb => ⟨h.length b hb, h.aligned b hb⟩

theorem Level.Ready.ok (h : l.Ready lay dim i) : LevelOk lay dim i l :=
  ⟨h.hole, h.room, fun _ _ hk => h.sound.query h.B hk _, h.length, h.aligned, h.tiles, h.values, h.valuesCap, h.childs, h.childsCap⟩

/-- A parent level after the call for the level below, if no insertion was refused. -/
structure Grown (p : Topo V) (lay : Layout) (dim i : Nat) (lc lp lp' : Level V) : Prop where
  ok : LevelOk lay dim (i + 1) lp'
  exact : lp'.Exact
  offsets : lp'.childOffset.length = lp'.tab.cnt + 1
  le : lp.tab.cnt ≤ lp'.tab.cnt
  old : ∀ b < lp.tab.cnt, lp'.tab.active b = lp.tab.active b ∧ lp'.tiles[b]? = lp.tiles[b]? ∧ lp'.valueMask.data[b]? = lp.valueMask.data[b]?
  new : ∀ b, lp.tab.cnt ≤ b → b < lp'.tab.cnt → (∃ t < lc.tab.cnt, lp'.tab.active b = coordToKey lay (i + 1) (lc.tab.active t))
    ∧ lp'.tiles[b]? = some (zeroTile lay dim (i + 1) p.chns p.zero) ∧ lp'.valueMask.data[b]? = some (zeroMask (tileSize lay dim (i + 1)))
  parents : ∀ t < lc.tab.cnt, ∃ b < lp'.tab.cnt, lp'.tab.active b = coordToKey lay (i + 1) (lc.tab.active t)
  link : LevelOk lay dim i lc → LinkOk lay dim i lp' lc

theorem coordToKey_length (lay : Layout) (i : Nat) (c : Coord) : (coordToKey lay i c).length = c.length := keyOf_length _ c

theorem coordToKey_idem (lay : Layout) (i : Nat) (c : Coord) : coordToKey lay i (coordToKey lay i c) = coordToKey lay i c := keyOf_idem c

theorem hierSize_eq (lay : Layout) (dim i : Nat) : hierSize lay dim i = (2 ^ lay.hierBits i) ^ dim := rfl

theorem link_of_masks (hv : lay.Valid dim) (hd : 0 < dim) (hi : i + 1 < lay.levels) {n : Nat} (hk : KeysOk lay dim (i + 1) lp') (hn : lp'.tab.cnt = n)
    (ho : lp'.childOffset.length = n + 1) (hm : Masked lay dim i lc lp'.tab.active n lp'.childMask.data) (hc : LevelOk lay dim i lc)
    (hp : ∀ t < lc.tab.cnt, ∃ b < lp'.tab.cnt, lp'.tab.active b = coordToKey lay (i + 1) (lc.tab.active t)) : LinkOk lay dim i lp' lc := by
  refine link_of_blocks hv hi (by omega) (fun b m _ h => hm.words b m h) ?_ ?_ hp
  · intro b m _ h n hn
    rw [hm.bit b m h, hierSize_eq, decide_eq_false (Nat.not_lt.2 hn)]
    rfl
  · intro b m hb h o ho'
    rw [hm.bit b m h, hierSize_eq, decide_eq_true ho', Bool.true_and]
    obtain ⟨k1, k2⟩ := hk b hb
    have hlt : o < 2 ^ 32 := by
      have h1 := hv.tile (i + 1) hi
      have h2 := Nat.mul_le_mul_left dim (hier_le lay (i + 1))
      have : (2 ^ lay.hierBits (i + 1)) ^ dim ≤ 2 ^ 32 := by
        rw [← Nat.pow_mul, Nat.mul_comm]
        exact Nat.pow_le_pow_right (by omega) (by omega)
      omega
    have hoN : (BitVec.ofNat 32 o).toNat = o := by rw [BitVec.toNat_ofNat]; exact Nat.mod_eq_of_lt hlt
    obtain ⟨e1, e2⟩ := child_offset hv hi _ k2 k1 (BitVec.ofNat 32 o) (by rw [hoN]; exact ho')
    have hlen : (addCoord (lp'.tab.active b) (hierCoord lay (i + 1) dim (BitVec.ofNat 32 o))).length = dim := by
      simp only [addCoord, List.length_zipWith, hierCoord, spread_length, k1, Nat.min_self]
    have e3 := child_key hv hi _ hlen
    rw [e1, e2] at e3
    have hne := hc.notHole hv hd (by omega) _ hlen
    rw [← e3] at hne
    generalize addCoord (lp'.tab.active b) (hierCoord lay (i + 1) dim (BitVec.ofNat 32 o)) = k at hne ⊢
    constructor
    · intro hs
      obtain ⟨b', hb'⟩ := Option.isSome_iff_exists.1 hs
      exact ⟨b', (hc.find k b' hne).1 hb'⟩
    · rintro ⟨b', hb'⟩
      rw [(hc.find k b' hne).2 hb']
      rfl

/-- A table for few entries does not refuse their numbers. -/
theorem limit_few {c : Bht.Cfg Coord} {next2pow : Nat → Nat} {n : Nat} (hB : c.B = 16) (hw : 32 ≤ c.width) (hs : c.size < 2 ^ c.width)
    (hp : n ≤ next2pow n) (hj : 0 < n → ∃ j ≤ 4, next2pow n = 2 ^ j) (he : Bht.evaluateTableSize next2pow c.B n ≤ c.size) : n ≤ c.limit := by
  by_cases h0 : n = 0
  · omega
  obtain ⟨j, hj, e⟩ := hj (by omega)
  have hw' : 2 ^ 32 ≤ 2 ^ c.width := Nat.pow_le_pow_right (by omega) hw
  unfold Bht.evaluateTableSize at he
  rw [if_neg h0, e, hB] at he
  rw [e] at hp
  unfold Bht.Cfg.limit
  have hsz : c.size = c.nb * 16 := by rw [Bht.Cfg.size, hB]
  have big : 32 ≤ c.size → (c.size + 2 ^ c.width - 20) % 2 ^ c.width = c.size - 20 := by
    intro h
    have : c.size + 2 ^ c.width - 20 = (c.size - 20) + 2 ^ c.width := by omega
    rw [this, Nat.add_mod_right, Nat.mod_eq_of_lt (by omega)]
  have small : c.size = 16 → (c.size + 2 ^ c.width - 20) % 2 ^ c.width = 2 ^ c.width - 4 := by
    intro h
    rw [h, Nat.mod_eq_of_lt (by omega)]
    omega
  have hcase : c.size = 16 ∨ 32 ≤ c.size := by
    have : 1 ≤ c.size := by
      have := Nat.mod_lt (2 ^ j * 2) (show 0 < 16 by omega)
      simp only at he
      omega
    omega
  have hj' : j = 0 ∨ j = 1 ∨ j = 2 ∨ j = 3 ∨ j = 4 := by omega
  rcases hj' with rfl | rfl | rfl | rfl | rfl <;> simp at he hp <;> rcases hcase with h | h
  all_goals first
    | (rw [small h]; omega)
    | (rw [big h]; omega)

/-- Few blocks in a level and below: no insertion can be refused. -/
structure FewAt (p : Topo V) (l : Level V) (n : Nat) : Prop where
  B : l.cfg.B = 16
  width : 32 ≤ l.cfg.width
  size : l.cfg.size < 2 ^ l.cfg.width
  success : l.tab.success = true
  few : n < 16
  pow : 0 < n → ∃ j ≤ 4, p.next2pow n = 2 ^ j

/-- One level: always defined; what follows if no insertion was refused. -/
theorem complementLevel_good (hv : g.lay.Valid g.dim) (hd : 0 < g.dim) (hp : ∀ n, n ≤ p.next2pow n) (hi : i + 1 < g.lay.levels)
    (hlc : g.levels[i]? = some lc) (hlp : g.levels[i + 1]? = some lp) (hk : KeysOk g.lay g.dim i lc) (hr : lp.Ready g.lay g.dim (i + 1)) :
    Good (complementLevel p g i) fun g' => ∃ lp', g' = g.setLevel (i + 1) lp' ∧ KeysOk g.lay g.dim (i + 1) lp'
      ∧ lp'.tab.cnt ≤ lp.tab.cnt + lc.tab.cnt ∧ (FewAt p lp (lp.tab.cnt + lc.tab.cnt) → lp'.tab.success = true)
      ∧ (lp'.tab.success = true → Grown p g.lay g.dim i lc lp lp') := by
  have hpar : ∀ t < lc.tab.cnt, (coordToKey g.lay (i + 1) (lc.tab.active t)).length = g.dim := fun t ht => by
    rw [coordToKey_length]; exact (hk t ht).1
  have hhole : ∀ t < lc.tab.cnt, coordToKey g.lay (i + 1) (lc.tab.active t) ≠ lp.cfg.hole := fun t ht =>
    hr.ok.notHole hv hd hi _ (hk t ht).1
  unfold complementLevel
  refine Good.bind (P := (· = lc)) (Good.ofOption ⟨lc, hlc, rfl⟩) fun _ e => ?_
  subst e
  refine Good.bind (P := (· = lp)) (Good.ofOption ⟨lp, hlp, rfl⟩) fun _ e => ?_
  subst e
  rename_i lc lp
  refine Good.bind (growTable_good (hp _) hr.B hr.sound (Nat.le_add_right _ _)) fun r hg => ?_
  obtain ⟨old, hseen⟩ := hg.seen
  refine Good.bind (insertKeys_good (by rw [hg.B]; exact hr.B) hseen hg.sound (fun h0 => hg.buckets (by omega))
    (by rw [hg.hole]; exact hhole) (.inl (by rw [hg.cnt]; exact hg.room))) fun tab ht => ?_
  have hle : lp.tab.cnt ≤ tab.cnt := by have := ht.le; rw [hg.cnt] at this; exact this
  refine Good.bind (vec_resize hr.values hr.valuesCap hle) fun vm hvm => ?_
  refine Good.bind (vec_resize hr.childs hr.childsCap hle) fun cm hcm => ?_
  refine Good.bind (Good.pick ⟨List.replicate (tab.cnt + 1) 0, List.length_replicate⟩) fun co hco => ?_
  refine Good.bind (tiles_resize hr.tiles hle) fun ts hts => ?_
  have hold : ∀ b < lp.tab.cnt, tab.active b = lp.tab.active b := fun b hb => by
    rw [ht.old b (by rw [hg.cnt]; exact hb), hg.active]
  have hnew : ∀ b, lp.tab.cnt ≤ b → b < tab.cnt → ∃ t < lc.tab.cnt, tab.active b = coordToKey g.lay (i + 1) (lc.tab.active t) :=
    fun b h1 h2 => ht.new b (by rw [hg.cnt]; exact h1) h2
  have hkeys : ∀ b < tab.cnt, (tab.active b).length = g.dim ∧ coordToKey g.lay (i + 1) (tab.active b) = tab.active b := by
    intro b hb
    rcases Nat.lt_or_ge b lp.tab.cnt with h | h
    · rw [hold b h]; exact hr.keys b h
    · obtain ⟨t, h1, e⟩ := hnew b h hb
      rw [e]
      exact ⟨hpar t h1, coordToKey_idem _ _ _⟩
  have hcl : lp.tab.cnt ≤ cm.data.length := by rw [hcm.1]; exact hle
  refine Good.bind (masks_good lc tab.active _ (by rw [zeroFrom_length _ _ _ hcl]; exact hcm.1) ?_) fun cd hcd => Good.pure ⟨_, rfl, hkeys, ?_, ?_, ?_⟩
  · intro b m hb
    rcases Nat.lt_or_ge b lp.tab.cnt with h | h
    · rw [zeroFrom_old hcl h, hcm.2.2 b h] at hb
      exact hr.words b m h hb
    · have hlt := (List.getElem?_eq_some_iff.1 hb).1
      rw [zeroFrom_length _ _ _ hcl] at hlt
      rw [zeroFrom_new hcl h hlt] at hb
      cases hb
      simp only [zeroMask, List.length_replicate]
  · have := ht.most
    rw [hg.cnt] at this
    exact this
  · intro hf
    have hlim : lp.tab.cnt + lc.tab.cnt ≤ r.1.limit := by
      refine limit_few (next2pow := p.next2pow) (hg.B.trans hf.B) (by rw [hg.width]; exact hf.width) ?_ (hp _) hf.pow (by rw [hg.B]; exact hg.size.1)
      rw [hg.width]
      rcases hg.size.2 with e | e
      · rw [e]; exact hf.size
      · rw [e, hf.B]
        have hw : 2 ^ 32 ≤ 2 ^ lp.cfg.width := Nat.pow_le_pow_right (by omega) hf.width
        unfold Bht.evaluateTableSize
        split
        · omega
        · rename_i h0
          obtain ⟨j, hj, e⟩ := hf.pow (by omega)
          rw [e]
          have : 2 ^ j ≤ 2 ^ 4 := Nat.pow_le_pow_right (by omega) hj
          simp only
          omega
    have h16 : lp.tab.cnt + lc.tab.cnt < lp.cfg.B := by rw [hf.B]; exact hf.few
    exact ht.fits (by rw [hg.cnt, hg.B]; exact h16) (by rw [hg.cnt]; exact hlim) (hg.fits (by omega) (by omega) hf.success)
  · intro hok
    obtain ⟨_, hs, hpl⟩ := ht.sound hok
    have hvl : lp.tab.cnt ≤ vm.data.length := by rw [hvm.1]; exact hle
    have htl : lp.tab.cnt ≤ ts.length := by rw [hts.1]; exact hle
    refine ⟨⟨?_, ?_, ?_, ?_, ?_, ?_, ?_, ?_, ?_, ?_⟩, ⟨?_, ?_⟩, hco, hle, ?_, ?_, hpl, ?_⟩
    · exact hg.hole.trans hr.hole
    · have h1 := ht.most
      have h2 := hg.room
      rw [hg.cnt] at h1
      exact Nat.le_trans h1 h2
    · intro k b hk'
      exact hs.query (by rw [hg.B]; exact hr.B) hk' b
    · exact fun b hb => (hkeys b hb).1
    · exact fun b hb => (hkeys b hb).2
    · exact (zeroFrom_length _ _ _ htl).trans hts.1
    · exact Nat.le_of_eq ((zeroFrom_length _ _ _ hvl).trans hvm.1).symm
    · exact Nat.le_trans (Nat.le_of_eq ((zeroFrom_length _ _ _ hvl).trans hvm.1)) hvm.2.1
    · exact Nat.le_of_eq hcd.length.symm
    · exact Nat.le_trans (Nat.le_of_eq hcd.length) hcm.2.1
    · exact (zeroFrom_length _ _ _ hvl).trans hvm.1
    · exact hcd.length
    · intro b hb
      refine ⟨hold b hb, ?_, ?_⟩
      · exact (zeroFrom_old htl hb).trans (hts.2 b hb)
      · exact (zeroFrom_old hvl hb).trans (hvm.2.2 b hb)
    · intro b h1 h2
      refine ⟨hnew b h1 h2, ?_, ?_⟩
      · exact zeroFrom_new htl h1 (by rw [hts.1]; exact h2)
      · exact zeroFrom_new hvl h1 (by rw [hvm.1]; exact h2)
    · intro hc
      exact link_of_masks hv hd hi hkeys rfl hco hcd hc hpl

/-- The number of blocks up to level `j`. -/
def Grid.blocksTo (g : Grid V) (j : Nat) : Nat := ((g.levels.take (j + 1)).map fun l => l.tab.cnt).sum

theorem blocksTo_succ {j : Nat} (h : g.levels[j + 1]? = some l) : g.blocksTo (j + 1) = g.blocksTo j + l.tab.cnt := by
  rw [Grid.blocksTo, List.take_add_one, h]
  simp [Grid.blocksTo]

/-- All levels up to level `n`. -/
structure Up (p : Topo V) (g : Grid V) (n : Nat) (g1 : Grid V) : Prop where
  lay : g1.lay = g.lay
  dim : g1.dim = g.dim
  background : g1.background = g.background
  count : g1.levels.length = g.levels.length
  finest : g1.levels[0]? = g.levels[0]?
  above : ∀ j, n < j → g1.levels[j]? = g.levels[j]?
  keys : ∀ j ≤ n, ∀ l, g1.levels[j]? = some l → KeysOk g.lay g.dim j l
  most : ∀ j ≤ n, ∀ l, g1.levels[j]? = some l → l.tab.cnt ≤ g.blocksTo j
  few : (∀ j l m, g.levels[j]? = some l → m ≤ g.blocksTo j → FewAt p l m) → ∀ j, 0 < j → j ≤ n → ∀ l, g1.levels[j]? = some l → l.tab.success = true
  grown : (∀ j, 0 < j → j ≤ n → ∀ l, g1.levels[j]? = some l → l.tab.success = true) → ∀ j < n, ∀ lc lp lp', g1.levels[j]? = some lc → g.levels[j + 1]? = some lp →
    g1.levels[j + 1]? = some lp' → Grown p g.lay g.dim j lc lp lp'

theorem complementUp_good (hr : Ready p g) : ∀ n < g.lay.levels, Good (complementUp p g n) (Up p g n) := by
  intro n
  induction n with
  | zero =>
    intro _
    refine Good.pure ⟨rfl, rfl, rfl, rfl, rfl, fun _ _ => rfl, fun j hj l hl => ?_, fun j hj l hl => ?_, fun _ j h0 hj => by omega, fun _ j hj => by omega⟩
    · exact (hr.level j l hl).keys
    · have : j = 0 := by omega
      subst this
      rw [Grid.blocksTo]
      cases hg : g.levels with
      | nil => rw [hg] at hl; cases hl
      | cons a as =>
        rw [hg] at hl
        cases hl
        simp
  | succ n ih =>
    intro hn
    refine Good.bind (ih (by omega)) fun g1 h1 => ?_
    have hlen : g1.levels.length = g.lay.levels := h1.count.trans hr.count
    obtain ⟨lc, hlc⟩ : ∃ lc, g1.levels[n]? = some lc := ⟨_, List.getElem?_eq_getElem (by omega)⟩
    obtain ⟨lp, hlp⟩ : ∃ lp, g1.levels[n + 1]? = some lp := ⟨_, List.getElem?_eq_getElem (by omega)⟩
    have hlp0 : g.levels[n + 1]? = some lp := by rw [← h1.above (n + 1) (by omega)]; exact hlp
    refine Good.mono (complementLevel_good (p := p) (g := g1) (by rw [h1.lay, h1.dim]; exact hr.valid) (by rw [h1.dim]; exact hr.dim) hr.pow
      (by rw [h1.lay]; exact hn) hlc hlp (by rw [h1.lay, h1.dim]; exact h1.keys n (Nat.le_refl _) lc hlc)
      (by rw [h1.lay, h1.dim]; exact hr.level _ _ hlp0)) ?_
    rintro g2 ⟨lp', rfl, hk', hm', hf', hg'⟩
    have hsum : lp.tab.cnt + lc.tab.cnt ≤ g.blocksTo (n + 1) := by
      rw [blocksTo_succ hlp0]
      have := h1.most n (Nat.le_refl _) lc hlc
      omega
    rw [h1.lay, h1.dim] at hk' hg'
    have ne : ∀ j, j ≠ n + 1 → (g1.setLevel (n + 1) lp').levels[j]? = g1.levels[j]? := fun j hj => getElem?_setLevel_ne fun e => hj e.symm
    have same : (g1.setLevel (n + 1) lp').levels[n + 1]? = some lp' := getElem?_setLevel_same hlp
    refine ⟨h1.lay, h1.dim, h1.background, ?_, ?_, ?_, ?_, ?_, ?_, ?_⟩
    · simp only [Grid.setLevel, List.length_set]; exact h1.count
    · rw [ne 0 (by omega)]; exact h1.finest
    · intro j hj
      rw [ne j (by omega)]; exact h1.above j (by omega)
    · intro j hj l hl
      by_cases e : j = n + 1
      · subst e
        rw [same] at hl
        cases hl
        exact hk'
      · rw [ne j e] at hl
        exact h1.keys j (by omega) l hl
    · intro j hj l hl
      by_cases e : j = n + 1
      · subst e
        rw [same] at hl
        cases hl
        omega
      · rw [ne j e] at hl
        exact h1.most j (by omega) l hl
    · intro hfew j h0 hj l hl
      by_cases e : j = n + 1
      · subst e
        rw [same] at hl
        cases hl
        exact hf' (hfew _ _ _ hlp0 hsum)
      · rw [ne j e] at hl
        exact h1.few hfew j h0 (by omega) l hl
    · intro hok j hj lc1 lp1 lp1' k1 k2 k3
      rw [ne j (by omega)] at k1
      by_cases e : j = n
      · subst e
        rw [same] at k3
        cases k3
        rw [hlc] at k1
        cases k1
        rw [hlp0] at k2
        cases k2
        exact hg' (hok _ (by omega) (Nat.le_refl _) _ same)
      · rw [ne (j + 1) (by omega)] at k3
        refine h1.grown ?_ j (by omega) lc1 lp1 lp1' k1 k2 k3
        intro j' h0 h2 l hl
        exact hok j' h0 (by omega) l (by rw [ne j' (by omega)]; exact hl)

/-- The finest level that has a block decides. -/
theorem probe_finest (hc : Consistent g) (chn : Nat) {c : Coord} (hcl : c.length = g.dim) :
    ∀ i < g.lay.levels, ((∀ j ≤ i, ∀ l b, ¬ BlockAt g j c l b) → probe g false chn c i none = some (false, g.background))
      ∧ ∀ j ≤ i, (∀ k < j, ∀ l b, ¬ BlockAt g k c l b) → ∀ l b, BlockAt g j c l b →
        probe g false chn c i none = l.value chn b (tileOffset g.lay j c).toNat := by
  have hfind : ∀ (j : Nat) l, g.levels[j]? = some l → j < g.lay.levels → ∀ b, l.find (coordToKey g.lay j c) = some b ↔ BlockAt g j c l b := by
    intro j l hl hj b
    rw [(hc.level j l hl).find _ b ((hc.level j l hl).notHole hc.valid hc.dim hj c hcl)]
    exact ⟨fun h => ⟨hl, h⟩, fun h => h.2⟩
  intro i
  induction i with
  | zero =>
    intro hi
    obtain ⟨l, hl⟩ := hc.get hi
    refine ⟨fun hn => ?_, fun j hj hn l' b hb => ?_⟩
    · cases hf : l.find (coordToKey g.lay 0 c) with
      | some b => exact absurd ((hfind 0 l hl hi b).1 hf) (hn 0 (Nat.le_refl _) l b)
      | none => simp only [probe, hl, Option.bind_some, Level.block, hf]
    · have : j = 0 := by omega
      subst this
      have hl' := hb.1
      rw [hl] at hl'
      cases hl'
      simp only [probe, hl, Option.bind_some, Level.block, (hfind 0 l hl hi b).2 hb]
  | succ i ih =>
    intro hi
    obtain ⟨l, hl⟩ := hc.get hi
    obtain ⟨lc, hlc⟩ := hc.get (show i < g.lay.levels by omega)
    have hlink := hc.link i l lc hl hlc
    have hok := hc.level _ l hl
    -- a block of a finer level has its parent
    have up : ∀ lc' b', BlockAt g i c lc' b' → ∃ b, BlockAt g (i + 1) c l b := by
      rintro lc' b' ⟨h1, h2, h3⟩
      rw [hlc] at h1
      cases h1
      obtain ⟨p, hp, e⟩ := hlink.parent b' h2
      refine ⟨p, hl, hp, ?_⟩
      rw [e, h3]
      exact parent_key hc.valid (Nat.le_succ i) hi c
    have down : ∀ b, BlockAt g (i + 1) c l b → l.hasChild b (hierOffset g.lay (i + 1) c).toNat = some true ∧ (∃ b', BlockAt g i c lc b')
        ∨ l.hasChild b (hierOffset g.lay (i + 1) c).toNat = some false ∧ ∀ lc' b', ¬ BlockAt g i c lc' b' := by
      intro b hb
      have hm := hok.mask_get hb.2.1
      have hch := hlink.child c hcl b _ hb.2.1 hb.2.2 hm
      have hlt : (hierOffset g.lay (i + 1) c).toNat < 64 * (l.mask b).length := by
        rw [hlink.words b _ hb.2.1 hm]
        exact Nat.lt_of_lt_of_le (hierOffset_spec hc.valid hi c hcl).2 (words_bound _)
      have hon : l.hasChild b (hierOffset g.lay (i + 1) c).toNat = some (BitMask.bit (l.mask b) (hierOffset g.lay (i + 1) c).toNat) := by
        rw [Level.hasChild, hm, Option.bind_some, BitMask.isOn_eq hlt]
      cases hbit : BitMask.bit (l.mask b) (hierOffset g.lay (i + 1) c).toNat with
      | true =>
        obtain ⟨b', h1, h2⟩ := hch.1 hbit
        exact .inl ⟨by rw [hon, hbit], b', hlc, h1, h2⟩
      | false =>
        refine .inr ⟨by rw [hon, hbit], ?_⟩
        rintro lc' b' ⟨h1, h2, h3⟩
        rw [hlc] at h1
        cases h1
        rw [hch.2 ⟨b', h2, h3⟩] at hbit
        cases hbit
    obtain ⟨ih1, ih2⟩ := ih (by omega)
    refine ⟨fun hn => ?_, fun j hj hn l' b hb => ?_⟩
    · cases hf : l.find (coordToKey g.lay (i + 1) c) with
      | some b => exact absurd ((hfind _ l hl hi b).1 hf) (hn _ (Nat.le_refl _) l b)
      | none => simp only [probe, hl, Option.bind_some, Level.block, hf]
    · by_cases hji : j = i + 1
      · subst hji
        have hl' := hb.1
        rw [hl] at hl'
        cases hl'
        rcases down b hb with ⟨_, b', hb'⟩ | ⟨hch, _⟩
        · exact absurd hb' (hn i (by omega) lc b')
        · simp only [probe, hl, Option.bind_some, Level.block, (hfind _ l hl hi b).2 hb, hch]
          rfl
      · -- the parent chain
        have chain : ∀ k, j + k ≤ i → ∃ lk bk, BlockAt g (j + k) c lk bk := by
          intro k
          induction k with
          | zero => intro _; exact ⟨l', b, hb⟩
          | succ k ihk =>
            intro hk
            obtain ⟨lk, bk, h1, h2, h3⟩ := ihk (by omega)
            obtain ⟨ln, hln⟩ := hc.get (show j + k + 1 < g.lay.levels by omega)
            obtain ⟨q, hq, e⟩ := (hc.link (j + k) ln lk hln h1).parent bk h2
            refine ⟨ln, q, hln, hq, ?_⟩
            rw [e, h3]
            exact parent_key hc.valid (Nat.le_succ _) (by omega) c
        obtain ⟨li, bi, hbi⟩ := chain (i - j) (by omega)
        rw [show j + (i - j) = i by omega] at hbi
        obtain ⟨q, hq⟩ := up li bi hbi
        rcases down q hq with ⟨hch, _⟩ | ⟨_, h2⟩
        · have := ih2 j (by omega) hn l' b hb
          rw [← this]
          simp only [probe, hl, Option.bind_some, Level.block, (hfind _ l hl hi q).2 hq, hch]
          rfl
        · exact absurd hbi (h2 li bi)

/-! ## The whole -/

variable {g1 : Grid V}

theorem Up.levelOk (hr : Ready p g) (h : Up p g g.top g1) (hf : Fits g1) : ∀ (j : Nat) l, g1.levels[j]? = some l → LevelOk g.lay g.dim j l ∧ l.Exact := by
  intro j l hl
  cases j with
  | zero =>
    rw [h.finest] at hl
    exact ⟨(hr.level 0 l hl).ok, hr.finest l hl⟩
  | succ j =>
    have hj : j + 1 < g1.levels.length := (List.getElem?_eq_some_iff.1 hl).1
    have hj' := hj
    rw [h.count] at hj
    have htop : j < g.top := by rw [Grid.top, ← hr.count]; omega
    have := h.grown (fun j h0 _ l hl => hf j h0 l hl) j htop _ _ _ (List.getElem?_eq_getElem (show j < g1.levels.length by omega))
      (List.getElem?_eq_getElem hj) hl
    exact ⟨this.ok, this.exact⟩

theorem Up.get (hr : Ready p g) (h : Up p g g.top g1) (hf : Fits g1) {j : Nat} {lc lp' : Level V} (h1 : g1.levels[j]? = some lc)
    (h2 : g1.levels[j + 1]? = some lp') : ∃ lp, g.levels[j + 1]? = some lp ∧ Grown p g.lay g.dim j lc lp lp' := by
  have hj : j + 1 < g1.levels.length := (List.getElem?_eq_some_iff.1 h2).1
  rw [h.count] at hj
  have htop : j < g.top := by rw [Grid.top, ← hr.count]; omega
  exact ⟨_, List.getElem?_eq_getElem hj, h.grown (fun j h0 _ l hl => hf j h0 l hl) j htop _ _ _ h1 (List.getElem?_eq_getElem hj) h2⟩

theorem Up.consistent (hr : Ready p g) (h : Up p g g.top g1) (hf : Fits g1) : Consistent g1 := by
  refine ⟨?_, ?_, ?_, ?_, ?_⟩
  · rw [h.lay, h.dim]; exact hr.valid
  · rw [h.dim]; exact hr.dim
  · rw [h.count, h.lay]; exact hr.count
  · intro i l hl
    rw [h.lay, h.dim]
    exact (h.levelOk hr hf i l hl).1
  · intro i l lc hl hlc
    obtain ⟨lp, _, hg⟩ := h.get hr hf hlc hl
    rw [h.lay, h.dim]
    exact hg.link (h.levelOk hr hf i lc hlc).1

theorem Up.blocks (hr : Ready p g) (h : Up p g g.top g1) (hf : Fits g1) : ∀ j < g.lay.levels, ∀ c : Coord,
    (∃ l b, BlockAt g1 j c l b) ↔ Covered g j c := by
  intro j
  induction j with
  | zero =>
    intro hj c
    constructor
    · rintro ⟨l, b, h1, h2, h3⟩
      rw [h.finest] at h1
      refine ⟨0, Nat.le_refl _, l, h1, b, h2, ?_⟩
      rw [(hr.level 0 l h1).aligned b h2, h3, h.lay]
    · rintro ⟨i, hi, l, h1, b, h2, h3⟩
      have : i = 0 := by omega
      subst this
      refine ⟨l, b, h.finest.trans h1, h2, ?_⟩
      rw [h.lay, ← h3, (hr.level 0 l h1).aligned b h2]
  | succ j ih =>
    intro hj c
    have ih := ih (by omega)
    have hjl : j + 1 < g1.levels.length := by rw [h.count, hr.count]; exact hj
    have hlc := List.getElem?_eq_getElem (show j < g1.levels.length by omega)
    obtain ⟨lp, hlp, hg⟩ := h.get hr hf hlc (List.getElem?_eq_getElem hjl)
    constructor
    · rintro ⟨l, b, h1, h2, h3⟩
      rw [List.getElem?_eq_getElem hjl] at h1
      cases h1
      rw [h.lay] at h3
      rcases Nat.lt_or_ge b lp.tab.cnt with hb | hb
      · refine ⟨j + 1, Nat.le_refl _, lp, hlp, b, hb, ?_⟩
        rw [(hr.level _ lp hlp).aligned b hb, ← (hg.old b hb).1, h3]
      · obtain ⟨⟨t, ht, e⟩, _⟩ := hg.new b hb h2
        obtain ⟨i, hi, l', k1, b', k2, k3⟩ := (ih (g1.levels[j].tab.active t)).1
          ⟨_, t, hlc, ht, by rw [h.lay]; exact (h.keys j (by rw [Grid.top]; omega) _ hlc t ht).2.symm⟩
        refine ⟨i, by omega, l', k1, b', k2, ?_⟩
        rw [← parent_key hr.valid (Nat.le_succ j) hj, k3, parent_key hr.valid (Nat.le_succ j) hj, ← e, h3]
    · rintro ⟨i, hi, l, h1, b, h2, h3⟩
      by_cases hij : i = j + 1
      · subst hij
        rw [hlp] at h1
        cases h1
        refine ⟨_, b, List.getElem?_eq_getElem hjl, Nat.lt_of_lt_of_le h2 hg.le, ?_⟩
        rw [(hg.old b h2).1, h.lay, ← h3, (hr.level _ lp hlp).aligned b h2]
      · obtain ⟨l', t, k1, k2, k3⟩ := (ih (l.tab.active b)).2 ⟨i, by omega, l, h1, b, h2, rfl⟩
        rw [hlc] at k1
        cases k1
        obtain ⟨q, hq, e⟩ := hg.parents t k2
        refine ⟨_, q, List.getElem?_eq_getElem hjl, hq, ?_⟩
        rw [e, k3, h.lay, parent_key hr.valid (Nat.le_succ j) hj, h3]

theorem zero_value {l : Level V} {b chn n dim i chns : Nat} {zero : V} (ht : l.tiles[b]? = some (zeroTile lay dim i chns zero))
    (hm : l.valueMask.data[b]? = some (zeroMask (tileSize lay dim i))) (hc : chn < chns) (hn : n < tileSize lay dim i) :
    l.value chn b n = some (false, zero) := by
  have h64 : n < 64 * (zeroMask (tileSize lay dim i)).length := by
    rw [zeroMask, List.length_replicate]
    exact Nat.lt_of_lt_of_le hn (words_bound _)
  have hbit : BitMask.bit (zeroMask (tileSize lay dim i)) n = false := by
    rw [zeroMask, List.length_replicate] at h64
    rw [zeroMask, BitMask.bit_replicate h64]
    simp
  simp only [Level.value, ht, hm, Option.bind_some, zeroTile, List.getElem?_replicate, if_pos hc, if_pos hn, BitMask.isOn_eq h64, hbit, Option.map_some]

/-- The values, before `reorder`. -/
theorem Up.values (hr : Ready p g) (h : Up p g g.top g1) (hf : Fits g1) (chn : Nat) {c : Coord} (hcl : c.length = g.dim) :
    ((∀ j < g.lay.levels, ¬ Covered g j c) → probeValue g1 false chn c = some (false, g.background))
    ∧ (∀ j < g.lay.levels, (∀ i < j, ¬ Covered g i c) → ∀ l b, BlockAt g j c l b →
      probeValue g1 false chn c = l.value chn b (tileOffset g.lay j c).toNat)
    ∧ (chn < p.chns → ∀ j < g.lay.levels, (∀ i < j, ¬ Covered g i c) → Covered g j c → (∀ l b, ¬ BlockAt g j c l b) →
      probeValue g1 false chn c = some (false, p.zero)) := by
  have hc := h.consistent hr hf
  have ht := top_lt hr.valid
  have htop : g1.top = g.top := by rw [Grid.top, Grid.top, h.lay]
  have hb := fun j hj => h.blocks hr hf j hj c
  obtain ⟨f1, f2⟩ := probe_finest hc chn (by rw [h.dim]; exact hcl) g.top (by rw [h.lay]; exact ht)
  rw [probeValue, htop]
  refine ⟨?_, ?_, ?_⟩
  · intro hn
    rw [f1 fun j hj l b hba => hn j (by omega) ((hb j (by omega)).1 ⟨l, b, hba⟩), h.background]
  · intro j hj hn l b hba
    obtain ⟨l1, b1, h1, h2, h3⟩ := (hb j hj).2 ⟨j, Nat.le_refl _, l, hba.1, b, hba.2.1, by rw [(hr.level j l hba.1).aligned b hba.2.1, hba.2.2]⟩
    have hval : l1.tab.active b = l.tab.active b ∧ b < l1.tab.cnt ∧ l1.tiles[b]? = l.tiles[b]? ∧ l1.valueMask.data[b]? = l.valueMask.data[b]? := by
      cases j with
      | zero =>
        rw [h.finest, hba.1] at h1
        cases h1
        exact ⟨rfl, hba.2.1, rfl, rfl⟩
      | succ j =>
        have hjl : j < g1.levels.length := by rw [h.count, hr.count]; omega
        obtain ⟨lp, hlp, hg⟩ := h.get hr hf (List.getElem?_eq_getElem hjl) h1
        rw [hba.1] at hlp
        cases hlp
        obtain ⟨a, b', c'⟩ := hg.old b hba.2.1
        exact ⟨a, Nat.lt_of_lt_of_le hba.2.1 hg.le, b', c'⟩
    have := f2 j (by rw [Grid.top]; omega) (fun k hk l b hba => hn k hk ((hb k (by omega)).1 ⟨l, b, hba⟩)) l1 b
      ⟨h1, hval.2.1, by rw [hval.1, hba.2.2, h.lay]⟩
    rw [this, h.lay]
    simp only [Level.value, hval.2.2.1, hval.2.2.2]
  · intro hch j hj hn hcov hno
    obtain ⟨l1, b, h1, h2, h3⟩ := (hb j hj).2 hcov
    have := f2 j (by rw [Grid.top]; omega) (fun k hk l b hba => hn k hk ((hb k (by omega)).1 ⟨l, b, hba⟩)) l1 b ⟨h1, h2, h3⟩
    rw [this, h.lay]
    rw [h.lay] at h3
    cases j with
    | zero =>
      rw [h.finest] at h1
      exact absurd ⟨h1, h2, h3⟩ (hno l1 b)
    | succ j =>
      have hjl : j < g1.levels.length := by rw [h.count, hr.count]; omega
      obtain ⟨lp, hlp, hg⟩ := h.get hr hf (List.getElem?_eq_getElem hjl) h1
      rcases Nat.lt_or_ge b lp.tab.cnt with hlt | hge
      · exact absurd ⟨hlp, hlt, by rw [← (hg.old b hlt).1, h3]⟩ (hno lp b)
      · obtain ⟨_, e1, e2⟩ := hg.new b hge h2
        exact zero_value e1 e2 hch (tileOffset_spec hr.valid hj c hcl).2

theorem Rearranged.blocks (h : Rearranged g g') {j : Nat} {c : Coord} : (∃ l b, BlockAt g' j c l b) ↔ ∃ l b, BlockAt g j c l b := by
  constructor
  · rintro ⟨l', b, h1, h2, h3⟩
    have hj : j < g.levels.length := by rw [← h.count]; exact (List.getElem?_eq_some_iff.1 h1).1
    obtain ⟨_, k2, _, _, _, _, π, σ, hb, ha⟩ := h.level j _ l' (List.getElem?_eq_getElem hj) h1
    rw [k2] at h2
    exact ⟨_, π b, List.getElem?_eq_getElem hj, hb.lt b h2, by rw [← (ha b h2).1, h3, h.lay]⟩
  · rintro ⟨l, b, h1, h2, h3⟩
    have hj : j < g'.levels.length := by rw [h.count]; exact (List.getElem?_eq_some_iff.1 h1).1
    obtain ⟨_, k2, _, _, _, _, π, σ, hb, ha⟩ := h.level j l _ h1 (List.getElem?_eq_getElem hj)
    exact ⟨_, σ b, List.getElem?_eq_getElem hj, by rw [k2]; exact hb.lt' b h2, by rw [(ha _ (hb.lt' b h2)).1, hb.inv' b h2, h3, h.lay]⟩

theorem Up.completed (hr : Ready p g) (h : Up p g g.top g1) (hf : Fits g1) (hk : Kept g1 g') (hre : Rearranged g1 g') : Completed p g g' := by
  have hv := fun chn c hcl => h.values hr hf chn (c := c) hcl
  have hp : ∀ ordered chn (c : Coord), c.length = g.dim → probeValue g' ordered chn c = probeValue g1 false chn c := by
    intro ordered chn c hcl
    cases ordered
    · exact hk.same chn c (by rw [h.dim]; exact hcl)
    · exact hk.along chn c (by rw [h.dim]; exact hcl)
  refine ⟨hre.lay.trans h.lay, hre.dim.trans h.dim, hre.background.trans h.background, hk.consistent, hk.ordered, ?_, ?_, ?_, ?_⟩
  · intro j hj c _
    rw [hre.blocks]
    exact h.blocks hr hf j hj c
  · intro o chn c hcl hn
    rw [hp o chn c hcl]; exact (hv chn c hcl).1 hn
  · intro o chn c hcl j hj hn l b hb
    rw [hp o chn c hcl]; exact (hv chn c hcl).2.1 j hj hn l b hb
  · intro o chn c hcl hch j hj hn hcov hno
    rw [hp o chn c hcl]; exact (hv chn c hcl).2.2 hch j hj hn hcov hno

theorem Few.fits (hr : Ready p g) (hf : Few p g) (h : Up p g g.top g1) : Fits g1 := by
  intro j h0 l hl
  have hj : j < g1.levels.length := (List.getElem?_eq_some_iff.1 hl).1
  rw [h.count, hr.count] at hj
  refine h.few ?_ j h0 (by rw [Grid.top]; omega) l hl
  intro j a m ha hm
  have hmem := List.mem_of_getElem? ha
  have hle : g.blocksTo j ≤ (g.levels.map fun l => l.tab.cnt).sum := by
    have e := List.take_append_drop (j + 1) g.levels
    rw [← e, List.map_append, List.sum_append]
    exact Nat.le_add_right _ _
  have := hf.few
  exact ⟨hf.B a hmem, hf.width a hmem, hf.size a hmem, hf.success a hmem, by omega, fun h => hf.pow m h (by omega)⟩

/-- In a consistent grid each block has its parents. -/
theorem Consistent.covered (hc : Consistent g) {j : Nat} (hj : j < g.lay.levels) {c : Coord} : Covered g j c ↔ ∃ l b, BlockAt g j c l b := by
  constructor
  · rintro ⟨i, hi, l, h1, b, h2, h3⟩
    induction hk : j - i generalizing i l b with
    | zero =>
      have : i = j := by omega
      subst this
      exact ⟨l, b, h1, h2, by rw [← h3, (hc.level i l h1).aligned b h2]⟩
    | succ k ih =>
      obtain ⟨lp, hlp⟩ := hc.get (show i + 1 < g.lay.levels by omega)
      obtain ⟨q, hq, e⟩ := (hc.link i lp l hlp h1).parent b h2
      refine ih (i + 1) (by omega) lp hlp q hq ?_ (by omega)
      rw [e, parent_key hc.valid (by omega) hj, h3]
  · rintro ⟨l, b, h1, h2, h3⟩
    exact ⟨j, Nat.le_refl _, l, h1, b, h2, by rw [(hc.level j l h1).aligned b h2, h3]⟩

end Verif.Grid
