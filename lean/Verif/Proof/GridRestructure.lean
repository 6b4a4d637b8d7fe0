import Verif.Proof.GridAssign

/-! Helper lemmas for `restructure`: the target before and after its topology is completed. -/
namespace Verif.Grid

variable {V : Type} {lay : Layout} {g d d1 g' : Grid V} {p : Topo V}

/-- The target before its topology is completed. -/
structure Transferred (p : Topo V) (g : Grid V) (dst : Layout) (d1 : Grid V) : Prop where
  lay : d1.lay = dst
  dim : d1.dim = g.dim
  background : d1.background = g.background
  ready : Ready p d1
  keys : ∀ j < dst.levels, ∀ k, (∃ l, d1.levels[j]? = some l ∧ ∃ b < l.tab.cnt, l.tab.active b = k)
    ↔ ∃ i < g.lay.levels, dst.closest (g.lay.sbit i) = j ∧ ∃ y, Corner g i y ∧ coordToKey dst j y = k
  value : ∀ j c l b, c.length = g.dim → BlockAt d1 j c l b → ∀ chn < p.chns,
    l.value chn b (tileOffset dst j c).toNat = probeValue g true chn (keyOf (dst.sbit j) c)

theorem transfer_good (hs : Source p g) (hp : ∀ n, n ≤ p.next2pow n) (hv : lay.Valid g.dim) (h0 : Hashed g lay 0 d) (hst : Steady p g d) :
    Good (transfer p g d) fun d1 => Transferred p g lay d1 ∧ ∃ d0, hashUp p g d g.lay.levels (.ok d0) ∧ Hashed g lay g.lay.levels d0
      ∧ ∀ (j : Nat) l, d1.levels[j]? = some l → ∃ l0, d0.levels[j]? = some l0 ∧ l.cfg = l0.cfg ∧ l.tab = l0.tab := by
  unfold transfer
  refine Good.bind (hashUp_good hs hp hv h0 g.lay.levels (Nat.le_refl _) (fun m hm => hst.reserve m hm) (fun m hm => hst.fill m hm)).seen fun d0 ⟨hh, hrun⟩ => ?_
  rw [hh.lay]
  refine Good.bind (eachLevel_good (Q := Refitted p lay g.dim) (fun k l hl => refit_good (hh.level k l hl)) _ (by rw [hh.count]; exact Nat.le_refl _)) fun d2 h2 => ?_
  have hc2 : d2.levels.length = lay.levels := h2.count.trans hh.count
  rw [h2.lay, hh.lay]
  have hkeys2 : ∀ (k : Nat) l, d2.levels[k]? = some l → k < lay.levels ∧ KeysOk lay g.dim k l ∧ ∃ l0, d0.levels[k]? = some l0 ∧ Refitted p lay g.dim k l0 l := by
    intro k l hl
    have hk : k < lay.levels := by rw [← hc2]; exact (List.getElem?_eq_some_iff.1 hl).1
    obtain ⟨l0, hl0⟩ : ∃ l0, d0.levels[k]? = some l0 := ⟨_, List.getElem?_eq_getElem (by rw [hh.count]; exact hk)⟩
    have hr := h2.done k _ l hk hl0 hl
    refine ⟨hk, ?_, _, hl0, hr⟩
    intro b hb
    have := (hh.level k _ hl0).keys b (by rw [← hr.tab]; exact hb)
    rw [hr.tab]; exact this
  refine Good.mono (eachLevel_good (Q := fun k l l' => Assigned p g lay k l l') (fun k l hl => ?_) _ (Nat.le_of_eq hc2.symm)) fun d3 h3 => ?_
  · obtain ⟨hk, hko, l0, _, hr⟩ := hkeys2 k l hl
    exact assign_good hs hv hk hko hr
  have hc3 : d3.levels.length = lay.levels := h3.count.trans hc2
  have hget : ∀ (k : Nat) l, d3.levels[k]? = some l → k < lay.levels ∧ ∃ l0 l2, d0.levels[k]? = some l0 ∧ KeysOk lay g.dim k l2
      ∧ Refitted p lay g.dim k l0 l2 ∧ Assigned p g lay k l2 l := by
    intro k l hl
    have hk : k < lay.levels := by rw [← hc3]; exact (List.getElem?_eq_some_iff.1 hl).1
    obtain ⟨l2, hl2⟩ : ∃ l2, d2.levels[k]? = some l2 := ⟨_, List.getElem?_eq_getElem (by rw [hc2]; exact hk)⟩
    obtain ⟨_, hko, l0, hl0, hr⟩ := hkeys2 k _ hl2
    exact ⟨hk, l0, _, hl0, hko, hr, h3.done k _ l hk hl2 hl⟩
  have hlay3 : d3.lay = lay := h3.lay.trans (h2.lay.trans hh.lay)
  have hdim3 : d3.dim = g.dim := h3.dim.trans (h2.dim.trans hh.dim)
  refine ⟨⟨hlay3, hdim3, h3.background.trans (h2.background.trans hh.background), ⟨?_, ?_, ?_, hp, ?_, ?_⟩, ?_, ?_⟩, d0, hrun, hh, ?_⟩
  · rw [hlay3, hdim3]; exact hv
  · rw [hdim3]; exact hs.consistent.dim
  · rw [hlay3]; exact hc3
  · intro i l hl
    obtain ⟨hk, l0, l2, hl0, hko, hr, ha⟩ := hget i l hl
    have hb := hh.level i l0 hl0
    have hcfg : l.cfg = l0.cfg := ha.cfg.trans hr.cfg
    have htab : l.tab = l0.tab := ha.tab.trans hr.tab
    rw [hlay3, hdim3]
    refine ⟨by rw [hcfg]; exact hb.B, by rw [hcfg]; exact hb.hole, by rw [hcfg, htab]; exact hb.sound, by rw [hcfg, htab]; exact hb.room,
      fun b h => ?_, fun b h => ?_, ?_, ?_, ?_, ?_, ?_, ?_⟩
    · rw [htab] at h ⊢; exact (hb.keys b h).1
    · rw [htab] at h ⊢; exact (hb.keys b h).2
    · rw [ha.tab]; exact ha.tiles
    · rw [ha.tab]; exact Nat.le_of_eq ha.values.symm
    · rw [ha.values, ha.valuesCap, hr.tab]; exact hr.valuesCap
    · rw [ha.childs, hr.childs, List.length_replicate, htab]; exact Nat.le_refl _
    · rw [ha.childs, hr.childs, List.length_replicate]; exact hr.childsCap
    · intro b m _ hm
      rw [ha.childs, hr.childs] at hm
      rw [List.eq_of_mem_replicate (List.mem_of_getElem? hm)]
      exact List.length_replicate
  · intro l hl
    obtain ⟨hk, l0, l2, hl0, hko, hr, ha⟩ := hget 0 l hl
    refine ⟨by rw [ha.tab]; exact ha.values, ?_⟩
    rw [ha.childs, hr.childs, List.length_replicate, ha.tab, hr.tab]
  · intro j hj k
    obtain ⟨l3, hl3⟩ : ∃ l3, d3.levels[j]? = some l3 := ⟨_, List.getElem?_eq_getElem (by rw [hc3]; exact hj)⟩
    obtain ⟨_, l0, l2, hl0, hko, hr, ha⟩ := hget j _ hl3
    have htab : l3.tab = l0.tab := ha.tab.trans hr.tab
    rw [← hh.keys j l0 hl0 k]
    constructor
    · rintro ⟨l, hl, h⟩
      rw [hl3] at hl
      cases hl
      rw [htab] at h; exact h
    · intro h
      exact ⟨_, hl3, by rw [htab]; exact h⟩
  · rintro j c l b hcl ⟨hl, hb, hk⟩ chn hchn
    obtain ⟨hj, l0, l2, hl0, hko, hr, ha⟩ := hget j l hl
    rw [hlay3] at hk
    rw [← ha.value chn hchn b (by rw [← ha.tab]; exact hb) (keyOf (lay.sbit j) c) (by rw [keyOf_length]; exact hcl) (keyOf_idem c)
      (by rw [corner_key hv hj, ← hk, ha.tab]), corner_offset hv hj c hcl]
  · intro j l hl
    obtain ⟨_, l0, l2, hl0, _, hr, ha⟩ := hget j l hl
    exact ⟨l0, hl0, ha.cfg.trans hr.cfg, ha.tab.trans hr.tab⟩

/-- A block that contains blocks of the target contains the corner of an active cell. -/
theorem Transferred.covered (hv : lay.Valid g.dim) (h : Transferred p g lay d1) {j : Nat} (hj : j < lay.levels) {c : Coord} :
    Covered d1 j c ↔ ∃ i < g.lay.levels, lay.closest (g.lay.sbit i) ≤ j ∧ ∃ y, Corner g i y ∧ coordToKey lay j y = coordToKey lay j c := by
  constructor
  · rintro ⟨m, hm, l, hl, b, hb, e⟩
    rw [h.lay] at e
    obtain ⟨i, hi, e1, y, hy, e2⟩ := (h.keys m (by omega) _).1 ⟨l, hl, b, hb, rfl⟩
    refine ⟨i, hi, by omega, y, hy, ?_⟩
    rw [← e2, parent_key hv hm hj] at e
    exact e
  · rintro ⟨i, hi, e1, y, hy, e2⟩
    obtain ⟨l, hl, b, hb, e⟩ := (h.keys _ (by omega) _).2 ⟨i, hi, rfl, y, hy, rfl⟩
    refine ⟨_, e1, l, hl, b, hb, ?_⟩
    rw [h.lay, e, parent_key hv e1 hj, e2]

/-- A cell that is active has a block in the target. -/
theorem Transferred.block (hs : Source p g) (hv : lay.Valid g.dim) (hh : g.lay.Holds lay) (h : Transferred p g lay d1) {i : Nat} (hi : i < g.lay.levels)
    {c : Coord} (hcl : c.length = g.dim) (ha : ActiveAt g i c) : ∃ l b, BlockAt d1 (lay.closest (g.lay.sbit i)) c l b := by
  have hj := closest_lt lay (g.lay.sbit i) hv.some
  obtain ⟨l, hl, b, hb, e⟩ := (h.keys _ hj (coordToKey lay (lay.closest (g.lay.sbit i)) (keyOf (g.lay.sbit i) c))).2
    ⟨i, hi, rfl, _, ⟨by rw [keyOf_length]; exact hcl, keyOf_idem c, ha.corner hs.consistent.valid hi hcl⟩, rfl⟩
  refine ⟨l, b, hl, hb, ?_⟩
  rw [e, h.lay]
  exact keyOf_keyOf (ebit_lt hv hj) (hh i hi) c

theorem Transferred.keeps (hs : Source p g) (hv : lay.Valid g.dim) (hh : g.lay.Holds lay) (hsp : g.lay.Spares lay) (h : Transferred p g lay d1)
    (hc : Completed p d1 g') : Keeps p g g' := by
  intro o chn hchn c hcl v hval
  obtain ⟨i, l, b, hf, ha⟩ := probe_active hs true hchn c hcl v hval
  have hi := hf.1.lt hs.consistent
  have hj := closest_lt lay (g.lay.sbit i) hv.some
  obtain ⟨ld, bd, hbd⟩ := h.block hs hv hh hi hcl ha
  rw [hc.kept o chn c (by rw [h.dim]; exact hcl) _ (by rw [h.lay]; exact hj) ?_ ld bd hbd, h.lay, h.value _ c ld bd hcl hbd chn hchn]
  · have hk : keyOf (g.lay.sbit i) (keyOf (lay.sbit (lay.closest (g.lay.sbit i))) c) = keyOf (g.lay.sbit i) c := by
      refine keyOf_keyOf ?_ (closest_sbit _ _) c
      have := ebit_lt hs.consistent.valid hi
      have := sbit_le_ebit g.lay i
      omega
    rw [(same_probe hs true chn hcl (by rw [keyOf_length]; exact hcl) hf hk).2, hval]
  · intro j hjlt hcov
    obtain ⟨m, hm, e1, y, hy, e2⟩ := (h.covered hv (by omega)).1 hcov
    have hmi : m < i := by
      rcases Nat.lt_or_ge m i with h' | h'
      · exact h'
      · have := closest_mono hv.some (sbit_le hs.consistent.valid h' hm)
        omega
    obtain ⟨i, rfl⟩ : ∃ i', i = i' + 1 := ⟨i - 1, by omega⟩
    have hkey : coordToKey g.lay i y = coordToKey g.lay i c :=
      key_coarser (ebit_lt hs.consistent.valid (by omega)) (hsp i hi j hjlt) e2
    obtain ⟨_, _, l', b', m', hb', _⟩ := hy
    have hcov' : Covered g i c := ⟨m, by omega, l', hb'.1, b', hb'.2.1, by rw [hb'.2.2, parent_key hs.consistent.valid (by omega) (by omega), hkey]⟩
    obtain ⟨l2, b2, h2⟩ := (hs.consistent.covered (show i < g.lay.levels by omega)).1 hcov'
    exact hf.2 i (Nat.lt_succ_self i) l2 b2 h2

theorem Transferred.moved (hs : Source p g) (hv : lay.Valid g.dim) (hh : g.lay.Holds lay) (h : Transferred p g lay d1)
    (hc : Completed p d1 g') : Moved p g lay g' := by
  refine ⟨hc.lay.trans h.lay, hc.dim.trans h.dim, hc.background.trans h.background, hc.consistent, hc.ordered, ?_, ?_⟩
  · intro o chn hchn c hcl v hval
    have hcl' : c.length = d1.dim := by rw [h.dim]; exact hcl
    by_cases hn : ∀ j < d1.lay.levels, ¬ Covered d1 j c
    · exact ⟨_, hc.none o chn c hcl' hn⟩
    · have : ∃ j, j < d1.lay.levels ∧ Covered d1 j c := Classical.byContradiction fun hx => hn fun j hj hcov => hx ⟨j, hj, hcov⟩
      obtain ⟨j, hj, hcov, hmin⟩ : ∃ j, j < d1.lay.levels ∧ Covered d1 j c ∧ ∀ i < j, ¬ Covered d1 i c := by
        obtain ⟨j, hj, hcov⟩ := this
        induction j using Nat.strongRecOn with
        | ind j ih =>
          by_cases h : ∃ i < j, Covered d1 i c
          · obtain ⟨i, hi, hx⟩ := h
            exact ih i hi (by omega) hx
          · exact ⟨j, hj, hcov, fun i hi hx => h ⟨i, hi, hx⟩⟩
      by_cases hb : ∃ l b, BlockAt d1 j c l b
      · obtain ⟨l, b, hb⟩ := hb
        rw [hc.kept o chn c hcl' j hj hmin l b hb, h.lay, h.value j c l b hcl hb chn hchn]
        rw [h.lay] at hj
        have hzl : (keyOf (lay.sbit j) c).length = g.dim := by rw [keyOf_length]; exact hcl
        obtain ⟨⟨f, v'⟩, hr⟩ := probe_some hs true hchn (keyOf (lay.sbit j) c) hzl
        cases f with
        | false => exact ⟨v', hr⟩
        | true =>
          exfalso
          obtain ⟨k, lk, bk, hf, ha⟩ := probe_active hs true hchn _ hzl v' hr
          have hk := hf.1.lt hs.consistent
          obtain ⟨ld, bd, hbd⟩ := h.block hs hv hh hk hzl ha
          rcases Nat.lt_or_ge (lay.closest (g.lay.sbit k)) j with hlt | hge
          · obtain ⟨j, rfl⟩ : ∃ j', j = j' + 1 := ⟨j - 1, by omega⟩
            refine hmin j (Nat.lt_succ_self j) ⟨_, by omega, ld, hbd.1, bd, hbd.2.1, ?_⟩
            rw [hbd.2.2, h.lay, parent_key hv (by omega) (by omega)]
            exact keyOf_keyOf (ebit_lt hv (by omega)) (sbit_succ_le hv hj) c
          · have h1 := sbit_le hv hge (closest_lt lay _ hv.some)
            have h2 := closest_sbit lay (g.lay.sbit k)
            have h3 := ebit_lt hs.consistent.valid hk
            have h4 := sbit_le_ebit g.lay k
            have hkey : keyOf (g.lay.sbit k) c = keyOf (g.lay.sbit k) (keyOf (lay.sbit j) c) := (keyOf_keyOf (by omega) (by omega) c).symm
            rw [← (same_probe hs true chn hzl hcl hf hkey).2, hval] at hr
            cases hr
      · exact ⟨_, hc.made o chn c hcl' hchn j hj hmin hcov fun l b h => hb ⟨l, b, h⟩⟩
  · intro j hj c hcl hb
    have hcov := (hc.blocks j (by rw [h.lay]; exact hj) c (by rw [h.dim]; exact hcl)).1 hb
    obtain ⟨i, hi, _, y, hy, e⟩ := (h.covered hv hj).1 hcov
    exact ⟨i, hi, y, hy.1, hy.2.2, e⟩

/-! ## Few cells -/

theorem limit_twelve {c : Bht.Cfg Coord} (hB : c.B = 16) (hw : 32 ≤ c.width) (hs : c.size < 2 ^ c.width) : 12 ≤ c.limit := by
  have hw' : 2 ^ 32 ≤ 2 ^ c.width := Nat.pow_le_pow_right (by omega) hw
  have hsz : c.size = c.nb * 16 := by rw [Bht.Cfg.size, hB]
  unfold Bht.Cfg.limit
  by_cases h : c.size < 20
  · rw [Nat.mod_eq_of_lt (by omega)]
    omega
  · have : c.size + 2 ^ c.width - 20 = (c.size - 20) + 2 ^ c.width := by omega
    rw [this, Nat.add_mod_right, Nat.mod_eq_of_lt (by omega)]
    omega

theorem sum_set {α : Type} (f : α → Nat) : ∀ (xs : List α) (j : Nat) (x y : α), xs[j]? = some y → ((xs.set j x).map f).sum + f y = (xs.map f).sum + f x
  | [], _, _, _, h => by simp at h
  | a :: xs, 0, x, y, h => by simp at h; subst h; simp; omega
  | a :: xs, j + 1, x, y, h => by
    have := sum_set f xs j x y (by simpa using h)
    simp only [List.set_cons_succ, List.map_cons, List.sum_cons]
    omega

theorem le_sum {α : Type} (f : α → Nat) {xs : List α} {x : α} (h : x ∈ xs) : f x ≤ (xs.map f).sum := by
  induction h with
  | head => simp
  | tail _ _ ih => simp only [List.map_cons, List.sum_cons]; omega

theorem cellsTo_succ (g : Grid V) (n : Nat) : cellsTo g (n + 1) = cellsTo g n + ((g.levels[n]?.bind (activeCells g.lay g.dim n)).elim 0 List.length) := by
  simp [cellsTo, List.range_succ]

theorem cellsTo_mono (g : Grid V) {m n : Nat} (h : m ≤ n) : cellsTo g m ≤ cellsTo g n := by
  induction h with
  | refl => exact Nat.le_refl _
  | step _ ih => rw [cellsTo_succ]; omega

/-- Tables without refusals. -/
structure Roomy (g : Grid V) (n : Nat) (d : Grid V) : Prop where
  B : ∀ l ∈ d.levels, l.cfg.B = 16
  width : ∀ l ∈ d.levels, 32 ≤ l.cfg.width
  size : ∀ l ∈ d.levels, l.cfg.size < 2 ^ l.cfg.width
  success : Unrefused d
  few : (d.levels.map fun l => l.tab.cnt).sum ≤ cellsTo g n

theorem mem_setLevel {j : Nat} {x l : Level V} (h : l ∈ (d.setLevel j x).levels) : l ∈ d.levels ∨ l = x := by
  rw [Grid.setLevel] at h
  exact List.mem_or_eq_of_mem_set h

section
variable {cfgs : Nat → Bht.Cfg Coord} {l : Level V} {n : Nat} {d2 d3 : Grid V} {cells : List Coord}

theorem Roomy.reserve (hf : FewCells p g lay cfgs) (hn : n < g.lay.levels) (hl : g.levels[n]? = some l) (hh : Hashed g lay n d1)
    (h : Roomy g n d1) (hr : Reserved p g d1 n l d2) : Roomy g n d2 := by
  obtain ⟨ld, r, hld, he, rfl⟩ := hr.level
  have hmem := List.mem_of_getElem? hld
  have hcnt : ld.tab.cnt ≤ 12 := by
    have h1 := le_sum (fun l : Level V => l.tab.cnt) hmem
    have h2 := h.few
    have h3 := cellsTo_mono g (Nat.le_of_lt hn)
    have h4 := hf.few
    omega
  have hB : r.1.B = 16 := he.B.trans (h.B ld hmem)
  have hw : 32 ≤ r.1.width := by rw [he.width]; exact h.width ld hmem
  have hsz : r.1.size < 2 ^ r.1.width := by
    rcases he.size.2 with e | e
    · rw [e, he.width]; exact h.size ld hmem
    · rw [e, h.B ld hmem]
      have h1 := hf.size n l hl ld.tab.cnt hcnt
      have h2 : 2 ^ 32 ≤ 2 ^ r.1.width := Nat.pow_le_pow_right (by omega) hw
      rw [estimate, hh.lay]
      omega
  refine ⟨?_, ?_, ?_, ?_, ?_⟩
  · intro x hx
    rcases mem_setLevel hx with h' | rfl
    · exact h.B x h'
    · exact hB
  · intro x hx
    rcases mem_setLevel hx with h' | rfl
    · exact h.width x h'
    · exact hw
  · intro x hx
    rcases mem_setLevel hx with h' | rfl
    · exact h.size x h'
    · exact hsz
  · intro x hx
    rcases mem_setLevel hx with h' | rfl
    · exact h.success x h'
    · refine he.fits (by rw [h.B ld hmem]; omega) ?_ (h.success ld hmem)
      have := limit_twelve hB hw hsz
      omega
  · have := sum_set (fun l : Level V => l.tab.cnt) d1.levels _ { ld with cfg := r.1, tab := r.2 } ld hld
    have h2 := h.few
    have h3 := he.cnt
    simp only [Grid.setLevel] at this ⊢
    omega

theorem Roomy.fill (hf : FewCells p g lay cfgs) (hn : n < g.lay.levels) (hl : g.levels[n]? = some l)
    (hcells : activeCells g.lay g.dim n l = some cells) (h : Roomy g n d2) (hr : Filled g d2 n cells d3) : Roomy g (n + 1) d3 := by
  obtain ⟨ld, tab, hld, hi, rfl⟩ := hr.level
  have hmem := List.mem_of_getElem? hld
  have hsucc : cellsTo g (n + 1) = cellsTo g n + cells.length := by
    rw [cellsTo_succ, hl, Option.bind_some, hcells]; rfl
  have hcnt : ld.tab.cnt + cells.length ≤ 12 := by
    have h1 := le_sum (fun l : Level V => l.tab.cnt) hmem
    have h2 := h.few
    have h3 := cellsTo_mono g (show n + 1 ≤ g.lay.levels from hn)
    have h4 := hf.few
    omega
  refine ⟨?_, ?_, ?_, ?_, ?_⟩
  · intro x hx
    rcases mem_setLevel hx with h' | rfl
    · exact h.B x h'
    · exact h.B ld hmem
  · intro x hx
    rcases mem_setLevel hx with h' | rfl
    · exact h.width x h'
    · exact h.width ld hmem
  · intro x hx
    rcases mem_setLevel hx with h' | rfl
    · exact h.size x h'
    · exact h.size ld hmem
  · intro x hx
    rcases mem_setLevel hx with h' | rfl
    · exact h.success x h'
    · refine hi.fits (by rw [h.B ld hmem]; omega) ?_ (h.success ld hmem)
      have := limit_twelve (h.B ld hmem) (h.width ld hmem) (h.size ld hmem)
      omega
  · have := sum_set (fun l : Level V => l.tab.cnt) d2.levels _ { ld with tab := tab } ld hld
    have h2 := h.few
    have h3 := hi.most
    simp only [Grid.setLevel] at this ⊢
    omega

theorem hashUp_few (hs : Source p g) (hp : ∀ n, n ≤ p.next2pow n) (hv : lay.Valid g.dim) (hf : FewCells p g lay cfgs) (h0 : Hashed g lay 0 d)
    (hr : Roomy g 0 d) : ∀ n ≤ g.lay.levels, Good (hashUp p g d n) fun d1 => Hashed g lay n d1 ∧ Roomy g n d1 := by
  intro n
  induction n with
  | zero => intro _; exact Good.pure ⟨h0, hr⟩
  | succ n ih =>
    intro hn
    obtain ⟨l, hl⟩ : ∃ l, g.levels[n]? = some l := ⟨_, List.getElem?_eq_getElem (by rw [hs.consistent.count]; omega)⟩
    obtain ⟨cells, hcells, hmem⟩ := activeCells_spec hs hl
    refine Good.bind (ih (by omega)) fun d1 ⟨hh, h1⟩ => ?_
    refine Good.bind (reserve_good hp hl hv.some hh) fun d2 h2 => ?_
    have h2' := h1.reserve hf (by omega) hl hh h2
    refine (fill_good hs hl hv hh h2 h2'.success hcells hmem).mono fun d3 h3 => ?_
    have h3' := h2'.fill hf (by omega) hl hcells h3
    exact ⟨hashed_succ hv.some hh h2 hmem h3 h3'.success, h3'⟩

theorem FewCells.steady (hs : Source p g) (hp : ∀ n, n ≤ p.next2pow n) (hv : lay.Valid g.dim) (hf : FewCells p g lay cfgs) (h0 : Hashed g lay 0 d)
    (hr : Roomy g 0 d) : Steady p g d := by
  refine ⟨fun n hn d1 d2 h1 h2 => ?_, fun n hn d1 h1 => ?_⟩
  · obtain ⟨_, e, hh, hro⟩ := (hashUp_few hs hp hv hf h0 hr n (by omega)).2 _ h1
    cases e
    obtain ⟨l, hl⟩ : ∃ l, g.levels[n]? = some l := ⟨_, List.getElem?_eq_getElem (by rw [hs.consistent.count]; omega)⟩
    obtain ⟨_, e, h3⟩ := (reserve_good hp hl hv.some hh).2 _ h2
    cases e
    exact (hro.reserve hf hn hl hh h3).success
  · obtain ⟨_, e, hh, hro⟩ := (hashUp_few hs hp hv hf h0 hr n hn).2 _ h1
    cases e
    exact hro.success

theorem roomy_zero (hf : FewCells p g lay cfgs) (act : Nat → Coord) (indices : Nat → Nat) : Roomy g 0 (freshGrid g lay cfgs act indices) := by
  have hget : ∀ l ∈ (freshGrid g lay cfgs act indices).levels, ∃ j < lay.levels, l = freshLevel (cfgs j) act indices := by
    intro l hl
    simp only [freshGrid, List.mem_map, List.mem_range] at hl
    obtain ⟨j, hj, e⟩ := hl
    exact ⟨j, hj, e.symm⟩
  refine ⟨?_, ?_, ?_, ?_, ?_⟩
  · intro l hl
    obtain ⟨j, hj, rfl⟩ := hget l hl
    exact hf.B j hj
  · intro l hl
    obtain ⟨j, hj, rfl⟩ := hget l hl
    exact hf.width j hj
  · intro l hl
    obtain ⟨j, hj, rfl⟩ := hget l hl
    simp only [freshLevel, Bht.Cfg.size, Nat.zero_mul]
    exact Nat.two_pow_pos _
  · intro l hl
    obtain ⟨j, hj, rfl⟩ := hget l hl
    rfl
  · have : (freshGrid g lay cfgs act indices).levels.map (fun l => l.tab.cnt) = List.replicate lay.levels 0 := by
      rw [List.eq_replicate_iff]
      refine ⟨by simp [freshGrid], fun x hx => ?_⟩
      obtain ⟨l, hl, rfl⟩ := List.mem_map.1 hx
      obtain ⟨j, hj, rfl⟩ := hget l hl
      rfl
    rw [this]
    simp

end

end Verif.Grid
