import Verif.Proof.GridHash

/-! Helper lemmas for `restructure`: the storage and the values of the target. -/
namespace Verif.Grid

open Verif.BitMask (W)

variable {V : Type} {lay : Layout} {dim : Nat} {g d : Grid V} {p : Topo V} {l l' : Level V} {j : Nat}

/-! ## A step for each level -/

/-- The grid after a step for the levels below `n`. -/
structure Each (Q : Nat → Level V → Level V → Prop) (d : Grid V) (n : Nat) (d' : Grid V) : Prop where
  lay : d'.lay = d.lay
  dim : d'.dim = d.dim
  background : d'.background = d.background
  count : d'.levels.length = d.levels.length
  done : ∀ (k : Nat) l l', k < n → d.levels[k]? = some l → d'.levels[k]? = some l' → Q k l l'
  rest : ∀ k, n ≤ k → d'.levels[k]? = d.levels[k]?

theorem eachLevel_good {f : Nat → Level V → Run (Level V)} {Q : Nat → Level V → Level V → Prop}
    (hf : ∀ (k : Nat) l, d.levels[k]? = some l → Good (f k l) (Q k l)) : ∀ n ≤ d.levels.length, Good (eachLevel f d n) (Each Q d n) := by
  intro n
  induction n with
  | zero => intro _; exact Good.pure ⟨rfl, rfl, rfl, rfl, fun k l l' h => absurd h (Nat.not_lt_zero k), fun _ _ => rfl⟩
  | succ n ih =>
    intro hn
    refine Good.bind (ih (by omega)) fun d1 h1 => ?_
    have hget : d1.levels[n]? = some d.levels[n] := by rw [h1.rest n (Nat.le_refl n)]; exact List.getElem?_eq_getElem (by omega)
    have hlen : n < d1.levels.length := by rw [h1.count]; omega
    refine Good.bind (P := (· = d.levels[n])) (Good.ofOption ⟨_, hget, rfl⟩) fun _ e => ?_
    subst e
    refine Good.bind (hf n _ (List.getElem?_eq_getElem (by omega))) fun x hx => Good.pure ⟨h1.lay, h1.dim, h1.background, ?_, ?_, ?_⟩
    · simp only [Grid.setLevel, List.length_set]; exact h1.count
    · intro k l l' hk hl hl'
      by_cases e : n = k
      · subst e
        rw [setLevel_self _ hlen] at hl'
        cases hl'
        rw [List.getElem?_eq_getElem (by omega)] at hl
        cases hl
        exact hx
      · rw [setLevel_ne _ e] at hl'
        exact h1.done k l l' (by omega) hl hl'
    · intro k hk
      rw [setLevel_ne _ (by omega)]
      exact h1.rest k (by omega)

theorem zeroFrom_zero {α : Type} (z : α) (xs : List α) : zeroFrom 0 z xs = List.replicate xs.length z := by simp [zeroFrom]

/-- A level with zeroed storage. -/
structure Refitted (p : Topo V) (lay : Layout) (dim j : Nat) (l l' : Level V) : Prop where
  cfg : l'.cfg = l.cfg
  tab : l'.tab = l.tab
  tiles : l'.tiles = List.replicate l.tab.cnt (zeroTile lay dim j p.chns p.zero)
  values : l'.valueMask.data = List.replicate l.tab.cnt (zeroMask (tileSize lay dim j))
  valuesCap : l.tab.cnt ≤ l'.valueMask.cap
  childs : l'.childMask.data = List.replicate l.tab.cnt (zeroMask (hierSize lay dim j))
  childsCap : l.tab.cnt ≤ l'.childMask.cap

theorem refit_good (h : Blank lay dim j l) : Good (refitLevel p lay dim j l) (Refitted p lay dim j l) := by
  unfold refitLevel
  refine Good.bind (tiles_resize (by rw [h.tiles]; rfl) (Nat.zero_le _)) fun ts hts => ?_
  refine Good.bind (vec_resize (prev := 0) (Nat.zero_le _) (by rw [h.values]; exact Nat.le_refl _) (Nat.zero_le _)) fun vm hvm => ?_
  refine Good.bind (vec_resize (prev := 0) (Nat.zero_le _) (by rw [h.childs]; exact Nat.le_refl _) (Nat.zero_le _)) fun cm hcm => ?_
  refine Good.bind (Good.pick ⟨List.replicate (l.tab.cnt + 1) 0, List.length_replicate⟩) fun co hco => ?_
  refine Good.pure ⟨rfl, rfl, ?_, ?_, hvm.2.1, ?_, hcm.2.1⟩
  · simp only [zeroFrom_zero, hts.1]
  · simp only [zeroFrom_zero, hvm.1]
  · simp only [zeroFrom_zero, hcm.1]

/-! ## Values -/

theorem writeCell_spec (o : Nat) : ∀ (t : List (List V)) (vs : List V), t.length = vs.length → (∀ ch ∈ t, o < ch.length) →
    writeCell o t vs = some (List.zipWith (fun ch v => ch.set o v) t vs)
  | [], [], _, _ => rfl
  | ch :: t, v :: vs, hl, hc => by
    rw [writeCell, if_pos (hc ch List.mem_cons_self),
      writeCell_spec o t vs (by simpa using hl) fun c h => hc c (List.mem_cons_of_mem _ h)]
    rfl
  | [], _ :: _, hl, _ => by simp at hl
  | _ :: _, [], hl, _ => by simp at hl

/-- A cell of a channel. -/
def entry (tiles : List (List (List V))) (b chn o : Nat) : Option V := tiles[b]?.bind fun t => t[chn]?.bind fun ch => ch[o]?

def flag (masks : List (List W)) (b o : Nat) : Option Bool := masks[b]?.map fun m => BitMask.bit m o

/-- Tiles and masks of the right size. -/
structure Shaped (n chns S : Nat) (s : List (List (List V)) × List (List W)) : Prop where
  tiles : s.1.length = n
  chns : ∀ (b : Nat) t, s.1[b]? = some t → t.length = chns ∧ ∀ ch ∈ t, ch.length = S
  masks : s.2.length = n
  words : ∀ (b : Nat) m, s.2[b]? = some m → m.length = BitMask.wordCount S

theorem entry_write {t : List (List V)} {vs : List V} {o chn o' : Nat} (hl : t.length = vs.length) (hc : ∀ ch ∈ t, o < ch.length) :
    ((List.zipWith (fun ch v => ch.set o v) t vs)[chn]?.bind fun ch => ch[o']?) = if o' = o then vs[chn]? else t[chn]?.bind fun ch => ch[o']? := by
  rw [List.getElem?_zipWith]
  by_cases h : chn < t.length
  · have h' : chn < vs.length := by omega
    rw [List.getElem?_eq_getElem h, List.getElem?_eq_getElem h']
    simp only [Option.bind_some]
    by_cases e : o' = o
    · subst e
      rw [if_pos rfl, List.getElem?_set_self (hc _ (List.getElem_mem h))]
    · rw [if_neg e, List.getElem?_set_ne (fun h => e h.symm)]
  · rw [List.getElem?_eq_none (by omega), List.getElem?_eq_none (by omega)]
    simp

/-- One task: the cell of all channels and perhaps the bit. -/
theorem assign_step {n chns : Nat} {origin : Nat → Coord} {k : Nat} {s : List (List (List V)) × List (List W)} {rs : List (Bool × V)}
    (hk : k < n * tileSize lay g.dim j) (hsh : Shaped n chns (tileSize lay g.dim j) s)
    (hrs : accRun g (emptyCache g.dim g.lay.levels) ((List.range chns).map fun d =>
      (d, addCoord (origin (k / tileSize lay g.dim j)) (tileCoord lay j g.dim (BitVec.ofNat 32 (k % tileSize lay g.dim j))))) = some rs)
    (hlen : rs.length = chns) :
    ∃ s', assignTask g lay chns j origin s k = some s' ∧ Shaped n chns (tileSize lay g.dim j) s'
      ∧ (∀ b chn o, o < tileSize lay g.dim j → entry s'.1 b chn o = if b * tileSize lay g.dim j + o = k then (rs[chn]?).map (·.2) else entry s.1 b chn o)
      ∧ ∀ b o, o < tileSize lay g.dim j → flag s'.2 b o = (flag s.2 b o).map fun f => f || (decide (b * tileSize lay g.dim j + o = k) && rs.any (·.1)) := by
  have hpos := tileSize_pos lay g.dim j
  generalize hS : tileSize lay g.dim j = S at *
  have hb : k / S < n := Nat.div_lt_of_lt_mul (by rw [Nat.mul_comm]; exact hk)
  have hmod := Nat.mod_lt k hpos
  have hbt : k / S < s.1.length := by rw [hsh.tiles]; exact hb
  have hbm : k / S < s.2.length := by rw [hsh.masks]; exact hb
  obtain ⟨t1, t2⟩ := hsh.chns _ _ (List.getElem?_eq_getElem hbt)
  have m1 := hsh.words _ _ (List.getElem?_eq_getElem hbm)
  have hw := words_bound S
  have hlv : s.1[k / S].length = (rs.map (·.2)).length := by rw [List.length_map, t1, hlen]
  have hcl : ∀ ch ∈ s.1[k / S], k % S < ch.length := fun ch h => by rw [t2 ch h]; exact hmod
  have hwr := writeCell_spec (k % S) s.1[k / S] (rs.map (·.2)) hlv hcl
  have hkk : ∀ b o, o < S → (b * S + o = k ↔ b = k / S ∧ o = k % S) := by
    intro b o ho
    constructor
    · rintro rfl
      exact ⟨by rw [Nat.mul_comm, Nat.mul_add_div hpos, Nat.div_eq_of_lt ho, Nat.add_zero], by rw [Nat.mul_comm, Nat.mul_add_mod, Nat.mod_eq_of_lt ho]⟩
    · rintro ⟨rfl, rfl⟩
      rw [Nat.mul_comm]; exact Nat.div_add_mod k S
  -- the tile
  have tile_shape : ∀ (b : Nat) t, (s.1.set (k / S) (List.zipWith (fun ch v => ch.set (k % S) v) s.1[k / S] (rs.map (·.2))))[b]? = some t →
      t.length = chns ∧ ∀ ch ∈ t, ch.length = S := by
    intro b t ht
    by_cases e : k / S = b
    · subst e
      rw [List.getElem?_set_self hbt] at ht
      cases ht
      refine ⟨by rw [List.length_zipWith, hlv, List.length_map, hlen, Nat.min_self], fun ch h => ?_⟩
      obtain ⟨i, hi, e⟩ := List.getElem_of_mem h
      rw [List.getElem_zipWith] at e
      rw [← e, List.length_set]
      exact t2 _ (List.getElem_mem _)
    · rw [List.getElem?_set_ne e] at ht
      exact hsh.chns b t ht
  have tile_entry : ∀ b chn o, o < S → entry (s.1.set (k / S) (List.zipWith (fun ch v => ch.set (k % S) v) s.1[k / S] (rs.map (·.2)))) b chn o
      = if b * S + o = k then (rs[chn]?).map (·.2) else entry s.1 b chn o := by
    intro b chn o ho
    by_cases e : k / S = b
    · subst e
      simp only [entry, List.getElem?_set_self hbt, Option.bind_some, List.getElem?_eq_getElem hbt]
      rw [entry_write hlv hcl]
      by_cases e : o = k % S
      · rw [if_pos e, if_pos ((hkk _ _ ho).2 ⟨rfl, e⟩), List.getElem?_map]
      · rw [if_neg e, if_neg (fun h => e ((hkk _ _ ho).1 h).2)]
    · simp only [entry, List.getElem?_set_ne e]
      rw [if_neg (fun h => e ((hkk _ _ ho).1 h).1.symm)]
  by_cases hany : rs.any (·.1) = true
  · obtain ⟨m', e1, e2, e3⟩ := BitMask.setOn_spec (ws := s.2[k / S]) (n := k % S) (by omega)
    refine ⟨(s.1.set (k / S) (List.zipWith (fun ch v => ch.set (k % S) v) s.1[k / S] (rs.map (·.2))), s.2.set (k / S) m'), ?_,
      ⟨by rw [List.length_set]; exact hsh.tiles, tile_shape, by rw [List.length_set]; exact hsh.masks, ?_⟩, tile_entry, ?_⟩
    · simp only [assignTask, hS, hrs, Option.bind_some, List.getElem?_eq_getElem hbt, hwr, hany, if_true, List.getElem?_eq_getElem hbm, e1, Option.map_some]
    · intro b m hm
      by_cases e : k / S = b
      · subst e
        rw [List.getElem?_set_self hbm] at hm
        cases hm
        rw [e2, m1]
      · rw [List.getElem?_set_ne e] at hm
        exact hsh.words b m hm
    · intro b o ho
      by_cases e : k / S = b
      · subst e
        simp only [flag, List.getElem?_set_self hbm, List.getElem?_eq_getElem hbm, Option.map_some, e3, hany, Bool.and_true, hkk _ _ ho]
        by_cases e : o = k % S <;> simp [e]
      · have : ¬ (b * S + o = k) := fun h => e ((hkk _ _ ho).1 h).1.symm
        simp only [flag, List.getElem?_set_ne e, decide_eq_false this, Bool.false_and, Bool.or_false]
        cases s.2[b]? <;> rfl
  · have hany : rs.any (·.1) = false := Bool.eq_false_iff.2 hany
    refine ⟨(s.1.set (k / S) (List.zipWith (fun ch v => ch.set (k % S) v) s.1[k / S] (rs.map (·.2))), s.2), ?_,
      ⟨by rw [List.length_set]; exact hsh.tiles, tile_shape, hsh.masks, hsh.words⟩, tile_entry, ?_⟩
    · simp only [assignTask, hS, hrs, Option.bind_some, List.getElem?_eq_getElem hbt, hwr, hany]
      rfl
    · intro b o _
      simp only [hany, Bool.and_false, Bool.or_false]
      cases flag s.2 b o <;> rfl

/-- All tasks, in any order. -/
theorem assign_all {n chns : Nat} {origin : Nat → Coord} (vals : Nat → List (Bool × V))
    (hvals : ∀ k < n * tileSize lay g.dim j, accRun g (emptyCache g.dim g.lay.levels) ((List.range chns).map fun d =>
      (d, addCoord (origin (k / tileSize lay g.dim j)) (tileCoord lay j g.dim (BitVec.ofNat 32 (k % tileSize lay g.dim j))))) = some (vals k)
      ∧ (vals k).length = chns) : ∀ (order : List Nat) (s : List (List (List V)) × List (List W)), order.Nodup → (∀ k ∈ order, k < n * tileSize lay g.dim j) →
    Shaped n chns (tileSize lay g.dim j) s → ∃ s', order.foldlM (assignTask g lay chns j origin) s = some s' ∧ Shaped n chns (tileSize lay g.dim j) s'
      ∧ (∀ b chn o, o < tileSize lay g.dim j → entry s'.1 b chn o
        = if b * tileSize lay g.dim j + o ∈ order then ((vals (b * tileSize lay g.dim j + o))[chn]?).map (·.2) else entry s.1 b chn o)
      ∧ ∀ b o, o < tileSize lay g.dim j → flag s'.2 b o = (flag s.2 b o).map fun f =>
        f || (decide (b * tileSize lay g.dim j + o ∈ order) && (vals (b * tileSize lay g.dim j + o)).any (·.1)) := by
  intro order
  induction order with
  | nil =>
    intro s _ _ hsh
    refine ⟨s, rfl, hsh, fun b chn o _ => by rw [if_neg List.not_mem_nil], fun b o _ => ?_⟩
    simp only [List.not_mem_nil, decide_false, Bool.false_and, Bool.or_false]
    cases flag s.2 b o <;> rfl
  | cons k rest ih =>
    intro s hnd hlt hsh
    have hk := hlt k List.mem_cons_self
    obtain ⟨hn1, hn2⟩ := List.nodup_cons.1 hnd
    obtain ⟨s1, e1, sh1, a1, a2⟩ := assign_step hk hsh (hvals k hk).1 (hvals k hk).2
    obtain ⟨s2, e2, sh2, b1, b2⟩ := ih s1 hn2 (fun x hx => hlt x (List.mem_cons_of_mem _ hx)) sh1
    refine ⟨s2, by rw [List.foldlM_cons, e1]; exact e2, sh2, ?_, ?_⟩
    · intro b chn o ho
      rw [b1 b chn o ho, a1 b chn o ho]
      by_cases h1 : b * tileSize lay g.dim j + o ∈ rest
      · rw [if_pos h1, if_pos (List.mem_cons_of_mem _ h1)]
      · rw [if_neg h1]
        by_cases h2 : b * tileSize lay g.dim j + o = k
        · rw [if_pos h2, if_pos (h2 ▸ List.mem_cons_self), h2]
        · rw [if_neg h2, if_neg (fun h => (List.mem_cons.1 h).elim h2 h1)]
    · intro b o ho
      rw [b2 b o ho, a2 b o ho, Option.map_map]
      congr 1
      funext f
      simp only [Function.comp]
      by_cases h2 : b * tileSize lay g.dim j + o = k
      · rw [h2]
        simp [hn1]
      · have : (b * tileSize lay g.dim j + o ∈ k :: rest) ↔ b * tileSize lay g.dim j + o ∈ rest := by
          rw [List.mem_cons]; exact ⟨fun h => h.resolve_left h2, .inr⟩
        simp only [this, decide_eq_false h2, Bool.false_and, Bool.or_false]

/-- All channels of a coordinate are active, or none is. -/
theorem flags_same (hs : Source p g) {c : Coord} (hcl : c.length = g.dim) {chn chn' : Nat} (h : chn < p.chns) (h' : chn' < p.chns) {r r' : Bool × V}
    (e : probeValue g true chn c = some r) (e' : probeValue g true chn' c = some r') : r.1 = r'.1 := by
  rcases exists_finest g c with hn | ⟨i, l, b, hf⟩
  · rw [probe_none hs true _ c hcl hn] at e e'
    cases e; cases e'; rfl
  · obtain ⟨m, v, hm, k⟩ := value_some hs hcl hf.1 h
    obtain ⟨m', v', hm', k'⟩ := value_some hs hcl hf.1 h'
    rw [probe_block hs true _ c hcl hf, k] at e
    rw [probe_block hs true _ c hcl hf, k'] at e'
    rw [hm] at hm'
    cases hm'; cases e; cases e'; rfl

/-- A level with the values of the source. -/
structure Assigned (p : Topo V) (g : Grid V) (lay : Layout) (j : Nat) (l l' : Level V) : Prop where
  cfg : l'.cfg = l.cfg
  tab : l'.tab = l.tab
  childs : l'.childMask = l.childMask
  tiles : l'.tiles.length = l.tab.cnt
  values : l'.valueMask.data.length = l.tab.cnt
  valuesCap : l'.valueMask.cap = l.valueMask.cap
  value : ∀ chn < p.chns, ∀ b < l.tab.cnt, ∀ z : Coord, z.length = g.dim → keyOf (lay.sbit j) z = z → coordToKey lay j z = l.tab.active b →
    l'.value chn b (tileOffset lay j z).toNat = probeValue g true chn z

theorem assign_good (hs : Source p g) (hv : lay.Valid g.dim) (hj : j < lay.levels) {l0 : Level V} (hk : KeysOk lay g.dim j l)
    (h : Refitted p lay g.dim j l0 l) : Good (assignLevel p g lay j l) (Assigned p g lay j l) := by
  have hpos := tileSize_pos lay g.dim j
  have hz : ∀ k < l.tab.cnt * tileSize lay g.dim j,
      (addCoord (l.tab.active (k / tileSize lay g.dim j)) (tileCoord lay j g.dim (BitVec.ofNat 32 (k % tileSize lay g.dim j)))).length = g.dim := by
    intro k hlt
    have hb : k / tileSize lay g.dim j < l.tab.cnt := Nat.div_lt_of_lt_mul (by rw [Nat.mul_comm]; exact hlt)
    exact (cell_coord hv hj (hk _ hb).2 (hk _ hb).1 (Nat.mod_lt k hpos)).1
  have hvals : ∀ z : Coord, z.length = g.dim → ∃ rs, accRun g (emptyCache g.dim g.lay.levels) ((List.range p.chns).map fun d => (d, z)) = some rs
      ∧ rs.length = p.chns ∧ ∀ chn < p.chns, rs[chn]? = probeValue g true chn z := by
    intro z hzl
    rw [accessor_transparent hs.consistent.valid hs.consistent.dim (Nat.le_refl _) _ (by
      intro q hq
      obtain ⟨d, _, rfl⟩ := List.mem_map.1 hq
      exact hzl)]
    let f : Nat × Coord → Bool × V := fun q => (probeValue g true q.1 q.2).getD (false, g.background)
    have hm := mapM_some (fun q : Nat × Coord => probeValue g true q.1 q.2) f ((List.range p.chns).map fun d => (d, z)) (by
      intro q hq
      obtain ⟨d, hd, rfl⟩ := List.mem_map.1 hq
      obtain ⟨r, hr⟩ := probe_some hs true (List.mem_range.1 hd) z hzl
      simp only [f, hr, Option.getD_some])
    refine ⟨_, hm, by simp, fun chn hchn => ?_⟩
    obtain ⟨r, hr⟩ := probe_some hs true hchn z hzl
    simp [hchn, f, hr]
  let vals : Nat → List (Bool × V) := fun k => (accRun g (emptyCache g.dim g.lay.levels) ((List.range p.chns).map fun d =>
      (d, addCoord (l.tab.active (k / tileSize lay g.dim j)) (tileCoord lay j g.dim (BitVec.ofNat 32 (k % tileSize lay g.dim j)))))).getD []
  have hsh : Shaped l.tab.cnt p.chns (tileSize lay g.dim j) (l.tiles, l.valueMask.data) := by
    rw [h.tiles, h.values, h.tab]
    refine ⟨List.length_replicate, ?_, List.length_replicate, ?_⟩
    · intro b t ht
      have := List.eq_of_mem_replicate (List.mem_of_getElem? ht)
      subst this
      refine ⟨List.length_replicate, fun ch hch => ?_⟩
      rw [List.eq_of_mem_replicate hch, List.length_replicate]
    · intro b m hm
      rw [List.eq_of_mem_replicate (List.mem_of_getElem? hm)]
      exact List.length_replicate
  unfold assignLevel
  refine Good.bind (P := fun s' => Shaped l.tab.cnt p.chns (tileSize lay g.dim j) s' ∧ (∀ b chn o, b < l.tab.cnt → o < tileSize lay g.dim j →
      entry s'.1 b chn o = ((vals (b * tileSize lay g.dim j + o))[chn]?).map (·.2))
      ∧ ∀ b o, b < l.tab.cnt → o < tileSize lay g.dim j → flag s'.2 b o = some ((vals (b * tileSize lay g.dim j + o)).any (·.1))) ?_ ?_
  · refine Good.launch fun order hp => ?_
    have hmem : ∀ k, k ∈ order ↔ k < l.tab.cnt * tileSize lay g.dim j := fun k => by rw [hp.mem_iff, List.mem_range]
    obtain ⟨s', e, sh, a, b'⟩ := assign_all (n := l.tab.cnt) (chns := p.chns) (origin := l.tab.active) vals (by
      intro k hk
      obtain ⟨rs, e1, e2, _⟩ := hvals _ (hz k hk)
      simp only [vals, e1, Option.getD_some]
      exact ⟨trivial, e2⟩) order _ (hp.nodup_iff.2 List.nodup_range) (fun k hk => (hmem k).1 hk) hsh
    have hin : ∀ b o, b < l.tab.cnt → o < tileSize lay g.dim j → b * tileSize lay g.dim j + o ∈ order := by
      intro b o hb ho
      rw [hmem]
      calc b * tileSize lay g.dim j + o < (b + 1) * tileSize lay g.dim j := by rw [Nat.add_mul]; omega
        _ ≤ _ := Nat.mul_le_mul_right _ hb
    refine ⟨s', e, sh, ?_, ?_⟩
    · intro b chn o hb ho
      rw [a b chn o ho, if_pos (hin b o hb ho)]
    · intro b o hb ho
      rw [b' b o ho, decide_eq_true (hin b o hb ho), Bool.true_and]
      have : flag l.valueMask.data b o = some false := by
        rw [flag, h.values, List.getElem?_replicate, if_pos (by rw [← h.tab]; exact hb), Option.map_some, zeroMask]
        have hw := words_bound (tileSize lay g.dim j)
        rw [BitMask.bit_replicate (by omega)]
        simp
      rw [this]
      simp
  · rintro ⟨ts, ms⟩ ⟨sh, he, hf⟩
    refine Good.pure ⟨rfl, rfl, rfl, sh.tiles, sh.masks, rfl, ?_⟩
    intro chn hchn b hb z hzl hzk hkey
    have ho : (tileOffset lay j z).toNat < tileSize lay g.dim j := (tileOffset_spec hv hj z hzl).2
    have hdiv : (b * tileSize lay g.dim j + (tileOffset lay j z).toNat) / tileSize lay g.dim j = b := by
      rw [Nat.mul_comm, Nat.mul_add_div hpos, Nat.div_eq_of_lt ho, Nat.add_zero]
    have hmod : (b * tileSize lay g.dim j + (tileOffset lay j z).toNat) % tileSize lay g.dim j = (tileOffset lay j z).toNat := by
      rw [Nat.mul_comm, Nat.mul_add_mod, Nat.mod_eq_of_lt ho]
    have hcoord := corner_cell hv hj hzl hzk
    rw [hkey] at hcoord
    obtain ⟨rs, e1, e2, e3⟩ := hvals z hzl
    have hval : vals (b * tileSize lay g.dim j + (tileOffset lay j z).toNat) = rs := by
      simp only [vals, hdiv, hmod, hcoord, e1, Option.getD_some]
    have h1 := he b chn _ hb ho
    have h2 := hf b _ hb ho
    rw [hval] at h1 h2
    obtain ⟨r, hr⟩ := probe_some hs true hchn z hzl
    rw [e3 chn hchn, hr, Option.map_some] at h1
    have hany : rs.any (·.1) = r.1 := by
      have hmem : r ∈ rs := List.mem_of_getElem? ((e3 chn hchn).trans hr)
      have hall : ∀ x ∈ rs, x.1 = r.1 := by
        intro x hx
        obtain ⟨i, hi, e⟩ := List.getElem_of_mem hx
        exact flags_same hs hzl (show i < p.chns by omega) hchn (by rw [← e3 i (by omega), List.getElem?_eq_getElem hi, e]) hr
      cases hr1 : r.1 with
      | true => exact List.any_eq_true.2 ⟨r, hmem, hr1⟩
      | false => exact List.any_eq_false.2 fun x hx => by rw [hall x hx, hr1]; simp
    rw [hany] at h2
    rw [hr]
    simp only [Level.value]
    simp only [entry] at h1
    simp only [flag] at h2
    cases ht : ts[b]? with
    | none => rw [ht] at h1; cases h1
    | some t =>
      rw [ht, Option.bind_some] at h1
      cases hch : t[chn]? with
      | none => rw [hch] at h1; cases h1
      | some ch =>
        rw [hch, Option.bind_some] at h1
        cases hm : ms[b]? with
        | none => rw [hm] at h2; cases h2
        | some m =>
          rw [hm, Option.map_some] at h2
          injection h2 with h2
          have hw := words_bound (tileSize lay g.dim j)
          have hml := sh.words b m hm
          simp only [hch, h1, Option.bind_some, BitMask.isOn_eq (ws := m) (show (tileOffset lay j z).toNat < 64 * m.length by omega), h2, Option.map_some]

end Verif.Grid
