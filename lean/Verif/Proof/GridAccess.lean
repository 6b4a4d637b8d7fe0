import Verif.Model.AdaptiveGrid
import Verif.Props.GridCoord

/-! Lemmas for accessors: remembered blocks are those an uncached look-up reaches. -/
namespace Verif.Grid

variable {V : Type} {g : Grid V}

/-- The offset of a child depends on the child's key only. -/
theorem hierOffset_key (h : g.lay.Valid g.dim) {i : Nat} (hi : i + 1 < g.lay.levels) {c c' : Coord}
    (e : coordToKey g.lay i c = coordToKey g.lay i c') : hierOffset g.lay (i + 1) c = hierOffset g.lay (i + 1) c' := by
  have he := ebit_lt h hi
  have part : ∀ x : BitVec 32, (x &&& cellMask (g.lay.ebit (i + 1))) >>> g.lay.ebit i
      = ((x &&& ~~~(cellMask (g.lay.ebit i))) &&& cellMask (g.lay.ebit (i + 1))) >>> g.lay.ebit i := by
    intro x
    apply BitVec.eq_of_getLsbD_eq
    intro j hj
    have hs := ebit_lt h (show i < g.lay.levels by omega)
    rw [BitVec.getLsbD_ushiftRight, BitVec.getLsbD_ushiftRight, BitVec.getLsbD_and, BitVec.getLsbD_and, key_bit hs]
    have : g.lay.ebit i ≤ g.lay.ebit i + j := by omega
    simp [this]
  have flat : ∀ c : Coord, hierOffset g.lay (i + 1) c = hierOffset g.lay (i + 1) (coordToKey g.lay i c) := by
    intro c
    show flatten _ _ (g.lay.ebit i) c = flatten _ _ (g.lay.ebit i) (c.map _)
    refine snoc_induction (P := fun c => flatten (g.lay.ebit (i + 1)) (g.lay.hierBits (i + 1)) (g.lay.ebit i) c
      = flatten (g.lay.ebit (i + 1)) (g.lay.hierBits (i + 1)) (g.lay.ebit i) (c.map (· &&& ~~~(cellMask (g.lay.ebit i))))) rfl ?_ c
    intro c x ih
    rw [List.map_append, List.map_cons, List.map_nil, flatten_append, flatten_append, ← ih, ← part]
  rw [flat c, flat c', e]

/-- All coordinates of a block lead to it. -/
def Leads (g : Grid V) (i : Nat) (k : Coord) (b : Nat) : Prop :=
  ∀ c chn, c.length = g.dim → coordToKey g.lay i c = k → probeValue g true chn c = probe g true chn c i (some b)

/-- The records of an accessor. -/
def CacheOk (g : Grid V) (cache : Cache) : Prop :=
  ∀ d k b, cache[d]? = some (k, b) → d ≤ g.top ∧
    match b with
    | none => k = List.replicate g.dim 0x7fffffff#32
    | some b => Leads g (g.top - d) k b

theorem emptyCache_ok {depths : Nat} (hd : depths ≤ g.lay.levels) : CacheOk g (emptyCache g.dim depths) := by
  intro d k b h
  rw [emptyCache, List.getElem?_replicate] at h
  by_cases hlt : d < depths
  · rw [if_pos hlt] at h
    cases h
    refine ⟨?_, rfl⟩
    rw [Grid.top]; omega
  · rw [if_neg hlt] at h; cases h

theorem remember_length (cache : Cache) (i : Nat) (c : Coord) (b : Nat) : (remember g cache i c b).length = cache.length := by
  rw [remember]
  split
  · rw [List.length_set]
  · rfl

theorem remember_ok {cache : Cache} (h : CacheOk g cache) {i : Nat} (hi : i ≤ g.top) {c : Coord} {b : Nat}
    (hl : Leads g i (coordToKey g.lay i c) b) : CacheOk g (remember g cache i c b) := by
  rw [remember]
  by_cases hlt : g.top - i < cache.length
  · rw [if_pos hlt]
    intro d k b' e
    rw [List.getElem?_set] at e
    by_cases hd : g.top - i = d
    · rw [if_pos hd, if_pos hlt] at e
      cases e
      refine ⟨by omega, ?_⟩
      have : g.top - d = i := by omega
      show Leads g (g.top - d) _ b
      rw [this]; exact hl
    · rw [if_neg hd] at e
      exact h d k b' e
  · rw [if_neg hlt]; exact h

/-- Going down from a block. -/
theorem descend_spec (hv : g.lay.Valid g.dim) (chn : Nat) (c : Coord) (_hc : c.length = g.dim) : ∀ (i : Nat), i ≤ g.top → ∀ (b : Nat) (cache : Cache),
    CacheOk g cache → Leads g i (coordToKey g.lay i c) b →
    (descend g chn c i b cache).map (fun r => r.2) = probe g true chn c i (some b)
      ∧ ∀ r, descend g chn c i b cache = some r → CacheOk g r.1 ∧ r.1.length = cache.length := by
  intro i
  induction i with
  | zero =>
    intro hi b cache hok hl
    simp only [descend, probe, Level.block]
    cases hL : g.levels[0]? with
    | none => simp
    | some l =>
      simp only [Option.bind_some]
      cases hv : l.value chn b (tileOffset g.lay 0 c).toNat with
      | none => simp
      | some v =>
        simp only [Option.map_some, true_and]
        intro r e
        cases e
        exact ⟨remember_ok hok hi hl, remember_length _ _ _ _⟩
  | succ i ih =>
    intro hi b cache hok hl
    simp only [descend, probe, Level.block]
    cases hL : g.levels[i + 1]? with
    | none => simp
    | some l =>
      simp only [Option.bind_some]
      cases hm : l.hasChild b (hierOffset g.lay (i + 1) c).toNat with
      | none => simp
      | some on =>
        simp only [Option.bind_some]
        cases on with
        | false =>
          simp only [Bool.false_eq_true, if_false]
          cases hv : l.value chn b (tileOffset g.lay (i + 1) c).toNat with
          | none => simp
          | some v =>
            simp only [Option.map_some, true_and]
            intro r e
            cases e
            exact ⟨hok, rfl⟩
        | true =>
          simp only [if_true]
          cases hn : l.childNo b (hierOffset g.lay (i + 1) c).toNat with
          | none => simp
          | some b' =>
            simp only [Option.bind_some]
            have hlv : i + 1 < g.lay.levels := by rw [Grid.top] at hi; omega
            have hl' : Leads g i (coordToKey g.lay i c) b' := by
              intro c' chn' hc' e
              have ho := hierOffset_key hv hlv e
              have hk : coordToKey g.lay (i + 1) c' = coordToKey g.lay (i + 1) c := by
                rw [← parent_key hv (Nat.le_succ i) hlv c', ← parent_key hv (Nat.le_succ i) hlv c, e]
              rw [hl c' chn' hc' hk]
              simp [probe, Level.block, hL, ho, hm, hn]
            have := ih (by omega) b' (remember g cache (i + 1) c b) (remember_ok hok hi hl) hl'
            rw [remember_length] at this
            exact this

theorem lookUp_spec (hv : g.lay.Valid g.dim) (chn : Nat) (c : Coord) (hc : c.length = g.dim) (cache : Cache) (hok : CacheOk g cache) :
    (lookUp g chn c cache).map (fun r => r.2) = probeValue g true chn c
      ∧ ∀ r, lookUp g chn c cache = some r → CacheOk g r.1 ∧ r.1.length = cache.length := by
  have key : probeValue g true chn c = g.levels[g.top]?.bind fun l =>
      match l.find (coordToKey g.lay g.top c) with
      | none => some (false, g.background)
      | some b => probe g true chn c g.top (some b) := by
    rw [probeValue]
    cases ht : g.top with
    | zero => simp only [probe]; cases g.levels[0]? with
      | none => rfl
      | some l =>
        simp only [Option.bind_some, Level.block]
        rfl
    | succ i => simp only [probe]; cases g.levels[i + 1]? with
      | none => rfl
      | some l =>
        simp only [Option.bind_some, Level.block]
        rfl
  rw [lookUp]
  cases hL : g.levels[g.top]? with
  | none => rw [key, hL]; simp
  | some l =>
    simp only [Option.bind_some]
    cases hf : l.find (coordToKey g.lay g.top c) with
    | none =>
      rw [key, hL]
      simp only [Option.bind_some, hf, Option.map_some, true_and]
      intro r e; cases e
      exact ⟨hok, rfl⟩
    | some b =>
      have hl : Leads g g.top (coordToKey g.lay g.top c) b := by
        intro c' chn' hc' e
        have key' : probeValue g true chn' c' = g.levels[g.top]?.bind fun l =>
            match l.find (coordToKey g.lay g.top c') with
            | none => some (false, g.background)
            | some b => probe g true chn' c' g.top (some b) := by
          rw [probeValue]
          cases ht : g.top with
          | zero => simp only [probe]; cases g.levels[0]? with
            | none => rfl
            | some l => simp only [Option.bind_some, Level.block]; rfl
          | succ i => simp only [probe]; cases g.levels[i + 1]? with
            | none => rfl
            | some l => simp only [Option.bind_some, Level.block]; rfl
        rw [key', hL]
        simp only [Option.bind_some, e, hf]
      have := descend_spec hv chn c hc g.top (Nat.le_refl _) b cache hok hl
      rw [key, hL]
      simp only [Option.bind_some, hf]
      exact this

theorem hashed_spec (hv : g.lay.Valid g.dim) (hd : 0 < g.dim) (chn : Nat) (c : Coord) (hc : c.length = g.dim) (cache : Cache)
    (hok : CacheOk g cache) {d : Nat} (hh : isHashed g cache d c = true) :
    ((cache[d]?.bind fun r => r.2.bind fun b => descend g chn c (g.top - d) b cache).map fun r => r.2) = probeValue g true chn c
      ∧ ∀ r, (cache[d]?.bind fun r => r.2.bind fun b => descend g chn c (g.top - d) b cache) = some r →
        CacheOk g r.1 ∧ r.1.length = cache.length := by
  rw [isHashed] at hh
  cases hr : cache[d]? with
  | none => rw [hr] at hh; cases hh
  | some r =>
    rw [hr] at hh
    have hk : coordToKey g.lay (g.top - d) c = r.1 := by simpa using hh
    obtain ⟨k, b⟩ := r
    have hrec := hok d k b hr
    have hlv : g.top - d < g.lay.levels := by
      have := hv.some
      rw [Grid.top]; omega
    cases b with
    | none =>
      exfalso
      have : k = List.replicate g.dim 0x7fffffff#32 := hrec.2
      exact (key_ne_marker hv hlv hd c hc).2 (by rw [hk, this])
    | some b =>
      have hl : Leads g (g.top - d) (coordToKey g.lay (g.top - d) c) b := by rw [hk]; exact hrec.2
      have := descend_spec hv chn c hc (g.top - d) (by omega) b cache hok hl
      simp only [Option.bind_some]
      rw [this.1, hl c chn hc rfl]
      exact ⟨rfl, this.2⟩

theorem accProbe_spec (hv : g.lay.Valid g.dim) (hd : 0 < g.dim) (chn : Nat) (c : Coord) (hc : c.length = g.dim) (cache : Cache)
    (hok : CacheOk g cache) (d : Nat) :
    (accProbe g chn c cache d).map (fun r => r.2) = probeValue g true chn c
      ∧ ∀ r, accProbe g chn c cache d = some r → CacheOk g r.1 ∧ r.1.length = cache.length := by
  induction d with
  | zero =>
    rw [accProbe]
    split
    · next hh =>
      have := hashed_spec hv hd chn c hc cache hok hh
      rw [Nat.sub_zero] at this
      exact this
    · exact lookUp_spec hv chn c hc cache hok
  | succ d ih =>
    rw [accProbe]
    split
    · next hh => exact hashed_spec hv hd chn c hc cache hok hh
    · exact ih

theorem accRun_spec (hv : g.lay.Valid g.dim) (hd : 0 < g.dim) : ∀ (qs : List (Nat × Coord)) (cache : Cache), CacheOk g cache →
    (∀ q ∈ qs, q.2.length = g.dim) → accRun g cache qs = qs.mapM fun q => probeValue g true q.1 q.2 := by
  intro qs
  induction qs with
  | nil => intro cache _ _; rfl
  | cons q qs ih =>
    intro cache hok hq
    have h := accProbe_spec hv hd q.1 q.2 (hq q (by simp)) cache hok (cache.length - 1)
    rw [accRun, List.mapM_cons, ← h.1]
    cases hr : accProbe g q.1 q.2 cache (cache.length - 1) with
    | none => rfl
    | some r =>
      simp only [Option.bind_some, Option.map_some]
      rw [ih r.1 (h.2 r hr).1 fun x hx => hq x (by simp [hx])]
      show _ = (some r.2).bind _
      rw [Option.bind_some]
      cases List.mapM (fun q => probeValue g true q.1 q.2) qs <;> rfl

end Verif.Grid
