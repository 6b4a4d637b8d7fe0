import Verif.Proof.GridShuffle

/-! Lemmas for `reorder`: it throws if there are more masks than blocks. -/
namespace Verif.Grid

/-- There is an outcome, and each is an exception. -/
def Throws {α : Type} (m : Run α) : Prop := (∃ o, m o) ∧ ∀ o, m o → o = .throw

theorem Throws.throwing {α : Type} : Throws (throwing : Run α) := ⟨⟨_, rfl⟩, fun _ h => h⟩

theorem Throws.bind {α β : Type} {m : Run α} {f : α → Run β} (h : Throws m) : Throws (m >>= f) := by
  obtain ⟨⟨o, ho⟩, hm⟩ := h
  have ht : m .throw := by rw [← hm o ho]; exact ho
  refine ⟨⟨.throw, Or.inr (Or.inl ⟨ht, rfl⟩)⟩, ?_⟩
  rintro o' (⟨b, hb, _⟩ | ⟨_, h2⟩ | ⟨h1, _⟩)
  · have := hm _ hb; cases this
  · exact h2
  · have := hm _ h1; cases this

theorem Good.throws {α β : Type} {m : Run α} {f : α → Run β} {P : α → Prop} (h : Good m P) (hf : ∀ a, P a → Throws (f a)) :
    Throws (m >>= f) := by
  obtain ⟨⟨o, ho⟩, hm⟩ := h
  obtain ⟨a, rfl, ha⟩ := hm o ho
  obtain ⟨⟨o', ho'⟩, _⟩ := hf a ha
  refine ⟨⟨o', Or.inl ⟨a, ho, ho'⟩⟩, ?_⟩
  rintro o'' (⟨b, hb, hb'⟩ | ⟨h1, _⟩ | ⟨h1, _⟩)
  · obtain ⟨_, e, pb⟩ := hm _ hb
    cases e
    exact (hf b pb).2 _ hb'
  · obtain ⟨_, e, _⟩ := hm _ h1; cases e
  · obtain ⟨_, e, _⟩ := hm _ h1; cases e

variable {V : Type} {lay : Layout} {dim i : Nat} {l : Level V} {g : Grid V}

theorem level_throws (h : LevelOk lay dim i l) (hv : lay.Valid dim) (hd : 0 < dim) (hi : i < lay.levels) (hx : ¬ l.Exact) {π σ : Nat → Nat}
    (hb : Bij l.tab.cnt π σ) (scatter : Bool) : Throws (l.reorder scatter (mapOf scatter l.tab.cnt π σ)) := by
  refine Good.throws (table_reorder (h.tab hv hd hi) hb scatter) fun tab _ => ?_
  refine Good.throws (tiles_reorder hb scatter l.tiles h.tiles) fun tiles _ => ?_
  by_cases h1 : l.valueMask.data.length = l.tab.cnt
  · refine Good.throws (vec_reorder hb scatter l.valueMask h1 (by have := h.valuesCap; have := h.values; omega)) fun vm _ => ?_
    have h2 : l.childMask.data.length ≠ l.tab.cnt := fun h2 => hx ⟨h1, h2⟩
    refine Throws.bind ?_
    rw [Vec.reorder, if_pos (by rw [mapOf_length]; exact Ne.symm h2)]
    exact Throws.throwing
  · refine Throws.bind ?_
    rw [Vec.reorder, if_pos (by rw [mapOf_length]; exact Ne.symm h1)]
    exact Throws.throwing

theorem below_throws : ∀ (i : Nat) (g : Grid V), i < g.lay.levels → Consistent g → (∃ j < i, ∃ l, g.levels[j]? = some l ∧ ¬ l.Exact) →
    Throws (reorderBelow g i) := by
  intro i
  induction i with
  | zero => rintro g _ _ ⟨j, hj, _⟩; omega
  | succ i ih =>
    rintro g hi hc ⟨j, hj, a, ha, hx⟩
    obtain ⟨l, hl⟩ := hc.get hi
    obtain ⟨lc, hlc⟩ := hc.get (show i < g.lay.levels by omega)
    have hL := hc.level _ _ hl
    have hLc := hc.level _ _ hlc
    have hlink := hc.link _ _ _ hl hlc
    rw [reorderBelow]
    refine Good.throws (P := fun x => x = l) (Good.ofOption ⟨l, hl, rfl⟩) fun x e => ?_
    subst x
    refine Good.throws (histogram_spec hL hlink.offsets) fun l1 h1 => ?_
    obtain ⟨⟨offs, rfl⟩, hlen, hoffs⟩ := h1
    have hs1 : Shuffled l { l with childOffset := offs } := shuffled_offsets hlen
    have hL1 := hL.offsets offs
    refine Good.throws (P := fun x => x = lc) (Good.ofOption ⟨lc, hlc, rfl⟩) fun x e => ?_
    subst x
    obtain ⟨π, σ, hb, hloc⟩ := locate_spec hc.valid hc.dim hi hL1 hLc (hlink.shuffled_parent hs1) hoffs
    refine Good.throws (P := fun x => x = mapOf true lc.tab.cnt π σ) (Good.ofOption ⟨_, ?_, rfl⟩) fun x e => ?_
    · rw [mapM_some _ σ _ fun b hb' => hloc b (List.mem_range.1 hb')]
      rfl
    subst x
    by_cases hlx : lc.Exact
    · have hji : j ≠ i := by
        rintro rfl
        rw [hlc] at ha; cases ha
        exact hx hlx
      refine Good.throws (level_reorder hLc hc.valid hc.dim (by omega) hlx hb true) fun lc1 hp => ?_
      obtain ⟨hperm, hLc1⟩ := hp
      have hc1 := hc.set hl hs1 hL1
      have hlc' : (g.setLevel (i + 1) { l with childOffset := offs }).levels[i]? = some lc := by
        rw [getElem?_setLevel_ne (by omega)]; exact hlc
      refine ih _ (by show i < g.lay.levels; omega) (hc1.set hlc' hperm.shuffled hLc1) ⟨j, by omega, a, ?_, hx⟩
      rw [getElem?_setLevel_ne (by omega), getElem?_setLevel_ne (by omega)]
      exact ha
    · exact Throws.bind (level_throws hLc hc.valid hc.dim (by omega) hlx hb true)

end Verif.Grid
