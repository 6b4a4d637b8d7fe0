import Verif.Spec.TileVector
/-! Helper lemmas for `TileVector`. -/
namespace Verif.TileVector

variable {N α : Type}

theorem addr_mod {L : Nat} (nch c i : Nat) : addr L nch c i % L = i % L := by
  unfold addr
  rw [Nat.mul_comm, Nat.mul_add_mod, Nat.mod_mod]

theorem addr_div {L : Nat} (hL : 0 < L) (nch c i : Nat) : addr L nch c i / L = i / L * nch + c := by
  unfold addr
  rw [Nat.mul_comm, Nat.mul_add_div hL, Nat.div_eq_of_lt (Nat.mod_lt _ hL), Nat.add_zero]

theorem addr_inj {L nch c c' i i' : Nat} (hL : 0 < L) (hc : c < nch) (hc' : c' < nch)
    (h : addr L nch c i = addr L nch c' i') : c = c' ∧ i = i' := by
  have h1 := congrArg (· % L) h
  have h2 := congrArg (· / L) h
  simp only [addr_mod, addr_div hL] at h1 h2
  have h3 : c = c' := by
    have := congrArg (· % nch) h2
    simpa [Nat.mul_comm (_ / L) nch, Nat.mul_add_mod, Nat.mod_eq_of_lt hc, Nat.mod_eq_of_lt hc'] using this
  subst h3
  refine ⟨rfl, ?_⟩
  have h4 : i / L = i' / L := by
    have := Nat.add_right_cancel h2
    exact Nat.eq_of_mul_eq_mul_right (Nat.lt_of_le_of_lt (Nat.zero_le _) hc) this
  rw [← Nat.div_add_mod i L, ← Nat.div_add_mod i' L, h1, h4]

theorem tiles_iff {L : Nat} (hL : 0 < L) (n k : Nat) : countTiles L n ≤ k ↔ n ≤ k * L := by
  unfold countTiles
  rw [← Nat.lt_succ_iff, Nat.div_lt_iff_lt_mul hL, Nat.succ_mul]
  omega

theorem isTiles {L : Nat} (hL : 0 < L) (n k : Nat) : IsTiles L n k ↔ k = countTiles L n := by
  constructor
  · rintro ⟨h1, h2⟩
    exact Nat.le_antisymm (h2 _ ((tiles_iff hL _ _).1 (Nat.le_refl _))) ((tiles_iff hL _ _).2 h1)
  · rintro rfl
    exact ⟨(tiles_iff hL _ _).1 (Nat.le_refl _), fun k' h => (tiles_iff hL _ _).2 h⟩

theorem tile_lt {L : Nat} (hL : 0 < L) {n i : Nat} (h : i < n) : i / L < countTiles L n := by
  apply Nat.lt_of_not_le
  intro hle
  have := (tiles_iff hL _ _).1 hle
  have h2 := Nat.div_mul_le_self i L
  omega

theorem addr_lt' {L nch c i k : Nat} (hL : 0 < L) (hc : c < nch) (hi : i / L < k) :
    addr L nch c i < k * L * nch := by
  have h : addr L nch c i / L < k * nch := by
    rw [addr_div hL]
    calc i / L * nch + c < i / L * nch + nch := Nat.add_lt_add_left hc _
      _ = (i / L + 1) * nch := by rw [Nat.succ_mul]
      _ ≤ k * nch := Nat.mul_le_mul_right _ hi
  have := (Nat.div_lt_iff_lt_mul hL).1 h
  rwa [Nat.mul_right_comm] at this

theorem addr_lt {L nch c i n : Nat} (hL : 0 < L) (hc : c < nch) (hi : i < n) :
    addr L nch c i < countTiles L n * L * nch := addr_lt' hL hc (tile_lt hL hi)

theorem tileAddr_eq (L nch c k l : Nat) (hl : l < L) :
    tileAddr L nch c k l = addr L nch c (k * L + l) := by
  have hL : 0 < L := Nat.lt_of_le_of_lt (Nat.zero_le _) hl
  unfold tileAddr addr
  rw [Nat.mul_comm k L, Nat.mul_add_div hL, Nat.div_eq_of_lt hl, Nat.mul_add_mod, Nat.mod_eq_of_lt hl,
    Nat.add_zero, Nat.add_mul, Nat.mul_comm L k, Nat.mul_right_comm, Nat.add_assoc]

theorem addr3_eq (L nch c k l : Nat) (hl : l < L) :
    addr3 L nch c k l = addr L nch c (k * L + l) := by
  rw [← tileAddr_eq _ _ _ _ _ hl]
  unfold tileAddr addr3
  rw [Nat.add_mul, Nat.mul_right_comm, Nat.add_assoc]

/-! ### loops -/

theorem writes_spec {K : Type} (rd : K → Option (Option α)) (ad : K → Nat) :
    ∀ (ks : List K) (b : List (Option α)),
      (∀ k ∈ ks, ad k < b.length ∧ ∃ x, rd k = some x) →
      ∃ b', writes ks rd ad b = some b' ∧ b'.length = b.length ∧
        (∀ p : Nat, (∀ k ∈ ks, ad k ≠ p) → b'[p]? = b[p]?) ∧
        (∀ k ∈ ks, (∀ k' ∈ ks, ad k' = ad k → rd k' = rd k) → b'[ad k]? = rd k) := by
  intro ks
  induction ks with
  | nil => intro b _; exact ⟨b, rfl, rfl, fun _ _ => rfl, fun k hk => absurd hk (by simp)⟩
  | cons k ks ih =>
    intro b h
    obtain ⟨hk, x, hx⟩ := h k (by simp)
    obtain ⟨b', h1, h2, h3, h4⟩ := ih (b.set (ad k) x) (by
      intro k' hk'
      have := h k' (by simp [hk'])
      simpa using this)
    refine ⟨b', ?_, by simpa using h2, ?_, ?_⟩
    · simp only [writes, List.foldlM_cons, hx, put, hk, if_true, Option.bind_eq_bind, Option.bind_some]
      exact h1
    · intro p hp
      rw [h3 p (fun k' hk' => hp k' (by simp [hk']))]
      rw [List.getElem?_set_ne (hp k (by simp))]
    · intro k' hk' hu
      by_cases hin : ∃ k'' ∈ ks, ad k'' = ad k'
      · obtain ⟨k'', hk'', he⟩ := hin
        have := h4 k'' hk'' (by
          intro k3 hk3 he3
          rw [hu k3 (by simp [hk3]) (he3.trans he), hu k'' (by simp [hk'']) he])
        rw [← he, this, hu k'' (by simp [hk'']) he]
      · have hne : ∀ k'' ∈ ks, ad k'' ≠ ad k' := fun k'' hk'' he => hin ⟨k'', hk'', he⟩
        have hkk : k' = k := by
          rcases List.mem_cons.1 hk' with h | h
          · exact h
          · exact absurd rfl (hne k' h)
        subst hkk
        rw [h3 _ hne, List.getElem?_set_self hk, hx]

theorem mem_cells {order : List Nat} {nch : Nat} {k : Nat × Nat} :
    k ∈ cells order nch ↔ k.1 < nch ∧ k.2 ∈ order := by
  obtain ⟨c, i⟩ := k
  simp only [cells, List.mem_flatMap, List.mem_map, List.mem_range, Prod.mk.injEq]
  constructor
  · rintro ⟨i', h1, c', h2, rfl, rfl⟩; exact ⟨h2, h1⟩
  · rintro ⟨h1, h2⟩; exact ⟨i, h2, c, h1, rfl, rfl⟩

/-! ### tags -/

theorem foldl_total (tags : List (N × Nat)) (n : Nat) :
    tags.foldl (fun cnt t => cnt + t.2) n = n + (tags.map (·.2)).sum := by
  induction tags generalizing n with
  | nil => simp
  | cons t ts ih => simp [ih, Nat.add_assoc]

theorem total_eq (tags : List (N × Nat)) : total tags = (tags.map (·.2)).sum := by
  simp [total, foldl_total]

theorem offsets_get (tags : List (N × Nat)) (cur p : Nat) (h : p < tags.length) :
    (offsets cur tags)[p]? = some (cur + firstCol tags p) := by
  induction tags generalizing cur p with
  | nil => simp at h
  | cons t ts ih =>
    cases p with
    | zero => simp [offsets, firstCol]
    | succ p =>
      simp only [offsets, List.getElem?_cons_succ]
      rw [ih _ _ (by simpa using h)]
      simp [firstCol, Nat.add_assoc]

theorem offsets_length (tags : List (N × Nat)) (cur : Nat) : (offsets cur tags).length = tags.length := by
  induction tags generalizing cur with
  | nil => rfl
  | cons t ts ih => simp [offsets, ih]

theorem isProp_nil (nm : N) (p sz : Nat) : ¬ IsProp [] nm p sz := fun h => by simpa using h.1

theorem isProp_cons_ne {t : N × Nat} {ts : List (N × Nat)} {nm : N} (h : t.1 ≠ nm) {p sz : Nat} :
    IsProp (t :: ts) nm p sz ↔ ∃ q, p = q + 1 ∧ IsProp ts nm q sz := by
  constructor
  · rintro ⟨h1, h2⟩
    cases p with
    | zero => simp at h1; exact absurd (by rw [h1]) h
    | succ p =>
      exact ⟨p, rfl, by simpa using h1, fun q s hq => by simpa using h2 (q + 1) s (by omega)⟩
  · rintro ⟨q, rfl, h1, h2⟩
    refine ⟨by simpa using h1, fun q' s hq' => ?_⟩
    cases q' with
    | zero => simp; intro e; exact absurd (by rw [e]) h
    | succ q' => simpa using h2 q' s (by omega)

theorem isProp_cons_eq {t : N × Nat} {ts : List (N × Nat)} {nm : N} (h : t.1 = nm) {p sz : Nat} :
    IsProp (t :: ts) nm p sz ↔ p = 0 ∧ sz = t.2 := by
  obtain ⟨m, s⟩ := t
  simp only at h
  subst h
  constructor
  · rintro ⟨h1, h2⟩
    cases p with
    | zero => simp at h1; exact ⟨rfl, h1.symm⟩
    | succ p => exact absurd (by simp) (h2 0 s (by omega))
  · rintro ⟨rfl, rfl⟩
    exact ⟨by simp, fun q s hq => by omega⟩

theorem isProp_exists [DecidableEq N] (tags : List (N × Nat)) (nm : N) :
    (∃ p sz, IsProp tags nm p sz) ↔ nm ∈ tags.map (·.1) := by
  induction tags with
  | nil => simp [isProp_nil]
  | cons t ts ih =>
    by_cases h : t.1 = nm
    · simp [isProp_cons_eq h, h]
    · simp only [isProp_cons_ne h]
      rw [List.map_cons, List.mem_cons, ← ih]
      constructor
      · rintro ⟨p, sz, q, -, h⟩; exact Or.inr ⟨q, sz, h⟩
      · rintro (rfl | ⟨q, sz, hq⟩)
        · exact absurd rfl h
        · exact ⟨q + 1, sz, q, rfl, hq⟩

theorem isProp_unique [DecidableEq N] {tags : List (N × Nat)} {nm : N} {p p' sz sz' : Nat}
    (h : IsProp tags nm p sz) (h' : IsProp tags nm p' sz') : p = p' ∧ sz = sz' := by
  have hp : p = p' := by
    rcases Nat.lt_trichotomy p p' with hl | he | hl
    · exact absurd h.1 (h'.2 _ _ hl)
    · exact he
    · exact absurd h'.1 (h.2 _ _ hl)
  subst hp
  have := h.1.symm.trans h'.1
  simp at this
  exact ⟨rfl, this⟩

theorem hasProperty_iff [DecidableEq N] (tags : List (N × Nat)) (nm : N) :
    hasProperty nm tags = true ↔ ∃ p sz, IsProp tags nm p sz := by
  rw [isProp_exists]
  induction tags with
  | nil => simp [hasProperty]
  | cons t ts ih =>
    by_cases h : nm = t.1
    · simp [hasProperty, h]
    · simp [hasProperty, h, ih]

theorem getPropertyOffset_prop [DecidableEq N] {tags : List (N × Nat)} {nm : N} {p sz : Nat}
    (h : IsProp tags nm p sz) (cur : Nat) :
    getPropertyOffset nm cur tags = some (cur + firstCol tags p) := by
  induction tags generalizing cur p with
  | nil => exact absurd h (isProp_nil _ _ _)
  | cons t ts ih =>
    by_cases he : t.1 = nm
    · obtain ⟨rfl, rfl⟩ := (isProp_cons_eq he).1 h
      simp [getPropertyOffset, he, firstCol]
    · obtain ⟨q, rfl, hq⟩ := (isProp_cons_ne he).1 h
      simp [getPropertyOffset, Ne.symm he, firstCol, ih hq, Nat.add_assoc]

theorem getPropertyOffset_none [DecidableEq N] {tags : List (N × Nat)} {nm : N}
    (h : ¬ ∃ p sz, IsProp tags nm p sz) (cur : Nat) : getPropertyOffset nm cur tags = none := by
  rw [isProp_exists] at h
  induction tags generalizing cur with
  | nil => rfl
  | cons t ts ih =>
    simp only [List.map_cons, List.mem_cons, not_or] at h
    simp [getPropertyOffset, h.1, ih h.2]

theorem getPropertySize_prop [DecidableEq N] {tags : List (N × Nat)} {nm : N} {p sz : Nat}
    (h : IsProp tags nm p sz) : getPropertySize nm tags = sz := by
  induction tags generalizing p with
  | nil => exact absurd h (isProp_nil _ _ _)
  | cons t ts ih =>
    by_cases he : t.1 = nm
    · obtain ⟨rfl, rfl⟩ := (isProp_cons_eq he).1 h
      simp [getPropertySize, he]
    · obtain ⟨q, rfl, hq⟩ := (isProp_cons_ne he).1 h
      simp [getPropertySize, Ne.symm he, ih hq]

theorem propertyIndex_prop [DecidableEq N] {tags : List (N × Nat)} {nm : N} {p sz : Nat}
    (h : IsProp tags nm p sz) : propertyIndex nm (tags.map (·.1)) = p := by
  induction tags generalizing p with
  | nil => exact absurd h (isProp_nil _ _ _)
  | cons t ts ih =>
    by_cases he : t.1 = nm
    · obtain ⟨rfl, rfl⟩ := (isProp_cons_eq he).1 h
      simp [propertyIndex, he]
    · obtain ⟨q, rfl, hq⟩ := (isProp_cons_ne he).1 h
      simp [propertyIndex, he, ih hq]

theorem firstCol_succ {tags : List (N × Nat)} {p : Nat} {t : N × Nat} (h : tags[p]? = some t) :
    firstCol tags (p + 1) = firstCol tags p + t.2 := by
  simp [firstCol, List.take_add_one, h]

theorem firstCol_mono (tags : List (N × Nat)) {p q : Nat} (h : p ≤ q) :
    firstCol tags p ≤ firstCol tags q := by
  induction h with
  | refl => exact Nat.le_refl _
  | @step q _ ih =>
    cases hq : tags[q]? with
    | none =>
      have : tags.length ≤ q := by simpa using hq
      refine Nat.le_trans ih (Nat.le_of_eq ?_)
      simp [firstCol, List.take_of_length_le this, List.take_of_length_le (Nat.le_succ_of_le this)]
    | some t => rw [firstCol_succ hq]; exact Nat.le_trans ih (Nat.le_add_right _ _)

theorem firstCol_lt {tags : List (N × Nat)} {p c : Nat} {t : N × Nat} (h : tags[p]? = some t)
    (hc : c < t.2) : firstCol tags p + c < (tags.map (·.2)).sum := by
  have h1 := firstCol_succ h
  have h2 : firstCol tags (p + 1) ≤ firstCol tags (max tags.length (p + 1)) :=
    firstCol_mono _ (Nat.le_max_right _ _)
  have h3 : firstCol tags (max tags.length (p + 1)) = (tags.map (·.2)).sum := by
    simp [firstCol, List.take_of_length_le (Nat.le_max_left _ _)]
  omega

end Verif.TileVector
