import Verif.Proof.TileVector
/-! Every call of `TileVector` implements its effect on the table. -/
namespace Verif.TileVector

set_option linter.unusedSectionVars false

variable {N α : Type} [DecidableEq N]

/-- Representation invariant. -/
structure Inv (L : Nat) (t : TV N α) (a : Table N α) : Prop where
  tags : t.tags = a.tags
  size : t.size = a.size
  nch : t.nch = a.cols
  names : t.names = a.tags.map (·.1)
  sizes : t.sizes = a.tags.map (·.2)
  offs : t.offs = offsets 0 a.tags
  buf : t.bufSize = countTiles L a.size * L * a.cols
  cap : t.bufSize ≤ t.buf.length
  cell : ∀ c i x, c < a.cols → i < a.size → a.val c i = some x →
    t.buf[addr L a.cols c i]? = some (some x)

theorem ctor_inv (L : Nat) (tags : List (N × Nat)) (n : Nat) :
    Inv L (ctor L tags n : TV N α) ⟨tags, n, fun _ _ => none⟩ where
  tags := rfl
  size := rfl
  nch := total_eq _
  names := rfl
  sizes := rfl
  offs := rfl
  buf := by simp [ctor, total_eq, Table.cols]
  cap := by simp [ctor]
  cell := by intro c i x _ _ h; cases h

/-- A container with the members of a new one and other cells. -/
theorem ctor_inv' {L : Nat} {a : Table N α} {b : List (Option α)}
    (hb : b.length = countTiles L a.size * L * a.cols)
    (hc : ∀ c i x, c < a.cols → i < a.size → a.val c i = some x →
      b[addr L a.cols c i]? = some (some x)) :
    Inv L { (ctor L a.tags a.size : TV N α) with buf := b } a where
  tags := rfl
  size := rfl
  nch := total_eq _
  names := rfl
  sizes := rfl
  offs := rfl
  buf := by simp [ctor, total_eq, Table.cols]
  cap := by simp [ctor, total_eq, hb, Table.cols]
  cell := hc

theorem inv_cells {L : Nat} {t : TV N α} {a : Table N α} (h : Inv L t a) {b : List (Option α)}
    {val : Nat → Nat → Option α} (hb : b.length = t.buf.length)
    (hc : ∀ c i x, c < a.cols → i < a.size → val c i = some x →
      b[addr L a.cols c i]? = some (some x)) :
    Inv L { t with buf := b } { a with val := val } :=
  ⟨h.tags, h.size, h.nch, h.names, h.sizes, h.offs, h.buf, by rw [hb]; exact h.cap, hc⟩

theorem inv_addr {L : Nat} (hL : 0 < L) {t : TV N α} {a : Table N α} (h : Inv L t a) {c i : Nat}
    (hc : c < a.cols) (hi : i < a.size) : addr L a.cols c i < t.buf.length :=
  Nat.lt_of_lt_of_le (addr_lt hL hc hi) (h.buf ▸ h.cap)

theorem set_spec {L : Nat} (hL : 0 < L) {t : TV N α} {a : Table N α} (h : Inv L t a) {c i : Nat}
    (x : α) (hc : c < a.cols) (hi : i < a.size) :
    ∃ t', set L t c i x = some t' ∧
      Inv L t' { a with val := fun c' i' => if c' = c ∧ i' = i then some x else a.val c' i' } := by
  have hlt := inv_addr hL h hc hi
  refine ⟨{ t with buf := t.buf.set (addr L a.cols c i) (some x) }, ?_, inv_cells h (by simp) ?_⟩
  · unfold TileVector.set put
    rw [h.nch, if_pos hlt]
    rfl
  intro c' i' y hc' hi' hy
  by_cases he : c' = c ∧ i' = i
  · rw [if_pos he] at hy
    obtain ⟨rfl, rfl⟩ := he
    cases hy
    exact List.getElem?_set_self hlt
  · rw [if_neg he] at hy
    rw [List.getElem?_set_ne]
    · exact h.cell c' i' y hc' hi' hy
    · intro e
      have := addr_inj hL hc hc' e
      exact he ⟨this.1.symm, this.2.symm⟩

theorem off_prop {L : Nat} {t : TV N α} {a : Table N α} (h : Inv L t a) {nm : N} {p sz : Nat}
    (hp : IsProp a.tags nm p sz) :
    t.offs[propertyIndex nm t.names]? = some (firstCol a.tags p) := by
  have hlt : p < a.tags.length := (List.getElem?_eq_some_iff.1 hp.1).1
  rw [h.offs, h.names, propertyIndex_prop hp, offsets_get _ _ _ hlt, Nat.zero_add]

theorem newCapacity_ge (n cap al : Nat) : n ≤ newCapacity n cap al := by
  unfold newCapacity
  refine Nat.le_trans ?_ (Nat.le_add_right _ _)
  split <;> omega

theorem resize_spec {L : Nat} (hL : 0 < L) {t : TV N α} {a : Table N α} (h : Inv L t a) (n : Nat) :
    ∃ t', resize L t n = some t' ∧
      Inv L t' { a with size := n, val := fun c i => if i < a.size then a.val c i else none } := by
  have hold : ∀ c i x, c < a.cols → i < n → (if i < a.size then a.val c i else none) = some x →
      t.buf[addr L a.cols c i]? = some (some x) ∧ addr L a.cols c i < t.bufSize := by
    intro c i x hc _ hx
    by_cases hi : i < a.size
    · rw [if_pos hi] at hx
      exact ⟨h.cell c i x hc hi hx, by rw [h.buf]; exact addr_lt hL hc hi⟩
    · rw [if_neg hi] at hx; cases hx
  unfold resize
  simp only [h.nch]
  by_cases h1 : countTiles L n * L * a.cols < t.bufSize
  · simp only [if_pos h1]
    exact ⟨_, rfl, h.tags, rfl, rfl, h.names, h.sizes, h.offs, rfl,
      Nat.le_trans (Nat.le_of_lt h1) h.cap, fun c i x hc hi hx => (hold c i x hc hi hx).1⟩
  · simp only [if_neg h1]
    by_cases h2 : countTiles L n * L * a.cols > t.bufSize
    · simp only [if_pos h2]
      by_cases h3 : countTiles L n * L * a.cols > t.buf.length
      · simp only [if_pos h3]
        have hc0 : 0 < a.cols := by
          rcases Nat.eq_zero_or_pos a.cols with h0 | h0
          · rw [h0] at h3; simp at h3
          · exact h0
        have hal : L * a.cols ≠ 0 := Nat.ne_of_gt (Nat.mul_pos hL hc0)
        simp only [if_neg hal]
        refine ⟨_, rfl, h.tags, rfl, rfl, h.names, h.sizes, h.offs, rfl, ?_, ?_⟩
        · have hg := newCapacity_ge (countTiles L n * L * a.cols) t.buf.length (L * a.cols)
          simp only [List.length_append, List.length_take, List.length_replicate]
          have := h.cap
          omega
        · intro c i x hc hi hx
          obtain ⟨e1, e2⟩ := hold c i x hc hi hx
          have := h.cap
          change (t.buf.take t.bufSize ++ _)[addr L a.cols c i]? = _
          rw [List.getElem?_append_left (by simp; omega), List.getElem?_take_of_lt e2]
          exact e1
      · simp only [if_neg h3]
        exact ⟨_, rfl, h.tags, rfl, rfl, h.names, h.sizes, h.offs, rfl, by simpa using h3,
          fun c i x hc hi hx => (hold c i x hc hi hx).1⟩
    · simp only [if_neg h2]
      have he : t.bufSize = countTiles L n * L * a.cols := by omega
      exact ⟨_, rfl, h.tags, rfl, rfl, h.names, h.sizes, h.offs, he, h.cap,
        fun c i x hc hi hx => (hold c i x hc hi hx).1⟩

theorem clear_spec {L : Nat} {t : TV N α} {a : Table N α} (h : Inv L t a) :
    Inv L (clear L t) { a with size := 0 } := by
  have := ctor_inv (α := α) L a.tags 0
  rw [clear, h.tags]
  exact ⟨rfl, rfl, this.nch, rfl, rfl, rfl, this.buf, this.cap, fun c i x _ hi => absurd hi (by simp)⟩

theorem copy_spec {L : Nat} (hL : 0 < L) {t : TV N α} {a : Table N α} (h : Inv L t a)
    (h0 : a.cols ≠ 0) : ∃ t', copyOf t = some t' ∧ Inv L t' a := by
  have hcap := h.cap
  have hcell : ∀ b : List (Option α), (∀ p, p < t.bufSize → b[p]? = t.buf[p]?) →
      ∀ c i x, c < a.cols → i < a.size → a.val c i = some x →
        b[addr L a.cols c i]? = some (some x) := by
    intro b hb c i x hc hi hx
    rw [hb _ (by rw [h.buf]; exact addr_lt hL hc hi)]
    exact h.cell c i x hc hi hx
  have hsel : ∀ p, p < t.bufSize →
      (t.buf.take t.bufSize ++ List.replicate (t.buf.length - t.bufSize) none)[p]? = t.buf[p]? := by
    intro p hp
    rw [List.getElem?_append_left (by simp; omega), List.getElem?_take_of_lt hp]
  unfold copyOf
  rw [if_neg (by rw [h.nch]; exact h0)]
  have hm : t.nch * (t.buf.length / t.nch) ≤ t.buf.length := Nat.mul_div_le _ _
  by_cases h1 : t.buf.length / t.nch > 0
  · simp only [if_pos h1, if_pos hm]
    refine ⟨_, rfl, inv_cells h ?_ (hcell _ ?_)⟩
    · simp; omega
    · intro p hp
      by_cases hq : p < t.nch * (t.buf.length / t.nch)
      · rw [List.getElem?_append_left (by simp; omega), List.getElem?_take_of_lt hq]
      · rw [List.getElem?_append_right (by simp; omega)]
        simp only [List.length_take, List.getElem?_drop]
        rw [Nat.min_eq_left hm, Nat.add_sub_cancel' (Nat.le_of_not_lt hq)]
        exact hsel p hp
  · simp only [if_neg h1]
    exact ⟨_, rfl, inv_cells h (by simp; omega) (hcell _ hsel)⟩

theorem clone_spec {L : Nat} (hL : 0 < L) {t : TV N α} {a : Table N α} (h : Inv L t a) :
    ∃ t', clone L t = some t' ∧ Inv L t' a := by
  have hn : t.nch * (countTiles L a.size * L) = countTiles L a.size * L * a.cols := by
    rw [h.nch, Nat.mul_comm]
  have hr : (ctor L a.tags a.size : TV N α).buf.length = countTiles L a.size * L * a.cols := by
    simp [ctor, total_eq, Table.cols]
  have hb := h.buf
  have hc := h.cap
  unfold clone
  simp only [h.tags, h.size, hn, hr]
  rw [if_pos ⟨by omega, Nat.le_refl _⟩]
  refine ⟨_, rfl, ctor_inv' (by simp [hr]; omega) ?_⟩
  intro c i x hc' hi hx
  have hlt := addr_lt hL hc' hi
  rw [List.getElem?_append_left (by simp; omega), List.getElem?_take_of_lt hlt]
  exact h.cell c i x hc' hi hx

theorem reset_spec {L : Nat} (hL : 0 < L) {t : TV N α} {a : Table N α} (h : Inv L t a)
    {order : List Nat} (x : α) (ho : order.Perm (List.range a.size)) :
    ∃ t', reset L t order x = some t' ∧ Inv L t' { a with val := fun _ _ => some x } := by
  obtain ⟨b, h1, h2, -, h4⟩ := writes_spec (fun _ : Nat × Nat => some (some x))
    (fun k => addr L t.nch k.1 k.2) (cells order t.nch) t.buf (by
      intro k hk
      obtain ⟨hk1, hk2⟩ := mem_cells.1 hk
      rw [ho.mem_iff, List.mem_range] at hk2
      rw [h.nch] at hk1 ⊢
      exact ⟨inv_addr hL h hk1 hk2, x, rfl⟩)
  refine ⟨_, by simp only [reset, h1, Option.bind_eq_bind, Option.bind_some]; rfl,
    inv_cells h h2 ?_⟩
  intro c i y hc hi hy
  have := h4 (c, i) (mem_cells.2 ⟨by rw [h.nch]; exact hc, ho.mem_iff.2 (List.mem_range.2 hi)⟩)
    (fun _ _ _ => rfl)
  simp only [h.nch] at this
  rw [this, hy]

/-! ### append_channels -/

theorem find_none {tags : List (N × Nat)} {nm : N} :
    tags.find? (fun t => t.1 = nm) = none ↔ nm ∉ tags.map (·.1) := by
  simp only [List.find?_eq_none, decide_eq_true_eq, List.mem_map, not_exists, not_and]

theorem find_prop {tags : List (N × Nat)} {nm : N} {t : N × Nat}
    (h : tags.find? (fun t => t.1 = nm) = some t) : ∃ p, IsProp tags nm p t.2 := by
  induction tags with
  | nil => simp at h
  | cons u us ih =>
    by_cases he : u.1 = nm
    · simp [he] at h; subst h
      exact ⟨0, (isProp_cons_eq he).2 ⟨rfl, rfl⟩⟩
    · simp [he] at h
      obtain ⟨p, hp⟩ := ih (by simpa using h)
      exact ⟨p + 1, (isProp_cons_ne he).2 ⟨p, rfl, hp⟩⟩

theorem isProp_append_left {tags add : List (N × Nat)} {nm : N} {p s : Nat}
    (h : IsProp tags nm p s) : IsProp (tags ++ add) nm p s := by
  have hp : p < tags.length := (List.getElem?_eq_some_iff.1 h.1).1
  refine ⟨by rw [List.getElem?_append_left hp]; exact h.1, fun q s' hq => ?_⟩
  rw [List.getElem?_append_left (by omega)]
  exact h.2 q s' hq

/-- Removing an entry whose name occurs before keeps all first mentions. -/
theorem isProp_drop {tags rest : List (N × Nat)} {e : N × Nat} (he : e.1 ∈ tags.map (·.1)) {nm : N}
    {s : Nat} : (∃ p, IsProp (tags ++ e :: rest) nm p s) ↔ ∃ p, IsProp (tags ++ rest) nm p s := by
  induction tags with
  | nil => simp at he
  | cons t ts ih =>
    by_cases hn : t.1 = nm
    · simp [isProp_cons_eq hn]
    · simp only [List.cons_append, isProp_cons_ne hn]
      by_cases hts : e.1 ∈ ts.map (·.1)
      · constructor
        · rintro ⟨p, q, rfl, h⟩
          obtain ⟨p', h'⟩ := (ih hts).1 ⟨q, h⟩
          exact ⟨p' + 1, p', rfl, h'⟩
        · rintro ⟨p, q, rfl, h⟩
          obtain ⟨p', h'⟩ := (ih hts).2 ⟨q, h⟩
          exact ⟨p' + 1, p', rfl, h'⟩
      · have hen : e.1 ≠ nm := by
          simp only [List.map_cons, List.mem_cons] at he
          rcases he with he | he
          · rw [he]; exact hn
          · exact absurd he hts
        have key : ∀ us : List (N × Nat), (∃ p, IsProp (us ++ e :: rest) nm p s) ↔
            ∃ p, IsProp (us ++ rest) nm p s := by
          intro us
          induction us with
          | nil =>
            simp only [List.nil_append, isProp_cons_ne hen]
            constructor
            · rintro ⟨p, q, rfl, h⟩; exact ⟨q, h⟩
            · rintro ⟨p, h⟩; exact ⟨p + 1, p, rfl, h⟩
          | cons u us ihu =>
            by_cases hu : u.1 = nm
            · simp [isProp_cons_eq hu]
            · simp only [List.cons_append, isProp_cons_ne hu]
              constructor
              · rintro ⟨p, q, rfl, h⟩
                obtain ⟨p', h'⟩ := ihu.1 ⟨q, h⟩
                exact ⟨p' + 1, p', rfl, h'⟩
              · rintro ⟨p, q, rfl, h⟩
                obtain ⟨p', h'⟩ := ihu.2 ⟨q, h⟩
                exact ⟨p' + 1, p', rfl, h'⟩
        constructor
        · rintro ⟨p, q, rfl, h⟩
          obtain ⟨p', h'⟩ := (key ts).1 ⟨q, h⟩
          exact ⟨p' + 1, p', rfl, h'⟩
        · rintro ⟨p, q, rfl, h⟩
          obtain ⟨p', h'⟩ := (key ts).2 ⟨q, h⟩
          exact ⟨p' + 1, p', rfl, h'⟩

theorem mergeTags_spec (add : List (N × Nat)) : ∀ (tags : List (N × Nat)) (m : Bool),
    (Conflict tags add → mergeTags (tags, m) add = none) ∧
    (¬ Conflict tags add → ∃ m', mergeTags (tags, m) add = some (merged tags add, m') ∧
      (m' = false → merged tags add = tags) ∧ (m = true → m' = true)) := by
  induction add with
  | nil =>
    intro tags m
    refine ⟨fun ⟨nm, p, s, s', h, _⟩ => absurd h (by simp), fun _ => ⟨m, rfl, fun _ => rfl, fun h => h⟩⟩
  | cons e rest ih =>
    intro tags m
    cases hf : tags.find? (fun t => t.1 = e.1) with
    | none =>
      have hnm := find_none.1 hf
      have hc : Conflict tags (e :: rest) ↔ Conflict (tags ++ [e]) rest := by
        have hfirst : ∃ p, IsProp (tags ++ e :: rest) e.1 p e.2 := by
          obtain ⟨p, sz, hp⟩ := (isProp_exists (tags ++ [e]) e.1).2 (by simp)
          have hmem : (e.1, sz) ∈ tags ++ [e] := List.mem_of_getElem? hp.1
          have : sz = e.2 := by
            rcases List.mem_append.1 hmem with h | h
            · exact absurd (List.mem_map.2 ⟨_, h, rfl⟩) hnm
            · simp at h; rw [← h]
          subst this
          exact ⟨p, by simpa using isProp_append_left (add := rest) hp⟩
        constructor
        · rintro ⟨nm, p, s, s', hm, hp, hne⟩
          rcases List.mem_cons.1 hm with h | h
          · subst h
            obtain ⟨p', hp'⟩ := hfirst
            exact absurd (isProp_unique hp' hp).2 hne
          · exact ⟨nm, p, s, s', h, by simpa using hp, hne⟩
        · rintro ⟨nm, p, s, s', hm, hp, hne⟩
          exact ⟨nm, p, s, s', by simp [hm], by simpa using hp, hne⟩
      have hmg : merged tags (e :: rest) = merged (tags ++ [e]) rest := by
        simp only [merged, List.foldl_cons, if_neg hnm]
      obtain ⟨i1, i2⟩ := ih (tags ++ [e]) true
      simp only [mergeTags, hf, hc, hmg]
      refine ⟨i1, fun h => ?_⟩
      obtain ⟨m', j1, -, j3⟩ := i2 h
      refine ⟨m', j1, fun hm => ?_, fun _ => j3 rfl⟩
      rw [j3 rfl] at hm
      cases hm
    | some t =>
      obtain ⟨p0, hp0⟩ := find_prop hf
      have hin : e.1 ∈ tags.map (·.1) := (isProp_exists _ _).1 ⟨p0, _, hp0⟩
      have hmg : merged tags (e :: rest) = merged tags rest := by
        simp only [merged, List.foldl_cons, if_pos hin]
      obtain ⟨i1, i2⟩ := ih tags m
      simp only [mergeTags, hf, hmg]
      by_cases hne : t.2 = e.2
      · have hc : Conflict tags (e :: rest) ↔ Conflict tags rest := by
          constructor
          · rintro ⟨nm, p, s, s', hm, hp, hs⟩
            obtain ⟨p', hp'⟩ := (isProp_drop hin).1 ⟨p, hp⟩
            rcases List.mem_cons.1 hm with h | h
            · subst h
              have := isProp_unique (isProp_append_left (add := rest) hp0) hp'
              exact absurd (hne.symm.trans this.2) hs
            · exact ⟨nm, p', s, s', h, hp', hs⟩
          · rintro ⟨nm, p, s, s', hm, hp, hs⟩
            obtain ⟨p', hp'⟩ := (isProp_drop (e := e) hin).2 ⟨p, hp⟩
            exact ⟨nm, p', s, s', by simp [hm], hp', hs⟩
        simp only [hne, ne_eq, not_true, if_false, hc]
        exact ⟨i1, i2⟩
      · have hc : Conflict tags (e :: rest) :=
          ⟨e.1, p0, e.2, t.2, by simp, isProp_append_left hp0, fun h => hne h.symm⟩
        simp only [ne_eq, hne, not_false_eq_true, if_true, hc, true_implies, not_true, false_implies,
          and_self]

theorem merged_prefix (tags add : List (N × Nat)) : ∃ ext, merged tags add = tags ++ ext := by
  induction add generalizing tags with
  | nil => exact ⟨[], by simp [merged]⟩
  | cons e rest ih =>
    simp only [merged, List.foldl_cons]
    by_cases h : e.1 ∈ tags.map (·.1)
    · rw [if_pos h]; exact ih tags
    · rw [if_neg h]
      obtain ⟨ext, hx⟩ := ih (tags ++ [e])
      refine ⟨e :: ext, ?_⟩
      unfold merged at hx
      rw [hx]; simp

theorem append_spec {L : Nat} (hL : 0 < L) {zero : α} {t : TV N α} {a : Table N α} (h : Inv L t a)
    {order : List Nat} {add : List (N × Nat)} (ho : order.Perm (List.range a.size))
    (hc : ¬ Conflict a.tags add) :
    ∃ t', appendChannels L zero t order add = some (t', false) ∧
      Inv L t' { a with
        tags := merged a.tags add
        val := fun c i => if c < a.cols then a.val c i else some zero } := by
  obtain ⟨m, hm, hsame, -⟩ := (mergeTags_spec add a.tags false).2 hc
  unfold appendChannels
  rw [h.tags, hm]
  simp only
  cases m with
  | false =>
    refine ⟨t, rfl, ?_⟩
    rw [hsame rfl]
    refine ⟨h.tags, h.size, h.nch, h.names, h.sizes, h.offs, h.buf, h.cap, ?_⟩
    intro c i x hc hi hx
    change c < a.cols at hc
    change (if c < a.cols then a.val c i else some zero) = some x at hx
    rw [if_pos hc] at hx
    exact h.cell c i x hc hi hx
  | true =>
    rw [if_neg (by simp)]
    generalize hA : ({ a with
        tags := merged a.tags add
        val := fun c i => if c < a.cols then a.val c i else some zero } : Table N α) = A
    have hAs : A.size = a.size := by rw [← hA]
    have hAt : A.tags = merged a.tags add := by rw [← hA]
    have hAv : ∀ c i, A.val c i = if c < a.cols then a.val c i else some zero := by
      intro c i; rw [← hA]
    have hle : a.cols ≤ A.cols := by
      obtain ⟨ext, hx⟩ := merged_prefix a.tags add
      simp [Table.cols, hAt, hx]
    have hnch : (ctor L A.tags A.size : TV N α).nch = A.cols := total_eq _
    have hlen : (ctor L A.tags A.size : TV N α).buf.length = countTiles L A.size * L * A.cols := by
      simp [ctor, total_eq, Table.cols]
    rw [h.size, ← hAt, ← hAs]
    obtain ⟨b, h1, h2, -, h4⟩ := writes_spec
      (fun k : Nat × Nat => if k.1 < t.nch then get L t k.1 k.2 else some (some zero))
      (fun k => addr L (ctor L A.tags A.size : TV N α).nch k.1 k.2)
      (cells order (ctor L A.tags A.size : TV N α).nch) (ctor L A.tags A.size : TV N α).buf (by
        intro k hk
        obtain ⟨hk1, hk2⟩ := mem_cells.1 hk
        rw [ho.mem_iff, List.mem_range] at hk2
        rw [hnch] at hk1 ⊢
        refine ⟨by rw [hlen, hAs]; exact addr_lt hL hk1 hk2, ?_⟩
        by_cases hs : k.1 < t.nch
        · rw [if_pos hs]
          rw [h.nch] at hs
          have := inv_addr hL h hs hk2
          exact ⟨_, by unfold get; rw [h.nch]; exact List.getElem?_eq_getElem this⟩
        · rw [if_neg hs]; exact ⟨_, rfl⟩)
    refine ⟨{ (ctor L A.tags A.size : TV N α) with buf := b }, ?_, ctor_inv' (by rw [h2, hlen]) ?_⟩
    · rw [h1]; rfl
    · intro c i x hc hi hx
      rw [hAs] at hi
      have := h4 (c, i) (mem_cells.2 ⟨by rw [hnch]; exact hc, ho.mem_iff.2 (List.mem_range.2 hi)⟩) (by
        intro k' hk' he
        rw [hnch] at he
        have := addr_inj hL (by have := (mem_cells.1 hk').1; rwa [hnch] at this) hc he
        rw [show k' = (c, i) from Prod.ext this.1 this.2])
      simp only [hnch] at this
      rw [this]
      rw [hAv] at hx
      by_cases hs : c < a.cols
      · rw [if_pos hs] at hx
        rw [if_pos (by rw [h.nch]; exact hs)]
        unfold get
        rw [h.nch]
        exact h.cell c i x hs hi hx
      · rw [if_neg hs] at hx
        rw [if_neg (by rw [h.nch]; exact hs), hx]

/-! ### reorderTiles -/

theorem divmod_lt {L : Nat} {k n : Nat} (h : k < n * L) : k / L < n := by
  rcases Nat.eq_zero_or_pos L with h0 | h0
  · subst h0; simp at h
  · exact (Nat.div_lt_iff_lt_mul h0).2 h

/-- Common part: the tiles are written at `d k`, read from `s k`. -/
theorem reorder_core {L : Nat} (hL : 0 < L) (sc : Bool) {t : TV N α} {a : Table N α} (h : Inv L t a)
    {order map : List Nat} (ho : order.Perm (List.range (map.length * L)))
    (hm : map.length = countTiles L a.size) (hj : ∀ j ∈ map, j < map.length)
    (hinj : sc = true → ∀ (k k' j : Nat), map[k]? = some j → map[k']? = some j → k = k') :
    ∃ b : List (Option α), reorderTiles L sc t order map =
        some ({ (ctor L a.tags a.size : TV N α) with buf := b }, false) ∧
      b.length = countTiles L a.size * L * a.cols ∧
      ∀ (k j c l : Nat), map[k]? = some j → l < L → c < a.cols →
        b[addr L a.cols c ((if sc then j else k) * L + l)]? =
          t.buf[addr L a.cols c ((if sc then k else j) * L + l)]? := by
  have hnch : (ctor L a.tags a.size : TV N α).nch = a.cols := total_eq _
  have hlen : (ctor L a.tags a.size : TV N α).buf.length = countTiles L a.size * L * a.cols := by
    simp [ctor, total_eq, Table.cols]
  have hcap : countTiles L a.size * L * a.cols ≤ t.buf.length := h.buf ▸ h.cap
  have hin : ∀ c k l, c < a.cols → k < map.length → l < L →
      addr L a.cols c (k * L + l) < countTiles L a.size * L * a.cols := by
    intro c k l hc hk hl
    refine addr_lt' hL hc ?_
    rw [Nat.mul_comm, Nat.mul_add_div hL, Nat.div_eq_of_lt hl]
    omega
  unfold reorderTiles
  simp only [h.size, h.tags, h.nch, hnch]
  rw [if_neg (by simp [hm])]
  obtain ⟨b, h1, h2, -, h4⟩ := writes_spec
    (fun k : Nat × Nat => (do
        let j ← map[k.2 / L]?
        t.buf[tileAddr L a.cols k.1 (if sc then k.2 / L else j) (k.2 % L)]? : Option (Option α)))
    (fun k => tileAddr L a.cols k.1
        (if sc then (map[k.2 / L]?).getD 0 else k.2 / L) (k.2 % L))
    (cells order a.cols) (ctor L a.tags a.size : TV N α).buf (by
      intro k hk
      obtain ⟨hk1, hk2⟩ := mem_cells.1 hk
      rw [ho.mem_iff, List.mem_range] at hk2
      have hq := divmod_lt hk2
      have hl := Nat.mod_lt k.2 hL
      obtain ⟨j, hjm⟩ : ∃ j, map[k.2 / L]? = some j := ⟨_, List.getElem?_eq_getElem hq⟩
      have hjl := hj j (List.mem_of_getElem? hjm)
      simp only [hjm, Option.getD_some, Option.bind_eq_bind, Option.bind_some]
      rw [tileAddr_eq _ _ _ _ _ hl, tileAddr_eq _ _ _ _ _ hl, hlen]
      have hs := hin k.1 (if sc then k.2 / L else j) (k.2 % L) hk1 (by split <;> assumption) hl
      exact ⟨hin _ _ _ hk1 (by split <;> assumption) hl,
        _, List.getElem?_eq_getElem (Nat.lt_of_lt_of_le hs hcap)⟩)
  refine ⟨b, by rw [h1]; rfl, by rw [h2, hlen], ?_⟩
  intro k j c l hk hl hc
  have hkl : k < map.length := (List.getElem?_eq_some_iff.1 hk).1
  have hd : (k * L + l) / L = k := by
    rw [Nat.mul_comm, Nat.mul_add_div hL, Nat.div_eq_of_lt hl, Nat.add_zero]
  have hmd : (k * L + l) % L = l := by
    rw [Nat.mul_comm, Nat.mul_add_mod, Nat.mod_eq_of_lt hl]
  have hmem : k * L + l < map.length * L := by
    apply Nat.lt_of_lt_of_le (Nat.add_lt_add_left hl _)
    rw [← Nat.succ_mul]
    exact Nat.mul_le_mul_right _ hkl
  have := h4 (c, k * L + l) (mem_cells.2 ⟨hc, ho.mem_iff.2 (List.mem_range.2 hmem)⟩) (by
    intro k' hk' he
    obtain ⟨hk1, hk2⟩ := mem_cells.1 hk'
    rw [ho.mem_iff, List.mem_range] at hk2
    have hq := divmod_lt hk2
    obtain ⟨j', hj'⟩ : ∃ j', map[k'.2 / L]? = some j' := ⟨_, List.getElem?_eq_getElem hq⟩
    have hl' := Nat.mod_lt k'.2 hL
    simp only [hd, hmd, hk, hj', Option.getD_some] at he
    rw [tileAddr_eq _ _ _ _ _ hl, tileAddr_eq _ _ _ _ _ hl'] at he
    obtain ⟨e1, e2⟩ := addr_inj hL hk1 hc he
    have f1 := congrArg (· / L) e2
    have f2 := congrArg (· % L) e2
    simp only [Nat.mul_comm _ L, Nat.mul_add_div hL, Nat.div_eq_of_lt hl, Nat.div_eq_of_lt hl',
      Nat.mul_add_mod, Nat.mod_eq_of_lt hl, Nat.mod_mod, Nat.add_zero] at f1 f2
    have hkk : k'.2 / L = k := by
      cases sc with
      | false => simpa using f1
      | true =>
        simp at f1
        subst f1
        exact hinj rfl _ _ _ hj' hk
    simp only [e1, hkk, f2, hd, hmd])
  simp only [hd, hmd, hk, Option.getD_some, Option.bind_eq_bind, Option.bind_some] at this
  rw [tileAddr_eq _ _ _ _ _ hl, tileAddr_eq _ _ _ _ _ hl] at this
  exact this

theorem gather_spec {L : Nat} (hL : 0 < L) {t : TV N α} {a : Table N α} (h : Inv L t a)
    {order map : List Nat} (ho : order.Perm (List.range (map.length * L)))
    (hm : map.length = countTiles L a.size) (hj : ∀ j ∈ map, j < map.length) :
    ∃ t', reorderTiles L false t order map = some (t', false) ∧
      Inv L t' { a with val := fun c i =>
          (map[i / L]?).bind fun j =>
            if j * L + i % L < a.size then a.val c (j * L + i % L) else none } := by
  obtain ⟨b, h1, h2, h3⟩ := reorder_core hL false h ho hm hj (by simp)
  refine ⟨_, h1, ctor_inv' (a := ⟨a.tags, a.size, fun c i => (map[i / L]?).bind fun j =>
    if j * L + i % L < a.size then a.val c (j * L + i % L) else none⟩) h2 ?_⟩
  intro c i x hc hi hx
  obtain ⟨j, hj', hx⟩ := Option.bind_eq_some_iff.1 hx
  by_cases hs : j * L + i % L < a.size
  · rw [if_pos hs] at hx
    have := h3 (i / L) j c (i % L) hj' (Nat.mod_lt _ hL) hc
    simp only [Bool.false_eq_true, if_false] at this
    rw [Nat.mul_comm (i / L) L, Nat.div_add_mod] at this
    simp only [Table.cols] at this ⊢
    rw [this]
    exact h.cell c _ x hc hs hx
  · rw [if_neg hs] at hx; cases hx

theorem scatter_spec {L : Nat} (hL : 0 < L) {t : TV N α} {a : Table N α} (h : Inv L t a)
    {order map : List Nat} {val : Nat → Nat → Option α}
    (ho : order.Perm (List.range (map.length * L)))
    (hm : map.length = countTiles L a.size) (hp : map.Perm (List.range map.length))
    (hv : ∀ (k j c l : Nat), map[k]? = some j → l < L →
        val c (j * L + l) = if k * L + l < a.size then a.val c (k * L + l) else none) :
    ∃ t', reorderTiles L true t order map = some (t', false) ∧ Inv L t' { a with val := val } := by
  have hnd : map.Nodup := hp.nodup_iff.2 List.nodup_range
  obtain ⟨b, h1, h2, h3⟩ := reorder_core hL true h ho hm
    (fun j hj => List.mem_range.1 (hp.mem_iff.1 hj)) (by
      intro _ k k' j hk hk'
      exact (List.getElem?_inj (List.getElem?_eq_some_iff.1 hk).1 hnd).1 (hk.trans hk'.symm))
  refine ⟨_, h1, ctor_inv' (a := { a with val := val }) h2 ?_⟩
  intro c i x hc hi hx
  have hq : i / L < map.length := by rw [hm]; exact tile_lt hL hi
  obtain ⟨k, hk⟩ : ∃ k : Nat, map[k]? = some (i / L) :=
    List.mem_iff_getElem?.1 (hp.mem_iff.2 (List.mem_range.2 hq))
  have hv' := hv k (i / L) c (i % L) hk (Nat.mod_lt _ hL)
  have := h3 k (i / L) c (i % L) hk (Nat.mod_lt _ hL) hc
  simp only [if_true] at this
  rw [Nat.mul_comm (i / L) L, Nat.div_add_mod] at this hv'
  simp only [Table.cols] at this ⊢
  rw [this]
  simp only at hx
  rw [hv'] at hx
  by_cases hs : k * L + i % L < a.size
  · rw [if_pos hs] at hx
    exact h.cell c _ x hc hs hx
  · rw [if_neg hs] at hx; cases hx

theorem step_spec {L : Nat} (hL : 0 < L) {zero : α} {t : TV N α} {a a' : Table N α} (h : Inv L t a)
    {op : Op N α} (hh : Handled a op) (he : Effect L zero a op a') :
    ∃ t', step L zero t op = some t' ∧ Inv L t' a' := by
  cases he with
  | set c i x hc hi => exact set_spec hL h x hc hi
  | setNamed nm p sz c i x hp hc hi =>
    have hlt : firstCol a.tags p + c < a.cols := firstCol_lt hp.1 hc
    obtain ⟨t', h1, h2⟩ := set_spec hL h x hlt hi
    refine ⟨t', ?_, h2⟩
    simp only [step, setNamed, off_prop h hp, Option.bind_eq_bind, Option.bind_some]
    exact h1
  | resize n => exact resize_spec hL h n
  | reset order x ho => exact reset_spec hL h x ho
  | clear => exact ⟨_, rfl, clear_spec h⟩
  | copy => exact copy_spec hL h hh
  | clone => exact clone_spec hL h
  | append order add ho hc =>
    obtain ⟨t', h1, h2⟩ := append_spec hL h (zero := zero) ho hc
    exact ⟨t', by simp [step, h1], h2⟩
  | appendRejected order add hc =>
    refine ⟨t, ?_, h⟩
    simp only [step, appendChannels, h.tags, (mergeTags_spec add a.tags false).1 hc, Option.map_some]
  | gather order map ho hm hj =>
    obtain ⟨t', h1, h2⟩ := gather_spec hL h ho ((isTiles hL _ _).1 hm) hj
    exact ⟨t', by simp [step, h1], h2⟩
  | scatter order map val ho hm hp hv =>
    obtain ⟨t', h1, h2⟩ := scatter_spec hL h ho ((isTiles hL _ _).1 hm) hp hv
    exact ⟨t', by simp [step, h1], h2⟩
  | reorderRejected sc order map hm =>
    refine ⟨t, ?_, h⟩
    rw [isTiles hL] at hm
    simp only [step, reorderTiles, h.size, ne_eq, hm, not_false_eq_true, if_true, Option.map_some]

theorem reach_inv {L : Nat} (hL : 0 < L) {zero : α} {t : TV N α} {a : Table N α}
    (h : Reach L zero t a) : Inv L t a := by
  induction h with
  | ctor tags n => exact ctor_inv L tags n
  | call op t t' a a' _ hh he hs ih =>
    obtain ⟨t'', h1, h2⟩ := step_spec hL ih hh he
    rw [hs] at h1
    cases h1
    exact h2

theorem shows_inv {L : Nat} (hL : 0 < L) {t : TV N α} {a : Table N α} (h : Inv L t a) :
    Shows L t a := by
  have hcell : ∀ c i, c < a.cols → i < a.size → ∃ y, get L t c i = some y ∧
      ∀ x, a.val c i = some x → y = some x := by
    intro c i hc hi
    have hlt := inv_addr hL h hc hi
    refine ⟨_, by unfold get; rw [h.nch]; exact List.getElem?_eq_getElem hlt, fun x hx => ?_⟩
    have := h.cell c i x hc hi hx
    rw [List.getElem?_eq_getElem hlt] at this
    exact Option.some.inj this
  refine ⟨h.size, h.nch, h.tags, ?_, ?_, ?_, hcell, ?_⟩
  · intro nm; rw [h.tags]; exact hasProperty_iff _ _
  · intro nm hn; rw [h.tags]; exact getPropertyOffset_none hn 0
  · intro nm p sz hp
    rw [h.tags, h.names, h.sizes, propertyIndex_prop hp, getPropertyOffset_prop hp 0, Nat.zero_add]
    refine ⟨rfl, getPropertySize_prop hp, ?_, ?_⟩ <;> simp [hp.1]
  · intro nm p sz c i hp hc hi
    obtain ⟨y, h1, h2⟩ := hcell (firstCol a.tags p + c) i (firstCol_lt hp.1 hc) hi
    exact ⟨y, by simp only [getNamed, off_prop h hp, Option.bind_eq_bind, Option.bind_some]; exact h1, h2⟩

end Verif.TileVector
