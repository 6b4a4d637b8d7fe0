import Verif.Proof.TileVectorStep
/-! Property C29: `TileVector` cells are independent and survive structural changes. -/
namespace Verif.TileVector

variable {N α : Type}

/-- Distinct (channel, element) pairs are distinct cells, all inside the buffer allocated for the
elements. -/
theorem cells_independent {L nch n c c' i i' : Nat} (hL : 0 < L) (hc : c < nch) (hc' : c' < nch)
    (hi : i < n) (hne : (c, i) ≠ (c', i')) :
    addr L nch c i ≠ addr L nch c' i' ∧
    addr L nch c i < (ctor L [((), nch)] n : TV Unit α).buf.length := by
  refine ⟨fun h => hne ?_, ?_⟩
  · obtain ⟨rfl, rfl⟩ := addr_inj hL hc hc' h
    rfl
  · have := addr_lt hL hc hi
    simpa [ctor, total] using this

/-- The tile views and the three-index access reach the same cell as the element access. -/
theorem tile_views_agree (L nch c k l : Nat) (hl : l < L) :
    tileAddr L nch c k l = addr L nch c (k * L + l) ∧ addr3 L nch c k l = addr L nch c (k * L + l) :=
  ⟨tileAddr_eq _ _ _ _ _ hl, addr3_eq _ _ _ _ _ hl⟩

/-- The columns of the properties partition the channels: every channel belongs to exactly one
property. -/
theorem property_columns_partition (tags : List (N × Nat)) (c : Nat) (hc : c < total tags) :
    ∃ p nm sz, tags[p]? = some (nm, sz) ∧ firstCol tags p ≤ c ∧ c < firstCol tags p + sz ∧
      ∀ q nm' sz', tags[q]? = some (nm', sz') → firstCol tags q ≤ c → c < firstCol tags q + sz' →
        q = p := by
  have hex : ∀ k, c < firstCol tags k →
      ∃ p nm sz, tags[p]? = some (nm, sz) ∧ firstCol tags p ≤ c ∧ c < firstCol tags p + sz := by
    intro k
    induction k with
    | zero => intro h; simp [firstCol] at h
    | succ k ih =>
      intro h
      by_cases hk : c < firstCol tags k
      · exact ih hk
      · cases ht : tags[k]? with
        | none =>
          have hlen : tags.length ≤ k := by simpa using ht
          refine absurd ?_ hk
          simpa [firstCol, List.take_of_length_le hlen,
            List.take_of_length_le (Nat.le_succ_of_le hlen)] using h
        | some t => exact ⟨k, t.1, t.2, ht, Nat.le_of_not_lt hk, by rwa [firstCol_succ ht] at h⟩
  obtain ⟨p, nm, sz, h1, h2, h3⟩ := hex tags.length (by
    rw [total_eq] at hc
    simpa [firstCol] using hc)
  refine ⟨p, nm, sz, h1, h2, h3, ?_⟩
  intro q nm' sz' hq1 hq2 hq3
  rcases Nat.lt_trichotomy q p with h | h | h
  · have := firstCol_mono tags (Nat.succ_le_of_lt h)
    rw [firstCol_succ hq1] at this
    simp only at this
    omega
  · exact h
  · have := firstCol_mono tags (Nat.succ_le_of_lt h)
    rw [firstCol_succ h1] at this
    simp only at this
    omega

/-- After any history of calls the container shows the table of the specification, and every further
call of the documented domain runs without undefined behaviour and shows its effect, whatever the order
of the loop iterations.  Missing: copying a container without channels. -/
theorem tile_vector_refines_partial [DecidableEq N] {L : Nat} (hL : 0 < L) {zero : α} {t : TV N α}
    {a : Table N α} (h : Reach L zero t a) :
    Shows L t a ∧ ∀ op a', Handled a op → Effect L zero a op a' →
      ∃ t', step L zero t op = some t' ∧ Reach L zero t' a' ∧ Shows L t' a' := by
  have hi := reach_inv hL h
  refine ⟨shows_inv hL hi, fun op a' hh he => ?_⟩
  obtain ⟨t', h1, h2⟩ := step_spec hL hi hh he
  exact ⟨t', h1, .call op t t' a a' h hh he h1, shows_inv hL h2⟩

/-- `append_channels` throws exactly when a given tag contradicts the size of an existing or earlier
one; the container is then unchanged. -/
theorem append_rejects_iff [DecidableEq N] {L : Nat} (hL : 0 < L) {zero : α} {t : TV N α}
    {a : Table N α} (h : Reach L zero t a) {order : List Nat} {add : List (N × Nat)}
    (ho : order.Perm (List.range a.size)) :
    ∃ t' thrown, appendChannels L zero t order add = some (t', thrown) ∧
      (thrown = true ↔ Conflict a.tags add) ∧ (thrown = true → t' = t) := by
  have hi := reach_inv hL h
  by_cases hc : Conflict a.tags add
  · refine ⟨t, true, ?_, by simp [hc], fun _ => rfl⟩
    simp only [appendChannels, hi.tags, (mergeTags_spec add a.tags false).1 hc]
  · obtain ⟨t', h1, -⟩ := append_spec hL hi (zero := zero) ho hc
    exact ⟨t', false, h1, by simp [hc], by simp⟩

/-- `append_channels` keeps every value of every existing property, reached by its name, and new
properties are zero. -/
theorem append_keeps_properties [DecidableEq N] {L : Nat} (hL : 0 < L) {zero : α} {t t' : TV N α}
    {a : Table N α} (h : Reach L zero t a) {order : List Nat} {add : List (N × Nat)}
    (ho : order.Perm (List.range a.size))
    (ha : appendChannels L zero t order add = some (t', false)) :
    (∀ nm p sz c i x, IsProp t.tags nm p sz → c < sz → i < t.size →
      getNamed L t nm c i = some (some x) → getNamed L t' nm c i = some (some x)) ∧
    (∀ nm sz, (nm, sz) ∈ add → (¬ ∃ p s, IsProp t.tags nm p s) →
      ∀ c i, c < getPropertySize nm t'.tags → i < t.size →
        getNamed L t' nm c i = some (some zero)) := by
  have hi := reach_inv hL h
  have hnc : ¬ Conflict a.tags add := by
    intro hc
    simp only [appendChannels, hi.tags, (mergeTags_spec add a.tags false).1 hc] at ha
    simp at ha
  -- the table of the actual contents
  let A : Table N α := ⟨a.tags, a.size, fun c i => (t.buf[addr L a.cols c i]?).getD none⟩
  have hcols : A.cols = a.cols := rfl
  have hA : Inv L t A := by
    refine ⟨hi.tags, hi.size, hi.nch, hi.names, hi.sizes, hi.offs, hi.buf, hi.cap, ?_⟩
    intro c i x hc hi' hx
    have hlt := inv_addr hL hi hc hi'
    change (t.buf[addr L a.cols c i]?).getD none = some x at hx
    rw [List.getElem?_eq_getElem hlt] at hx
    change t.buf[addr L a.cols c i]? = _
    rw [List.getElem?_eq_getElem hlt]
    exact congrArg some hx
  obtain ⟨t'', h1, h2⟩ := append_spec hL hA (zero := zero) ho hnc
  rw [ha] at h1
  cases h1
  obtain ⟨ext, hext⟩ := merged_prefix a.tags add
  have hsh := shows_inv hL h2
  constructor
  · intro nm p sz c i x hp hc hi' hx
    rw [hi.tags] at hp
    rw [hi.size] at hi'
    have hp' : IsProp (merged a.tags add) nm p sz := by rw [hext]; exact isProp_append_left hp
    have hplt : p < a.tags.length := (List.getElem?_eq_some_iff.1 hp.1).1
    have hfc : firstCol (merged a.tags add) p = firstCol a.tags p := by
      simp only [firstCol, hext]
      rw [List.take_append_of_le_length (Nat.le_of_lt hplt)]
    obtain ⟨y, hy1, hy2⟩ := hsh.named nm p sz c i hp' hc hi'
    rw [hy1]
    refine congrArg some (hy2 x ?_)
    have hlt : firstCol a.tags p + c < a.cols := firstCol_lt hp.1 hc
    change (if firstCol (merged a.tags add) p + c < a.cols then
      (t.buf[addr L a.cols (firstCol (merged a.tags add) p + c) i]?).getD none else some zero) = some x
    rw [hfc, if_pos hlt]
    simp only [getNamed, off_prop hi hp, Option.bind_eq_bind, Option.bind_some, get, hi.nch] at hx
    rw [hx]
    rfl
  · intro nm sz hmem hnew c i hc hi'
    rw [hi.tags] at hnew
    rw [hi.size] at hi'
    have hin : nm ∈ (merged a.tags add).map (·.1) := by
      have key : ∀ (add tags : List (N × Nat)), (nm ∈ tags.map (·.1) ∨ nm ∈ add.map (·.1)) →
          nm ∈ (merged tags add).map (·.1) := by
        intro add
        induction add with
        | nil => intro tags h; simpa [merged] using h
        | cons e rest ih =>
          intro tags h
          simp only [merged, List.foldl_cons]
          by_cases he : e.1 ∈ tags.map (·.1)
          · rw [if_pos he]
            apply ih
            rcases h with h | h
            · exact Or.inl h
            · rcases List.mem_cons.1 h with h | h
              · exact Or.inl (h ▸ he)
              · exact Or.inr h
          · rw [if_neg he]
            apply ih
            rcases h with h | h
            · left; rw [List.map_append]; exact List.mem_append_left _ h
            · rcases List.mem_cons.1 h with h | h
              · left; rw [h]; simp
              · exact Or.inr h
      exact key _ _ (Or.inr (List.mem_map.2 ⟨_, hmem, rfl⟩))
    obtain ⟨p, s, hp⟩ := (isProp_exists _ _).2 hin
    have hsz := (hsh.prop nm p s hp).2.1
    rw [hsz] at hc
    have hple : a.tags.length ≤ p := by
      apply Nat.le_of_not_lt
      intro hlt
      apply hnew
      refine (isProp_exists _ _).2 ?_
      have := hp.1
      rw [hext, List.getElem?_append_left hlt] at this
      exact List.mem_map.2 ⟨_, List.mem_of_getElem? this, rfl⟩
    have hfc : a.cols ≤ firstCol (merged a.tags add) p := by
      have := firstCol_mono (merged a.tags add) hple
      have he : firstCol (merged a.tags add) a.tags.length = a.cols := by
        simp [firstCol, hext, Table.cols]
      omega
    obtain ⟨y, hy1, hy2⟩ := hsh.named nm p s c i hp hc hi'
    rw [hy1]
    refine congrArg some (hy2 zero ?_)
    change (if firstCol (merged a.tags add) p + c < a.cols then _ else some zero) = some zero
    rw [if_neg (by omega)]

/-- A named write is seen by the read of that component and by no read of another (property, component,
element). -/
theorem named_write_isolated [DecidableEq N] {L : Nat} (hL : 0 < L) {zero : α} {t t' : TV N α}
    {a : Table N α} (h : Reach L zero t a) {nm nm' : N} {p sz p' sz' c c' i i' : Nat} {x : α}
    (hp : IsProp a.tags nm p sz) (hp' : IsProp a.tags nm' p' sz') (hc : c < sz) (hc' : c' < sz')
    (hi : i < a.size) (hs : setNamed L t nm c i x = some t') :
    getNamed L t' nm' c' i' =
      if nm' = nm ∧ c' = c ∧ i' = i then some (some x) else getNamed L t nm' c' i' := by
  have hinv := reach_inv hL h
  have hlt : firstCol a.tags p + c < a.cols := firstCol_lt hp.1 hc
  have hlt' : firstCol a.tags p' + c' < a.cols := firstCol_lt hp'.1 hc'
  have hin := inv_addr hL hinv hlt hi
  simp only [setNamed, off_prop hinv hp, Option.bind_eq_bind, Option.bind_some, TileVector.set, put,
    hinv.nch, if_pos hin] at hs
  cases hs
  simp only [getNamed, off_prop hinv hp', Option.bind_eq_bind, Option.bind_some, get]
  by_cases he : nm' = nm ∧ c' = c ∧ i' = i
  · obtain ⟨rfl, rfl, rfl⟩ := he
    obtain ⟨rfl, rfl⟩ := isProp_unique hp hp'
    simp only [and_self, if_true, hinv.nch]
    exact List.getElem?_set_self hin
  · rw [if_neg he, hinv.nch, List.getElem?_set_ne]
    intro e
    obtain ⟨e1, e2⟩ := addr_inj hL hlt hlt' e
    obtain ⟨r, _, _, -, -, -, hr⟩ := property_columns_partition a.tags (firstCol a.tags p + c)
      (by rw [total_eq]; exact hlt)
    have q1 := hr p nm sz hp.1 (Nat.le_add_right _ _) (Nat.add_lt_add_left hc _)
    have q2 := hr p' nm' sz' hp'.1 (by omega) (by omega)
    have hpp : p = p' := q1.trans q2.symm
    subst hpp
    have hn := hp.1.symm.trans hp'.1
    simp at hn
    exact he ⟨hn.1.symm, by omega, e2.symm⟩

/-- Copying a container without channels divides by zero (`capacity()` divides by the number of
channels). -/
theorem copy_no_channels_violated :
    ∃ (t : TV Nat Nat) (a a' : Table Nat Nat), Reach 8 0 t a ∧ Effect 8 0 a .copy a' ∧
      step 8 0 t .copy = none :=
  ⟨_, _, _, .ctor [] 4, .copy, by decide⟩

/-! The hypotheses are satisfiable: a container of 3 elements with properties 0 (1 channel) and 1
(2 channels), one write, then a third property is appended (iterations in the order 2, 0, 1). -/

example : ∃ (t : TV Nat Nat) (a : Table Nat Nat), Reach 2 0 t a ∧ a.cols = 5 ∧
    getNamed 2 t 1 1 2 = some (some 7) ∧ getNamed 2 t 5 1 0 = some (some 0) := by
  refine ⟨_, _, .call (.append [2, 0, 1] [(1, 2), (5, 2)]) _ _ _ _
    (.call (.setNamed 1 1 2 7) _ _ _ _ (.ctor [(0, 1), (1, 2)] 3) trivial
      (.setNamed 1 1 2 1 2 7 ⟨rfl, ?_⟩ (by decide) (by decide)) rfl) trivial
      (.append _ _ (by decide) ?_) rfl, by decide, by decide, by decide⟩
  · intro q s hq
    have : q = 0 := by omega
    subst this
    simp
  · rintro ⟨nm, p, s, s', hm, hp, hne⟩
    have h1 := List.mem_of_getElem? hp.1
    simp only [List.mem_cons, Prod.mk.injEq, List.not_mem_nil, or_false, List.mem_append] at hm h1
    omega

end Verif.TileVector
