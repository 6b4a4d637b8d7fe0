import Verif.Model.MaxFlow

/-!
The search for an augmenting path: helper lemmas.
-/
namespace Verif.MaxFlow

variable {g : Net} {once : Bool} {top : Int} {vals : Nat → Int} {s t : Nat} {k k' : K} {r : Nat} {stale : Bool}

@[simp] theorem upd_same {α : Type} (f : Nat → α) (i : Nat) (x : α) : upd f i x i = x := by simp [upd]

theorem upd_ne {α : Type} (f : Nat → α) {i j : Nat} (x : α) (h : j ≠ i) : upd f i x j = f j := by simp [upd, h]

/-- The matrix is well formed: row boundaries ascend, columns are in range, no pair occurs twice, and with
an entry the entry for the opposite direction is stored. -/
structure Ok (g : Net) : Prop where
  mono : ∀ u < g.n, g.ptr u ≤ g.ptr (u + 1)
  range : ∀ u < g.n, ∀ i ∈ g.row u, g.ind i < g.n
  inj : ∀ u < g.n, ∀ i ∈ g.row u, ∀ j ∈ g.row u, g.ind i = g.ind j → i = j
  symm : ∀ u < g.n, ∀ i ∈ g.row u, ∃ j ∈ g.row (g.ind i), g.ind j = u

theorem mem_row {u i : Nat} : i ∈ g.row u ↔ g.ptr u ≤ i ∧ i < g.ptr (u + 1) := by
  unfold Net.row
  rw [List.mem_range'_1]
  omega

/-! ## Steps as a relation -/

inductive Step (g : Net) (once : Bool) (vals : Nat → Int) (t : Nat) (k : K) (r : Nat) (stale : Bool) : K → Prop
  | out (h : g.n ≤ r) : Step g once vals t k r stale k
  | idle (hr : r < g.n) (h : k.pc r = .done) : Step g once vals t k r stale k
  | skip (hr : r < g.n) (h : k.pc r = .start) (hf : k.mem.front r = false) :
    Step g once vals t k r stale { k with pc := upd k.pc r .done }
  | enter (hr : r < g.n) (h : k.pc r = .start) (hf : k.mem.front r = true) :
    Step g once vals t k r stale { k with pc := upd k.pc r .clear }
  | clear (hr : r < g.n) (h : k.pc r = .clear) :
    Step g once vals t k r stale
      { k with mem := { k.mem with front := upd k.mem.front r false }, pc := upd k.pc r (.loop (g.ptr r)) }
  | next (hr : r < g.n) (i : Nat) (h : k.pc r = .loop i) (hi : i < g.ptr (r + 1))
      (hc : vals i ≤ 0 ∨ k.mem.visited (g.ind i) = true) :
    Step g once vals t k r stale { k with pc := upd k.pc r (.loop (i + 1)) }
  | claim (hr : r < g.n) (i : Nat) (h : k.pc r = .loop i) (hi : i < g.ptr (r + 1)) (hv : 0 < vals i)
      (hn : g.ind i < g.n) (hc : k.mem.visited (g.ind i) = false) :
    Step g once vals t k r stale
      { k with mem := { k.mem with visited := upd k.mem.visited (g.ind i) true }, pc := upd k.pc r (.front i) }
  | stop (hr : r < g.n) (i : Nat) (h : k.pc r = .loop i) (hi : ¬ i < g.ptr (r + 1)) :
    Step g once vals t k r stale { k with pc := upd k.pc r .done }
  | front (hr : r < g.n) (i : Nat) (h : k.pc r = .front i) :
    Step g once vals t k r stale
      { k with mem := { k.mem with front := upd k.mem.front (g.ind i) true }, pc := upd k.pc r (.par i) }
  | par (hr : r < g.n) (i : Nat) (h : k.pc r = .par i) :
    Step g once vals t k r stale
      { k with mem := { k.mem with parent := upd k.mem.parent (g.ind i) (some r) }, pc := upd k.pc r (.cmp i) }
  | low (hr : r < g.n) (i : Nat) (h : k.pc r = .cmp i) (hc : vals i < k.read r stale) :
    Step g once vals t k r stale { k with pc := upd k.pc r (.put i (vals i)) }
  | high (hr : r < g.n) (i : Nat) (h : k.pc r = .cmp i) (hc : k.read r stale ≤ vals i) :
    Step g once vals t k r stale { k with pc := upd k.pc r (.sel i (k.read r stale)) }
  | sel (hr : r < g.n) (i : Nat) (x : Int) (h : k.pc r = .sel i x) :
    Step g once vals t k r stale { k with pc := upd k.pc r (.put i (if once then x else k.read r stale)) }
  | put (hr : r < g.n) (i : Nat) (x : Int) (h : k.pc r = .put i x) :
    Step g once vals t k r stale
      { k with mem := { k.mem with pf := upd k.mem.pf (g.ind i) x }, pc := upd k.pc r (.sink i) }
  | sink (hr : r < g.n) (i : Nat) (h : k.pc r = .sink i) :
    Step g once vals t k r stale
      { k with mem := { k.mem with found := k.mem.found || g.ind i == t }, pc := upd k.pc r (.loop (i + 1)) }

theorem step_rel (h : step g once vals t k r stale = some k') : Step g once vals t k r stale k' := by
  unfold step at h
  split at h
  · next hr => cases h; exact .out hr
  next hr =>
  have hr : r < g.n := by omega
  split at h
  · next e =>
    cases hf : k.mem.front r
    · simp only [hf] at h; cases h; exact .skip hr e hf
    · simp only [hf, if_true] at h; cases h; exact .enter hr e hf
  · next e => cases h; exact .clear hr e
  · next i e =>
    split at h
    · next hi =>
      split at h
      · next hv => cases h; exact .next hr i e hi (.inl hv)
      · next hv =>
        split at h
        · cases h
        · next hn =>
          split at h
          · next hc => cases h; exact .next hr i e hi (.inr hc)
          · next hc => cases h; exact .claim hr i e hi (by omega) (by omega) (by simpa using hc)
    · next hi => cases h; exact .stop hr i e hi
  · next i e => cases h; exact .front hr i e
  · next i e => cases h; exact .par hr i e
  · next i e =>
    split at h
    · next hc => cases h; exact .low hr i e hc
    · next hc => cases h; exact .high hr i e (by omega)
  · next i x e => cases h; exact .sel hr i x e
  · next i x e => cases h; exact .put hr i x e
  · next i e => cases h; exact .sink hr i e
  · next e => cases h; exact .idle hr e

/-! ## The invariant of the kernel -/

/-- The entry the task works on. -/
def Pc.entry : Pc → Option Nat
  | .front i | .par i | .cmp i | .sel i _ | .put i _ | .sink i => some i
  | _ => none

/-- The entry whose end was claimed and has no flow yet. -/
def Pc.pend : Pc → Option Nat
  | .front i | .par i | .cmp i | .sel i _ | .put i _ => some i
  | _ => none

/-- As `pend`, with the parent set. -/
def Pc.pend' : Pc → Option Nat
  | .cmp i | .sel i _ | .put i _ => some i
  | _ => none

/-- A path to `v` along parents. -/
inductive Chain (g : Net) (top : Int) (vals : Nat → Int) (s : Nat) (m : Search) : Nat → List Nat → Prop
  | base (h : m.pf s = top) (hp : m.parent s = none) : Chain g top vals s m s [s]
  | cons {p v : Nat} {l : List Nat} (h : Chain g top vals s m p l) (hv : v ∉ l) (hp : m.parent v = some p)
      (i : Nat) (hi : i ∈ g.row p) (he : g.ind i = v) (hc : m.pf v ≤ vals i) (hle : m.pf v ≤ m.pf p)
      (h0 : 0 < m.pf v) (hpn : p < g.n) (hvn : v < g.n) : Chain g top vals s m v (v :: l)

theorem Chain.congr {m m' : Search} {v : Nat} {l : List Nat} (h : Chain g top vals s m v l)
    (hp : ∀ u ∈ l, m'.parent u = m.parent u) (hf : ∀ u ∈ l, m'.pf u = m.pf u) : Chain g top vals s m' v l := by
  induction h with
  | base h h' => exact .base ((hf s List.mem_cons_self).trans h) ((hp s List.mem_cons_self).trans h')
  | @cons p v l h hv hpar i hi he hc hle h0 hpn hvn ih =>
    have hpl : p ∈ l := by cases h <;> exact List.mem_cons_self
    have e1 := hf v List.mem_cons_self
    have e2 := hf p (List.mem_cons_of_mem _ hpl)
    refine .cons (ih (fun u hu => hp u (List.mem_cons_of_mem _ hu)) fun u hu => hf u (List.mem_cons_of_mem _ hu))
      hv ((hp v List.mem_cons_self).trans hpar) i hi he ?_ ?_ ?_ hpn hvn
    · rw [e1]; exact hc
    · rw [e1, e2]; exact hle
    · rw [e1]; exact h0

theorem Chain.pos {m : Search} {v : Nat} {l : List Nat} (h : Chain g top vals s m v l) (ht : 0 < top) :
    ∀ u ∈ l, 0 < m.pf u := by
  induction h with
  | base h _ => intro u hu; rw [List.mem_singleton.1 hu, h]; exact ht
  | cons h hv _ _ _ _ _ _ h0 _ _ ih =>
    intro u hu
    rcases List.mem_cons.1 hu with rfl | hu
    · exact h0
    · exact ih u hu

structure Inv (g : Net) (top : Int) (vals : Nat → Int) (s : Nat) (k : K) : Prop where
  entry : ∀ r < g.n, ∀ i, (k.pc r).entry = some i → i ∈ g.row r ∧ 0 < vals i
  loop : ∀ r < g.n, ∀ i, k.pc r = .loop i → g.ptr r ≤ i
  pend : ∀ r < g.n, ∀ i, (k.pc r).pend = some i → k.mem.visited (g.ind i) = true ∧ k.mem.pf (g.ind i) = 0
  excl : ∀ r < g.n, ∀ r' < g.n, ∀ i i', (k.pc r).pend = some i → (k.pc r').pend = some i' → g.ind i = g.ind i' → r = r'
  par : ∀ r < g.n, ∀ i, (k.pc r).pend' = some i → k.mem.parent (g.ind i) = some r
  sel : ∀ r < g.n, ∀ i x, k.pc r = .sel i x → x ≤ vals i ∧ 0 ≤ x ∧ (x = 0 ∨ x = k.mem.pf r)
  put : ∀ r < g.n, ∀ i x, k.pc r = .put i x → x ≤ vals i ∧ 0 ≤ x ∧ x ≤ k.mem.pf r
  vis : ∀ v, k.mem.pf v ≠ 0 → k.mem.visited v = true
  nonneg : ∀ v, 0 ≤ k.mem.pf v
  old : ∀ v, k.old v = 0 ∨ k.old v = k.mem.pf v
  chain : ∀ v, k.mem.pf v ≠ 0 → ∃ l, Chain g top vals s k.mem v l

theorem pend_entry {p : Pc} {i : Nat} (h : p.pend = some i) : p.entry = some i := by
  cases p <;> simp_all [Pc.pend, Pc.entry]

theorem pend'_pend {p : Pc} {i : Nat} (h : p.pend' = some i) : p.pend = some i := by
  cases p <;> simp_all [Pc.pend, Pc.pend']

theorem Inv.read (h : Inv g top vals s k) : k.read r stale = 0 ∨ k.read r stale = k.mem.pf r := by
  unfold K.read
  split
  · exact h.old r
  · exact .inr rfl

theorem Inv.read_le (h : Inv g top vals s k) : 0 ≤ k.read r stale ∧ k.read r stale ≤ k.mem.pf r := by
  have := h.nonneg r
  rcases h.read (r := r) (stale := stale) with e | e <;> omega

/-- A task moves on without touching memory. -/
theorem Inv.move (h : Inv g top vals s k) {p : Pc} (hr : r < g.n)
    (he : ∀ i, p.entry = some i → i ∈ g.row r ∧ 0 < vals i) (hl : ∀ i, p = .loop i → g.ptr r ≤ i)
    (hp : ∀ i, p.pend = some i → (k.pc r).pend = some i) (hp' : ∀ i, p.pend' = some i → (k.pc r).pend' = some i)
    (hs : ∀ i x, p = .sel i x → x ≤ vals i ∧ 0 ≤ x ∧ (x = 0 ∨ x = k.mem.pf r))
    (hq : ∀ i x, p = .put i x → x ≤ vals i ∧ 0 ≤ x ∧ x ≤ k.mem.pf r) :
    Inv g top vals s { k with pc := upd k.pc r p } := by
  have key : ∀ q, (upd k.pc r p q).pend = none ∨ ∃ i, (upd k.pc r p q).pend = some i ∧ (k.pc q).pend = some i := by
    intro q
    by_cases e : q = r
    · subst e
      rw [upd_same]
      cases hpp : p.pend with
      | none => exact .inl rfl
      | some i => exact .inr ⟨i, rfl, hp i hpp⟩
    · rw [upd_ne _ _ e]
      cases hpp : (k.pc q).pend with
      | none => exact .inl rfl
      | some i => exact .inr ⟨i, rfl, rfl⟩
  have key' : ∀ q i, (upd k.pc r p q).pend = some i → (k.pc q).pend = some i := by
    intro q i hi
    rcases key q with e | ⟨j, e1, e2⟩
    · rw [e] at hi; cases hi
    · rw [e1] at hi; cases hi; exact e2
  refine ⟨?_, ?_, ?_, ?_, ?_, ?_, ?_, h.vis, h.nonneg, h.old, h.chain⟩
  · intro q hq i hi
    by_cases e : q = r
    · subst e; exact he i (by simpa using hi)
    · exact h.entry q hq i (by simpa [upd_ne _ _ e] using hi)
  · intro q hq i hi
    by_cases e : q = r
    · subst e; exact hl i (by simpa using hi)
    · exact h.loop q hq i (by simpa [upd_ne _ _ e] using hi)
  · intro q hq i hi; exact h.pend q hq i (key' q i hi)
  · intro q hq q' hq' i i' hi hi' e; exact h.excl q hq q' hq' i i' (key' q i hi) (key' q' i' hi') e
  · intro q hqn i hi
    by_cases e : q = r
    · subst e; exact h.par q hqn i (hp' i (by simpa using hi))
    · exact h.par q hqn i (by simpa [upd_ne _ _ e] using hi)
  · intro q hqn i x hi
    by_cases e : q = r
    · subst e; exact hs i x (by simpa using hi)
    · exact h.sel q hqn i x (by simpa [upd_ne _ _ e] using hi)
  · intro q hqn i x hi
    by_cases e : q = r
    · subst e; exact hq i x (by simpa using hi)
    · exact h.put q hqn i x (by simpa [upd_ne _ _ e] using hi)

/-- Changes of `frontier` and `isSinkFound` do not matter. -/
theorem Inv.frame (h : Inv g top vals s k) (f : Nat → Bool) (b : Bool) :
    Inv g top vals s { k with mem := { k.mem with front := f, found := b } } :=
  ⟨h.entry, h.loop, h.pend, h.excl, h.par, h.sel, h.put, h.vis, h.nonneg, h.old, fun v hv => by
    obtain ⟨l, hl⟩ := h.chain v hv
    exact ⟨l, hl.congr (fun _ _ => rfl) fun _ _ => rfl⟩⟩

theorem Inv.step (h : Inv g top vals s k) (hg : Ok g) (ht : 0 < top) (hs : Step g once vals t k r stale k')
    (hx : ∀ i x, k.pc r = .sel i x → once = true ∨ k.read r stale = x) : Inv g top vals s k' := by
  cases hs with
  | out _ => exact h
  | idle _ _ => exact h
  | skip hr e hf =>
    exact h.move hr (by simp [Pc.entry]) (by simp) (by simp [Pc.pend]) (by simp [Pc.pend']) (by simp) (by simp)
  | enter hr e hf =>
    exact h.move hr (by simp [Pc.entry]) (by simp) (by simp [Pc.pend]) (by simp [Pc.pend']) (by simp) (by simp)
  | clear hr e =>
    exact (h.move (p := .loop (g.ptr r)) hr (by simp [Pc.entry]) (by simp) (by simp [Pc.pend]) (by simp [Pc.pend'])
      (by simp) (by simp)).frame _ _
  | next hr i e hi hc =>
    have := h.loop r hr i e
    exact h.move hr (by simp [Pc.entry]) (by simp; omega) (by simp [Pc.pend]) (by simp [Pc.pend']) (by simp) (by simp)
  | stop hr i e hi =>
    exact h.move hr (by simp [Pc.entry]) (by simp) (by simp [Pc.pend]) (by simp [Pc.pend']) (by simp) (by simp)
  | front hr i e =>
    have he := h.entry r hr i (by rw [e]; rfl)
    exact (h.move (p := .par i) hr (by simp [Pc.entry]; exact he) (by simp) (by simp [Pc.pend, e]) (by simp [Pc.pend'])
      (by simp) (by simp)).frame _ _
  | sink hr i e =>
    have he := h.entry r hr i (by rw [e]; rfl)
    have := (mem_row.1 he.1).1
    exact (h.move (p := .loop (i + 1)) hr (by simp [Pc.entry]) (by simp; omega) (by simp [Pc.pend]) (by simp [Pc.pend'])
      (by simp) (by simp)).frame _ _
  | low hr i e hc =>
    have he := h.entry r hr i (by rw [e]; rfl)
    have hrl := h.read_le (r := r) (stale := stale)
    exact h.move hr (by simp [Pc.entry]; exact he) (by simp) (by simp [Pc.pend, e]) (by simp [Pc.pend', e])
      (by simp) (by simp only [Pc.put.injEq]; rintro j x ⟨rfl, rfl⟩; omega)
  | high hr i e hc =>
    have he := h.entry r hr i (by rw [e]; rfl)
    have hrl := h.read_le (r := r) (stale := stale)
    have hrr := h.read (r := r) (stale := stale)
    exact h.move hr (by simp [Pc.entry]; exact he) (by simp) (by simp [Pc.pend, e]) (by simp [Pc.pend', e])
      (by simp only [Pc.sel.injEq]; rintro j x ⟨rfl, rfl⟩; exact ⟨hc, hrl.1, hrr⟩) (by simp)
  | sel hr i x e =>
    have he := h.entry r hr i (by rw [e]; rfl)
    have hse := h.sel r hr i x e
    have hnn := h.nonneg r
    have : (if once then x else k.read r stale) = x := by
      rcases hx i x e with a | a
      · simp [a]
      · rw [a]; simp
    rw [this]
    exact h.move hr (by simp [Pc.entry]; exact he) (by simp) (by simp [Pc.pend, e]) (by simp [Pc.pend', e])
      (by simp) (by simp only [Pc.put.injEq]; rintro j y ⟨rfl, rfl⟩; omega)
  | claim hr i e hi hv hn hc =>
    have hl := h.loop r hr i e
    have hpe : ∀ q < g.n, ∀ j, (upd k.pc r (.front i) q).pend = some j → q ≠ r → (k.pc q).pend = some j := by
      intro q _ j hj hne; simpa [upd_ne _ _ hne] using hj
    have hpf : k.mem.pf (g.ind i) = 0 := by
      refine Decidable.byContradiction fun h0 => ?_
      have := h.vis _ h0
      rw [hc] at this; cases this
    refine ⟨?_, ?_, ?_, ?_, ?_, ?_, ?_, ?_, h.nonneg, h.old, ?_⟩
    · intro q hq j hj
      by_cases e' : q = r
      · subst e'
        simp only [upd_same, Pc.entry] at hj
        cases hj
        exact ⟨mem_row.2 ⟨hl, hi⟩, hv⟩
      · exact h.entry q hq j (by simpa [upd_ne _ _ e'] using hj)
    · intro q hq j hj
      by_cases e' : q = r
      · subst e'; simp at hj
      · exact h.loop q hq j (by simpa [upd_ne _ _ e'] using hj)
    · intro q hq j hj
      by_cases e' : q = r
      · subst e'
        simp only [upd_same, Pc.pend] at hj
        cases hj
        exact ⟨upd_same _ _ _, hpf⟩
      · obtain ⟨a, b⟩ := h.pend q hq j (hpe q hq j hj e')
        refine ⟨?_, b⟩
        simp only [upd]; split
        · rfl
        · exact a
    · intro q hq q' hq' j j' hj hj' ee
      by_cases e1 : q = r
      · by_cases e2 : q' = r
        · omega
        · subst e1
          simp only [upd_same, Pc.pend] at hj
          cases hj
          have := (h.pend q' hq' j' (hpe q' hq' j' hj' e2)).1
          rw [← ee, hc] at this; cases this
      · by_cases e2 : q' = r
        · subst e2
          simp only [upd_same, Pc.pend] at hj'
          cases hj'
          have := (h.pend q hq j (hpe q hq j hj e1)).1
          rw [ee, hc] at this; cases this
        · exact h.excl q hq q' hq' j j' (hpe q hq j hj e1) (hpe q' hq' j' hj' e2) ee
    · intro q hq j hj
      by_cases e' : q = r
      · subst e'; simp [Pc.pend'] at hj
      · exact h.par q hq j (by simpa [upd_ne _ _ e'] using hj)
    · intro q hq j x hj
      by_cases e' : q = r
      · subst e'; simp at hj
      · exact h.sel q hq j x (by simpa [upd_ne _ _ e'] using hj)
    · intro q hq j x hj
      by_cases e' : q = r
      · subst e'; simp at hj
      · exact h.put q hq j x (by simpa [upd_ne _ _ e'] using hj)
    · intro v hv
      simp only [upd]; split
      · rfl
      · exact h.vis v hv
    · intro v hv
      obtain ⟨l, hl⟩ := h.chain v hv
      exact ⟨l, hl.congr (fun _ _ => rfl) fun _ _ => rfl⟩
  | par hr i e =>
    have he := h.entry r hr i (by rw [e]; rfl)
    have hpd := h.pend r hr i (by rw [e]; rfl)
    refine ⟨?_, ?_, ?_, ?_, ?_, ?_, ?_, h.vis, h.nonneg, h.old, ?_⟩
    · intro q hq j hj
      by_cases e' : q = r
      · subst e'
        simp only [upd_same, Pc.entry] at hj
        cases hj; exact he
      · exact h.entry q hq j (by simpa [upd_ne _ _ e'] using hj)
    · intro q hq j hj
      by_cases e' : q = r
      · subst e'; simp at hj
      · exact h.loop q hq j (by simpa [upd_ne _ _ e'] using hj)
    · intro q hq j hj
      by_cases e' : q = r
      · subst e'
        simp only [upd_same, Pc.pend] at hj
        cases hj; exact hpd
      · exact h.pend q hq j (by simpa [upd_ne _ _ e'] using hj)
    · intro q hq q' hq' j j' hj hj' ee
      have f : ∀ q j, (upd k.pc r (.cmp i) q).pend = some j → (k.pc q).pend = some j := by
        intro q j hj
        by_cases e' : q = r
        · subst e'
          simp only [upd_same, Pc.pend] at hj
          cases hj; rw [e]; rfl
        · simpa [upd_ne _ _ e'] using hj
      exact h.excl q hq q' hq' j j' (f q j hj) (f q' j' hj') ee
    · intro q hq j hj
      by_cases e' : q = r
      · subst e'
        simp only [upd_same, Pc.pend'] at hj
        cases hj
        exact upd_same _ _ _
      · have hj : (k.pc q).pend' = some j := by simpa [upd_ne _ _ e'] using hj
        have hne : g.ind j ≠ g.ind i := by
          intro ee
          exact e' (h.excl q hq r hr j i (pend'_pend hj) (by rw [e]; rfl) ee)
        show upd k.mem.parent (g.ind i) (some r) (g.ind j) = some q
        rw [upd_ne _ _ hne]
        exact h.par q hq j hj
    · intro q hq j x hj
      by_cases e' : q = r
      · subst e'; simp at hj
      · exact h.sel q hq j x (by simpa [upd_ne _ _ e'] using hj)
    · intro q hq j x hj
      by_cases e' : q = r
      · subst e'; simp at hj
      · exact h.put q hq j x (by simpa [upd_ne _ _ e'] using hj)
    · intro v hv
      obtain ⟨l, hl⟩ := h.chain v hv
      refine ⟨l, hl.congr (fun u hu => ?_) fun _ _ => rfl⟩
      have := hl.pos ht u hu
      exact upd_ne _ _ fun ee => by rw [ee, hpd.2] at this; omega
  | put hr i x e =>
    have he := h.entry r hr i (by rw [e]; rfl)
    have hpd := h.pend r hr i (by rw [e]; rfl)
    have hpt := h.put r hr i x e
    have hpar := h.par r hr i (by rw [e]; rfl)
    have hind : g.ind i < g.n := hg.range r hr i he.1
    -- other values stay
    have keep : ∀ v, k.mem.pf v ≠ 0 → upd k.mem.pf (g.ind i) x v = k.mem.pf v := by
      intro v hv
      exact upd_ne _ _ fun ee => hv (ee ▸ hpd.2)
    have keep' : ∀ v, v ≠ g.ind i → upd k.mem.pf (g.ind i) x v = k.mem.pf v := fun v hv => upd_ne _ _ hv
    have up : ∀ v, k.mem.pf v ≤ upd k.mem.pf (g.ind i) x v := by
      intro v
      by_cases e' : v = g.ind i
      · rw [e', upd_same, hpd.2]; exact hpt.2.1
      · rw [keep' v e']; omega
    have f : ∀ q j, (upd k.pc r (.sink i) q).pend = some j → q ≠ r ∧ (k.pc q).pend = some j := by
      intro q j hj
      by_cases e' : q = r
      · subst e'; simp [Pc.pend] at hj
      · exact ⟨e', by simpa [upd_ne _ _ e'] using hj⟩
    refine ⟨?_, ?_, ?_, ?_, ?_, ?_, ?_, ?_, ?_, ?_, ?_⟩
    · intro q hq j hj
      by_cases e' : q = r
      · subst e'
        simp only [upd_same, Pc.entry] at hj
        cases hj; exact he
      · exact h.entry q hq j (by simpa [upd_ne _ _ e'] using hj)
    · intro q hq j hj
      by_cases e' : q = r
      · subst e'; simp at hj
      · exact h.loop q hq j (by simpa [upd_ne _ _ e'] using hj)
    · intro q hq j hj
      obtain ⟨e', hj⟩ := f q j hj
      obtain ⟨a, b⟩ := h.pend q hq j hj
      refine ⟨a, ?_⟩
      have hne : g.ind j ≠ g.ind i := fun ee => e' (h.excl q hq r hr j i hj (by rw [e]; rfl) ee)
      exact (keep' _ hne).trans b
    · intro q hq q' hq' j j' hj hj' ee
      exact h.excl q hq q' hq' j j' (f q j hj).2 (f q' j' hj').2 ee
    · intro q hq j hj
      by_cases e' : q = r
      · subst e'; simp [Pc.pend'] at hj
      · exact h.par q hq j (by simpa [upd_ne _ _ e'] using hj)
    · intro q hq j y hj
      by_cases e' : q = r
      · subst e'; simp at hj
      · obtain ⟨a, b, c⟩ := h.sel q hq j y (by simpa [upd_ne _ _ e'] using hj)
        refine ⟨a, b, ?_⟩
        by_cases h0 : k.mem.pf q = 0
        · left; omega
        · show y = 0 ∨ y = upd k.mem.pf (g.ind i) x q
          rw [keep q h0]; exact c
    · intro q hq j y hj
      by_cases e' : q = r
      · subst e'; simp at hj
      · obtain ⟨a, b, c⟩ := h.put q hq j y (by simpa [upd_ne _ _ e'] using hj)
        exact ⟨a, b, Int.le_trans c (up q)⟩
    · intro v hv
      by_cases e' : v = g.ind i
      · rw [e']; exact hpd.1
      · exact h.vis v (by rw [← keep' v e']; exact hv)
    · intro v; exact Int.le_trans (h.nonneg v) (up v)
    · intro v
      show k.old v = 0 ∨ k.old v = upd k.mem.pf (g.ind i) x v
      by_cases h0 : k.mem.pf v = 0
      · left; rcases h.old v with a | a <;> omega
      · rw [keep v h0]; exact h.old v
    · intro v hv
      have lift : ∀ u l, Chain g top vals s k.mem u l →
          Chain g top vals s { k.mem with pf := upd k.mem.pf (g.ind i) x } u l := by
        intro u l hl
        refine hl.congr (fun _ _ => rfl) fun w hw => keep w ?_
        have := hl.pos ht w hw
        omega
      by_cases e' : v = g.ind i
      · subst e'
        change upd k.mem.pf (g.ind i) x (g.ind i) ≠ 0 at hv
        rw [upd_same] at hv
        have hpr : k.mem.pf r ≠ 0 := by omega
        obtain ⟨l, hl⟩ := h.chain r hpr
        have hnot : g.ind i ∉ l := by
          intro hm
          have := hl.pos ht _ hm
          omega
        refine ⟨g.ind i :: l, .cons (lift r l hl) hnot hpar i he.1 rfl ?_ ?_ ?_ hr hind⟩
        · show upd k.mem.pf (g.ind i) x (g.ind i) ≤ vals i
          rw [upd_same]; exact hpt.1
        · show upd k.mem.pf (g.ind i) x (g.ind i) ≤ upd k.mem.pf (g.ind i) x r
          rw [upd_same, keep r hpr]; exact hpt.2.2
        · show 0 < upd k.mem.pf (g.ind i) x (g.ind i)
          rw [upd_same]; omega
      · obtain ⟨l, hl⟩ := h.chain v (by rw [← keep' v e']; exact hv)
        exact ⟨l, lift v l hl⟩

end Verif.MaxFlow
